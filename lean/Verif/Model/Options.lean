import Verif.Model.Quadtree

/-!
# Options and the command line

Model of `Options.cpp` and `InputParser.cpp`.

`std::stod` is external and becomes the parameter `stod`; what is assumed about it is `StodContract` in
`Spec/Options.lean`.  `std::stoi` is called on texts made of digits only and is written out for those.
The file system is the parameter `files` that gives the content of a file, or `none` when the file
cannot be opened.

Simplifications: a run that throws loses the map (in the C++ the entries set before the throw stay);
characters outside of ASCII, for which `isspace` and `isdigit` on a negative `char` are undefined, are
taken to be neither white space nor digits; assigning the literal `""` to the variant selects the string
alternative (the rule of C++20, which the project asks for).
-/

namespace EF

variable {K : Type}

/-- `OptionTypes`, `Options.hpp:25`: one of four alternatives; `real` is `double`. -/
inductive OptVal (K : Type) where
  | str (t : Text)
  | bool (b : Bool)
  | int (i : Int)
  | real (x : K)
  deriving DecidableEq

/-- `optionsMap`, `Options.hpp:31`: `std::map` from texts to values. -/
abbrev Options (K : Type) := Text → Option (OptVal K)

namespace Options

/-- An empty map, `Options.cpp:5`. -/
def empty : Options K := fun _ => none

/-- `optionsMap[key] = value`, and `setOption`, `Options.cpp:16-18`. -/
def set (o : Options K) (key : Text) (v : OptVal K) : Options K :=
  fun k => if k = key then some v else o k

/-- `operator[]` used to read, `Options.cpp:12-14`: a missing key is inserted with the default value of the
variant, the empty string. -/
def read (o : Options K) (key : Text) : Options K × OptVal K :=
  match o key with
  | some v => (o, v)
  | none => (o.set key (.str []), .str [])

/-- `optionExists`, `Options.cpp:31-33`. -/
def exists? (o : Options K) (key : Text) : Bool := (o key).isSome

/-- `std::get<bool>(options[key])`, as in `HPSAlgorithm.hpp:134`. -/
def getBool (o : Options K) (key : Text) : Res Bool :=
  match (o.read key).2 with
  | .bool b => pure b
  | _ => .throw .badVariant

/-! ## Values from text -/

/-- `std::isspace` in the "C" locale: space, and the codes 9 to 13. -/
def isSpace (c : Char) : Bool := c = ' ' || (9 ≤ c.toNat && c.toNat ≤ 13)

/-- `stripWhitespace`, `Options.cpp:86-88`: removes every white space character, not only at the ends. -/
def strip (t : Text) : Text := t.filter (fun c => !isSpace c)

/-- `isDouble`, `Options.cpp:106-108`. -/
def isDouble (t : Text) : Bool := t.contains '.'

/-- `isInt`, `Options.cpp:110-115`: true for the empty text. -/
def isInt (t : Text) : Bool := t.all Char.isDigit

/-- `std::stoi` on a text of digits (the only texts it is called on, `Options.cpp:101`): no digits is
`invalid_argument`, a number above the largest `int` is `out_of_range`. -/
def stoi (t : Text) : Res Int :=
  if t = [] then .throw .invalidArgument
  else
    let n : Nat := t.foldl (fun (a : Nat) c => 10 * a + (c.toNat - 48)) 0
    if n ≤ 2147483647 then pure (n : Int) else .throw .outOfRange

/-- `checkValue`, `Options.cpp:90-104`.  The last line, `return {}`, is the empty string. -/
def checkValue (stod : Text → Res K) (t : Text) : Res (OptVal K) :=
  if t = "true".toList then pure (.bool true)
  else if t = "false".toList then pure (.bool false)
  else if isDouble t then stod t >>= fun x => pure (.real x)
  else if isInt t then stoi t >>= fun i => pure (.int i)
  else pure (.str [])

/-! ## The ini file -/

/-- Space or tab, the characters trimmed in `Options.cpp:50-51`. -/
def isBlank (c : Char) : Bool := c = ' ' || c = '\t'

/-- `Options.cpp:50-51`: blanks at both ends are erased. -/
def trim (t : Text) : Text := ((t.dropWhile isBlank).reverse.dropWhile isBlank).reverse

/-- The lines `std::getline` yields, `Options.cpp:48`; `acc` holds the current line, reversed. -/
def getlines : Text → Text → List Text
  | [], [] => []
  | acc, [] => [acc.reverse]
  | acc, c :: t => if c = '\n' then acc.reverse :: getlines [] t else getlines (c :: acc) t

/-- The text before the first `=`, and the text after it, `Options.cpp:71-74`. -/
def splitEq (t : Text) : Text × Text :=
  (t.takeWhile (· ≠ '='), (t.dropWhile (· ≠ '=')).drop 1)

/-- One turn of the loop, `Options.cpp:48-81`; the flag is `read_section`. -/
def readLine (stod : Text → Res K) (section_ : Text) (s : Bool × Options K) (line : Text) :
    Res (Bool × Options K) :=
  let line := trim line
  if line = [] ∨ line.head? = some ';' then pure s
  else if line.head? = some '[' ∧ line.getLast? = some ']' then
    pure (decide ((line.drop 1).take (line.length - 2) = section_), s.2)
  else if s.1 ∧ '=' ∈ line then
    checkValue stod (strip (splitEq line).2) >>= fun v =>
      pure (s.1, s.2.set (strip (splitEq line).1) v)
  else pure s

/-- `readINIFile`, `Options.cpp:43-84`; a file that cannot be opened has no lines. -/
def readINI (stod : Text → Res K) (files : Text → Option Text) (o : Options K)
    (filename section_ : Text) : Res (Options K) :=
  (getlines [] ((files filename).getD [])).foldlM (readLine stod section_) (false, o) >>= fun s => pure s.2

/-- `setFromFile`, `Options.cpp:20-28`.  With fewer than three characters `filename.length() - 3` wraps
around and `substr` throws `out_of_range`. -/
def setFromFile (stod : Text → Res K) (files : Text → Option Text) (o : Options K) (filename : Text) :
    Res (Options K) :=
  if filename.length < 3 then .throw .outOfRange
  else if filename.drop (filename.length - 3) = "ini".toList then
    readINI stod files o filename "EllipticForest".toList
  else .throw .invalidArgument

/-! ## The command line -/

/-- One argument, `InputParser.cpp:11-36`. -/
def parseArg (stod : Text → Res K) (o : Options K) (arg : Text) : Res (Options K) :=
  if arg.head? = some '-' then
    if (arg.drop 1).head? = some '-' then
      if '=' ∈ arg.drop 2 then
        checkValue stod (splitEq (arg.drop 2)).2 >>= fun v => pure (o.set (splitEq (arg.drop 2)).1 v)
      else pure (o.set (arg.drop 2) (.str []))
    else if '=' ∈ arg.drop 1 then
      pure (o.set (splitEq (arg.drop 1)).1 (.str (splitEq (arg.drop 1)).2))
    else pure (o.set (arg.drop 1) (.str []))
  else pure o

/-- `parse`, `InputParser.cpp:9-38`, over the arguments after the program name. -/
def parse (stod : Text → Res K) (o : Options K) (args : List Text) : Res (Options K) :=
  args.foldlM (parseArg stod) o

end Options

end EF
