import Verif.Model.Study
import Verif.Model.Matrix
import Verif.Model.Options

/-!
# Writing vectors, matrices and options to a stream

Model of the operators `<<` of `Vector.hpp:467-480`, `Matrix.hpp:566-579` and `Options.cpp:35-42`.

Of a stream the text written so far and the precision are kept; the other format flags have their default values and the field width is
zero between two insertions.  Numbers are rational: there is no negative zero, infinity or "not a number".  `std::endl` is a line end.
-/

namespace EF

/-- `std::ostream`: what was written, and `precision()`. -/
structure OStream where
  text : Text
  precision : Nat
  deriving DecidableEq

/-- Insertion of a text. -/
def OStream.put (os : OStream) (t : Text) : OStream := { os with text := os.text ++ t }

/-- `std::setprecision(n)`. -/
def OStream.setPrecision (os : OStream) (n : Nat) : OStream := { os with precision := n }

/-! ## Numbers: `printf("%.{p}g")` -/

/-- The `p + 1` digits and the decimal exponent of a number that is not zero, rounded to the nearest, ties to the even one. -/
def sigParts (p : Nat) (x : ℚ) : Nat × Int :=
  let e := Int.log 10 |x|
  let m := nearestEven (|x| * 10 ^ ((p : Int) - e))
  if m = 10 ^ (p + 1) then (10 ^ p, e + 1) else (m, e)

/-- Zeros at the end are not shown. -/
def dropZeros (t : Text) : Text := (t.reverse.dropWhile (· = '0')).reverse

/-- The point is shown only with digits after it. -/
def pointed (a f : Text) : Text := a ++ (if f = [] then [] else '.' :: f)

/-- Fixed notation for exponents from `-4` to `p`, scientific notation for the others. -/
def generalForm (p m : Nat) (e : Int) : Text :=
  if -4 ≤ e ∧ e < (p + 1 : Nat) then
    if e < 0 then pointed ['0'] (dropZeros (List.replicate (-e - 1).toNat '0' ++ natText m))
    else pointed ((natText m).take (e.toNat + 1)) (dropZeros ((natText m).drop (e.toNat + 1)))
  else pointed ((natText m).take 1) (dropZeros ((natText m).drop 1)) ++ 'e' :: (if e < 0 then '-' else '+') :: pad2 e.natAbs

/-- `os << x` for a `double`: as `printf("%.{precision}g")`, where the precision 0 is taken as 1. -/
def generalText (precision : Nat) (x : ℚ) : Text :=
  if x = 0 then ['0']
  else (if x < 0 then ['-'] else []) ++ generalForm (precision - 1) (sigParts (precision - 1) x).1 (sigParts (precision - 1) x).2

/-- `std::setw(w)`: blanks on the left. -/
def padLeft (w : Nat) (t : Text) : Text := List.replicate (w - t.length) ' ' ++ t

/-- The `double` with the literal `1e-14`. -/
def tiny : ℚ := 6338253001141147 / 2 ^ 99

/-! ## Vectors and matrices -/

/-- What the operators need of the type of the entries: `fabs` and insertion with a precision. -/
structure Printed (α : Type) where
  fabs : α → ℚ
  shown : Nat → α → Text

/-- The type `double`. -/
def printDouble : Printed ℚ := ⟨fun x => |x|, generalText⟩

/-- The integer types; the precision does not matter. -/
def printInt : Printed Int := ⟨fun i => |(i : ℚ)|, fun _ i => intText i⟩

variable {α : Type}

/-- Body of the loops.  Vector.hpp:470-475, Matrix.hpp:570-575. -/
def printEntry (ty : Printed α) (x : α) (os : OStream) : OStream :=
  if ty.fabs x < tiny then
    (os.setPrecision 4).put (padLeft 12 (intText 0))
  else
    (os.setPrecision 4).put (padLeft 12 (ty.shown (os.setPrecision 4).precision x))

/-- `os << v`.  Vector.hpp:467-480. -/
def Vec.print (ty : Printed α) (v : Vec α) (os : OStream) : Res OStream :=
  forN v.size (fun i os => do
    let x ← v.get i
    let os := printEntry ty x os
    pure (if i % 8 = 7 then os.put ['\n'] else os))
    (os.put ("  [".toList ++ natText v.size ++ "]\n".toList))

/-- `os << A`.  Matrix.hpp:566-579. -/
def Mat.print (ty : Printed α) (A : Mat α) (os : OStream) : Res OStream :=
  forN A.nrows (fun i os => do
    let os ← forN A.ncols (fun j os => do
      let x ← A.get i j
      pure (printEntry ty x os)) os
    pure (os.put ['\n']))
    (os.put ("  [".toList ++ natText A.nrows ++ " x ".toList ++ natText A.ncols ++ "]  \n".toList))

/-! ## Options -/

/-- `os << v` for the alternative a variant holds; `bool` without `std::boolalpha`.  Options.cpp:38-39. -/
def OptVal.shown (precision : Nat) : OptVal ℚ → Text
  | .str t => t
  | .bool b => if b then ['1'] else ['0']
  | .int i => intText i
  | .real x => generalText precision x

/-- `os << options`; `entries` are the entries of the map in the order of the map.  Options.cpp:35-42. -/
def printOptions (entries : List (Text × OptVal ℚ)) (os : OStream) : OStream :=
  entries.foldl (fun os e =>
    ((os.put ("[EllipticForest]   ".toList ++ e.1 ++ " : ".toList)).put (e.2.shown os.precision)).put ['\n']) os

end EF
