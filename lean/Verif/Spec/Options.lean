import Verif.Model.Options
import Mathlib.Algebra.Field.Basic
import Mathlib.Data.Nat.Digits.Defs

/-!
# What an option text denotes, and what an ini file says

Nothing here uses the functions of the parser: numerals are defined by place value, files by rendering a
list of lines.  The model is imported for the types of values and results only.
-/

namespace EF

variable {K : Type}

/-- The text consists of decimal digits. -/
def Digits (t : Text) : Prop := ∀ c ∈ t, '0' ≤ c ∧ c ≤ '9'

/-- The number written by a text of digits. -/
def digitsValue (t : Text) : Nat := Nat.ofDigits 10 (t.reverse.map (fun c => c.toNat - 48))

/-- The optional minus sign. -/
def signText (neg : Bool) : Text := if neg then ['-'] else []

/-- `t` is the integer numeral of `i`: an optional minus sign and at least one digit. -/
def IntNumeral (t : Text) (i : Int) : Prop :=
  ∃ neg ds, Digits ds ∧ ds ≠ [] ∧ t = signText neg ++ ds ∧
    i = if neg then -(digitsValue ds : Int) else (digitsValue ds : Int)

/-- `t` is the decimal numeral of `x`: an optional minus sign, digits, a point and digits, with at least
one digit in all. -/
def DecNumeral [Field K] (t : Text) (x : K) : Prop :=
  ∃ neg ds es, Digits ds ∧ Digits es ∧ ds ++ es ≠ [] ∧ t = signText neg ++ ds ++ '.' :: es ∧
    x = (if neg then -1 else 1) * ((digitsValue (ds ++ es) : K) / 10 ^ es.length)

/-- The value an option text denotes, as promised by C45. -/
inductive Denotes [Field K] : Text → OptVal K → Prop
  | isTrue : Denotes ['t', 'r', 'u', 'e'] (.bool true)
  | isFalse : Denotes ['f', 'a', 'l', 's', 'e'] (.bool false)
  | int {t i} : IntNumeral t i → Denotes t (.int i)
  | dec {t x} : DecNumeral t x → Denotes t (.real x)
  | word {t} : t ≠ ['t', 'r', 'u', 'e'] → t ≠ ['f', 'a', 'l', 's', 'e'] → (∀ i, ¬ IntNumeral t i) →
      (∀ x : K, ¬ DecNumeral t x) → Denotes t (.str t)

/-- The part of `Denotes` that the parser gets right: integers without a sign that fit an `int`,
decimals, and the two booleans. -/
inductive Supported [Field K] : Text → OptVal K → Prop
  | isTrue : Supported ['t', 'r', 'u', 'e'] (.bool true)
  | isFalse : Supported ['f', 'a', 'l', 's', 'e'] (.bool false)
  | nat {t} : Digits t → t ≠ [] → digitsValue t < 2 ^ 31 → Supported t (.int (digitsValue t))
  | dec {t x} : DecNumeral t x → Supported t (.real x)

/-- What is assumed of `std::stod`: decimal numerals are read exactly (rounding and range are not
modelled), and a text that begins with a letter other than those of `inf` and `nan` is not a number. -/
structure StodContract [Field K] (stod : Text → Res K) : Prop where
  decimal : ∀ t x, DecNumeral t x → stod t = .ok x
  letter : ∀ c t, c.isAlpha = true → c ≠ 'i' → c ≠ 'I' → c ≠ 'n' → c ≠ 'N' →
    stod (c :: t) = .throw .invalidArgument

/-! ## Ini files -/

/-- One line of an ini file. -/
inductive IniLine where
  | blank
  | comment (text : Text)
  | header (name : Text)
  | entry (key : Text) (before after : Text) (value : Text)

/-- A line together with the blanks before and after it. -/
structure IniRow where
  left : Text
  line : IniLine
  right : Text

/-- Spaces and tabs. -/
def Blanks (t : Text) : Prop := ∀ c ∈ t, c = ' ' ∨ c = '\t'

/-- No character that counts as white space: space, tab, line feed, vertical tab, form feed, return. -/
def Solid (t : Text) : Prop := ∀ c ∈ t, c ≠ ' ' ∧ ¬ (9 ≤ c.toNat ∧ c.toNat ≤ 13)

/-- Lines a user can write: comments and section names stay on one line; keys and values contain no
white space; a key is not empty, has no `=` and does not begin like a comment or a section. -/
def IniLine.Legal : IniLine → Prop
  | .blank => True
  | .comment t => '\n' ∉ t
  | .header n => '\n' ∉ n
  | .entry k b a v => Solid k ∧ Solid v ∧ '=' ∉ k ∧ Blanks b ∧ Blanks a ∧
      ∃ c k', k = c :: k' ∧ c ≠ ';' ∧ c ≠ '['

def IniRow.Legal (r : IniRow) : Prop := Blanks r.left ∧ Blanks r.right ∧ r.line.Legal

/-- The text of a line. -/
def IniLine.text : IniLine → Text
  | .blank => []
  | .comment t => ';' :: t
  | .header n => '[' :: n ++ [']']
  | .entry k b a v => k ++ b ++ '=' :: (a ++ v)

/-- The text of a file: the lines, each with its blanks and a line feed. -/
def iniText (rows : List IniRow) : Text :=
  rows.flatMap (fun r => r.left ++ r.line.text ++ r.right ++ ['\n'])

/-- The entries of the sections called `name`; the flag says whether such a section is open. -/
def iniEntries (name : Text) : Bool → List IniRow → List (Text × Text)
  | _, [] => []
  | b, r :: rs =>
    match r.line with
    | .header n => iniEntries name (decide (n = name)) rs
    | .entry k _ _ v => if b then (k, v) :: iniEntries name b rs else iniEntries name b rs
    | _ => iniEntries name b rs

/-- The text of the last entry for a key. -/
def lastEntry (es : List (Text × Text)) (key : Text) : Option Text :=
  (es.reverse.find? (fun e => e.1 = key)).map Prod.snd

end EF
