import Verif.Spec.Study
import Verif.Spec.Linear
import Verif.Model.Options

/-!
# Reading what was printed

A reader for numbers with or without an exponent, and what a reader expects of a printed entry.
-/

namespace EF

/-- A number with or without an exponent. -/
def readReal (t : Text) : Option ℚ := if 'e' ∈ t then readScientific t else readNumber t

/-- The lines of a text; a text that ends with a line end has an empty last line. -/
def textLines (t : Text) : List Text := pieces '\n' [] t

/-- The text is a number that agrees with `x` to four significant digits; numbers below `10^-14` may be shown as zero. -/
def FourDigits (t : Text) (x : ℚ) : Prop :=
  ∃ d, readReal t = some d ∧ (|d - x| ≤ |x| / 2000 ∨ d = 0 ∧ |x| < 1 / 10 ^ 14)

/-- The type `int` of 32 bits. -/
def IsInt32 (i : Int) : Prop := -2147483648 ≤ i ∧ i ≤ 2147483647

/-- The entries of a map in its order: ascending by name, every name once. -/
structure Lists {α : Type} (entries : List (Text × α)) (o : Text → Option α) : Prop where
  mem : ∀ k v, (k, v) ∈ entries ↔ o k = some v
  sorted : entries.Pairwise (fun a b => a.1 < b.1)

/-- A value as it is listed: texts as they are, truth values as `1` and `0`, whole numbers exactly, the others to `digits` significant
digits. -/
def ListsValue (digits : Nat) (t : Text) : OptVal ℚ → Prop
  | .str s => t = s
  | .bool b => t = if b then ['1'] else ['0']
  | .int i => readNumber t = some (i : ℚ)
  | .real x => ∃ d, readReal t = some d ∧ |d - x| ≤ |x| / 10 ^ (digits - 1) / 2

/-- The name, and the value if it is a text, are on one line. -/
def OneLine (e : Text × OptVal ℚ) : Prop := '\n' ∉ e.1 ∧ ∀ s, e.2 = .str s → '\n' ∉ s

end EF
