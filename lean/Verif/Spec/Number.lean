import Verif.Spec.XML
import Mathlib.Data.Rat.Defs
import Mathlib.Algebra.Order.Group.Abs
import Mathlib.Algebra.Order.Ring.Rat

/-!
# Reading numbers

A reader for decimal numbers and for lists of them, independent of the writer.
-/

namespace EF

/-- A row of digits. -/
def readDigits (t : Text) : Option Nat :=
  if t ≠ [] ∧ t.all Char.isDigit then some (t.foldl (fun n c => 10 * n + (c.toNat - 48)) 0) else none

/-- Digits, perhaps a point and more digits. -/
def readUnsigned (t : Text) : Option ℚ :=
  match t.dropWhile (· ≠ '.') with
  | [] => (readDigits t).map (fun n : Nat => (n : ℚ))
  | _ :: f => (readDigits (t.takeWhile (· ≠ '.'))).bind (fun n : Nat =>
      (readDigits f).map (fun k : Nat => (n : ℚ) + (k : ℚ) / 10 ^ f.length))

/-- A decimal number. -/
def readNumber (t : Text) : Option ℚ :=
  match t with
  | '-' :: r => (readUnsigned r).map (fun x => -x)
  | t => readUnsigned t

/-- The words of a text, after a beginning of a word. -/
def wordsFrom (acc : Text) : Text → List Text
  | [] => if acc = [] then [] else [acc]
  | c :: t =>
    if isWs c then (if acc = [] then wordsFrom [] t else acc :: wordsFrom [] t) else wordsFrom (acc ++ [c]) t

/-- The words of a text. -/
def words (t : Text) : List Text := wordsFrom [] t

/-- The numbers in a text. -/
def readNumbers (t : Text) : List (Option ℚ) := (words t).map readNumber

/-- What was read is a number within half a millionth of the value. -/
def Near (read : Option ℚ) (x : ℚ) : Prop := ∃ y, read = some y ∧ |y - x| ≤ 1 / 2000000

/-- The arrays in the element `CellData` of a document. -/
def cellArrays (doc : XTree) : List XTree :=
  doc.children.flatMap (fun g => g.children.flatMap (fun p =>
    (p.children.filter (fun e => e.name = "CellData".toList)).flatMap XTree.children))

end EF
