import Verif.Spec.Print

/-!
# Reading the text of a patch or node
-/

namespace EF

/-- What comes after a beginning. -/
def after (beginning t : Text) : Option Text := if beginning.isPrefixOf t then some (t.drop beginning.length) else none

/-- The value of the first line that reads `name = value`. -/
def fieldOf (t name : Text) : Option Text := (textLines t).findSome? (after (name ++ " = ".toList))

/-- Numbers in brackets with commas between them. -/
def readSizes (t : Text) : Option (List Nat) :=
  (after ['['] t).bind fun r =>
    if r.getLast? = some ']' then ((pieces ',' [] r.dropLast).map fun s => readDigits (s.dropWhile isWs)).mapM id else none

/-- A line about a node: path, level, and the first and last rank. -/
def readNode (t : Text) : Option (Text × ℚ × Nat × Nat) :=
  match pieces ',' [] t with
  | [p, l, r] =>
    (after "node: path = ".toList p).bind fun path =>
    ((after " level = ".toList l).bind readNumber).bind fun level =>
    (after " ranks = [".toList r).bind fun r =>
    if r.getLast? = some ']' then
      match pieces '-' [] r.dropLast with
      | [a, b] => (readDigits a).bind fun a => (readDigits b).map fun b => (path, level, a, b)
      | _ => none
    else none
  | _ => none

/-- What is between brackets, before a comma, with a colon in it. -/
def readBounds (t : Text) : Option (ℚ × ℚ) :=
  (after ['['] t).bind fun r =>
    if r.drop (r.length - 2) = [']', ','] then
      match pieces ':' [] (r.take (r.length - 2)) with
      | [a, b] => (readNumber a).bind fun a => (readNumber b).map fun b => (a, b)
      | _ => none
    else none

/-- A whole number before a comma. -/
def readCount (t : Text) : Option Nat := if t.getLast? = some ',' then readDigits t.dropLast else none

/-- What a text says about a grid: bounds, number of cells and spacing in x and in y. -/
structure GridText where
  xs : ℚ × ℚ
  nx : Nat
  dx : ℚ
  ys : ℚ × ℚ
  ny : Nat
  dy : ℚ

/-- A line about a grid, word by word. -/
def readGrid (t : Text) : Option GridText :=
  match words t with
  | [a1, b1, c1, d1, n1, e1, f1, s1, a2, b2, c2, d2, n2, e2, f2, s2] =>
    if (a1, c1, d1, e1, f1) = ("X:".toList, "nx".toList, "=".toList, "dx".toList, "=".toList) ∧
        (a2, c2, d2, e2, f2) = ("Y:".toList, "ny".toList, "=".toList, "dy".toList, "=".toList) then
      (readBounds b1).bind fun b1 => (readCount n1).bind fun n1 => (readNumber s1).bind fun s1 =>
      (readBounds b2).bind fun b2 => (readCount n2).bind fun n2 => (readNumber s2).map fun s2 => ⟨b1, n1, s1, b2, n2, s2⟩
    else none
  | _ => none

end EF
