import Verif.Spec.Print

/-!
# Reading the name of a communicator
-/

namespace EF

/-- Two numbers with a colon between them, before a closing brace. -/
def readRange (t : Text) : Option (Nat × Nat) :=
  match pieces '}' [] t with
  | [r, _] =>
    match pieces ':' [] r with
    | [a, b] => (readDigits a).bind fun a => (readDigits b).map fun b => (a, b)
    | _ => none
  | _ => none

/-- The ranges in braces, in order. -/
def readRanges (t : Text) : Option (List (Nat × Nat)) := ((pieces '{' [] t).tail.map readRange).mapM id

end EF
