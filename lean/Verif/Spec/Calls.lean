import Mathlib.Order.Interval.Finset.Nat
import Mathlib.Data.Finset.Lattice.Fold
import Verif.Model.Calls
import Verif.Spec.Message

/-!
# What MPI does with programs of several ranks
-/

namespace EF.MPI

variable {K α : Type}

/-- One collective call.  It happens when every rank of the communicator has arrived at it; a broadcast needs the same root,
datatype and count on all of them. -/
inductive CallStep : (Nat → Calls K α) → (Nat → Calls K α) → Prop
  | allMax {c c' : Nat → Calls K α} (lo hi : Nat) (name : Text) (v : Nat → Nat) (next : Nat → Nat → Calls K α) (hle : lo ≤ hi)
      (arrived : ∀ r, lo ≤ r → r ≤ hi → c r = .allMax lo hi name (v r) (next r))
      (leaves : ∀ r, lo ≤ r → r ≤ hi → c' r = next r ((Finset.Icc lo hi).sup v))
      (others : ∀ r, ¬ (lo ≤ r ∧ r ≤ hi) → c' r = c r) : CallStep c c'
  | bcast {c c' : Nat → Calls K α} (lo hi : Nat) (name : Text) (root : Nat) (k : Kind) (mine : Nat → List (k.Carrier K))
      (next : Nat → List (k.Carrier K) → Calls K α) (hroot : lo + root ≤ hi)
      (arrived : ∀ r, lo ≤ r → r ≤ hi → c r = .bcast lo hi name root k (mine r) (next r))
      (count : ∀ r, lo ≤ r → r ≤ hi → (mine r).length = (mine (lo + root)).length)
      (leaves : ∀ r, lo ≤ r → r ≤ hi → c' r = next r (mine (lo + root)))
      (others : ∀ r, ¬ (lo ≤ r ∧ r ≤ hi) → c' r = c r) : CallStep c c'

/-- A sequence of calls of a given length. -/
inductive CallRun : Nat → (Nat → Calls K α) → (Nat → Calls K α) → Prop
  | refl (c : Nat → Calls K α) : CallRun 0 c c
  | step {n : Nat} {c c' c'' : Nat → Calls K α} (h : CallStep c c') (rest : CallRun n c' c'') : CallRun (n + 1) c c''

/-- Every run from `c` ends, after the same number of calls, with the values `z`. -/
def CallsEnd (c : Nat → Calls K α) (z : Nat → α) : Prop :=
  ∃ n, ∀ k c', CallRun k c c' → k ≤ n ∧ CallRun (n - k) c' (fun r => .fin (.ok (z r)))

end EF.MPI
