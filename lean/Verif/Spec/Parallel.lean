import Mathlib.Order.Interval.Finset.Nat
import Mathlib.Data.Finset.Lattice.Fold
import Verif.Spec.Quadtree

/-!
# Runs of several ranks

A configuration gives each rank the program it still has to run.  A collective operation happens when every rank of its
communicator has arrived at it; nothing else needs to happen at the same time, so ranks proceed in any order the
collectives allow.
-/

namespace EF

variable {T α : Type}

/-- What every rank still has to do. -/
abbrev Config (T α : Type) := Nat → Prog T α

/-- One collective operation. -/
inductive Step : Config T α → Config T α → Prop
  | allMax {c c' : Config T α} (lo hi : Nat) (name : Text) (v : Nat → Nat) (k : Nat → Nat → Prog T α) (hle : lo ≤ hi)
      (arrived : ∀ r, lo ≤ r → r ≤ hi → c r = .allMax lo hi name (v r) (k r))
      (leaves : ∀ r, lo ≤ r → r ≤ hi → c' r = k r ((Finset.Icc lo hi).sup v))
      (others : ∀ r, ¬ (lo ≤ r ∧ r ≤ hi) → c' r = c r) : Step c c'
  | bcast {c c' : Config T α} (lo hi : Nat) (name : Text) (root : Nat) (v : Nat → Node T) (k : Nat → Node T → Prog T α)
      (hroot : lo + root ≤ hi)
      (arrived : ∀ r, lo ≤ r → r ≤ hi → c r = .bcast lo hi name root (v r) (k r))
      (leaves : ∀ r, lo ≤ r → r ≤ hi → c' r = k r { v (lo + root) with comm := (v r).comm })
      (others : ∀ r, ¬ (lo ≤ r ∧ r ≤ hi) → c' r = c r) : Step c c'

/-- A sequence of collective operations of a given length. -/
inductive Run : Nat → Config T α → Config T α → Prop
  | refl (c : Config T α) : Run 0 c c
  | step {n : Nat} {c c' c'' : Config T α} (h : Step c c') (rest : Run n c' c'') : Run (n + 1) c c''

/-- Every rank has ended its program. -/
def Config.Done (c : Config T α) : Prop := ∀ r, ∃ x, c r = .fin x

/-- No collective can happen although some rank waits for one. -/
def Config.Stuck (c : Config T α) : Prop := ¬ c.Done ∧ ¬ ∃ c', Step c c'

end EF
