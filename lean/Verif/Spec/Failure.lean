import Verif.Spec.ParallelHPS

/-!
# Runs that fail
-/

namespace EF

variable {T α : Type}

/-- The outcome of a call that does not return: an exception, or undefined behaviour. -/
def Res.fail : Option Exn → Res α
  | some e => .throw e
  | none => .ub

/-- One of the ranks below `size` is bound to fail with `e`: whatever has happened, the run can go on to where that rank has ended
with `e` (and no run ends before it). -/
def AlwaysFails (size : Nat) (c : Config T α) (e : Option Exn) : Prop :=
  ∃ r, r < size ∧ ∀ k c', Run k c c' → ∃ n c'', Run n c' c'' ∧ c'' r = .fin (Res.fail e)

end EF
