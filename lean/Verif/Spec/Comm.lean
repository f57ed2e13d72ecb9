import Verif.Model.Comm
import Verif.Spec.Quadtree

/-!
# Creating communicators on several ranks
-/

namespace EF

variable {α : Type}

/-- One communicator is created: all its ranks have arrived at the call. -/
inductive CommStep : (Nat → CommProg α) → (Nat → CommProg α) → Prop
  | create {c c' : Nat → CommProg α} (lo hi tag : Nat) (k : Nat → CommProg α) (hle : lo ≤ hi)
      (arrived : ∀ r, lo ≤ r → r ≤ hi → c r = .create lo hi tag (k r))
      (leaves : ∀ r, lo ≤ r → r ≤ hi → c' r = k r)
      (others : ∀ r, ¬ (lo ≤ r ∧ r ≤ hi) → c' r = c r) : CommStep c c'

/-- A number of communicators is created, one after the other. -/
inductive CommRun : Nat → (Nat → CommProg α) → (Nat → CommProg α) → Prop
  | refl (c : Nat → CommProg α) : CommRun 0 c c
  | step {n : Nat} {c c' c'' : Nat → CommProg α} (h : CommStep c c') (rest : CommRun n c' c'') : CommRun (n + 1) c c''

/-- Number of quadrants, inner ones and leaves, whose range of owners contains the rank. -/
def Forest.spanned (r : Nat) : Forest → Nat
  | leaf k => if k = r then 1 else 0
  | node c0 c1 c2 c3 => (if c0.first ≤ r ∧ r ≤ c3.last then 1 else 0) + c0.spanned r + c1.spanned r + c2.spanned r + c3.spanned r

end EF
