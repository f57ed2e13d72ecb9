import Verif.Spec.Robin
import Verif.Spec.Turn

/-!
# Boundary conditions on adaptive meshes
-/

namespace EF

open FV

variable {K : Type} [Field K]

/-- The conditions `a u + b u' = r` hold at the `m` cells of every side, for boundary values `g` and derivatives `q` in coordinate direction;
`bc` returns `(r, a, b)` at the centre of a cell. -/
def BoundaryHolds (bc : HPS.BoundaryFn K) (R : Rect K) (m : Nat) (g q : Nat → Nat → K) : Prop :=
  ∀ a, a < 4 → ∀ i, i < m →
    sideData (·.2.1) bc R m a i * g a i + sideData (·.2.2) bc R m a i * q a i = sideData (·.1) bc R m a i

/-- The same conditions with zero on the right. -/
def BoundaryFn.zero (bc : HPS.BoundaryFn K) : HPS.BoundaryFn K := fun a x y => (0, (bc a x y).2)

/-- Without load and with zero on the right of the boundary conditions, the values at the boundary are zero. -/
def BoundaryRigid (s : FVSolver K) (N : Nat) (c : Pieces Unit) (R : Rect K) (bc : HPS.BoundaryFn K) : Prop :=
  ∀ M : Pieces (Nat → Nat → K), M.Alike c → ∀ m g q, Composite s (fun _ _ => 0) N M R m g q → BoundaryHolds (BoundaryFn.zero bc) R m g q →
    ∀ a, a < 4 → ∀ i, i < m → g a i = 0

/-- Conditions that leave at most one solution when everything else is fine: the factors of the value and of the derivative in the direction
of the outward normal are not negative and not both zero. -/
def BoundaryProper [LinearOrder K] (bc : HPS.BoundaryFn K) : Prop :=
  ∀ a, a < 4 → ∀ x y, 0 ≤ (bc a x y).2.1 ∧ 0 ≤ (if a = 0 ∨ a = 2 then - (bc a x y).2.2 else (bc a x y).2.2) ∧
    ((bc a x y).2.1 ≠ 0 ∨ (bc a x y).2.2 ≠ 0)

/-- The sign the derivative in coordinate direction gets on side `a`. -/
def Move.sign (μ : Move K) (a : Nat) : K :=
  match μ.turn with
  | .flip => if a < 2 then -1 else 1
  | _ => 1

/-- `bc'` are the conditions `bc` seen after the move, each multiplied by the function `k`. -/
def SameConditions (μ : Move K) (k : Nat → K → K → K) (bc bc' : HPS.BoundaryFn K) : Prop :=
  ∀ a, a < 4 → ∀ x y, k a x y ≠ 0 ∧ bc' a (μ.pt x y).1 (μ.pt x y).2 =
    (k a x y * (bc (μ.turn.side a) x y).1, k a x y * (bc (μ.turn.side a) x y).2.1,
      k a x y * (μ.sign a * μ.L * (bc (μ.turn.side a) x y).2.2))

end EF
