import Verif.Spec.Tree
import Verif.Spec.FiniteVolume

/-!
# Leaf levels of a mesh, and problems with a large reaction term
-/

namespace EF
namespace HPS

open FV

/-- Least level of a leaf. -/
def low {P : Type} : Tree P → Nat
  | .leaf _ => 0
  | .node _ c0 c1 c2 c3 => min (min (low c0) (low c1)) (min (low c2) (low c3)) + 1

/-- Greatest level of a leaf. -/
def high {P : Type} : Tree P → Nat
  | .leaf _ => 0
  | .node _ c0 c1 c2 c3 => max (max (high c0) (high c1)) (max (high c2) (high c3)) + 1

variable {K : Type} [Field K] [LinearOrder K]

/-- Reaction term at least `Λ`, diffusion coefficient at most `B`. -/
def Damped (s : FVSolver K) (R : Rect K) (B Λ : K) : Prop :=
  ∀ x y, Inside R x y → s.beta x y ≤ B ∧ s.lambda x y / s.alpha x y ≤ -Λ

end HPS
end EF
