import Verif.Spec.Tree
import Verif.Spec.FiniteVolume

/-!
# Leaf solvers that cannot be told apart on the leaves of a tree
-/

namespace EF

variable {K : Type} [Field K]

/-- Rectangles that arise from `R` by taking quarters. -/
inductive Rect.Part (R : Rect K) : Rect K → Prop
  | whole : Rect.Part R R
  | quarter {P : Rect K} (h : Rect.Part R P) (q : Nat) : Rect.Part R (P.quarter q)

namespace HPS

/-- Two leaf solvers return the same on every `N × N` grid on a part of `R`, for data of the documented sizes. -/
structure SameOn (N : Nat) (R : Rect K) (ps ps' : PatchSolver K) : Prop where
  d2n : ∀ grid : Grid K, grid.nx = N → grid.ny = N → R.Part (FV.rect grid) → ps'.buildD2N grid = ps.buildD2N grid
  flux : ∀ (grid : Grid K) (f : Vec K), grid.nx = N → grid.ny = N → R.Part (FV.rect grid) → f.size = N * N → f.WF →
    ps'.particularNeumannData grid f = ps.particularNeumannData grid f
  solve : ∀ (grid : Grid K) (g f : Vec K), grid.nx = N → grid.ny = N → R.Part (FV.rect grid) → g.size = 4 * N → g.WF →
    f.size = N * N → f.WF → ps'.solve grid g f = ps.solve grid g f

end HPS
end EF
