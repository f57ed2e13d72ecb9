import Verif.Spec.Mesh
import Verif.Spec.FiniteVolume
import Verif.Model.Report

/-!
# Errors of cell values
-/

namespace EF

open FV

variable {K : Type} [Field K] [LinearOrder K]

/-- Area and absolute error of every cell of a leaf. -/
def cellErrors (exact : K → K → K) (p : Patch K) : List (K × K) :=
  (cellIndices p.grid.nx p.grid.ny).map fun c =>
    (hx (rect p.grid) p.grid.nx * hy (rect p.grid) p.grid.ny,
      |p.u.data.getD (c.2 + c.1 * p.grid.ny) 0 - exact (cx (rect p.grid) p.grid.nx c.1) (cy (rect p.grid) p.grid.ny c.2)|)

/-- The report gives the mean, the root mean square and the largest of the errors, weighted with the areas, of a region of area
`A`, and the number of cells. -/
structure ErrorReport.Measures (e : ErrorReport K) (A : K) (cs : List (K × K)) : Prop where
  mean : e.l1 * A = (cs.map fun c => c.1 * c.2).sum
  square : 0 ≤ e.l2 ∧ e.l2 ^ 2 * A = (cs.map fun c => c.1 * c.2 ^ 2).sum
  largest : 0 ≤ e.lI ∧ (∀ c ∈ cs, c.2 ≤ e.lI) ∧ (e.lI = 0 ∨ ∃ c ∈ cs, c.2 = e.lI)
  cells : e.nDOFs = cs.length

/-- The convergence study on the ranks below `size`; the others are idle. -/
def studyOn (M size : Nat) (F : Forest) (lap : Lapack K) (ps : PatchSolver K) (opt : HPSOptions) (root : Patch K) (f : K → K → K)
    (bc : HPS.BoundaryFn K) (n : Nat) (sqrt : K → K) (exact : K → K → K) (maxLevel : Nat) (r : Nat) : Prog (Patch K) (ErrorReport K) :=
  if r < size then studyMain ⟨M, size, r, F⟩ lap ps opt root f bc n sqrt exact maxLevel else .fin (.ok ⟨0, 0, 0, 0, 0⟩)

end EF
