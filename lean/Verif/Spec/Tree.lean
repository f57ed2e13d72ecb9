import Verif.Spec.Geometry
import Verif.Spec.Linear
import Verif.Model.HPS

/-!
# Trees of patches and what is assumed of callbacks and of the leaf solver
-/

namespace EF

/-- The shape of a tree. -/
def Tree.shape {P : Type} : Tree P → Tree Unit
  | .leaf _ => .leaf ()
  | .node _ c0 c1 c2 c3 => .node () c0.shape c1.shape c2.shape c3.shape

/-- The leaves in z-order. -/
def Tree.leaves {P : Type} : Tree P → List P
  | .leaf p => [p]
  | .node _ c0 c1 c2 c3 => c0.leaves ++ c1.leaves ++ c2.leaves ++ c3.leaves

namespace HPS

variable {K : Type}

section
variable [Field K]

/-- The patch covers the rectangle. -/
def InRect (p : Patch K) (R : Rect K) : Prop :=
  p.grid.xl = R.xl ∧ p.grid.xu = R.xu ∧ p.grid.yl = R.yl ∧ p.grid.yu = R.yu

/-- A tree before the first build: no patch has been coarsened, leaves have `N × N` cells, the leaf
rectangles are the successive quarters of `R`. -/
inductive Init (N : Nat) : Tree (Patch K) → Rect K → Prop
  | leaf {p : Patch K} {R : Rect K} (hk : p.nCoarsens = 0) (hx : p.grid.nx = N) (hy : p.grid.ny = N)
      (hR : InRect p R) : Init N (.leaf p) R
  | node {p : Patch K} {R : Rect K} {c0 c1 c2 c3 : Tree (Patch K)} (hk : p.nCoarsens = 0)
      (h0 : Init N c0 (R.quarter 0)) (h1 : Init N c1 (R.quarter 1)) (h2 : Init N c2 (R.quarter 2))
      (h3 : Init N c3 (R.quarter 3)) : Init N (.node p c0 c1 c2 c3) R

/-- All leaves at depth `d`. -/
inductive Uniform {P : Type} : Nat → Tree P → Prop
  | leaf (p : P) : Uniform 0 (.leaf p)
  | node {d : Nat} (p : P) {c0 c1 c2 c3 : Tree P} (h0 : Uniform d c0) (h1 : Uniform d c1) (h2 : Uniform d c2)
      (h3 : Uniform d c3) : Uniform (d + 1) (.node p c0 c1 c2 c3)

/-- The leaf solver accepts `N × N` grids and returns objects of the documented sizes. -/
structure SolverShapes (N : Nat) (ps : PatchSolver K) : Prop where
  d2n : ∀ grid : Grid K, grid.nx = N → grid.ny = N →
    (ps.buildD2N grid).Returns (fun A => ∃ a, A.Has (4 * N) (4 * N) a)
  flux : ∀ (grid : Grid K) (f : Vec K), grid.nx = N → grid.ny = N → f.size = N * N → f.WF →
    (ps.particularNeumannData grid f).Returns (fun v => ∃ b, v.Has (4 * N) b)
  solve : ∀ (grid : Grid K) (g f : Vec K), grid.nx = N → grid.ny = N → g.size = 4 * N → g.WF → f.size = N * N → f.WF →
    (ps.solve grid g f).Returns (fun u => u.size = N * N ∧ u.WF)

end

/-- The load callback sets the load of a leaf, one value per cell, and nothing else. -/
def SetsLoad (N : Nat) (rhs : Patch K → Res (Patch K)) (φ : Grid K → Vec K) : Prop :=
  (∀ p, rhs p = .ok { p with f := φ p.grid }) ∧
    ∀ grid : Grid K, grid.nx = N → grid.ny = N → (φ grid).size = N * N ∧ (φ grid).WF

/-- The boundary callback sets the Dirichlet data of the root, `m` values per side, and nothing else. -/
def SetsBoundary (m : Nat) (bdry : Patch K → Res (Patch K)) (γ : Patch K → Vec K) : Prop :=
  (∀ p, bdry p = .ok { p with g := γ p }) ∧
    ∀ p, p.grid.nx = m → p.grid.ny = m → (γ p).size = 4 * m ∧ (γ p).WF

end HPS
end EF
