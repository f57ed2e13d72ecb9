import Verif.Spec.Tree
import Verif.Spec.FiniteVolume

/-!
# Comparing the results of runs
-/

namespace EF
namespace HPS

variable {K : Type} [Field K]

/-- On this grid the leaf solver returns fluxes and solutions which are linear functions of boundary values and
load. -/
structure LinearLeaf (N : Nat) (ps : PatchSolver K) (grid : Grid K) : Prop where
  flux : ∃ H : (Nat → K) → Nat → K,
    (∀ f v, Vec.Has v (N * N) f → (ps.particularNeumannData grid v).Returns (fun h => h.Has (4 * N) (H f))) ∧
    ∀ a b f f', ∀ i, i < 4 * N → H (fun k => a * f k + b * f' k) i = a * H f i + b * H f' i
  solve : ∃ U : (Nat → K) → (Nat → K) → Nat → K,
    (∀ g f v w, Vec.Has v (4 * N) g → Vec.Has w (N * N) f →
      (ps.solve grid v w).Returns (fun u => u.Has (N * N) (U g f))) ∧
    ∀ a b g g' f f', ∀ i, i < N * N →
      U (fun k => a * g k + b * g' k) (fun k => a * f k + b * f' k) i = a * U g f i + b * U g' f' i

/-- The third vector is `a` times the first plus `b` times the second. -/
def VecComb (a b : K) (x y z : Vec K) : Prop :=
  ∃ n f g, x.Has n f ∧ y.Has n g ∧ z.Has n (fun i => a * f i + b * g i)

/-- Three trees of the same shape with the same leaf grids; on every leaf the solution of the third is `a` times the
solution of the first plus `b` times the solution of the second. -/
def Combined (a b : K) : Tree (Patch K) → Tree (Patch K) → Tree (Patch K) → Prop
  | .leaf p, .leaf q, .leaf r => p.grid = r.grid ∧ q.grid = r.grid ∧ VecComb a b p.u q.u r.u
  | .node _ c0 c1 c2 c3, .node _ d0 d1 d2 d3, .node _ e0 e1 e2 e3 =>
    Combined a b c0 d0 e0 ∧ Combined a b c1 d1 e1 ∧ Combined a b c2 d2 e2 ∧ Combined a b c3 d3 e3
  | _, _, _ => False

/-- One set of problem data: a load and boundary values, given through callbacks that set one value per cell of a
leaf and one value per boundary cell of the root. -/
structure Data (K : Type) where
  load : Grid K → Vec K
  bdry : Grid K → Vec K

/-- The load callback of the data. -/
def Data.rhs (d : Data K) (p : Patch K) : Res (Patch K) := .ok { p with f := d.load p.grid }

/-- The boundary callback of the data. -/
def Data.bc (d : Data K) (p : Patch K) : Res (Patch K) := .ok { p with g := d.bdry p.grid }

/-- One value per cell, one value per boundary cell. -/
def Data.Sized (d : Data K) : Prop :=
  (∀ grid : Grid K, (d.load grid).size = grid.nx * grid.ny ∧ (d.load grid).WF) ∧
    ∀ grid : Grid K, (d.bdry grid).size = 2 * grid.nx + 2 * grid.ny ∧ (d.bdry grid).WF

/-- Upwards stage followed by solve stage. -/
def run (lap : Lapack K) (ps : PatchSolver K) (opt : HPSOptions) (d : Data K) (t : Tree (Patch K)) :
    Res (Tree (Patch K)) := do
  let t2 ← upwardsStage lap ps opt d.rhs t
  solveStage ps opt d.bc t2

/-- A request to solve on a built tree.  With callbacks, the load is a function of the leaf grid and the Dirichlet
data of what the callback sees of the root: grid, coarsenings, operator and flux.  With functions, the load is
sampled from `f` and the boundary condition is `bc`. -/
inductive Request (K : Type)
  | callbacks (load : Grid K → Vec K) (bdry : Grid K → Nat → Mat K → Vec K → Res (Vec K))
  | functions (f : K → K → K) (bc : BoundaryFn K)

/-- Upwards stage followed by solve stage. -/
def Request.run (lap : Lapack K) (ps : PatchSolver K) (opt : HPSOptions) (t : Tree (Patch K)) :
    Request K → Res (Tree (Patch K))
  | .callbacks load bdry => do
    let t2 ← upwardsStage lap ps opt (fun p => .ok { p with f := load p.grid }) t
    solveStage ps opt (fun p => do
      let g ← bdry p.grid p.nCoarsens p.T p.h
      pure { p with g := g }) t2
  | .functions f bc => do
    let t2 ← upwardsStageAnalytic lap ps opt f t
    solveStageAnalytic lap ps opt bc t2

/-- One request after the other on the same tree. -/
def runAll (lap : Lapack K) (ps : PatchSolver K) (opt : HPSOptions) : List (Request K) → Tree (Patch K) → Res (Tree (Patch K))
  | [], t => .ok t
  | r :: rs, t => do
    let t' ← r.run lap ps opt t
    runAll lap ps opt rs t'

/-- Centre of boundary cell `i` of side `s` (0 West, 1 East, 2 South, 3 North) of a rectangle with `m` cells per side. -/
def sidePoint (R : Rect K) (m s i : Nat) : K × K :=
  match s with
  | 0 => (R.xl, FV.cy R m i)
  | 1 => (R.xu, FV.cy R m i)
  | 2 => (FV.cx R m i, R.yl)
  | _ => (FV.cx R m i, R.yu)

/-- Derivative in coordinate direction at cell `i` of side `s` of a leaf, from its solution and Dirichlet data. -/
def leafDeriv (N : Nat) (p : Patch K) (s i : Nat) : K :=
  FV.deriv (FV.rect p.grid) N N (FV.Bdry.ofFn N (fun k => p.g.data.getD k 0)) (fun i j => p.u.data.getD (j + i * N) 0) s i

end HPS
end EF
