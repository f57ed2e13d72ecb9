import Verif.Spec.Mesh
import Verif.Model.Memory

/-!
# Nodes of a tree and the numbers they keep
-/

namespace EF

variable {K T : Type}

/-- The data of the nodes rank `r` has a leaf below of, children before their parent. -/
def nodesOf (r : Nat) : Forest → Tree T → List T
  | .leaf k, .leaf d => if k = r then [d] else []
  | .node c0 c1 c2 c3, .node d t0 t1 t2 t3 =>
    nodesOf r c0 t0 ++ nodesOf r c1 t1 ++ nodesOf r c2 t2 ++ nodesOf r c3 t3 ++ (if r ∈ (Forest.node c0 c1 c2 c3).ranks then [d] else [])
  | _, _ => []

/-- All nodes, children before their parent. -/
def Tree.nodes : Tree T → List T
  | .leaf d => [d]
  | .node d t0 t1 t2 t3 => t0.nodes ++ t1.nodes ++ t2.nodes ++ t3.nodes ++ [d]

namespace Forest

/-- Cells per side of the merged patch of a mesh with `N × N` cells on every leaf: twice the smallest number of the four parts, to which
the others are coarsened. -/
def side (N : Nat) : Forest → Nat
  | .leaf _ => N
  | .node c0 c1 c2 c3 => 2 * min (min (c0.side N) (c1.side N)) (min (c2.side N) (c3.side N))

/-- Numbers a leaf keeps: the operator on the `4N` boundary values, load and solution, boundary data and fluxes. -/
def leafNumbers (N : Nat) : Nat := (4 * N) ^ 2 + 2 * N ^ 2 + 2 * (4 * N)

/-- Numbers a branch keeps whose children have `n` values per side: the interface system on the `4n` interior values, two operators
between them and the `8n` boundary values, data on the boundary and the interface; and the operator and the fluxes on the boundary as
the parent takes them, with `m` values per side. -/
def branchNumbers (n m : Nat) : Nat := (4 * n) ^ 2 + 2 * (4 * n * (8 * n)) + 8 * n + 4 * n + ((4 * m) ^ 2 + 4 * m)

/-- Numbers kept in the nodes of a mesh that satisfy `P`; `m` is the number of values per side of its root as its parent takes them. -/
def numbers (N : Nat) (P : Forest → Prop) [DecidablePred P] : Forest → Nat → Nat
  | .leaf k, _ => if P (.leaf k) then leafNumbers N else 0
  | .node c0 c1 c2 c3, m =>
    let n := min (min (c0.side N) (c1.side N)) (min (c2.side N) (c3.side N))
    c0.numbers N P n + c1.numbers N P n + c2.numbers N P n + c3.numbers N P n
      + (if P (.node c0 c1 c2 c3) then branchNumbers n m else 0)

/-- The nodes of a mesh that satisfy `P`. -/
def count (P : Forest → Prop) [DecidablePred P] : Forest → Nat
  | .leaf k => if P (.leaf k) then 1 else 0
  | .node c0 c1 c2 c3 => c0.count P + c1.count P + c2.count P + c3.count P + (if P (.node c0 c1 c2 c3) then 1 else 0)

/-- Megabytes of the nodes that satisfy `P`: eight bytes for every number, and seventeen for every node. -/
def megabytes (N : Nat) (P : Forest → Prop) [DecidablePred P] (F : Forest) : ℚ :=
  ((8 * F.numbers N P (F.side N) + 17 * F.count P : Nat) : ℚ) / 2 ^ 20

/-- The sum of the depths of the leaves. -/
def depths : Forest → Nat
  | .leaf _ => 0
  | .node c0 c1 c2 c3 => c0.depths + c1.depths + c2.depths + c3.depths + (Forest.node c0 c1 c2 c3).ranks.length

end Forest

/-- The numbers kept in the operators and vectors of a patch. -/
def Patch.doubles (p : Patch K) : Nat :=
  p.X.nrows * p.X.ncols + p.H.nrows * p.H.ncols + p.S.nrows * p.S.ncols + p.T.nrows * p.T.ncols
    + (p.u.size + p.g.size + p.v.size + p.f.size + p.h.size + p.w.size)

/-- Megabytes of a list of patches: eight bytes for every number, and seventeen for every patch. -/
def megabytes (l : List (Patch K)) : ℚ := ((8 * (l.map Patch.doubles).sum + 17 * l.length : Nat) : ℚ) / 2 ^ 20

/-- The study on the ranks below `size`; the others are idle. -/
def memoryOn [Field K] (M size : Nat) (F : Forest) (lap : Lapack K) (ps : PatchSolver K) (opt : HPSOptions) (root : Patch K)
    (f : K → K → K) (bc : HPS.BoundaryFn K) (n : Nat) (r : Nat) : Prog (Patch K) ℚ :=
  if r < size then memoryMain ⟨M, size, r, F⟩ lap ps opt root f bc n else .fin (.ok 0)

end EF
