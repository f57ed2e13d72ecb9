import Verif.Spec.Quadtree
import Verif.Model.Mesh

/-!
# Cells of a mesh

The cells of a rank: those of its leaves, leaf after leaf in z-order; in a leaf the first index runs slowest.
-/

namespace EF

variable {K T τ : Type}

/-- Data of the leaves of rank `r`, in z-order. -/
def leavesOf (r : Nat) : Forest → Tree T → List T
  | .leaf k, .leaf d => if k = r then [d] else []
  | .node c0 c1 c2 c3, .node _ t0 t1 t2 t3 => leavesOf r c0 t0 ++ leavesOf r c1 t1 ++ leavesOf r c2 t2 ++ leavesOf r c3 t3
  | _, _ => []

/-- Hand every leaf of rank `r` to a function, in z-order, and keep what it returns. -/
def leafPass (r : Nat) (fn : T → τ → Res (T × τ)) : Forest → Tree T → τ → Res (Tree T × τ)
  | .leaf k, .leaf d, s => if k = r then do
      let x ← fn d s
      pure (.leaf x.1, x.2)
    else pure (.leaf d, s)
  | .node c0 c1 c2 c3, .node d t0 t1 t2 t3, s => do
    let x0 ← leafPass r fn c0 t0 s
    let x1 ← leafPass r fn c1 t1 x0.2
    let x2 ← leafPass r fn c2 t2 x1.2
    let x3 ← leafPass r fn c3 t3 x2.2
    pure (.node d x0.1 x1.1 x2.1 x3.1, x3.2)
  | _, t, s => pure (t, s)

/-- Indices of the cells of a grid with `nx` times `ny` cells. -/
def cellIndices (nx ny : Nat) : List (Nat × Nat) := (List.range nx).flatMap fun i => (List.range ny).map fun j => (i, j)

section
variable [Field K]

/-- Cell `(i, j)` of a rectangle cut into `nx` times `ny` equal cells. -/
def cellRect (R : Rect K) (nx ny i j : Nat) : Rect K :=
  ⟨R.xl + i * ((R.xu - R.xl) / nx), R.xl + (i + 1) * ((R.xu - R.xl) / nx),
    R.yl + j * ((R.yu - R.yl) / ny), R.yl + (j + 1) * ((R.yu - R.yl) / ny)⟩

/-- Centre of a rectangle. -/
def Rect.centre (R : Rect K) : K × K := ((R.xl + R.xu) / 2, (R.yl + R.yu) / 2)

/-- Corner `q` of a rectangle, counterclockwise from the lower left. -/
def Rect.corner (R : Rect K) (q : Nat) : K × K :=
  (if q = 1 ∨ q = 2 then R.xu else R.xl, if q = 2 ∨ q = 3 then R.yu else R.yl)

/-- The cells of a grid. -/
def gridCells (g : Grid K) : List (Rect K) := (cellIndices g.nx g.ny).map fun c => cellRect g.rect g.nx g.ny c.1 c.2

/-- The cells of rank `r`. -/
def meshCells (r : Nat) (F : Forest) (t : Tree (Patch K)) : List (Rect K) :=
  (leavesOf r F t).flatMap fun p => gridCells p.grid

/-- Arrays that describe a list of cells the way the file format wants them: points of the cells in order, four points per
cell, and one offset (the end of the cell's part of the connectivity) and one type (9 is the quadrilateral) per cell. -/
structure MeshArrays.Describes (A : MeshArrays K) (C : List (Rect K)) : Prop where
  ncells : A.ncells = C.length
  npoints : A.npoints = 4 * C.length
  points_size : A.points.size = 12 * C.length
  points_wf : A.points.WF
  points : ∀ (k : Nat) (hk : k < C.length) q, q < 4 → A.points.get (12 * k + 3 * q) = .ok (C[k].corner q).1 ∧
    A.points.get (12 * k + 3 * q + 1) = .ok (C[k].corner q).2 ∧ A.points.get (12 * k + 3 * q + 2) = .ok 0
  connectivity : A.connectivity.Has (4 * C.length) (fun k => (k : Int))
  offsets_start : ∀ k, k < C.length → A.offsets.get k = .ok (4 * (k + 1) : Int)
  types_start : ∀ k, k < C.length → A.types.get k = .ok 9

/-- The arrays moreover have one offset and one type per cell. -/
def MeshArrays.OnePerCell (A : MeshArrays K) (C : List (Rect K)) : Prop :=
  A.offsets.size = C.length ∧ A.types.size = C.length

end

end EF
