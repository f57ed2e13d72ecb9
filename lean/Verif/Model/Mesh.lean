import Verif.Model.Quadtree
import Verif.Model.FiniteVolume

/-!
# Model of `/repo/src/Mesh.hpp`

External: `p4est_new_ext`, `p4est_refine`, `p4est_qcoord_to_vertex` are modelled by their documented behaviour, balancing and
partitioning by the contract `Shape.BalanceOf`, which leaves the assignment of leaves to ranks open.

Simplifications: array names, component counts and type strings (used by the VTK writer only) are left out; the mesh
functions are kept by value.
-/

namespace EF

variable {K T τ : Type}

/-! ## Mesh arrays -/

/-- The arrays of a `Mesh` that describe its cells.  Mesh.hpp:30-58. -/
structure MeshArrays (K : Type) where
  npoints : Int
  ncells : Int
  points : Vec K
  connectivity : Vec Int
  offsets : Vec Int
  types : Vec Int

/-- The arrays of a new mesh.  Mesh.hpp:30-58. -/
def MeshArrays.new : MeshArrays K := ⟨0, 0, Vec.empty, Vec.empty, Vec.empty, Vec.empty⟩

/-- `Mesh<FiniteVolumePatch>` on one rank. -/
structure Mesh (K : Type) where
  quadtree : Quadtree (Patch K)
  arrays : MeshArrays K
  functions : List (Vec K)

section arrays
variable [Field K]

/-- Body of the loop over the cells of a leaf; `index` is the local variable of `setMeshFromQuadtree`.
Mesh.hpp:218-262. -/
def addCell (g : Grid K) (i j : Nat) (st : Int × MeshArrays K) : Int × MeshArrays K :=
  let index := st.1
  let A := st.2
  let x0 := g.xl + (i : K) * g.dx
  let y0 := g.yl + (j : K) * g.dy
  let x1 := g.xl + ((i + 1 : Nat) : K) * g.dx
  let y1 := g.yl + (j : K) * g.dy
  let x2 := g.xl + ((i + 1 : Nat) : K) * g.dx
  let y2 := g.yl + ((j + 1 : Nat) : K) * g.dy
  let x3 := g.xl + (i : K) * g.dx
  let y3 := g.yl + ((j + 1 : Nat) : K) * g.dy
  (index + 4,
    { npoints := A.npoints + 4
      ncells := A.ncells + 1
      points := A.points.append (Vec.ofList [x0, y0, 0, x1, y1, 0, x2, y2, 0, x3, y3, 0])
      connectivity := A.connectivity.append (Vec.ofList [index + 0, index + 1, index + 2, index + 3])
      offsets := A.offsets.append (Vec.ofList [(index + 1) * 4, (index + 2) * 4, (index + 3) * 4, (index + 4) * 4])
      types := A.types.append (Vec.ofList [9, 9, 9, 9]) })

/-- The loops over the cells of a leaf.  Mesh.hpp:216-264. -/
def addLeaf (g : Grid K) (st : Int × MeshArrays K) : Res (Int × MeshArrays K) :=
  forN g.nx (fun i st => forN g.ny (fun j st => .ok (addCell g i j st)) st) st

end arrays

/-- The node callback of the traversals of `Mesh`: acts on leaves, always continues.
Mesh.hpp:200-201, 266, 317-323, 332-349. -/
def leafVisit (fn : T → τ → Res (T × τ)) (n : Node T) (s : τ) : Res ((Node T × τ) × Bool) :=
  if n.leaf then do
    let x ← fn n.data s
    pure (({ n with data := x.1 }, x.2), true)
  else pure ((n, s), true)

namespace Mesh

variable [Field K]

/-- `setMeshFromQuadtree()` on rank `r`.  Mesh.hpp:186-269. -/
def setMeshFromQuadtree (M r : Nat) (F : Forest) (m : Mesh K) : Res (Mesh K) := do
  let s ← m.quadtree.traversePreOrder M r F
    (leafVisit fun p st => do
      let st ← addLeaf p.grid st
      pure (p, st)) (0, m.arrays)
  pure { m with quadtree := s.1, arrays := s.2.2 }

/-- `Mesh(comm, p4est, root_data, node_factory)`.  Mesh.hpp:93-99. -/
def new (M r : Nat) (root : Patch K) (nf : NodeFactory (Patch K)) (F : Forest) (saved : UserPointer) : Res (Mesh K) := do
  let q ← Quadtree.new M r root nf F saved
  setMeshFromQuadtree M r F ⟨q, MeshArrays.new, []⟩

/-- `iteratePatches(fn)`.  Mesh.hpp:316-324. -/
def iteratePatches (M r : Nat) (F : Forest) (fn : Patch K → τ → Res (Patch K × τ)) (m : Mesh K) (s : τ) :
    Res (Mesh K × τ) := do
  let x ← m.quadtree.traversePreOrder M r F (leafVisit fn) s
  pure ({ m with quadtree := x.1 }, x.2)

/-- `iterateCells(fn)`.  Mesh.hpp:331-350. -/
def iterateCells (M r : Nat) (F : Forest) (fn : K → K → τ → Res τ) (m : Mesh K) (s : τ) : Res (Mesh K × τ) := do
  let x ← m.quadtree.traversePreOrder M r F
    (leafVisit fun p s => do
      let s ← forN p.grid.nx (fun i s => do
        let xc ← p.grid.point 0 i
        forN p.grid.ny (fun j s => do
          let yc ← p.grid.point 1 j
          fn xc yc s) s) s
      pure (p, s)) s
  pure ({ m with quadtree := x.1 }, x.2)

/-- `addMeshFunction(function, name)`.  Mesh.hpp:365-384. -/
def addMeshFunction (M r : Nat) (F : Forest) (fn : K → K → K) (m : Mesh K) : Res (Mesh K) := do
  let x ← m.iteratePatches M r F (fun p (n : Nat) => pure (p, n + p.grid.nx * p.grid.ny)) 0
  let y ← x.1.iterateCells M r F (fun xc yc (s : Vec K × Nat) => do
    let v ← s.1.set s.2 (fn xc yc)
    pure (v, s.2 + 1)) (Vec.zeros x.2, 0)
  pure { y.1 with functions := y.1.functions ++ [y.2.1] }

/-- `addMeshFunction(Vector&)`.  Mesh.hpp:357. -/
def addMeshVector (v : Vec K) (m : Mesh K) : Mesh K := { m with functions := m.functions ++ [v] }

/-- `clearMeshFunctions()`.  Mesh.hpp:390-392. -/
def clearMeshFunctions (m : Mesh K) : Mesh K := { m with functions := [] }

end Mesh

/-! ## Refinement -/

/-- The refinement tree of a p4est, without the owners. -/
inductive Shape
  | leaf
  | node (c0 c1 c2 c3 : Shape)
  deriving DecidableEq

/-- The refinement tree of a distributed forest. -/
def Forest.shape : Forest → Shape
  | .leaf _ => .leaf
  | .node c0 c1 c2 c3 => .node c0.shape c1.shape c2.shape c3.shape

namespace Shape

/-- `p4est_new_ext(…, min_level, fill_uniform = true, …)` with a non-negative level.  Mesh.hpp:120. -/
def uniform : Nat → Shape
  | 0 => leaf
  | n + 1 => node (uniform n) (uniform n) (uniform n) (uniform n)

/-- Recursive refinement of one leaf quadrant; at most `n` times. -/
def grow (M : Nat) (want : Quadrant → Bool) : Nat → Quadrant → Shape
  | 0, _ => leaf
  | n + 1, q => if want q then
      node (grow M want n (q.child M 0)) (grow M want n (q.child M 1)) (grow M want n (q.child M 2))
        (grow M want n (q.child M 3))
    else leaf

/-- `p4est_refine(p4est, 1, want, NULL)`: every leaf is refined while the callback says so, down to
`P4EST_QMAXLEVEL = M - 1`.  Mesh.hpp:131-166. -/
def refine (M : Nat) (want : Quadrant → Bool) : Shape → Quadrant → Shape
  | leaf, q => grow M want (M - 1 - q.level) q
  | node c0 c1 c2 c3, q =>
    node (c0.refine M want (q.child M 0)) (c1.refine M want (q.child M 1)) (c2.refine M want (q.child M 2))
      (c3.refine M want (q.child M 3))

end Shape

section refine
variable [Field K]

/-- The four vertices of the tree, in the order of `tree_to_vertex`. -/
structure Vertices (K : Type) where
  v0 : K × K
  v1 : K × K
  v2 : K × K
  v3 : K × K

/-- `p4est_connectivity_new_square_domain`.  P4est.cpp:7-33. -/
def squareDomain (xl xu yl yu : K) : Vertices K := ⟨(xl, yl), (xu, yl), (xl, yu), (xu, yu)⟩

/-- `p4est_qcoord_to_vertex` on that tree: bilinear interpolation of the four corners at the lattice point.
`P4EST_ROOT_LEN = 2^M`. -/
def qcoordToVertex (M : Nat) (v : Vertices K) (x y : Nat) : K × K :=
  let ex : K := (x : K) / 2 ^ M
  let ey : K := (y : K) / 2 ^ M
  ((1 - ey) * ((1 - ex) * v.v0.1 + ex * v.v1.1) + ey * ((1 - ex) * v.v2.1 + ex * v.v3.1),
    (1 - ey) * ((1 - ex) * v.v0.2 + ex * v.v1.2) + ey * ((1 - ex) * v.v2.2 + ex * v.v3.2))

/-- The refinement callback.  Mesh.hpp:134-163.  The loops return at the first cell with a true centre. -/
def refineCallback (M : Nat) (fn : K → K → Bool) (maxLevel : Nat) (root : Grid K) (q : Quadrant) : Bool :=
  if q.level ≥ maxLevel then false
  else
    let v := squareDomain root.xl root.xu root.yl root.yu
    let lo := qcoordToVertex M v q.x q.y
    let hi := qcoordToVertex M v (q.x + 2 ^ (M - q.level)) (q.y + 2 ^ (M - q.level))
    let dx := (hi.1 - lo.1) / root.nx
    let dy := (hi.2 - lo.2) / root.ny
    (List.range root.nx).any fun i => (List.range root.ny).any fun j =>
      fn (lo.1 + ((i : K) + 1 / 2) * dx) (lo.2 + ((j : K) + 1 / 2) * dy)

/-- The refinement tree before balancing.  Mesh.hpp:111-166. -/
def refinedShape (M : Nat) (fn : K → K → Bool) (minLevel maxLevel : Nat) (root : Grid K) : Shape :=
  (Shape.uniform minLevel).refine M (refineCallback M fn maxLevel root) .root

/-- `refineByFunction(fn, threshold, min_level, max_level, root_patch, node_factory)` on rank `r`, where `F` is the forest
after `p4est_balance` and `p4est_partition` (the threshold is not used).  Mesh.hpp:168-180.  The user pointer of the new
p4est is the mesh. -/
def Mesh.refineByFunction (M r : Nat) (F : Forest) (root : Patch K) (nf : NodeFactory (Patch K)) (m : Mesh K) :
    Res (Mesh K) := do
  let q ← Quadtree.new M r root nf F .other
  setMeshFromQuadtree M r F { m with quadtree := q }

end refine

end EF
