import Verif.Model.Mesh
import Verif.Model.Calls

/-!
# 32-bit integers

The other models have unbounded `int`s.  Here the range of `int` is that of the usual platforms, 32 bits: an operation whose result
does not fit is undefined, and a `std::size_t` that becomes an `int` is taken modulo 2^32.  Covered are the arrays of a mesh, the
solver of a leaf patch, and all messages.

Not covered: `int` loop counters, which stay below a bound that is itself an `int`; the integers inside LAPACK, PETSc and p4est.
-/

namespace EF

variable {K T τ α : Type}

/-- The largest `int`. -/
def intMax : Int := 2147483647

/-- The result of an operation on `int`s. -/
def checked (x : Int) : Res Int := if -intMax - 1 ≤ x ∧ x ≤ intMax then .ok x else .ub

/-- The conversion of a `std::size_t` to `int`. -/
def narrow (n : Int) : Int := n.bmod 4294967296

/-! ## Mesh arrays -/

section mesh
variable [Field K]

/-- Body of the loop over the cells of a leaf.  Mesh.hpp:218-262. -/
def addCell32 (g : Grid K) (i j : Nat) (st : Int × MeshArrays K) : Res (Int × MeshArrays K) := do
  let i1 ← checked ((i : Int) + 1)
  let j1 ← checked ((j : Int) + 1)
  let index := st.1
  let A := st.2
  let c0 ← checked (index + 0)
  let c1 ← checked (index + 1)
  let c2 ← checked (index + 2)
  let c3 ← checked (index + 3)
  let c4 ← checked (index + 4)
  let o1 ← checked (c1 * 4)
  let o2 ← checked (c2 * 4)
  let o3 ← checked (c3 * 4)
  let o4 ← checked (c4 * 4)
  let np ← checked (A.npoints + 4)
  let nc ← checked (A.ncells + 1)
  let x0 := g.xl + (i : K) * g.dx
  let y0 := g.yl + (j : K) * g.dy
  let x1 := g.xl + (i1 : K) * g.dx
  let y2 := g.yl + (j1 : K) * g.dy
  pure (c4,
    { npoints := np
      ncells := nc
      points := A.points.append (Vec.ofList [x0, y0, 0, x1, y0, 0, x1, y2, 0, x0, y2, 0])
      connectivity := A.connectivity.append (Vec.ofList [c0, c1, c2, c3])
      offsets := A.offsets.append (Vec.ofList [o1, o2, o3, o4])
      types := A.types.append (Vec.ofList [9, 9, 9, 9]) })

/-- The loops over the cells of a leaf.  Mesh.hpp:216-264. -/
def addLeaf32 (g : Grid K) (st : Int × MeshArrays K) : Res (Int × MeshArrays K) :=
  forN g.nx (fun i st => forN g.ny (fun j st => addCell32 g i j st) st) st

/-- `setMeshFromQuadtree()` on rank `r`.  Mesh.hpp:186-269. -/
def Mesh.setMeshFromQuadtree32 (M r : Nat) (F : Forest) (m : Mesh K) : Res (Mesh K) := do
  let s ← m.quadtree.traversePreOrder M r F
    (leafVisit fun p st => do
      let st ← addLeaf32 p.grid st
      pure (p, st)) (0, m.arrays)
  pure { m with quadtree := s.1, arrays := s.2.2 }

end mesh

/-! ## The solver of a leaf patch -/

namespace FVSolver

variable [Field K]

/-- `gridIndex2MatrixIndex`.  FiniteVolumeSolver.cpp:17-19. -/
def gridIndex2MatrixIndex32 (i j _nx ny : Int) : Res Int := do
  let a ← checked (i * ny)
  checked (j + a)

/-- The six indices at the head of the loop body.  FiniteVolumeSolver.cpp:87-92. -/
def cellIndices32 (nx ny i j : Int) : Res Unit := do
  let _ ← gridIndex2MatrixIndex32 i j nx ny
  let _ ← gridIndex2MatrixIndex32 (i - 1) j nx ny
  let _ ← gridIndex2MatrixIndex32 (i + 1) j nx ny
  let _ ← gridIndex2MatrixIndex32 i (j - 1) nx ny
  let _ ← gridIndex2MatrixIndex32 i (j + 1) nx ny
  let _ ← gridIndex2MatrixIndex32 i j nx ny
  pure ()

/-- The segments of the boundary data: `0*nside` to `3*nside`.  FiniteVolumeSolver.cpp:29-33, 299-305. -/
def sides32 (grid : Grid K) (g : Vec K) : Res (Sides K) := do
  let nside : Int := grid.nx
  let s0 ← checked (0 * nside)
  let w ← g.getSegment s0.toNat grid.nx
  let s1 ← checked (1 * nside)
  let e ← g.getSegment s1.toNat grid.nx
  let s2 ← checked (2 * nside)
  let s ← g.getSegment s2.toNat grid.nx
  let s3 ← checked (3 * nside)
  let n ← g.getSegment s3.toNat grid.nx
  pure ⟨w, e, s, n⟩

/-- The two assembly loops.  FiniteVolumeSolver.cpp:63-190. -/
def assemble32 (s : FVSolver K) (grid : Grid K) (gs : Sides K) (rhs : Vec K) : Res (Asm K) :=
  forN grid.ny (fun j st => forN grid.nx (fun i st => do
    let _ ← cellIndices32 grid.nx grid.ny i j
    cellStep s grid gs rhs j i st) st) ⟨fun _ _ => 0, fun _ => 0⟩

/-- `solve(grid, dirichlet_data, rhs_data)` with the five point stencil.  FiniteVolumeSolver.cpp:25-223. -/
def solve32 (lu : PetscLU K) (s : FVSolver K) (grid : Grid K) (g rhs : Vec K) : Res (Vec K) := do
  let gs ← sides32 grid g
  let N ← checked ((grid.nx : Int) * grid.ny)
  let st ← assemble32 s grid gs rhs
  pure (Vec.ofList ((List.range N.toNat).map (lu.sol N.toNat st.A st.f)))

/-- The loops filling the values of the cells along the sides.  FiniteVolumeSolver.cpp:318-329. -/
def edgeCells32 (nside : Nat) (u : Vec K) : Res (Sides K) := do
  let we ← forN nside (fun j (st : Vec K × Vec K) => do
    let n1 ← checked ((nside : Int) - 1)
    let p ← checked (n1 * nside)
    let idxE ← checked (p + j)
    let a ← u.get j
    let w ← st.1.set j a
    let b ← u.get idxE.toNat
    let e ← st.2.set j b
    pure (w, e)) (Vec.zeros nside, Vec.zeros nside)
  let sn ← forN nside (fun i (st : Vec K × Vec K) => do
    let idxS ← checked ((i : Int) * nside)
    let i1 ← checked ((i : Int) + 1)
    let p ← checked (i1 * nside)
    let idxN ← checked (p - 1)
    let a ← u.get idxS.toNat
    let s ← st.1.set i a
    let b ← u.get idxN.toNat
    let n ← st.2.set i b
    pure (s, n)) (Vec.zeros nside, Vec.zeros nside)
  pure ⟨we.1, we.2, sn.1, sn.2⟩

/-- `mapD2N(grid, dirichlet_data, rhs_data)`.  FiniteVolumeSolver.cpp:296-353. -/
def mapD2N32 (lu : PetscLU K) (s : FVSolver K) (grid : Grid K) (g rhs : Vec K) : Res (Vec K) := do
  let nside := grid.nx
  let gs ← sides32 grid g
  let u ← s.solve32 lu grid g rhs
  let us ← edgeCells32 nside u
  let dtnx := 2 / grid.dx
  let dtny := 2 / grid.dy
  let hw ← neumannSide nside dtnx us.west gs.west
  let he ← neumannSide nside (-dtnx) us.east gs.east
  let hs ← neumannSide nside dtny us.south gs.south
  let hn ← neumannSide nside (-dtny) us.north gs.north
  let n4 ← checked (4 * (nside : Int))
  let v ← (Vec.zeros n4.toNat : Vec K).setSegment (0 * nside) hw
  let v ← v.setSegment (1 * nside) he
  let v ← v.setSegment (2 * nside) hs
  v.setSegment (3 * nside) hn

end FVSolver

/-! ## Messages

The programs of `Model/MPI.lean` with two differences: the integers they send were put into `int`s, and so is the count given to
MPI.  MPI takes as many elements as the count says; a negative count is an error. -/

namespace MPI

/-- The elements of a buffer as they lie in memory. -/
def narrowAll (k : Kind) (l : List (k.Carrier K)) : List (k.Carrier K) :=
  match k with
  | .int => List.map narrow l
  | .real => l
  | .char => l
  | .bool => l

/-- The count of a buffer. -/
def count (k : Kind) (l : List (k.Carrier K)) : Int := narrow l.length

/-- A sending program.  MPI.hpp:220-221, 346-350, MPI.cpp:51-55, Matrix.hpp:1033-1041. -/
def Sender.on32 : Sender K α → Sender K α
  | .fin r => .fin r
  | .send tag b S =>
    if 0 ≤ count b.kind b.data then .send tag ⟨b.kind, narrowAll b.kind (b.data.take (count b.kind b.data).toNat)⟩ S.on32 else .fin .ub

/-- A receiving program: what lies behind the part that MPI fills stays.  MPI.hpp:236-237, 364-369, MPI.cpp:58-63,
Matrix.hpp:1055-1063. -/
def Receiver.on32 : Receiver K α → Receiver K α
  | .fin r => .fin r
  | .recv tag k old next =>
    if 0 ≤ count k old then
      .recv tag k (old.take (count k old).toNat) (fun l => (next (l ++ old.drop (count k old).toNat)).on32)
    else .fin .ub

/-- A program that broadcasts.  MPI.hpp:250-251, 381-387, MPI.cpp:66-72, Matrix.hpp:1075-1089. -/
def Caster.on32 : Caster K α → Caster K α
  | .fin r => .fin r
  | .bcast root k mine next =>
    if 0 ≤ count k mine then
      .bcast root k (narrowAll k (mine.take (count k mine).toNat)) (fun l => (next (l ++ mine.drop (count k mine).toNat)).on32)
    else .fin .ub

end MPI
end EF
