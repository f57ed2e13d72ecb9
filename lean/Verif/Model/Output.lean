import Verif.Model.Number
import Verif.Model.ParallelHPS
import Verif.Model.Thermal
import Mathlib.Algebra.Field.Rat
import Mathlib.Algebra.Order.Ring.Rat

/-!
# The example programs with their files

`examples/elliptic-single/main.cpp` and `examples/thermal/main.cpp` from the refinement to the files, on one rank of a
communicator.  A `double` is a rational number here, since the numbers become text.

Left out: options, messages, the file of the quadtree written by p4est.  A mesh holds its functions by value (with pointers they
give the same files, see `Model/MeshPointers.lean` and C77); their names are listed where the files are written, in the order in which the
program adds the functions.  A loop with a `double` bound has as many passes as integers up to the bound.
-/

namespace EF

/-! ## A mesh as the writers see it -/

/-- `getNumberOfPoints()` and the following functions, with the names, types and numbers of components the arrays have.
Mesh.hpp:188-195, 271-312; Vector.hpp:45-62. -/
def MeshArrays.umesh (A : MeshArrays ℚ) : UMesh where
  npoints := intText A.npoints
  ncells := intText A.ncells
  points := A.points.dataArr decimalText "Float32".toList "points".toList "3".toList
  connectivity := A.connectivity.dataArr intText "Int64".toList "connectivity".toList "1".toList
  offsets := A.offsets.dataArr intText "Int64".toList "offsets".toList "1".toList
  types := A.types.dataArr intText "Int64".toList "types".toList "1".toList

/-- The mesh functions as data arrays.  Vector.hpp:45-62, 684-753. -/
def Mesh.functionArrays (names : List Text) (m : Mesh ℚ) : List DataArr :=
  (names.zip m.functions).map fun p => p.2.dataArr decimalText "Float32".toList p.1 "1".toList

/-- `toVTK(baseFilename, number)` of a mesh whose functions have the given names.  Mesh.hpp:398-424. -/
def Mesh.toVTK (m : Mesh ℚ) (names : List Text) (P : Place) (stack : Nat) (base : Text) (number : Option Nat) (h : Heap) :
    Res (Heap × List (Text × Text)) :=
  meshToVTK m.arrays.umesh (m.functionArrays names) P.rank P.size stack base number h

/-! ## examples/elliptic-single -/

/-- The names of the mesh functions.  examples/elliptic-single/main.cpp:224-270. -/
def exampleNames : List Text :=
  ["u_soln".toList, "f_rhs".toList, "alpha_fn".toList, "beta_fn".toList, "lambda_fn".toList, "u_exact".toList]

/-- The example program with its output: the files of this rank.  `h` is the memory the program starts the output with.
examples/elliptic-single/main.cpp:164-277. -/
def exampleFiles (P : Place) (lap : Lapack ℚ) (ps : PatchSolver ℚ) (s : FVSolver ℚ) (opt : HPSOptions) (root : Patch ℚ)
    (f : ℚ → ℚ → ℚ) (bc : HPS.BoundaryFn ℚ) (exact : ℚ → ℚ → ℚ) (n stack : Nat) (h : Heap) :
    Prog (Patch ℚ) (List (Text × Text)) := do
  let mesh ← exampleMain P lap ps opt root f bc n
  let mesh ← Prog.fin (mesh.addMeshFunction P.M P.rank P.forest s.alpha)
  let mesh ← Prog.fin (mesh.addMeshFunction P.M P.rank P.forest s.beta)
  let mesh ← Prog.fin (mesh.addMeshFunction P.M P.rank P.forest s.lambda)
  let mesh ← Prog.fin (mesh.addMeshFunction P.M P.rank P.forest exact)
  let x ← Prog.fin (mesh.toVTK exampleNames P stack "elliptic".toList none h)
  pure x.2

/-! ## examples/thermal -/

namespace Thermal

/-- The stages of one pass on one rank.  examples/thermal/main.cpp:289-355. -/
def stepOn {K : Type} [Field K] (P : Place) (lap : Lapack K) (ps : PatchSolver K) (opt : HPSOptions) (c : Thermal K) (n : Nat)
    (A : HPSRank K) : Prog (Patch K) (HPSRank K) := do
  let A ← A.upwardsStage P lap ps opt (c.load n)
  A.solveStageAnalytic P lap ps opt (c.boundary n)

/-- The names of the mesh functions.  examples/thermal/main.cpp:366-405. -/
def names : List Text := ["u_soln".toList, "f_rhs".toList, "alpha_fn".toList, "beta_fn".toList, "lambda_fn".toList]

/-- The output of one pass, with number `k`.  examples/thermal/main.cpp:362-410. -/
def write (P : Place) (s : FVSolver ℚ) (stack k : Nat) (A : HPSRank ℚ) (h : Heap) :
    Res (HPSRank ℚ × Heap × List (Text × Text)) := do
  let mesh := A.mesh.clearMeshFunctions
  let x ← mesh.quadtree.traversePreOrder P.M P.rank P.forest
    (leafVisit fun p (s : Vec ℚ × Vec ℚ) => pure (p, (s.1.append p.u, s.2.append p.f))) (Vec.empty, Vec.empty)
  let mesh := ({ mesh with quadtree := x.1 }.addMeshVector x.2.1).addMeshVector x.2.2
  let mesh ← mesh.addMeshFunction P.M P.rank P.forest s.alpha
  let mesh ← mesh.addMeshFunction P.M P.rank P.forest s.beta
  let mesh ← mesh.addMeshFunction P.M P.rank P.forest s.lambda
  let y ← mesh.toVTK names P stack "thermal".toList (some k) h
  pure ({ A with mesh := mesh }, y.1, y.2)

/-- The variables of the loop and the files written so far, output by output.  examples/thermal/main.cpp:286-287. -/
structure State where
  rank : HPSRank ℚ
  nOutput : Nat
  heap : Heap
  files : List (List (Text × Text))

/-- One pass of the loop.  `n % n_vtk` with `n_vtk = 0` is undefined behaviour.  examples/thermal/main.cpp:287-414. -/
def pass (P : Place) (lap : Lapack ℚ) (ps : PatchSolver ℚ) (s : FVSolver ℚ) (opt : HPSOptions) (c : Thermal ℚ) (vtk : Bool)
    (nVtk : Int) (stack n : Nat) (st : State) : Prog (Patch ℚ) State := do
  let A ← stepOn P lap ps opt c n st.rank
  if vtk then
    if nVtk = 0 then Prog.fin .ub
    else if (n : Int).tmod nVtk = 0 then do
      let x ← Prog.fin (write P s stack st.nOutput A st.heap)
      pure ⟨x.1, st.nOutput + 1, x.2.1, st.files ++ [x.2.2]⟩
    else pure { st with rank := A }
  else pure { st with rank := A }

/-- The first `k` passes of the loop.  examples/thermal/main.cpp:287. -/
def passes (P : Place) (lap : Lapack ℚ) (ps : PatchSolver ℚ) (s : FVSolver ℚ) (opt : HPSOptions) (c : Thermal ℚ) (vtk : Bool)
    (nVtk : Int) (stack : Nat) : Nat → State → Prog (Patch ℚ) State
  | 0, st => pure st
  | k + 1, st => do
    let st ← passes P lap ps s opt c vtk nVtk stack k st
    pass P lap ps s opt c vtk nVtk stack k st

/-- The program: the files of this rank, output by output.  examples/thermal/main.cpp:236-418. -/
def main (P : Place) (lap : Lapack ℚ) (ps : PatchSolver ℚ) (s : FVSolver ℚ) (opt : HPSOptions) (root : Patch ℚ) (c : Thermal ℚ)
    (nt : Nat) (vtk : Bool) (nVtk : Int) (stack : Nat) (h : Heap) : Prog (Patch ℚ) (List (List (Text × Text))) := do
  let mesh ← Prog.fin (Mesh.refineByFunction P.M P.rank P.forest root FVFactory.factory Mesh.blank)
  let A ← HPSRank.setupStage P ⟨mesh, none⟩
  let A ← A.buildStage P lap ps opt
  let st ← passes P lap ps s opt c vtk nVtk stack (nt + 1) ⟨A, 0, h, []⟩
  pure st.files

end Thermal
end EF
