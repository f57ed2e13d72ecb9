import Verif.Model.Output

/-!
# Mesh functions by reference

`Mesh` keeps pointers to the vectors of its functions: to a vector of the caller, or to one made by `new`.  `Model/Mesh.lean` has
the functions by value; here they are in memory, with the lifetimes of the vectors, and the example programs and arbitrary
sequences of calls run on that.

An address is never given out twice: a pointer to a vector whose life has ended stays invalid even when a new vector comes to
lie at the same place.
-/

namespace EF

/-- The vectors in memory with their names; `cells` below `next` were given out. -/
structure Vectors where
  cells : Nat → Option (Text × Vec ℚ)
  next : Nat

namespace Vectors

/-- A new vector, by a declaration or by `new`. -/
def alloc (V : Vectors) (x : Text × Vec ℚ) : Vectors × Nat :=
  (⟨fun a => if a = V.next then some x else V.cells a, V.next + 1⟩, V.next)

/-- A change of a vector. -/
def assign (V : Vectors) (a : Nat) (x : Text × Vec ℚ) : Vectors := ⟨fun b => if b = a then some x else V.cells b, V.next⟩

/-- The end of the life of a vector. -/
def kill (V : Vectors) (a : Nat) : Vectors := ⟨fun b => if b = a then none else V.cells b, V.next⟩

/-- The number of vectors in memory. -/
def live (V : Vectors) : Nat := (List.range V.next).countP fun a => (V.cells a).isSome

end Vectors

/-- `Mesh<FiniteVolumePatch>` on one rank.  Mesh.hpp:30-62. -/
structure PMesh where
  quadtree : Quadtree (Patch ℚ)
  arrays : MeshArrays ℚ
  functions : List Nat

namespace PMesh

/-- The members the traversals work on. -/
def bare (m : PMesh) : Mesh ℚ := ⟨m.quadtree, m.arrays, []⟩

/-- `addMeshFunction(Vector&)`: keeps the address.  Mesh.hpp:357. -/
def addMeshVector (a : Nat) (m : PMesh) : PMesh := { m with functions := m.functions ++ [a] }

/-- `addMeshFunction(function, name)`: a vector made by `new`; it is put into memory with its entries here.  Mesh.hpp:365-384. -/
def addMeshFunction (M r : Nat) (F : Forest) (fn : ℚ → ℚ → ℚ) (name : Text) (m : PMesh) (V : Vectors) : Res (PMesh × Vectors) := do
  let x ← m.bare.iteratePatches M r F (fun p (n : Nat) => pure (p, n + p.grid.nx * p.grid.ny)) 0
  let y ← x.1.iterateCells M r F (fun xc yc (s : Vec ℚ × Nat) => do
    let v ← s.1.set s.2 (fn xc yc)
    pure (v, s.2 + 1)) (Vec.zeros x.2, 0)
  let V := V.alloc (name, y.2.1)
  pure (⟨y.1.quadtree, y.1.arrays, m.functions ++ [V.2]⟩, V.1)

/-- `clearMeshFunctions()`: forgets the addresses and deletes nothing.  Mesh.hpp:390-392. -/
def clearMeshFunctions (m : PMesh) : PMesh := { m with functions := [] }

/-- `toVTK(baseFilename, number)`: follows the pointers.  Mesh.hpp:398-424. -/
def toVTK (m : PMesh) (V : Vectors) (P : Place) (stack : Nat) (base : Text) (number : Option Nat) (h : Heap) :
    Res (Heap × List (Text × Text)) :=
  followAll V.cells m.functions >>= fun fs =>
  meshToVTK m.arrays.umesh (fs.map fun p => p.2.dataArr decimalText "Float32".toList p.1 "1".toList) P.rank P.size stack base number h

end PMesh

/-! ## Sequences of calls -/

/-- What a program does with a mesh and its own vectors; vectors are numbered in the order of their declarations. -/
inductive MeshCall where
  /-- a new vector with name and entries -/
  | declare (name : Text) (v : Vec ℚ)
  /-- other entries for a vector -/
  | change (i : Nat) (v : Vec ℚ)
  /-- a vector leaves its scope -/
  | destroy (i : Nat)
  | addVector (i : Nat)
  | addFunction (fn : ℚ → ℚ → ℚ) (name : Text)
  | clear
  | write (base : Text) (number : Option Nat)

/-- The program's side of things: the mesh, the memory, the addresses of the vectors declared, and the files written, call by
call. -/
structure MeshUse where
  mesh : PMesh
  vecs : Vectors
  vars : List Nat
  heap : Heap
  files : List (List (Text × Text))

namespace MeshUse

/-- A use of vector `i`; it must be in scope. -/
def use (st : MeshUse) (i : Nat) : Res (Nat × Text × Vec ℚ) :=
  match st.vars[i]? with
  | none => .ub
  | some a => follow st.vecs.cells a >>= fun x => pure (a, x)

/-- One call.  Mesh.hpp:357-424. -/
def call (P : Place) (stack : Nat) (st : MeshUse) : MeshCall → Res MeshUse
  | .declare name v => pure { st with vecs := (st.vecs.alloc (name, v)).1, vars := st.vars ++ [(st.vecs.alloc (name, v)).2] }
  | .change i v => do
    let x ← st.use i
    pure { st with vecs := st.vecs.assign x.1 (x.2.1, v) }
  | .destroy i => do
    let x ← st.use i
    pure { st with vecs := st.vecs.kill x.1 }
  | .addVector i => do
    let x ← st.use i
    pure { st with mesh := st.mesh.addMeshVector x.1 }
  | .addFunction fn name => do
    let x ← st.mesh.addMeshFunction P.M P.rank P.forest fn name st.vecs
    pure { st with mesh := x.1, vecs := x.2 }
  | .clear => pure { st with mesh := st.mesh.clearMeshFunctions }
  | .write base number => do
    let x ← st.mesh.toVTK st.vecs P stack base number st.heap
    pure { st with heap := x.1, files := st.files ++ [x.2] }

/-- A sequence of calls. -/
def calls (P : Place) (stack : Nat) (cs : List MeshCall) (st : MeshUse) : Res MeshUse := cs.foldlM (call P stack) st

end MeshUse

/-! ## The example programs -/

/-- The output of `examples/elliptic-single`: the vectors end with the block.  examples/elliptic-single/main.cpp:222-277. -/
def examplePointers (P : Place) (lap : Lapack ℚ) (ps : PatchSolver ℚ) (s : FVSolver ℚ) (opt : HPSOptions) (root : Patch ℚ)
    (f : ℚ → ℚ → ℚ) (bc : HPS.BoundaryFn ℚ) (exact : ℚ → ℚ → ℚ) (n stack : Nat) (V : Vectors) (h : Heap) :
    Prog (Patch ℚ) (Vectors × List (Text × Text)) := do
  let mesh ← Prog.fin (Mesh.refineByFunction P.M P.rank P.forest root FVFactory.factory Mesh.blank)
  let A ← HPSRank.setupStage P ⟨mesh, none⟩
  let A ← A.buildStage P lap ps opt
  let A ← A.solves P lap ps opt f bc n
  let u := V.alloc ("u_soln".toList, Vec.empty)
  let f := u.1.alloc ("f_rhs".toList, Vec.empty)
  let x ← Prog.fin (A.mesh.quadtree.traversePreOrder P.M P.rank P.forest
    (leafVisit fun p (s : Vec ℚ × Vec ℚ) => pure (p, (s.1.append p.u, s.2.append p.f))) (Vec.empty, Vec.empty))
  let V := (f.1.assign u.2 ("u_soln".toList, x.2.1)).assign f.2 ("f_rhs".toList, x.2.2)
  let mesh : PMesh := ((⟨x.1, A.mesh.arrays, []⟩ : PMesh).addMeshVector u.2).addMeshVector f.2
  let y ← Prog.fin (mesh.addMeshFunction P.M P.rank P.forest s.alpha "alpha_fn".toList V)
  let y ← Prog.fin (y.1.addMeshFunction P.M P.rank P.forest s.beta "beta_fn".toList y.2)
  let y ← Prog.fin (y.1.addMeshFunction P.M P.rank P.forest s.lambda "lambda_fn".toList y.2)
  let y ← Prog.fin (y.1.addMeshFunction P.M P.rank P.forest exact "u_exact".toList y.2)
  let z ← Prog.fin (y.1.toVTK y.2 P stack "elliptic".toList none h)
  pure ((y.2.kill f.2).kill u.2, z.2)

namespace Thermal

/-- The variables of the loop, with the mesh by reference and the memory.  examples/thermal/main.cpp:286-287. -/
structure PState where
  mesh : PMesh
  cache : Option (Mat ℚ)
  vecs : Vectors
  nOutput : Nat
  heap : Heap
  files : List (List (Text × Text))

/-- The output of one pass: the vectors `uMesh` and `fMesh` end with the block, the mesh keeps their addresses.
examples/thermal/main.cpp:362-410. -/
def writePointers (P : Place) (s : FVSolver ℚ) (stack : Nat) (st : PState) : Res PState := do
  let mesh := st.mesh.clearMeshFunctions
  let u := st.vecs.alloc ("u_soln".toList, Vec.empty)
  let f := u.1.alloc ("f_rhs".toList, Vec.empty)
  let x ← mesh.quadtree.traversePreOrder P.M P.rank P.forest
    (leafVisit fun p (s : Vec ℚ × Vec ℚ) => pure (p, (s.1.append p.u, s.2.append p.f))) (Vec.empty, Vec.empty)
  let V := (f.1.assign u.2 ("u_soln".toList, x.2.1)).assign f.2 ("f_rhs".toList, x.2.2)
  let mesh := ({ mesh with quadtree := x.1 }.addMeshVector u.2).addMeshVector f.2
  let y ← mesh.addMeshFunction P.M P.rank P.forest s.alpha "alpha_fn".toList V
  let y ← y.1.addMeshFunction P.M P.rank P.forest s.beta "beta_fn".toList y.2
  let y ← y.1.addMeshFunction P.M P.rank P.forest s.lambda "lambda_fn".toList y.2
  let z ← y.1.toVTK y.2 P stack "thermal".toList (some st.nOutput) st.heap
  pure ⟨y.1, st.cache, (y.2.kill f.2).kill u.2, st.nOutput + 1, z.1, st.files ++ [z.2]⟩

/-- One pass of the loop.  examples/thermal/main.cpp:287-414. -/
def passPointers (P : Place) (lap : Lapack ℚ) (ps : PatchSolver ℚ) (s : FVSolver ℚ) (opt : HPSOptions) (c : Thermal ℚ) (vtk : Bool)
    (nVtk : Int) (stack n : Nat) (st : PState) : Prog (Patch ℚ) PState := do
  let A ← stepOn P lap ps opt c n ⟨st.mesh.bare, st.cache⟩
  let st := { st with mesh := ⟨A.mesh.quadtree, A.mesh.arrays, st.mesh.functions⟩, cache := A.cache }
  if vtk then
    if nVtk = 0 then Prog.fin .ub
    else if (n : Int).tmod nVtk = 0 then Prog.fin (writePointers P s stack st)
    else pure st
  else pure st

/-- The first `k` passes of the loop.  examples/thermal/main.cpp:287. -/
def passesPointers (P : Place) (lap : Lapack ℚ) (ps : PatchSolver ℚ) (s : FVSolver ℚ) (opt : HPSOptions) (c : Thermal ℚ) (vtk : Bool)
    (nVtk : Int) (stack : Nat) : Nat → PState → Prog (Patch ℚ) PState
  | 0, st => pure st
  | k + 1, st => do
    let st ← passesPointers P lap ps s opt c vtk nVtk stack k st
    passPointers P lap ps s opt c vtk nVtk stack k st

/-- The program: the vectors left in memory and the files of this rank, output by output.  examples/thermal/main.cpp:236-418. -/
def mainPointers (P : Place) (lap : Lapack ℚ) (ps : PatchSolver ℚ) (s : FVSolver ℚ) (opt : HPSOptions) (root : Patch ℚ) (c : Thermal ℚ)
    (nt : Nat) (vtk : Bool) (nVtk : Int) (stack : Nat) (V : Vectors) (h : Heap) :
    Prog (Patch ℚ) (Vectors × List (List (Text × Text))) := do
  let mesh ← Prog.fin (Mesh.refineByFunction P.M P.rank P.forest root FVFactory.factory Mesh.blank)
  let A ← HPSRank.setupStage P ⟨mesh, none⟩
  let A ← A.buildStage P lap ps opt
  let st ← passesPointers P lap ps s opt c vtk nVtk stack (nt + 1) ⟨⟨A.mesh.quadtree, A.mesh.arrays, []⟩, A.cache, V, 0, h, []⟩
  pure (st.vecs, st.files)

end Thermal
end EF
