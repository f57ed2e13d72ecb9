import Verif.Model.FiniteVolume
import Verif.Model.Mesh

/-!
# The stages of the solver on the ranks of a communicator

The stages of `Model/HPS.lean` work on a tree in one piece.  Here every rank has its own solver object and its own part of
the quadtree, and runs the stages as a program with collective operations.  As in `Model/Quadtree.lean` the broadcast of a node is
one step that delivers the node (what the code does inside it is in `Model/MPI.lean`, see C40 and C66).
-/

namespace EF

variable {K T : Type}

/-- `MPI_Barrier(comm)` on a communicator of `size` ranks: a collective of all of them that hands out nothing.  It is
modelled as a reduction whose result nobody looks at.  The name is that of the communicator of the solver, which is not the one
of a quadrant.  HPSAlgorithm.hpp:94, 122, 180, 227, 345. -/
def barrier (size : Nat) : Prog T Unit := .allMax 0 (size - 1) [] 0 (fun _ => pure ())

/-- What rank `r` knows of its surroundings: the number of ranks of the solver's communicator, the level p4est stops at, and
the forest (of which it uses what p4est tells it). -/
structure Place where
  M : Nat
  size : Nat
  rank : Nat
  forest : Forest

/-- An `HPSAlgorithm` object on one rank: the mesh it refers to and its cache (only the entry `T_leaf` is used).
HPSAlgorithm.hpp:27-53. -/
structure HPSRank (K : Type) where
  mesh : Mesh K
  cache : Option (Mat K)

namespace HPSRank

variable [Field K]

/-- Replace the quadtree of the mesh. -/
def withTree (A : HPSRank K) (q : Quadtree (Patch K)) : HPSRank K := { A with mesh := { A.mesh with quadtree := q } }

/-- `setupStage()`: nothing but a barrier (and log messages and timers).  HPSAlgorithm.hpp:90-106. -/
def setupStage (P : Place) (A : HPSRank K) : Prog (Patch K) (HPSRank K) := do
  barrier P.size
  pure A

/-- `buildStage()`.  HPSAlgorithm.hpp:120-161. -/
def buildStage (P : Place) (lap : Lapack K) (ps : PatchSolver K) (opt : HPSOptions) (A : HPSRank K) :
    Prog (Patch K) (HPSRank K) := do
  barrier P.size
  let x ← A.mesh.quadtree.merge P.M P.rank P.forest .broadcast (onData (HPS.buildLeaf ps opt)) (onFamily (HPS.merge4to1 lap)) A.cache
  pure { A.withTree x.1 with cache := x.2 }

/-- `upwardsStage(rhs_patch_function)`.  HPSAlgorithm.hpp:178-216. -/
def upwardsStage (P : Place) (lap : Lapack K) (ps : PatchSolver K) (opt : HPSOptions) (rhs : Patch K → Res (Patch K))
    (A : HPSRank K) : Prog (Patch K) (HPSRank K) := do
  barrier P.size
  let x ← A.mesh.quadtree.merge P.M P.rank P.forest .broadcast (onData (stateless (HPS.upwardsLeaf ps rhs)))
    (onFamily (HPS.upwards4to1 lap opt)) ()
  pure (A.withTree x.1)

/-- `upwardsStage(rhs_function)`.  HPSAlgorithm.hpp:225-272. -/
def upwardsStageAnalytic (P : Place) (lap : Lapack K) (ps : PatchSolver K) (opt : HPSOptions) (f : K → K → K)
    (A : HPSRank K) : Prog (Patch K) (HPSRank K) := do
  barrier P.size
  let x ← A.mesh.quadtree.merge P.M P.rank P.forest .broadcast (onData (stateless (HPS.upwardsLeafAnalytic ps f)))
    (onFamily (HPS.upwards4to1 lap opt)) ()
  pure (A.withTree x.1)

/-- Change the patch `root()` refers to.  Quadtree.hpp:367-369. -/
def onRoot {T : Type} (fn : T → Res T) (q : Quadtree T) : Res (Quadtree T) :=
  match (q.map.get ['0']).1 with
  | some n => do
    let d ← fn n.data
    pure { q with map := q.map.set ['0'] (some { n with data := d }) }
  | none => .ub

/-- The end of both `solveStage`s: the split.  HPSAlgorithm.hpp:301-319, 426-444. -/
def splitDown (P : Place) (ps : PatchSolver K) (opt : HPSOptions) (A : HPSRank K) : Prog (Patch K) (HPSRank K) := do
  let x ← A.mesh.quadtree.split P.M P.rank P.forest .broadcast (onData (stateless (HPS.leafSolve ps opt)))
    (onFamily (HPS.split1to4 opt)) ()
  pure (A.withTree x.1)

/-- `solveStage(boundary_data_function)`: the callback changes this rank's copy of the root; there is no barrier.
HPSAlgorithm.hpp:291-324. -/
def solveStage (P : Place) (ps : PatchSolver K) (opt : HPSOptions) (bdry : Patch K → Res (Patch K)) (A : HPSRank K) :
    Prog (Patch K) (HPSRank K) := do
  let q ← Prog.fin (onRoot bdry A.mesh.quadtree)
  splitDown P ps opt (A.withTree q)

/-- `solveStage(boundary_analytical_function)`: every rank computes the Dirichlet data of its copy of the root.
HPSAlgorithm.hpp:343-445. -/
def solveStageAnalytic (P : Place) (lap : Lapack K) (ps : PatchSolver K) (opt : HPSOptions) (bc : HPS.BoundaryFn K)
    (A : HPSRank K) : Prog (Patch K) (HPSRank K) := do
  barrier P.size
  let q ← Prog.fin (onRoot (fun root => do
    let g ← HPS.rootDirichlet lap bc root
    pure { root with g := g }) A.mesh.quadtree)
  splitDown P ps opt (A.withTree q)

/-- The loop over solves with functions for the load and the boundary condition.
examples/elliptic-single/main.cpp:204-217. -/
def solves (P : Place) (lap : Lapack K) (ps : PatchSolver K) (opt : HPSOptions) (f : K → K → K) (bc : HPS.BoundaryFn K) :
    Nat → HPSRank K → Prog (Patch K) (HPSRank K)
  | 0, A => pure A
  | n + 1, A => do
    let A ← A.upwardsStageAnalytic P lap ps opt f
    let A ← A.solveStageAnalytic P lap ps opt bc
    solves P lap ps opt f bc n A

end HPSRank

/-- A default constructed mesh: no quadtree yet, empty arrays.  Mesh.hpp:68-70. -/
def Mesh.blank [Field K] : Mesh K := ⟨⟨fun _ => none, .null⟩, MeshArrays.new, []⟩

/-- The example program, without options, messages and files: refine, set up, build, solve `n` times, collect the solution
and the load of the leaves of this rank in vectors, add them to the mesh.  `P.forest` is the forest p4est ends with.
examples/elliptic-single/main.cpp:164-244. -/
def exampleMain [Field K] (P : Place) (lap : Lapack K) (ps : PatchSolver K) (opt : HPSOptions) (root : Patch K)
    (f : K → K → K) (bc : HPS.BoundaryFn K) (n : Nat) : Prog (Patch K) (Mesh K) := do
  let mesh ← Prog.fin (Mesh.refineByFunction P.M P.rank P.forest root FVFactory.factory Mesh.blank)
  let A ← HPSRank.setupStage P ⟨mesh, none⟩
  let A ← A.buildStage P lap ps opt
  let A ← A.solves P lap ps opt f bc n
  let x ← Prog.fin (A.mesh.quadtree.traversePreOrder P.M P.rank P.forest
    (leafVisit fun p (s : Vec K × Vec K) => pure (p, (s.1.append p.u, s.2.append p.f))) (Vec.empty, Vec.empty))
  pure (({ A.mesh with quadtree := x.1 }.addMeshVector x.2.1).addMeshVector x.2.2)

end EF
