import Verif.Model.ParallelHPS

/-!
# Collective calls of the leaf solver

`FiniteVolumeSolver::solve` with the five-point stencil makes two index sets on `MPI_COMM_WORLD` (FiniteVolumeSolver.cpp:200-201), on
whatever rank it is called.  `Model/ParallelHPS.lean` has the leaf solver as a function without communication; here are the same stages with
these calls.

PETSc is external.  From its manual: `ISCreateGeneral` is collective on its communicator.  (It adds up the lengths of all ranks.)

Simplifications: the calls made while a leaf is worked on come before the work, whose result does not depend on them; all leaves have `N`
cells per side (FiniteVolumeNodeFactory.cpp:24-58 hands `nx` on); a leaf p4est visits on a rank is one the rank works on, which is what the
constructor of the quadtree sets up.
-/

namespace EF

variable {K T τ : Type}

/-- What tells these calls from others. -/
def indexSetName : Text := "ISCreateGeneral".toList

/-- `n` calls of `ISCreateGeneral(MPI_COMM_WORLD, …)`, a collective of all ranks.  FiniteVolumeSolver.cpp:200-201. -/
def indexSets (size : Nat) : Nat → Prog T Unit
  | 0 => pure ()
  | n + 1 => .allMax 0 (size - 1) indexSetName 0 (fun _ => indexSets size n)

/-- A callback of a traversal with the calls made on a leaf; how many may depend on the state.  HPSAlgorithm.hpp:129-143, 239-254, 426-430. -/
def withIndexSets (size : Nat) (calls : τ → Nat) (cb : Quadrant → Bool → NodeMap T × τ → Prog T ((NodeMap T × τ) × Bool)) (q : Quadrant)
    (isLeaf : Bool) (s : NodeMap T × τ) : Prog T ((NodeMap T × τ) × Bool) := do
  indexSets size (if isLeaf then calls s.2 else 0)
  cb q isLeaf s

namespace Quadtree

variable [Inhabited T]

/-- `merge` with the calls.  Quadtree.hpp:322-337. -/
def mergeWorld (size : Nat) (calls : τ → Nat) (M r : Nat) (F : Forest) (pol : Policy) (leafFn : Node T → τ → Res ((Node T × τ) × Bool))
    (famFn : Fam (Node T) → τ → Res ((Fam (Node T) × τ) × Bool)) (Q : Quadtree T) (t : τ) : Prog T (Quadtree T × τ) := do
  let s ← searchPost M r (withIndexSets size calls (mergeSplit M r Q.userPointer pol leafFn famFn)) F .root (Q.map, t)
  pure (⟨s.1, Q.userPointer⟩, s.2)

/-- `split` with the calls.  Quadtree.hpp:345-361. -/
def splitWorld (size : Nat) (calls : τ → Nat) (M r : Nat) (F : Forest) (pol : Policy) (leafFn : Node T → τ → Res ((Node T × τ) × Bool))
    (famFn : Fam (Node T) → τ → Res ((Fam (Node T) × τ) × Bool)) (Q : Quadtree T) (t : τ) : Prog T (Quadtree T × τ) := do
  let s ← searchPre M r (withIndexSets size calls (mergeSplit M r Q.userPointer pol leafFn famFn)) F .root (Q.map, t)
  pure (⟨s.1, Q.userPointer⟩, s.2)

end Quadtree

namespace HPSRank

variable [Field K]

/-- The calls of `buildD2N` on a leaf: a solve for every column, `4 N` of them, unless the operator is in the cache.
FiniteVolumeSolver.cpp:355-453 (without `DTN_OPTIMIZE`, which nothing defines), HPSAlgorithm.hpp:129-143. -/
def buildCalls (N : Nat) (opt : HPSOptions) (cache : Option (Mat K)) : Nat :=
  if opt.cacheOperators ∧ cache.isSome then 0 else 2 * (4 * N)

/-- `buildStage()`.  HPSAlgorithm.hpp:120-161. -/
def buildStageWorld (N : Nat) (P : Place) (lap : Lapack K) (ps : PatchSolver K) (opt : HPSOptions) (A : HPSRank K) :
    Prog (Patch K) (HPSRank K) := do
  barrier P.size
  let x ← A.mesh.quadtree.mergeWorld P.size (buildCalls N opt) P.M P.rank P.forest .broadcast (onData (HPS.buildLeaf ps opt))
    (onFamily (HPS.merge4to1 lap)) A.cache
  pure { A.withTree x.1 with cache := x.2 }

/-- `upwardsStage(rhs_function)`: one solve on every leaf, in `particularNeumannData`.  HPSAlgorithm.hpp:225-272,
FiniteVolumeSolver.cpp:457-461. -/
def upwardsStageWorld (P : Place) (lap : Lapack K) (ps : PatchSolver K) (opt : HPSOptions) (f : K → K → K) (A : HPSRank K) :
    Prog (Patch K) (HPSRank K) := do
  barrier P.size
  let x ← A.mesh.quadtree.mergeWorld P.size (fun _ => 2) P.M P.rank P.forest .broadcast (onData (stateless (HPS.upwardsLeafAnalytic ps f)))
    (onFamily (HPS.upwards4to1 lap opt)) ()
  pure (A.withTree x.1)

/-- The split: one solve on every leaf.  HPSAlgorithm.hpp:301-319, 426-444, 585-595. -/
def splitDownWorld (P : Place) (ps : PatchSolver K) (opt : HPSOptions) (A : HPSRank K) : Prog (Patch K) (HPSRank K) := do
  let x ← A.mesh.quadtree.splitWorld P.size (fun _ => 2) P.M P.rank P.forest .broadcast (onData (stateless (HPS.leafSolve ps opt)))
    (onFamily (HPS.split1to4 opt)) ()
  pure (A.withTree x.1)

/-- `solveStage(boundary_analytical_function)`.  HPSAlgorithm.hpp:343-445. -/
def solveStageWorld (P : Place) (lap : Lapack K) (ps : PatchSolver K) (opt : HPSOptions) (bc : HPS.BoundaryFn K) (A : HPSRank K) :
    Prog (Patch K) (HPSRank K) := do
  barrier P.size
  let q ← Prog.fin (onRoot (fun root => do
    let g ← HPS.rootDirichlet lap bc root
    pure { root with g := g }) A.mesh.quadtree)
  splitDownWorld P ps opt (A.withTree q)

/-- The loop over solves.  examples/elliptic-single/main.cpp:204-217. -/
def solvesWorld (P : Place) (lap : Lapack K) (ps : PatchSolver K) (opt : HPSOptions) (f : K → K → K) (bc : HPS.BoundaryFn K) :
    Nat → HPSRank K → Prog (Patch K) (HPSRank K)
  | 0, A => pure A
  | n + 1, A => do
    let A ← A.upwardsStageWorld P lap ps opt f
    let A ← A.solveStageWorld P lap ps opt bc
    solvesWorld P lap ps opt f bc n A

end HPSRank

/-- The example program with the five-point stencil.  examples/elliptic-single/main.cpp:164-244. -/
def exampleMainWorld [Field K] (N : Nat) (P : Place) (lap : Lapack K) (ps : PatchSolver K) (opt : HPSOptions) (root : Patch K)
    (f : K → K → K) (bc : HPS.BoundaryFn K) (n : Nat) : Prog (Patch K) (Mesh K) := do
  let mesh ← Prog.fin (Mesh.refineByFunction P.M P.rank P.forest root FVFactory.factory Mesh.blank)
  let A ← HPSRank.setupStage P ⟨mesh, none⟩
  let A ← A.buildStageWorld N P lap ps opt
  let A ← A.solvesWorld P lap ps opt f bc n
  let x ← Prog.fin (A.mesh.quadtree.traversePreOrder P.M P.rank P.forest
    (leafVisit fun p (s : Vec K × Vec K) => pure (p, (s.1.append p.u, s.2.append p.f))) (Vec.empty, Vec.empty))
  pure (({ A.mesh with quadtree := x.1 }.addMeshVector x.2.1).addMeshVector x.2.2)

end EF
