import Verif.Model.ParallelHPS
import Mathlib.Algebra.Order.Group.Unbundled.Abs

/-!
# The errors a convergence study reports

Model of `solveEllipticViaHPS` of `examples/elliptic-multiple/main.cpp` from the refinement of the mesh to the results, without
options, files (`vtk-flag` is false unless set), timers and the size of the data (which is in `Model/Memory.lean`), and of the loop of
`examples/patch-solver/main.cpp`.  `sqrt` is a parameter.
-/

namespace EF

open HPS

variable {K : Type} [Field K] [LinearOrder K]

/-- The local variables of the loop over the leaves.  examples/elliptic-multiple/main.cpp:347-350. -/
structure ErrorSums (K : Type) where
  l1 : K
  l2 : K
  lI : K
  leaves : Nat

/-- Their initial values.  examples/elliptic-multiple/main.cpp:347-350. -/
def ErrorSums.start : ErrorSums K := ⟨0, 0, 0, 0⟩

/-- Body of the loop over the cells of a leaf; `fabs`, `pow(·, 2)`, `fmax` exact.
examples/elliptic-multiple/main.cpp:357-364. -/
def addCellError (exact : K → K → K) (p : Patch K) (x : K) (i j : Nat) (e : ErrorSums K) : Res (ErrorSums K) := do
  let y ← p.grid.point 1 j
  let index := j + i * p.grid.ny
  let v ← p.u.get index
  let diff := v - exact x y
  pure { e with
    l1 := e.l1 + (p.grid.dx * p.grid.dy) * |diff|
    l2 := e.l2 + (p.grid.dx * p.grid.dy) * |diff| ^ 2
    lI := max e.lI |diff| }

/-- The callback on a leaf.  examples/elliptic-multiple/main.cpp:351-369. -/
def addLeafError (exact : K → K → K) (p : Patch K) (e : ErrorSums K) : Res (ErrorSums K) := do
  let e ← forN p.grid.nx (fun i e => do
    let x ← p.grid.point 0 i
    forN p.grid.ny (fun j e => addCellError exact p x i j e) e) e
  pure { e with leaves := e.leaves + 1 }

/-- The results on one rank that concern the error.  examples/elliptic-multiple/main.cpp:119-135. -/
structure ErrorReport (K : Type) where
  l1 : K
  l2 : K
  lI : K
  nDOFs : Nat
  resolution : Nat

/-- The traversal of the leaves and the results.  `root` is the root patch with the numbers `nx`, `ny` and the bounds of the
options.  examples/elliptic-multiple/main.cpp:347-374, 383-397. -/
def errorReport (P : Place) (sqrt : K → K) (exact : K → K → K) (maxLevel : Nat) (root : Grid K) (q : Quadtree (Patch K)) :
    Res (ErrorReport K) := do
  let x ← q.traversePostOrder P.M P.rank P.forest (leafVisit fun p e => do
    let e ← addLeafError exact p e
    pure (p, e)) ErrorSums.start
  let area := (root.xu - root.xl) * (root.yu - root.yl)
  pure { l1 := x.2.l1 / area
         l2 := sqrt (x.2.l2 / area)
         lI := x.2.lI
         nDOFs := x.2.leaves * (root.nx * root.ny)
         resolution := 2 ^ maxLevel * root.nx }

/-- `solveEllipticViaHPS`: refine, set up, build, solve `n` times, report.  `P.forest` is the forest p4est ends with.
examples/elliptic-multiple/main.cpp:201-400. -/
def studyMain (P : Place) (lap : Lapack K) (ps : PatchSolver K) (opt : HPSOptions) (root : Patch K) (f : K → K → K)
    (bc : HPS.BoundaryFn K) (n : Nat) (sqrt : K → K) (exact : K → K → K) (maxLevel : Nat) : Prog (Patch K) (ErrorReport K) := do
  let mesh ← Prog.fin (Mesh.refineByFunction P.M P.rank P.forest root FVFactory.factory Mesh.blank)
  let A ← HPSRank.setupStage P ⟨mesh, none⟩
  let A ← A.buildStage P lap ps opt
  let A ← A.solves P lap ps opt f bc n
  Prog.fin (errorReport P sqrt exact maxLevel root.grid A.mesh.quadtree)

/-! ## One patch -/

/-- A side of the boundary data: `n` values.  examples/patch-solver/main.cpp:100-113. -/
def sideValues (n : Nat) (fn : Nat → Res K) : Res (Vec K) :=
  forN n (fun k v => do
    let a ← fn k
    v.set k a) (Vec.zeros n)

/-- A function at the cell centres.  examples/patch-solver/main.cpp:119-130. -/
def cellValues (grid : Grid K) (fn : K → K → K) : Res (Vec K) :=
  forN grid.nx (fun i v => forN grid.ny (fun j v => do
    let x ← grid.point 0 i
    let y ← grid.point 1 j
    v.set (j + i * grid.ny) (fn x y)) v) (Vec.zeros (grid.nx * grid.ny))

/-- Body of the loop: the error with `n` cells per side.  examples/patch-solver/main.cpp:84-140. -/
def patchError (ps : PatchSolver K) (xl xu yl yu : K) (exact f : K → K → K) (n : Nat) : Res K := do
  let grid : Grid K := ⟨n, n, xl, xu, yl, yu⟩
  let west ← sideValues n (fun j => do let y ← grid.point 1 j; pure (exact xl y))
  let east ← sideValues n (fun j => do let y ← grid.point 1 j; pure (exact xu y))
  let south ← sideValues n (fun i => do let x ← grid.point 0 i; pure (exact x yl))
  let north ← sideValues n (fun i => do let x ← grid.point 0 i; pure (exact x yu))
  let g ← Vec.concatenate [west, east, south, north]
  let load ← cellValues grid f
  let ue ← cellValues grid exact
  let u ← ps.solve grid g load
  ue.infNorm u

/-- The loop.  examples/patch-solver/main.cpp:84-144. -/
def patchStudy (ps : PatchSolver K) (xl xu yl yu : K) (exact f : K → K → K) (ns : List Nat) : Res (List K) :=
  ns.mapM (patchError ps xl xu yl yu exact f)

end EF
