import Verif.Model.FiniteVolume

/-!
# Model of the time loop of examples/thermal

The solver is built once (`buildStage`); every step runs the upwards stage, with a load computed from the solution of the step
before, and the solve stage with mixed boundary conditions.  Exact field instead of `double`; logging and file output are left out.
-/

namespace EF

variable {K : Type}

/-- What the user of the example can change: the number and length of the steps and the functions of the boundary conditions and
sources.  examples/thermal/main.cpp:60-122, 215-225. -/
structure Thermal (K : Type) where
  tStart : K
  dt : K
  uWest : K → K → K → K
  uEast : K → K → K → K
  dudnSouth : K → K → K → K
  dudnNorth : K → K → K → K
  sources : K → K → K → K

namespace Thermal

variable [Field K]

/-- The coefficients: `alpha = 1`, `lambda = -1/dt`.  examples/thermal/main.cpp:124-157, 262-266. -/
def solver (c : Thermal K) (beta : K → K → K) : FVSolver K := ⟨fun _ _ => 1, beta, fun _ _ => -1 / c.dt⟩

/-- `time = t_start + n*dt`.  examples/thermal/main.cpp:289. -/
def time (c : Thermal K) (n : Nat) : K := c.tStart + n * c.dt

/-- The load of step 0: zero in every cell.  examples/thermal/main.cpp:301-309. -/
def firstLoad (grid : Grid K) : Res (Vec K) :=
  forN grid.nx (fun i F =>
    forN grid.ny (fun j F => F.set (j + i * grid.ny) 0) F) (Vec.zeros (grid.nx * grid.ny))

/-- The load of a later step, from the solution of the step before.  examples/thermal/main.cpp:310-320. -/
def nextLoad (c : Thermal K) (n : Nat) (p : Patch K) : Res (Vec K) :=
  forN p.grid.nx (fun i F =>
    forN p.grid.ny (fun j F => do
      let x ← p.grid.point 0 i
      let y ← p.grid.point 1 j
      let u ← p.u.get (j + i * p.grid.ny)
      F.set (j + i * p.grid.ny) (-(1 / c.dt) * u - c.sources x y (c.time n))) F) (Vec.zeros (p.grid.nx * p.grid.ny))

/-- The vector the callback writes to.  examples/thermal/main.cpp:295-320. -/
def loadOf (c : Thermal K) (n : Nat) (p : Patch K) : Res (Vec K) := if n = 0 then firstLoad p.grid else c.nextLoad n p

/-- The callback of the upwards stage.  examples/thermal/main.cpp:294-321. -/
def load (c : Thermal K) (n : Nat) (p : Patch K) : Res (Patch K) := do
  let F ← c.loadOf n p
  pure { p with f := F }

/-- The callback of the solve stage: value, `a`, `b`.  The solve stage calls it with sides 0 to 3 only; for another side the callback leaves `a` and `b` unset.
examples/thermal/main.cpp:324-355. -/
def boundary (c : Thermal K) (n : Nat) : HPS.BoundaryFn K := fun side x y =>
  if side = 0 then (c.uWest x y (c.time n), 1, 0)
  else if side = 1 then (c.uEast x y (c.time n), 1, 0)
  else if side = 2 then (c.dudnSouth x y (c.time n), 0, 1)
  else if side = 3 then (c.dudnNorth x y (c.time n), 0, 1)
  else (0, 0, 0)

/-- One pass of the loop.  examples/thermal/main.cpp:287-355. -/
def step (lap : Lapack K) (ps : PatchSolver K) (opt : HPSOptions) (c : Thermal K) (n : Nat) (t : Tree (Patch K)) :
    Res (Tree (Patch K)) := do
  let t2 ← HPS.upwardsStage lap ps opt (c.load n) t
  HPS.solveStageAnalytic lap ps opt (c.boundary n) t2

/-- The first `k` passes of the loop, `n = 0, …, k - 1`; the program makes `nt + 1` of them.  examples/thermal/main.cpp:287. -/
def steps (lap : Lapack K) (ps : PatchSolver K) (opt : HPSOptions) (c : Thermal K) : Nat → Tree (Patch K) → Res (Tree (Patch K))
  | 0, t => .ok t
  | k + 1, t => do
    let t ← steps lap ps opt c k t
    step lap ps opt c k t

end Thermal
end EF
