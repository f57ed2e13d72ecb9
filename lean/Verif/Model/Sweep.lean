import Verif.Model.FiniteVolume

/-!
# The patch solver program

Model of the example program `patch-solver`: a convergence sweep of the finite volume solver on one patch.  The solver type is
`FivePointStencil` (main.cpp:70); the log lines and the plot (main.cpp:142, 154-177) are not modelled: the program returns what it logs.
-/

namespace EF

/-- What the program fixes: the solver with its coefficients, the rectangle, the exact solution and the load.
examples/patch-solver/main.cpp:29-42, 69-79, 91-94.  Generalised: the code has `alpha = beta = 1`, `lambda = 0`, `[-1, 1]²`, the exact
solution `sin x + sin y` and the load `-(sin x + sin y)`. -/
structure PatchSweep (K : Type) where
  solver : FVSolver K
  xl : K
  xu : K
  yl : K
  yu : K
  uExact : K → K → K
  fRHS : K → K → K

namespace PatchSweep
variable {K : Type} [Field K]

/-- The grid of one step.  examples/patch-solver/main.cpp:89-95. -/
def grid (p : PatchSweep K) (n : Nat) : Grid K := ⟨n, n, p.xl, p.xu, p.yl, p.yu⟩

/-- `g_west` and `g_east`, filled in one loop.  examples/patch-solver/main.cpp:100-101, 104-108. -/
def westEast (p : PatchSweep K) (grid : Grid K) : Res (Vec K × Vec K) :=
  forN grid.ny (fun j s => do
    let y ← grid.point 1 j
    let w ← s.1.set j (p.uExact p.xl y)
    let e ← s.2.set j (p.uExact p.xu y)
    pure (w, e)) (Vec.zeros grid.nx, Vec.zeros grid.nx)

/-- `g_south` and `g_north`, filled in one loop.  examples/patch-solver/main.cpp:102-103, 109-113. -/
def southNorth (p : PatchSweep K) (grid : Grid K) : Res (Vec K × Vec K) :=
  forN grid.nx (fun i s => do
    let x ← grid.point 0 i
    let b ← s.1.set i (p.uExact x p.yl)
    let t ← s.2.set i (p.uExact x p.yu)
    pure (b, t)) (Vec.zeros grid.nx, Vec.zeros grid.nx)

/-- `f` and `u_exact`, filled in one loop.  examples/patch-solver/main.cpp:119-130. -/
def loadExact (p : PatchSweep K) (grid : Grid K) : Res (Vec K × Vec K) :=
  forN grid.nx (fun i s =>
    forN grid.ny (fun j s => do
      let x ← grid.point 0 i
      let y ← grid.point 1 j
      let f ← s.1.set (j + i * grid.ny) (p.fRHS x y)
      let u ← s.2.set (j + i * grid.ny) (p.uExact x y)
      pure (f, u)) s) (Vec.zeros (grid.nx * grid.ny), Vec.zeros (grid.nx * grid.ny))

/-- One step of the sweep: the error with `n` cells per side.  examples/patch-solver/main.cpp:86-141. -/
def step [LinearOrder K] (p : PatchSweep K) (lu : PetscLU K) (n : Nat) : Res K := do
  let grid := p.grid n
  let we ← p.westEast grid
  let sn ← p.southNorth grid
  let g ← Vec.concatenate [we.1, we.2, sn.1, sn.2]
  let fu ← p.loadExact grid
  let u ← p.solver.solve lu grid g fu.1
  fu.2.infNorm u

/-- The sweep: `errors` after the loop over the sizes.  examples/patch-solver/main.cpp:84-144. -/
def errors [LinearOrder K] (p : PatchSweep K) (lu : PetscLU K) (ns : List Nat) : Res (List K) :=
  forL ns (fun n es => do
    let e ← p.step lu n
    pure (es ++ [e])) []

/-- `v[v.size() - k]`: outside the vector when it has fewer than `k` entries. -/
def fromEnd {α : Type} (v : List α) (k : Nat) : Res α :=
  if v.length < k then .ub else rd v (v.length - k)

/-- The convergence order from the last two sizes.  examples/patch-solver/main.cpp:149-153.
Simplification: the divisions are those of a field, which give zero for a zero denominator where the code gives an infinity or NaN. -/
def order (log : K → K) (ns : List Nat) (es : List K) : Res K := do
  let e1 ← fromEnd es 2
  let n1 ← fromEnd ns 2
  let e2 ← fromEnd es 1
  let n2 ← fromEnd ns 1
  pure (log (e2 / e1) / log ((n1 : K) / (n2 : K)))

/-- The program: the logged errors and the logged order.  examples/patch-solver/main.cpp:50-182.
Generalised: the code sweeps the sizes 8, 16, 32, 64 and 128. -/
def main [LinearOrder K] (p : PatchSweep K) (lu : PetscLU K) (log : K → K) (ns : List Nat) : Res (List K × K) := do
  let es ← p.errors lu ns
  let o ← order log ns es
  pure (es, o)

end PatchSweep
end EF
