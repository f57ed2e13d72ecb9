import Verif.Model.HPS

/-!
# Model of `/repo/src/Patches/FiniteVolume/FiniteVolumeGrid.cpp` and `FiniteVolumeSolver.cpp`
-/

namespace EF

variable {K : Type}

namespace Grid

variable [Field K]

/-- `dx_`.  FiniteVolumeGrid.cpp:14.  (For `nx = 0` the code divides by zero; theorems assume `0 < nx`.) -/
def dx (g : Grid K) : K := (g.xu - g.xl) / g.nx

/-- `dy_`.  FiniteVolumeGrid.cpp:18. -/
def dy (g : Grid K) : K := (g.yu - g.yl) / g.ny

/-- `point(DimensionIndex::X, i)`.  FiniteVolumeGrid.cpp:26-28. -/
def x (g : Grid K) (i : Nat) : K := (g.xl + g.dx / 2) + i * g.dx

/-- `point(DimensionIndex::Y, j)`.  FiniteVolumeGrid.cpp:29-31. -/
def y (g : Grid K) (j : Nat) : K := (g.yl + g.dy / 2) + j * g.dy

/-- `operator()(DIM, index)` and `point`.  FiniteVolumeGrid.cpp:24-36, 74-76. -/
def point (g : Grid K) (dim index : Nat) : Res K :=
  if dim = 0 then pure (g.x index) else if dim = 1 then pure (g.y index) else .throw .invalidArgument

end Grid

/-- The coefficient functions stored in a `FiniteVolumeSolver`.  (`rhs_function` is stored but never used.)
FiniteVolumeSolver.hpp:66-88. -/
structure FVSolver (K : Type) where
  alpha : K → K → K
  beta : K → K → K
  lambda : K → K → K

/-- PETSc's dense LU solve: `MatLUFactor` with the identity permutations followed by `MatSolve`
(FiniteVolumeSolver.cpp:191-204).  External; assumed: for a nonsingular matrix it returns the solution.  For a
singular matrix nothing is assumed about the returned values.  `A` and `f` are the values of the assembled matrix
and vector. -/
structure PetscLU (K : Type) [Field K] where
  sol : (N : Nat) → (A : Nat → Nat → K) → (f : Nat → K) → Nat → K
  solves : ∀ N A f, Nonsing N A → ∀ i, i < N → ∑ j ∈ Finset.range N, A i j * sol N A f j = f i

namespace FVSolver

variable [Field K]

/-- `gridIndex2MatrixIndex`.  FiniteVolumeSolver.cpp:17-19. -/
def gridIndex2MatrixIndex (i j _nx ny : Nat) : Nat := j + i * ny

/-- The five stencil coefficients of a cell. -/
structure Coef (K : Type) where
  W : K
  E : K
  S : K
  N : K
  C : K

/-- FiniteVolumeSolver.cpp:65-87. -/
def coef (s : FVSolver K) (grid : Grid K) (i j : Nat) : Coef K :=
  let dx := grid.dx
  let dy := grid.dy
  let xi := grid.x i
  let yj := grid.y j
  let xip := xi + dx / 2
  let xim := xi - dx / 2
  let yjp := yj + dy / 2
  let yjm := yj - dy / 2
  let a := s.alpha xi yj
  let bip := s.beta xip yj
  let bim := s.beta xim yj
  let bjp := s.beta xi yjp
  let bjm := s.beta xi yjm
  let l := s.lambda xi yj
  { W := a * bim / dx ^ 2
    E := a * bip / dx ^ 2
    S := a * bjm / dy ^ 2
    N := a * bjp / dy ^ 2
    C := -a * ((bip + bim) / dx ^ 2 + (bjp + bjm) / dy ^ 2) + l }

/-- State of the assembly: the values of the PETSc matrix `A` and vector `f`, both of dimension `N`, initially
zero.  FiniteVolumeSolver.cpp:42-57. -/
structure Asm (K : Type) where
  A : Nat → Nat → K
  f : Nat → K

/-- `MatSetValues(A, 1, {row}, n, cols, vals, INSERT_VALUES)` for a matrix of dimension `N`.  A column index outside
the matrix is an error in a debug build of PETSc and a write outside the array in an optimised one: `ub`. -/
def matSetValues (N : Nat) (st : Asm K) (row : Nat) : List (Nat × K) → Res (Asm K)
  | [] => pure st
  | (c, v) :: rest =>
    if row < N ∧ c < N then
      matSetValues N { st with A := fun r c' => if r = row ∧ c' = c then v else st.A r c' } row rest
    else .ub

/-- `VecSetValue(f, row, v, INSERT_VALUES)` on a sequential vector (takes effect immediately). -/
def vecInsert (N : Nat) (st : Asm K) (row : Nat) (v : K) : Res (Asm K) :=
  if row < N then pure { st with f := fun r => if r = row then v else st.f r } else .ub

/-- `VecSetValue(f, row, v, ADD_VALUES)` on a sequential vector (takes effect immediately). -/
def vecAdd (N : Nat) (st : Asm K) (row : Nat) (v : K) : Res (Asm K) :=
  if row < N then pure { st with f := fun r => if r = row then st.f r + v else st.f r } else .ub

/-- One side of the Dirichlet data, four of them. -/
structure Sides (K : Type) where
  west : Vec K
  east : Vec K
  south : Vec K
  north : Vec K

/-- The four segments of the Dirichlet data, all of length `nside = nx`.  FiniteVolumeSolver.cpp:27-31, 299-305. -/
def sides (grid : Grid K) (g : Vec K) : Res (Sides K) := do
  let nside := grid.nx
  let w ← g.getSegment (0 * nside) nside
  let e ← g.getSegment (1 * nside) nside
  let s ← g.getSegment (2 * nside) nside
  let n ← g.getSegment (3 * nside) nside
  pure ⟨w, e, s, n⟩

/-- The nine cases of the loop body: contribution to `f` (if any) and the row of `A`.
FiniteVolumeSolver.cpp:105-186.  The neighbour index `i - 1` (`j - 1`) is only used where `i ≠ 0` (`j ≠ 0`). -/
def cellRow (nx ny : Nat) (c : Coef K) (gs : Sides K) (i j : Nat) : Res (Option K × List (Nat × K)) :=
  let JW := gridIndex2MatrixIndex (i - 1) j nx ny
  let JE := gridIndex2MatrixIndex (i + 1) j nx ny
  let JS := gridIndex2MatrixIndex i (j - 1) nx ny
  let JN := gridIndex2MatrixIndex i (j + 1) nx ny
  let JC := gridIndex2MatrixIndex i j nx ny
  if i = 0 ∧ j = 0 then do
    let gw ← gs.west.get j
    let g_s ← gs.south.get i
    pure (some (-2 * (c.W * gw + c.S * g_s)), [(JE, c.E), (JN, c.N), (JC, c.C - c.W - c.S)])
  else if i + 1 = nx ∧ j = 0 then do
    let ge ← gs.east.get j
    let g_s ← gs.south.get i
    pure (some (-2 * (c.E * ge + c.S * g_s)), [(JW, c.W), (JN, c.N), (JC, c.C - c.E - c.S)])
  else if i = 0 ∧ j + 1 = ny then do
    let gw ← gs.west.get j
    let gn ← gs.north.get i
    pure (some (-2 * (c.W * gw + c.N * gn)), [(JE, c.E), (JS, c.S), (JC, c.C - c.W - c.N)])
  else if i + 1 = nx ∧ j + 1 = ny then do
    let ge ← gs.east.get j
    let gn ← gs.north.get i
    pure (some (-2 * (c.E * ge + c.N * gn)), [(JW, c.W), (JS, c.S), (JC, c.C - c.E - c.N)])
  else if i = 0 then do
    let gw ← gs.west.get j
    pure (some (-2 * (c.W * gw)), [(JE, c.E), (JN, c.N), (JS, c.S), (JC, c.C - c.W)])
  else if i + 1 = nx then do
    let ge ← gs.east.get j
    pure (some (-2 * (c.E * ge)), [(JW, c.W), (JN, c.N), (JS, c.S), (JC, c.C - c.E)])
  else if j = 0 then do
    let g_s ← gs.south.get i
    pure (some (-2 * (c.S * g_s)), [(JE, c.E), (JW, c.W), (JN, c.N), (JC, c.C - c.S)])
  else if j + 1 = ny then do
    let gn ← gs.north.get i
    pure (some (-2 * (c.N * gn)), [(JE, c.E), (JW, c.W), (JS, c.S), (JC, c.C - c.N)])
  else
    pure (none, [(JE, c.E), (JW, c.W), (JN, c.N), (JS, c.S), (JC, c.C)])

/-- The loop body: insert the load, add the boundary contribution, set the matrix row.
FiniteVolumeSolver.cpp:62-188. -/
def cellStep (s : FVSolver K) (grid : Grid K) (gs : Sides K) (rhs : Vec K) (j i : Nat) (st : Asm K) : Res (Asm K) := do
  let nx := grid.nx
  let ny := grid.ny
  let N := nx * ny
  let IC := gridIndex2MatrixIndex i j nx ny
  let fv ← rhs.get IC
  let st ← vecInsert N st IC fv
  let row ← cellRow nx ny (s.coef grid i j) gs i j
  let st ← match row.1 with
    | some b => vecAdd N st IC b
    | none => pure st
  matSetValues N st IC row.2

/-- The two assembly loops, `j` outside, `i` inside.  FiniteVolumeSolver.cpp:59-190. -/
def assemble (s : FVSolver K) (grid : Grid K) (gs : Sides K) (rhs : Vec K) : Res (Asm K) :=
  forN grid.ny (fun j st => forN grid.nx (fun i st => cellStep s grid gs rhs j i st) st)
    ⟨fun _ _ => 0, fun _ => 0⟩

/-- `solve(grid, dirichlet_data, rhs_data)` with `solver_type == FivePointStencil` (the default).
FiniteVolumeSolver.cpp:25-223. -/
def solve (lu : PetscLU K) (s : FVSolver K) (grid : Grid K) (g rhs : Vec K) : Res (Vec K) := do
  let gs ← sides grid g
  let N := grid.nx * grid.ny
  let st ← assemble s grid gs rhs
  pure (Vec.ofList ((List.range N).map (lu.sol N st.A st.f)))

/-- The loops filling `u_west, u_east` (over `j`) and `u_south, u_north` (over `i`).
FiniteVolumeSolver.cpp:311-330. -/
def edgeCells (nside : Nat) (u : Vec K) : Res (Sides K) := do
  let we ← forN nside (fun j (st : Vec K × Vec K) => do
    let idxW := j
    let idxE := (nside - 1) * nside + j
    let a ← u.get idxW
    let w ← st.1.set j a
    let b ← u.get idxE
    let e ← st.2.set j b
    pure (w, e)) (Vec.zeros nside, Vec.zeros nside)
  let sn ← forN nside (fun i (st : Vec K × Vec K) => do
    let idxS := i * nside
    let idxN := (i + 1) * nside - 1
    let a ← u.get idxS
    let s ← st.1.set i a
    let b ← u.get idxN
    let n ← st.2.set i b
    pure (s, n)) (Vec.zeros nside, Vec.zeros nside)
  pure ⟨we.1, we.2, sn.1, sn.2⟩

/-- `h[i] = c * (u[i] - g[i])` into a fresh vector: one of the four assignments of the loop at
FiniteVolumeSolver.cpp:339-344 (the four write different vectors). -/
def neumannSide (nside : Nat) (c : K) (u g : Vec K) : Res (Vec K) :=
  forN nside (fun i h => do
    let a ← u.get i
    let b ← g.get i
    h.set i (c * (a - b))) (Vec.zeros nside)

/-- `mapD2N(grid, dirichlet_data, rhs_data)`, where `solve` is the member function of that name for the
current `solver_type`.  FiniteVolumeSolver.cpp:296-353. -/
def mapD2NWith (solve : Grid K → Vec K → Vec K → Res (Vec K)) (grid : Grid K) (g rhs : Vec K) : Res (Vec K) := do
  let nside := grid.nx
  let gs ← sides grid g
  let u ← solve grid g rhs
  let us ← edgeCells nside u
  let dtnx := 2 / grid.dx
  let dtny := 2 / grid.dy
  let hw ← neumannSide nside dtnx us.west gs.west
  let he ← neumannSide nside (-dtnx) us.east gs.east
  let hs ← neumannSide nside dtny us.south gs.south
  let hn ← neumannSide nside (-dtny) us.north gs.north
  let v ← (Vec.zeros (4 * nside) : Vec K).setSegment (0 * nside) hw
  let v ← v.setSegment (1 * nside) he
  let v ← v.setSegment (2 * nside) hs
  v.setSegment (3 * nside) hn

/-- `mapD2N` with `solver_type == FivePointStencil` (the default). -/
def mapD2N (lu : PetscLU K) (s : FVSolver K) (grid : Grid K) (g rhs : Vec K) : Res (Vec K) :=
  mapD2NWith (s.solve lu) grid g rhs

/-- `buildD2N(grid)` with `DTN_OPTIMIZE` undefined (it is defined nowhere in the repository), where `map` is
`mapD2N`.  FiniteVolumeSolver.cpp:355-362, 444-455. -/
def buildD2NWith (map : Grid K → Vec K → Vec K → Res (Vec K)) (grid : Grid K) : Res (Mat K) := do
  let N := grid.nx
  let M := 4 * N
  let st ← forN M (fun j (st : Mat K × Vec K) => do
    let e ← st.2.set j 1
    let col ← map grid e (Vec.fill (N * N) 0)
    let T ← st.1.setColumn j col
    let e ← e.set j 0
    pure (T, e)) (Mat.zeros M M, Vec.fill M 0)
  pure st.1

/-- `buildD2N` with `solver_type == FivePointStencil`. -/
def buildD2N (lu : PetscLU K) (s : FVSolver K) (grid : Grid K) : Res (Mat K) := buildD2NWith (s.mapD2N lu) grid

/-- `particularNeumannData(grid, rhs_data)`.  FiniteVolumeSolver.cpp:457-462. -/
def particularNeumannData (lu : PetscLU K) (s : FVSolver K) (grid : Grid K) (rhs : Vec K) : Res (Vec K) :=
  s.mapD2N lu grid (Vec.fill (2 * grid.nx + 2 * grid.ny) 0) rhs

/-- The patch solver object handed to `HPSAlgorithm`. -/
def toPatchSolver (lu : PetscLU K) (s : FVSolver K) : PatchSolver K where
  buildD2N := s.buildD2N lu
  particularNeumannData := s.particularNeumannData lu
  solve := s.solve lu

end FVSolver

namespace HPS

variable [Field K]

/-- The loops setting `vectorF` from an analytical right-hand side.  HPSAlgorithm.hpp:241-249. -/
def sampleLoad (f : K → K → K) (grid : Grid K) : Res (Vec K) :=
  forN grid.nx (fun i F => do
    let x ← grid.point 0 i
    forN grid.ny (fun j F => do
      let y ← grid.point 1 j
      F.set (j + i * grid.ny) (f x y)) F) (Vec.zeros (grid.nx * grid.ny))

/-- Leaf callback of `upwardsStage(rhs_function)`.  HPSAlgorithm.hpp:234-255. -/
def upwardsLeafAnalytic (ps : PatchSolver K) (f : K → K → K) (p : Patch K) : Res (Patch K) := do
  let F ← sampleLoad f p.grid
  let p := { p with f := F }
  let h ← ps.particularNeumannData p.grid p.f
  pure { p with h := h }

/-- `upwardsStage(rhs_function)`.  HPSAlgorithm.hpp:225-272. -/
def upwardsStageAnalytic (lap : Lapack K) (ps : PatchSolver K) (opt : HPSOptions) (f : K → K → K)
    (t : Tree (Patch K)) : Res (Tree (Patch K)) :=
  t.merge (upwardsLeafAnalytic ps f) (upwards4to1 lap opt)

/-- Where the boundary callback is evaluated: cell `i` of side `n` of the root.  HPSAlgorithm.hpp:379-396. -/
def boundaryPoint (grid : Grid K) (n i : Nat) : K × K :=
  if n = 0 then (grid.xl, grid.y i)
  else if n = 1 then (grid.xu, grid.y i)
  else if n = 2 then (grid.x i, grid.yl)
  else (grid.x i, grid.yu)

/-- A boundary callback: for a side and a point the values `r` (returned), `a` and `b` (set through pointers). -/
abbrev BoundaryFn (K : Type) := Nat → K → K → K × K × K

/-- One of the vectors `rVectors[n]`, `aVectors[n]`, `bVectors[n]`.  HPSAlgorithm.hpp:357-403. -/
def boundarySide (pick : K × K × K → K) (bc : BoundaryFn K) (grid : Grid K) (n : Nat) : Res (Vec K) :=
  forN grid.nx (fun i v => v.set i (pick (bc n (boundaryPoint grid n i).1 (boundaryPoint grid n i).2)))
    (Vec.zeros grid.nx)

/-- `concatenate(rVectors)` and the like.  HPSAlgorithm.hpp:408-410. -/
def boundaryVec (pick : K × K × K → K) (bc : BoundaryFn K) (grid : Grid K) : Res (Vec K) := do
  let v0 ← boundarySide pick bc grid 0
  let v1 ← boundarySide pick bc grid 1
  let v2 ← boundarySide pick bc grid 2
  let v3 ← boundarySide pick bc grid 3
  Vec.concatenate [v0, v1, v2, v3]

/-- The Dirichlet data of the root: `g = (a I + b T)^(-1) (r - b h)`.  HPSAlgorithm.hpp:350-424. -/
def rootDirichlet (lap : Lapack K) (bc : BoundaryFn K) (root : Patch K) : Res (Vec K) := do
  let r ← boundaryVec (·.1) bc root.grid
  let a ← boundaryVec (·.2.1) bc root.grid
  let b ← boundaryVec (·.2.2) bc root.grid
  let A ← Mat.diagonal a
  let B ← Mat.diagonal b
  let bh ← B.mulVec root.h
  let rhs ← r.sub bh
  let B ← B.mul root.T
  let A ← A.add B
  A.solveVec lap rhs

/-- `solveStage(boundary_analytical_function)`.  HPSAlgorithm.hpp:343-445. -/
def solveStageAnalytic (lap : Lapack K) (ps : PatchSolver K) (opt : HPSOptions) (bc : BoundaryFn K)
    (t : Tree (Patch K)) : Res (Tree (Patch K)) := do
  let g ← rootDirichlet lap bc t.val
  t.splitFrom (leafSolve ps opt) (split1to4 opt) { t.val with g := g }

end HPS
end EF
