import Verif.Model.FiniteVolume
import Mathlib.Order.Defs.LinearOrder

/-!
# Model of the `FISHPACK90` solver type of `/repo/src/Patches/FiniteVolume/FiniteVolumeSolver.cpp`
-/

namespace EF

variable {K : Type}

section
variable [Field K]

/-- The equations `hstcrt` solves for Dirichlet conditions on all four sides: the standard five-point approximation of
`u_xx + u_yy + lam u = f` on a grid staggered by half a cell, boundary values half a cell away from the outermost
points.  FiniteVolumeSolver.hpp:23-44 and the FISHPACK90 manual; written out here, independently of the finite volume
formulas of this repository. -/
def HelmholtzEq (A B : K) (M : Nat) (bda bdb : Nat → K) (C D : K) (N : Nat) (bdc bdd : Nat → K) (lam : K)
    (f u : Nat → Nat → K) : Prop :=
  ∀ i, i < M → ∀ j, j < N →
    ((if i = 0 then 2 * bda j - u i j else u (i - 1) j) - 2 * u i j +
        (if i + 1 = M then 2 * bdb j - u i j else u (i + 1) j)) / ((B - A) / M) ^ 2 +
      ((if j = 0 then 2 * bdc i - u i j else u i (j - 1)) - 2 * u i j +
        (if j + 1 = N then 2 * bdd i - u i j else u i (j + 1))) / ((D - C) / N) ^ 2 +
      lam * u i j = f i j

variable [LinearOrder K]

/-- The FORTRAN routine `hstcrt` (declaration FiniteVolumeSolver.hpp:45).  External.  `out` gives the contents of the
array `F` on return, as a function of all arguments.  Assumed, from the FISHPACK90 manual:
* for both boundary types 1 (solution given), `A < B`, `C < D`, more than two points in each direction and `IDIMF ≥ M`, the
  array holds the solution of the equations above, provided the equations have only one solution;
* when one of these conditions on the arguments is violated (error flags 1, 3, 4, 7, 8) no solution is attempted and `F` is
  left unchanged. -/
structure Hstcrt (K : Type) [Field K] [LinearOrder K] where
  out : (A B : K) → (M MBDCND : Nat) → (bda bdb : Nat → K) → (C D : K) → (N NBDCND : Nat) → (bdc bdd : Nat → K) →
    (lam : K) → (F : Nat → K) → (IDIMF : Nat) → Nat → K
  solves : ∀ A B M bda bdb C D N bdc bdd lam F IDIMF, A < B → C < D → 2 < M → 2 < N → M ≤ IDIMF →
    (∀ z : Nat → Nat → K, HelmholtzEq A B M (fun _ => 0) (fun _ => 0) C D N (fun _ => 0) (fun _ => 0) lam (fun _ _ => 0) z →
      ∀ i, i < M → ∀ j, j < N → z i j = 0) →
    HelmholtzEq A B M bda bdb C D N bdc bdd lam (fun i j => F (i + j * IDIMF))
      (fun i j => out A B M 1 bda bdb C D N 1 bdc bdd lam F IDIMF (i + j * IDIMF))
  untouched : ∀ A B M bda bdb C D N bdc bdd lam F IDIMF,
    B ≤ A ∨ D ≤ C ∨ M ≤ 2 ∨ N ≤ 2 ∨ IDIMF < M → ∀ k, out A B M 1 bda bdb C D N 1 bdc bdd lam F IDIMF k = F k

/-- The call through pointers: `ub` if an array is shorter than what the routine accesses. -/
def Hstcrt.call (h : Hstcrt K) (A B : K) (M MBDCND : Nat) (BDA BDB : Vec K) (C D : K) (N NBDCND : Nat) (BDC BDD : Vec K)
    (lam : K) (F : Vec K) (IDIMF : Nat) : Res (Vec K) :=
  if BDA.data.length < N ∨ BDB.data.length < N ∨ BDC.data.length < M ∨ BDD.data.length < M ∨ F.data.length < IDIMF * N
  then .ub
  else pure { F with data := (List.range F.data.length).map (h.out A B M MBDCND (fun j => BDA.data.getD j 0)
    (fun j => BDB.data.getD j 0) C D N NBDCND (fun i => BDC.data.getD i 0) (fun i => BDD.data.getD i 0) lam
    (fun k => F.data.getD k 0) IDIMF) }

end

namespace FVSolver

/-- `enum FiniteVolumeSolverType`.  FiniteVolumeSolver.hpp:13-20. -/
inductive Kind
  | FivePointStencil
  | FISHPACK90
  deriving DecidableEq

variable [Field K] [LinearOrder K]

/-- `solve` with `solver_type == FISHPACK90`.  FiniteVolumeSolver.cpp:224-290.  `alpha_function` and `beta_function` are
not used and `lambda_function` is evaluated at the origin only (line 258).  The two warnings on `std::cerr` (lines 275-280)
are not modelled. -/
def solveFish (hst : Hstcrt K) (s : FVSolver K) (grid : Grid K) (g rhs : Vec K) : Res (Vec K) := do
  let nside := grid.nx
  let gs ← sides grid g
  let fT ← forN grid.nx (fun i fT => forN grid.ny (fun j fT => do
    let a ← rhs.get (j + i * nside)
    fT.set (i + j * nside) a) fT) (Vec.zeros (nside * nside))
  let F ← hst.call grid.xl grid.xu grid.nx 1 gs.west gs.east grid.yl grid.yu grid.ny 1 gs.south gs.north (s.lambda 0 0)
    fT grid.nx
  forN grid.nx (fun i sol => forN grid.ny (fun j sol => do
    let a ← rd F.data (i + j * nside)
    sol.set (j + i * nside) a) sol) (Vec.zeros (grid.nx * grid.ny))

/-- `solve` for either solver type.  FiniteVolumeSolver.cpp:23-294. -/
def solveKind (lu : PetscLU K) (hst : Hstcrt K) : Kind → FVSolver K → Grid K → Vec K → Vec K → Res (Vec K)
  | .FivePointStencil, s => s.solve lu
  | .FISHPACK90, s => s.solveFish hst

/-- The patch solver object for either solver type.  FiniteVolumeSolver.cpp:296-462. -/
def patchSolver (lu : PetscLU K) (hst : Hstcrt K) (kind : Kind) (s : FVSolver K) : PatchSolver K where
  buildD2N := buildD2NWith (mapD2NWith (s.solveKind lu hst kind))
  particularNeumannData grid rhs := mapD2NWith (s.solveKind lu hst kind) grid (Vec.fill (2 * grid.nx + 2 * grid.ny) 0) rhs
  solve := s.solveKind lu hst kind

end FVSolver
end EF
