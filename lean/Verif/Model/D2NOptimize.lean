import Verif.Model.FiniteVolume

/-!
# Model of `buildD2N` of `/repo/src/Patches/FiniteVolume/FiniteVolumeSolver.cpp` compiled with `DTN_OPTIMIZE`
-/

namespace EF
namespace FVSolver

variable {K : Type} [Field K]

/-- One of the twelve `N × N` blocks filled by the double loop.  FiniteVolumeSolver.cpp:411-428.  In the code one double
loop fills all twelve; they are different objects, and the only one that is read (`T_NE`) has the entry read assigned
before in the same iteration. -/
def d2nBlock (N : Nat) (entry : Nat → Nat → Res K) : Res (Mat K) :=
  Mat.loop2 N N (fun i j B => do
    let x ← entry i j
    B.set i j x) (Mat.zeros N N)

/-- `buildD2N(grid)` with `DTN_OPTIMIZE`: only the columns of the West side are computed, the others follow from them.
FiniteVolumeSolver.cpp:355-443. -/
def buildD2NOpt (map : Grid K → Vec K → Vec K → Res (Vec K)) (grid : Grid K) : Res (Mat K) := do
  let N := grid.nx
  let M := 4 * N
  let st ← forN N (fun j (st : Mat K × Vec K) => do
    let e ← st.2.set j 1
    let col ← map grid e (Vec.fill (N * N) 0)
    let T ← st.1.setColumn j col
    let e ← e.set j 0
    pure (T, e)) (Mat.zeros M M, Vec.fill M 0)
  let T := st.1
  let T_WW ← T.getBlock (0 * N) (0 * N) N N
  let T_EW ← T.getBlock (1 * N) (0 * N) N N
  let T_SW ← T.getBlock (2 * N) (0 * N) N N
  let T_NW ← T.getBlock (3 * N) (0 * N) N N
  let T_WE ← d2nBlock N (fun i j => do let x ← T_EW.get i j; pure (-x))
  let T_EE ← d2nBlock N (fun i j => do let x ← T_WW.get i j; pure (-x))
  let T_SE ← d2nBlock N (fun i j => do let x ← T_NW.get j i; pure (-x))
  let T_NE ← d2nBlock N (fun i j => T_NW.get (N - 1 - i) j)
  let T_WS ← d2nBlock N (fun i j => T_SW.get i j)
  let T_ES ← d2nBlock N (fun i j => T_NW.get i j)
  let T_SS ← d2nBlock N (fun i j => T_WW.get i j)
  let T_NS ← d2nBlock N (fun i j => T_EW.get i j)
  let T_WN ← d2nBlock N (fun i j => do let x ← T_NW.get j i; pure (-x))
  let T_EN ← d2nBlock N (fun i j => T_NE.get i j)
  let T_SN ← d2nBlock N (fun i j => do let x ← T_EW.get i j; pure (-x))
  let T_NN ← d2nBlock N (fun i j => do let x ← T_WW.get i j; pure (-x))
  let T ← T.setBlock (0 * N) (1 * N) T_WE
  let T ← T.setBlock (1 * N) (1 * N) T_EE
  let T ← T.setBlock (2 * N) (1 * N) T_SE
  let T ← T.setBlock (3 * N) (1 * N) T_NE
  let T ← T.setBlock (0 * N) (2 * N) T_WS
  let T ← T.setBlock (1 * N) (2 * N) T_ES
  let T ← T.setBlock (2 * N) (2 * N) T_SS
  let T ← T.setBlock (3 * N) (2 * N) T_NS
  let T ← T.setBlock (0 * N) (3 * N) T_WN
  let T ← T.setBlock (1 * N) (3 * N) T_EN
  let T ← T.setBlock (2 * N) (3 * N) T_SN
  T.setBlock (3 * N) (3 * N) T_NN

/-- The patch solver object when the library is compiled with `DTN_OPTIMIZE`. -/
def toPatchSolverOpt (lu : PetscLU K) (s : FVSolver K) : PatchSolver K where
  buildD2N := buildD2NOpt (s.mapD2N lu)
  particularNeumannData := s.particularNeumannData lu
  solve := s.solve lu

end FVSolver
end EF
