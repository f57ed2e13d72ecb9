import Verif.Model.Report

/-!
# The size of the data a convergence study reports

The part of `solveEllipticViaHPS` of `examples/elliptic-multiple/main.cpp` that `Verif.Model.Report` leaves out.  Divisions by 2^20
are exact in `double`, sums are taken as exact.
-/

namespace EF

open HPS

variable {K : Type}

/-- `BYTE_2_MEGABYTE`.  FiniteVolumePatch.cpp:71. -/
def byteToMegabyte : ℚ := 1024 * 1024

/-- Size in megabytes of `n` numbers of `sizeof(double)` bytes.  FiniteVolumePatch.cpp:74-84. -/
def doubleSize (n : Nat) : ℚ := ((n * 8 : Nat) : ℚ) / byteToMegabyte

/-- `FiniteVolumePatch::dataSize()`; `sizeof(int)` is 4, `sizeof(bool)` 1, `sizeof(double)` 8.  FiniteVolumePatch.cpp:70-88. -/
def Patch.dataSize (p : Patch K) : ℚ :=
  ((4 * 4 + 1 : Nat) : ℚ) / byteToMegabyte
    + doubleSize (p.T.nrows * p.T.ncols)
    + doubleSize (p.H.nrows * p.H.ncols)
    + doubleSize (p.S.nrows * p.S.ncols)
    + doubleSize (p.X.nrows * p.X.ncols)
    + doubleSize p.u.size
    + doubleSize p.g.size
    + doubleSize p.v.size
    + doubleSize p.f.size
    + doubleSize p.h.size
    + doubleSize p.w.size

/-- `size_MB` on one rank.  examples/elliptic-multiple/main.cpp:376-380. -/
def sizeReport (P : Place) (q : Quadtree (Patch K)) : Res ℚ := do
  let x ← q.traversePostOrderData P.M P.rank P.forest (fun p s => .ok (p, s + p.dataSize)) 0
  pure x.2

/-- `solveEllipticViaHPS`: refine, set up, build, solve `n` times, report the size of the data.  The loop over the leaves between the
solves and the report (`errorReport`) changes nothing.  examples/elliptic-multiple/main.cpp:201-335, 376-380. -/
def memoryMain [Field K] (P : Place) (lap : Lapack K) (ps : PatchSolver K) (opt : HPSOptions) (root : Patch K) (f : K → K → K)
    (bc : HPS.BoundaryFn K) (n : Nat) : Prog (Patch K) ℚ := do
  let mesh ← Prog.fin (Mesh.refineByFunction P.M P.rank P.forest root FVFactory.factory Mesh.blank)
  let A ← HPSRank.setupStage P ⟨mesh, none⟩
  let A ← A.buildStage P lap ps opt
  let A ← A.solves P lap ps opt f bc n
  Prog.fin (sizeReport P A.mesh.quadtree)

end EF
