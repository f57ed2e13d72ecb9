import Mathlib.Algebra.Order.Group.Unbundled.Abs
import Mathlib.Algebra.Order.Field.Basic
import Verif.Model.Matrix

/-!
# Plot of the entries of a matrix

`matplotlibcpp::matshow` (`/repo/src/PlotUtils.hpp:20-38`), which is part of the library when it is built with matplotlibcpp.

matplotlibcpp is external: `scatter(x, y, …)` puts one mark at `(x[k], y[k])` for every `k`, if the two vectors are equally long.
The size of the figure, the shape and the colour of the marks are not modelled.
-/

namespace EF

namespace Plot

variable {K : Type} [Field K] [LinearOrder K]

/-- The vectors `row`, `col` and `colors`.  PlotUtils.hpp:27. -/
structure Marks (K : Type) where
  row : List K
  col : List K
  colors : List K

/-- The marks `scatter(x, y, …)` puts into the picture; it asserts that the vectors are equally long (the failed assertion is an
exception here).  External, called at
PlotUtils.hpp:37. -/
def scatter (x y : List K) : Res (List (K × K)) :=
  if x.length ≠ y.length then .throw .runtimeError else .ok (x.zip y)

/-- Body of the loops.  PlotUtils.hpp:30-34. -/
def visit (A : Mat K) (tolerance : K) (j i : Nat) (m : Marks K) : Res (Marks K) := do
  let a ← A.get i j
  if |a| > tolerance then
    let b ← A.get i j
    pure ⟨m.row ++ [(i : K)], m.col ++ [(A.nrows : K) - (j : K)], m.colors ++ [b]⟩
  else pure m

/-- `matshow(A, tolerance)`, with the marks of the picture as its result.  PlotUtils.hpp:20-38; `nRows() - 1` of a matrix without rows wraps
and becomes the `int` -1.  The loop over columns is the outer one, as in the code. -/
def matshow (A : Mat K) (tolerance : K) : Res (List (K × K)) := do
  let _ ← Vec.range 0 ((A.nrows : Int) - 1)
  let _ ← Vec.range 0 ((A.ncols : Int) - 1)
  let m ← Mat.loop2 A.ncols A.nrows (visit A tolerance) ⟨[], [], []⟩
  scatter m.row m.col

end Plot

end EF
