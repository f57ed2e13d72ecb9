import Verif.Model.FiniteVolume
import Verif.Model.Quadtree

/-!
# Plot of a grid

`PatchGrid::plot` (`/repo/src/PatchGrid.hpp:122-156`), which is part of the library when it is built with matplotlibcpp, for the grids of
the finite volume method.

matplotlibcpp is external: `plot(x, y, format)` puts the points `(x[k], y[k])` into the picture, `text(x, y, s)` a text; what marks and
lines look like is in the format, which is passed on.
-/

namespace EF

namespace GridPlot

variable {K : Type}

/-- A call of matplotlibcpp. -/
inductive Call (K : Type) where
  | plot (x y : List K) (format : Text)
  | text (x y : K) (s : Text)

/-- `plt::plot(x, y, format)`; it asserts that the vectors are equally long (the failed assertion is an exception here).  External, called
at PatchGrid.hpp:137, 141-144, 150. -/
def line (x y : List K) (format : Text) : Res (Call K) :=
  if x.length ≠ y.length then .throw .runtimeError else .ok (.plot x y format)

variable [Field K]

/-- The loops that fill `xPoints` and `yPoints`.  PatchGrid.hpp:124-132. -/
def coordinates (g : Grid K) (dim n : Nat) : Res (List K) :=
  forN n (fun i v => do
    let p ← g.point dim i
    wr v i p) (List.replicate n 0)

/-- `plot(name, plotBox, plotPoints, plotEdges, plotName, edgeColor, pointColor)`, with the calls it makes as its result.
PatchGrid.hpp:122-158. -/
def plot (g : Grid K) (name : Text) (plotBox plotPoints plotEdges plotName : Bool) (edgeColor pointColor : Text) : Res (List (Call K)) := do
  let xPoints ← coordinates g 0 g.nx
  let yPoints ← coordinates g 1 g.ny
  let box ← if plotBox then do
      let c ← line [g.xl, g.xu, g.xu, g.xl, g.xl] [g.yl, g.yl, g.yu, g.yu, g.yl] "-k".toList
      pure [c]
    else pure []
  let edges ← if plotEdges then do
      let a ← line (List.replicate g.ny g.xl) yPoints ('.' :: edgeColor)
      let b ← line (List.replicate g.ny g.xu) yPoints ('.' :: edgeColor)
      let c ← line xPoints (List.replicate g.nx g.yl) ('.' :: edgeColor)
      let d ← line xPoints (List.replicate g.nx g.yu) ('.' :: edgeColor)
      pure [a, b, c, d]
    else pure []
  let points ← if plotPoints then
      forN g.ny (fun j l => do
        let y ← rd yPoints j
        let c ← line xPoints (List.replicate g.nx y) ('.' :: pointColor)
        pure (l ++ [c])) []
    else pure []
  pure (box ++ edges ++ points ++ if plotName then [.text ((g.xl + g.xu) / 2) ((g.yl + g.yu) / 2) name] else [])

end GridPlot

end EF
