import Verif.Model.Study

/-!
# The plots of the convergence study

Model of the plots `examples/elliptic-multiple/main.cpp` makes when it is built with matplotlib.  The runs are those of
`Verif.Model.Study`; the list of results and the file are left out here, they read the same runs.  matplotlib is external: a figure is
what it is told to draw.  Ticks, legend position, grid lines and the showing of the figures on the screen are left out.
-/

namespace EF

open HPS

variable {K : Type}

/-- `PlotPair`: the abscissas and the ordinates of a curve.  examples/elliptic-multiple/main.cpp:40. -/
abbrev PlotPair (K : Type) := List Int × List K

/-- The two `push_back`s of a point.  examples/elliptic-multiple/main.cpp:491-498, 542-549. -/
def PlotPair.push (p : PlotPair K) (x : Int) (y : K) : PlotPair K := (p.1 ++ [x], p.2 ++ [y])

/-- `error_pair`, `build_pair` and `solve_pair`; also the three lists of them of an analysis.
examples/elliptic-multiple/main.cpp:448-453, 465-467, 516-518. -/
structure Three (A : Type) where
  error : A
  build : A
  solve : A

/-- What `named_loglog` is given: the name in the legend, the points and the style. -/
structure Curve (K : Type) where
  label : Text
  points : PlotPair K
  style : Text

/-- A figure as it is saved: the curves, the labels of the axes, the title, the names of the files without and with the title. -/
structure Figure (K : Type) where
  curves : List (Curve K)
  xlabel : Text
  ylabel : Text
  title : Text
  bare : Text
  titled : Text

/-- `colors`.  examples/elliptic-multiple/main.cpp:590. -/
def plotColors : List Text := ["r".toList, "g".toList, "b".toList, "y".toList, "c".toList, "m".toList]

/-- One of the six loops over the curves of an analysis, with its `counter`: the elements number `counter` of `patch_size_vector` and of
`colors` are read without a check.  examples/elliptic-multiple/main.cpp:589-599, 615-624, 637-646. -/
def drawCurves (name style : Text) (sizes : List Nat) (plots : List (PlotPair K)) : Res (List (Curve K)) := do
  let x ← plots.foldlM (fun (x : List (Curve K) × Nat) p => do
    let N ← rd sizes x.2
    let color ← rd plotColors x.2
    pure (x.1 ++ [⟨name ++ intText N, p, style ++ color⟩], x.2 + 1)) ([], 0)
  pure x.1

/-- The part of one figure.  examples/elliptic-multiple/main.cpp:587-611, 613-633, 635-655. -/
def drawFigure (su sa ylabel title file : Text) (sizes : List Nat) (uniform adaptive : List (PlotPair K)) : Res (Figure K) := do
  let a ← drawCurves "Uniform: N = ".toList su sizes uniform
  let b ← drawCurves "Adaptive: N = ".toList sa sizes adaptive
  pure ⟨a ++ b, "Effective Resolution".toList, ylabel, title, file ++ "_no_title.pdf".toList, file ++ ".pdf".toList⟩

/-- The three figures.  examples/elliptic-multiple/main.cpp:584-658. -/
def drawFigures (sizes : List Nat) (uniform adaptive : Three (List (PlotPair K))) : Res (List (Figure K)) := do
  let a ← drawFigure "-v".toList "--o".toList "Inf-Norm Error".toList "Convergence Study - Uniform vs. Adaptive Mesh".toList
    "plot_elliptic_error".toList sizes uniform.error adaptive.error
  let b ← drawFigure "--s".toList "-o".toList "Time [sec]".toList "Timing Study - Uniform vs. Adaptive Mesh - Build Stage".toList
    "plot_elliptic_build_time".toList sizes uniform.build adaptive.build
  let c ← drawFigure "--s".toList "-o".toList "Time [sec]".toList "Timing Study - Uniform vs. Adaptive Mesh - Solve Stage".toList
    "plot_elliptic_solve_time".toList sizes uniform.solve adaptive.solve
  pure [a, b, c]

variable [Field K] [LinearOrder K]

/-- Body of the inner loops as far as the points of the curves go.  examples/elliptic-multiple/main.cpp:469-504, 520-555. -/
def StudyCase.levelPlots (c : StudyCase K) (P : Nat → Nat → Nat → Place) (clock : Nat → K) (uniform : Bool) (N l : Nat)
    (s : AppClock K × Three (PlotPair K)) : Prog (Patch K) (AppClock K × Three (PlotPair K)) := do
  if N ^ 2 * 2 ^ (2 * l) > maxResolution then pure s
  else
    let minLevel := if uniform then l else 0
    let x ← c.run (P minLevel l N) clock minLevel l N s.1
    let results := x.1
    let nDOFs := results.resolution
    let error := results.l1
    pure (x.2.restart, ⟨s.2.error.push nDOFs error, s.2.build.push nDOFs (x.2.time "build-stage".toList),
      s.2.solve.push nDOFs (x.2.time "solve-stage".toList)⟩)

/-- Body of the outer loops.  examples/elliptic-multiple/main.cpp:463-509, 514-560. -/
def StudyCase.sizePlots (c : StudyCase K) (P : Nat → Nat → Nat → Place) (clock : Nat → K) (uniform : Bool) (levels : List Nat)
    (s : AppClock K × Three (List (PlotPair K))) (N : Nat) : Prog (Patch K) (AppClock K × Three (List (PlotPair K))) := do
  let x ← levels.foldlM (fun s l => c.levelPlots P clock uniform N l s) (s.1, ⟨([], []), ([], []), ([], [])⟩)
  pure (x.1, ⟨s.2.error ++ [x.2.error], s.2.build ++ [x.2.build], s.2.solve ++ [x.2.solve]⟩)

/-- One of the two analyses.  examples/elliptic-multiple/main.cpp:463-509, 514-560. -/
def StudyCase.analysisPlots (c : StudyCase K) (P : Nat → Nat → Nat → Place) (clock : Nat → K) (uniform : Bool) (sizes levels : List Nat)
    (s : AppClock K) : Prog (Patch K) (AppClock K × Three (List (PlotPair K))) :=
  sizes.foldlM (c.sizePlots P clock uniform levels) (s, ⟨[], [], []⟩)

/-- The program on one rank as far as the figures go.  examples/elliptic-multiple/main.cpp:440-658. -/
def StudyCase.plots (c : StudyCase K) (P : Nat → Nat → Nat → Place) (clock : Nat → K) (rank : Nat) (sizes levels : List Nat)
    (s : AppClock K) : Prog (Patch K) (List (Figure K)) := do
  let u ← c.analysisPlots P clock true sizes levels s
  let a ← c.analysisPlots P clock false sizes levels u.1
  if rank = 0 then Prog.fin (drawFigures sizes u.2 a.2) else pure []

end EF
