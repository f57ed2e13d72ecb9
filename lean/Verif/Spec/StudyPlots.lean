import Verif.Model.StudyPlots
import Verif.Spec.Study

/-!
# What the plots of the convergence study show
-/

namespace EF

variable {K : Type} [Field K]

/-- The abscissas of a curve: the effective resolutions of its runs. -/
def resolutions (E : StudyRun → ErrorReport K) (js : List StudyRun) : List Int := js.map fun j => ((E j).resolution : Int)

/-- The mean errors of the runs over their resolutions. -/
def meanCurve (E : StudyRun → ErrorReport K) (js : List StudyRun) : PlotPair K := (resolutions E js, js.map fun j => (E j).l1)

/-- The times of the build stages; the first run starts after `b` readings of the clock, every run takes four readings and four for
every one of its `n + 1` solves. -/
def buildCurve (clock : Nat → K) (n : Nat) (E : StudyRun → ErrorReport K) (b : Nat) (js : List StudyRun) : PlotPair K :=
  (resolutions E js, (List.range js.length).map fun i => clock (b + 4 * (n + 2) * i + 3) - clock (b + 4 * (n + 2) * i + 2))

/-- The times of the last solve stages. -/
def solveCurve (clock : Nat → K) (n : Nat) (E : StudyRun → ErrorReport K) (b : Nat) (js : List StudyRun) : PlotPair K :=
  (resolutions E js,
    (List.range js.length).map fun i => clock (b + 4 * (n + 2) * i + 4 * n + 7) - clock (b + 4 * (n + 2) * i + 4 * n + 6))

/-- The curves of an analysis, one for every size. -/
def curvesOf (curve : Nat → List StudyRun → PlotPair K) (n : Nat) (uniform : Bool) (levels : List Nat) : Nat → List Nat → List (PlotPair K)
  | _, [] => []
  | b, N :: sizes => curve b (studyRuns uniform [N] levels) ::
      curvesOf curve n uniform levels (b + 4 * (n + 2) * (studyRuns uniform [N] levels).length) sizes

/-- Curves with their names and styles. -/
def legend (name style : Text) : List Text → List Nat → List (PlotPair K) → List (Curve K)
  | color :: colors, N :: sizes, p :: ps => ⟨name ++ natText N, p, style ++ color⟩ :: legend name style colors sizes ps
  | _, _, _ => []

/-- The curves of both analyses; the first one starts after `b` readings of the clock. -/
def bothCurves (su sa : Text) (curve : Nat → List StudyRun → PlotPair K) (n b : Nat) (sizes levels : List Nat) : List (Curve K) :=
  let colors := ["r".toList, "g".toList, "b".toList, "y".toList, "c".toList, "m".toList]
  legend "Uniform: N = ".toList su colors sizes (curvesOf curve n true levels b sizes) ++
    legend "Adaptive: N = ".toList sa colors sizes
      (curvesOf curve n false levels (b + 4 * (n + 2) * (studyRuns true sizes levels).length) sizes)

/-- The figures of the program on the ranks below `size`, on the meshes `F` p4est makes for the runs; the others are idle. -/
def StudyCase.plotsOn [LinearOrder K] (c : StudyCase K) (M size : Nat) (F : Nat → Nat → Nat → Forest) (clock : Nat → Nat → K)
    (sizes levels : List Nat) (s : AppClock K) (r : Nat) : Prog (Patch K) (List (Figure K)) :=
  if r < size then c.plots (fun a b N => ⟨M, size, r, F a b N⟩) (clock r) r sizes levels s else .fin (.ok [])

end EF
