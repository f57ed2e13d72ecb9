import Verif.Model.Memory
import Verif.Model.App
import Verif.Model.Number
import Mathlib.Data.Int.Log
import Mathlib.Data.Rat.Floor

/-!
# The convergence study as a program

Model of `examples/elliptic-multiple/main.cpp` from the loops over patch sizes and levels to the file of results.  The runs are those
of `Verif.Model.Report` and `Verif.Model.Memory`.  `vtk-flag` is false, as the program sets it; console output and plots are left out.
The options a run reads are those set right before (C45), and are arguments here.

The clock is external: `clock k` is its reading number `k`.  What happens between two readings is not tied to the clock.
-/

namespace EF

open HPS

/-! ## Numbers with seventeen digits -/

/-- The natural number nearest to a number that is not negative, the even one of two. -/
def nearestEven (y : ℚ) : Nat :=
  if y - ⌊y⌋₊ < 1 / 2 then ⌊y⌋₊
  else if y - ⌊y⌋₊ = 1 / 2 ∧ ⌊y⌋₊ % 2 = 0 then ⌊y⌋₊
  else ⌊y⌋₊ + 1

/-- The seventeen digits and the decimal exponent `printf("%.16e")` shows of a number that is not zero. -/
def sciParts (x : ℚ) : Nat × Int :=
  let e := Int.log 10 |x|
  let m := nearestEven (|x| * 10 ^ (16 - e))
  if m = 10 ^ 17 then (10 ^ 16, e + 1) else (m, e)

/-- At least two digits. -/
def pad2 (n : Nat) : Text := List.replicate (2 - (natText n).length) '0' ++ natText n

/-- Digits and exponent in scientific notation. -/
def sciForm (m : Nat) (e : Int) : Text :=
  (natText m).take 1 ++ '.' :: (natText m).drop 1 ++ 'e' :: (if e < 0 then '-' else '+') :: pad2 e.natAbs

/-- `printf("%.16e")` of a finite double.  examples/elliptic-multiple/main.cpp:110-114, 145-151. -/
def sciText (x : ℚ) : Text :=
  if x = 0 then "0.0000000000000000e+00".toList
  else (if x < 0 then ['-'] else []) ++ sciForm (sciParts x).1 (sciParts x).2

/-- `number2string(x, "%.16e")`: a buffer of 32 characters with the terminating zero.  examples/elliptic-multiple/main.cpp:110-114. -/
def number2string (x : ℚ) : Text := (sciText x).take 31

/-! ## Results -/

/-- `ResultsData`.  examples/elliptic-multiple/main.cpp:119-134. -/
structure ResultsData (K : Type) where
  mode : Text
  minLevel : Int
  maxLevel : Int
  nx : Int
  ny : Int
  resolution : Int
  nDOFs : Int
  lI : K
  l1 : K
  l2 : K
  buildTime : K
  upwardsTime : K
  solveTime : K
  sizeMB : K

variable {K : Type}

/-- `csv()`; `tell` is `number2string` with the format of sixteen decimals.  examples/elliptic-multiple/main.cpp:136-153. -/
def ResultsData.csv (tell : K → Text) (d : ResultsData K) : Text :=
  d.mode ++ [','] ++ intText d.minLevel ++ [','] ++ intText d.maxLevel ++ [','] ++ intText d.nx ++ [','] ++ intText d.ny ++ [','] ++
    intText d.resolution ++ [','] ++ intText d.nDOFs ++ [','] ++ tell d.lI ++ [','] ++ tell d.l1 ++ [','] ++ tell d.l2 ++ [','] ++
    tell d.buildTime ++ [','] ++ tell d.upwardsTime ++ [','] ++ tell d.solveTime ++ [','] ++ tell d.sizeMB ++ [',']

/-- `headers()`.  examples/elliptic-multiple/main.cpp:174-191. -/
def resultHeaders : Text :=
  "mode,".toList ++ "min_level,".toList ++ "max_level,".toList ++ "nx,".toList ++ "ny,".toList ++ "effective_resolution,".toList ++
    "nDOFs,".toList ++ "lI_error,".toList ++ "l1_error,".toList ++ "l2_error,".toList ++ "build_time,".toList ++
    "upwards_time,".toList ++ "solve_time,".toList ++ "size_MB,".toList

/-! ## Timers -/

/-- The timers of the application and the number of readings of the clock so far. -/
structure AppClock (K : Type) where
  timers : Timers K
  ticks : Nat

/-- The calls a stage makes on its timer.  HPSAlgorithm.hpp:98-103, 125-158, 230-269, 348-442. -/
def AppClock.stage [AddGroup K] (clock : Nat → K) (name : Text) (s : AppClock K) : AppClock K :=
  ⟨[AppCall.add name, .on name (.start (clock s.ticks)), .on name (.stop (clock (s.ticks + 1)))].foldl AppCall.run s.timers,
    s.ticks + 2⟩

/-- `n` turns of the loop of solves.  examples/elliptic-multiple/main.cpp:270-284. -/
def AppClock.solves [AddGroup K] (clock : Nat → K) : Nat → AppClock K → AppClock K
  | 0, s => s
  | n + 1, s => AppClock.solves clock n ((s.stage clock "upwards-stage".toList).stage clock "solve-stage".toList)

/-- The stages of one run.  examples/elliptic-multiple/main.cpp:264-284. -/
def AppClock.stages [AddGroup K] (clock : Nat → K) (n : Nat) (s : AppClock K) : AppClock K :=
  AppClock.solves clock n ((s.stage clock "setup-stage".toList).stage clock "build-stage".toList)

/-- `app.timers[name].time()`. -/
def AppClock.time [Zero K] (name : Text) (s : AppClock K) : K := ((s.timers name).getD Timer.new).time

/-- The three calls of `restart()` after a run.  examples/elliptic-multiple/main.cpp:501-503, 552-554. -/
def AppClock.restart [AddGroup K] (s : AppClock K) : AppClock K :=
  ⟨[AppCall.on "build-stage".toList .restart, .on "upwards-stage".toList .restart, .on "solve-stage".toList .restart].foldl AppCall.run
    s.timers, s.ticks⟩

/-! ## The program -/

variable [Field K] [LinearOrder K]

/-- What one run is about: the solvers, the problem, how often it is solved, the square root and the solution to compare with.
examples/elliptic-multiple/main.cpp:51-99, 204-218, 245-249, 270-284. -/
structure StudyCase (K : Type) [Field K] where
  lap : Lapack K
  ps : PatchSolver K
  opt : HPSOptions
  xl : K
  xu : K
  yl : K
  yu : K
  f : K → K → K
  bc : HPS.BoundaryFn K
  solves : Nat
  sqrt : K → K
  exact : K → K → K

/-- The root patch of a run with `N` cells per side.  examples/elliptic-multiple/main.cpp:223-224. -/
def StudyCase.root (c : StudyCase K) (N : Nat) : Patch K := Patch.fresh ⟨N, N, c.xl, c.xu, c.yl, c.yu⟩

/-- `solveEllipticViaHPS()` with the options `min-level`, `max-level` and `nx`, `ny` both `N`.
examples/elliptic-multiple/main.cpp:201-400. -/
def StudyCase.run (c : StudyCase K) (P : Place) (clock : Nat → K) (minLevel maxLevel N : Nat) (s : AppClock K) :
    Prog (Patch K) (ResultsData K × AppClock K) := do
  let mesh ← Prog.fin (Mesh.refineByFunction P.M P.rank P.forest (c.root N) FVFactory.factory Mesh.blank)
  let A ← HPSRank.setupStage P ⟨mesh, none⟩
  let A ← A.buildStage P c.lap c.ps c.opt
  let A ← A.solves P c.lap c.ps c.opt c.f c.bc c.solves
  let e ← Prog.fin (errorReport P c.sqrt c.exact maxLevel (c.root N).grid A.mesh.quadtree)
  let z ← Prog.fin (sizeReport P A.mesh.quadtree)
  let s := s.stages clock c.solves
  pure ({ mode := if minLevel = maxLevel then "uniform".toList else "adaptive".toList
          minLevel := minLevel
          maxLevel := maxLevel
          nx := N
          ny := N
          resolution := e.resolution
          nDOFs := e.nDOFs
          lI := e.lI
          l1 := e.l1
          l2 := e.l2
          buildTime := s.time "build-stage".toList
          upwardsTime := s.time "upwards-stage".toList
          solveTime := s.time "solve-stage".toList
          sizeMB := (z : K) }, s)

/-- The timers and `results_vector`. -/
structure StudyState (K : Type) where
  clock : AppClock K
  results : List (ResultsData K)

/-- `max_resolution`.  examples/elliptic-multiple/main.cpp:462. -/
def maxResolution : Nat := 2 ^ 20

/-- Body of the inner loops; `uniform` in the first analysis.  The number of unknowns is that of the uniform mesh in both.
examples/elliptic-multiple/main.cpp:469-504, 520-555. -/
def StudyCase.level (c : StudyCase K) (P : Nat → Nat → Nat → Place) (clock : Nat → K) (uniform : Bool) (N l : Nat) (s : StudyState K) :
    Prog (Patch K) (StudyState K) := do
  if N ^ 2 * 2 ^ (2 * l) > maxResolution then pure s
  else
    let minLevel := if uniform then l else 0
    let x ← c.run (P minLevel l N) clock minLevel l N s.clock
    pure ⟨x.2.restart, s.results ++ [x.1]⟩

/-- One of the two analyses.  examples/elliptic-multiple/main.cpp:463-509, 514-560. -/
def StudyCase.analysis (c : StudyCase K) (P : Nat → Nat → Nat → Place) (clock : Nat → K) (uniform : Bool) (sizes levels : List Nat)
    (s : StudyState K) : Prog (Patch K) (StudyState K) :=
  sizes.foldlM (fun s N => levels.foldlM (fun s l => c.level P clock uniform N l s) s) s

/-- The file of results: its name and its text.  examples/elliptic-multiple/main.cpp:571-579. -/
def studyFile (tell : K → Text) (rank : Nat) (results : List (ResultsData K)) : Text × Text :=
  ("elliptic_results_".toList ++ intText rank ++ ".csv".toList,
    resultHeaders ++ ['\n'] ++ results.flatMap (fun d => d.csv tell ++ ['\n']))

/-- The program on one rank from the first analysis to the file.  `patch_size_vector` and `max_level_vector` are arguments.
examples/elliptic-multiple/main.cpp:440-579. -/
def StudyCase.program (c : StudyCase K) (P : Nat → Nat → Nat → Place) (clock : Nat → K) (tell : K → Text) (rank : Nat)
    (sizes levels : List Nat) (s : AppClock K) : Prog (Patch K) (Text × Text) := do
  let s ← c.analysis P clock true sizes levels ⟨s, []⟩
  let s ← c.analysis P clock false sizes levels s
  pure (studyFile tell rank s.results)

end EF
