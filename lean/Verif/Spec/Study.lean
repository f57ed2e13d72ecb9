import Verif.Model.Study
import Verif.Spec.Number
import Verif.Spec.Report
import Verif.Spec.Memory

/-!
# Tables of results

A reader for tables of comma separated values and for numbers in scientific notation, the finite numbers of the type `double`, and the
runs of the convergence study.
-/

namespace EF

/-! ## Numbers -/

/-- A whole number with its sign. -/
def readExponent (t : Text) : Option Int :=
  match t with
  | '+' :: r => (readDigits r).map (fun n : Nat => (n : Int))
  | '-' :: r => (readDigits r).map (fun n : Nat => -(n : Int))
  | _ => none

/-- A number in scientific notation. -/
def readScientific (t : Text) : Option ℚ :=
  (readNumber (t.takeWhile (· ≠ 'e'))).bind fun m => (readExponent ((t.dropWhile (· ≠ 'e')).drop 1)).map fun e => m * 10 ^ e

/-- The finite numbers of the type `double`: 53 binary digits, exponents from -1074 to 971. -/
def IsDouble (x : ℚ) : Prop := ∃ m e : Int, x = m * 2 ^ e ∧ |m| < 2 ^ 53 ∧ -1074 ≤ e ∧ e ≤ 971

/-- The text is a number that is nearer to `x` than to any other double, so that every reader that rounds to the nearest double gets
`x`. -/
def ReadsBack (t : Text) (x : ℚ) : Prop := ∃ d, readScientific t = some d ∧ ∀ y, IsDouble y → y ≠ x → |d - x| < |d - y|

/-! ## Tables -/

/-- The pieces of a text between separators, after a beginning of a piece. -/
def pieces (sep : Char) (acc : Text) : Text → List Text
  | [] => [acc]
  | c :: t => if c = sep then acc :: pieces sep [] t else pieces sep (acc ++ [c]) t

/-- A file of comma separated values. -/
def readTable (t : Text) : List (List Text) := (pieces '\n' [] t).map (pieces ',' [])

/-- The names of the columns. -/
def resultColumns : List Text :=
  ["mode".toList, "min_level".toList, "max_level".toList, "nx".toList, "ny".toList, "effective_resolution".toList, "nDOFs".toList,
    "lI_error".toList, "l1_error".toList, "l2_error".toList, "build_time".toList, "upwards_time".toList, "solve_time".toList,
    "size_MB".toList]

/-! ## Runs -/

/-- A run: least and greatest level, cells per side of a patch. -/
structure StudyRun where
  minLevel : Nat
  maxLevel : Nat
  N : Nat

/-- The runs of an analysis: all sizes and levels with at most 1024 cells per side of the domain on the uniform mesh. -/
def studyRuns (uniform : Bool) (sizes levels : List Nat) : List StudyRun :=
  sizes.flatMap fun N => (levels.filter fun l => N * 2 ^ l ≤ 1024).map fun l => ⟨if uniform then l else 0, l, N⟩

variable {K : Type} [Field K]

/-- A row of the table: `e` and `z` are what the run reports, `b` the number of readings of the clock before the run, `n + 1` the number
of solves. -/
def studyRow (tell : K → Text) (clock : Nat → K) (n : Nat) (j : StudyRun) (b : Nat) (e : ErrorReport K) (z : ℚ) : List Text :=
  [if j.minLevel = j.maxLevel then "uniform".toList else "adaptive".toList, natText j.minLevel, natText j.maxLevel, natText j.N,
    natText j.N, natText e.resolution, natText e.nDOFs, tell e.lI, tell e.l1, tell e.l2, tell (clock (b + 3) - clock (b + 2)),
    tell (clock (b + 4 * n + 5) - clock (b + 4 * n + 4)), tell (clock (b + 4 * n + 7) - clock (b + 4 * n + 6)), tell (z : K)]

/-- The rows of a table: the first run starts after `b` readings of the clock, every run takes four readings and four per solve. -/
def studyRows (tell : K → Text) (clock : Nat → K) (n : Nat) (E : StudyRun → ErrorReport K) (Z : StudyRun → ℚ) :
    Nat → List StudyRun → List (List Text)
  | _, [] => []
  | b, j :: js => studyRow tell clock n j b (E j) (Z j) :: studyRows tell clock n E Z (b + 4 * (n + 2)) js

/-- The program on the ranks below `size`, on the meshes `F` p4est makes for the runs; the others are idle. -/
def StudyCase.on [LinearOrder K] (c : StudyCase K) (M size : Nat) (F : Nat → Nat → Nat → Forest) (clock : Nat → Nat → K) (tell : K → Text)
    (sizes levels : List Nat) (s : AppClock K) (r : Nat) : Prog (Patch K) (Text × Text) :=
  if r < size then c.program (fun a b N => ⟨M, size, r, F a b N⟩) (clock r) tell r sizes levels s else .fin (.ok ([], []))

end EF
