import Verif.Model.Options
import Mathlib.Algebra.Field.Basic

/-!
# The options of the example programs

What the three example programs do with options from their first line to their last read of one: the constructor of the
application parses the command line, `main` then stores its own values, and the library and the convergence study read.

`MPI_Init` and `PetscInitialize` run before the command line is parsed and may take arguments out; the arguments here are those
they leave.  `main` of the programs catches nothing, so a throw ends the program.  `double` is an exact field and the constant
`M_PI` a parameter.
-/

namespace EF

variable {K : Type}

/-- `std::get<int>(options[key])`, as in examples/elliptic-multiple/main.cpp:207. -/
def Options.getInt (o : Options K) (key : Text) : Res Int :=
  match (o.read key).2 with
  | .int i => pure i
  | _ => .throw .badVariant

/-- `std::get<double>(options[key])`, as in examples/elliptic-multiple/main.cpp:213. -/
def Options.getReal (o : Options K) (key : Text) : Res K :=
  match (o.read key).2 with
  | .real x => pure x
  | _ => .throw .badVariant

/-- The options after the constructor of the application.  EllipticForestApp.cpp:23-25. -/
def Options.construct (stod : Text → Res K) (args : List Text) : Res (Options K) := Options.parse stod Options.empty args

/-- A sequence of calls of `setOption`. -/
def Options.setAll (o : Options K) (s : List (Text × OptVal K)) : Options K := s.foldl (fun o e => o.set e.1 e.2) o

/-- The example programs with options. -/
inductive Example where
  | single
  | multiple
  | thermal

variable [Field K]

/-- The options `main` stores right after making the application.  examples/elliptic-single/main.cpp:115-152,
examples/elliptic-multiple/main.cpp:414-439, examples/thermal/main.cpp:179-235. -/
def Example.settings (pi : K) : Example → List (Text × OptVal K)
  | .single =>
    [("cache-operators".toList, .bool false), ("homogeneous-rhs".toList, .bool false), ("vtk-flag".toList, .bool true),
     ("refinement-threshold".toList, .real (12 / 10)), ("n-solves".toList, .int 1), ("min-level".toList, .int 0),
     ("max-level".toList, .int 6), ("x-lower".toList, .real (-10)), ("x-upper".toList, .real 10), ("y-lower".toList, .real (-10)),
     ("y-upper".toList, .real 10), ("nx".toList, .int 8), ("ny".toList, .int 8)]
  | .multiple =>
    [("cache-operators".toList, .bool false), ("homogeneous-rhs".toList, .bool false), ("refinement-threshold".toList, .real (12 / 10)),
     ("n-solves".toList, .int 1), ("x-lower".toList, .real 0), ("x-upper".toList, .real pi), ("y-lower".toList, .real 0),
     ("y-upper".toList, .real pi), ("vtk-flag".toList, .bool false)]
  | .thermal =>
    [("cache-operators".toList, .bool false), ("homogeneous-rhs".toList, .bool false), ("vtk-flag".toList, .bool true),
     ("refinement-threshold".toList, .real 1), ("min-level".toList, .int 1), ("max-level".toList, .int 6),
     ("x-lower".toList, .real (-10)), ("x-upper".toList, .real 10), ("y-lower".toList, .real (-10)), ("y-upper".toList, .real 10),
     ("nx".toList, .int 16), ("ny".toList, .int 16), ("t-start".toList, .real 0), ("t-end".toList, .real 100), ("nt".toList, .real 100),
     ("dt".toList, .real ((100 - 0) / 100)), ("n-vtk".toList, .int 2), ("T-left".toList, .real 40), ("T-right".toList, .real 20)]

/-- The options when the part of `main` headed "Setup options" is over.  Lines as above. -/
def Example.start (p : Example) (pi : K) (stod : Text → Res K) (args : List Text) : Res (Options K) :=
  Options.construct stod args >>= fun o => pure (o.setAll (p.settings pi))

/-- What the library reads: `cache-operators` in the build stage, `homogeneous-rhs` in the upwards and solve stages.
HPSAlgorithm.hpp:134, 532, 587, 1202. -/
def Options.library (o : Options K) : Res (Bool × Bool) := do
  let c ← o.getBool "cache-operators".toList
  let h ← o.getBool "homogeneous-rhs".toList
  pure (c, h)

/-- The options one run of the convergence study reads.  examples/elliptic-multiple/main.cpp:204-218. -/
structure RunOptions (K : Type) where
  solves : Int
  minLevel : Int
  maxLevel : Int
  nx : Int
  ny : Int
  threshold : K
  xLower : K
  xUpper : K
  yLower : K
  yUpper : K
  vtk : Bool

/-- examples/elliptic-multiple/main.cpp:204-218.  Reading a missing key also stores the empty string under it; here each such read
throws. -/
def Options.run (o : Options K) : Res (RunOptions K) := do
  let solves ← o.getInt "n-solves".toList
  let minLevel ← o.getInt "min-level".toList
  let maxLevel ← o.getInt "max-level".toList
  let nx ← o.getInt "nx".toList
  let ny ← o.getInt "ny".toList
  let threshold ← o.getReal "refinement-threshold".toList
  let xLower ← o.getReal "x-lower".toList
  let xUpper ← o.getReal "x-upper".toList
  let yLower ← o.getReal "y-lower".toList
  let yUpper ← o.getReal "y-upper".toList
  let vtk ← o.getBool "vtk-flag".toList
  pure ⟨solves, minLevel, maxLevel, nx, ny, threshold, xLower, xUpper, yLower, yUpper, vtk⟩

/-- The runs of the convergence study, each given by its least level, greatest level and patch size: four options are stored, then
the run and the library read.  examples/elliptic-multiple/main.cpp:478-485, 529-536. -/
def Options.study (o : Options K) : List (Nat × Nat × Nat) → Res (List (RunOptions K × Bool × Bool))
  | [] => pure []
  | (lo, hi, n) :: rest => do
    let o := o.setAll [("min-level".toList, .int lo), ("max-level".toList, .int hi), ("nx".toList, .int n), ("ny".toList, .int n)]
    let r ← o.run
    let l ← o.library
    let rs ← Options.study o rest
    pure ((r, l) :: rs)

end EF
