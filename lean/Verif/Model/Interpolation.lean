import Verif.Model.Vector
import Mathlib.Algebra.Order.Field.Basic
import Mathlib.Data.Nat.Sqrt

/-!
# Model of `/repo/src/Interpolation.hpp` and `/repo/src/Interpolation.cpp`

The class keeps references to the two tables; the model keeps their values (the tables must outlive the interpolant and are
not changed by it).  The virtual `rawInterp` is a parameter; it is a function of its arguments and the tables.
-/

namespace EF

variable {K : Type} [Field K] [LinearOrder K]

/-- `xx[j]` with an `int` index.  Vector.hpp:166-175. -/
def Vec.getInt {α : Type} (v : Vec α) (j : Int) : Res α := v.get (toSize j)

/-- `InterpolantBase`.  Interpolation.hpp:43-85. -/
structure Interpolant (K : Type) where
  n : Int
  mm : Int
  jsav : Int
  cor : Bool
  dj : Int
  xx : Vec K
  yy : Vec K

namespace Interpolant

/-- `InterpolantBase(x, y, m)`.  Interpolation.cpp:5-13.  The integer part of the fourth root is two integer square roots. -/
def new (x y : Vec K) (m : Int) : Interpolant K := ⟨x.size, m, 0, false, min 1 (x.size.sqrt.sqrt : Int), x, y⟩

/-- The test `x >= xx[j] == ascend`. -/
def below (xx : Vec K) (ascend : Bool) (x : K) (j : Int) : Res Bool := do
  let a ← xx.getInt j
  pure (decide (a ≤ x) == ascend)

/-- The bisection loop.  Interpolation.cpp:37-45, 96-104. -/
def bisect (xx : Vec K) (ascend : Bool) (x : K) (jl ju : Int) : Res Int :=
  if _h : ju - jl > 1 then do
    let jm := (ju + jl) / 2
    let b ← below xx ascend x jm
    if b then bisect xx ascend x jm ju else bisect xx ascend x jl jm
  else pure jl
termination_by (ju - jl).toNat
decreasing_by all_goals omega

/-- The upward loop of `hunt_`.  Interpolation.cpp:63-76. -/
def huntUp (n : Int) (xx : Vec K) (ascend : Bool) (x : K) (jl inc : Int) (hinc : 0 < inc) : Res (Int × Int) :=
  let ju := jl + inc
  if _h : ju ≥ n - 1 then pure (jl, n - 1)
  else do
    let a ← xx.getInt ju
    if decide (x < a) == ascend then pure (jl, ju)
    else huntUp n xx ascend x ju (inc + inc) (by omega)
termination_by (n - jl).toNat
decreasing_by omega

/-- The downward loop of `hunt_`.  Interpolation.cpp:79-93. -/
def huntDown (xx : Vec K) (ascend : Bool) (x : K) (jl ju inc : Int) (hinc : 0 < inc) : Res (Int × Int) :=
  let jl' := jl - inc
  if _h : jl' ≤ 0 then pure (0, ju)
  else do
    let b ← below xx ascend x jl'
    if b then pure (jl', ju) else huntDown xx ascend x jl' jl' (inc + inc) (by omega)
termination_by jl.toNat
decreasing_by omega

/-- Common end of `locate_` and `hunt_`.  Interpolation.cpp:46-48, 105-107. -/
def finish (I : Interpolant K) (jl : Int) : Int × Interpolant K :=
  (max 0 (min (I.n - I.mm) (jl - (I.mm - 2) / 2)),
    { I with cor := if |jl - I.jsav| > I.dj then false else true, jsav := 1 })

/-- `locate_(x)`.  Interpolation.cpp:29-49. -/
def locate (I : Interpolant K) (x : K) : Res (Int × Interpolant K) :=
  if I.n < 2 ∨ I.mm < 2 ∨ I.mm > I.n then .throw .invalidArgument
  else do
    let last ← I.xx.getInt (I.n - 1)
    let first ← I.xx.getInt 0
    let ascend := decide (last ≥ first)
    let jl ← bisect I.xx ascend x 0 (I.n - 1)
    pure (I.finish jl)

/-- `hunt_(x)`.  Interpolation.cpp:51-108. -/
def hunt (I : Interpolant K) (x : K) : Res (Int × Interpolant K) :=
  if I.n < 2 ∨ I.mm < 2 ∨ I.mm > I.n then .throw .invalidArgument
  else do
    let last ← I.xx.getInt (I.n - 1)
    let first ← I.xx.getInt 0
    let ascend := decide (last ≥ first)
    let jl := I.jsav
    let start ←
      if jl < 0 ∨ jl > I.n - 1 then pure (0, I.n - 1)
      else do
        let b ← below I.xx ascend x jl
        if b then huntUp I.n I.xx ascend x jl 1 (by omega) else huntDown I.xx ascend x jl jl 1 (by omega)
    let jl ← bisect I.xx ascend x start.1 start.2
    pure (I.finish jl)

/-- `cor ? hunt_(x) : locate_(x)`.  Interpolation.cpp:16. -/
def search (I : Interpolant K) (x : K) : Res (Int × Interpolant K) := if I.cor then I.hunt x else I.locate x

/-- `operator()(double)`.  Interpolation.cpp:15-18. -/
def eval (raw : Vec K → Vec K → Int → K → Res K) (I : Interpolant K) (x : K) : Res (K × Interpolant K) := do
  let r ← I.search x
  let y ← raw r.2.xx r.2.yy r.1 x
  pure (y, r.2)

/-- `operator()(Vector<double>&)`.  Interpolation.cpp:20-27. -/
def evalVec (raw : Vec K → Vec K → Int → K → Res K) (I : Interpolant K) (x : Vec K) : Res (Vec K × Interpolant K) :=
  forN x.size (fun i (s : Vec K × Interpolant K) => do
    let xi ← x.get i
    let r ← s.2.eval raw xi
    let y ← s.1.set i r.1
    pure (y, r.2)) (Vec.zeros x.size, I)

/-- `LinearInterpolant::rawInterp(j, x)`.  Interpolation.cpp:114-121. -/
def rawLinear (xx yy : Vec K) (j : Int) (x : K) : Res K := do
  let a ← xx.getInt j
  let b ← xx.getInt (j + 1)
  if a = b then yy.getInt j
  else do
    let c ← yy.getInt j
    let d ← yy.getInt (j + 1)
    pure (c + (x - a) / (b - a) * (d - c))

/-- `LinearInterpolant(x, y)`.  Interpolation.cpp:110-112. -/
def newLinear (x y : Vec K) : Interpolant K := new x y 2

/-- One use of an interpolant: at a number or at a vector of numbers. -/
inductive Query (K : Type)
  | one (x : K)
  | many (x : Vec K)

/-- The interpolant after a sequence of uses. -/
def after (raw : Vec K → Vec K → Int → K → Res K) : List (Query K) → Interpolant K → Res (Interpolant K)
  | [], I => pure I
  | .one x :: qs, I => do
    let r ← I.eval raw x
    after raw qs r.2
  | .many x :: qs, I => do
    let r ← I.evalVec raw x
    after raw qs r.2

end Interpolant

end EF
