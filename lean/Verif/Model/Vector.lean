import Verif.Basic
import Mathlib.Algebra.Field.Defs
import Mathlib.Algebra.Order.Group.Unbundled.Abs

/-!
# Model of `/repo/src/Vector.hpp`

Simplifications: `std::size_t` and `int` are unbounded (`Nat` / `Int`); floating-point entries are
elements of an arbitrary field; the `name_` and `vtk*_` decorations are omitted; error messages are
omitted (only the exception class is kept).  A by-value or by-reference C++ argument is a value
unless a definition says otherwise.
-/

namespace EF

/-- `Vector<NumericalType>`: the two data members `size_` and `data_`.
Vector.hpp:31-61.  They are independent members, so they may disagree. -/
structure Vec (α : Type) where
  size : Nat
  data : List α
  deriving DecidableEq, Repr

/-- Implicit conversion `int → std::size_t` (64 bit).  Non-negative values are kept, negative ones
wrap around.  (`int` itself is not bounded in this model.) -/
def toSize (i : Int) : Nat := if 0 ≤ i then i.toNat else (2 ^ 64 + i).toNat

namespace Vec

variable {α : Type} {K : Type}

/-- `Vector()`.  Vector.hpp:69. -/
def empty : Vec α := ⟨0, []⟩

/-- `Vector(size, value)`.  Vector.hpp:84. -/
def fill (n : Nat) (a : α) : Vec α := ⟨n, List.replicate n a⟩

/-- `Vector(size)`: value-initialised entries (zeros).  Vector.hpp:76. -/
def zeros [Zero α] (n : Nat) : Vec α := fill n 0

/-- `Vector(initializer_list)` / `Vector(std::vector)`.  Vector.hpp:91, 98. -/
def ofList (l : List α) : Vec α := ⟨l.length, l⟩

/-- `getEntry(index)` / `operator[]` / `operator()` used as a value.
Vector.hpp:146-155, 166-175, 186-195, 206-215.  (`index < 0` is vacuous for `std::size_t`.) -/
def get (v : Vec α) (i : Nat) : Res α :=
  if i > v.size then .throw .outOfRange else rd v.data i

/-- Assignment through the reference returned by `operator[]` / `operator()`.
Vector.hpp:166-175, 206-215. -/
def set (v : Vec α) (i : Nat) (a : α) : Res (Vec α) :=
  if i > v.size then .throw .outOfRange else do
    let d ← wr v.data i a
    pure { v with data := d }

/-- `getRange(a, b)`.  Vector.hpp:261-276.  The entries stored are `a + i`, exactly as in the code.
`(b - a) + 1` in `std::size_t` wraps to a huge allocation when `b + 1 < a`. -/
def getRange [Zero K] [NatCast K] (v : Vec K) (a b : Nat) : Res (Vec K) :=
  if a > v.size ∨ b > v.size then .throw .outOfRange
  else if b + 1 < a then .throw .badAlloc
  else
    let n := b + 1 - a
    forN n (fun i w => w.set i ((a + i : Nat) : K)) (zeros n)

/-- `operator()(a, b)`.  Vector.hpp:287-302 (same body as `getRange`). -/
def callRange [Zero K] [NatCast K] (v : Vec K) (a b : Nat) : Res (Vec K) :=
  if a > v.size ∨ b > v.size then .throw .outOfRange
  else if b + 1 < a then .throw .badAlloc
  else
    let n := b + 1 - a
    forN n (fun i w => w.set i ((a + i : Nat) : K)) (zeros n)

/-- `getSegment(startIndex, length)`.  Vector.hpp:311-328. -/
def getSegment [Zero α] (v : Vec α) (start length : Nat) : Res (Vec α) :=
  if start + length > v.size then .throw .outOfRange
  else
    forN length (fun ii res => do
      let a ← rd v.data (start + ii)
      res.set ii a) (zeros length)

/-- `setSegment(startIndex, vec)`.  Vector.hpp:336-349 (`vec` a different object than `this`). -/
def setSegment (v : Vec α) (start : Nat) (w : Vec α) : Res (Vec α) :=
  if start + w.size > v.size then .throw .outOfRange
  else
    forN w.size (fun ii res => do
      let a ← w.get ii
      let d ← wr res.data (start + ii) a
      pure { res with data := d }) v

/-- `append(vec)`.  Vector.hpp:356-359. -/
def append (v w : Vec α) : Vec α := ⟨v.size + w.size, v.data ++ w.data⟩

/-- `getFromIndexSet(I)`.  Vector.hpp:369-391. -/
def getFromIndexSet [Zero α] (v : Vec α) (I : Vec Int) : Res (Vec α) :=
  if I.size > v.size then .throw .outOfRange
  else
    forN I.size (fun i res => do
      let k ← I.get i
      if toSize k > v.size ∨ k < 0 then .throw .outOfRange
      else do
        let k' ← I.get i
        let a ← v.get (toSize k')
        res.set i a) (zeros I.size)

/-- `operator()(Vector<int> I)`.  Vector.hpp:401-423 (same body as `getFromIndexSet`). -/
def callIndexSet [Zero α] (v : Vec α) (I : Vec Int) : Res (Vec α) :=
  if I.size > v.size then .throw .outOfRange
  else
    forN I.size (fun i res => do
      let k ← I.get i
      if toSize k > v.size ∨ k < 0 then .throw .outOfRange
      else do
        let k' ← I.get i
        let a ← v.get (toSize k')
        res.set i a) (zeros I.size)

/-- Running sum `for (i = 0; i < n; i++) s += S[i]` of a `Vector<int>` into a `std::size_t`.
Vector.hpp:434, 450; Matrix.hpp:432, 442, 459, 467.
Simplification: a negative entry of `S` (which would wrap around) is modelled as `ub`. -/
def sumSizes (S : Vec Int) (n : Nat) : Res Nat :=
  forN n (fun i s => do
    let k ← S.get i
    if k < 0 then .ub else pure (s + k.toNat)) 0

/-- The flattened index set built by `blockPermute`: blocks listed in `I`, block sizes in `S`.
Vector.hpp:444-455; Matrix.hpp:452-469.  State: (`SGlobal`, `ICounter`).
`S[I_i]` with a negative `I_i` converts to a huge `size_t` and throws. -/
def flattenBlocks (I S : Vec Int) (total : Nat) : Res (Vec Int) := do
  let r ← forN I.size (fun i (st : Vec Int × Nat) => do
    let Ii ← I.get i
    let s ← sumSizes S Ii.toNat
    let len ← S.get (toSize Ii)
    if len < 0 then .ub else
    forN len.toNat (fun q (st : Vec Int × Nat) => do
      let g ← st.1.set st.2 ((s + q : Nat) : Int)
      pure (g, st.2 + 1)) st) (zeros total, 0)
  pure r.1

/-- `blockPermute(I, S)`.  Vector.hpp:432-458. -/
def blockPermute [Zero α] (v : Vec α) (I S : Vec Int) : Res (Vec α) := do
  let sizeCheck ← sumSizes S S.size
  if sizeCheck ≠ v.size then .throw .invalidArgument
  else do
    let g ← flattenBlocks I S v.size
    v.getFromIndexSet g

section arith
variable [Field K]

/-- Unary `operator-()`.  Vector.hpp:488-494. -/
def neg (v : Vec K) : Res (Vec K) :=
  forN v.size (fun i res => do
    let a ← rd v.data i
    res.set i (-a)) (zeros v.size)

/-- In-place update `data_[i] = f(data_[i])` used by the `op=` loops. -/
def updData (v : Vec α) (i : Nat) (f : α → Res α) : Res (Vec α) := do
  let a ← rd v.data i
  let b ← f a
  let d ← wr v.data i b
  pure { v with data := d }

/-- `operator+=(const Vector&)`.  Vector.hpp:502-515. -/
def addAssign (v w : Vec K) : Res (Vec K) :=
  if w.size ≠ v.size then .throw .invalidArgument
  else forN v.size (fun i res => res.updData i (fun a => do
    let b ← w.get i
    pure (a + b))) v

/-- `operator+=(NumericalType)`.  Vector.hpp:523-528. -/
def addScalarAssign (v : Vec K) (s : K) : Res (Vec K) :=
  forN v.size (fun i res => res.updData i (fun a => pure (a + s))) v

/-- `operator+(const Vector&)`.  Vector.hpp:536-547. -/
def add (v w : Vec K) : Res (Vec K) :=
  if w.size ≠ v.size then .throw .invalidArgument else v.addAssign w

/-- `operator+(NumericalType)`.  Vector.hpp:555-557. -/
def addScalar (v : Vec K) (s : K) : Res (Vec K) := v.addScalarAssign s

/-- `operator-=(const Vector&)`.  Vector.hpp:565-578. -/
def subAssign (v w : Vec K) : Res (Vec K) :=
  if w.size ≠ v.size then .throw .invalidArgument
  else forN v.size (fun i res => res.updData i (fun a => do
    let b ← w.get i
    pure (a - b))) v

/-- `operator-=(const NumericalType&)` with a scalar that is not an entry of the vector.
Vector.hpp:586-591. -/
def subScalarAssign (v : Vec K) (s : K) : Res (Vec K) :=
  forN v.size (fun i res => res.updData i (fun a => pure (a - s))) v

/-- `operator-(const Vector&)`.  Vector.hpp:599-610. -/
def sub (v w : Vec K) : Res (Vec K) :=
  if w.size ≠ v.size then .throw .invalidArgument else v.subAssign w

/-- `operator-(NumericalType)`.  Vector.hpp:618-620. -/
def subScalar (v : Vec K) (s : K) : Res (Vec K) := v.subScalarAssign s

/-- `operator*=(const NumericalType&)` with a scalar that is not an entry of the vector.
Vector.hpp:628-633. -/
def mulScalarAssign (v : Vec K) (s : K) : Res (Vec K) :=
  forN v.size (fun i res => res.updData i (fun a => pure (a * s))) v

/-- `operator/=(const NumericalType&)` with a scalar that is not an entry of the vector.
Vector.hpp:663-668. -/
def divScalarAssign (v : Vec K) (s : K) : Res (Vec K) :=
  forN v.size (fun i res => res.updData i (fun a => pure (a / s))) v

/-- `v *= v[k]`: the argument is a *reference* to entry `k` of the vector being scaled, so every
iteration reads the current value of that entry.  Vector.hpp:628-633 called with `operator[]`. -/
def mulAssignOwnEntry (v : Vec K) (k : Nat) : Res (Vec K) := do
  let _ ← v.get k
  forN v.size (fun i res => res.updData i (fun a => do
    let s ← rd res.data k
    pure (a * s))) v

/-- `v /= v[k]`, argument passed by reference.  Vector.hpp:663-668 called with `operator[]`. -/
def divAssignOwnEntry (v : Vec K) (k : Nat) : Res (Vec K) := do
  let _ ← v.get k
  forN v.size (fun i res => res.updData i (fun a => do
    let s ← rd res.data k
    pure (a / s))) v

/-- `v -= v[k]`, argument passed by reference.  Vector.hpp:586-591 called with `operator[]`. -/
def subAssignOwnEntry (v : Vec K) (k : Nat) : Res (Vec K) := do
  let _ ← v.get k
  forN v.size (fun i res => res.updData i (fun a => do
    let s ← rd res.data k
    pure (a - s))) v

/-- Member `operator*(Vector&)`: dot product.  Vector.hpp:641-655. -/
def dot (v w : Vec K) : Res K :=
  if w.size ≠ v.size then .throw .invalidArgument
  else forN v.size (fun i s => do
    let b ← w.get i
    let a ← rd v.data i
    pure (s + b * a)) 0

/-- Free `operator*(scalar, Vector)`.  Vector.hpp:782-788. -/
def smul (c : K) (v : Vec K) : Res (Vec K) :=
  forN v.size (fun i res => do
    let a ← v.get i
    res.set i (c * a)) (zeros v.size)

/-- Free entry-wise `operator*(Vector, Vector)`.  Vector.hpp:799-812. -/
def mulEntry (v w : Vec K) : Res (Vec K) :=
  if v.size ≠ w.size then .throw .invalidArgument
  else forN v.size (fun i res => do
    let a ← v.get i
    let b ← w.get i
    res.set i (a * b)) (zeros v.size)

/-- Free entry-wise `operator/(Vector, Vector)`.  Vector.hpp:823-836. -/
def divEntry (v w : Vec K) : Res (Vec K) :=
  if v.size ≠ w.size then .throw .invalidArgument
  else forN v.size (fun i res => do
    let a ← v.get i
    let b ← w.get i
    res.set i (a / b)) (zeros v.size)

end arith

/-- `vectorRange(start, end)`.  Vector.hpp:764-771.  A negative `N` converts to a huge `size_t`. -/
def range (start stop : Int) : Res (Vec Int) :=
  let N := (stop - start) + 1
  if N < 0 then .throw .badAlloc
  else forN N.toNat (fun i res => res.set i (start + i)) (zeros N.toNat)

/-- `concatenate(vectors)`.  Vector.hpp:846-857 (863-870 forwards to it). State: (`res`,`index`). -/
def concatenate [Zero α] (vs : List (Vec α)) : Res (Vec α) := do
  let n ← forL vs (fun v n => pure (n + v.size)) 0
  let r ← forL vs (fun v (st : Vec α × Nat) =>
    forN v.size (fun i (st : Vec α × Nat) => do
      let a ← v.get i
      let r ← st.1.set st.2 a
      pure (r, st.2 + 1)) st) (zeros n, 0)
  pure r.1

section norms
variable [Field K] [LinearOrder K]

/-- `vectorInfNorm(a, b)`.  Vector.hpp:881-896 (`fmax`, `fabs` exact, no NaN). -/
def infNorm (v w : Vec K) : Res K :=
  if v.size ≠ w.size then .throw .invalidArgument
  else forN v.size (fun i m => do
    let a ← v.get i
    let b ← w.get i
    pure (max m |a - b|)) 0

/-- The argument of `sqrt` in `vectorL2Norm(a, b)`.  Vector.hpp:907-922.
Simplification: the final `sqrt` is applied by the caller `l2Norm`. -/
def l2NormSq {K : Type} [Field K] (v w : Vec K) : Res K :=
  if v.size ≠ w.size then .throw .invalidArgument
  else forN v.size (fun i s => do
    let a ← v.get i
    let b ← w.get i
    pure (s + (a - b) ^ 2)) 0

/-- `vectorL2Norm(a, b)` with the square root as a parameter (libm's `sqrt`).
Vector.hpp:907-922. -/
def l2Norm {K : Type} [Field K] (sqrt : K → K) (v w : Vec K) : Res K := do
  let s ← l2NormSq v w
  pure (sqrt s)

end norms

end Vec
end EF
