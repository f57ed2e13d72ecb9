import Verif.Model.Vector
import Mathlib.Algebra.BigOperators.Group.Finset.Basic

/-!
# Model of `/repo/src/Matrix.hpp`

Row-major storage; the BLAS/LAPACK routines see the same buffers column-major.

Simplifications: as in `Verif.Model.Vector`.  `dgemv`/`dgemm` are given their documented
column-major meaning for `ALPHA = 1`, `BETA = 0` (the only values passed), including the argument
checks of the reference implementation; every element access is checked against the buffer length.
`dgesv` is a parameter with a contract (`Lapack`).
-/

namespace EF

/-- `Matrix<NumericalType>`: members `nrows_`, `ncols_`, `data_`.  Matrix.hpp:78-96. -/
structure Mat (α : Type) where
  nrows : Nat
  ncols : Nat
  data : List α
  deriving DecidableEq, Repr

/-! ## BLAS -/

section Blas
variable {K : Type} [Field K]

/-- `dgemv_(TRANS, M, N, 1, A, LDA, X, 1, 0, Y, 1)`: `Y := op(A) X` where `A` is `M × N`
column-major with leading dimension `LDA` and `op` is transposition when `trans`.
External routine (reference BLAS semantics); called at Matrix.hpp:813. -/
def dgemv (trans : Bool) (M N : Nat) (A : List K) (lda : Nat) (X Y : List K) : Res (List K) :=
  if lda < max 1 M then .throw .xerbla
  else if M = 0 ∨ N = 0 then .ok Y
  else
    let leny := if trans then N else M
    let lenx := if trans then M else N
    forN leny (fun i y => do
      let s ← forN lenx (fun l t => do
        let a ← rd A (if trans then l + i * lda else i + l * lda)
        let x ← rd X l
        pure (t + a * x)) 0
      wr y i s) Y

/-- `dgemm_(TRANSA, TRANSB, M, N, K, 1, A, LDA, B, LDB, 0, C, LDC)`: `C := op(A) op(B)`, with
`op(A)` of size `M × kk`, `op(B)` of size `kk × N`, all column-major.
External routine (reference BLAS semantics); called at Matrix.hpp:852. -/
def dgemm (transa transb : Bool) (M N kk : Nat) (A : List K) (lda : Nat) (B : List K) (ldb : Nat)
    (C : List K) (ldc : Nat) : Res (List K) :=
  if lda < max 1 (if transa then kk else M) then .throw .xerbla
  else if ldb < max 1 (if transb then N else kk) then .throw .xerbla
  else if ldc < max 1 M then .throw .xerbla
  else
    forN N (fun j c => forN M (fun i c => do
      let s ← forN kk (fun l t => do
        let a ← rd A (if transa then l + i * lda else i + l * lda)
        let b ← rd B (if transb then j + l * ldb else l + j * ldb)
        pure (t + a * b)) 0
      wr c (i + j * ldc) s) c) C

/-- A square matrix given by its entries has a trivial kernel. -/
def Nonsing (n : Nat) (f : Nat → Nat → K) : Prop :=
  ∀ v : Nat → K, (∀ i, i < n → ∑ j ∈ Finset.range n, f i j * v j = 0) → ∀ j, j < n → v j = 0

variable (K) in
/-- Contract of LAPACK's `dgesv` in exact arithmetic.  `sol N NRHS A lda B ldb` is the content of
the buffer `B` on return.  A nonsingular system is solved column by column; for a singular one
(`INFO > 0`) the reference implementation leaves `B` unchanged. -/
structure Lapack where
  sol : (N NRHS : Nat) → (A : List K) → (lda : Nat) → (B : List K) → (ldb : Nat) → List K
  length_sol : ∀ N NRHS A lda B ldb, (sol N NRHS A lda B ldb).length = B.length
  solves : ∀ N NRHS A lda B ldb,
    Nonsing N (fun i j => A.getD (i + j * lda) 0) → N ≤ lda → N ≤ ldb →
    N * lda ≤ A.length → NRHS * ldb ≤ B.length →
    ∀ c, c < NRHS → ∀ i, i < N →
      ∑ j ∈ Finset.range N, A.getD (i + j * lda) 0 * (sol N NRHS A lda B ldb).getD (j + c * ldb) 0
        = B.getD (i + c * ldb) 0
  singular : ∀ N NRHS A lda B ldb,
    ¬ Nonsing N (fun i j => A.getD (i + j * lda) 0) → sol N NRHS A lda B ldb = B

/-- `dgesv_(N, NRHS, A, LDA, IPIV, B, LDB, INFO)`, argument checks included; returns the buffer
`B`.  External routine; called at Matrix.hpp:895, 944.  Simplification: buffers must hold `N*LDA`
and `NRHS*LDB` elements, otherwise `ub`. -/
def dgesv (lap : Lapack K) (N NRHS : Nat) (A : List K) (lda : Nat) (B : List K) (ldb : Nat) :
    Res (List K) :=
  if lda < max 1 N then .throw .xerbla
  else if ldb < max 1 N then .throw .xerbla
  else if A.length < N * lda ∨ B.length < NRHS * ldb then .ub
  else .ok (lap.sol N NRHS A lda B ldb)

end Blas

namespace Mat

variable {α : Type} {K : Type}

/-- `Matrix()`.  Matrix.hpp:105-109. -/
def empty : Mat α := ⟨0, 0, []⟩

/-- `Matrix(nrows, ncols, value)`.  Matrix.hpp:130-134. -/
def fill (r c : Nat) (a : α) : Mat α := ⟨r, c, List.replicate (r * c) a⟩

/-- `Matrix(nrows, ncols)`: value-initialised.  Matrix.hpp:117-121. -/
def zeros [Zero α] (r c : Nat) : Mat α := fill r c 0

/-- `Matrix(nrows, ncols, data)`.  Matrix.hpp:143-147, 156-160.  The length is not checked. -/
def ofData (r c : Nat) (l : List α) : Mat α := ⟨r, c, l⟩

/-- `flattenIndex_(i, j)`.  Matrix.hpp:711-727. -/
def flattenIndex (A : Mat α) (i j : Nat) : Res Nat :=
  if i > A.nrows then .throw .outOfRange
  else if j > A.ncols then .throw .outOfRange
  else .ok (i * A.ncols + j)

/-- `getEntry(i,j)` / `operator()(i,j)` used as a value.  Matrix.hpp:245-247, 256-258. -/
def get (A : Mat α) (i j : Nat) : Res α := do
  let k ← A.flattenIndex i j
  rd A.data k

/-- Assignment through `operator()(i,j)`.  Matrix.hpp:256-258. -/
def set (A : Mat α) (i j : Nat) (a : α) : Res (Mat α) := do
  let k ← A.flattenIndex i j
  let d ← wr A.data k a
  pure { A with data := d }

/-- Double loop `for i < r, for j < c`. -/
def loop2 {σ : Type} (r c : Nat) (body : Nat → Nat → σ → Res σ) (s : σ) : Res σ :=
  forN r (fun i s => forN c (fun j s => body i j s) s) s

/-- `operator()(a, b, c, d)`.  Matrix.hpp:269-277.  The upper indices are `Int` because `getRow` and
`getCol` pass `ncols_ - 1`, which wraps for an empty matrix; a negative size is a wrapped one. -/
def range [Zero α] (A : Mat α) (a : Nat) (b : Int) (c : Nat) (d : Int) : Res (Mat α) :=
  let r := (b - a) + 1
  let s := (d - c) + 1
  if r < 0 ∨ s < 0 then .throw .badAlloc
  else
    loop2 r.toNat s.toNat (fun i j res => do
      let k ← A.flattenIndex (a + i) (c + j)
      let x ← rd A.data k
      res.set i j x) (zeros r.toNat s.toNat)

/-- `getRow(row_index)`.  Matrix.hpp:285-292. -/
def getRow [Zero α] (A : Mat α) (row : Nat) : Res (Vec α) := do
  let rowMatrix ← A.range row row 0 ((A.ncols : Int) - 1)
  forN A.ncols (fun j res => do
    let x ← rowMatrix.get 0 j
    res.set j x) (Vec.zeros A.ncols)

/-- `getCol(col_index)`.  Matrix.hpp:300-307.  The loop bound is `ncols_`, as in the code. -/
def getCol [Zero α] (A : Mat α) (col : Nat) : Res (Vec α) := do
  let colMatrix ← A.range 0 ((A.nrows : Int) - 1) col col
  forN A.ncols (fun i res => do
    let x ← colMatrix.get i 0
    res.set i x) (Vec.zeros A.nrows)

/-- `getFromIndexSet(I, J)`.  Matrix.hpp:316-352.  The per-index tests only build a message that is
discarded; the access itself goes through `operator()` with the index converted to `size_t`. -/
def getFromIndexSet [Zero α] (A : Mat α) (I J : Vec Int) : Res (Mat α) :=
  if I.size > A.nrows then .throw .outOfRange
  else if J.size > A.ncols then .throw .outOfRange
  else
    loop2 I.size J.size (fun i j res => do
      let p ← I.get i
      let q ← J.get j
      let x ← A.get (toSize p) (toSize q)
      res.set i j x) (zeros I.size J.size)

/-- `setRow(row_index, vec)`.  Matrix.hpp:371-391. -/
def setRow (A : Mat α) (row : Nat) (v : Vec α) : Res (Mat α) :=
  if row > A.nrows then .throw .outOfRange
  else if v.size ≠ A.ncols then .throw .invalidArgument
  else forN A.ncols (fun j B => do
    let x ← v.get j
    B.set row j x) A

/-- `setColumn(col_index, vec)`.  Matrix.hpp:399-419. -/
def setColumn (A : Mat α) (col : Nat) (v : Vec α) : Res (Mat α) :=
  if col > A.ncols then .throw .outOfRange
  else if v.size ≠ A.nrows then .throw .invalidArgument
  else forN A.nrows (fun i B => do
    let x ← v.get i
    B.set i col x) A

/-- `blockPermute(I, J, R, C)`.  Matrix.hpp:430-472. -/
def blockPermute [Zero α] (A : Mat α) (I J R C : Vec Int) : Res (Mat α) := do
  let rowCheck ← Vec.sumSizes R R.size
  if rowCheck ≠ A.nrows then .throw .invalidArgument
  else do
    let colCheck ← Vec.sumSizes C C.size
    if colCheck ≠ A.ncols then .throw .invalidArgument
    else do
      let IG ← Vec.flattenBlocks I R A.nrows
      let JG ← Vec.flattenBlocks J C A.ncols
      A.getFromIndexSet IG JG

/-- `getBlock(row_index, col_index, row_length, col_length)`.  Matrix.hpp:483-510. -/
def getBlock (A : Mat α) (row col rl cl : Nat) : Res (Mat α) :=
  if row + rl > A.nrows then .throw .outOfRange
  else if col + cl > A.ncols then .throw .outOfRange
  else do
    let d ← loop2 rl cl (fun i j (d : List α) => do
      let x ← A.get (row + i) (col + j)
      pure (d ++ [x])) []
    pure ⟨rl, cl, d⟩

/-- `setBlock(row_index, col_index, mat)`.  Matrix.hpp:519-542 (`mat` a different object). -/
def setBlock (A : Mat α) (row col : Nat) (B : Mat α) : Res (Mat α) :=
  if row + B.nrows > A.nrows then .throw .outOfRange
  else if col + B.ncols > A.ncols then .throw .outOfRange
  else
    loop2 B.nrows B.ncols (fun i j A => do
      let x ← B.get i j
      A.set (row + i) (col + j) x) A

/-- `T()`.  Matrix.hpp:549-557. -/
def T [Zero α] (A : Mat α) : Res (Mat α) :=
  loop2 A.ncols A.nrows (fun j i res => do
    let k ← A.flattenIndex i j
    let x ← rd A.data k
    res.set j i x) (zeros A.ncols A.nrows)

section arith
variable [Field K]

/-- Unary `operator-()`.  Matrix.hpp:587-595. -/
def neg (A : Mat K) : Res (Mat K) :=
  loop2 A.nrows A.ncols (fun i j res => do
    let x ← A.get i j
    res.set i j (-x)) (zeros A.nrows A.ncols)

/-- `operator+=(Matrix&)`.  Matrix.hpp:603-624. -/
def addAssign (A B : Mat K) : Res (Mat K) :=
  if B.nrows ≠ A.nrows then .throw .invalidArgument
  else if B.ncols ≠ A.ncols then .throw .invalidArgument
  else loop2 A.nrows A.ncols (fun i j C => do
    let x ← C.get i j
    let y ← B.get i j
    C.set i j (x + y)) A

/-- `operator+=(scalar)`.  Matrix.hpp:632-639. -/
def addScalarAssign (A : Mat K) (s : K) : Res (Mat K) :=
  loop2 A.nrows A.ncols (fun i j C => do
    let x ← C.get i j
    C.set i j (x + s)) A

/-- `operator-=(Matrix&)`.  Matrix.hpp:648-669. -/
def subAssign (A B : Mat K) : Res (Mat K) :=
  if B.nrows ≠ A.nrows then .throw .invalidArgument
  else if B.ncols ≠ A.ncols then .throw .invalidArgument
  else loop2 A.nrows A.ncols (fun i j C => do
    let x ← C.get i j
    let y ← B.get i j
    C.set i j (x - y)) A

/-- `operator-=(scalar)`.  Matrix.hpp:678-685. -/
def subScalarAssign (A : Mat K) (s : K) : Res (Mat K) :=
  loop2 A.nrows A.ncols (fun i j C => do
    let x ← C.get i j
    C.set i j (x - s)) A

/-- `operator*=(scalar)`.  Matrix.hpp:693-700.  The body adds, as in the code. -/
def mulScalarAssign (A : Mat K) (s : K) : Res (Mat K) :=
  loop2 A.nrows A.ncols (fun i j C => do
    let x ← C.get i j
    C.set i j (x + s)) A

/-- Free `operator+(A, B)`.  Matrix.hpp:740-745. -/
def add (A B : Mat K) : Res (Mat K) := A.addAssign B

/-- Free `operator-(A, B)`.  Matrix.hpp:755-760. -/
def sub (A B : Mat K) : Res (Mat K) := A.subAssign B

/-- Free `operator*(scalar, A)`.  Matrix.hpp:770-778. -/
def smul (a : K) (A : Mat K) : Res (Mat K) :=
  loop2 A.nrows A.ncols (fun i j res => do
    let x ← A.get i j
    res.set i j (a * x)) (zeros A.nrows A.ncols)

/-- `operator*(A, x)`.  Matrix.hpp:789-816. -/
def mulVec (A : Mat K) (x : Vec K) : Res (Vec K) :=
  if A.ncols ≠ x.size then .throw .invalidArgument
  else do
    let b : Vec K := Vec.zeros A.nrows
    let y ← dgemv true A.ncols A.nrows A.data A.ncols x.data b.data
    pure { b with data := y }

/-- `operator*(A, B)`.  Matrix.hpp:827-855. -/
def mul (A B : Mat K) : Res (Mat K) :=
  if A.ncols ≠ B.nrows then .throw .invalidArgument
  else do
    let CT : Mat K := zeros B.ncols A.nrows
    let M := A.nrows
    let N := B.ncols
    let kk := A.ncols
    let c ← dgemm true true M N kk A.data kk B.data N CT.data M
    T { CT with data := c }

/-- `solve(A, b)`.  Matrix.hpp:866-904.  `INFO` is only printed. -/
def solveVec (lap : Lapack K) (A : Mat K) (b : Vec K) : Res (Vec K) :=
  if A.nrows ≠ A.ncols then .throw .invalidArgument
  else if A.nrows ≠ b.size then .throw .invalidArgument
  else do
    let AT ← A.T
    let x ← dgesv lap AT.nrows 1 AT.data AT.nrows b.data b.size
    pure { b with data := x }

/-- `solve(A, B)`.  Matrix.hpp:915-953.  `INFO` is only printed. -/
def solveMat (lap : Lapack K) (A B : Mat K) : Res (Mat K) :=
  if A.nrows ≠ A.ncols then .throw .invalidArgument
  else if A.nrows ≠ B.nrows then .throw .invalidArgument
  else do
    let X ← B.T
    let AT ← A.T
    let x ← dgesv lap AT.nrows B.ncols AT.data AT.nrows X.data B.nrows
    T { X with data := x }

/-- `blockDiagonalMatrix(diag)`.  Matrix.hpp:963-983.  State: (`res`, `row_index`, `col_index`). -/
def blockDiagonal (ds : List (Mat K)) : Res (Mat K) := do
  let n ← forL ds (fun d (n : Nat × Nat) => pure (n.1 + d.nrows, n.2 + d.ncols)) (0, 0)
  let r ← forL ds (fun d (st : Mat K × Nat × Nat) => do
    let m ← st.1.setBlock st.2.1 st.2.2 d
    pure (m, st.2.1 + d.nrows, st.2.2 + d.ncols)) (zeros n.1 n.2, 0, 0)
  pure r.1

/-- `matrixInfNorm(A, B)`.  Matrix.hpp:994-1018. -/
def infNorm [LinearOrder K] (A B : Mat K) : Res K :=
  if A.nrows ≠ B.nrows then .throw .invalidArgument
  else if A.ncols ≠ B.ncols then .throw .invalidArgument
  else loop2 A.nrows B.ncols (fun i j m => do
    let a ← A.get i j
    let b ← B.get i j
    pure (max m |a - b|)) 0

end arith

end Mat
end EF
