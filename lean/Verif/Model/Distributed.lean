import Verif.Model.Matrix

/-!
# Sizes and entries of distributed matrices

Model of the constructors, `setSizes`, `setValues`, `getValues` and the size functions of `ParallelMatrix` (Matrix.hpp:1093-1350) and of
`ParallelIdentityMatrix` (SpecialMatrices.hpp:29-69).  All ranks of the communicator make the same calls; the state has the members on
every rank and the one object inside PETSc.  Lifetimes are in `Verif.Model.Petsc`.

PETSc is external.  From its manual: `PetscSplitOwnership` shares, `MatSetSizes` checks the sum, `MatSetValues` with `INSERT_VALUES` keeps
what is to be inserted until assembly, row by row, passing over negative indices; `MatGetValues` gives entries of own rows of an assembled
matrix; `MatCreateSubMatrices` and `MatCreateMPIMatConcatenateSeqMat` cut out and stack.  A PETSc call that fails returns an error code
which the constructors ignore: the object is then `none` and of no use.

Simplifications: global sizes, which have to be the same on all ranks, are one argument; types, preallocation and `ADD_VALUES` are left out.
-/

namespace EF

namespace Dist

variable {K : Type}

/-- `PETSC_DECIDE` and `PETSC_DETERMINE`. -/
def petscDecide : Int := -1

/-- The share of rank `r` of `N` rows or columns: `PetscSplitOwnership`. -/
def share (N size r : Nat) : Nat := N / size + (if r < N % size then 1 else 0)

/-- The lengths on the ranks, from what the ranks ask for and the total; `none` is an error code.  `MatSetSizes`, called in
Matrix.hpp:1304-1306. -/
def layout (size : Nat) (loc : Nat → Int) (N : Int) : Option (List Nat) :=
  if ∀ r, r < size → loc r = petscDecide then
    if 0 ≤ N then some ((List.range size).map (share N.toNat size)) else none
  else if ∀ r, r < size → 0 ≤ loc r then
    if N = petscDecide ∨ N = (((List.range size).map (fun r => (loc r).toNat)).sum : Nat) then
      some ((List.range size).map (fun r => (loc r).toNat))
    else none
  else none

/-- A matrix inside PETSc: rows and columns of the ranks, entries, what every rank has to insert, in order, and whether it is assembled. -/
structure DMat (K : Type) where
  rows : List Nat
  cols : List Nat
  vals : Nat → Nat → K
  pending : Nat → List (Nat × Nat × K)
  assembled : Bool

namespace DMat

/-- Rows of all ranks: `MatGetSize`. -/
def nrows (A : DMat K) : Nat := A.rows.sum

/-- Columns of all ranks: `MatGetSize`. -/
def ncols (A : DMat K) : Nat := A.cols.sum

/-- The first row of rank `r`; the one after its last is `A.first (r + 1)`: `MatGetOwnershipRange`. -/
def first (A : DMat K) (r : Nat) : Nat := (A.rows.take r).sum

/-- `MatCreate` and `MatSetSizes`: no entries yet.  Matrix.hpp:1299-1306. -/
def new [Zero K] (size : Nat) (lr lc : Nat → Int) (gr gc : Int) : Option (DMat K) := do
  let rows ← layout size lr gr
  let cols ← layout size lc gc
  pure ⟨rows, cols, fun _ _ => 0, fun _ => [], false⟩

/-- `MatSetValues` with `INSERT_VALUES` on rank `r`; indices that are too large are an error. -/
def insert (A : DMat K) (r : Nat) (l : List (Int × Int × K)) : Option (DMat K) :=
  if ∀ e ∈ l, e.1 < A.nrows ∧ e.2.1 < A.ncols then
    some { A with
      pending := fun q => if q = r then
          A.pending r ++ (l.filter (fun e => decide (0 ≤ e.1 ∧ 0 ≤ e.2.1))).map (fun e => (e.1.toNat, e.2.1.toNat, e.2.2))
        else A.pending q
      assembled := false }
  else none

/-- The pairs of indices with their values, row by row, as PETSc reads them from the arrays. -/
def readBlock (rows cols : Vec Int) (values : List K) : Res (List (Int × Int × K)) :=
  Mat.loop2 rows.size cols.size (fun i j l => do
    let a ← rd rows.data i
    let b ← rd cols.data j
    let x ← rd values (i * cols.size + j)
    pure (l ++ [(a, b, x)])) []

/-- `setValues(row_indices, col_indices, values, INSERT_VALUES)` on rank `r`.  Matrix.hpp:1320-1324. -/
def setValues (A : DMat K) (r : Nat) (rows cols : Vec Int) (values : Mat K) : Res (Option (DMat K)) := do
  let l ← readBlock rows cols values.data
  pure (A.insert r l)

/-- `getValues(row_indices, col_indices, values)` on rank `r`: the changed `values`, or an error code.  Matrix.hpp:1334-1336. -/
def getValues (A : DMat K) (r : Nat) (rows cols : Vec Int) (values : Mat K) : Res (Option (Mat K)) :=
  if A.assembled then
    Mat.loop2 rows.size cols.size (fun i j st =>
      match st with
      | none => pure none
      | some W => do
        let a ← rd rows.data i
        let b ← rd cols.data j
        if a < 0 ∨ b < 0 then pure (some W)
        else if (A.first r : Int) ≤ a ∧ a < A.first (r + 1) ∧ b < A.ncols then do
          let d ← wr W.data (i * cols.size + j) (A.vals a.toNat b.toNat)
          pure (some { W with data := d })
        else pure none) (some values)
  else pure none

/-- The calls of `setValues` by all ranks, whose order does not matter as every rank has its own list.  Matrix.hpp:1320-1324. -/
def setAll (size : Nat) (I J : Nat → Vec Int) (V : Nat → Mat K) (A : DMat K) : Res (Option (DMat K)) :=
  forN size (fun r st => match st with
    | none => pure none
    | some A => A.setValues r (I r) (J r) (V r)) (some A)

/-- What a list of insertions leaves at an entry. -/
def lastWrite (l : List (Nat × Nat × K)) (i j : Nat) : Option K :=
  ((l.filter (fun e => decide (e.1 = i ∧ e.2.1 = j))).getLast?).map (fun e => e.2.2)

/-- `beginAssembly` and `endAssembly` on all ranks, contract of PETSc: an entry nothing was inserted at stays; at any other entry there is
what some rank inserted there last.  Which rank that is PETSc leaves open.  Matrix.hpp:1342-1348. -/
structure Assembles (size : Nat) (A B : DMat K) : Prop where
  rows : B.rows = A.rows
  cols : B.cols = A.cols
  assembled : B.assembled = true
  done : ∀ r, B.pending r = []
  vals : ∀ i j, (∀ r, r < size → lastWrite (A.pending r) i j = none) ∧ B.vals i j = A.vals i j ∨
    ∃ r, r < size ∧ lastWrite (A.pending r) i j = some (B.vals i j)

end DMat

/-! ## The variables -/

/-- `ParallelMatrix`: the members on every rank and the object.  Matrix.hpp:1098-1106, 1283-1297. -/
structure PMatrix (K : Type) where
  localRows : Nat → Int
  localCols : Nat → Int
  globalRows : Nat → Int
  globalCols : Nat → Int
  obj : Option (DMat K)

namespace PMatrix

/-- `ParallelMatrix(comm)`.  Matrix.hpp:1098-1106, 1112-1114. -/
def declare : PMatrix K := ⟨fun _ => 0, fun _ => 0, fun _ => 0, fun _ => 0, none⟩

/-- `create()` and `setSizes(…)` by the user.  Matrix.hpp:1299-1306: the parameters hide the members. -/
def setSizes [Zero K] (w : PMatrix K) (size : Nat) (lr lc : Nat → Int) (gr gc : Int) : PMatrix K :=
  { w with obj := DMat.new size lr lc gr gc }

/-- `ParallelMatrix(comm, local_rows, local_cols, global_rows, global_cols)`.  Matrix.hpp:1127-1153. -/
def sized [Zero K] (size : Nat) (lr lc : Nat → Int) (gr gc : Int) : PMatrix K :=
  PMatrix.setSizes ⟨lr, lc, fun _ => gr, fun _ => gc, none⟩ size lr lc gr gc

/-- `ParallelMatrix(comm, mat)`: the sizes are asked from PETSc.  Matrix.hpp:1116-1125; so do the constructor with index sets,
Matrix.hpp:1231-1239, and `ParallelIdentityMatrix`. -/
def ofObject (A : DMat K) : PMatrix K :=
  ⟨fun r => (A.rows.getD r 0 : Nat), fun r => (A.cols.getD r 0 : Nat), fun _ => (A.nrows : Nat), fun _ => (A.ncols : Nat), some A⟩

/-- `ParallelIdentityMatrix(comm, N)`; `MatCreateConstantDiagonal` gives an assembled matrix.  SpecialMatrices.hpp:34-55; the constructor
that then sets another type, :57-67, is left out, what PETSc keeps of the matrix then is not in its manual. -/
def identity [Zero K] [One K] (size N : Nat) : PMatrix K :=
  ofObject ⟨(List.range size).map (share N size), (List.range size).map (share N size), fun i j => if i = j then 1 else 0, fun _ => [], true⟩

/-- `setValues` on rank `r` where the object exists.  Matrix.hpp:1320-1324. -/
def setValues (w : PMatrix K) (r : Nat) (rows cols : Vec Int) (values : Mat K) : Res (PMatrix K) :=
  match w.obj with
  | none => pure w
  | some A => do
    let B ← A.setValues r rows cols values
    pure { w with obj := B }

/-- `ParallelMatrix(comm, serial_matrix)`, where rank `r` has `serial r`; PETSc fails if the shapes differ.  Matrix.hpp:1155-1187. -/
def fromSerial [Zero K] (size : Nat) (serial : Nat → Mat K) : Res (PMatrix K) :=
  let dec : Nat → Int := fun _ => petscDecide
  let obj : Option (DMat K) :=
    if ∀ r, r < size → (serial r).nrows = (serial 0).nrows ∧ (serial r).ncols = (serial 0).ncols then
      DMat.new size dec dec (serial 0).nrows (serial 0).ncols
    else none
  forN size (fun r w => do
    let I ← Vec.range 0 (((serial r).nrows : Int) - 1)
    let J ← Vec.range 0 (((serial r).ncols : Int) - 1)
    w.setValues r I J (serial r))
    ⟨dec, dec, fun r => ((serial r).nrows : Nat), fun r => ((serial r).ncols : Nat), obj⟩

/-- Matrices on top of each other, with their numbers of rows. -/
def stack [Zero K] : List (Nat × (Nat → Nat → K)) → Nat → Nat → K
  | [], _, _ => 0
  | (n, b) :: t, i, j => if i < n then b i j else stack t (i - n) j

/-- The block rank `q` cuts out: rows and columns with the numbers of its rows; `none` if there are not as many columns.
Matrix.hpp:1209-1220. -/
def block (A : DMat K) (q : Nat) : Option (Nat × (Nat → Nat → K)) :=
  if A.assembled ∧ (A.first q = A.first (q + 1) ∨ A.first (q + 1) ≤ A.ncols) then
    some (A.first (q + 1) - A.first q, fun i j => A.vals (A.first q + i) (A.first q + j))
  else none

/-- `ParallelMatrix(new_comm, sub_matrix)`: rank `r` of the new communicator has the matrix `sub r`, on whose communicator it is rank `q r`.
Matrix.hpp:1190-1229. -/
def moveTo [Zero K] (size : Nat) (sub : Nat → PMatrix K) (q : Nat → Nat) : PMatrix K :=
  ⟨fun r => (sub r).localRows (q r), fun r => (sub r).localCols (q r), fun r => (sub r).globalRows (q r), fun r => (sub r).globalCols (q r), do
    let bs ← (List.range size).mapM (fun r => (sub r).obj.bind (fun A => block A (q r)))
    let n := (bs.headD (0, fun _ _ => 0)).1
    if ∀ b ∈ bs, b.1 = n then
      pure ⟨bs.map Prod.fst, (List.range size).map (share n size), stack bs, fun _ => [], true⟩
    else none⟩

end PMatrix

end Dist

end EF
