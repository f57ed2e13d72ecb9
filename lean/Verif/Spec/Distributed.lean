import Verif.Model.Distributed
import Verif.Spec.Linear

/-!
# What is expected of distributed matrices
-/

namespace EF

namespace Dist

variable {K : Type}

/-- The four size functions, called on rank `r`, give what the matrix has. -/
structure PMatrix.Reports (w : PMatrix K) (A : DMat K) (r : Nat) : Prop where
  localRows : w.localRows r = (A.rows.getD r 0 : Nat)
  localCols : w.localCols r = (A.cols.getD r 0 : Nat)
  globalRows : w.globalRows r = (A.rows.sum : Nat)
  globalCols : w.globalCols r = (A.cols.sum : Nat)

/-- An assembled matrix on `size` ranks with these entries. -/
structure DMat.Has (A : DMat K) (size m n : Nat) (f : Nat → Nat → K) : Prop where
  ranksRows : A.rows.length = size
  ranksCols : A.cols.length = size
  rows : A.rows.sum = m
  cols : A.cols.sum = n
  assembled : A.assembled = true
  entry : ∀ i, i < m → ∀ j, j < n → A.vals i j = f i j

/-- Row `i` belongs to rank `r`: the rows are numbered through the ranks in order. -/
def DMat.Owns (A : DMat K) (r i : Nat) : Prop := ∃ k, k < A.rows.getD r 0 ∧ i = (A.rows.take r).sum + k

/-- Rank `r` has on its own an `m` by `n` matrix with entries `f r`, and it reports its sizes. -/
structure OwnMatrix (w : PMatrix K) (m n : Nat) (f : Nat → Nat → K) : Prop where
  obj : ∃ A, w.obj = some A ∧ A.rows = [m] ∧ A.cols = [n] ∧ A.assembled = true ∧ (∀ i, i < m → ∀ j, j < n → A.vals i j = f i j) ∧ w.Reports A 0

end Dist

end EF
