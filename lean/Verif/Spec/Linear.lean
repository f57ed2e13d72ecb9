import Verif.Model.Matrix

/-!
# Observational specification of vectors and matrices

`v.Has n f`: the object reports size `n`, stores exactly `n` entries, and element access at `i < n`
returns `f i`.  Likewise for matrices.  Nothing here refers to the loops of the model.
-/

namespace EF

/-- `v` is a vector of size `n` with entries `f 0 … f (n-1)`, as seen through element access. -/
def Vec.Has {α : Type} (v : Vec α) (n : Nat) (f : Nat → α) : Prop :=
  v.size = n ∧ v.data.length = n ∧ ∀ i, i < n → v.get i = .ok (f i)

/-- `A` is an `r × c` matrix with entries `f i j`, as seen through element access. -/
def Mat.Has {α : Type} (A : Mat α) (r c : Nat) (f : Nat → Nat → α) : Prop :=
  A.nrows = r ∧ A.ncols = c ∧ A.data.length = r * c ∧ ∀ i, i < r → ∀ j, j < c → A.get i j = .ok (f i j)

/-- The stored data has the reported size (what every constructor except the raw-data one ensures). -/
def Vec.WF {α : Type} (v : Vec α) : Prop := v.data.length = v.size

/-- The stored data has the reported size. -/
def Mat.WF {α : Type} (A : Mat α) : Prop := A.data.length = A.nrows * A.ncols

/-- The call returned normally with a result satisfying `P`. -/
def Res.Returns {α : Type} (x : Res α) (P : α → Prop) : Prop := ∃ a, x = .ok a ∧ P a

/-- The call ended in an exception. -/
def Res.Throws {α : Type} (x : Res α) : Prop := ∃ e, x = .throw e

end EF
