import Verif.Spec.Mesh
import Verif.Spec.Parallel

/-!
# What a run on several ranks leaves behind
-/

namespace EF

variable {K : Type}

/-- The ranks of the communicator are those that own leaves. -/
def EveryRank (F : Forest) (size : Nat) : Prop := ∀ r, r < size ↔ r ∈ F.ranks

/-- The vector has one entry per cell of the list `C`; every cell of the list is a cell of the grid of `m × m` cells on `R`, and
the entry is the value of `W` in that cell. -/
def CellValues [Field K] (R : Rect K) (m : Nat) (W : Nat → Nat → K) (C : List (Rect K)) (v : Vec K) : Prop :=
  v.size = C.length ∧ v.WF ∧
    ∀ (k : Nat) (hk : k < C.length), ∃ I J, I < m ∧ J < m ∧ C[k] = cellRect R m m I J ∧ v.get k = .ok (W I J)

/-- Every cell of the grid of `m × m` cells on `R` is in the list of some rank. -/
def Covered [Field K] (R : Rect K) (m size : Nat) (C : Nat → List (Rect K)) : Prop :=
  ∀ I J, I < m → J < m → ∃ r, r < size ∧ cellRect R m m I J ∈ C r

/-- The quadtrees of the ranks below `size` hold the tree. -/
def HoldsOn {T : Type} (size : Nat) (F : Forest) (t : Tree T) (Q : Nat → Quadtree T) : Prop :=
  ∀ r, r < size → Rep r F t [] (Q r).map ∧ (Q r).userPointer = .this

/-- Every run from `c` ends, after the same number of collectives, with the values `z`. -/
def AlwaysEnds {T α : Type} (c : Config T α) (z : Nat → α) : Prop :=
  ∃ n, ∀ k c', Run k c c' → k ≤ n ∧ Run (n - k) c' (fun r => .fin (.ok (z r)))

end EF
