import Verif.Spec.Message

/-!
# Values that 32-bit integers can describe
-/

namespace EF.MPI

variable {K α : Type}

/-- A number of elements that an `int` can hold. -/
def SmallCount (n : Nat) : Prop := n ≤ 2147483647

/-- A value of an `int` variable; for the other types every value. -/
def Kind.InRange : (k : Kind) → k.Carrier K → Prop
  | .int, x => (-2147483648 : Int) ≤ x ∧ x ≤ (2147483647 : Int)
  | .real, _ => True
  | .char, _ => True
  | .bool, _ => True

/-- All sizes in the value fit into an `int`; what was an `int` anyway does so because of its type. -/
def Value.Small : Value K → Prop
  | .prim k x => k.InRange x
  | .std k l => SmallCount l.length ∧ ∀ x ∈ l, k.InRange x
  | .vec k v => SmallCount v.data.length ∧ ∀ x ∈ v.data, k.InRange x
  | .mat k A => SmallCount A.nrows ∧ SmallCount A.ncols ∧ SmallCount A.data.length ∧ ∀ x ∈ A.data, k.InRange x
  | .str s => SmallCount s.length
  | .node d p l f e _ => d.Small ∧ SmallCount p.length ∧ Kind.InRange (K := K) .int l ∧ Kind.InRange (K := K) .int f ∧
      Kind.InRange (K := K) .int e

/-- A matrix of numbers whose sizes fit into `int`s. -/
def SmallMat (A : Mat K) : Prop := SmallCount A.nrows ∧ SmallCount A.ncols ∧ SmallCount A.data.length

/-- A patch whose sizes fit into `int`s. -/
structure SmallPatch (p : Patch K) : Prop where
  nCoarsens : SmallCount p.nCoarsens
  nx : SmallCount p.grid.nx
  ny : SmallCount p.grid.ny
  X : SmallMat p.X
  H : SmallMat p.H
  S : SmallMat p.S
  T : SmallMat p.T
  u : SmallCount p.u.data.length
  g : SmallCount p.g.data.length
  v : SmallCount p.v.data.length
  f : SmallCount p.f.data.length
  h : SmallCount p.h.data.length
  w : SmallCount p.w.data.length

end EF.MPI
