import Verif.Model.Distributed

/-!
# Entries of distributed vectors

Model of the constructors, `setSizes`, `setValue`, `setValues`, `beginAssembly` and `endAssembly` of `ParallelVector` (Vector.hpp:1012-1149).
Lifetimes are in `Verif.Model.Petsc`, the shares of the ranks in `Verif.Model.Distributed`.

PETSc is external.  From its manual: `VecSetValues` keeps what is to be inserted or added until assembly and passes over negative indices;
`INSERT_VALUES` and `ADD_VALUES` must not be mixed without assembly in between, neither on a rank nor between ranks.  A call that fails
returns an error code; the vector is then `none` and of no use.

Simplifications: the global size, which has to be the same on all ranks, is one argument; types are left out.
-/

namespace EF

namespace Dist

variable {K : Type}

/-- `INSERT_VALUES` and `ADD_VALUES`; `Petsc::InsertMode`, Vector.hpp:24. -/
inductive Mode
  | insert
  | add
  deriving DecidableEq, Repr

/-- A vector inside PETSc: the lengths on the ranks, entries, what every rank has to insert or add, in order, and which of the two. -/
structure DVec (K : Type) where
  lens : List Nat
  vals : Nat → K
  pending : Nat → List (Nat × K)
  mode : Nat → Option Mode

namespace DVec

/-- `VecCreate` and `VecSetSizes`: all entries zero.  Vector.hpp:1036-1046, 1115-1122. -/
def new [Zero K] (size : Nat) (loc : Nat → Int) (N : Int) : Option (DVec K) := do
  let lens ← layout size loc N
  pure ⟨lens, fun _ => 0, fun _ => [], fun _ => none⟩

/-- `VecSetValues` on rank `r`; indices that are too large and a change of mode are errors. -/
def put (x : DVec K) (r : Nat) (m : Mode) (l : List (Int × K)) : Option (DVec K) :=
  if (∀ e ∈ l, e.1 < (x.lens.sum : Nat)) ∧ (x.mode r = none ∨ x.mode r = some m) then
    some { x with
      pending := fun q => if q = r then x.pending r ++ (l.filter (fun e => decide (0 ≤ e.1))).map (fun e => (e.1.toNat, e.2)) else x.pending q
      mode := fun q => if q = r then some m else x.mode q }
  else none

/-- `setValue(index, value, mode)` on rank `r`.  Vector.hpp:1132-1134. -/
def setValue (x : DVec K) (r : Nat) (i : Int) (v : K) (m : Mode) : Option (DVec K) := x.put r m [(i, v)]

/-- What PETSc reads from the two arrays: as many values as there are indices. -/
def readPairs (indices : Vec Int) (values : List K) : Res (List (Int × K)) :=
  forN indices.size (fun k l => do
    let i ← rd indices.data k
    let v ← rd values k
    pure (l ++ [(i, v)])) []

/-- `setValues(indices, values, mode)` on rank `r`.  Vector.hpp:1136-1139: the length of `values` is not looked at. -/
def setValues (x : DVec K) (r : Nat) (indices : Vec Int) (values : Vec K) (m : Mode) : Res (Option (DVec K)) := do
  let l ← readPairs indices values.data
  pure (x.put r m l)

/-- A call of `setValue` or `setValues`.  Vector.hpp:1132-1139. -/
inductive Call (K : Type)
  | one (i : Int) (v : K)
  | many (indices : Vec Int) (values : Vec K)

/-- The call on rank `r`.  Vector.hpp:1132-1139. -/
def call (x : DVec K) (r : Nat) (m : Mode) : Call K → Res (Option (DVec K))
  | .one i v => pure (x.setValue r i v m)
  | .many I V => x.setValues r I V m

/-- Calls by the ranks named with them, in any order; every rank has its own list.  Vector.hpp:1132-1139. -/
def calls (x : DVec K) (m : Mode) (cs : List (Nat × Call K)) : Res (Option (DVec K)) :=
  forL cs (fun c st => match st with
    | none => pure none
    | some x => x.call c.1 m c.2) (some x)

/-- What rank `r` has to insert or add at entry `i`, in order. -/
def waiting (x : DVec K) (r i : Nat) : List K := ((x.pending r).filter (fun e => decide (e.1 = i))).map Prod.snd

/-- `beginAssembly` and `endAssembly` on all ranks, contract of PETSc: the ranks have used the same mode since the last assembly.  If it is
`INSERT_VALUES`, an entry nothing was inserted at stays and at any other there is what some rank inserted there last; which rank, PETSc
leaves open.  If it is `ADD_VALUES`, what the ranks gave is added.  Vector.hpp:1141-1147. -/
structure Assembles [AddCommMonoid K] (size : Nat) (x y : DVec K) : Prop where
  lens : y.lens = x.lens
  done : ∀ r, y.pending r = [] ∧ y.mode r = none
  same : ∃ m, ∀ r, r < size → x.mode r = none ∨ x.mode r = some m
  inserted : (∀ r, r < size → x.mode r = none ∨ x.mode r = some .insert) → ∀ i,
    (∀ r, r < size → x.waiting r i = []) ∧ y.vals i = x.vals i ∨ ∃ r, r < size ∧ (x.waiting r i).getLast? = some (y.vals i)
  added : (∀ r, r < size → x.mode r = none ∨ x.mode r = some .add) → ∀ i,
    y.vals i = x.vals i + ((List.range size).map (fun r => (x.waiting r i).sum)).sum

/-- `ParallelVector(comm, serial_vector)`, where rank `r` has `serial r`; PETSc fails if the lengths differ.  Vector.hpp:1058-1088; the
error codes are not looked at. -/
def fromSerial [Zero K] (size : Nat) (serial : Nat → Vec K) : Res (Option (DVec K)) :=
  forN size (fun r st => do
    let I ← Vec.range 0 (((serial r).size : Int) - 1)
    match st with
    | none => pure none
    | some x => x.setValues r I (serial r) .insert)
    (if ∀ r, r < size → (serial r).size = (serial 0).size then DVec.new size (fun _ => petscDecide) ((serial 0).size : Nat) else none)

end DVec

end Dist

end EF
