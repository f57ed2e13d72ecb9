import Verif.Basic

/-!
# Lifetimes of the PETSc objects behind `ParallelVector` and `ParallelMatrix`

Model of the constructors, assignments, `create` and destructors of `ParallelVector` (Vector.hpp), `ParallelMatrix` (Matrix.hpp)
and `ParallelIdentityMatrix` (SpecialMatrices.hpp).  PETSc is external: creating gives a new object, destroying an object or
using it needs that it exists.

Simplifications: only the handle and `is_created` of a variable are kept; reference counts of PETSc stay at one; the handle of a
vector variable without an object, which is not initialised, counts as null; which variables exist is part of the state, and a
call on a variable that does not exist (or a declaration of one that does) counts as undefined although C++ would not compile it.
-/

namespace EF

/-- A variable: `is_created` and the handle, `none` for null. -/
structure PObj where
  created : Bool
  handle : Option Nat
  deriving DecidableEq, Repr

/-- The variables of the program and the objects inside PETSc. -/
structure PState where
  vars : Nat → Option PObj
  live : Nat → Bool
  next : Nat

/-- No variables and no objects. -/
def PState.empty : PState := ⟨fun _ => none, fun _ => false, 0⟩

/-- What a program does with the wrappers. -/
inductive PCall
  /-- `ParallelVector()`, `ParallelVector(comm)`, `ParallelMatrix()`, `ParallelMatrix(comm)` -/
  | declare (x : Nat)
  /-- the constructors that create an object: with sizes, from a serial vector or matrix, from a `Petsc::Mat`, from index sets,
  and those of `ParallelIdentityMatrix` -/
  | build (x : Nat)
  /-- `ParallelMatrix(new_comm, sub_matrix)` -/
  | toComm (x y : Nat)
  /-- copy constructor of either class -/
  | copy (x y : Nat)
  /-- `x = std::move(y)` for matrices -/
  | moveAssign (x y : Nat)
  /-- `x = y` for vectors, the implicit assignment -/
  | assign (x y : Nat)
  /-- `x.create()` -/
  | create (x : Nat)
  /-- any other member function: it hands the handle to PETSc -/
  | use (x : Nat)
  /-- destructor -/
  | destroy (x : Nat)
  deriving DecidableEq, Repr

namespace PState

/-- Set a variable. -/
def put (s : PState) (x : Nat) (o : Option PObj) : PState := { s with vars := fun y => if y = x then o else s.vars y }

/-- `VecCreate`, `MatCreate`, …: a new object. -/
def alloc (s : PState) : Nat × PState := (s.next, { s with live := fun h => if h = s.next then true else s.live h, next := s.next + 1 })

/-- `VecDestroy`, `MatDestroy`: nothing for a null handle. -/
def release (s : PState) : Option Nat → Res PState
  | none => .ok s
  | some h => if s.live h then .ok { s with live := fun k => if k = h then false else s.live k } else .ub

/-- The body of the destructors.  Vector.hpp:1105-1108, Matrix.hpp:1271-1276. -/
def finalize (s : PState) (o : PObj) : Res PState := if o.created then s.release o.handle else .ok s

/-- A variable that exists. -/
def get (s : PState) (x : Nat) : Res PObj :=
  match s.vars x with
  | some o => .ok o
  | none => .ub

/-- Giving the handle to PETSc. -/
def access (s : PState) : Option Nat → Res Unit
  | some h => if s.live h then .ok () else .ub
  | none => .ub

/-- A declaration needs a name that is free. -/
def fresh (s : PState) (x : Nat) : Res Unit :=
  match s.vars x with
  | some _ => .ub
  | none => .ok ()

/-- One call.  Vector.hpp:1026-1149, Matrix.hpp:1109-1276, 1294-1350, SpecialMatrices.hpp:34-66. -/
def call (s : PState) : PCall → Res PState
  | .declare x => do
    let _ ← s.fresh x
    pure (s.put x (some ⟨false, none⟩))
  | .build x => do
    let _ ← s.fresh x
    pure (s.alloc.2.put x (some ⟨true, some s.alloc.1⟩))
  | .toComm x y => do
    let _ ← s.fresh x
    let o ← s.get y
    let _ ← s.access o.handle
    pure (s.alloc.2.put x (some ⟨false, some s.alloc.1⟩))
  | .copy x y => do
    let _ ← s.fresh x
    let o ← s.get y
    pure (s.put x (some o))
  | .moveAssign x y => do
    let _ ← s.get x
    let o ← s.get y
    if x ≠ y then pure ((s.put x (some o)).put y (some ⟨false, none⟩)) else pure s
  | .assign x y => do
    let _ ← s.get x
    let o ← s.get y
    pure (s.put x (some o))
  | .create x => do
    let _ ← s.get x
    pure (s.alloc.2.put x (some ⟨true, some s.alloc.1⟩))
  | .use x => do
    let o ← s.get x
    let _ ← s.access o.handle
    pure s
  | .destroy x => do
    let o ← s.get x
    let s' ← s.finalize o
    pure (s'.put x none)

/-- A program. -/
def run (s : PState) (L : List PCall) : Res PState := L.foldlM call s

end PState

end EF
