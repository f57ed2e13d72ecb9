import Verif.Model.DistVector

/-!
# The PETSc calls of a leaf solve

What `FiniteVolumeSolver::solve` with the five-point stencil asks of PETSc, call by call (FiniteVolumeSolver.cpp:43-217), and PETSc's rules for
these calls.  The numbers in the matrix and the vectors are in `Model/FiniteVolume.lean`; here only which calls are made matters.

PETSc is external.  From its manual: every object made by a create or duplicate call stays until it is destroyed; objects must exist when used;
a matrix must be assembled before it is factored and factored before it solves; a vector must be assembled before it is used; values must not
be inserted and added to one vector without assembly in between.  On sequential vectors PETSc takes values up at once and does not check the
last rule; `strict` says whether it counts.

Simplification: error codes are not looked at, as in the code.
-/

namespace EF

open Dist (Mode)

namespace Petsc

/-- The variables of a solve.  FiniteVolumeSolver.cpp:44, 51, 56, 197. -/
inductive Obj
  | mat | rhs | sol | rows | cols
  deriving DecidableEq

/-- A call.  FiniteVolumeSolver.cpp:45-215. -/
inductive Call
  | create (o : Obj)
  | setVec (m : Mode)
  | setMat
  | assembleMat
  | assembleVec
  | factor
  | solve
  | read
  | destroy (o : Obj)

/-- The objects of the process, numbered in the order they are made, and what the variables of the solve refer to. -/
structure State where
  next : Nat
  live : Nat → Bool
  handle : Obj → Option Nat
  mode : Option Mode
  matReady : Bool
  vecReady : Bool
  factored : Bool

namespace State

/-- The variable refers to an object that exists. -/
def Has (s : State) (o : Obj) : Prop := ∃ i, s.handle o = some i ∧ s.live i = true

instance (s : State) (o : Obj) : Decidable (s.Has o) :=
  match h : s.handle o with
  | none => isFalse (by rintro ⟨i, h', -⟩; rw [h] at h'; cases h')
  | some i => if h' : s.live i = true then isTrue ⟨i, h, h'⟩ else isFalse (by rintro ⟨j, h1, h2⟩; rw [h] at h1; cases h1; exact h' h2)

/-- A call; `none` if it is against the rules. -/
def step (strict : Bool) (s : State) : Call → Option State
  | .create o => some { s with
      next := s.next + 1
      live := fun i => if i = s.next then true else s.live i
      handle := fun o' => if o' = o then some s.next else s.handle o'
      mode := if o = .rhs then none else s.mode
      matReady := if o = .mat then false else s.matReady
      vecReady := if o = .rhs then false else s.vecReady
      factored := if o = .mat then false else s.factored }
  | .setVec m => if s.Has .rhs ∧ (strict = true → s.mode = none ∨ s.mode = some m) then some { s with mode := some m, vecReady := false }
    else none
  | .setMat => if s.Has .mat ∧ s.factored = false then some { s with matReady := false } else none
  | .assembleMat => if s.Has .mat then some { s with matReady := true } else none
  | .assembleVec => if s.Has .rhs then some { s with mode := none, vecReady := true } else none
  | .factor => if s.Has .mat ∧ s.matReady = true ∧ s.Has .rows ∧ s.Has .cols then some { s with factored := true } else none
  | .solve => if s.Has .mat ∧ s.factored = true ∧ s.Has .rhs ∧ s.vecReady = true ∧ s.Has .sol then some s else none
  | .read => if s.Has .sol then some s else none
  | .destroy o => match s.handle o with
    | none => none
    | some i => if s.live i = true then some { s with
        live := fun j => if j = i then false else s.live j
        handle := fun o' => if o' = o then none else s.handle o' } else none

/-- Calls one after another. -/
def run (strict : Bool) (s : State) : List Call → Option State
  | [] => some s
  | c :: l => match s.step strict c with
    | none => none
    | some s => s.run strict l

/-- How many objects there are. -/
def count (s : State) : Nat := ((List.range s.next).filter s.live).length

/-- Before anything is made. -/
def start : State := ⟨0, fun _ => false, fun _ => none, none, false, false, false⟩

end State

/-- The calls for a cell.  FiniteVolumeSolver.cpp:96-184: a value is inserted, the boundary terms are added unless the cell is inside. -/
def cellCalls (nx ny j i : Nat) : List Call :=
  .setVec .insert :: (if i = 0 ∨ i = nx - 1 ∨ j = 0 ∨ j = ny - 1 then [.setVec .add] else []) ++ [.setMat]

/-- The two loops.  FiniteVolumeSolver.cpp:62-187. -/
def fillCalls (nx ny : Nat) : List Call := (List.range ny).flatMap fun j => (List.range nx).flatMap fun i => cellCalls nx ny j i

/-- `solve(grid, dirichlet_data, rhs_data)`.  FiniteVolumeSolver.cpp:43-217. -/
def solveCalls (nx ny : Nat) : List Call :=
  [.create .mat, .create .rhs, .create .sol] ++ fillCalls nx ny ++
    [.assembleMat, .assembleVec, .create .rows, .create .cols, .factor, .solve, .read, .destroy .mat, .destroy .sol, .destroy .rhs]

/-- Solves one after another, on grids of any sizes.  FiniteVolumeSolver.cpp:355-461. -/
def manyCalls (grids : List (Nat × Nat)) : List Call := grids.flatMap fun g => solveCalls g.1 g.2

end Petsc

end EF
