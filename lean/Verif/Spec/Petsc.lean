import Verif.Model.Petsc

/-!
# Disciplined use of the PETSc wrappers
-/

namespace EF

/-- The variable exists and has no object. -/
def PState.Bare (s : PState) (x : Nat) : Prop := ∃ o, s.vars x = some o ∧ o.created = false

/-- The variable exists and has an object of its own. -/
def PState.Holds (s : PState) (x : Nat) : Prop := ∃ o, s.vars x = some o ∧ o.created = true

/-- The calls with which the wrappers are safe: only variables without an object are copied or overwritten, and only
variables with an object are used; a matrix is not moved to another communicator. -/
inductive PState.Careful (s : PState) : PCall → Prop
  | declare {x} (h : s.vars x = none) : s.Careful (.declare x)
  | build {x} (h : s.vars x = none) : s.Careful (.build x)
  | copy {x y} (h : s.vars x = none) (h' : s.Bare y) : s.Careful (.copy x y)
  | moveAssign {x y} (h : s.Bare x) (h' : (s.vars y).isSome) : s.Careful (.moveAssign x y)
  | assign {x y} (h : s.Bare x) (h' : s.Bare y) : s.Careful (.assign x y)
  | create {x} (h : s.Bare x) : s.Careful (.create x)
  | use {x} (h : s.Holds x) : s.Careful (.use x)
  | destroy {x} (h : (s.vars x).isSome) : s.Careful (.destroy x)

/-- Every call of the program is careful in the state it meets. -/
def PState.CarefulRun (s : PState) : List PCall → Prop
  | [] => True
  | c :: L => s.Careful c ∧ ∀ s', s.call c = .ok s' → s'.CarefulRun L

/-- The calls the library itself makes: the wrappers are members of patches, which are constructed without an object, copied
and destroyed. -/
def PCall.OfPatch : PCall → Bool
  | .declare _ | .copy _ _ | .moveAssign _ _ | .assign _ _ | .destroy _ => true
  | _ => false

/-- The names a program uses are those C++ would allow: declared once and used while they exist. -/
def PState.Named (s : PState) : PCall → Prop
  | .declare x | .build x => s.vars x = none
  | .toComm x y | .copy x y => s.vars x = none ∧ (s.vars y).isSome
  | .moveAssign x y | .assign x y => (s.vars x).isSome ∧ (s.vars y).isSome
  | .create x | .use x | .destroy x => (s.vars x).isSome

/-- Every call of the program is well named in the state it meets. -/
def PState.NamedRun (s : PState) : List PCall → Prop
  | [] => True
  | c :: L => s.Named c ∧ ∀ s', s.call c = .ok s' → s'.NamedRun L

end EF
