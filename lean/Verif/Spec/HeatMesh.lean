import Verif.Spec.Mixed
import Verif.Spec.Mesh

/-!
# Time steps of the heat equation and solutions on adaptive meshes
-/

namespace EF

open FV

variable {K : Type} [Field K]

/-- Cut in the same way, and `P` holds on every part, with its rectangle. -/
def Pieces.Everywhere {A B : Type} (P : A → B → Rect K → Prop) : Pieces A → Pieces B → Rect K → Prop
  | .one a, .one b, R => P a b R
  | .four a0 a1 a2 a3, .four b0 b1 b2 b3, R => a0.Everywhere P b0 (R.quarter 0) ∧ a1.Everywhere P b1 (R.quarter 1) ∧
      a2.Everywhere P b2 (R.quarter 2) ∧ a3.Everywhere P b3 (R.quarter 3)
  | _, _, _ => False

/-- The same value on every part. -/
def Pieces.const {A B : Type} (b : B) : Pieces A → Pieces B
  | .one _ => .one b
  | .four c0 c1 c2 c3 => .four (c0.const b) (c1.const b) (c2.const b) (c3.const b)

/-- At every cell centre `f` is the rate of change from the old to the new value, less the source. -/
def ChangeIs (N : Nat) (dt : K) (source f : K → K → K) (old new : Pieces (Nat → Nat → K)) (R : Rect K) : Prop :=
  old.Everywhere (fun u v R => ∀ i, i < N → ∀ j, j < N →
    f (cx R N i) (cy R N j) = (v i j - u i j) / dt - source (cx R N i) (cy R N j)) new R

/-- Prescribed values on the West and East side, prescribed derivatives along the outward normal on the South and North side. -/
def heatConditions (west east south north : K → K → K) : HPS.BoundaryFn K := fun a x y =>
  if a = 0 then (west x y, 1, 0)
  else if a = 1 then (east x y, 1, 0)
  else if a = 2 then (south x y, 0, -1)
  else (north x y, 0, 1)

/-- `new` comes from `old` by an implicit Euler step of length `dt` on an adaptive mesh: the composite discretisation of
`div (beta grad u)` of the new values is their rate of change less the source, and the new values meet the boundary conditions. -/
def HeatStepOn (beta : K → K → K) (N : Nat) (R : Rect K) (dt : K) (west east south north source : K → K → K)
    (old new : Pieces (Nat → Nat → K)) : Prop :=
  ∃ (f : K → K → K) (m : Nat) (g q : Nat → Nat → K), ChangeIs N dt source f old new R ∧
    Composite ⟨fun _ _ => 1, beta, fun _ _ => 0⟩ f N new R m g q ∧ BoundaryHolds (heatConditions west east south north) R m g q

/-- The value of the cell `c` in the part of the mesh it belongs to. -/
def inMesh (N : Nat) : Pieces (Nat → Nat → K) → Rect K → Rect K → K → Prop
  | .one u, R, c, x => ∃ i j, i < N ∧ j < N ∧ c = cellRect R N N i j ∧ x = u i j
  | .four a0 a1 a2 a3, R, c, x => inMesh N a0 (R.quarter 0) c x ∨ inMesh N a1 (R.quarter 1) c x ∨ inMesh N a2 (R.quarter 2) c x ∨
      inMesh N a3 (R.quarter 3) c x

/-- `W` is the one and only solution of the discretised equation on the mesh cut like `c` that meets the conditions. -/
def OnlySolution (s : FVSolver K) (f : K → K → K) (bc : HPS.BoundaryFn K) (N : Nat) (c : Pieces Unit) (R : Rect K) (W : Pieces (Nat → Nat → K)) : Prop :=
  W.Alike c ∧ (∃ m g q, 0 < m ∧ Composite s f N W R m g q ∧ BoundaryHolds bc R m g q) ∧
    ∀ V : Pieces (Nat → Nat → K), V.Alike c → ∀ m g q, Composite s f N V R m g q → BoundaryHolds bc R m g q → V.Same N W

/-- The vector has one entry per cell of the list `C`: the value of `W` in that cell. -/
def MeshValues (N : Nat) (W : Pieces (Nat → Nat → K)) (R : Rect K) (C : List (Rect K)) (v : Vec K) : Prop :=
  v.size = C.length ∧ v.WF ∧ ∀ (k : Nat) (hk : k < C.length), ∃ x, inMesh N W R C[k] x ∧ v.get k = .ok x

/-- The vector has one entry per cell of the list `C`: the value of `f` at the centre of that cell. -/
def CentreValues (f : K → K → K) (C : List (Rect K)) (v : Vec K) : Prop :=
  v.size = C.length ∧ v.WF ∧ ∀ (k : Nat) (hk : k < C.length), v.get k = .ok (f C[k].centre.1 C[k].centre.2)

end EF
