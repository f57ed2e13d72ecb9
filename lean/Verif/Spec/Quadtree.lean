import Verif.Spec.Geometry
import Verif.Spec.Tree
import Verif.Model.Quadtree

/-!
# Addresses of quadtree nodes

A node is addressed by the child numbers on the way from the root to it.
-/

namespace EF

variable {K T : Type}

/-- The address of a node: child numbers from the root down. -/
abbrev Addr := List Nat

/-- Every child number is one of 0, 1, 2, 3. -/
def Addr.Valid (a : Addr) : Prop := ∀ i ∈ a, i < 4

/-- The path text of an address: `0` for the root, then one digit per level. -/
def Addr.text (a : Addr) : Text := '0' :: a.map Nat.digitChar

/-- The quadrant of an address. -/
def Addr.quad (M : Nat) (a : Addr) : Quadrant := a.foldl (Quadrant.child M) .root

/-- The rectangle of an address. -/
def Addr.rect [Field K] (R : Rect K) (a : Addr) : Rect K := a.foldl Rect.quarter R

/-- `a` comes before `b` in depth first order with parents first. -/
def Addr.PreLt (a b : Addr) : Prop :=
  (a <+: b ∧ a ≠ b) ∨ ∃ c i j, i < j ∧ c ++ [i] <+: a ∧ c ++ [j] <+: b

/-- `a` comes before `b` in depth first order with parents last. -/
def Addr.PostLt (a b : Addr) : Prop :=
  (b <+: a ∧ a ≠ b) ∨ ∃ c i j, i < j ∧ c ++ [i] <+: a ∧ c ++ [j] <+: b

/-- A quadrant on the lattice of its level inside the unit tree of side `2^M`. -/
structure Quadrant.OnGrid (M : Nat) (q : Quadrant) : Prop where
  level : q.level ≤ M
  dx : 2 ^ (M - q.level) ∣ q.x
  dy : 2 ^ (M - q.level) ∣ q.y
  lx : q.x < 2 ^ M
  ly : q.y < 2 ^ M

/-- The square of `q'` lies in the square of `q`. -/
def Quadrant.Contains (M : Nat) (q q' : Quadrant) : Prop :=
  q.x ≤ q'.x ∧ q'.x + 2 ^ (M - q'.level) ≤ q.x + 2 ^ (M - q.level) ∧
  q.y ≤ q'.y ∧ q'.y + 2 ^ (M - q'.level) ≤ q.y + 2 ^ (M - q.level)

/-- The subtree at an address. -/
def Forest.sub : Forest → Addr → Option Forest
  | F, [] => some F
  | .leaf _, _ :: _ => none
  | .node c0 _ _ _, 0 :: a => c0.sub a
  | .node _ c1 _ _, 1 :: a => c1.sub a
  | .node _ _ c2 _, 2 :: a => c2.sub a
  | .node _ _ _ c3, 3 :: a => c3.sub a
  | .node _ _ _ _, (_ + 4) :: _ => none

/-- Is the tree a single leaf? -/
def Forest.isLeaf : Forest → Bool
  | .leaf _ => true
  | .node _ _ _ _ => false

/-- Ranks `pfirst … plast` of a subtree include `r`. -/
def Forest.Spans (F : Forest) (r : Nat) : Prop := F.first ≤ r ∧ r ≤ F.last

instance (F : Forest) (r : Nat) : Decidable (F.Spans r) := inferInstanceAs (Decidable (_ ∧ _))

/-- The node object for the data `d` of the subtree `G` at address `a`. -/
def nodeOf (d : T) (a : Addr) (G : Forest) : Node T :=
  ⟨d, a.text, a.length, G.first, G.last, G.isLeaf, some (G.first, G.last)⟩

/-- The entry of one node: present exactly on the ranks of its range. -/
def Entry (r : Nat) (G : Forest) (d : T) (a : Addr) (m : NodeMap T) : Prop :=
  (m.get a.text).1 = if G.Spans r then some (nodeOf d a G) else none

/-- The map of rank `r` holds the part of the tree `t` (of the shape of the forest) that concerns rank `r`. -/
def Rep (r : Nat) : Forest → Tree T → Addr → NodeMap T → Prop
  | .leaf k, .leaf d, a, m => Entry r (.leaf k) d a m
  | .node c0 c1 c2 c3, .node d t0 t1 t2 t3, a, m =>
    Entry r (.node c0 c1 c2 c3) d a m ∧ Rep r c0 t0 (a ++ [0]) m ∧ Rep r c1 t1 (a ++ [1]) m ∧ Rep r c2 t2 (a ++ [2]) m ∧
      Rep r c3 t3 (a ++ [3]) m
  | _, _, _, _ => False

/-- A serial merge in which the leaf callback keeps a state per rank: the leaf of rank `k` sees and changes the state of rank
`k` only. -/
def Tree.mergeBy {σ : Type} (leafF : T → σ → Res (T × σ)) (famF : Fam T → Res (Fam T)) :
    Forest → Tree T → (Nat → σ) → Res (Tree T × (Nat → σ))
  | .leaf k, .leaf p, s => do
    let r ← leafF p (s k)
    pure (.leaf r.1, Function.update s k r.2)
  | .node c0 c1 c2 c3, .node p t0 t1 t2 t3, s => do
    let r0 ← Tree.mergeBy leafF famF c0 t0 s
    let r1 ← Tree.mergeBy leafF famF c1 t1 r0.2
    let r2 ← Tree.mergeBy leafF famF c2 t2 r1.2
    let r3 ← Tree.mergeBy leafF famF c3 t3 r2.2
    let F ← famF ⟨p, r0.1.val, r1.1.val, r2.1.val, r3.1.val⟩
    pure (.node F.tau (r0.1.setVal F.a) (r1.1.setVal F.b) (r2.1.setVal F.c) (r3.1.setVal F.d), r3.2)
  | _, _, _ => .ub

/-- One visit of a traversal: look up the node, hand it to the callback, keep what it became. -/
def visitBody {τ : Type} (fn : Node T → τ → Res ((Node T × τ) × Bool)) (a : Addr) (s : NodeMap T × τ) :
    Res (NodeMap T × τ) := do
  let n ← s.1.need a.text
  let x ← fn n s.2
  pure (s.1.set a.text (some x.1.1), x.1.2)

/-- Half-open membership of a point in a rectangle. -/
def Rect.Has [LinearOrder K] (R : Rect K) (x y : K) : Prop := R.xl ≤ x ∧ x < R.xu ∧ R.yl ≤ y ∧ y < R.yu

/-- The rectangle of a grid. -/
def Grid.rect (g : Grid K) : Rect K := ⟨g.xl, g.xu, g.yl, g.yu⟩

/-- Grid of the node at an address, for a given grid of the root. -/
def gridAt [Field K] (g : Grid K) (a : Addr) : Grid K :=
  let R := Addr.rect ⟨g.xl, g.xu, g.yl, g.yu⟩ a
  ⟨g.nx, g.ny, R.xl, R.xu, R.yl, R.yu⟩

/-- The patch a node starts with: the given one at the root, an empty patch on the right grid elsewhere. -/
def startData [Field K] (p : Patch K) (a : Addr) : Patch K := if a = [] then p else Patch.fresh (gridAt p.grid a)

/-- The tree of patches a new quadtree holds. -/
def startTree [Field K] (p : Patch K) : Forest → Addr → Tree (Patch K)
  | .leaf _, a => .leaf (startData p a)
  | .node c0 c1 c2 c3, a => .node (startData p a) (startTree p c0 (a ++ [0])) (startTree p c1 (a ++ [1]))
      (startTree p c2 (a ++ [2])) (startTree p c3 (a ++ [3]))

/-- The quadtree objects of the ranks hold the tree `t`, each its part, and their p4est points back at them. -/
def Holds (F : Forest) (t : Tree T) (Q : Nat → Quadtree T) : Prop :=
  ∀ r, Rep r F t [] (Q r).map ∧ (Q r).userPointer = .this

/-- The nodes of a rank in the order of a traversal: sorted by `lt`, so each occurs once, and exactly those with a leaf of
the rank below. -/
def VisitOrder (F : Forest) (r : Nat) (lt : Addr → Addr → Prop) (L : List Addr) : Prop :=
  L.Pairwise lt ∧ ∀ b, b ∈ L ↔ ∃ G, F.sub b = some G ∧ r ∈ G.ranks

/-- A node callback that only notes the path of the node it is given. -/
def notePath (n : Node T) (log : List Text) : Res ((Node T × List Text) × Bool) := .ok ((n, log ++ [n.path]), true)

end EF
