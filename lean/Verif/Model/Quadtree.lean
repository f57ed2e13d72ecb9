import Verif.Model.HPS

/-!
# The path-indexed quadtree

Model of `P4est.cpp`, `QuadNode.hpp`, `FiniteVolumeNodeFactory.cpp` and `Quadtree.hpp`.

p4est itself is external.  What is assumed about it:

* a forest with one tree is a refinement tree whose leaves carry the rank that owns them, in z-order
  (`Forest`, `Forest.Sorted`);
* `p4est_search_all` visits, depth first and children in z-order, every quadrant from the root down to
  the leaves, and does not descend below a quadrant that belongs to one other rank (`searchAll`);
* `p4est_search_reorder` without skipping levels visits the quadrants with a leaf of the calling rank,
  depth first and children in z-order (`searchPre`, `searchPost`).  A zero returned by the callback
  before the children ends the descent; the value returned after the children is ignored.

Simplifications: the node objects are the values of the map (every path has its own node object);
`delete`, communicator creation and freeing are left out here; see `Model/Comm.lean`.
-/

namespace EF

variable {K T τ : Type}

/-- `std::string` as a list of characters. -/
abbrev Text := List Char

/-- `std::to_string` of a non-negative integer. -/
def natText (n : Nat) : Text := Nat.toDigits 10 n

/-! ## Quadrants -/

/-- `p4est_quadrant_t`: coordinates of the lower left corner on the lattice with `2^M` points per side
(`M` is `P4EST_MAXLEVEL`) and the level. -/
structure Quadrant where
  x : Nat
  y : Nat
  level : Nat
  deriving DecidableEq, Repr

namespace Quadrant

/-- The quadrant of the whole tree. -/
def root : Quadrant := ⟨0, 0, 0⟩

/-- `p4est_quadrant_child`: bit 0 of `i` selects right, bit 1 upper. -/
def child (M : Nat) (q : Quadrant) (i : Nat) : Quadrant :=
  ⟨q.x + (i % 2) * 2 ^ (M - (q.level + 1)), q.y + (i / 2) * 2 ^ (M - (q.level + 1)), q.level + 1⟩

/-- `p4est_quadrant_ancestor_id(q, l)`: which child the ancestor at level `l` is of its parent, read off
the bits of the coordinates. -/
def ancestorId (M : Nat) (q : Quadrant) (l : Nat) : Nat :=
  (if q.x.testBit (M - l) then 1 else 0) + (if q.y.testBit (M - l) then 2 else 0)

/-- `p4est_quadrant_path`.  P4est.cpp:35-43: the loop from the level down to one appends the ancestor
numbers, then the text is reversed and `"0"` put in front. -/
def path (M : Nat) (q : Quadrant) : Text :=
  '0' :: ((List.range q.level).foldl (fun s k => s ++ natText (ancestorId M q (q.level - k))) []).reverse

end Quadrant

/-! ## Nodes and the node factory -/

/-- `Node<T>`.  QuadNode.hpp:11-100.  `comm` are the first and last rank of `node_comm`, `none` when
the communicator has not been set. -/
structure Node (T : Type) where
  data : T
  path : Text
  level : Int
  pfirst : Nat
  plast : Nat
  leaf : Bool
  comm : Option (Nat × Nat)

/-- `AbstractNodeFactory<T>`: the two functions `Quadtree` calls. -/
structure NodeFactory (T : Type) where
  /-- `createNode(data, path, level, pfirst, plast)` -/
  createNode : T → Text → Int → Nat → Nat → Node T
  /-- `createChildNode(parent, sibling_id, pfirst, plast)` -/
  createChildNode : Node T → Nat → Nat → Nat → Res (Node T)

namespace FVFactory

variable [Field K]

/-- `createNode`.  FiniteVolumeNodeFactory.cpp:11-13, QuadNode.hpp:88-99. -/
def createNode (data : Patch K) (path : Text) (level : Int) (pfirst plast : Nat) : Node (Patch K) :=
  ⟨data, path, level, pfirst, plast, false, none⟩

/-- The `switch` on the sibling number.  FiniteVolumeNodeFactory.cpp:20-58.  For another number the
child grid stays default constructed, with uninitialised members: undefined. -/
def childGrid (g : Grid K) (siblingId : Nat) : Res (Grid K) :=
  let xm := (g.xl + g.xu) / 2
  let ym := (g.yl + g.yu) / 2
  match siblingId with
  | 0 => .ok ⟨g.nx, g.ny, g.xl, xm, g.yl, ym⟩
  | 1 => .ok ⟨g.nx, g.ny, xm, g.xu, g.yl, ym⟩
  | 2 => .ok ⟨g.nx, g.ny, g.xl, xm, ym, g.yu⟩
  | 3 => .ok ⟨g.nx, g.ny, xm, g.xu, ym, g.yu⟩
  | _ => .ub

/-- `createChildNode`.  FiniteVolumeNodeFactory.cpp:15-67. -/
def createChildNode (parent : Node (Patch K)) (siblingId pfirst plast : Nat) : Res (Node (Patch K)) := do
  let grid ← childGrid parent.data.grid siblingId
  pure ⟨Patch.fresh grid, parent.path ++ natText siblingId, parent.level + 1, pfirst, plast, false, none⟩

/-- `createParentNode`.  FiniteVolumeNodeFactory.cpp:69-93.  Reads the first three elements of the vector
of children; `substr(0, length - 1)` of an empty path is the empty path. -/
def createParentNode (children : List (Node (Patch K))) (pfirst plast : Nat) : Res (Node (Patch K)) := do
  let c0 ← rd children 0
  let c1 ← rd children 1
  let c2 ← rd children 2
  pure ⟨Patch.fresh ⟨c0.data.grid.nx, c0.data.grid.ny, c0.data.grid.xl, c1.data.grid.xu, c0.data.grid.yl,
    c2.data.grid.yu⟩, c0.path.dropLast, c0.level - 1, pfirst, plast, false, none⟩

/-- `FiniteVolumeNodeFactory` as the interface `Quadtree` uses. -/
def factory : NodeFactory (Patch K) := ⟨createNode, createChildNode⟩

end FVFactory

/-! ## The distributed forest -/

/-- The refinement tree of the p4est with the owner of every leaf. -/
inductive Forest
  | leaf (rank : Nat)
  | node (c0 c1 c2 c3 : Forest)
  deriving DecidableEq

namespace Forest

/-- Owners of the leaves in z-order. -/
def ranks : Forest → List Nat
  | leaf r => [r]
  | node c0 c1 c2 c3 => c0.ranks ++ c1.ranks ++ c2.ranks ++ c3.ranks

/-- First owner (`pfirst`). -/
def first : Forest → Nat
  | leaf r => r
  | node c0 _ _ _ => c0.first

/-- Last owner (`plast`). -/
def last : Forest → Nat
  | leaf r => r
  | node _ _ _ c3 => c3.last

/-- Number of refinement levels. -/
def depth : Forest → Nat
  | leaf _ => 0
  | node c0 c1 c2 c3 => max (max c0.depth c1.depth) (max c2.depth c3.depth) + 1

/-- p4est keeps the leaves of a rank together and the ranks in order. -/
def Sorted (F : Forest) : Prop := F.ranks.Pairwise (· ≤ ·)

end Forest

/-- The arguments p4est passes to the callback of `p4est_search_all`. -/
structure Visit where
  quadrant : Quadrant
  pfirst : Nat
  plast : Nat
  /-- `local_num >= 0` -/
  isLocalLeaf : Bool
  deriving DecidableEq

/-- `p4est_search_all` on rank `r`: the calls of the callback, in order. -/
def searchAll (M r : Nat) : Forest → Quadrant → List Visit
  | .leaf k, q => [⟨q, k, k, decide (k = r)⟩]
  | .node c0 c1 c2 c3, q =>
    ⟨q, c0.first, c3.last, false⟩ ::
      if c0.first = c3.last ∧ c0.first ≠ r then []
      else searchAll M r c0 (q.child M 0) ++ searchAll M r c1 (q.child M 1) ++ searchAll M r c2 (q.child M 2) ++
        searchAll M r c3 (q.child M 3)

/-- `p4est_search_reorder` on rank `r` with a callback before the children. -/
def searchPre {m : Type → Type} [Monad m] {σ : Type} (M r : Nat) (cb : Quadrant → Bool → σ → m (σ × Bool)) :
    Forest → Quadrant → σ → m σ
  | .leaf k, q, s => if k = r then do
      let s ← cb q true s
      pure s.1
    else pure s
  | .node c0 c1 c2 c3, q, s => if r ∈ (Forest.node c0 c1 c2 c3).ranks then do
      let s ← cb q false s
      if s.2 then do
        let s ← searchPre M r cb c0 (q.child M 0) s.1
        let s ← searchPre M r cb c1 (q.child M 1) s
        let s ← searchPre M r cb c2 (q.child M 2) s
        searchPre M r cb c3 (q.child M 3) s
      else pure s.1
    else pure s

/-- `p4est_search_reorder` on rank `r` with a callback after the children. -/
def searchPost {m : Type → Type} [Monad m] {σ : Type} (M r : Nat) (cb : Quadrant → Bool → σ → m (σ × Bool)) :
    Forest → Quadrant → σ → m σ
  | .leaf k, q, s => if k = r then do
      let s ← cb q true s
      pure s.1
    else pure s
  | .node c0 c1 c2 c3, q, s => if r ∈ (Forest.node c0 c1 c2 c3).ranks then do
      let s ← searchPost M r cb c0 (q.child M 0) s
      let s ← searchPost M r cb c1 (q.child M 1) s
      let s ← searchPost M r cb c2 (q.child M 2) s
      let s ← searchPost M r cb c3 (q.child M 3) s
      let s ← cb q false s
      pure s.1
    else pure s

/-! ## The node map -/

/-- `std::map<std::string, Node<T>*>`: no entry, a null pointer, or a node. -/
abbrev NodeMap (T : Type) := Text → Option (Option (Node T))

/-- Assignment `map[path] = …`. -/
def NodeMap.set (m : NodeMap T) (p : Text) (n : Option (Node T)) : NodeMap T :=
  fun p' => if p' = p then some n else m p'

/-- `map[path]` used as a value: a missing entry is created as a null pointer. -/
def NodeMap.get (m : NodeMap T) (p : Text) : Option (Node T) × NodeMap T :=
  match m p with
  | some n => (n, m)
  | none => (none, m.set p none)

/-- The callback of the constructor.  Quadtree.hpp:130-182. -/
def ctorVisit (M r : Nat) (rootData : T) (nf : NodeFactory T) (m : NodeMap T) (v : Visit) : Res (NodeMap T) := do
  let path := v.quadrant.path M
  if v.pfirst ≤ r ∧ r ≤ v.plast then do
    let node ←
      if v.quadrant.level = 0 then pure (nf.createNode rootData path v.quadrant.level v.pfirst v.plast)
      else
        match (m.get path.dropLast).1 with
        | some parent => nf.createChildNode parent (v.quadrant.ancestorId M v.quadrant.level) v.pfirst v.plast
        | none => .ub
    pure (m.set path (some { node with leaf := v.isLocalLeaf, comm := some (v.pfirst, v.plast) }))
  else pure (m.set path none)

/-- `Quadtree(comm, p4est, root_data, node_factory)` on rank `r`: the resulting map.
Quadtree.hpp:118-196. -/
def construct (M r : Nat) (rootData : T) (nf : NodeFactory T) (F : Forest) : Res (NodeMap T) :=
  (searchAll M r F .root).foldlM (ctorVisit M r rootData nf) (fun _ => none)

/-! ## Node and data traversals -/

/-- What `p4est->user_pointer` points at: nothing, this quadtree, or some other object. -/
inductive UserPointer
  | null
  | this
  | other
  deriving DecidableEq

/-- A quadtree object together with the p4est it uses. -/
structure Quadtree (T : Type) where
  map : NodeMap T
  userPointer : UserPointer

/-- `p4est_search_visit`.  Quadtree.hpp:383-397.  The state is the map and whatever the callback changes. -/
def searchVisit (M r : Nat) (ptr : UserPointer) (fn : Node T → τ → Res ((Node T × τ) × Bool)) (q : Quadrant) (_ : Bool)
    (s : NodeMap T × τ) : Res ((NodeMap T × τ) × Bool) :=
  if ptr = .this then
    let path := q.path M
    match s.1.get path with
    | (some node, m) =>
      if node.pfirst ≤ r ∧ r ≤ node.plast then do
        let res ← fn node s.2
        pure ((m.set path (some res.1.1), res.1.2), res.2)
      else pure ((m, s.2), true)
    | (none, m) => pure ((m, s.2), true)
  else .ub

/-- `p4est_search_visit_data`.  Quadtree.hpp:411-424: like `p4est_search_visit`, on the data, always continuing. -/
def searchVisitData (M r : Nat) (ptr : UserPointer) (fn : T → τ → Res (T × τ)) :
    Quadrant → Bool → NodeMap T × τ → Res ((NodeMap T × τ) × Bool) :=
  searchVisit M r ptr (fun node t => do
    let res ← fn node.data t
    pure (({ node with data := res.1 }, res.2), true))

namespace Quadtree

/-- The quadtree after construction: the user pointer of the p4est is restored.
Quadtree.hpp:118-196. -/
def new (M r : Nat) (rootData : T) (nf : NodeFactory T) (F : Forest) (saved : UserPointer) : Res (Quadtree T) := do
  let m ← construct M r rootData nf F
  pure ⟨m, saved⟩

/-- `traversePreOrder(std::function<int(Node<T>*)>)`: sets the user pointer.  Quadtree.hpp:236-251. -/
def traversePreOrder (M r : Nat) (F : Forest) (fn : Node T → τ → Res ((Node T × τ) × Bool)) (Q : Quadtree T) (t : τ) :
    Res (Quadtree T × τ) := do
  let s ← searchPre M r (searchVisit M r .this fn) F .root (Q.map, t)
  pure (⟨s.1, .this⟩, s.2)

/-- `traversePreOrder(std::function<void(T&)>)`: relies on the user pointer.  Quadtree.hpp:258-272. -/
def traversePreOrderData (M r : Nat) (F : Forest) (fn : T → τ → Res (T × τ)) (Q : Quadtree T) (t : τ) :
    Res (Quadtree T × τ) := do
  let s ← searchPre M r (searchVisitData M r Q.userPointer fn) F .root (Q.map, t)
  pure (⟨s.1, Q.userPointer⟩, s.2)

/-- `traversePostOrder(std::function<int(Node<T>*)>)`: relies on the user pointer.  Quadtree.hpp:279-293. -/
def traversePostOrder (M r : Nat) (F : Forest) (fn : Node T → τ → Res ((Node T × τ) × Bool)) (Q : Quadtree T) (t : τ) :
    Res (Quadtree T × τ) := do
  let s ← searchPost M r (searchVisit M r Q.userPointer fn) F .root (Q.map, t)
  pure (⟨s.1, Q.userPointer⟩, s.2)

/-- `traversePostOrder(std::function<void(T&)>)`: relies on the user pointer.  Quadtree.hpp:300-314. -/
def traversePostOrderData (M r : Nat) (F : Forest) (fn : T → τ → Res (T × τ)) (Q : Quadtree T) (t : τ) :
    Res (Quadtree T × τ) := do
  let s ← searchPost M r (searchVisitData M r Q.userPointer fn) F .root (Q.map, t)
  pure (⟨s.1, Q.userPointer⟩, s.2)

end Quadtree

/-! ## Merge and split -/

/-- The program of one rank: it ends, or it enters a collective operation of a communicator (ranks `lo` to `hi`,
created for the quadrant with path `name`) and continues with what the collective hands it. -/
inductive Prog (T : Type) (α : Type)
  | fin (a : Res α)
  /-- `MPI_Allreduce` with `MPI_MAX` on one integer -/
  | allMax (lo hi : Nat) (name : Text) (value : Nat) (k : Nat → Prog T α)
  /-- `MPI::broadcast` of a node from a rank of the communicator; the communicator of a node does not travel -/
  | bcast (lo hi : Nat) (name : Text) (root : Nat) (value : Node T) (k : Node T → Prog T α)

namespace Prog

variable {α β : Type}

/-- Sequencing. -/
def bind (p : Prog T α) (f : α → Prog T β) : Prog T β :=
  match p with
  | fin (.ok a) => f a
  | fin (.throw e) => fin (.throw e)
  | fin .ub => fin .ub
  | allMax lo hi c v k => allMax lo hi c v (fun n => (k n).bind f)
  | bcast lo hi c r v k => bcast lo hi c r v (fun n => (k n).bind f)

instance : Monad (Prog T) where
  pure a := fin (.ok a)
  bind := bind

end Prog

/-- `NodeCommunicationPolicy`.  Quadtree.hpp:35-38. -/
inductive Policy
  | broadcast
  | stripe
  deriving DecidableEq

/-- A default constructed patch; its members are arbitrary here.  FiniteVolumePatch.cpp:5-7. -/
instance [Field K] : Inhabited (Patch K) := ⟨Patch.fresh ⟨0, 0, 0, 0, 0, 0⟩⟩

/-- A default constructed node: `new Node<T>(comm)`.  Its members other than the data are not initialised; they are
arbitrary here and overwritten by the broadcast.  QuadNode.hpp:76-79. -/
def Node.blank [Inhabited T] : Node T := ⟨default, [], 0, 0, 0, false, none⟩

/-- Body of the loop over the children of a node shared by several ranks: agree on a root by `MPI_Allreduce`, then
broadcast.  A child in the map is overwritten there, another one is a fresh object outside the map.
Quadtree.hpp:478-498, QuadNode.hpp:189-199. -/
def shareChild [Inhabited T] (r lo hi : Nat) (path : Text) (i : Nat) (m : NodeMap T) :
    Prog T (Node T × NodeMap T) := do
  let cp := path ++ natText i
  let (child, m) := m.get cp
  let pnode ← Prog.allMax lo hi path (if child.isSome then r - lo else 0) pure
  let mine := child.getD Node.blank
  let node ← Prog.bcast lo hi path pnode mine pure
  pure (node, if child.isSome then m.set cp (some node) else m)

/-- Store a child handled by the family callback: only a child that is in the map is stored there. -/
def NodeMap.store (m : NodeMap T) (p : Text) (n : Node T) : NodeMap T :=
  match m p with
  | some (some _) => m.set p (some n)
  | _ => m

/-- Read a child for the family callback; every callback dereferences it. -/
def NodeMap.need (m : NodeMap T) (p : Text) : Res (Node T) :=
  match (m.get p).1 with
  | some n => .ok n
  | none => .ub

/-- `p4est_search_merge_split`.  Quadtree.hpp:438-511.  The family callback receives the node and its children and
returns them changed. -/
def mergeSplit [Inhabited T] (M r : Nat) (ptr : UserPointer) (pol : Policy) (leafFn : Node T → τ → Res ((Node T × τ) × Bool))
    (famFn : Fam (Node T) → τ → Res ((Fam (Node T) × τ) × Bool)) (q : Quadrant) (isLeaf : Bool) (s : NodeMap T × τ) :
    Prog T ((NodeMap T × τ) × Bool) :=
  if ptr ≠ .this then .fin .ub else
  let path := q.path M
  match (s.1.get path).1 with
  | none => .fin .ub
  | some node =>
    match node.comm with
    | none => .fin .ub
    | some (lo, hi) =>
      if isLeaf then
        if node.pfirst ≤ r ∧ r ≤ node.plast then do
          let res ← Prog.fin (leafFn node s.2)
          pure ((s.1.set path (some res.1.1), res.1.2), res.2)
        else pure (s, true)
      else if node.pfirst = node.plast then
        if node.pfirst ≤ r ∧ r ≤ node.plast then do
          let a ← Prog.fin (s.1.need (node.path ++ natText 0))
          let b ← Prog.fin (s.1.need (node.path ++ natText 1))
          let c ← Prog.fin (s.1.need (node.path ++ natText 2))
          let d ← Prog.fin (s.1.need (node.path ++ natText 3))
          let res ← Prog.fin (famFn ⟨node, a, b, c, d⟩ s.2)
          pure (((((((s.1.set path (some res.1.1.tau)).store (node.path ++ natText 0) res.1.1.a).store
            (node.path ++ natText 1) res.1.1.b).store (node.path ++ natText 2) res.1.1.c).store
            (node.path ++ natText 3) res.1.1.d), res.1.2), res.2)
        else pure (s, true)
      else if node.pfirst ≤ r ∧ r ≤ node.plast then
        match pol with
        | .stripe => .fin (.throw .runtimeError)
        | .broadcast => do
          let (a, m) ← shareChild r lo hi node.path 0 s.1
          let (b, m) ← shareChild r lo hi node.path 1 m
          let (c, m) ← shareChild r lo hi node.path 2 m
          let (d, m) ← shareChild r lo hi node.path 3 m
          let res ← Prog.fin (famFn ⟨node, a, b, c, d⟩ s.2)
          pure (((((((m.set path (some res.1.1.tau)).store (node.path ++ natText 0) res.1.1.a).store
            (node.path ++ natText 1) res.1.1.b).store (node.path ++ natText 2) res.1.1.c).store
            (node.path ++ natText 3) res.1.1.d), res.1.2), res.2)
      else pure (s, true)

namespace Quadtree

variable [Inhabited T]

/-- `merge(visit_leaf, visit_family)`.  Quadtree.hpp:322-337. -/
def merge (M r : Nat) (F : Forest) (pol : Policy) (leafFn : Node T → τ → Res ((Node T × τ) × Bool))
    (famFn : Fam (Node T) → τ → Res ((Fam (Node T) × τ) × Bool)) (Q : Quadtree T) (t : τ) : Prog T (Quadtree T × τ) := do
  let s ← searchPost M r (mergeSplit M r Q.userPointer pol leafFn famFn) F .root (Q.map, t)
  pure (⟨s.1, Q.userPointer⟩, s.2)

/-- `split(visit_leaf, visit_family)`.  Quadtree.hpp:345-361. -/
def split (M r : Nat) (F : Forest) (pol : Policy) (leafFn : Node T → τ → Res ((Node T × τ) × Bool))
    (famFn : Fam (Node T) → τ → Res ((Fam (Node T) × τ) × Bool)) (Q : Quadtree T) (t : τ) : Prog T (Quadtree T × τ) := do
  let s ← searchPre M r (mergeSplit M r Q.userPointer pol leafFn famFn) F .root (Q.map, t)
  pure (⟨s.1, Q.userPointer⟩, s.2)

end Quadtree

/-! ## Callbacks on the data of nodes -/

/-- A leaf callback that works on the data of the node, as those of `HPSAlgorithm` do.
HPSAlgorithm.hpp:129-143, 187-198, 301-305. -/
def onData {τ : Type} (lf : T → τ → Res (T × τ)) (n : Node T) (s : τ) : Res ((Node T × τ) × Bool) := do
  let x ← lf n.data s
  pure (({ n with data := x.1 }, x.2), true)

/-- A leaf callback without state.  HPSAlgorithm.hpp:187-198, 301-305. -/
def stateless {τ : Type} (lf : T → Res T) (d : T) (s : τ) : Res (T × τ) := do
  let q ← lf d
  pure (q, s)

/-- A family callback that works on the data of the nodes.  HPSAlgorithm.hpp:144-155, 199-210, 306-317. -/
def onFamily {τ : Type} (ff : Fam T → Res (Fam T)) (F : Fam (Node T)) (s : τ) : Res ((Fam (Node T) × τ) × Bool) := do
  let y ← ff ⟨F.tau.data, F.a.data, F.b.data, F.c.data, F.d.data⟩
  pure ((⟨{ F.tau with data := y.tau }, { F.a with data := y.a }, { F.b with data := y.b }, { F.c with data := y.c },
    { F.d with data := y.d }⟩, s), true)

end EF
