import Verif.Model.Quadtree

/-!
# Communicators and node objects of a quadtree

Model of `communicatorSubsetRange` (MPI.cpp) and of the calls of it in the constructor of `Quadtree`, of the node objects and
communicators that constructor creates, of the destructor and the move assignment of `Quadtree`, and of the destructor of
`Node`.

What is assumed of MPI (MPI 3.1, section 6.4.2): `MPI_Comm_create_group` is collective over the ranks of the group; on a rank
that is not in the group it is a local operation and gives `MPI_COMM_NULL`.  What MPI does when `MPI_COMM_NULL` is given a name
is a parameter: the standard makes that call erroneous (`.ub`), a lenient implementation might ignore it (`.ok ()`).

Simplification: the name itself and the two groups, which are freed again, are left out.
-/

namespace EF

variable {T α β : Type}

/-- A program that creates communicators: it ends, or it enters `MPI_Comm_create_group` for the ranks `lo` to `hi`, of which it
is one, and goes on once the communicator exists. -/
inductive CommProg (α : Type)
  | fin (a : Res α)
  | create (lo hi tag : Nat) (k : CommProg α)

namespace CommProg

/-- Sequencing. -/
def bind (p : CommProg α) (f : α → CommProg β) : CommProg β :=
  match p with
  | fin (.ok a) => f a
  | fin (.throw e) => fin (.throw e)
  | fin .ub => fin .ub
  | create lo hi tag k => create lo hi tag (k.bind f)

instance : Monad CommProg where
  pure a := fin (.ok a)
  bind := bind

end CommProg

/-- `communicatorSubsetRange(super_comm, r_first, r_last, tag, &sub_comm)` on rank `me` of a super communicator with `size`
ranks: the first and last rank of the new communicator, or `none` for `MPI_COMM_NULL`.  `MPI_Group_range_incl` needs ranks of
the super communicator; `MPI_Comm_set_name` is called on every rank.  MPI.cpp:7-38. -/
def communicatorSubsetRange (size me : Nat) (nullName : Res Unit) (first last tag : Nat) : CommProg (Option (Nat × Nat)) :=
  if first ≤ last ∧ last < size then
    if first ≤ me ∧ me ≤ last then .create first last tag (.fin (.ok (some (first, last))))
    else do
      let _ ← .fin nullName
      pure none
  else .fin .ub

/-- What a rank has allocated and not released: node objects and communicators. -/
structure Usage where
  nodes : Nat
  comms : Nat
  deriving DecidableEq, Repr

/-- The callback of the constructor with its MPI calls and what it allocates: a communicator where the rank is one of its
ranks, a node object where the quadrant is owned.  Quadtree.hpp:130-182. -/
def ctorVisitComm (M size r : Nat) (nullName : Res Unit) (rootData : T) (nf : NodeFactory T) (s : NodeMap T × Usage)
    (v : Visit) : CommProg (NodeMap T × Usage) := do
  let c ← communicatorSubsetRange size r nullName v.pfirst v.plast 0
  let m ← .fin (ctorVisit M r rootData nf s.1 v)
  pure (m, ⟨s.2.nodes + (if v.pfirst ≤ r ∧ r ≤ v.plast then 1 else 0), s.2.comms + (if c.isSome then 1 else 0)⟩)

/-- `Quadtree(comm, p4est, root_data, node_factory)` on rank `r` of `size` ranks, when `u` is allocated before.
Quadtree.hpp:118-196. -/
def constructComm (M size r : Nat) (nullName : Res Unit) (rootData : T) (nf : NodeFactory T) (F : Forest) (u : Usage) :
    CommProg (NodeMap T × Usage) :=
  (searchAll M r F .root).foldlM (ctorVisitComm M size r nullName rootData nf) (fun _ => none, u)

/-- `~Quadtree()`: the loop that would delete the nodes is commented out; the map and with it the pointers go away.
Quadtree.hpp:202-209. -/
def Quadtree.destroy (_ : NodeMap T) (u : Usage) : Usage := u

/-- Move assignment `target = std::move(source)` of different objects: the map of the target is overwritten with that of the
source, whose entries become null pointers.  Result: new map of the target, new map of the source, what is allocated.
Quadtree.hpp:217-229. -/
def Quadtree.moveAssign (_target source : NodeMap T) (u : Usage) : NodeMap T × NodeMap T × Usage :=
  (source, fun p => (source p).map (fun _ => none), u)

/-- One rebuilding of the quadtree of a mesh: a temporary tree is constructed, moved into the member and destroyed.
Mesh.hpp:173. -/
def Mesh.rebuildTree (M size r : Nat) (nullName : Res Unit) (rootData : T) (nf : NodeFactory T) (s : NodeMap T × Usage) (F : Forest) :
    CommProg (NodeMap T × Usage) := do
  let t ← constructComm M size r nullName rootData nf F s.2
  let a := Quadtree.moveAssign s.1 t.1 t.2
  pure (a.1, Quadtree.destroy a.2.1 a.2.2)

/-- A mesh that is refined for each forest of the list in turn and then destroyed: what is allocated afterwards.
Mesh.hpp:66-68, 173. -/
def Mesh.lifetime (M size r : Nat) (nullName : Res Unit) (rootData : T) (nf : NodeFactory T) (Fs : List Forest) (u : Usage) :
    CommProg Usage := do
  let s ← Fs.foldlM (Mesh.rebuildTree M size r nullName rootData nf) ((fun _ => none : NodeMap T), u)
  pure (Quadtree.destroy s.1 s.2)

end EF
