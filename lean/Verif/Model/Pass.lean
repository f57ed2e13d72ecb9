import Verif.Model.ParallelHPS

/-!
# What the stages have in common

Every stage of the solver is a sequence of passes over the quadtree with callbacks that read and write the data of nodes.  Here the
data are of any type and the callbacks are any functions.  In particular they may round, as the callbacks of the compiled program
do, which compute with `double`.
-/

namespace EF

/-- A pass over the quadtree.  `up`: `Quadtree::merge`; `root`: a change of the data of `root()`; `down`: `Quadtree::split`;
`wait`: `MPI_Barrier`. -/
inductive Pass (T : Type) where
  | up (leaf : T → Res T) (family : Fam T → Res (Fam T))
  | root (change : T → Res T)
  | down (leaf : T → Res T) (family : Fam T → Res (Fam T))
  | wait

namespace Pass

variable {T : Type}

/-- A pass on one rank of a communicator.  Quadtree.hpp:322-361, 367-369, 438-511; HPSAlgorithm.hpp:94, 122, 128, 186, 233, 299, 301, 352, 422.  The callbacks have
no state of their own; the operator cache of the build stage is therefore not a pass (see C65). -/
def onRank [Inhabited T] (P : Place) (q : Quadtree T) : Pass T → Prog T (Quadtree T)
  | up lf ff => do
    let x ← q.merge P.M P.rank P.forest .broadcast (onData (stateless lf)) (onFamily ff) ()
    pure x.1
  | root fn => .fin (HPSRank.onRoot fn q)
  | down lf ff => do
    let x ← q.split P.M P.rank P.forest .broadcast (onData (stateless lf)) (onFamily ff) ()
    pure x.1
  | wait => do
    barrier P.size
    pure q

/-- Passes one after the other on one rank. -/
def allOnRank [Inhabited T] (P : Place) : List (Pass T) → Quadtree T → Prog T (Quadtree T)
  | [], q => pure q
  | p :: ps, q => do
    let q' ← p.onRank P q
    allOnRank P ps q'

/-- A pass on a tree in one piece. -/
def onTree (t : Tree T) : Pass T → Res (Tree T)
  | up lf ff => t.merge lf ff
  | root fn => do
    let d ← fn t.val
    pure (t.setVal d)
  | down lf ff => t.split lf ff
  | wait => pure t

/-- Passes one after the other on a tree in one piece. -/
def allOnTree : List (Pass T) → Tree T → Res (Tree T)
  | [], t => pure t
  | p :: ps, t => do
    let t' ← p.onTree t
    allOnTree ps t'

end Pass

end EF
