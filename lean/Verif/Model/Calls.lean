import Verif.Model.ParallelHPS
import Verif.Model.MPI

/-!
# The stages as sequences of MPI calls

In `Model/Quadtree.lean` and `Model/ParallelHPS.lean` the broadcast of a node is one step.  In the code it is a sequence of
broadcasts of numbers, arrays and strings (`Model/MPI.lean`).  Here the programs of the ranks are written out down to the calls
`MPI_Allreduce`, `MPI_Barrier` and `MPI_Bcast`.
-/

namespace EF.MPI

variable {K α β : Type}

/-- The program of one rank: it ends, or it calls MPI on a communicator (ranks `lo` to `hi`, created for the quadrant with path
`name`) and continues with what MPI hands back. -/
inductive Calls (K α : Type)
  | fin (r : Res α)
  /-- `MPI_Allreduce` with `MPI_MAX` on one integer, or `MPI_Barrier` -/
  | allMax (lo hi : Nat) (name : Text) (value : Nat) (next : Nat → Calls K α)
  /-- `MPI_Bcast` of a buffer -/
  | bcast (lo hi : Nat) (name : Text) (root : Nat) (k : Kind) (mine : List (k.Carrier K)) (next : List (k.Carrier K) → Calls K α)

/-- Take part in broadcasts on a communicator, then go on. -/
def Calls.onComm (lo hi : Nat) (name : Text) (p : Caster K β) (next : β → Calls K α) : Calls K α :=
  match p with
  | .fin (.ok b) => next b
  | .fin (.throw e) => .fin (.throw e)
  | .fin .ub => .fin .ub
  | .bcast root k mine q => .bcast lo hi name root k mine (fun l => onComm lo hi name (q l) next)

/-- The program of rank `r` with `MPI::broadcast(*child, pnode, node->getMPIComm())` written out; in the communicator the rank has
the number `r - lo`.  Quadtree.hpp:491, QuadNode.hpp:189-199, FiniteVolumePatch.cpp:118-134. -/
def Calls.of [Zero K] (D : Dialect) (r : Nat) : Prog (Patch K) α → Calls K α
  | .fin x => .fin x
  | .allMax lo hi name v k => .allMax lo hi name v (fun n => of D r (k n))
  | .bcast lo hi name root v k =>
    onComm lo hi name (castNode D (castPatch D (r - lo) root) (r - lo) root v) (fun n => of D r (k n))

end EF.MPI
