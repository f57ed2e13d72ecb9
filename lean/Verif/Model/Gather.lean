import Verif.Model.Vector

/-!
# Gathering on all ranks

Model of `allgather` and `allgatherv` in `MPI.hpp` and `Vector.hpp`.  All ranks of the communicator call the
function; the model is a function of what every rank passes, giving what one rank finds in its receiving vector.

What is assumed of MPI (`mpiAllgather`, `mpiAllgatherv`): counts must match what the other ranks send, the receiving buffer must
have room, and no place may be written twice; otherwise the outcome is undefined.  Where nothing is written the buffer keeps its
contents.

Simplifications: counts are unbounded; the data type of the elements is the same on all ranks.
-/

namespace EF

variable {V : Type}

/-- `TypeTraits<std::vector<T>>::getAddress` and `getType` need an element: `&vec.front()`, `vec[0]`.  MPI.hpp:306-333. -/
def needElement (l : List V) : Res Unit :=
  match l with
  | [] => .ub
  | _ :: _ => .ok ()

/-- `block` written into `buf` from position `at` on. -/
def writeAt (buf : List V) (pos : Nat) (block : List V) : List V := buf.take pos ++ block ++ buf.drop (pos + block.length)

/-- `MPI_Allgather` on rank `r` of `n` ranks: block `j` of `count` elements comes from rank `j`. -/
def mpiAllgather (n : Nat) (send : Nat → List V) (recv : List V) (count : Nat) : Res (List V) :=
  if (∀ j < n, (send j).length = count) ∧ n * count ≤ recv.length then
    .ok ((List.range n).foldl (fun b j => writeAt b (j * count) (send j)) recv)
  else .ub

/-- `MPI_Allgatherv` on one of `n` ranks: `counts j` elements come from rank `j` and go to `displs j`. -/
def mpiAllgatherv (n : Nat) (send : Nat → List V) (recv : List V) (counts displs : List Nat) : Res (List V) :=
  if counts.length = n ∧ displs.length = n ∧ (∀ j < n, (send j).length = counts.getD j 0 ∧ displs.getD j 0 + counts.getD j 0 ≤ recv.length) ∧
      (∀ i < n, ∀ j < n, i ≠ j → displs.getD i 0 + counts.getD i 0 ≤ displs.getD j 0 ∨
        displs.getD j 0 + counts.getD j 0 ≤ displs.getD i 0 ∨ counts.getD i 0 = 0 ∨ counts.getD j 0 = 0) then
    .ok ((List.range n).foldl (fun b j => writeAt b (displs.getD j 0) (send j)) recv)
  else .ub

/-- `allgather` of `std::vector`s as rank `r` sees it.  Every rank must be able to take the address of its two vectors, or the
collective does not come about.  MPI.hpp:399-401. -/
def allgatherStd (n : Nat) (send recv : Nat → List V) (count : Nat → Nat) (r : Nat) : Res (List V) := do
  let _ ← (List.range n).mapM (fun j => do
    let _ ← needElement (send j)
    needElement (recv j))
  mpiAllgather n send (recv r) (count r)

/-- `allgatherv` of `std::vector`s as rank `r` sees it.  MPI.hpp:415-417. -/
def allgathervStd (n : Nat) (send recv : Nat → List V) (counts displs : Nat → List Nat) (r : Nat) : Res (List V) := do
  let _ ← (List.range n).mapM (fun j => do
    let _ ← needElement (send j)
    needElement (recv j))
  mpiAllgatherv n send (recv r) (counts r) (displs r)

/-- `allgather` of `Vector`s: the data is received in place, the stored size stays.  Vector.hpp:989-992. -/
def allgatherVec (n : Nat) (send recv : Nat → Vec V) (count : Nat → Nat) (r : Nat) : Res (Vec V) := do
  let d ← allgatherStd n (fun j => (send j).data) (fun j => (recv j).data) count r
  pure ⟨(recv r).size, d⟩

/-- `allgatherv` of `Vector`s.  Vector.hpp:1005-1008. -/
def allgathervVec (n : Nat) (send recv : Nat → Vec V) (counts displs : Nat → List Nat) (r : Nat) : Res (Vec V) := do
  let d ← allgathervStd n (fun j => (send j).data) (fun j => (recv j).data) counts displs r
  pure ⟨(recv r).size, d⟩

end EF
