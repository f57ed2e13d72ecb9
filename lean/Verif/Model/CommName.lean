import Verif.Model.Quadtree

/-!
# Names of communicators

`communicatorSetName`, `communicatorGetName` and the name `communicatorSubsetRange` gives (MPI.cpp:26-32, 40-49).  Which ranks a communicator
has and which calls are allowed is in `Model/Comm.lean`.

MPI is external: `MPI_Comm_set_name` keeps the characters before the first null character, but no more than `MPI_MAX_OBJECT_NAME - 1` of them;
`MPI_Comm_get_name` writes the name and a null character and gives the number of characters of the name.  `limit` is `MPI_MAX_OBJECT_NAME`.
-/

namespace EF

namespace CommName

/-- `MPI_Comm_set_name(comm, name.c_str())`: the name the communicator has afterwards.  MPI.cpp:32, 41. -/
def set (limit : Nat) (name : Text) : Text := (name.takeWhile (· ≠ '\u0000')).take (limit - 1)

/-- `MPI_Comm_get_name` into a buffer of 255 characters.  MPI.cpp:26-29, 45-48. -/
def get (name : Text) : Res Text := if 255 < name.length + 1 then .ub else .ok name

/-- `sub_comm_name`.  MPI.cpp:30-31. -/
def subName (superName : Text) (first last : Nat) : Text :=
  superName ++ "_sub_range={".toList ++ natText first ++ ":".toList ++ natText last ++ "}".toList

/-- The name of the communicator `communicatorSubsetRange` makes, on its ranks.  MPI.cpp:26-32. -/
def subset (limit : Nat) (superName : Text) (first last : Nat) : Res Text := do
  let n ← get superName
  pure (set limit (subName n first last))

/-- Subset of a subset of …, from the outermost on, and what `communicatorGetName` says of the last.  MPI.cpp:7-49. -/
def nested (limit : Nat) (superName : Text) (ranges : List (Nat × Nat)) : Res Text := do
  let n ← ranges.foldlM (fun n r => subset limit n r.1 r.2) superName
  get n

/-- `communicatorSetName` and then `communicatorGetName`.  MPI.cpp:40-49. -/
def setAndGet (limit : Nat) (name : Text) : Res Text := get (set limit name)

/-- The name `MPI_COMM_WORLD` has from the start (MPI standard, 6.8). -/
def world : Text := "MPI_COMM_WORLD".toList

/-- The name of the communicator of a node of a quadtree.  Quadtree.hpp:146-148. -/
def nodeName (limit first last : Nat) : Res Text := nested limit world [(first, last)]

end CommName

end EF
