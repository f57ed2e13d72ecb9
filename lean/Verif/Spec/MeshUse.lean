import Verif.Model.MeshPointers
import Verif.Spec.Output

/-!
# What a mesh shows, read off the calls

No addresses and no memory: only the calls made so far are looked at.
-/

namespace EF

/-- Where the values of a mesh function come from. -/
inductive Source where
  | vector (i : Nat)
  | function (fn : ℚ → ℚ → ℚ) (name : Text)

namespace MeshCall

/-- The vectors of the program after the calls, in the order of their declarations: name and entries, nothing after the end of
their scope. -/
def objects (cs : List MeshCall) : List (Option (Text × List ℚ)) :=
  cs.foldl (fun os c => match c with
    | declare name v => os ++ [some (name, v.data)]
    | change i v => os.modify i (Option.map fun x => (x.1, v.data))
    | destroy i => os.set i none
    | _ => os) []

/-- The functions of the mesh after the calls: those added since the last `clear`. -/
def sources (cs : List MeshCall) : List Source :=
  cs.foldl (fun ss c => match c with
    | addVector i => ss ++ [.vector i]
    | addFunction fn name => ss ++ [.function fn name]
    | clear => []
    | _ => ss) []

/-- How many functions the calls add by a function of x and y. -/
def sampled (cs : List MeshCall) : Nat :=
  cs.countP fun c => match c with
    | addFunction _ _ => true
    | _ => false

end MeshCall

/-- Name and values of a mesh function, given the vectors of the program and the cells; nothing if the vector does not exist. -/
def Source.shows (os : List (Option (Text × List ℚ))) (C : List (Rect ℚ)) : Source → Option (Text × List ℚ)
  | .vector i => os[i]?.join
  | .function fn name => some (name, C.map fun R => fn R.centre.1 R.centre.2)

/-- The functions of the mesh after the calls with their values; nothing if one of them is a vector that does not exist any
more. -/
def MeshCall.shown (C : List (Rect ℚ)) (cs : List MeshCall) : Option (List (Text × List ℚ)) :=
  (sources cs).mapM (Source.shows (objects cs) C)

end EF
