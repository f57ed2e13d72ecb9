import Verif.Model.Quadtree

/-!
# Messages

Model of the `send`, `receive` and `broadcast` functions of `MPI.hpp`, `MPI.cpp`, `Vector.hpp`, `Matrix.hpp`,
`QuadNode.hpp`, `FiniteVolumeGrid.cpp` and `FiniteVolumePatch.cpp`.

A function that communicates is a program: it stops at each call of MPI and goes on with what MPI hands back.  MPI itself is
external; what it does with such programs is in `Verif/Spec/Message.lean`.

Simplifications: four MPI datatypes stand for all; `int` counts are unbounded (`Verif/Model/Ints.lean` has 32 bits); return codes and `MPI_Status` are left out.
-/

namespace EF.MPI

variable {K α β : Type}

/-- An MPI datatype.  MPI.hpp:186-206. -/
inductive Kind
  | int
  | real
  | char
  | bool
  deriving DecidableEq, Repr

/-- The C++ values of a datatype. -/
abbrev Kind.Carrier (K : Type) : Kind → Type
  | int => Int
  | real => K
  | char => Char
  | bool => Bool

/-- The value `std::vector::resize` gives to new elements. -/
def Kind.zero [Zero K] : (k : Kind) → k.Carrier K
  | int => (0 : Int)
  | real => (0 : K)
  | char => '\x00'
  | bool => false

/-- A message: its datatype and its elements. -/
structure Buf (K : Type) where
  kind : Kind
  data : List (kind.Carrier K)

/-- A program that sends to one other rank. -/
inductive Sender (K α : Type)
  | fin (r : Res α)
  /-- `MPI_Send` -/
  | send (tag : Int) (b : Buf K) (next : Sender K α)

/-- A program that receives from one other rank.  `recv` gives the buffer as it was before. -/
inductive Receiver (K α : Type)
  | fin (r : Res α)
  /-- `MPI_Recv` -/
  | recv (tag : Int) (k : Kind) (old : List (k.Carrier K)) (next : List (k.Carrier K) → Receiver K α)

/-- A program that takes part in broadcasts on one communicator.  `bcast` gives the buffer as it was before. -/
inductive Caster (K α : Type)
  | fin (r : Res α)
  /-- `MPI_Bcast` -/
  | bcast (root : Nat) (k : Kind) (mine : List (k.Carrier K)) (next : List (k.Carrier K) → Caster K α)

/-- Sequencing. -/
def Sender.bind (p : Sender K α) (f : α → Sender K β) : Sender K β :=
  match p with
  | fin (.ok a) => f a
  | fin (.throw e) => fin (.throw e)
  | fin .ub => fin .ub
  | send t b p => send t b (p.bind f)

/-- Sequencing. -/
def Receiver.bind (p : Receiver K α) (f : α → Receiver K β) : Receiver K β :=
  match p with
  | fin (.ok a) => f a
  | fin (.throw e) => fin (.throw e)
  | fin .ub => fin .ub
  | recv t k old p => recv t k old (fun l => (p l).bind f)

/-- Sequencing. -/
def Caster.bind (p : Caster K α) (f : α → Caster K β) : Caster K β :=
  match p with
  | fin (.ok a) => f a
  | fin (.throw e) => fin (.throw e)
  | fin .ub => fin .ub
  | bcast t k m p => bcast t k m (fun l => (p l).bind f)

instance : Monad (Sender K) where
  pure a := .fin (.ok a)
  bind := Sender.bind

instance : Monad (Receiver K) where
  pure a := .fin (.ok a)
  bind := Receiver.bind

instance : Monad (Caster K) where
  pure a := .fin (.ok a)
  bind := Caster.bind

/-- `std::vector::resize`. -/
def resize [Zero K] (k : Kind) (l : List (k.Carrier K)) (n : Nat) : List (k.Carrier K) :=
  l.take n ++ List.replicate (n - l.length) (Kind.zero k)

/-- `std::vector::resize` with an `int`: a negative number is converted to a `std::size_t` beyond any allocation. -/
def resizeInt [Zero K] (k : Kind) (l : List (k.Carrier K)) (n : Int) : Res (List (k.Carrier K)) :=
  if 0 ≤ n then .ok (resize k l n.toNat) else .throw .badAlloc

/-- What a compiler and its standard library do in the two places where these functions leave the C++ standard. -/
structure Dialect where
  /-- Forming `&vec.front()` and a reference to `vec[0]` of an empty vector does nothing, as long as nobody looks there. -/
  emptyFront : Bool
  /-- The character that is found at a position behind the end of a string; `none` when looking there may do anything. -/
  behind : Option (Text → Nat → Char)

/-- The C++ standard: both are undefined. -/
def strict : Dialect := ⟨false, none⟩

/-- `TypeTraits<std::vector<T>>`: `&vec.front()` and `vec[0]` need an element.  MPI.hpp:306-333. -/
def address (D : Dialect) (k : Kind) (l : List (k.Carrier K)) : Res (List (k.Carrier K)) :=
  match l with
  | [] => if D.emptyFront then .ok [] else .ub
  | x :: t => .ok (x :: t)

/-! ## Sending -/

/-- `send` of a primitive value.  MPI.hpp:219-221. -/
def sendPrim (k : Kind) (x : k.Carrier K) (tag : Int) : Sender K Unit := .send tag ⟨k, [x]⟩ (pure ())

/-- `send` of a `std::vector`.  MPI.hpp:345-350. -/
def sendStd (D : Dialect) (k : Kind) (l : List (k.Carrier K)) (tag : Int) : Sender K Unit := do
  sendPrim .int (l.length : Int) tag
  let b ← .fin (address D k l)
  .send tag ⟨k, b⟩ (pure ())

/-- `send` of a `Vector`.  Vector.hpp:937-939. -/
def sendVec (D : Dialect) (k : Kind) (v : Vec (k.Carrier K)) (tag : Int) : Sender K Unit := sendStd D k v.data tag

/-- `send` of a `Matrix`.  Matrix.hpp:1033-1041. -/
def sendMat (D : Dialect) (k : Kind) (A : Mat (k.Carrier K)) (tag : Int) : Sender K Unit := do
  sendPrim .int (A.nrows : Int) (tag + 1)
  sendPrim .int (A.ncols : Int) (tag + 2)
  sendStd D k A.data tag

/-- `send` of a `std::string`; `data()` of an empty string is valid.  MPI.cpp:51-55, MPI.hpp:425-451. -/
def sendStr (s : Text) (tag : Int) : Sender K Unit := do
  sendPrim .int (s.length : Int) tag
  .send tag ⟨.char, s⟩ (pure ())

/-! ## Receiving -/

/-- `receive` of a primitive value.  MPI.hpp:234-236. -/
def recvPrim (k : Kind) (old : k.Carrier K) (tag : Int) : Receiver K (k.Carrier K) :=
  .recv tag k [old] fun l =>
    match l with
    | [x] => pure x
    | _ => .fin .ub

/-- `receive` of a `std::vector`.  MPI.hpp:363-369.  The local `int size` is uninitialised before it is received; any value
stands for it. -/
def recvStd [Zero K] (D : Dialect) (k : Kind) (old : List (k.Carrier K)) (tag : Int) : Receiver K (List (k.Carrier K)) := do
  let size ← recvPrim .int (0 : Int) tag
  let l ← .fin (resizeInt k old size)
  let b ← .fin (address D k l)
  .recv tag k b pure

/-- `receive` of a `Vector`.  Vector.hpp:953-958. -/
def recvVec [Zero K] (D : Dialect) (k : Kind) (tag : Int) : Receiver K (Vec (k.Carrier K)) := do
  let l ← recvStd D k [] tag
  pure (Vec.ofList l)

/-- `receive` of a `Matrix`.  Matrix.hpp:1055-1063. -/
def recvMat [Zero K] (D : Dialect) (k : Kind) (tag : Int) : Receiver K (Mat (k.Carrier K)) := do
  let rows ← recvPrim .int (0 : Int) (tag + 1)
  let cols ← recvPrim .int (0 : Int) (tag + 2)
  let l ← recvStd D k [] tag
  pure ⟨Int.toNat rows, Int.toNat cols, l⟩

/-- `receive` of a `std::string`.  MPI.cpp:58-63. -/
def recvStr [Zero K] (old : Text) (tag : Int) : Receiver K Text := do
  let size ← recvPrim .int (0 : Int) tag
  let s ← .fin (resizeInt (K := K) .char old size)
  .recv tag .char s pure

/-! ## Broadcasting

`me` is the rank of the caller in the communicator. -/

/-- `broadcast` of a primitive value.  MPI.hpp:248-250. -/
def castPrim (root : Nat) (k : Kind) (x : k.Carrier K) : Caster K (k.Carrier K) :=
  .bcast root k [x] fun l =>
    match l with
    | [y] => pure y
    | _ => .fin .ub

/-- `broadcast` of a `std::vector`.  MPI.hpp:380-387. -/
def castStd [Zero K] (D : Dialect) (me root : Nat) (k : Kind) (l : List (k.Carrier K)) : Caster K (List (k.Carrier K)) := do
  let size ← castPrim root .int (l.length : Int)
  let l ← .fin (if me ≠ root then resizeInt k l size else .ok l)
  let b ← .fin (address D k l)
  .bcast root k b pure

/-- `broadcast` of a `Vector`.  Vector.hpp:970-977. -/
def castVec [Zero K] (D : Dialect) (me root : Nat) (k : Kind) (v : Vec (k.Carrier K)) : Caster K (Vec (k.Carrier K)) := do
  let l ← castStd D me root k (if me = root then v.data else [])
  pure (if me ≠ root then Vec.ofList l else v)

/-- `broadcast` of a `Matrix`.  Matrix.hpp:1075-1089.  `rows` and `cols` are uninitialised on the other ranks; any value
stands for them. -/
def castMat [Zero K] (D : Dialect) (me root : Nat) (k : Kind) (A : Mat (k.Carrier K)) : Caster K (Mat (k.Carrier K)) := do
  let rows ← castPrim root .int (if me = root then (A.nrows : Int) else 0)
  let cols ← castPrim root .int (if me = root then (A.ncols : Int) else 0)
  let l ← castStd D me root k (if me = root then A.data else [])
  pure (if me ≠ root then ⟨Int.toNat rows, Int.toNat cols, l⟩ else A)

/-- `std::string(s.data(), n)`: the characters of `s` and the terminating null may be read, nothing behind it. -/
def reread (D : Dialect) (s : Text) (n : Nat) : Res Text :=
  if n ≤ s.length + 1 then .ok ((s ++ ['\x00']).take n)
  else
    match D.behind with
    | some c => .ok (s ++ ['\x00'] ++ (List.range (n - (s.length + 1))).map (c s))
    | none => .ub

/-- `broadcast` of a `std::string`.  MPI.cpp:66-72. -/
def castStr (D : Dialect) (me root : Nat) (s : Text) : Caster K Text := do
  let size ← castPrim root .int (s.length : Int)
  let s ← .fin (if me ≠ root then (if 0 ≤ size then reread D s size.toNat else .throw .badAlloc) else .ok s)
  .bcast root .char s pure

/-- `broadcast` of a `FiniteVolumeGrid`.  FiniteVolumeGrid.cpp:80-97. -/
def castGrid (root : Nat) (g : Grid K) : Caster K (Grid K) := do
  let nx ← castPrim root .int (g.nx : Int)
  let ny ← castPrim root .int (g.ny : Int)
  let xl ← castPrim root .real g.xl
  let xu ← castPrim root .real g.xu
  let yl ← castPrim root .real g.yl
  let yu ← castPrim root .real g.yu
  pure ⟨Int.toNat nx, Int.toNat ny, xl, xu, yl, yu⟩

/-- `broadcast` of a `FiniteVolumePatch`.  FiniteVolumePatch.cpp:118-134. -/
def castPatch [Zero K] (D : Dialect) (me root : Nat) (p : Patch K) : Caster K (Patch K) := do
  let n ← castPrim root .int (p.nCoarsens : Int)
  let grid ← castGrid root p.grid
  let X ← castMat D me root .real p.X
  let H ← castMat D me root .real p.H
  let S ← castMat D me root .real p.S
  let T ← castMat D me root .real p.T
  let u ← castVec D me root .real p.u
  let g ← castVec D me root .real p.g
  let v ← castVec D me root .real p.v
  let f ← castVec D me root .real p.f
  let h ← castVec D me root .real p.h
  let w ← castVec D me root .real p.w
  pure ⟨Int.toNat n, grid, X, H, S, T, u, g, v, f, h, w⟩

/-- `broadcast` of a `Node`; the data has its own `broadcast`.  QuadNode.hpp:189-199. -/
def castNode (D : Dialect) (castData : α → Caster K α) (me root : Nat) (n : Node α) : Caster K (Node α) := do
  let data ← castData n.data
  let path ← castStr D me root n.path
  let level ← castPrim root .int n.level
  let pfirst ← castPrim root .int (n.pfirst : Int)
  let plast ← castPrim root .int (n.plast : Int)
  let leaf ← castPrim root .bool n.leaf
  pure ⟨data, path, level, Int.toNat pfirst, Int.toNat plast, leaf, n.comm⟩

/-! ## All types at once -/

/-- A variable of one of the C++ types that can be sent.  In a node the members that do not travel (the communicators) are
left out. -/
inductive Value (K : Type)
  | prim (k : Kind) (x : k.Carrier K)
  | std (k : Kind) (l : List (k.Carrier K))
  | vec (k : Kind) (v : Vec (k.Carrier K))
  | mat (k : Kind) (A : Mat (k.Carrier K))
  | str (s : Text)
  | node (data : Value K) (path : Text) (level pfirst plast : Int) (leaf : Bool)

/-- `send(x, dest, tag, comm)`.  For nodes QuadNode.hpp:167-176. -/
def send (D : Dialect) : Value K → Int → Sender K Unit
  | .prim k x, tag => sendPrim k x tag
  | .std k l, tag => sendStd D k l tag
  | .vec k v, tag => sendVec D k v tag
  | .mat k A, tag => sendMat D k A tag
  | .str s, tag => sendStr s tag
  | .node data path level pfirst plast leaf, tag => do
    send D data tag
    sendStr path tag
    sendPrim .int level tag
    sendPrim .int pfirst tag
    sendPrim .int plast tag
    sendPrim .bool leaf tag

/-- `receive(x, src, tag, comm, status)`: the type and the previous contents are those of `x`.  For nodes
QuadNode.hpp:178-187. -/
def receive [Zero K] (D : Dialect) : Value K → Int → Receiver K (Value K)
  | .prim k x, tag => do
    let y ← recvPrim k x tag
    pure (.prim k y)
  | .std k l, tag => do
    let y ← recvStd D k l tag
    pure (.std k y)
  | .vec k _, tag => do
    let y ← recvVec D k tag
    pure (.vec k y)
  | .mat k _, tag => do
    let y ← recvMat D k tag
    pure (.mat k y)
  | .str s, tag => do
    let y ← recvStr s tag
    pure (.str y)
  | .node data path level pfirst plast leaf, tag => do
    let d ← receive D data tag
    let p ← recvStr path tag
    let l ← recvPrim .int level tag
    let f ← recvPrim .int pfirst tag
    let t ← recvPrim .int plast tag
    let b ← recvPrim .bool leaf tag
    pure (.node d p l f t b)

/-- `broadcast(x, root, comm)`. -/
def cast [Zero K] (D : Dialect) (me root : Nat) : Value K → Caster K (Value K)
  | .prim k x => do
    let y ← castPrim root k x
    pure (.prim k y)
  | .std k l => do
    let y ← castStd D me root k l
    pure (.std k y)
  | .vec k v => do
    let y ← castVec D me root k v
    pure (.vec k y)
  | .mat k A => do
    let y ← castMat D me root k A
    pure (.mat k y)
  | .str s => do
    let y ← castStr D me root s
    pure (.str y)
  | .node data path level pfirst plast leaf => do
    let d ← cast D me root data
    let p ← castStr D me root path
    let l ← castPrim root .int level
    let f ← castPrim root .int pfirst
    let t ← castPrim root .int plast
    let b ← castPrim root .bool leaf
    pure (.node d p l f t b)

/-- Send a sequence of values, each with its tag. -/
def sendAll (D : Dialect) : List (Value K × Int) → Sender K Unit
  | [] => pure ()
  | (v, tag) :: rest => do
    send D v tag
    sendAll D rest

/-- Receive a sequence of values, each into a variable with a tag. -/
def receiveAll [Zero K] (D : Dialect) : List (Value K × Int) → Receiver K (List (Value K))
  | [] => pure []
  | (old, tag) :: rest => do
    let v ← receive D old tag
    let vs ← receiveAll D rest
    pure (v :: vs)

end EF.MPI
