import Verif.Model.XML
import Mathlib.Order.Defs.LinearOrder

/-!
# The VTK writers

Model of `VTK.cpp`, the data array interface of `Vector.hpp` and `Mesh::toVTK`.

Nodes declared in a function end with it; nodes made by `new` are never deleted.  The nodes `root_` of
the writers live as long as the writer and are cells of the heap like the others.

Left out: the file of the quadtree written by p4est in `Mesh::toVTK`, and failures of the file system.
Numbers become text through the parameter `toText` (`std::to_string`).  A format string that contains a
`%` of the caller is undefined behaviour here.
-/

namespace EF

variable {K : Type}

/-- What a writer asks of a `DataArrayNodeBase`, `VTK.hpp:12-93`; `range` has the texts of the smallest
and largest entries, and nothing where asking for them is undefined. -/
structure DataArr where
  type : Text
  name : Text
  components : Text
  format : Text
  range : Option (Text × Text)
  data : Text

/-- A vector as data array, `Vector.hpp:684-753`.  `getRangeMin` and `getRangeMax` (729-742) read through the
end iterator when the vector is empty. -/
def Vec.dataArr [LinearOrder K] (toText : K → Text) (type name components : Text) (v : Vec K) : DataArr where
  type := type
  name := name
  components := components
  format := "ascii".toList
  range := match v.data with
    | [] => none
    | x :: xs => some (toText (xs.foldl min x), toText (xs.foldl max x))
  data := v.data.foldl (fun s x => s ++ toText x ++ [' ']) []

/-- `EmptyDataArrayNode`, `VTK.cpp:27-34`. -/
def emptyArr : DataArr :=
  ⟨"Float32".toList, "Empty".toList, "1".toList, "ascii".toList, some ("0.0".toList, "0.0".toList),
    "0.0".toList⟩

/-- `DataArrayNodeBase::toVTK`, `VTK.cpp:5-15`. -/
def DataArr.toVTK (a : DataArr) (h : Heap) : Res (Heap × Nat) :=
  match a.range with
  | none => .ub
  | some (lo, hi) => pure (h.alloc
    { name := "DataArray".toList
      attributes := [("type".toList, a.type), ("Name".toList, a.name),
        ("NumberOfComponents".toList, a.components), ("format".toList, a.format),
        ("RangeMin".toList, lo), ("RangeMax".toList, hi)]
      data := a.data })

/-- `DataArrayNodeBase::toPVTK`, `VTK.cpp:17-25`. -/
def DataArr.toPVTK (a : DataArr) (h : Heap) : Res (Heap × Nat) :=
  pure (h.alloc
    { name := "PDataArray".toList
      attributes := [("type".toList, a.type), ("Name".toList, a.name),
        ("NumberOfComponents".toList, a.components), ("format".toList, a.format)] })

/-- `for (auto& a : as) node.addChild(a->toVTK())`, as in `VTK.cpp:109-111`. -/
def addArrays (f : DataArr → Heap → Res (Heap × Nat)) (node : Nat) : List DataArr → Heap → Res Heap
  | [], h => pure h
  | a :: as, h => f a h >>= fun r => addArrays f node as (r.1.addChild node r.2)

/-- The attribute `Scalars`, as in `VTK.cpp:88-93`: the names, each followed by a space. -/
def scalars (as : List DataArr) : List (Text × Text) :=
  if as = [] then [] else [("Scalars".toList, as.foldl (fun s a => s ++ (a.name ++ [' '])) [])]

/-- The ends of several lifetimes. -/
def Heap.killAll (h : Heap) (as : List Nat) : Heap := as.foldl Heap.kill h

/-- `root_` of a writer, as in `VTK.cpp:36-40`. -/
def rootNode (type : Text) : XNode :=
  { name := "VTKFile".toList
    attributes := [("type".toList, type), ("version".toList, "0.1".toList),
      ("byte_order".toList, "LittleEndian".toList)] }

/-! ## Rectilinear grids -/

/-- `RectilinearGridVTK`, `VTK.hpp:173-258`; `extents` are the whole extent and the extent of the mesh, and
nothing while `mesh_complete_` is false. -/
structure RGrid where
  root : Nat
  extents : Option (Text × Text)
  coords : List DataArr
  pointData : List DataArr
  cellData : List DataArr

/-- `RectilinearGridVTK::toVTK`, `VTK.cpp:78-121`: the memory afterwards and the content of the file. -/
def RGrid.toVTK (w : RGrid) (stack : Nat) (h : Heap) : Res (Heap × Text) :=
  match w.extents with
  | none => .throw .invalidArgument
  | some (whole, extent) =>
    let g := h.alloc { name := "RectilinearGrid".toList, attributes := [("WholeExtent".toList, whole)] }
    let p := g.1.alloc { name := "Piece".toList, attributes := [("Extent".toList, extent)] }
    let cd := p.1.alloc { name := "CellData".toList, attributes := scalars w.cellData }
    let pd := cd.1.alloc { name := "PointData".toList, attributes := scalars w.pointData }
    let co := pd.1.alloc { name := "Coordinates".toList }
    let h := (co.1.addChild w.root g.2).addChild g.2 p.2
    let h := if w.cellData = [] then h else h.addChild p.2 cd.2
    let h := if w.pointData = [] then h else h.addChild p.2 pd.2
    addArrays DataArr.toVTK cd.2 w.cellData (h.addChild p.2 co.2) >>= fun h =>
    addArrays DataArr.toVTK pd.2 w.pointData h >>= fun h =>
    addArrays DataArr.toVTK co.2 w.coords h >>= fun h =>
    writeXML h stack (some w.root) >>= fun t =>
    pure (h.killAll [g.2, p.2, cd.2, pd.2, co.2], t)

/-! ## Unstructured grids -/

/-- What a writer asks of an `UnstructuredGridNodeBase`, `VTK.hpp:260-306`. -/
structure UMesh where
  npoints : Text
  ncells : Text
  points : DataArr
  connectivity : DataArr
  offsets : DataArr
  types : DataArr

/-- `UnstructuredGridVTK`, `VTK.hpp:308-412`; `mesh` is nothing while `mesh_complete_` is false. -/
structure UGrid where
  root : Nat
  mesh : Option UMesh
  pointData : List DataArr
  cellData : List DataArr

/-- `UnstructuredGridVTK::toVTK`, `VTK.cpp:160-208`: the memory afterwards and the content of the file. -/
def UGrid.toVTK (w : UGrid) (stack : Nat) (h : Heap) : Res (Heap × Text) :=
  match w.mesh with
  | none => .throw .invalidArgument
  | some m =>
    let g := h.alloc { name := "UnstructuredGrid".toList }
    let p := g.1.alloc
      { name := "Piece".toList
        attributes := [("NumberOfPoints".toList, m.npoints), ("NumberOfCells".toList, m.ncells)] }
    let pt := p.1.alloc { name := "Points".toList }
    let cl := pt.1.alloc { name := "Cells".toList }
    let cd := cl.1.alloc { name := "CellData".toList, attributes := scalars w.cellData }
    let pd := cd.1.alloc { name := "PointData".toList, attributes := scalars w.pointData }
    let h := ((pd.1.addChild w.root g.2).addChild g.2 p.2).addChild p.2 pt.2
    addArrays DataArr.toVTK pt.2 [m.points] h >>= fun h =>
    addArrays DataArr.toVTK cl.2 [m.connectivity, m.offsets, m.types] (h.addChild p.2 cl.2) >>= fun h =>
    addArrays DataArr.toVTK cd.2 w.cellData (if w.cellData = [] then h else h.addChild p.2 cd.2) >>= fun h =>
    addArrays DataArr.toVTK pd.2 w.pointData (if w.pointData = [] then h else h.addChild p.2 pd.2) >>= fun h =>
    writeXML h stack (some w.root) >>= fun t =>
    pure (h.killAll [g.2, p.2, pt.2, cl.2, cd.2, pd.2], t)

/-! ## Parallel unstructured grids -/

/-- `%04i` for a non-negative number. -/
def pad4 (n : Nat) : Text := List.replicate (4 - (natText n).length) '0' ++ natText n

/-- `snprintf(buffer, 256, (base + "_%04i.vtu").c_str(), rank)`, `VTK.cpp:241-244`: at most 255 characters. -/
def pieceName (base : Text) (rank : Nat) : Res Text :=
  if '%' ∈ base then .ub else pure ((base ++ '_' :: pad4 rank ++ ".vtu".toList).take 255)

/-- `PUnstructuredGridVTK`, `VTK.hpp:414-469`: its own root, and the writer of the piece. -/
structure PGrid where
  root : Nat
  vtu : UGrid

/-- The nodes of the pieces, `VTK.cpp:275-283`, in a vector. -/
def pieceNodes (base : Text) : List Nat → Heap → Res (Heap × List Nat)
  | [], h => pure (h, [])
  | i :: is, h =>
    pieceName base i >>= fun name =>
    let r := h.alloc { name := "Piece".toList, attributes := [("Source".toList, name)] }
    pieceNodes base is r.1 >>= fun s => pure (s.1, r.2 :: s.2)

/-- The header file of rank zero, `VTK.cpp:250-297`, for `size` ranks. -/
def PGrid.headerFile (w : PGrid) (m : UMesh) (size stack : Nat) (base : Text) (h : Heap) :
    Res (Heap × Text) :=
  let g := h.alloc { name := "PUnstructuredGrid".toList, attributes := [("GhostLevel".toList, "0".toList)] }
  let pt := g.1.alloc { name := "PPoints".toList }
  let pd := pt.1.alloc { name := "PPointData".toList, attributes := scalars w.vtu.pointData }
  let cd := pd.1.alloc { name := "PCellData".toList, attributes := scalars w.vtu.cellData }
  pieceNodes base (List.range size) cd.1 >>= fun ps =>
  addArrays DataArr.toPVTK pt.2 [m.points] ((ps.1.addChild w.root g.2).addChild g.2 pt.2) >>= fun h =>
  addArrays DataArr.toPVTK pd.2 w.vtu.pointData (h.addChild g.2 pd.2) >>= fun h =>
  addArrays DataArr.toPVTK cd.2 w.vtu.cellData (h.addChild g.2 cd.2) >>= fun h =>
  let h := ps.2.foldl (fun h q => h.addChild g.2 q) h
  writeXML h stack (some w.root) >>= fun t =>
  pure (h.killAll ([g.2, pt.2, pd.2, cd.2] ++ ps.2), t)

/-- `PUnstructuredGridVTK::toVTK`, `VTK.cpp:238-301`, on one of `size` ranks: the memory afterwards and the
files written, with their names. -/
def PGrid.toVTK (w : PGrid) (rank size stack : Nat) (base : Text) (h : Heap) :
    Res (Heap × List (Text × Text)) :=
  pieceName base rank >>= fun name =>
  w.vtu.toVTK stack h >>= fun r =>
  if rank = 0 then
    match w.vtu.mesh with
    | none => .ub
    | some m => w.headerFile m size stack base r.1 >>= fun s =>
        pure (s.1, [(name, r.2), (base ++ ".pvtu".toList, s.2)])
  else pure (r.1, [(name, r.2)])

/-- The name of the mesh file, `Mesh.hpp:400-405`; `number` is nothing for the default `-1`. -/
def meshName (base : Text) (number : Option Nat) : Text :=
  base ++ "-mesh".toList ++ (match number with | none => [] | some k => '-' :: pad4 k)

/-- `Mesh::toVTK`, `Mesh.hpp:398-424`, without the file of p4est.
A writer is made for each call and ends with it. -/
def meshToVTK (m : UMesh) (functions : List DataArr) (rank size stack : Nat) (base : Text)
    (number : Option Nat) (h : Heap) : Res (Heap × List (Text × Text)) :=
  let v := h.alloc (rootNode "UnstructuredGrid".toList)
  let r := v.1.alloc (rootNode "UnstructuredGrid".toList)
  PGrid.toVTK ⟨r.2, ⟨v.2, some m, [], functions⟩⟩ rank size stack (meshName base number) r.1 >>= fun s =>
  pure (s.1.killAll [v.2, r.2], s.2)

/-! ## Use of the writers

The writers keep pointers to the meshes and arrays they are given and look at them only in `toVTK`.  An
address stands for an object of the caller; what lives there is asked for at the time of the write. -/

/-- The objects of the caller at some time, by address. -/
structure Objects where
  arr : Nat → Option DataArr
  rmesh : Nat → Option (Text × Text)
  umesh : Nat → Option UMesh

/-- Following a pointer. -/
def follow {α : Type} (store : Nat → Option α) (a : Nat) : Res α :=
  match store a with
  | none => .ub
  | some x => pure x

def followAll {α : Type} (store : Nat → Option α) : List Nat → Res (List α)
  | [] => pure []
  | a :: as => follow store a >>= fun x => followAll store as >>= fun xs => pure (x :: xs)

/-- The members of `RectilinearGridVTK`, `VTK.hpp:235-256`: `mesh` is nothing while `mesh_complete_` is
false, a coordinate is nothing when it points to the member `empty_data_array_`. -/
structure RWriter where
  root : Nat
  mesh : Option Nat
  coords : List (Option Nat)
  pointData : List Nat
  cellData : List Nat

/-- The constructor, `VTK.cpp:36-40`. -/
def RWriter.new (h : Heap) : Heap × RWriter :=
  ((h.alloc (rootNode "RectilinearGrid".toList)).1, ⟨(h.alloc (rootNode "RectilinearGrid".toList)).2, none, [], [], []⟩)

/-- The calls before the write. -/
inductive RCall where
  | buildMesh (mesh : Nat) (x y z : Option Nat)
  | addPointData (a : Nat)
  | addCellData (a : Nat)

/-- `buildMesh`, `addPointData` and `addCellData`, `VTK.cpp:42-76`. -/
def RWriter.call (w : RWriter) : RCall → RWriter
  | .buildMesh m x y z => { w with mesh := some m, coords := ((w.coords ++ [x]) ++ [y]) ++ [z] }
  | .addPointData a => { w with pointData := w.pointData ++ [a] }
  | .addCellData a => { w with cellData := w.cellData ++ [a] }

/-- The coordinates, `VTK.cpp:45-64` and 113-115. -/
def followCoords (o : Objects) : List (Option Nat) → Res (List DataArr)
  | [] => pure []
  | none :: as => followCoords o as >>= fun xs => pure (emptyArr :: xs)
  | some a :: as => follow o.arr a >>= fun x => followCoords o as >>= fun xs => pure (x :: xs)

/-- `RectilinearGridVTK::toVTK`, `VTK.cpp:78-121`, from the pointers; all of them are followed before the file
is opened. -/
def RWriter.toVTK (w : RWriter) (o : Objects) (stack : Nat) (h : Heap) : Res (Heap × Text) :=
  match w.mesh with
  | none => RGrid.toVTK ⟨w.root, none, [], [], []⟩ stack h
  | some m =>
    follow o.rmesh m >>= fun e =>
    followAll o.arr w.cellData >>= fun cd =>
    followAll o.arr w.pointData >>= fun pd =>
    followCoords o w.coords >>= fun co =>
    RGrid.toVTK ⟨w.root, some e, co, pd, cd⟩ stack h

/-- The members of `UnstructuredGridVTK`, `VTK.hpp:374-410`. -/
structure UWriter where
  root : Nat
  mesh : Option Nat
  pointData : List Nat
  cellData : List Nat

/-- The constructor, `VTK.cpp:123-131`. -/
def UWriter.new (h : Heap) : Heap × UWriter :=
  ((h.alloc (rootNode "UnstructuredGrid".toList)).1, ⟨(h.alloc (rootNode "UnstructuredGrid".toList)).2, none, [], []⟩)

inductive UCall where
  | buildMesh (mesh : Nat)
  | addPointData (a : Nat)
  | addCellData (a : Nat)

/-- `buildMesh`, `addPointData` and `addCellData`, `VTK.cpp:145-158`. -/
def UWriter.call (w : UWriter) : UCall → UWriter
  | .buildMesh m => { w with mesh := some m }
  | .addPointData a => { w with pointData := w.pointData ++ [a] }
  | .addCellData a => { w with cellData := w.cellData ++ [a] }

/-- What an unstructured writer sees when it follows its pointers. -/
def UWriter.see (w : UWriter) (o : Objects) (m : Nat) : Res UGrid :=
  follow o.umesh m >>= fun u =>
  followAll o.arr w.cellData >>= fun cd =>
  followAll o.arr w.pointData >>= fun pd =>
  pure ⟨w.root, some u, pd, cd⟩

/-- `UnstructuredGridVTK::toVTK`, `VTK.cpp:160-208`, from the pointers. -/
def UWriter.toVTK (w : UWriter) (o : Objects) (stack : Nat) (h : Heap) : Res (Heap × Text) :=
  match w.mesh with
  | none => UGrid.toVTK ⟨w.root, none, [], []⟩ stack h
  | some m => w.see o m >>= fun g => g.toVTK stack h

/-- `PUnstructuredGridVTK`, `VTK.hpp:414-469`. -/
structure PWriter where
  root : Nat
  vtu : UWriter

/-- The constructors, `VTK.cpp:210-224`. -/
def PWriter.new (h : Heap) : Heap × PWriter :=
  (((UWriter.new h).1.alloc (rootNode "UnstructuredGrid".toList)).1,
    ⟨((UWriter.new h).1.alloc (rootNode "UnstructuredGrid".toList)).2, (UWriter.new h).2⟩)

/-- The calls are passed on, `VTK.cpp:226-236`. -/
def PWriter.call (w : PWriter) (c : UCall) : PWriter := { w with vtu := w.vtu.call c }

/-- `PUnstructuredGridVTK::toVTK`, `VTK.cpp:238-301`, from the pointers. -/
def PWriter.toVTK (w : PWriter) (o : Objects) (rank size stack : Nat) (base : Text) (h : Heap) :
    Res (Heap × List (Text × Text)) :=
  match w.vtu.mesh with
  | none => PGrid.toVTK ⟨w.root, ⟨w.vtu.root, none, [], []⟩⟩ rank size stack base h
  | some m => w.vtu.see o m >>= fun g => PGrid.toVTK ⟨w.root, g⟩ rank size stack base h

end EF
