import Verif.Model.VTK
import Verif.Spec.XML

/-!
# The documents the VTK writers should produce

The model is imported for the descriptions of meshes and arrays, and for the memory.
-/

namespace EF

/-- The element of a data array. -/
def arrayElement (a : DataArr) : XTree :=
  .node "DataArray".toList
    [("type".toList, a.type), ("Name".toList, a.name), ("NumberOfComponents".toList, a.components),
      ("format".toList, a.format), ("RangeMin".toList, (a.range.getD ([], [])).1),
      ("RangeMax".toList, (a.range.getD ([], [])).2)] a.data []

/-- The element that announces a data array in a header file. -/
def announceElement (a : DataArr) : XTree :=
  .node "PDataArray".toList
    [("type".toList, a.type), ("Name".toList, a.name), ("NumberOfComponents".toList, a.components),
      ("format".toList, a.format)] [] []

/-- The names of arrays, each followed by a space. -/
def namesText (as : List DataArr) : Text := (as.map (fun a => a.name ++ [' '])).flatten

/-- The attributes that name the arrays, if there are any. -/
def namesAttr (as : List DataArr) : List (Text × Text) :=
  match as with
  | [] => []
  | _ => [("Scalars".toList, namesText as)]

/-- An element with arrays, present only if there are any. -/
def dataElement (name : Text) (as : List DataArr) : List XTree :=
  match as with
  | [] => []
  | _ => [.node name (namesAttr as) [] (as.map arrayElement)]

def fileElement (type : Text) (grid : XTree) : XTree :=
  .node "VTKFile".toList
    [("type".toList, type), ("version".toList, "0.1".toList), ("byte_order".toList, "LittleEndian".toList)]
    [] [grid]

/-- The document of an unstructured grid. -/
def unstructuredDoc (m : UMesh) (pointData cellData : List DataArr) : XTree :=
  fileElement "UnstructuredGrid".toList (.node "UnstructuredGrid".toList [] []
    [.node "Piece".toList [("NumberOfPoints".toList, m.npoints), ("NumberOfCells".toList, m.ncells)] []
      ([.node "Points".toList [] [] [arrayElement m.points],
        .node "Cells".toList [] [] [arrayElement m.connectivity, arrayElement m.offsets, arrayElement m.types]]
        ++ dataElement "CellData".toList cellData ++ dataElement "PointData".toList pointData)])

/-- The document of a rectilinear grid. -/
def rectilinearDoc (whole extent : Text) (coords pointData cellData : List DataArr) : XTree :=
  fileElement "RectilinearGrid".toList (.node "RectilinearGrid".toList [("WholeExtent".toList, whole)] []
    [.node "Piece".toList [("Extent".toList, extent)] []
      (dataElement "CellData".toList cellData ++ dataElement "PointData".toList pointData ++
        [.node "Coordinates".toList [] [] (coords.map arrayElement)])])

/-- The document of a parallel header whose pieces are the given files; `type` is the type the root
declares. -/
def headerDoc (type : Text) (m : UMesh) (pointData cellData : List DataArr) (pieces : List Text) : XTree :=
  fileElement type (.node "PUnstructuredGrid".toList [("GhostLevel".toList, "0".toList)] []
    ([.node "PPoints".toList [] [] [announceElement m.points],
      .node "PPointData".toList (namesAttr pointData) [] (pointData.map announceElement),
      .node "PCellData".toList (namesAttr cellData) [] (cellData.map announceElement)] ++
      pieces.map (fun f => .node "Piece".toList [("Source".toList, f)] [] [])))

/-- The texts of an array contain no markup. -/
def DataArr.Clean (a : DataArr) : Prop :=
  Plain a.type ∧ Plain a.name ∧ Plain a.components ∧ Plain a.format ∧ Plain a.data ∧
    ∀ r, a.range = some r → Plain r.1 ∧ Plain r.2

def UMesh.arrays (m : UMesh) : List DataArr := [m.points, m.connectivity, m.offsets, m.types]

/-- Anything a program does with the memory besides ending the lifetime of `root`: new nodes, ends of
lifetimes, children added anywhere. -/
inductive Later (root : Nat) : Heap → Heap → Prop
  | refl (h) : Later root h h
  | alloc {h h'} (n) : Later root h h' → Later root h (h'.alloc n).1
  | kill {h h'} (a) : a ≠ root → Later root h h' → Later root h (h'.kill a)
  | addChild {h h'} (a c) : Later root h h' → Later root h (h'.addChild a c)

/-! ## Fresh writers -/

/-- An unstructured writer that has a mesh and has not written yet; the arrays are not empty. -/
structure UGrid.Fresh (w : UGrid) (m : UMesh) (h : Heap) : Prop where
  mesh : w.mesh = some m
  root : h.cells w.root = some (rootNode "UnstructuredGrid".toList)
  lt : w.root < h.next
  arrays : ∀ a ∈ m.arrays ++ w.pointData ++ w.cellData, a.range.isSome

/-- A rectilinear writer that has a mesh and has not written yet; the arrays are not empty. -/
structure RGrid.Fresh (w : RGrid) (whole extent : Text) (h : Heap) : Prop where
  mesh : w.extents = some (whole, extent)
  root : h.cells w.root = some (rootNode "RectilinearGrid".toList)
  lt : w.root < h.next
  arrays : ∀ a ∈ w.coords ++ w.pointData ++ w.cellData, a.range.isSome

/-- A parallel writer that has a mesh and has not written yet. -/
structure PGrid.Fresh (w : PGrid) (m : UMesh) (h : Heap) : Prop where
  vtu : w.vtu.Fresh m h
  root : h.cells w.root = some (rootNode "UnstructuredGrid".toList)
  lt : w.root < h.next
  ne : w.root ≠ w.vtu.root

/-- The texts of a mesh contain no markup. -/
structure UMesh.Clean (m : UMesh) : Prop where
  npoints : Plain m.npoints
  ncells : Plain m.ncells
  arrays : ∀ a ∈ m.arrays, a.Clean

/-- The same action several times, with what it yields each time. -/
def times {α : Type} (f : Heap → Res (Heap × α)) : Nat → Heap → Res (Heap × List α)
  | 0, h => .ok (h, [])
  | k + 1, h =>
    match f h with
    | .ok (h1, a) =>
      match times f k h1 with
      | .ok (h2, as) => .ok (h2, a :: as)
      | .throw e => .throw e
      | .ub => .ub
    | .throw e => .throw e
    | .ub => .ub

/-! ## Files a header refers to -/

/-- The files a parallel header names, in order. -/
def headerSources (t : XTree) : List Text :=
  match t.children with
  | [g] => (g.children.filter (fun c => c.name = "Piece".toList)).flatMap
      (fun c => (c.attributes.filter (fun p => p.1 = "Source".toList)).map Prod.snd)
  | _ => []

/-- The directory of a file name, with the final slash; nothing for a bare name. -/
def directory (file : Text) : Text := (file.reverse.dropWhile (· ≠ '/')).reverse

/-- The file a name in another file stands for: an absolute name stands for itself, any other begins at the
directory of the file it is in. -/
def resolve (file name : Text) : Text := if name.head? = some '/' then name else directory file ++ name

/-! ## What a writer was given -/

/-- The meshes given to a rectilinear writer, with their coordinates. -/
def RCall.meshes : List RCall → List (Nat × List (Option Nat))
  | [] => []
  | .buildMesh m x y z :: cs => (m, [x, y, z]) :: meshes cs
  | _ :: cs => meshes cs

def RCall.points : List RCall → List Nat
  | [] => []
  | .addPointData a :: cs => a :: points cs
  | _ :: cs => points cs

def RCall.cells : List RCall → List Nat
  | [] => []
  | .addCellData a :: cs => a :: cells cs
  | _ :: cs => cells cs

/-- The meshes given to an unstructured writer. -/
def UCall.meshes : List UCall → List Nat
  | [] => []
  | .buildMesh m :: cs => m :: meshes cs
  | _ :: cs => meshes cs

def UCall.points : List UCall → List Nat
  | [] => []
  | .addPointData a :: cs => a :: points cs
  | _ :: cs => points cs

def UCall.cells : List UCall → List Nat
  | [] => []
  | .addCellData a :: cs => a :: cells cs
  | _ :: cs => cells cs

/-- The objects at the addresses. -/
def Live {α : Type} (store : Nat → Option α) (as : List Nat) (xs : List α) : Prop :=
  as.map store = xs.map some

/-- The coordinates at the addresses; a coordinate that was not given counts as the array with one zero. -/
def LiveCoords (o : Objects) (as : List (Option Nat)) (xs : List DataArr) : Prop :=
  as.map (fun a => match a with
    | none => some emptyArr
    | some a => o.arr a) = xs.map some

/-- The arrays can be written: not empty and without markup. -/
def Writable (as : List DataArr) : Prop := ∀ a ∈ as, a.range.isSome ∧ a.Clean

end EF
