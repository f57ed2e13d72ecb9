import Verif.Spec.Number
import Verif.Spec.VTK
import Verif.Spec.ParallelHPS
import Mathlib.Algebra.Field.Rat

/-!
# What the files of a mesh show

Read off the documents in the files; the writers are not looked at.
-/

namespace EF

/-- The pieces of an unstructured grid. -/
def piecesOf (doc : XTree) : List XTree := doc.children.flatMap XTree.children

/-- The arrays in the sections of the given name. -/
def arraysIn (doc : XTree) (sec : Text) : List XTree :=
  (piecesOf doc).flatMap fun p => (p.children.filter fun e => e.name = sec).flatMap XTree.children

/-- The value of an attribute that occurs exactly once. -/
def attributeOf (e : XTree) (key : Text) : Option Text :=
  match e.attributes.filter fun p => p.1 = key with
  | [p] => some p.2
  | _ => none

/-- The numbers in the array of the given name, if there is exactly one such array in the section. -/
def numbersOf (doc : XTree) (sec name : Text) : Option (List (Option ℚ)) :=
  match (arraysIn doc sec).filter fun a => attributeOf a "Name".toList = some name with
  | [a] => some (readNumbers a.data)
  | _ => none

/-- The file shows the cells: one piece with the numbers of points and cells; four points per cell, counterclockwise from the
lower left, three coordinates each; every cell has its own points; offset and type of the first cells of the arrays (there is
one of each per cell, and then some the format does not ask for, see C42). -/
structure ShowsCells (doc : XTree) (C : List (Rect ℚ)) : Prop where
  piece : ∃ p np nc, piecesOf doc = [p] ∧ attributeOf p "NumberOfPoints".toList = some np ∧
    attributeOf p "NumberOfCells".toList = some nc ∧ readNumber np = some (4 * C.length : ℚ) ∧
    readNumber nc = some (C.length : ℚ)
  points : ∃ Y, numbersOf doc "Points".toList "points".toList = some Y ∧ Y.length = 12 * C.length ∧
    ∀ (k : Nat) (hk : k < C.length) q, q < 4 → ∃ x y z, Y[12 * k + 3 * q]? = some x ∧ Y[12 * k + 3 * q + 1]? = some y ∧
      Y[12 * k + 3 * q + 2]? = some z ∧ Near x (C[k].corner q).1 ∧ Near y (C[k].corner q).2 ∧ z = some 0
  connectivity : numbersOf doc "Cells".toList "connectivity".toList =
    some ((List.range (4 * C.length)).map fun k : Nat => some (k : ℚ))
  offsets : ∃ Y, numbersOf doc "Cells".toList "offsets".toList = some Y ∧
    ∀ k, k < C.length → Y[k]? = some (some (4 * (k + 1) : ℚ))
  types : ∃ Y, numbersOf doc "Cells".toList "types".toList = some Y ∧ ∀ k, k < C.length → Y[k]? = some (some 9)

/-- The file shows, under the given name and cell by cell, numbers within half a millionth of values that `v` allows in the
cell. -/
def ShowsField (doc : XTree) (name : Text) (C : List (Rect ℚ)) (v : Rect ℚ → ℚ → Prop) : Prop :=
  ∃ Y, numbersOf doc "CellData".toList name = some Y ∧ List.Forall₂ (fun c y => ∃ x, v c x ∧ Near y x) C Y

/-- The names of the arrays in the file. -/
def fieldNames (doc : XTree) : List (Option Text) := (arraysIn doc "CellData".toList).map fun a => attributeOf a "Name".toList

/-- The value of a function in the centre of the cell. -/
def atCentre (fn : ℚ → ℚ → ℚ) (c : Rect ℚ) (x : ℚ) : Prop := x = fn c.centre.1 c.centre.2

/-- The value of an array with `m × m` entries in a cell of the grid of `m × m` cells on `R`. -/
def atCell (R : Rect ℚ) (m : Nat) (W : Nat → Nat → ℚ) (c : Rect ℚ) (x : ℚ) : Prop :=
  ∃ I J, I < m ∧ J < m ∧ c = cellRect R m m I J ∧ x = W I J

/-- The entry of the cell in a vector of the leaf it belongs to: cell `(i, j)` has index `j + i ny`. -/
def inLeaf (L : List (Patch ℚ)) (field : Patch ℚ → Vec ℚ) (c : Rect ℚ) (x : ℚ) : Prop :=
  ∃ p ∈ L, ∃ i j, i < p.grid.nx ∧ j < p.grid.ny ∧ c = cellRect p.grid.rect p.grid.nx p.grid.ny i j ∧
    (field p).get (j + i * p.grid.ny) = .ok x

/-- A number with at least four digits. -/
def fourDigits (n : Nat) : Text := (Nat.toDigits 10 n).leftpad 4 '0'

/-- The file of a rank. -/
def pieceFile (base : Text) (r : Nat) : Text := base ++ "_".toList ++ fourDigits r ++ ".vtu".toList

/-- The files of rank `r` of `size` for one output: its piece, which is the document `doc`, and on rank 0 the header that names
the pieces of all ranks. -/
def FilesOf (base : Text) (r size : Nat) (files : List (Text × Text)) (doc : XTree) : Prop :=
  ∃ text more, files = (pieceFile base r, text) :: more ∧ readXML text = some doc ∧ (r ≠ 0 → more = []) ∧
    (r = 0 → ∃ header hdoc, more = [(base ++ ".pvtu".toList, header)] ∧ readXML header = some hdoc ∧
      headerSources hdoc = (List.range size).map (pieceFile base))

/-- The passes below `k` whose number is a multiple of `n`. -/
def everyNth (n : Int) (k : Nat) : List Nat := (List.range k).filter fun i => n ∣ i

end EF
