import Verif.Model.Print
import Verif.Model.Quadtree
import Verif.Model.FiniteVolume

/-!
# Patches and nodes as text

Model of `FiniteVolumePatch::str` (FiniteVolumePatch.cpp:89-116), of `Node::str` and of `<<` for nodes (QuadNode.hpp:146-162), and of
`PatchGrid::str` (PatchGrid.hpp:103-108).  Coordinates
are rational as in `Model/Number.lean`; counts and sizes are natural numbers, without overflow.
-/

namespace EF

/-- `"<name> = " + std::to_string(n) + "\n"`.  FiniteVolumePatch.cpp:92, 95-96. -/
def countLine (name : Text) (n : Nat) : Text := name ++ " = ".toList ++ natText n ++ ['\n']

/-- `"<name> = " + std::to_string(x) + "\n"` for a double.  FiniteVolumePatch.cpp:97-100. -/
def realLine (name : Text) (x : ℚ) : Text := name ++ " = ".toList ++ decimalText x ++ ['\n']

/-- A line for a matrix.  FiniteVolumePatch.cpp:103-105. -/
def matrixLine (name : Text) (A : Mat ℚ) : Text :=
  name ++ " = [".toList ++ natText A.nrows ++ ", ".toList ++ natText A.ncols ++ "]\n".toList

/-- A line for a vector.  FiniteVolumePatch.cpp:106-111. -/
def vectorLine (name : Text) (v : Vec ℚ) : Text := name ++ " = [".toList ++ natText v.size ++ "]\n".toList

/-- `FiniteVolumePatch::str`.  FiniteVolumePatch.cpp:89-116. -/
def Patch.str (p : Patch ℚ) : Text :=
  countLine "n_coarsens".toList p.nCoarsens ++
  ("grid:\n".toList ++
  (countLine "  nx".toList p.grid.nx ++
  (countLine "  ny".toList p.grid.ny ++
  (realLine "  x_lower".toList p.grid.xl ++
  (realLine "  x_upper".toList p.grid.xu ++
  (realLine "  y_lower".toList p.grid.yl ++
  (realLine "  y_upper".toList p.grid.yu ++
  ("data:\n".toList ++
  (matrixLine "  X".toList p.X ++
  (matrixLine "  S".toList p.S ++
  (matrixLine "  T".toList p.T ++
  (vectorLine "  u".toList p.u ++
  (vectorLine "  g".toList p.g ++
  (vectorLine "  v".toList p.v ++
  (vectorLine "  f".toList p.f ++
  (vectorLine "  h".toList p.h ++
  vectorLine "  w".toList p.w))))))))))))))))

/-- `Node::str`.  QuadNode.hpp:146-150. -/
def Node.str {T : Type} (n : Node T) : Text :=
  "node: path = ".toList ++ n.path ++ ", level = ".toList ++ intText n.level ++ ", ranks = [".toList ++ natText n.pfirst ++ "-".toList ++
    natText n.plast ++ "]".toList

/-- `os << node`.  QuadNode.hpp:159-162.  Whole numbers do not depend on the precision of the stream. -/
def Node.print {T : Type} (n : Node T) (os : OStream) : OStream :=
  ((((((((((os.put "node: path = ".toList).put n.path).put ", level = ".toList).put (intText n.level)).put ", ranks = [".toList).put
    (natText n.pfirst)).put "-".toList).put (natText n.plast)).put "]".toList).put ['\n'])

/-- One direction of a grid: `"X: [" + lower + ":" + upper + "], nx = " + n + ", dx = " + d`.  PatchGrid.hpp:105, 106 up to the ends. -/
def axisText (axis count step : Text) (lower upper : ℚ) (n : Nat) (d : ℚ) : Text :=
  axis ++ (": [".toList ++ (decimalText lower ++ (":".toList ++ (decimalText upper ++ ("], ".toList ++ (count ++ (" = ".toList ++ (natText n ++
    (", ".toList ++ (step ++ (" = ".toList ++ decimalText d)))))))))))

/-- `PatchGrid::str`.  PatchGrid.hpp:103-108, with the spacings of FiniteVolumeGrid.cpp:14, 18.  Only for grids with cells: otherwise the
spacings are no numbers, and what is shown here is not what the code shows. -/
def Grid.str (g : Grid ℚ) : Text :=
  axisText "X".toList "nx".toList "dx".toList g.xl g.xu g.nx g.dx ++ "  ".toList ++
  axisText "Y".toList "ny".toList "dy".toList g.yl g.yu g.ny g.dy ++ "\n".toList

end EF
