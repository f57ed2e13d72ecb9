import Verif.Model.VTK

/-!
# Vectors with the attributes they are written with

`Vec` has only the size and the entries.  A `Vector` also has a name, a type and a number of components, which are used when it
is written to a VTK file.
-/

namespace EF

variable {K : Type}

/-- All members of a `Vector`.  Vector.hpp:37-61. -/
structure TVec (K : Type) where
  vec : Vec K
  name : Text
  components : Text
  type : Text

namespace TVec

/-- A newly made vector, with the default member initialisers.  Vector.hpp:49-61, 69-98. -/
def new (v : Vec K) : TVec K := ⟨v, "Vector".toList, "1".toList, "Float32".toList⟩

/-- `name() = n`.  Vector.hpp:222. -/
def setName (v : TVec K) (n : Text) : TVec K := { v with name := n }

/-- `setType`.  Vector.hpp:675-677. -/
def setType (v : TVec K) (t : Text) : TVec K := { v with type := t }

/-- `setNumberOfComponents`.  Vector.hpp:702-704. -/
def setNumberOfComponents (v : TVec K) (n : Text) : TVec K := { v with components := n }

/-- Both copy constructors; the other members get their default initialisers.  Vector.hpp:105-121. -/
def copy (v : TVec K) : TVec K := new ⟨v.vec.size, v.vec.data⟩

/-- Copy assignment; the other members stay.  Vector.hpp:129-136. -/
def assign (lhs rhs : TVec K) : TVec K := { lhs with vec := ⟨rhs.vec.size, rhs.vec.data⟩ }

/-- What a writer asks of the vector.  Vector.hpp:684-753. -/
def dataArr [LinearOrder K] (toText : K → Text) (v : TVec K) : DataArr := v.vec.dataArr toText v.type v.name v.components

end TVec

end EF
