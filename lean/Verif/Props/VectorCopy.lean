import Verif.Model.VectorCopy
import Mathlib.Algebra.Order.Ring.Rat

/-!
# Property C64: a copied vector is written like the original
-/

namespace EF

variable {K : Type} [LinearOrder K]

/-- A copy has the entries of the original, and so the same data, range and format in a file. -/
theorem C64_entries_partial (toText : K → Text) (v w : TVec K) :
    v.copy.vec = v.vec ∧ (w.assign v).vec = v.vec ∧
    (v.copy.dataArr toText).data = (v.dataArr toText).data ∧ (v.copy.dataArr toText).range = (v.dataArr toText).range ∧
    ((w.assign v).dataArr toText).data = (v.dataArr toText).data ∧ ((w.assign v).dataArr toText).range = (v.dataArr toText).range :=
  ⟨rfl, rfl, rfl, rfl, rfl, rfl⟩

/-- A copy is written like the original exactly if the original was never given a name, a type or a number of components other
than the default ones. -/
theorem C64_copy_actual (toText : K → Text) (v : TVec K) :
    v.copy.dataArr toText = v.dataArr toText ↔
      v.name = "Vector".toList ∧ v.components = "1".toList ∧ v.type = "Float32".toList := by
  constructor
  · intro h
    exact ⟨(congrArg DataArr.name h).symm, (congrArg DataArr.components h).symm, (congrArg DataArr.type h).symm⟩
  · rintro ⟨h1, h2, h3⟩
    unfold TVec.dataArr TVec.copy TVec.new
    rw [h1, h2, h3]

/-- After an assignment the target is written like the source exactly if it already had its name, type and number of
components. -/
theorem C64_assign_actual (toText : K → Text) (v w : TVec K) :
    (w.assign v).dataArr toText = v.dataArr toText ↔ w.name = v.name ∧ w.components = v.components ∧ w.type = v.type := by
  constructor
  · intro h
    exact ⟨congrArg DataArr.name h, congrArg DataArr.components h, congrArg DataArr.type h⟩
  · rintro ⟨h1, h2, h3⟩
    unfold TVec.dataArr TVec.assign
    rw [h1, h2, h3]

/-- Any vector, given a name of its own and copied: the copy appears in the file under another name. -/
theorem C64_name_wrong (toText : K → Text) (v : TVec K) (n : Text) (hn : n ≠ "Vector".toList) :
    ((v.setName n).copy.dataArr toText).name ≠ ((v.setName n).dataArr toText).name ∧
      ((v.setName n).dataArr toText).name = n ∧ ((v.setName n).copy.dataArr toText).name = "Vector".toList :=
  ⟨fun h => hn h.symm, rfl, rfl⟩

/-- The same for the type and the number of components, for instance of the points of a mesh, which have three. -/
theorem C64_attributes_wrong (toText : K → Text) (v : TVec K) (t c : Text) (ht : t ≠ "Float32".toList) (hc : c ≠ "1".toList) :
    (((v.setType t).setNumberOfComponents c).dataArr toText).type = t ∧
    (((v.setType t).setNumberOfComponents c).dataArr toText).components = c ∧
    (((v.setType t).setNumberOfComponents c).copy.dataArr toText).type ≠ t ∧
    (((v.setType t).setNumberOfComponents c).copy.dataArr toText).components ≠ c :=
  ⟨rfl, rfl, fun h => ht h.symm, fun h => hc h.symm⟩

/-- A solution called `u` that is copied before it is added to a mesh. -/
example : (((TVec.new (Vec.ofList [(1 : ℚ), 2])).setName "u".toList).copy.dataArr (fun _ => [])).name ≠ "u".toList := by
  intro h
  exact (C64_name_wrong (fun _ => []) (TVec.new (Vec.ofList [(1 : ℚ), 2])) "u".toList (by decide)).1 (h.trans rfl)

end EF
