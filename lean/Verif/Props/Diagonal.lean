import Verif.Props.Linear
import Verif.Proofs.SpecialLemmas
import Verif.Props.Options
import Verif.Props.XML
import Verif.Props.Mesh

/-!
# Identity and diagonal matrices (C72), and some objects from their beginning (C42, C45, C47)
-/

namespace EF

open Finset

variable {K : Type} [Field K]

/-! ## C72 -/

/-- C72: the identity matrix of any size has ones on the diagonal and zeros elsewhere, a diagonal matrix the given entries. -/
theorem C72_entries (n : Nat) {d : Vec K} {f : Nat → K} (hd : d.Has n f) :
    (Mat.identity n : Res (Mat K)).Returns (fun I => I.Has n n fun i j => if i = j then 1 else 0) ∧
    (Mat.diagonal d).Returns (fun D => D.Has n n fun i j => if i = j then f i else 0) := by
  rw [Vec.has_iff.mp hd]
  exact ⟨⟨_, Mat.identity_eq, Mat.has_ofFn _ _ _⟩, ⟨_, Mat.diagonal_ofFn, Mat.has_ofFn _ _ _⟩⟩

/-- C72: the identity matrix is neutral in products from both sides, for vectors and in linear solves. -/
theorem C72_neutral (lap : Lapack K) {A : Mat K} {x : Vec K} {m n : Nat} (hA : A.WF) (hm : A.nrows = m) (hn : A.ncols = n)
    (h0 : 0 < m) (h1 : 0 < n) (hx : x.WF) (hxn : x.size = n) :
    (do let I ← Mat.identity m; I.mul A) = .ok A ∧ (do let I ← Mat.identity n; A.mul I) = .ok A ∧
    (do let I ← Mat.identity n; I.mulVec x) = .ok x ∧ (do let I ← Mat.identity m; I.solveMat lap A) = .ok A ∧
    (do let I ← Mat.identity n; I.solveVec lap x) = .ok x := by
  obtain ⟨a, ha⟩ := hA.has
  obtain ⟨f, hf⟩ := hx.has
  rw [hm, hn] at ha
  rw [hxn] at hf
  have ns : ∀ k, Nonsing (K := K) k fun i j => if i = j then 1 else 0 := by
    intro k v hv j hj
    have := hv j hj
    simpa [ite_mul, hj] using this
  rw [Mat.has_iff.mp ha, Vec.has_iff.mp hf]
  refine ⟨?_, ?_, ?_, ?_, ?_⟩
  · rw [Mat.identity_eq, Res.ok_bind, Mat.mul_ofFn h0 h0 h1]
    exact congrArg _ (Mat.ofFn_congr fun i hi j _ => by simp [ite_mul, hi])
  · rw [Mat.identity_eq, Res.ok_bind, Mat.mul_ofFn h0 h1 h1]
    exact congrArg _ (Mat.ofFn_congr fun i _ j hj => by simp [mul_ite, hj])
  · rw [Mat.identity_eq, Res.ok_bind, Mat.mulVec_ofFn h1]
    exact congrArg _ (Vec.ofFn_congr fun i hi => by simp [ite_mul, hi])
  · rw [Mat.identity_eq, Res.ok_bind]
    obtain ⟨X, e1, e2⟩ := Mat.solveMat_ofFn lap h0 (ns m) (g := a) (m := n)
    rw [e1]
    exact congrArg _ (Mat.ofFn_congr fun i hi j hj => by simpa [ite_mul, hi] using e2 i hi j hj)
  · rw [Mat.identity_eq, Res.ok_bind]
    obtain ⟨X, e1, e2⟩ := Mat.solveVec_ofFn lap h1 (ns n) (b := f)
    rw [e1]
    exact congrArg _ (Vec.ofFn_congr fun i hi => by simpa [ite_mul, hi] using e2 i hi)

/-- C72: a diagonal matrix from the left multiplies rows, from the right columns, and entries of a vector; with no zero on the
diagonal, a linear solve divides. -/
theorem C72_scales (lap : Lapack K) {A : Mat K} {d e x : Vec K} {m n : Nat} {a : Nat → Nat → K} {f g s : Nat → K}
    (hA : A.Has m n a) (hd : d.Has m f) (he : e.Has n g) (hx : x.Has m s) (h0 : 0 < m) (h1 : 0 < n) :
    (do let D ← Mat.diagonal d; D.mul A).Returns (fun C => C.Has m n fun i j => f i * a i j) ∧
    (do let E ← Mat.diagonal e; A.mul E).Returns (fun C => C.Has m n fun i j => a i j * g j) ∧
    (do let D ← Mat.diagonal d; D.mulVec x).Returns (fun y => y.Has m fun i => f i * s i) ∧
    ((∀ i, i < m → f i ≠ 0) →
      (do let D ← Mat.diagonal d; D.solveVec lap x).Returns (fun y => y.Has m fun i => s i / f i)) := by
  rw [Mat.has_iff.mp hA, Vec.has_iff.mp hd, Vec.has_iff.mp he, Vec.has_iff.mp hx]
  refine ⟨⟨_, by rw [Mat.diagonal_ofFn, Res.ok_bind, Mat.mul_ofFn h0 h0 h1], ?_⟩,
    ⟨_, by rw [Mat.diagonal_ofFn, Res.ok_bind, Mat.mul_ofFn h0 h1 h1], ?_⟩,
    ⟨_, by rw [Mat.diagonal_ofFn, Res.ok_bind, Mat.mulVec_ofFn h0], ?_⟩, fun hf => ?_⟩
  · refine Mat.has_iff.mpr (Mat.ofFn_congr fun i hi j _ => ?_)
    simp [ite_mul, hi]
  · refine Mat.has_iff.mpr (Mat.ofFn_congr fun i _ j hj => ?_)
    simp [mul_ite, hj]
  · refine Vec.has_iff.mpr (Vec.ofFn_congr fun i hi => ?_)
    simp [ite_mul, hi]
  · have ns : Nonsing (K := K) m fun i j => if i = j then f i else 0 := by
      intro v hv j hj
      have := hv j hj
      simp [ite_mul, hj] at this
      exact this.resolve_left (hf j hj)
    rw [Mat.diagonal_ofFn, Res.ok_bind]
    obtain ⟨X, e1, e2⟩ := Mat.solveVec_ofFn lap h0 ns (b := s)
    refine ⟨_, e1, Vec.has_iff.mpr (Vec.ofFn_congr fun i hi => ?_)⟩
    have := e2 i hi
    simp [ite_mul, hi] at this
    rw [eq_div_iff (hf i hi), mul_comm]
    exact this

/-- C72, limit of the claim: one zero on the diagonal and the solve hands back the right-hand side without an error. -/
theorem C72_zero_on_diagonal_actual (lap : Lapack K) {d x : Vec K} {n k : Nat} {f s : Nat → K} (hd : d.Has n f) (hx : x.Has n s)
    (hk : k < n) (h : f k = 0) : (do let D ← Mat.diagonal d; D.solveVec lap x) = .ok x := by
  obtain ⟨-, D, e, hD⟩ := C72_entries n hd
  rw [e, Res.ok_bind]
  refine C02_singular_returns_rhs lap (by omega) hD hx fun hn => ?_
  have := hn (fun j => if j = k then 1 else 0) (fun i hi => by
    by_cases hik : i = k
    · subst hik; simp [hi, h]
    · simp [hi, hik]) k hk
  simp at this

example (lap : Lapack ℚ) := C72_neutral lap (A := exA) (x := exx) (by unfold Mat.WF; decide +kernel) rfl rfl (by decide) (by decide)
  (by unfold Vec.WF; decide +kernel) rfl
example (lap : Lapack ℚ) := C72_scales lap exB_has exx_has (e := Vec.ofList [3, 4]) (g := fun i => i + 3)
  ⟨rfl, rfl, by decide +kernel⟩ exx_has (by decide) (by decide)
example : ∀ i, i < 3 → (fun i => if i = 0 then 1 else if i = 1 then -1 else 2 : Nat → ℚ) i ≠ 0 := by decide +kernel
example (lap : Lapack ℚ) : (do let D ← Mat.diagonal (Vec.ofList [1, 0, 2]); D.solveVec lap exx) = .ok exx :=
  C72_zero_on_diagonal_actual lap (n := 3) (k := 1) (f := fun i => if i = 0 then 1 else if i = 1 then 0 else 2)
    ⟨rfl, rfl, by decide +kernel⟩ exx_has (by decide) rfl

/-! ## C45: a new options object -/

/-- C45: what a new options object answers after any calls: the value set last, or the empty string if none was set. -/
theorem C45_new {K : Type} (calls : List (OptionCall K)) (key : Text) :
    (((calls.foldl OptionCall.run Options.empty).read key).2 = match lastSet key calls with
      | some v => v
      | none => .str []) ∧
    ((calls.foldl OptionCall.run Options.empty).exists? key = true ↔
      (∃ v, OptionCall.set key v ∈ calls) ∨ OptionCall.read key ∈ calls) := by
  refine ⟨(C45_api Options.empty calls key).trans ?_, ?_⟩
  · cases lastSet key calls <;> rfl
  · rw [C45_exists_actual]
    simp [Options.empty]

/-! ## C42: functions of a mesh -/

/-- C42: after `clearMeshFunctions` the mesh has the functions added since, and its cells are as before. -/
theorem C42_cleared (m : Mesh K) (vs : List (Vec K)) :
    (vs.foldl (fun m v => m.addMeshVector v) m.clearMeshFunctions).functions = vs ∧
    (vs.foldl (fun m v => m.addMeshVector v) m.clearMeshFunctions).arrays = m.arrays ∧
    (vs.foldl (fun m v => m.addMeshVector v) m.clearMeshFunctions).quadtree = m.quadtree := by
  have h : ∀ (vs : List (Vec K)) (m : Mesh K), (vs.foldl (fun m v => m.addMeshVector v) m).functions = m.functions ++ vs ∧
      (vs.foldl (fun m v => m.addMeshVector v) m).arrays = m.arrays ∧
      (vs.foldl (fun m v => m.addMeshVector v) m).quadtree = m.quadtree := by
    intro vs
    induction vs with
    | nil => intro m; simp
    | cons v vs ih =>
      intro m
      obtain ⟨h1, h2, h3⟩ := ih (m.addMeshVector v)
      refine ⟨h1.trans ?_, h2, h3⟩
      simp [Mesh.addMeshVector]
  exact h vs _

/-! ## C47: attributes -/

/-- C47: a document of one element, declared with a name and then given attributes, reads back as the name with the attributes in
the order of the calls. -/
theorem C47_attributes (name data : Text) (calls : List (Text × Text)) (h : Heap)
    (hl : (XTree.node name calls data []).Legal) (stack : Nat) (hs : 0 < stack) :
    ∃ text, writeXML (h.alloc (calls.foldl (fun n p => n.addAttribute p.1 p.2) { name := name, data := data })).1 stack
        (some (h.alloc (calls.foldl (fun n p => n.addAttribute p.1 p.2) { name := name, data := data })).2) = .ok text ∧
      readXML text = some (XTree.node name calls data []).trimmed := by
  have e : ∀ (calls : List (Text × Text)) (n : XNode), calls.foldl (fun n p => n.addAttribute p.1 p.2) n =
      { n with attributes := n.attributes ++ calls } := by
    intro calls
    induction calls with
    | nil => intro n; simp
    | cons p ps ih => intro n; rw [List.foldl_cons, ih]; simp [XNode.addAttribute]
  rw [e]
  refine C47_roundtrip _ _ _ ?_ hl stack ?_
  · refine Unfolds.node (n := { name := name, attributes := [] ++ calls, data := data }) ?_ .nil
    simp [Heap.alloc]
  · simp only [XTree.depth]; simpa using Nat.succ_le_of_lt hs

example : (XTree.node "DataArray".toList [("Name".toList, "u".toList), ("format".toList, "ascii".toList)] "1 2".toList []).Legal := by
  have n1 : XName "DataArray".toList := exName (by decide) (by decide) (by decide) (by decide) (by decide)
  have n2 : XName "Name".toList := exName (by decide) (by decide) (by decide) (by decide) (by decide)
  have n3 : XName "format".toList := exName (by decide) (by decide) (by decide) (by decide) (by decide)
  refine .node n1 ?_ (by decide) (by unfold Plain; decide) (fun c hc => by simp at hc)
  intro p hp
  rcases List.mem_cons.mp hp with rfl | hp
  · exact ⟨n2, by unfold Plain; decide⟩
  · have : p = ("format".toList, "ascii".toList) := by simpa using hp
    subst this
    exact ⟨n3, by unfold Plain; decide⟩

end EF
