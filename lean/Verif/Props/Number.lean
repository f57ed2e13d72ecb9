import Verif.Proofs.Number
import Verif.Proofs.VTK

/-!
# C56: The numbers in a VTK file are the numbers of the program

As stated this is false: `std::to_string` writes six decimals whatever the size of the number, see
`C56_small_wrong` and `C56_same_wrong`.  What is read back is within half a millionth, and exact for
integers.
-/

namespace EF

/-- What is read back from a written number is within half a millionth of it. -/
theorem C56_value_partial (x : ℚ) : Near (readNumber (decimalText x)) x := by
  refine ⟨_, readNumber_decimal x, ?_⟩
  have h := abs_le.1 (microInt_near x)
  rw [abs_le]
  constructor
  · have := h.1
    linarith
  · have := h.2
    linarith

/-- It is the number exactly if that is a whole number of millionths. -/
theorem C56_exact_iff (x : ℚ) : readNumber (decimalText x) = some x ↔ ∃ k : Int, x * 10 ^ 6 = k := by
  rw [readNumber_decimal]
  constructor
  · intro h
    refine ⟨microInt x, ?_⟩
    have := Option.some.inj h
    rw [div_eq_iff (by norm_num)] at this
    exact this.symm
  · rintro ⟨k, hk⟩
    rw [microInt_int hk, ← hk, mul_div_assoc, div_self (by norm_num), mul_one]

/-- Integers are read back exactly. -/
theorem C56_int (i : Int) : readNumber (intText i) = some (i : ℚ) := readNumber_int i

theorem forall₂_map_near (xs : List ℚ) : List.Forall₂ Near ((xs.map decimalText).map readNumber) xs := by
  induction xs with
  | nil => exact List.Forall₂.nil
  | cons x xs ih => exact List.Forall₂.cons (C56_value_partial x) ih

/-- The text of a vector of numbers has exactly its entries, in order, each within half a millionth; white
space at the ends of the text does not matter. -/
theorem C56_vector_partial (type name components : Text) (v : Vec ℚ) :
    List.Forall₂ Near (readNumbers (v.dataArr decimalText type name components).data) v.data ∧
      List.Forall₂ Near (readNumbers (trimWs (v.dataArr decimalText type name components).data)) v.data := by
  have h : words (v.dataArr decimalText type name components).data = v.data.map decimalText :=
    words_entries (fun x c hc => (decimalText_chars x c hc).plain.2) decimalText_ne v.data
  unfold readNumbers
  rw [words_trim, h]
  exact ⟨forall₂_map_near _, forall₂_map_near _⟩

/-- The text of a vector of integers has exactly its entries, in order. -/
theorem C56_vector_int (type name components : Text) (v : Vec Int) :
    readNumbers (v.dataArr intText type name components).data = v.data.map (fun (i : Int) => some (i : ℚ)) ∧
      readNumbers (trimWs (v.dataArr intText type name components).data) =
        v.data.map (fun (i : Int) => some (i : ℚ)) := by
  have h : words (v.dataArr intText type name components).data = v.data.map intText :=
    words_entries (fun x c hc => (intText_chars x c hc).plain.2) intText_ne v.data
  have h2 : (v.data.map intText).map readNumber = v.data.map (fun (i : Int) => some (i : ℚ)) := by
    rw [List.map_map]
    exact List.map_congr_left (fun i _ => readNumber_int i)
  unfold readNumbers
  rw [words_trim, h, h2]
  exact ⟨rfl, rfl⟩

/-- The range in the file is the range of the numbers in the file: no entry is outside, and both ends are
entries. -/
theorem C56_range (type name components : Text) (v : Vec ℚ) (hv : v.data ≠ []) :
    ∃ lo hi a b, (v.dataArr decimalText type name components).range = some (lo, hi) ∧
      readNumber lo = some a ∧ readNumber hi = some b ∧
      some a ∈ readNumbers (v.dataArr decimalText type name components).data ∧
      some b ∈ readNumbers (v.dataArr decimalText type name components).data ∧
      ∀ y, some y ∈ readNumbers (v.dataArr decimalText type name components).data → a ≤ y ∧ y ≤ b := by
  have h : readNumbers (v.dataArr decimalText type name components).data =
      v.data.map (fun x => some ((microInt x : ℚ) / 10 ^ 6)) := by
    unfold readNumbers
    rw [show words (v.dataArr decimalText type name components).data = v.data.map decimalText from
      words_entries (fun x c hc => (decimalText_chars x c hc).plain.2) decimalText_ne v.data, List.map_map]
    exact List.map_congr_left (fun x _ => readNumber_decimal x)
  rw [h]
  have mono : ∀ {x y : ℚ}, x ≤ y → (microInt x : ℚ) / 10 ^ 6 ≤ (microInt y : ℚ) / 10 ^ 6 := by
    intro x y hxy
    exact div_le_div_of_nonneg_right (by exact_mod_cast microInt_mono hxy) (by norm_num)
  cases hd : v.data with
  | nil => exact absurd hd hv
  | cons x xs =>
    refine ⟨decimalText (xs.foldl min x), decimalText (xs.foldl max x), _, _, ?_, readNumber_decimal _,
      readNumber_decimal _, ?_, ?_, ?_⟩
    · unfold Vec.dataArr
      simp only [hd]
    · exact List.mem_map.2 ⟨_, foldl_min_mem xs x, rfl⟩
    · exact List.mem_map.2 ⟨_, foldl_max_mem xs x, rfl⟩
    · intro y hy
      obtain ⟨z, hz, he⟩ := List.mem_map.1 hy
      rw [← Option.some.inj he]
      exact ⟨mono (foldl_min_le xs x z hz), mono (le_foldl_max xs x z hz)⟩

/-! ## In the file -/

theorem plain_of_num {t : Text} (h : ∀ c ∈ t, NumChar c) : Plain t := fun c hc => (h c hc).plain.1

theorem dataArr_data_plain {K : Type} {f : K → Text} (hf : ∀ x, ∀ c ∈ f x, NumChar c) (xs : List K) (s : Text)
    (hs : Plain s) : Plain (xs.foldl (fun s x => s ++ f x ++ [' ']) s) := by
  induction xs generalizing s with
  | nil => exact hs
  | cons x xs ih =>
    refine ih _ ?_
    intro c hc
    simp only [List.mem_append, List.mem_singleton] at hc
    rcases hc with (hc | hc) | rfl
    · exact hs c hc
    · exact (hf x c hc).plain.1
    · decide

theorem dataArr_clean {K : Type} [LinearOrder K] {f : K → Text} (hf : ∀ x, ∀ c ∈ f x, NumChar c)
    {type name components : Text} (ht : Plain type) (hn : Plain name) (hc : Plain components) (v : Vec K) :
    (v.dataArr f type name components).Clean := by
  refine ⟨ht, hn, hc, ?_, dataArr_data_plain hf _ _ (fun c hc => by cases hc), ?_⟩
  · show Plain "ascii".toList
    unfold Plain
    decide
  · intro r hr
    replace hr : (match v.data with
        | [] => none
        | x :: xs => some (f (xs.foldl min x), f (xs.foldl max x))) = some r := hr
    cases hd : v.data with
    | nil => rw [hd] at hr; cases hr
    | cons x xs =>
      rw [hd] at hr
      obtain rfl := Option.some.inj hr
      exact ⟨plain_of_num (hf _), plain_of_num (hf _)⟩

/-- Vectors of numbers contain no markup, so files with them can be read (`C48_first_partial` and others). -/
theorem C56_markup (type name components : Text) (ht : Plain type) (hn : Plain name) (hc : Plain components)
    (v : Vec ℚ) (u : Vec Int) :
    (v.dataArr decimalText type name components).Clean ∧ (u.dataArr intText type name components).Clean :=
  ⟨dataArr_clean decimalText_chars ht hn hc v, dataArr_clean intText_chars ht hn hc u⟩

theorem cellArrays_doc (m : UMesh) (cd : List DataArr) :
    cellArrays (unstructuredDoc m [] cd).trimmed = cd.map (fun a => (arrayElement a).trimmed) := by
  cases cd with
  | nil => simp [cellArrays, unstructuredDoc, fileElement, dataElement, XTree.trimmed, XTree.children, XTree.name]
  | cons a as =>
    simp [cellArrays, unstructuredDoc, fileElement, dataElement, XTree.trimmed, XTree.children, XTree.name,
      List.filter_cons]

/-- The whole way: the file of an unstructured writer with cell data given as vectors is a document whose
cell arrays have the entries of the vectors, in order, each within half a millionth. -/
theorem C56_file_partial (w : UGrid) (m : UMesh) (h : Heap) (hw : w.Fresh m h) (hm : m.Clean)
    (vs : List (Text × Vec ℚ)) (hn : ∀ p ∈ vs, Plain p.1) (hpd : w.pointData = [])
    (hcd : w.cellData = vs.map (fun p => p.2.dataArr decimalText "Float64".toList p.1 "1".toList))
    (stack : Nat) (hs : 5 ≤ stack) :
    ∃ h' text doc, w.toVTK stack h = .ok (h', text) ∧ readXML text = some doc ∧
      List.Forall₂ (fun a p => List.Forall₂ Near (readNumbers (XTree.data a)) p.2.data) (cellArrays doc) vs := by
  obtain ⟨h', e, _⟩ := hw.run hs
  have ht : Plain "Float64".toList := by unfold Plain; decide
  have hc : Plain "1".toList := by unfold Plain; decide
  refine ⟨h', _, _, e, readXML_text _ (unstructuredDoc_legal hm.npoints hm.ncells hm.arrays ?_ ?_), ?_⟩
  · rw [hpd]; intro a ha; cases ha
  · rw [hcd]
    intro a ha
    obtain ⟨p, hp, rfl⟩ := List.mem_map.1 ha
    exact (C56_markup _ _ _ ht (hn p hp) hc p.2 ⟨0, []⟩).1
  · rw [hpd, cellArrays_doc, hcd, List.map_map]
    clear hcd hn
    induction vs with
    | nil => exact List.Forall₂.nil
    | cons p vs ih =>
      refine List.Forall₂.cons ?_ ih
      have := (C56_vector_partial "Float64".toList p.1 "1".toList p.2).2
      simpa [arrayElement, XTree.trimmed, XTree.data] using this

/-! ## What is lost -/

/-- Every power of two below half a millionth is written as zero. -/
theorem C56_small_wrong (k : Nat) (hk : 21 ≤ k) : decimalText (1 / 2 ^ k) = "0.000000".toList := by
  have hpos : (0 : ℚ) < 1 / 2 ^ k := by positivity
  have hsmall : (1 : ℚ) / 2 ^ k * 10 ^ 6 < 1 / 2 := by
    have : (2 : ℚ) ^ 21 ≤ 2 ^ k := pow_le_pow_right₀ (by norm_num) hk
    have : (1 : ℚ) / 2 ^ k ≤ 1 / 2 ^ 21 := one_div_le_one_div_of_le (by positivity) this
    calc (1 : ℚ) / 2 ^ k * 10 ^ 6 ≤ 1 / 2 ^ 21 * 10 ^ 6 := by nlinarith
      _ < 1 / 2 := by norm_num
  have hm : micro (1 / 2 ^ k) = 0 := by
    have h := micro_near (1 / 2 ^ k)
    rw [abs_of_pos hpos] at h
    have h2 := (abs_le.1 h).2
    have : (micro (1 / 2 ^ k) : ℚ) < 1 := by linarith
    have : micro (1 / 2 ^ k) < 1 := by exact_mod_cast this
    omega
  unfold decimalText
  rw [hm, if_neg (not_lt.2 hpos.le)]
  decide

/-- Every number shares its text with another one. -/
theorem C56_same_wrong (x : ℚ) : ∃ y, y ≠ x ∧ readNumber (decimalText y) = readNumber (decimalText x) := by
  by_cases hx : x * 10 ^ 6 = microInt x
  · refine ⟨x + 1 / 4000000, by intro h; linarith, ?_⟩
    rw [readNumber_decimal, readNumber_decimal]
    have : microInt (x + 1 / 4000000) = microInt x := by
      have h := abs_le.1 (microInt_near (x + 1 / 4000000))
      have h1 : ((microInt (x + 1 / 4000000) : Int) : ℚ) < ((microInt x + 1 : Int) : ℚ) := by
        push_cast; linarith [h.2]
      have h2 : ((microInt x - 1 : Int) : ℚ) < ((microInt (x + 1 / 4000000) : Int) : ℚ) := by
        push_cast; linarith [h.1]
      have h1 := Int.cast_lt.1 h1
      have h2 := Int.cast_lt.1 h2
      omega
    rw [this]
  · refine ⟨(microInt x : ℚ) / 10 ^ 6, ?_, ?_⟩
    · intro h
      apply hx
      rw [← h]
      rw [div_mul_cancel₀ _ (by norm_num), h]
    · rw [readNumber_decimal, readNumber_decimal, microInt_int (k := microInt x) (div_mul_cancel₀ _ (by norm_num))]

/-! ## Cases -/

example : decimalText (-5 / 4) = "-1.250000".toList := by decide +kernel
example : decimalText (1 / 3) = "0.333333".toList := by decide +kernel
example : decimalText (1 / 2000000) = "0.000000".toList := by decide +kernel
example : decimalText (3 / 2000000) = "0.000002".toList := by decide +kernel
example : ((⟨3, [1 / 2, -3, 1 / 3]⟩ : Vec ℚ).dataArr decimalText [] [] []).data =
    "0.500000 -3.000000 0.333333 ".toList := by decide +kernel
example : readNumbers "0.500000 -3.000000 12 ".toList = [some (1 / 2), some (-3), some 12] := by decide +kernel

/-- A writer with one array of two numbers meets the hypotheses of `C56_file_partial`. -/
example : ∃ (w : UGrid) (m : UMesh) (h : Heap), w.Fresh m h ∧ m.Clean ∧ w.pointData = [] ∧
    w.cellData = [("u".toList, (⟨2, [1 / 3, -2]⟩ : Vec ℚ))].map
      (fun p => p.2.dataArr decimalText "Float64".toList p.1 "1".toList) := by
  refine ⟨⟨0, some ⟨"0".toList, "0".toList, emptyArr, emptyArr, emptyArr, emptyArr⟩, [], _⟩, _,
    ((Heap.mk (fun _ => none) 0).alloc (rootNode "UnstructuredGrid".toList)).1,
    ⟨rfl, rfl, by decide, ?_⟩, ⟨by unfold Plain; decide, by unfold Plain; decide, ?_⟩, rfl, rfl⟩
  · intro a ha
    simp [UMesh.arrays] at ha
    rcases ha with rfl | rfl <;> rfl
  · intro a ha
    simp [UMesh.arrays] at ha
    subst ha
    unfold DataArr.Clean emptyArr
    refine ⟨by unfold Plain; decide, by unfold Plain; decide, by unfold Plain; decide, by unfold Plain; decide,
      by unfold Plain; decide, ?_⟩
    rintro r hr
    obtain rfl := Option.some.inj hr
    exact ⟨by unfold Plain; decide, by unfold Plain; decide⟩

end EF
