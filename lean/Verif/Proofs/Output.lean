import Verif.Model.Output
import Verif.Spec.Output
import Verif.Props.Number
import Verif.Props.VTK
import Verif.Props.Thermal
import Verif.Props.ParallelHPS

/-!
# Lemmas on the output of the example programs
-/

namespace EF

open HPS

/-! ## Reading the document of a mesh -/

theorem arraysIn_points (m : UMesh) (cd : List DataArr) :
    arraysIn (unstructuredDoc m [] cd).trimmed "Points".toList = [(arrayElement m.points).trimmed] := by
  cases cd with
  | nil => simp [arraysIn, piecesOf, unstructuredDoc, fileElement, dataElement, XTree.trimmed, XTree.children, XTree.name]
  | cons a as =>
    simp [arraysIn, piecesOf, unstructuredDoc, fileElement, dataElement, XTree.trimmed, XTree.children, XTree.name,
      List.filter_cons]

theorem arraysIn_cells (m : UMesh) (cd : List DataArr) :
    arraysIn (unstructuredDoc m [] cd).trimmed "Cells".toList =
      [(arrayElement m.connectivity).trimmed, (arrayElement m.offsets).trimmed, (arrayElement m.types).trimmed] := by
  cases cd with
  | nil => simp [arraysIn, piecesOf, unstructuredDoc, fileElement, dataElement, XTree.trimmed, XTree.children, XTree.name]
  | cons a as =>
    simp [arraysIn, piecesOf, unstructuredDoc, fileElement, dataElement, XTree.trimmed, XTree.children, XTree.name,
      List.filter_cons]

theorem arraysIn_data (m : UMesh) (cd : List DataArr) :
    arraysIn (unstructuredDoc m [] cd).trimmed "CellData".toList = cd.map (fun a => (arrayElement a).trimmed) := by
  cases cd with
  | nil => simp [arraysIn, piecesOf, unstructuredDoc, fileElement, dataElement, XTree.trimmed, XTree.children, XTree.name]
  | cons a as =>
    simp [arraysIn, piecesOf, unstructuredDoc, fileElement, dataElement, XTree.trimmed, XTree.children, XTree.name,
      List.filter_cons]

theorem arrayElement_name (a : DataArr) : attributeOf (arrayElement a).trimmed "Name".toList = some a.name := by
  simp [attributeOf, arrayElement, XTree.trimmed, XTree.attributes]

theorem arrayElement_data (a : DataArr) : (arrayElement a).trimmed.data = trimWs a.data := by
  simp [arrayElement, XTree.trimmed, XTree.data]

theorem piece_of (m : UMesh) (cd : List DataArr) : ∃ p, piecesOf (unstructuredDoc m [] cd).trimmed = [p] ∧
    attributeOf p "NumberOfPoints".toList = some m.npoints ∧ attributeOf p "NumberOfCells".toList = some m.ncells := by
  refine ⟨_, by simp [piecesOf, unstructuredDoc, fileElement, XTree.trimmed, XTree.children]; rfl, ?_, ?_⟩ <;>
  simp [attributeOf, XTree.attributes]

theorem numbers_vec (type name components : Text) (v : Vec ℚ) :
    readNumbers (trimWs (v.dataArr decimalText type name components).data) = v.data.map fun x => readNumber (decimalText x) := by
  have h : words (v.dataArr decimalText type name components).data = v.data.map decimalText :=
    words_entries (fun x c hc => (decimalText_chars x c hc).plain.2) decimalText_ne v.data
  unfold readNumbers
  rw [words_trim, h, List.map_map]
  rfl

theorem filter_name {α : Type} {L : List (Text × α)} (hL : (L.map Prod.fst).Nodup) {p : Text × α} (hp : p ∈ L) :
    L.filter (fun q => q.1 = p.1) = [p] := by
  induction L with
  | nil => cases hp
  | cons q L ih =>
    rw [List.map_cons, List.nodup_cons] at hL
    rcases List.mem_cons.mp hp with rfl | hp
    · rw [List.filter_cons, if_pos (by simp)]
      congr 1
      rw [List.filter_eq_nil_iff]
      intro r hr
      simp only [decide_eq_true_eq]
      exact fun h => hL.1 (h ▸ List.mem_map_of_mem hr)
    · rw [List.filter_cons, if_neg, ih hL.2 hp]
      simp only [decide_eq_true_eq]
      exact fun h => hL.1 (h ▸ List.mem_map_of_mem hp)

theorem filter_arrays {α : Type} (L : List (Text × α)) (f : Text × α → DataArr) (hf : ∀ q, (f q).name = q.1) (name : Text) :
    ((L.map f).map fun a => (arrayElement a).trimmed).filter (fun a => attributeOf a "Name".toList = some name) =
      (L.filter fun q => q.1 = name).map fun q => (arrayElement (f q)).trimmed := by
  induction L with
  | nil => rfl
  | cons q L ih =>
    simp only [List.map_cons, List.filter_cons, arrayElement_name, hf, Option.some.injEq, decide_eq_true_eq]
    split_ifs
    · rw [List.map_cons, ih]
    · exact ih

/-- The cell data of a document, by name. -/
theorem numbersOf_field (m : UMesh) {L : List (Text × Vec ℚ)} (hL : (L.map Prod.fst).Nodup) {p : Text × Vec ℚ} (hp : p ∈ L) :
    numbersOf (unstructuredDoc m [] (L.map fun q => q.2.dataArr decimalText "Float32".toList q.1 "1".toList)).trimmed
      "CellData".toList p.1 = some (p.2.data.map fun x => readNumber (decimalText x)) := by
  unfold numbersOf
  rw [arraysIn_data, filter_arrays L _ (fun _ => rfl), filter_name hL hp]
  simp only [List.map_cons, List.map_nil]
  rw [arrayElement_data, numbers_vec]

theorem fieldNames_doc (m : UMesh) (L : List (Text × Vec ℚ)) :
    fieldNames (unstructuredDoc m [] (L.map fun q => q.2.dataArr decimalText "Float32".toList q.1 "1".toList)).trimmed =
      L.map fun q => some q.1 := by
  unfold fieldNames
  rw [arraysIn_data, List.map_map, List.map_map]
  refine List.map_congr_left fun q _ => ?_
  exact arrayElement_name _

theorem Vec.get_data {α : Type} {v : Vec α} {k : Nat} {x : α} (h : v.get k = .ok x) : v.data[k]? = some x := by
  unfold Vec.get at h
  split_ifs at h
  unfold rd at h
  cases hd : v.data[k]? with
  | none => rw [hd] at h; cases h
  | some y => rw [hd] at h; rw [Res.ok_inj.mp h]

theorem Describes.full {A : MeshArrays ℚ} {C : List (Rect ℚ)} (h : A.Describes C) (hC : C ≠ []) :
    ∀ a ∈ A.umesh.arrays, a.range.isSome := by
  have h0 : 0 < C.length := List.length_pos_of_ne_nil hC
  have key : ∀ {α : Type} [LinearOrder α] (f : α → Text) (t n c : Text) (v : Vec α), (∃ (k : Nat) (x : α), v.data[k]? = some x) →
      (v.dataArr f t n c).range.isSome := by
    intro α _ f t n c v ⟨k, x, hk⟩
    unfold Vec.dataArr
    cases hd : v.data with
    | nil => rw [hd] at hk; simp at hk
    | cons y ys => rfl
  intro a ha
  simp only [UMesh.arrays, MeshArrays.umesh, List.mem_cons, List.not_mem_nil, or_false] at ha
  rcases ha with rfl | rfl | rfl | rfl
  · exact key _ _ _ _ _ ⟨_, _, Vec.get_data (h.points 0 h0 0 (by omega)).1⟩
  · exact key _ _ _ _ _ ⟨_, _, Vec.get_data (h.connectivity.2.2 0 (by omega))⟩
  · exact key _ _ _ _ _ ⟨_, _, Vec.get_data (h.offsets_start 0 h0)⟩
  · exact key _ _ _ _ _ ⟨_, _, Vec.get_data (h.types_start 0 h0)⟩

theorem umesh_clean (A : MeshArrays ℚ) : A.umesh.Clean := by
  refine ⟨plain_of_num (intText_chars _), plain_of_num (intText_chars _), ?_⟩
  have hp : ∀ s : String, s ∈ ["Float32", "Int64", "points", "connectivity", "offsets", "types", "3", "1"] → Plain s.toList := by
    unfold Plain
    decide
  intro a ha
  simp only [UMesh.arrays, MeshArrays.umesh, List.mem_cons, List.not_mem_nil, or_false] at ha
  rcases ha with rfl | rfl | rfl | rfl
  · exact (C56_markup _ _ _ (hp _ (by decide)) (hp _ (by decide)) (hp _ (by decide)) _ ⟨0, []⟩).1
  · exact (C56_markup _ _ _ (hp _ (by decide)) (hp _ (by decide)) (hp _ (by decide)) ⟨0, []⟩ _).2
  · exact (C56_markup _ _ _ (hp _ (by decide)) (hp _ (by decide)) (hp _ (by decide)) ⟨0, []⟩ _).2
  · exact (C56_markup _ _ _ (hp _ (by decide)) (hp _ (by decide)) (hp _ (by decide)) ⟨0, []⟩ _).2

theorem Near.decimal (x : ℚ) : Near (readNumber (decimalText x)) x := C56_value_partial x

/-- A document of a mesh whose arrays describe cells shows them. -/
theorem showsCells_doc {A : MeshArrays ℚ} {C : List (Rect ℚ)} (h : A.Describes C) (cd : List DataArr) :
    ShowsCells (unstructuredDoc A.umesh [] cd).trimmed C := by
  have hint : ∀ (v : Vec Int) (t n c : Text), readNumbers (trimWs (v.dataArr intText t n c).data) =
      v.data.map fun (i : Int) => some (i : ℚ) := fun v t n c => (C56_vector_int t n c v).2
  refine ⟨?_, ?_, ?_, ?_, ?_⟩
  · obtain ⟨p, h1, h2, h3⟩ := piece_of A.umesh cd
    refine ⟨p, _, _, h1, h2, h3, ?_, ?_⟩
    · rw [show A.umesh.npoints = intText A.npoints from rfl, C56_int, h.npoints]
      push_cast
      rfl
    · rw [show A.umesh.ncells = intText A.ncells from rfl, C56_int, h.ncells]
      push_cast
      rfl
  · refine ⟨A.points.data.map fun x => readNumber (decimalText x), ?_, ?_, ?_⟩
    · unfold numbersOf
      rw [arraysIn_points]
      rw [List.filter_cons, if_pos (by rw [arrayElement_name]; rfl), List.filter_nil]
      simp only
      rw [arrayElement_data]
      exact congrArg some (numbers_vec _ _ _ _)
    · rw [List.length_map, h.points_wf, h.points_size]
    · intro k hk q hq
      obtain ⟨a, b, c⟩ := h.points k hk q hq
      refine ⟨_, _, _, ?_, ?_, ?_, Near.decimal _, Near.decimal _, (C56_exact_iff 0).mpr ⟨0, by simp⟩⟩
      · rw [List.getElem?_map, Vec.get_data a]; rfl
      · rw [List.getElem?_map, Vec.get_data b]; rfl
      · rw [List.getElem?_map, Vec.get_data c]; rfl
  · unfold numbersOf
    rw [arraysIn_cells]
    rw [List.filter_cons, if_pos (by rw [arrayElement_name]; rfl), List.filter_cons, if_neg (by rw [arrayElement_name]; simp [MeshArrays.umesh, Vec.dataArr]),
      List.filter_cons, if_neg (by rw [arrayElement_name]; simp [MeshArrays.umesh, Vec.dataArr]), List.filter_nil]
    simp only
    rw [arrayElement_data, show A.umesh.connectivity = A.connectivity.dataArr intText _ _ _ from rfl, hint, Vec.has_iff.mp h.connectivity]
    simp [Vec.ofFn, listFn, List.map_map]
  · refine ⟨A.offsets.data.map fun (i : Int) => some (i : ℚ), ?_, ?_⟩
    · unfold numbersOf
      rw [arraysIn_cells]
      rw [List.filter_cons, if_neg (by rw [arrayElement_name]; simp [MeshArrays.umesh, Vec.dataArr]), List.filter_cons, if_pos (by rw [arrayElement_name]; rfl),
        List.filter_cons, if_neg (by rw [arrayElement_name]; simp [MeshArrays.umesh, Vec.dataArr]), List.filter_nil]
      simp only
      rw [arrayElement_data, show A.umesh.offsets = A.offsets.dataArr intText _ _ _ from rfl, hint]
    · intro k hk
      rw [List.getElem?_map, Vec.get_data (h.offsets_start k hk)]
      simp
  · refine ⟨A.types.data.map fun (i : Int) => some (i : ℚ), ?_, ?_⟩
    · unfold numbersOf
      rw [arraysIn_cells]
      rw [List.filter_cons, if_neg (by rw [arrayElement_name]; simp [MeshArrays.umesh, Vec.dataArr]), List.filter_cons, if_neg (by rw [arrayElement_name]; simp [MeshArrays.umesh, Vec.dataArr]),
        List.filter_cons, if_pos (by rw [arrayElement_name]; rfl), List.filter_nil]
      simp only
      rw [arrayElement_data, show A.umesh.types = A.types.dataArr intText _ _ _ from rfl, hint]
    · intro k hk
      rw [List.getElem?_map, Vec.get_data (h.types_start k hk)]
      simp

/-! ## Writing a mesh -/

theorem pieceFile_eq (base : Text) (r : Nat) : base ++ '_' :: pad4 r ++ ".vtu".toList = pieceFile base r := by
  unfold pieceFile fourDigits pad4 natText List.leftpad
  simp

theorem meshName_ok {base : Text} (hb : '%' ∉ base) (number : Option Nat) : '%' ∉ meshName base number := by
  unfold meshName
  simp only [List.mem_append, not_or]
  refine ⟨⟨hb, by decide⟩, ?_⟩
  cases number with
  | none => simp
  | some k =>
    simp only [List.mem_cons, not_or]
    refine ⟨by decide, fun hc => ?_⟩
    have hd : ('%').isDigit = true := by
      rcases List.mem_append.mp hc with hc | hc
      · rw [List.eq_of_mem_replicate hc]; rfl
      · exact Nat.isDigit_of_mem_toDigits (by omega) (by omega) hc
    revert hd
    decide

/-- `toVTK` of a mesh. -/
theorem mesh_files {A : MeshArrays ℚ} {C : List (Rect ℚ)} (hA : A.Describes C) (hC : C ≠ []) {names : List Text} {m : Mesh ℚ}
    (hm : m.arrays = A) (hlen : names.length = m.functions.length) (hn : names.Nodup) (hp : ∀ n ∈ names, Plain n)
    (hw : ∀ v ∈ m.functions, v.data ≠ []) (P : Place) {stack : Nat} (hs : 5 ≤ stack) {base : Text}
    (hb : '%' ∉ base) (number : Option Nat) (hbp : Plain (meshName base number)) (hl : (meshName base number).length ≤ 240)
    (hr : P.rank < 10 ^ 10) (hz : P.size ≤ 10 ^ 10) (h : Heap) :
    ∃ h' files doc, m.toVTK names P stack base number h = .ok (h', files) ∧ FilesOf (meshName base number) P.rank P.size files doc ∧
      ShowsCells doc C ∧ fieldNames doc = names.map some ∧
      ∀ q ∈ names.zip m.functions, numbersOf doc "CellData".toList q.1 = some (q.2.data.map fun x => readNumber (decimalText x)) := by
  subst hm
  have h0 : 0 < C.length := List.length_pos_of_ne_nil hC
  have hfst : (names.zip m.functions).map Prod.fst = names := List.map_fst_zip (by omega)
  have hcd : ∀ a ∈ m.functionArrays names, a.range.isSome ∧ a.Clean := by
    intro a ha
    obtain ⟨q, hq, rfl⟩ := List.mem_map.mp ha
    have h1 : q.1 ∈ names := by rw [← hfst]; exact List.mem_map_of_mem hq
    have h2 : q.2 ∈ m.functions := (List.of_mem_zip hq).2
    have ht : ∀ s : String, s ∈ ["Float32", "1"] → Plain s.toList := by unfold Plain; decide
    refine ⟨?_, (C56_markup _ _ _ (ht _ (by decide)) (hp _ h1) (ht _ (by decide)) _ ⟨0, []⟩).1⟩
    have h3 := hw _ h2
    unfold Vec.dataArr
    cases hd : q.2.data with
    | nil => exact absurd hd h3
    | cons y ys => rfl
  have hf : PGrid.Fresh ⟨h.next + 1, ⟨h.next, some m.arrays.umesh, [], m.functionArrays names⟩⟩ m.arrays.umesh
      ((h.alloc (rootNode "UnstructuredGrid".toList)).1.alloc (rootNode "UnstructuredGrid".toList)).1 := by
    refine ⟨⟨rfl, ?_, ?_, ?_⟩, ?_, ?_, ?_⟩
    · rw [alloc_cells, alloc_cells, alloc_next, if_neg (by simp), if_pos rfl]
    · rw [alloc_next, alloc_next]
      simp only
      omega
    · intro a ha
      simp only [List.append_nil, List.mem_append] at ha
      rcases ha with ha | ha
      · exact Describes.full hA hC a ha
      · exact (hcd a ha).1
    · rw [alloc_cells, alloc_next, if_pos rfl]
    · rw [alloc_next, alloc_next]
      simp only
      omega
    · simp
  obtain ⟨h', e, _⟩ := hf.run (meshName_ok hb number) P.rank P.size hs
  have hpt : ∀ i, i < 10 ^ 10 → pieceText (meshName base number) i = pieceFile (meshName base number) i := by
    intro i hi
    rw [pieceText_short hl hi, pieceFile_eq]
  have hmc := umesh_clean m.arrays
  let w : PGrid := ⟨h.next + 1, ⟨h.next, some m.arrays.umesh, [], m.functionArrays names⟩⟩
  let files := rankFiles w m.arrays.umesh P.rank P.size (meshName base number)
  refine ⟨h'.killAll [h.next, h.next + 1], files, (unstructuredDoc m.arrays.umesh [] (m.functionArrays names)).trimmed, ?_,
    ⟨_, files.tail, ?_, readXML_text _ (unstructuredDoc_legal hmc.npoints hmc.ncells hmc.arrays (fun a ha => by simp at ha)
      (fun a ha => (hcd a ha).2)), ?_, ?_⟩, showsCells_doc hA _, ?_, ?_⟩
  · unfold Mesh.toVTK meshToVTK
    exact (congrArg (fun r => r >>= fun s => pure (s.1.killAll [h.next, h.next + 1], s.2)) e).trans rfl
  · rw [← hpt _ hr]
    rfl
  · intro h
    exact if_neg h
  · intro h
    rw [show files.tail = _ from if_pos h]
    refine ⟨_, _, rfl, readXML_text _ (headerDoc_legal (by unfold Plain; decide) hmc.arrays (fun a ha => absurd ha List.not_mem_nil)
      (fun a ha => (hcd a ha).2) ?_), ?_⟩
    · intro f hf
      obtain ⟨i, _, rfl⟩ := List.mem_map.mp hf
      exact pieceText_plain hbp i
    · rw [headerSources_trimmed, headerSources_doc]
      refine List.map_congr_left fun i hi => hpt i ?_
      have := List.mem_range.mp hi
      omega
  · unfold Mesh.functionArrays
    rw [fieldNames_doc]
    conv_rhs => rw [← hfst]
    rw [List.map_map]
    rfl
  · intro q hq
    exact numbersOf_field _ (by rw [hfst]; exact hn) hq

/-! ## Cells and values -/

theorem leavesOf_grids {K : Type} [Field K] {N r : Nat} {F : Forest} {t t' : Tree (Patch K)} {R : Rect K} (h : Placed N t R) (h' : Placed N t' R)
    (hs : t.shape = t'.shape) : (leavesOf r F t).map (·.grid) = (leavesOf r F t').map (·.grid) := by
  induction h generalizing F t' with
  | @leaf p R hx hy hR =>
    cases h' with
    | node => cases hs
    | @leaf p' _ hx' hy' hR' =>
      cases F with
      | leaf k =>
        simp only [leavesOf]
        split_ifs
        · simp only [List.map_cons, List.map_nil, grid_of_rect hx hy hR hx' hy' hR']
        · rfl
      | node => rfl
  | node h0 h1 h2 h3 i0 i1 i2 i3 =>
    cases h' with
    | leaf => cases hs
    | node g0 g1 g2 g3 =>
      simp only [Tree.shape, Tree.node.injEq, true_and] at hs
      cases F with
      | leaf k => rfl
      | node =>
        simp only [leavesOf, List.map_append]
        rw [i0 g0 hs.1, i1 g1 hs.2.1, i2 g2 hs.2.2.1, i3 g3 hs.2.2.2]

theorem meshCells_placed {K : Type} [Field K] {N r : Nat} {F : Forest} {t t' : Tree (Patch K)} {R : Rect K} (h : Placed N t R) (h' : Placed N t' R)
    (hs : t.shape = t'.shape) : meshCells r F t = meshCells r F t' := by
  have key : ∀ L : List (Patch K), (L.flatMap fun p => gridCells p.grid) = (L.map (·.grid)).flatMap gridCells := by
    intro L
    rw [List.flatMap_map]
  unfold meshCells
  rw [key, key, leavesOf_grids h h' hs]

theorem leavesOf_start (p : Patch ℚ) {F : Forest} {r : Nat} (hr : r ∈ F.ranks) (a : Addr) : leavesOf r F (startTree p F a) ≠ [] := by
  induction F generalizing a with
  | leaf k =>
    simp only [Forest.ranks, List.mem_singleton] at hr
    simp [startTree, leavesOf, hr]
  | node c0 c1 c2 c3 i0 i1 i2 i3 =>
    simp only [Forest.ranks, List.mem_append] at hr
    simp only [startTree, leavesOf]
    intro h
    simp only [List.append_eq_nil_iff] at h
    rcases hr with ((hr | hr) | hr) | hr
    · exact i0 hr _ h.1.1.1
    · exact i1 hr _ h.1.1.2
    · exact i2 hr _ h.1.2
    · exact i3 hr _ h.2

theorem meshCells_ne {N : Nat} (hN : 0 < N) {p : Patch ℚ} {F : Forest} {R : Rect ℚ} (hI : Init N (startTree p F []) R) {r : Nat}
    (hr : r ∈ F.ranks) : meshCells r F (startTree p F []) ≠ [] := by
  obtain ⟨q, L, h⟩ := List.exists_cons_of_ne_nil (leavesOf_start p hr [])
  have hq := hI.leaves q (leavesOf_sub (r := r) (F := F) (by rw [h]; simp))
  intro hc
  have hl := C42_count r F (startTree p F [])
  rw [hc, h, List.map_cons, List.sum_cons, hq.1, hq.2] at hl
  have : 0 < N * N := Nat.mul_pos hN hN
  simp only [List.length_nil] at hl
  omega

theorem forall₂_flatMap {α β γ : Type} {P : β → γ → Prop} {f : α → List β} {g : α → List γ} {L : List α}
    (h : ∀ p ∈ L, List.Forall₂ P (f p) (g p)) : List.Forall₂ P (L.flatMap f) (L.flatMap g) := by
  induction L with
  | nil => exact .nil
  | cons p L ih =>
    rw [List.flatMap_cons, List.flatMap_cons]
    exact List.rel_append (h p (by simp)) (ih fun q hq => h q (by simp [hq]))

theorem values_inLeaf {N r : Nat} {F : Forest} {t : Tree (Patch ℚ)} {v : Patch ℚ → Vec ℚ}
    (hg : ∀ p ∈ t.leaves, p.grid.nx = N ∧ p.grid.ny = N) (hv : ∀ p ∈ t.leaves, (v p).size = N * N ∧ (v p).WF) :
    List.Forall₂ (inLeaf (leavesOf r F t) v) (meshCells r F t) ((leavesOf r F t).flatMap fun p => (v p).data) := by
  unfold meshCells
  refine forall₂_flatMap fun p hp => ?_
  have hp' := leavesOf_sub hp
  obtain ⟨hx, hy⟩ := hg p hp'
  obtain ⟨h1, h2⟩ := hv p hp'
  rw [data_listFn ⟨h1, h2⟩, range_cells]
  unfold gridCells
  rw [hx, hy, List.forall₂_map_left_iff, List.forall₂_map_right_iff, List.forall₂_same]
  rintro ⟨i, j⟩ hij
  simp only [cellIndices, List.mem_flatMap, List.mem_map, List.mem_range, Prod.mk.injEq] at hij
  obtain ⟨i', hi, j', hj, rfl, rfl⟩ := hij
  refine ⟨p, hp, i', j', by omega, by omega, by rw [hx, hy], ?_⟩
  rw [hy]
  exact (has_of_wf h1 h2).2.2 _ (FVSolver.idx_lt hi hj)

theorem forall₂_shown {C : List (Rect ℚ)} {v : Rect ℚ → ℚ → Prop} {xs : List ℚ} (h : List.Forall₂ v C xs) :
    List.Forall₂ (fun c y => ∃ x, v c x ∧ Near y x) C (xs.map fun x => readNumber (decimalText x)) := by
  rw [List.forall₂_map_right_iff]
  exact h.imp fun c x hx => ⟨x, hx, Near.decimal x⟩

theorem forall₂_centre (fn : ℚ → ℚ → ℚ) (C : List (Rect ℚ)) :
    List.Forall₂ (atCentre fn) C (C.map fun R => fn R.centre.1 R.centre.2) := by
  rw [List.forall₂_map_right_iff, List.forall₂_same]
  exact fun c _ => rfl

/-! ## Adding functions to a mesh -/

theorem addFunctions_ok {M r : Nat} {F : Forest} (hM : F.depth ≤ M) (hF : F.Sorted) {t : Tree (Patch ℚ)} (fns : List (ℚ → ℚ → ℚ))
    {m : Mesh ℚ} (h : Rep r F t [] m.quadtree.map) :
    ∃ m', fns.foldlM (fun m fn => m.addMeshFunction M r F fn) m = .ok m' ∧ m'.arrays = m.arrays ∧
      m'.functions = m.functions ++ fns.map (fun fn => Vec.ofList ((meshCells r F t).map fun R => fn R.centre.1 R.centre.2)) ∧
      Rep r F t [] m'.quadtree.map ∧ (fns ≠ [] ∨ m.quadtree.userPointer = .this → m'.quadtree.userPointer = .this) := by
  induction fns generalizing m with
  | nil => exact ⟨m, rfl, rfl, by simp, h, fun h => h.resolve_left (fun h => h rfl)⟩
  | cons fn fns ih =>
    obtain ⟨q, h1, h2, h3⟩ := addMeshFunction_eq hM hF h fn
    obtain ⟨m', e1, e2, e3, e4, e5⟩ := ih (m := { m with
        quadtree := q
        functions := m.functions ++ [Vec.ofList ((meshCells r F t).map fun R => fn R.centre.1 R.centre.2)] }) h2
    refine ⟨m', ?_, e2, ?_, e4, fun _ => e5 (Or.inr h3)⟩
    · rw [List.foldlM_cons, h1, Res.ok_bind, e1]
    · rw [e3]
      simp

/-- Adding functions and writing the mesh. -/
theorem output_ok {N : Nat} (hN : 0 < N) {M r size : Nat} {F : Forest} (hM : F.depth ≤ M) (hF : F.Sorted) {root : Patch ℚ}
    {R : Rect ℚ} (hI : Init N (startTree root F []) R) (hr : r ∈ F.ranks) (hr' : r < size) (hz : size ≤ 10 ^ 10)
    {t : Tree (Patch ℚ)} (hp : Placed N t R) (hsh : t.shape = (startTree root F []).shape)
    (hU : ∀ p ∈ t.leaves, p.u.size = N * N ∧ p.u.WF) (hFv : ∀ p ∈ t.leaves, p.f.size = N * N ∧ p.f.WF)
    {m : Mesh ℚ} (h : Rep r F t [] m.quadtree.map)
    (hA : m.arrays.Describes (meshCells r F (startTree root F [])))
    (hf : m.functions = [⟨((leavesOf r F t).map fun p => p.u.size).sum, (leavesOf r F t).flatMap fun p => p.u.data⟩,
      ⟨((leavesOf r F t).map fun p => p.f.size).sum, (leavesOf r F t).flatMap fun p => p.f.data⟩])
    {L : List (Text × (ℚ → ℚ → ℚ))} (hL : L ≠ []) {nu nf : Text} (hn : (nu :: nf :: L.map Prod.fst).Nodup)
    (hpl : ∀ n ∈ nu :: nf :: L.map Prod.fst, Plain n) {stack : Nat} (hs : 5 ≤ stack) {base : Text}
    (hb : '%' ∉ base) (number : Option Nat) (hbp : Plain (meshName base number)) (hl : (meshName base number).length ≤ 240)
    (hp0 : Heap) :
    ∃ m' h' files doc, (L.map Prod.snd).foldlM (fun m fn => m.addMeshFunction M r F fn) m = .ok m' ∧
      m'.toVTK (nu :: nf :: L.map Prod.fst) ⟨M, size, r, F⟩ stack base number hp0 = .ok (h', files) ∧
      m'.arrays = m.arrays ∧ Rep r F t [] m'.quadtree.map ∧ m'.quadtree.userPointer = .this ∧
      FilesOf (meshName base number) r size files doc ∧ ShowsCells doc (meshCells r F (startTree root F [])) ∧
      fieldNames doc = (nu :: nf :: L.map Prod.fst).map some ∧
      numbersOf doc "CellData".toList nu =
        some (((leavesOf r F t).flatMap fun p => p.u.data).map fun x => readNumber (decimalText x)) ∧
      numbersOf doc "CellData".toList nf =
        some (((leavesOf r F t).flatMap fun p => p.f.data).map fun x => readNumber (decimalText x)) ∧
      ∀ q ∈ L, ShowsField doc q.1 (meshCells r F (startTree root F [])) (atCentre q.2) := by
  obtain ⟨m', e1, e2, e3, e4, e5⟩ := addFunctions_ok hM hF (L.map Prod.snd) h
  have hC := meshCells_placed (r := r) (F := F) hp hI.placed hsh
  rw [hC, hf] at e3
  have hlen : (nu :: nf :: L.map Prod.fst).length = m'.functions.length := by
    rw [e3]
    simp
  obtain ⟨h', files, doc, f1, f2, f3, f4, f5⟩ := mesh_files hA (meshCells_ne hN hI hr) e2 hlen hn hpl (by
    intro v hv
    rw [e3] at hv
    refine List.ne_nil_of_length_pos (lt_of_lt_of_eq (List.length_pos_of_ne_nil (meshCells_ne hN hI hr)) (Eq.symm ?_))
    simp only [List.cons_append, List.nil_append, List.mem_cons] at hv
    rcases hv with rfl | rfl | hv
    · exact (leavesOf_cells hI hsh hU r).symm
    · exact (leavesOf_cells hI hsh hFv r).symm
    · obtain ⟨fn, -, rfl⟩ := List.mem_map.mp hv
      simp [Vec.ofList]) ⟨M, size, r, F⟩ hs hb number hbp hl (by show r < _; omega) hz hp0
  rw [e3] at f5
  have hzip : (nu :: nf :: L.map Prod.fst).zip ([⟨((leavesOf r F t).map fun p => p.u.size).sum, (leavesOf r F t).flatMap fun p => p.u.data⟩,
      ⟨((leavesOf r F t).map fun p => p.f.size).sum, (leavesOf r F t).flatMap fun p => p.f.data⟩] ++
      (L.map Prod.snd).map (fun fn => Vec.ofList ((meshCells r F (startTree root F [])).map fun R => fn R.centre.1 R.centre.2))) =
      (nu, ⟨((leavesOf r F t).map fun p => p.u.size).sum, (leavesOf r F t).flatMap fun p => p.u.data⟩) ::
      (nf, ⟨((leavesOf r F t).map fun p => p.f.size).sum, (leavesOf r F t).flatMap fun p => p.f.data⟩) ::
      L.map fun q => (q.1, Vec.ofList ((meshCells r F (startTree root F [])).map fun R => q.2 R.centre.1 R.centre.2)) := by
    simp only [List.cons_append, List.nil_append, List.zip_cons_cons, List.map_map]
    congr 2
    rw [List.zip_map']
    rfl
  rw [hzip] at f5
  refine ⟨m', h', files, doc, e1, f1, e2, e4, e5 (Or.inl (by simpa using hL)), f2, f3, f4, f5 (nu, _) List.mem_cons_self, f5 (nf, _) (List.mem_cons_of_mem _ List.mem_cons_self), ?_⟩
  intro q hq
  refine ⟨_, f5 (q.1, _) (by simp only [List.mem_cons]; exact Or.inr (Or.inr (List.mem_map_of_mem hq))), ?_⟩
  exact forall₂_shown (forall₂_centre q.2 _)

/-! ## The serial run -/

/-- The serial run of the example. -/
theorem serial_placed {N : Nat} (lap : Lapack ℚ) {ps : PatchSolver ℚ} (hN : 0 < N) (hs : SolverShapes N ps) {opt : HPSOptions}
    (ho : opt.homogeneousRhs = false) {t : Tree (Patch ℚ)} {R : Rect ℚ} (ht : Init N t R) (h3 : 3 ≤ N ∨ ∃ d, Uniform d t)
    (f : ℚ → ℚ → ℚ) (bc : BoundaryFn ℚ) :
    ∃ t1 c1 t3, HPS.buildStage lap ps opt t none = .ok (t1, c1) ∧ (Request.functions f bc).run lap ps opt t1 = .ok t3 ∧
      t3.shape = t.shape ∧ Placed N t3 R ∧ ∀ p ∈ t3.leaves, p.grid.nx = N ∧ p.grid.ny = N ∧ (p.u.size = N * N ∧ p.u.WF) ∧
        (p.f.size = N * N ∧ p.f.WF) ∧ sampleLoad f p.grid = .ok p.f := by
  obtain ⟨t1, c1, _, _, e1, _⟩ := buildStage_any lap hs opt hN ht h3 no_cache
  obtain ⟨φ, f1, f2⟩ := sampleLoad_fn f
  obtain ⟨t2, t3, a1, a2, a3, a4, a5⟩ := mixed_ok lap hN hs ho ht h3 e1 (φ := φ)
    (fun grid hx hy => by have := f2 grid; rwa [hx, hy] at this) bc
  refine ⟨t1, c1, t3, e1, ?_, a3, a4, fun p hp => ?_⟩
  · show (upwardsStageAnalytic lap ps opt f t1 >>= fun t2 => solveStageAnalytic lap ps opt bc t2) = _
    rw [upwardsStageAnalytic_eq lap ps opt f1, a1, Res.ok_bind, a2]
  · obtain ⟨b1, b2, b3, b4, b5⟩ := a5 p hp
    have := f2 p.grid
    rw [b1, b2] at this
    exact ⟨b1, b2, ⟨b3, b4⟩, by rw [b5]; exact this, by rw [b5]; exact f1 _⟩

/-- A sampled load holds the values at the centres of the cells. -/
theorem inLeaf_sampled {L : List (Patch ℚ)} {f : ℚ → ℚ → ℚ} (h : ∀ p ∈ L, sampleLoad f p.grid = .ok p.f) {c : Rect ℚ} {x : ℚ}
    (hx : inLeaf L (·.f) c x) : atCentre f c x := by
  obtain ⟨p, hp, i, j, hi, hj, rfl, e⟩ := hx
  obtain ⟨F, h1, φ, h2, h3⟩ := C33_load_sampled f p.grid
  rw [h p hp] at h1
  obtain rfl := Res.ok_inj.mp h1
  have h4 := h2.2.2 (j + i * p.grid.ny) (FVSolver.idx_lt hi hj)
  dsimp only at e
  rw [e, h3 i hi j hj] at h4
  unfold atCentre
  rw [centre_cell, Res.ok_inj.mp h4, FVSolver.x_eq, FVSolver.y_eq]

/-! ## Runs that cannot end -/

/-- No end with a value, whatever the collective operations return. -/
inductive Never {T α : Type} : Prog T α → Prop
  | ub : Never (.fin .ub)
  | throw {e : Exn} : Never (.fin (.throw e))
  | allMax {lo hi : Nat} {name : Text} {v : Nat} {k : Nat → Prog T α} (h : ∀ n, Never (k n)) : Never (.allMax lo hi name v k)
  | bcast {lo hi : Nat} {name : Text} {root : Nat} {v : Node T} {k : Node T → Prog T α} (h : ∀ n, Never (k n)) :
    Never (.bcast lo hi name root v k)

theorem Never.bind {T α β : Type} {p : Prog T α} (h : Never p) (f : α → Prog T β) : Never (p >>= f) := by
  induction h with
  | ub => exact .ub
  | throw => exact .throw
  | allMax _ ih => exact .allMax ih
  | bcast _ ih => exact .bcast ih

theorem Never.after {T α β : Type} (p : Prog T α) {f : α → Prog T β} (h : ∀ x, Never (f x)) : Never (p >>= f) := by
  induction p with
  | fin x =>
    cases x with
    | ok x => exact h x
    | throw e => exact .throw
    | ub => exact .ub
  | allMax lo hi name v k ih => exact .allMax ih
  | bcast lo hi name root v k ih => exact .bcast ih

theorem Never.step {T α : Type} {c c' : Config T α} (h : Step c c') {r : Nat} (hr : Never (c r)) : Never (c' r) := by
  cases h with
  | allMax lo hi name v k hle arrived leaves others =>
    by_cases hb : lo ≤ r ∧ r ≤ hi
    · rw [leaves r hb.1 hb.2]
      rw [arrived r hb.1 hb.2] at hr
      cases hr with
      | allMax h => exact h _
    · rw [others r hb]; exact hr
  | bcast lo hi name root v k hroot arrived leaves others =>
    by_cases hb : lo ≤ r ∧ r ≤ hi
    · rw [leaves r hb.1 hb.2]
      rw [arrived r hb.1 hb.2] at hr
      cases hr with
      | bcast h => exact h _
    · rw [others r hb]; exact hr

theorem Never.run {T α : Type} {n : Nat} {c c' : Config T α} (h : Run n c c') {r : Nat} (hr : Never (c r)) : Never (c' r) := by
  induction h with
  | refl => exact hr
  | step h _ ih => exact ih (hr.step h)

/-! ## The time loop -/

namespace Thermal

theorem outputName (k : Nat) : meshName "thermal".toList (some k) = "thermal-mesh-".toList ++ fourDigits k := by
  unfold meshName fourDigits pad4 natText List.leftpad
  simp

theorem plain_digits (k : Nat) : Plain (natText k) := by
  intro c hc
  have hd : c.isDigit = true := Nat.isDigit_of_mem_toDigits (by omega) (by omega) hc
  refine ⟨?_, ?_, ?_, ?_⟩ <;> (rintro rfl; exact absurd hd (by decide))

theorem outputName_plain (k : Nat) : Plain (meshName "thermal".toList (some k)) := by
  intro c hc
  unfold meshName pad4 at hc
  simp only [List.mem_append, List.mem_cons] at hc
  rcases hc with (hc | hc) | hc | hc | hc
  · revert hc c; decide
  · revert hc c; decide
  · subst hc; decide
  · rw [List.eq_of_mem_replicate hc]; decide
  · exact plain_digits k c hc

theorem outputName_length {k : Nat} (hk : k < 10 ^ 10) : (meshName "thermal".toList (some k)).length ≤ 240 := by
  have h : (natText k).length ≤ 10 := by
    unfold natText
    exact (Nat.length_toDigits_le_iff (by omega) (by omega)).mpr hk
  unfold meshName pad4
  simp only [List.length_append, List.length_cons, List.length_replicate]
  have h1 : "thermal".toList.length = 7 := by decide
  have h2 : "-mesh".toList.length = 5 := by decide
  omega

theorem names_nodup : names.Nodup := by decide

theorem names_plain : ∀ n ∈ names, Plain n := by unfold Plain; decide

/-- What the files of output `i` show after the passes that lead to `t`. -/
def Raw (s : FVSolver ℚ) (r size : Nat) (F : Forest) (C : List (Rect ℚ)) (t : Tree (Patch ℚ)) (i : Nat)
    (files : List (Text × Text)) : Prop :=
  ∃ doc, FilesOf ("thermal-mesh-".toList ++ fourDigits i) r size files doc ∧ ShowsCells doc C ∧ fieldNames doc = names.map some ∧
    numbersOf doc "CellData".toList "u_soln".toList =
      some (((leavesOf r F t).flatMap fun p => p.u.data).map fun x => readNumber (decimalText x)) ∧
    numbersOf doc "CellData".toList "f_rhs".toList =
      some (((leavesOf r F t).flatMap fun p => p.f.data).map fun x => readNumber (decimalText x)) ∧
    ShowsField doc "alpha_fn".toList C (atCentre s.alpha) ∧ ShowsField doc "beta_fn".toList C (atCentre s.beta) ∧
    ShowsField doc "lambda_fn".toList C (atCentre s.lambda)

theorem write_ok {N : Nat} (hN : 0 < N) {M r size : Nat} {F : Forest} (hM : F.depth ≤ M) (hF : F.Sorted) {root : Patch ℚ}
    {R : Rect ℚ} (hI : Init N (startTree root F []) R) (hr : r ∈ F.ranks) (hr' : r < size) (hz : size ≤ 10 ^ 10)
    {t : Tree (Patch ℚ)} (hp : Placed N t R) (hsh : t.shape = (startTree root F []).shape)
    (hU : ∀ p ∈ t.leaves, p.u.size = N * N ∧ p.u.WF) (hFv : ∀ p ∈ t.leaves, p.f.size = N * N ∧ p.f.WF)
    {A : HPSRank ℚ} (h : Rep r F t [] A.mesh.quadtree.map)
    (hA : A.mesh.arrays.Describes (meshCells r F (startTree root F []))) {stack : Nat} (hs : 5 ≤ stack) {k : Nat}
    (hk : k < 10 ^ 10) (s : FVSolver ℚ) (hp0 : Heap) :
    ∃ A' h' files, write ⟨M, size, r, F⟩ s stack k A hp0 = .ok (A', h', files) ∧ A'.mesh.arrays = A.mesh.arrays ∧
      Rep r F t [] A'.mesh.quadtree.map ∧ A'.mesh.quadtree.userPointer = .this ∧
      Raw s r size F (meshCells r F (startTree root F [])) t k files := by
  obtain ⟨q, u, fv, k1, k2, k3, k4⟩ := collect_eq (m := A.mesh.clearMeshFunctions) hM hF h
  obtain ⟨m', h', files, doc, e1, e2, e3, e4, e5, e6, e7, e8, e9, e10, e11⟩ := output_ok hN hM hF hI hr hr' hz hp hsh hU hFv
    (m := ({ A.mesh.clearMeshFunctions with quadtree := q }.addMeshVector u).addMeshVector fv) k4 hA
    (by rw [← k2, ← k3]; rfl)
    (L := [("alpha_fn".toList, s.alpha), ("beta_fn".toList, s.beta), ("lambda_fn".toList, s.lambda)]) (by simp)
    (nu := "u_soln".toList) (nf := "f_rhs".toList) names_nodup names_plain hs (base := "thermal".toList) (by decide)
    (some k) (outputName_plain k) (outputName_length hk) hp0
  rw [outputName] at e6
  refine ⟨{ A with mesh := m' }, h', files, ?_, e3, e4, e5, doc, e6, e7, e8, e9, e10, e11 (_, s.alpha) List.mem_cons_self,
    e11 (_, s.beta) (List.mem_cons_of_mem _ List.mem_cons_self),
    e11 (_, s.lambda) (List.mem_cons_of_mem _ (List.mem_cons_of_mem _ List.mem_cons_self))⟩
  unfold write
  dsimp only
  rw [k1, Res.ok_bind]
  simp only [List.map_cons, List.map_nil, List.foldlM_cons, List.foldlM_nil] at e1
  obtain ⟨m1, a1, b1⟩ := Res.bind_eq_ok.mp e1
  obtain ⟨m2, a2, b2⟩ := Res.bind_eq_ok.mp b1
  obtain ⟨m3, a3, b3⟩ := Res.bind_eq_ok.mp b2
  obtain rfl := Res.ok_inj.mp b3
  rw [a1, Res.ok_bind, a2, Res.ok_bind, a3, Res.ok_bind]
  have e2' : m3.toVTK names ⟨M, size, r, F⟩ stack "thermal".toList (some k) hp0 = .ok (h', files) := e2
  rw [e2', Res.ok_bind]
  rfl

theorem stepOn_runs {M size : Nat} {F : Forest} (hM : F.depth ≤ M) (hs : F.Sorted) (hr : EveryRank F size) (lap : Lapack ℚ)
    (ps : PatchSolver ℚ) (opt : HPSOptions) (c : Thermal ℚ) (n : Nat) {t t' : Tree (Patch ℚ)} {A : Nat → HPSRank ℚ}
    (hA : HoldsOn size F t (fun r => (A r).mesh.quadtree)) (ht : step lap ps opt c n t = .ok t') :
    ∃ A' : Nat → HPSRank ℚ, Follows size F t' A A' ∧
      Runs (fun r => r < size) (fun r => stepOn ⟨M, size, r, F⟩ lap ps opt c n (A r)) A' := by
  unfold step at ht
  obtain ⟨t2, e2, e3⟩ := Res.bind_eq_ok.mp ht
  obtain ⟨A2, h1, h2⟩ := upwards_runs hM hs hr lap ps opt (c.load n) hA e2
  obtain ⟨A3, h3, h4⟩ := solveAnalytic_runs hM hs hr lap ps opt (c.boundary n) h1.holds e3
  exact ⟨A3, h1.trans h3, Runs.bind h2 h4⟩

theorem everyNth_succ (n : Int) (k : Nat) : everyNth n (k + 1) = everyNth n k ++ if n ∣ (k : Int) then [k] else [] := by
  unfold everyNth
  rw [List.range_succ, List.filter_append]
  congr 1
  by_cases h : n ∣ (k : Int)
  · simp [h]
  · simp [h]

theorem everyNth_length (n : Int) (k : Nat) : (everyNth n k).length ≤ k :=
  (List.length_filter_le _ _).trans (by simp)

/-- The passes that are written. -/
def shown (vtk : Bool) (nVtk : Int) (k : Nat) : List Nat := if vtk then everyNth nVtk k else []

/-- The first `k` passes on all ranks, given the trees of the serial loop. -/
theorem passes_run {N : Nat} (hN : 0 < N) {M size : Nat} {F : Forest} (hM : F.depth ≤ M) (hF : F.Sorted) (hr : EveryRank F size)
    (hz : size ≤ 10 ^ 10) {root : Patch ℚ} {R : Rect ℚ} (hI : Init N (startTree root F []) R) (lap : Lapack ℚ) (ps : PatchSolver ℚ)
    (s : FVSolver ℚ) (opt : HPSOptions) (c : Thermal ℚ) {vtk : Bool} {nVtk : Int} (hv : vtk = true → nVtk ≠ 0) {stack : Nat}
    (hs : 5 ≤ stack) {T : Nat → Tree (Patch ℚ)} (hT : ∀ k, step lap ps opt c k (T k) = .ok (T (k + 1)))
    (hp : ∀ k, Placed N (T (k + 1)) R) (hsh : ∀ k, (T (k + 1)).shape = (startTree root F []).shape)
    (hU : ∀ k, ∀ p ∈ (T (k + 1)).leaves, p.u.size = N * N ∧ p.u.WF)
    (hFv : ∀ k, ∀ p ∈ (T (k + 1)).leaves, p.f.size = N * N ∧ p.f.WF) {A : Nat → HPSRank ℚ} (h : Nat → Heap)
    (hA : HoldsOn size F (T 0) (fun r => (A r).mesh.quadtree))
    (hd : ∀ r, r < size → (A r).mesh.arrays.Describes (meshCells r F (startTree root F []))) {k : Nat} (hk : k ≤ 10 ^ 10) :
    ∃ Z : Nat → State, Runs (fun r => r < size) (fun r => passes ⟨M, size, r, F⟩ lap ps s opt c vtk nVtk stack k ⟨A r, 0, h r, []⟩) Z ∧
      ∀ r, r < size → Rep r F (T k) [] (Z r).rank.mesh.quadtree.map ∧ (Z r).rank.mesh.quadtree.userPointer = .this ∧
        (Z r).rank.mesh.arrays = (A r).mesh.arrays ∧ (Z r).nOutput = (shown vtk nVtk k).length ∧
        (Z r).files.length = (shown vtk nVtk k).length ∧
        ∀ i n, (shown vtk nVtk k)[i]? = some n → ∃ files, (Z r).files[i]? = some files ∧
          Raw s r size F (meshCells r F (startTree root F [])) (T (n + 1)) i files := by
  induction k with
  | zero =>
    refine ⟨fun r => ⟨A r, 0, h r, []⟩, Runs.pure fun r _ => rfl, fun r h => ⟨(hA r h).1, (hA r h).2, rfl, ?_, ?_, ?_⟩⟩
    · unfold shown; split <;> rfl
    · unfold shown; split <;> rfl
    · intro i n hi
      unfold shown at hi
      split at hi <;> cases hi
  | succ k ih =>
    obtain ⟨Z, z1, z2⟩ := ih (by omega)
    obtain ⟨B, b1, b2⟩ := stepOn_runs (M := M) hM hF hr lap ps opt c k (A := fun r => (Z r).rank)
      (fun r h => ⟨(z2 r h).1, (z2 r h).2.1⟩) (hT k)
    by_cases hw : vtk = true ∧ nVtk ∣ (k : Int)
    · have hsucc : shown vtk nVtk (k + 1) = shown vtk nVtk k ++ [k] := by
        unfold shown
        rw [if_pos hw.1, if_pos hw.1, everyNth_succ, if_pos hw.2]
      have hlen : (shown vtk nVtk k).length ≤ k := by
        unfold shown
        rw [if_pos hw.1]
        exact everyNth_length _ _
      have w : ∀ r, ∃ x : HPSRank ℚ × Heap × List (Text × Text), r < size →
          write ⟨M, size, r, F⟩ s stack (Z r).nOutput (B r) (Z r).heap = .ok x ∧ x.1.mesh.arrays = (B r).mesh.arrays ∧
          Rep r F (T (k + 1)) [] x.1.mesh.quadtree.map ∧ x.1.mesh.quadtree.userPointer = .this ∧
          Raw s r size F (meshCells r F (startTree root F [])) (T (k + 1)) (Z r).nOutput x.2.2 := by
        intro r
        by_cases hr' : r < size
        · obtain ⟨A', h', files, a1, a2, a3, a4, a5⟩ := write_ok hN hM hF hI ((hr r).mp hr') hr' hz (hp k) (hsh k) (hU k) (hFv k)
            (A := B r) (b1 r hr').1 (by rw [(b1 r hr').2.2.1, (z2 r hr').2.2.1]; exact hd r hr') hs
            (k := (Z r).nOutput) (by rw [(z2 r hr').2.2.2.1]; omega) s (Z r).heap
          exact ⟨(A', h', files), fun _ => ⟨a1, a2, a3, a4, a5⟩⟩
        · exact ⟨(A r, h r, []), fun h => absurd h hr'⟩
      choose x hx using w
      refine ⟨fun r => ⟨(x r).1, (Z r).nOutput + 1, (x r).2.1, (Z r).files ++ [(x r).2.2]⟩, ?_, fun r hr' => ?_⟩
      · refine (Runs.bind z1 (q := fun r st => pass ⟨M, size, r, F⟩ lap ps s opt c vtk nVtk stack k st)
          ((Runs.bind b2 (q := fun r A => (do
            let x ← Prog.fin (write ⟨M, size, r, F⟩ s stack (Z r).nOutput A (Z r).heap)
            pure ⟨x.1, (Z r).nOutput + 1, x.2.1, (Z r).files ++ [x.2.2]⟩ : Prog (Patch ℚ) State)) (Runs.pure fun r h => by
              beta_reduce
              rw [(hx r h).1]
              rfl)).congr (fun r h => ?_) (fun r _ => rfl))).congr (fun r _ => rfl) (fun r _ => rfl)
        unfold pass
        simp only [if_pos hw.1, if_neg (hv hw.1), if_pos (Int.dvd_iff_tmod_eq_zero.mp hw.2)]
      · obtain ⟨a1, a2, a3, a4, a5⟩ := hx r hr'
        obtain ⟨c1, c2, c3, c4, c5, c6⟩ := z2 r hr'
        refine ⟨a3, a4, ?_, ?_, ?_, ?_⟩
        · show (x r).1.mesh.arrays = _
          rw [a2, (b1 r hr').2.2.1, c3]
        · show (Z r).nOutput + 1 = _
          rw [hsucc, c4]; simp
        · show ((Z r).files ++ [(x r).2.2]).length = _
          rw [hsucc]; simp [c5]
        · intro i n hi
          rw [hsucc] at hi
          by_cases hil : i < (shown vtk nVtk k).length
          · rw [List.getElem?_append_left hil] at hi
            obtain ⟨files, f1, f2⟩ := c6 i n hi
            exact ⟨files, by show ((Z r).files ++ _)[i]? = _; rw [List.getElem?_append_left (by omega)]; exact f1, f2⟩
          · rw [List.getElem?_append_right (by omega)] at hi
            have hi0 : i - (shown vtk nVtk k).length = 0 := by
              by_contra hne
              obtain ⟨m, hm⟩ := Nat.exists_eq_succ_of_ne_zero hne
              rw [hm] at hi
              simp at hi
            rw [hi0] at hi
            obtain rfl : k = n := by simpa using hi
            have hi' : i = (Z r).nOutput := by omega
            refine ⟨(x r).2.2, ?_, by rw [hi']; exact a5⟩
            show ((Z r).files ++ _)[i]? = _
            rw [List.getElem?_append_right (by omega), show i - (Z r).files.length = 0 by omega]
            rfl
    · have hsucc : shown vtk nVtk (k + 1) = shown vtk nVtk k := by
        unfold shown
        by_cases hvt : vtk = true
        · rw [if_pos hvt, if_pos hvt, everyNth_succ, if_neg (fun h => hw ⟨hvt, h⟩), List.append_nil]
        · rw [if_neg hvt, if_neg hvt]
      refine ⟨fun r => { Z r with rank := B r }, ?_, fun r hr' => ?_⟩
      · refine (Runs.bind z1 (q := fun r st => pass ⟨M, size, r, F⟩ lap ps s opt c vtk nVtk stack k st)
          ((Runs.bind b2 (q := fun r A => (pure { Z r with rank := A } : Prog (Patch ℚ) State)) (Runs.pure fun r h => rfl)).congr
            (fun r h => ?_) (fun r _ => rfl))).congr (fun r _ => rfl) (fun r _ => rfl)
        unfold pass
        by_cases hvt : vtk = true
        · simp only [if_pos hvt, if_neg (hv hvt), if_neg (fun h => hw ⟨hvt, Int.dvd_iff_tmod_eq_zero.mpr h⟩)]
        · simp only [if_neg hvt]
      · obtain ⟨c1, c2, c3, c4, c5, c6⟩ := z2 r hr'
        rw [hsucc]
        exact ⟨(b1 r hr').1, (b1 r hr').2.1, (b1 r hr').2.2.1.trans c3, c4, c5, c6⟩

end Thermal
end EF
