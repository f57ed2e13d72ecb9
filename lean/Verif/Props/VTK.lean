import Verif.Proofs.VTK

/-!
# C48, C53: VTK files

C48 as stated is false: the writers add nodes of a finished call to a root that outlives the call, and the
next call follows the pointers to them.  `C48_again_wrong`, `C48_rectilinear_again_wrong` and
`C48_parallel_again_wrong` are the negations; the first write is correct, and `Mesh::toVTK`, which makes a
writer for each call, can be repeated.

C53 as stated is false as well, see `C53_directory_wrong`, `C53_truncated_wrong` and `C53_type_wrong`.
-/

namespace EF

/-! ## The first write -/

/-- The first file of an unstructured writer is the document of its mesh and data. -/
theorem C48_first_partial (w : UGrid) (m : UMesh) (h : Heap) (hw : w.Fresh m h) (hm : m.Clean)
    (hpd : ∀ a ∈ w.pointData, a.Clean) (hcd : ∀ a ∈ w.cellData, a.Clean) (stack : Nat) (hs : 5 ≤ stack) :
    ∃ h' text, w.toVTK stack h = .ok (h', text) ∧
      readXML text = some (unstructuredDoc m w.pointData w.cellData).trimmed := by
  obtain ⟨h', e, _⟩ := hw.run hs
  exact ⟨h', _, e, readXML_text _ (unstructuredDoc_legal hm.npoints hm.ncells hm.arrays hpd hcd)⟩

/-- The first file of a rectilinear writer is the document of its mesh and data. -/
theorem C48_rectilinear_first_partial (w : RGrid) (whole extent : Text) (h : Heap)
    (hw : w.Fresh whole extent h) (hx : Plain whole) (hy : Plain extent) (hco : ∀ a ∈ w.coords, a.Clean)
    (hpd : ∀ a ∈ w.pointData, a.Clean) (hcd : ∀ a ∈ w.cellData, a.Clean) (stack : Nat) (hs : 5 ≤ stack) :
    ∃ h' text, w.toVTK stack h = .ok (h', text) ∧
      readXML text = some (rectilinearDoc whole extent w.coords w.pointData w.cellData).trimmed := by
  obtain ⟨h', e, _⟩ := hw.run hs
  exact ⟨h', _, e, readXML_text _ (rectilinearDoc_legal hx hy hco hpd hcd)⟩

/-! ## The second write -/

/-- Writing again with the same unstructured writer is undefined behaviour, whatever the program does with
the memory in between. -/
theorem C48_again_wrong (w : UGrid) (m : UMesh) (h : Heap) (hw : w.Fresh m h) (stack : Nat)
    (hs : 5 ≤ stack) :
    ∃ h' text, w.toVTK stack h = .ok (h', text) ∧
      ∀ h'', Later w.root h' h'' → ∀ stack', w.toVTK stack' h'' = .ub := by
  obtain ⟨h', e, u⟩ := hw.run hs
  exact ⟨h', _, e, fun h'' hl stack' => w.stale (by rw [hw.mesh]; rfl) stack' (u.stale.later hl)⟩

theorem C48_rectilinear_again_wrong (w : RGrid) (whole extent : Text) (h : Heap)
    (hw : w.Fresh whole extent h) (stack : Nat) (hs : 5 ≤ stack) :
    ∃ h' text, w.toVTK stack h = .ok (h', text) ∧
      ∀ h'', Later w.root h' h'' → ∀ stack', w.toVTK stack' h'' = .ub := by
  obtain ⟨h', e, u⟩ := hw.run hs
  exact ⟨h', _, e, fun h'' hl stack' => w.stale (by rw [hw.mesh]; rfl) stack' (u.stale.later hl)⟩

theorem C48_parallel_again_wrong (w : PGrid) (m : UMesh) (h : Heap) (hw : w.Fresh m h) (base : Text)
    (hb : '%' ∉ base) (rank size stack : Nat) (hs : 5 ≤ stack) :
    ∃ h' files, w.toVTK rank size stack base h = .ok (h', files) ∧
      ∀ h'', Later w.vtu.root h' h'' → ∀ stack', w.toVTK rank size stack' base h'' = .ub := by
  obtain ⟨h', e, u⟩ := hw.run hb rank size hs
  refine ⟨h', _, e, fun h'' hl stack' => ?_⟩
  have hub := w.vtu.stale (by rw [hw.vtu.mesh]; rfl) stack' (u.later hl)
  unfold PGrid.toVTK
  rw [pieceName_eq hb]
  show (w.vtu.toVTK stack' h'' >>= _) = _
  rw [hub]
  rfl

/-! ## Without a mesh, and with an empty mesh -/

/-- Without a mesh the writers throw, and leave the caller's memory alone. -/
theorem C48_incomplete (w : UGrid) (r : RGrid) (hw : w.mesh = none) (hr : r.extents = none) (stack : Nat)
    (h : Heap) : w.toVTK stack h = .throw .invalidArgument ∧ r.toVTK stack h = .throw .invalidArgument := by
  unfold UGrid.toVTK RGrid.toVTK
  rw [hw, hr]
  exact ⟨rfl, rfl⟩

/-- A rank that has no cells cannot write its piece: the smallest coordinate is asked for. -/
theorem C48_empty_actual {K : Type} [LinearOrder K] (toText : K → Text) (type name components : Text)
    (v : Vec K) (hv : v.data = []) (w : UGrid) (m : UMesh) (hm : w.mesh = some m)
    (hp : m.points = v.dataArr toText type name components) (stack : Nat) (h : Heap) :
    w.toVTK stack h = .ub := by
  obtain ⟨root, mesh, pd, cd⟩ := w
  obtain rfl : mesh = some m := hm
  rw [UGrid.steps]
  have : ∀ h, addArrays DataArr.toVTK (h.next + 2) [m.points] (uStart m root pd cd h) = .ub := by
    intro h
    rw [addArrays, hp]
    unfold DataArr.toVTK Vec.dataArr
    simp only [hv]
    rfl
  rw [this]
  rfl

/-! ## Meshes -/

theorem rankFiles_head (w : PGrid) (m : UMesh) (rank size : Nat) (base : Text) :
    ∃ text more, rankFiles w m rank size base = (pieceText base rank, text) :: more := ⟨_, _, rfl⟩

theorem mesh_run (m : UMesh) (functions : List DataArr) (hm : ∀ a ∈ m.arrays ++ functions, a.range.isSome)
    (rank size stack : Nat) (hs : 5 ≤ stack) (base : Text) (hb : '%' ∉ base) (number : Option Nat) :
    ∃ name more, ∀ h, ∃ h', meshToVTK m functions rank size stack base number h = .ok (h',
      (name, "<?xml version=\"1.0\"?>".toList ++ ['\n'] ++ (unstructuredDoc m [] functions).text []) :: more) := by
  have hb' : '%' ∉ meshName base number := by
    unfold meshName
    simp only [List.mem_append, not_or]
    refine ⟨⟨hb, by decide⟩, ?_⟩
    cases number with
    | none => simp
    | some k =>
      simp only [List.mem_cons, not_or]
      refine ⟨by decide, fun hc => ?_⟩
      have hd : ('%').isDigit = true := by
        rcases List.mem_append.mp hc with hc | hc
        · rw [List.eq_of_mem_replicate hc]; rfl
        · exact Nat.isDigit_of_mem_toDigits (by omega) (by omega) hc
      revert hd
      decide
  generalize hbase : meshName base number = base' at hb'
  refine ⟨pieceText base' rank, (rankFiles ⟨0, ⟨0, some m, [], functions⟩⟩ m rank size base').tail,
    fun h => ?_⟩
  have hf : PGrid.Fresh ⟨h.next + 1, ⟨h.next, some m, [], functions⟩⟩ m
      ((h.alloc (rootNode "UnstructuredGrid".toList)).1.alloc (rootNode "UnstructuredGrid".toList)).1 := by
    refine ⟨⟨rfl, ?_, ?_, ?_⟩, ?_, ?_, ?_⟩
    · rw [alloc_cells, alloc_cells, alloc_next, if_neg (by simp), if_pos rfl]
    · rw [alloc_next, alloc_next]
      simp only
      omega
    · intro a ha
      exact hm a (by simpa using ha)
    · rw [alloc_cells, alloc_next, if_pos rfl]
    · rw [alloc_next, alloc_next]
      simp only
      omega
    · simp
  obtain ⟨h', e, _⟩ := hf.run hb' rank size hs
  refine ⟨h'.killAll [h.next, h.next + 1], ?_⟩
  unfold meshToVTK
  simp only
  rw [hbase]
  exact (congrArg (fun r => r >>= fun s => pure (s.1.killAll [h.next, h.next + 1], s.2)) e).trans rfl

/-- A mesh can be written any number of times; each time the files have the same names and content, and the
file of the rank is the document of the mesh and its functions. -/
theorem C48_mesh (m : UMesh) (functions : List DataArr) (hm : ∀ a ∈ m.arrays ++ functions, a.range.isSome)
    (rank size stack : Nat) (hs : 5 ≤ stack) (base : Text) (hb : '%' ∉ base) (number : Option Nat) :
    ∃ name text more, (∀ k h, ∃ h', times (meshToVTK m functions rank size stack base number) k h =
        .ok (h', List.replicate k ((name, text) :: more))) ∧
      (m.Clean → (∀ a ∈ functions, a.Clean) →
        readXML text = some (unstructuredDoc m [] functions).trimmed) := by
  obtain ⟨name, more, hf⟩ := mesh_run m functions hm rank size stack hs base hb number
  refine ⟨name, _, more, fun k => ?_, fun hc hfc => readXML_text _
    (unstructuredDoc_legal hc.npoints hc.ncells hc.arrays (fun a ha => by simp at ha) hfc)⟩
  induction k with
  | zero => intro h; exact ⟨h, rfl⟩
  | succ k ih =>
    intro h
    obtain ⟨h1, e1⟩ := hf h
    obtain ⟨h2, e2⟩ := ih h1
    refine ⟨h2, ?_⟩
    rw [times, e1]
    simp only
    rw [e2]
    rfl

/-! ## C53: the header names the files of the ranks -/

/-- If the base name is short and contains no format and no directory, or is absolute, then the header of
rank zero names exactly the files the ranks write, once each and in the order of the ranks. -/
theorem C53_pieces_partial (w : PGrid) (m : UMesh) (h : Heap) (hw : w.Fresh m h) (hm : m.Clean)
    (hpd : ∀ a ∈ w.vtu.pointData, a.Clean) (hcd : ∀ a ∈ w.vtu.cellData, a.Clean)
    (base : Text) (hb : '%' ∉ base) (hp : Plain base) (hd : '/' ∉ base ∨ base.head? = some '/')
    (hl : base.length ≤ 240) (size : Nat) (hsize : size ≤ 10 ^ 10) (stack : Nat) (hs : 5 ≤ stack) :
    ∃ h' piece header doc names, w.toVTK 0 size stack base h =
        .ok (h', [piece, (base ++ ".pvtu".toList, header)]) ∧
      readXML header = some doc ∧
      (headerSources doc).map (resolve (base ++ ".pvtu".toList)) = names ∧
      names.length = size ∧ names.Nodup ∧
      ∀ r (hr : r < names.length), ∀ (w' : PGrid) (m' : UMesh) (k : Heap), w'.Fresh m' k →
        ∃ k' text more, w'.toVTK r size stack base k = .ok (k', (names[r], text) :: more) := by
  obtain ⟨h', e, _⟩ := hw.run hb 0 size hs
  have hres : ∀ i, i < size → resolve (base ++ ".pvtu".toList) (pieceText base i) = pieceText base i := by
    intro i hi
    unfold resolve
    rw [pieceText_short hl (by omega)]
    rcases hd with hd | hd
    · split
      · rfl
      · have : directory (base ++ ".pvtu".toList) = [] := by
          rw [directory_append _ (by decide), directory_none hd]
        rw [this, List.nil_append]
    · rw [if_pos]
      cases base with
      | nil => simp at hd
      | cons c base => simpa using hd
  have hnames : ((List.range size).map (pieceText base)).map (resolve (base ++ ".pvtu".toList)) =
      (List.range size).map (pieceText base) := by
    rw [List.map_map]
    apply List.map_congr_left
    intro i hi
    exact hres i (List.mem_range.mp hi)
  refine ⟨h', _, _, _, (List.range size).map (pieceText base), e,
    readXML_text _ (headerDoc_legal (by unfold Plain; decide) hm.arrays hpd hcd ?_), ?_, ?_, ?_, ?_⟩
  · intro f hf
    obtain ⟨i, _, rfl⟩ := List.mem_map.mp hf
    exact pieceText_plain hp i
  · rw [headerSources_trimmed, headerSources_doc, hnames]
  · simp
  · rw [List.nodup_map_iff_inj_on List.nodup_range]
    intro i hi j hj hij
    rw [pieceText_short hl (by have := List.mem_range.mp hi; omega),
      pieceText_short hl (by have := List.mem_range.mp hj; omega)] at hij
    have := List.append_cancel_left (List.append_cancel_right hij)
    exact pad4_injective (List.cons.inj this).2
  · intro r hr w' m' k hk
    obtain ⟨k', e', _⟩ := hk.run hb r size hs
    obtain ⟨text, more, hh⟩ := rankFiles_head w' m' r size base
    refine ⟨k', text, more, ?_⟩
    rw [e', hh]
    simp only [List.getElem_map, List.getElem_range]

/-- With a relative base name in another directory, no name in the header leads to a file a rank writes. -/
theorem C53_directory_wrong (w : PGrid) (m : UMesh) (h : Heap) (hw : w.Fresh m h) (hm : m.Clean)
    (hpd : ∀ a ∈ w.vtu.pointData, a.Clean) (hcd : ∀ a ∈ w.vtu.cellData, a.Clean)
    (dir file : Text) (hp : Plain (dir ++ '/' :: file)) (hb : '%' ∉ dir ++ '/' :: file)
    (hdir : dir ≠ []) (hrel : dir.head? ≠ some '/') (hfile : '/' ∉ file)
    (hl : (dir ++ '/' :: file).length ≤ 240) (size : Nat) (hsize : size ≤ 10 ^ 10) (stack : Nat)
    (hs : 5 ≤ stack) :
    ∃ h' piece header doc, w.toVTK 0 size stack (dir ++ '/' :: file) h =
        .ok (h', [piece, (dir ++ '/' :: file ++ ".pvtu".toList, header)]) ∧
      readXML header = some doc ∧ (headerSources doc).length = size ∧
      ∀ s ∈ headerSources doc, ∀ r < size, ∀ (w' : PGrid) (m' : UMesh) (k : Heap), w'.Fresh m' k →
        ∃ k' files, w'.toVTK r size stack (dir ++ '/' :: file) k = .ok (k', files) ∧
          resolve (dir ++ '/' :: file ++ ".pvtu".toList) s ∉ files.map Prod.fst := by
  obtain ⟨h', e, _⟩ := hw.run hb 0 size hs
  refine ⟨h', _, _, _, e, readXML_text _ (headerDoc_legal (by unfold Plain; decide) hm.arrays hpd hcd ?_),
    ?_, ?_⟩
  · intro f hf
    obtain ⟨i, _, rfl⟩ := List.mem_map.mp hf
    exact pieceText_plain hp i
  · rw [headerSources_trimmed, headerSources_doc]
    simp
  · intro s hs' r hr w' m' k hk
    rw [headerSources_trimmed, headerSources_doc] at hs'
    obtain ⟨i, hi, rfl⟩ := List.mem_map.mp hs'
    have hi := List.mem_range.mp hi
    obtain ⟨k', e', _⟩ := hk.run hb r size hs
    refine ⟨k', _, e', ?_⟩
    have hslash : ∀ n, '/' ∉ '_' :: pad4 n ++ ".vtu".toList := by
      intro n hc
      rcases List.mem_append.mp hc with hc | hc
      · rcases List.mem_cons.mp hc with hc | hc
        · revert hc; decide
        · have hd : ('/').isDigit = true := by
            rcases List.mem_append.mp hc with hc | hc
            · rw [List.eq_of_mem_replicate hc]; rfl
            · exact Nat.isDigit_of_mem_toDigits (by omega) (by omega) hc
          revert hd
          decide
      · revert hc; decide
    have hres : resolve (dir ++ '/' :: file ++ ".pvtu".toList) (pieceText (dir ++ '/' :: file) i) =
        (dir ++ ['/']) ++ (dir ++ '/' :: (file ++ '_' :: pad4 i ++ ".vtu".toList)) := by
      unfold resolve
      rw [pieceText_short hl (by omega), if_neg]
      · rw [directory_append _ (by decide), directory_slash _ hfile]
        simp
      · intro hc
        cases dir with
        | nil => exact hdir rfl
        | cons c d => exact hrel (by simpa using hc)
    -- the directory a name leads to is longer than the directory of the files written
    have hlen : ∀ n, directory n = dir ++ ['/'] →
        resolve (dir ++ '/' :: file ++ ".pvtu".toList) (pieceText (dir ++ '/' :: file) i) ≠ n := by
      rintro n hn rfl
      rw [hres] at hn
      have h2 : directory (dir ++ ['/'] ++ (dir ++ '/' :: (file ++ '_' :: pad4 i ++ ".vtu".toList))) =
          (dir ++ ['/'] ++ dir) ++ ['/'] := by
        have : dir ++ ['/'] ++ (dir ++ '/' :: (file ++ '_' :: pad4 i ++ ".vtu".toList)) =
            (dir ++ ['/'] ++ dir) ++ '/' :: (file ++ ('_' :: pad4 i ++ ".vtu".toList)) := by simp
        rw [this]
        apply directory_slash
        intro hc
        rcases List.mem_append.mp hc with hc | hc
        · exact hfile hc
        · exact hslash i hc
      rw [h2] at hn
      have := congrArg List.length hn
      simp only [List.length_append, List.length_cons, List.length_nil] at this
      omega
    intro hc
    unfold rankFiles at hc
    rw [List.map_cons] at hc
    rcases List.mem_cons.mp hc with hc | hc
    · refine hlen _ ?_ hc
      rw [pieceText_short hl (by omega), List.append_assoc, directory_append _ (hslash r),
        directory_slash _ hfile]
    · split at hc
      · simp only [List.map_cons, List.map_nil, List.mem_singleton] at hc
        refine hlen _ ?_ hc
        rw [directory_append _ (by decide), directory_slash _ hfile]
      · simp at hc

/-- With a base name of 255 characters or more all ranks write to one file, and its name is not even that of
a piece: what one rank writes replaces what another wrote. -/
theorem C53_truncated_wrong (base : Text) (hb : '%' ∉ base) (hl : 255 ≤ base.length) (size stack : Nat)
    (hs : 5 ≤ stack) (r r' : Nat) (w w' : PGrid) (m m' : UMesh) (h k : Heap)
    (hw : w.Fresh m h) (hw' : w'.Fresh m' k) :
    ∃ h' k' t t' more more', w.toVTK r size stack base h = .ok (h', (base.take 255, t) :: more) ∧
      w'.toVTK r' size stack base k = .ok (k', (base.take 255, t') :: more') := by
  have ht : ∀ i, pieceText base i = base.take 255 := by
    intro i
    unfold pieceText
    rw [List.append_assoc, List.take_append_of_le_length hl]
  obtain ⟨h', e, _⟩ := hw.run hb r size hs
  obtain ⟨k', e', _⟩ := hw'.run hb r' size hs
  obtain ⟨t, more, hh⟩ := rankFiles_head w m r size base
  obtain ⟨t', more', hh'⟩ := rankFiles_head w' m' r' size base
  exact ⟨h', k', t, t', more, more', by rw [e, hh, ht], by rw [e', hh', ht]⟩

/-- A base name with a `%` is undefined behaviour. -/
theorem C53_format_wrong (w : PGrid) (rank size stack : Nat) (base : Text) (hb : '%' ∈ base) (h : Heap) :
    w.toVTK rank size stack base h = .ub := by
  unfold PGrid.toVTK pieceName
  rw [if_pos hb]
  rfl

/-- The header declares another type of file than the grid it contains. -/
theorem C53_type_wrong (w : PGrid) (m : UMesh) (h : Heap) (hw : w.Fresh m h) (hm : m.Clean)
    (hpd : ∀ a ∈ w.vtu.pointData, a.Clean) (hcd : ∀ a ∈ w.vtu.cellData, a.Clean)
    (base : Text) (hb : '%' ∉ base) (hp : Plain base) (size stack : Nat) (hs : 5 ≤ stack) :
    ∃ h' piece header doc, w.toVTK 0 size stack base h =
        .ok (h', [piece, (base ++ ".pvtu".toList, header)]) ∧
      readXML header = some doc ∧
      ("type".toList, "UnstructuredGrid".toList) ∈ doc.attributes ∧
      doc.children.map XTree.name = ["PUnstructuredGrid".toList] := by
  obtain ⟨h', e, _⟩ := hw.run hb 0 size hs
  refine ⟨h', _, _, _, e, readXML_text _ (headerDoc_legal (by unfold Plain; decide) hm.arrays hpd hcd ?_),
    ?_, ?_⟩
  · intro f hf
    obtain ⟨i, _, rfl⟩ := List.mem_map.mp hf
    exact pieceText_plain hp i
  · unfold headerDoc fileElement
    rw [XTree.trimmed]
    exact List.mem_cons_self ..
  · unfold headerDoc fileElement
    rw [XTree.trimmed]
    simp [XTree.children, XTree.trimmed, XTree.name]

/-! ## The hypotheses are met -/

def exArr : DataArr :=
  ⟨"Float32".toList, "u".toList, "1".toList, "ascii".toList, some ("0".toList, "3".toList), "0 3 1 ".toList⟩

def exMesh : UMesh := ⟨"4".toList, "1".toList, exArr, exArr, exArr, exArr⟩

/-- A memory with the two roots of a new parallel writer. -/
def exRoots : Heap :=
  ((Heap.mk (fun _ => none) 0).alloc (rootNode "UnstructuredGrid".toList)).1.alloc
    (rootNode "UnstructuredGrid".toList) |>.1

def exWriter : PGrid := ⟨1, ⟨0, some exMesh, [], [exArr]⟩⟩

theorem exArr_clean : exArr.Clean := by
  refine ⟨?_, ?_, ?_, ?_, ?_, ?_⟩
  · unfold Plain; decide
  · unfold Plain; decide
  · unfold Plain; decide
  · unfold Plain; decide
  · unfold Plain; decide
  · intro r hr
    obtain rfl := Option.some.inj hr
    exact ⟨by unfold Plain; decide, by unfold Plain; decide⟩

example : exWriter.Fresh exMesh exRoots ∧ exMesh.Clean ∧ (∀ a ∈ exWriter.vtu.cellData, a.Clean) := by
  refine ⟨⟨⟨rfl, rfl, by decide, ?_⟩, rfl, by decide, by decide⟩, ⟨?_, ?_, ?_⟩, ?_⟩
  · intro a ha
    simp [exWriter, exMesh, UMesh.arrays] at ha
    subst ha
    rfl
  · unfold Plain; decide
  · unfold Plain; decide
  · intro a ha
    simp [exMesh, UMesh.arrays] at ha
    subst ha
    exact exArr_clean
  · intro a ha
    simp [exWriter] at ha
    subst ha
    exact exArr_clean

example : RGrid.Fresh ⟨0, some ("0 4 0 4 0 0".toList, "0 4 0 4 0 0".toList), [exArr, exArr, emptyArr], [], [exArr]⟩
    "0 4 0 4 0 0".toList "0 4 0 4 0 0".toList
    ((Heap.mk (fun _ => none) 0).alloc (rootNode "RectilinearGrid".toList)).1 := by
  refine ⟨rfl, rfl, by decide, ?_⟩
  intro a ha
  simp at ha
  rcases ha with rfl | rfl | rfl <;> rfl

example : '%' ∉ "out/poisson".toList ∧ Plain "out/poisson".toList ∧ "out".toList.head? ≠ some '/' ∧
    '/' ∉ "poisson".toList := by unfold Plain; decide

end EF
