import Verif.Model.CommName
import Verif.Spec.CommName
import Verif.Props.Describe

/-!
# C109: the name of a communicator tells its ranks
-/

namespace EF

namespace CommName

/-- What one call adds to a name. -/
def rangeText (r : Nat × Nat) : Text := natText r.1 ++ ':' :: natText r.2 ++ ['}']

/-- What the calls add to a name, if all of it is kept. -/
def added (rs : List (Nat × Nat)) : Text := rs.flatMap fun r => "_sub_range=".toList ++ '{' :: rangeText r

theorem subName_eq (n : Text) (r : Nat × Nat) : subName n r.1 r.2 = n ++ ("_sub_range=".toList ++ '{' :: rangeText r) := by
  unfold subName rangeText
  rw [show "_sub_range={".toList = "_sub_range=".toList ++ ['{'] from rfl, show ":".toList = [':'] from rfl, show "}".toList = ['}'] from rfl]
  simp only [List.append_assoc, List.cons_append, List.nil_append]

theorem rangeText_not {c : Char} (h1 : c.isDigit = false) (h2 : c ≠ ':') (h3 : c ≠ '}') (r : Nat × Nat) : c ∉ rangeText r := by
  unfold rangeText
  simp only [List.mem_append, List.mem_cons, List.not_mem_nil, or_false, not_or]
  exact ⟨⟨natText_not h1, h2, natText_not h1⟩, h3⟩

theorem readRange_ok (r : Nat × Nat) {s : Text} (hs : '}' ∉ s) : readRange (rangeText r ++ s) = some r := by
  have e : rangeText r ++ s = (natText r.1 ++ ':' :: natText r.2) ++ '}' :: s := by simp [rangeText]
  have k1 := pieces_plain hs [] []
  rw [List.append_nil, List.nil_append] at k1
  have k2 := pieces_plain (sep := ':') (natText_not (n := r.2) (c := ':') (by decide)) [] []
  rw [List.append_nil, List.nil_append] at k2
  unfold readRange
  rw [e, pieces_plain (by
    simp only [List.mem_append, List.mem_cons, not_or]
    exact ⟨natText_not (by decide), by decide, natText_not (by decide)⟩), List.nil_append, pieces, if_pos rfl, k1]
  simp only [pieces]
  rw [pieces_plain (natText_not (by decide)), List.nil_append, pieces, if_pos rfl, k2]
  simp [pieces, readDigits_natText]

theorem pieces_added {base : Text} (hb : '{' ∉ base) (rs : List (Nat × Nat)) :
    ∃ s L, '}' ∉ s ∧ pieces '{' [] (base ++ added rs) = (base ++ s) :: L ∧ L.map readRange = rs.map some := by
  induction rs generalizing base with
  | nil =>
    refine ⟨[], [], by simp, ?_, rfl⟩
    show pieces '{' [] (base ++ []) = _
    rw [pieces_plain hb]
    simp [pieces]
  | cons r rs ih =>
    obtain ⟨s, L, h1, h2, h3⟩ := ih (rangeText_not (c := '{') (by decide) (by decide) (by decide) r)
    refine ⟨"_sub_range=".toList, (rangeText r ++ s) :: L, by decide, ?_, ?_⟩
    · have e : base ++ added (r :: rs) = (base ++ "_sub_range=".toList) ++ '{' :: (rangeText r ++ added rs) := by
        simp only [added, List.flatMap_cons, List.append_assoc, List.cons_append]
      rw [e, pieces_plain (by
        simp only [List.mem_append, not_or]
        exact ⟨hb, by decide⟩), List.nil_append, pieces, if_pos rfl, h2]
    · rw [List.map_cons, h3, readRange_ok r h1, List.map_cons]

theorem mapM_some {α : Type} (l : List α) : (l.map some).mapM id = some l := by
  induction l with
  | nil => rfl
  | cons a l ih => rw [List.map_cons, List.mapM_cons, ih]; rfl

theorem readRanges_added {base : Text} (hb : '{' ∉ base) (rs : List (Nat × Nat)) : readRanges (base ++ added rs) = some rs := by
  obtain ⟨s, L, -, h2, h3⟩ := pieces_added hb rs
  unfold readRanges
  rw [h2, List.tail_cons, h3, mapM_some]

theorem added_plain (rs : List (Nat × Nat)) : ∀ c ∈ added rs, c ≠ '\u0000' := by
  intro c hc
  unfold added at hc
  obtain ⟨r, -, hc⟩ := List.mem_flatMap.1 hc
  rcases List.mem_append.1 hc with hc | hc
  · rintro rfl
    exact absurd hc (by decide)
  · rcases List.mem_cons.1 hc with rfl | hc
    · decide
    · rintro rfl
      exact rangeText_not (by decide) (by decide) (by decide) r hc

theorem takeWhile_plain {n : Text} (h0 : ∀ c ∈ n, c ≠ '\u0000') : n.takeWhile (· ≠ '\u0000') = n := by
  induction n with
  | nil => rfl
  | cons c n ih => rw [List.takeWhile_cons_of_pos (by simp [h0 c (by simp)]), ih fun d hd => h0 d (by simp [hd])]

theorem set_short {limit : Nat} {n : Text} (h0 : ∀ c ∈ n, c ≠ '\u0000') (hl : n.length < limit) : set limit n = n := by
  unfold set
  rw [takeWhile_plain h0, List.take_of_length_le (by omega)]

theorem foldl_short {limit : Nat} (hb : limit ≤ 255) (rs : List (Nat × Nat)) {base : Text} (h0 : ∀ c ∈ base, c ≠ '\u0000')
    (hl : (base ++ added rs).length < limit) :
    rs.foldlM (fun n r => subset limit n r.1 r.2) base = .ok (base ++ added rs) := by
  induction rs generalizing base with
  | nil => simp [added]
  | cons r rs ih =>
    have e : base ++ added (r :: rs) = (base ++ ("_sub_range=".toList ++ '{' :: rangeText r)) ++ added rs := by
      simp only [added, List.flatMap_cons, List.append_assoc, List.cons_append]
    have k0 : ∀ c ∈ base ++ ("_sub_range=".toList ++ '{' :: rangeText r), c ≠ '\u0000' := by
      intro c hc
      rcases List.mem_append.1 hc with hc | hc
      · exact h0 c hc
      · exact added_plain [r] c (by simpa [added] using hc)
    rw [e] at hl ⊢
    have hl1 := hl
    rw [List.length_append] at hl1
    have hl2 := hl1
    rw [List.length_append] at hl2
    have e1 : subset limit base r.1 r.2 = .ok (base ++ ("_sub_range=".toList ++ '{' :: rangeText r)) := by
      unfold subset get
      rw [if_neg (by omega), Res.ok_bind, subName_eq, set_short k0 (by omega)]
      rfl
    rw [List.foldlM_cons, e1, Res.ok_bind, ih k0 hl]

/-- C109: as long as all of it is shorter than what MPI keeps, the name of a communicator made by subset calls, one within the other, tells the
ranges of all calls in order.  Missing: longer names, see `C109_long_wrong` and `C109_buffer_wrong`. -/
theorem C109_partial {limit : Nat} (hb : limit ≤ 255) {base : Text} (h0 : '\u0000' ∉ base) (h1 : '{' ∉ base) (rs : List (Nat × Nat))
    (hl : (base ++ added rs).length < limit) : ∃ n, nested limit base rs = .ok n ∧ readRanges n = some rs := by
  refine ⟨base ++ added rs, ?_, readRanges_added h1 rs⟩
  unfold nested
  rw [foldl_short hb rs (fun c hc h => h0 (h ▸ hc)) hl, Res.ok_bind, get, if_neg (by omega)]

theorem natText_len {n k : Nat} (h : n < 10 ^ k) (hk : 0 < k) : (natText n).length ≤ k := by
  exact (Nat.length_toDigits_le_iff (by omega) hk).2 h

/-- C109 for the nodes of a quadtree: with every MPI library that keeps at least 63 characters and no more than the buffer holds, the name of
the communicator of a node tells its ranks, for all numbers an `int` can be. -/
theorem C109_tree {limit first last : Nat} (h1 : 64 ≤ limit) (h2 : limit ≤ 255) (hf : first < 2 ^ 31) (hl : last < 2 ^ 31) :
    ∃ n, nodeName limit first last = .ok n ∧ readRanges n = some [(first, last)] := by
  refine C109_partial h2 (by decide) (by decide) _ ?_
  have k1 : (natText first).length ≤ 10 := natText_len (by omega) (by omega)
  have k2 : (natText last).length ≤ 10 := natText_len (by omega) (by omega)
  simp only [added, rangeText, List.flatMap_cons, List.flatMap_nil, List.append_nil, List.length_append, List.length_cons, List.length_nil,
    show world.length = 14 from rfl, show "_sub_range=".toList.length = 11 from rfl]
  omega

/-- So two nodes with one name have the same ranks. -/
theorem C109_nodes_differ {limit a b c d : Nat} (h1 : 64 ≤ limit) (h2 : limit ≤ 255) (ha : a < 2 ^ 31) (hb : b < 2 ^ 31) (hc : c < 2 ^ 31)
    (hd : d < 2 ^ 31) (h : nodeName limit a b = nodeName limit c d) : a = c ∧ b = d := by
  obtain ⟨n, e1, e2⟩ := C109_tree h1 h2 ha hb
  obtain ⟨m, e3, e4⟩ := C109_tree h1 h2 hc hd
  rw [h, e3, Res.ok_inj] at e1
  subst e1
  rw [e2] at e4
  simpa using e4

/-- One more call for the first rank. -/
theorem subset_zero {limit : Nat} {n : Text} (h0 : ∀ c ∈ n, c ≠ '\u0000') (hn : n.length ≤ 254) (r : Nat × Nat) :
    subset limit n r.1 r.2 = .ok ((n ++ ("_sub_range=".toList ++ '{' :: rangeText r)).take (limit - 1)) ∧
      ∀ c ∈ (n ++ ("_sub_range=".toList ++ '{' :: rangeText r)).take (limit - 1), c ≠ '\u0000' := by
  have k0 : ∀ c ∈ n ++ ("_sub_range=".toList ++ '{' :: rangeText r), c ≠ '\u0000' := by
    intro c hc
    rcases List.mem_append.1 hc with hc | hc
    · exact h0 c hc
    · exact added_plain [r] c (by simpa [added] using hc)
  refine ⟨?_, fun c hc => k0 c (List.mem_of_mem_take hc)⟩
  unfold subset get set
  rw [if_neg (by omega), Res.ok_bind, subName_eq, takeWhile_plain k0]
  rfl

theorem zero_length : ("_sub_range=".toList ++ '{' :: rangeText (0, 0)).length = 16 := by decide

theorem foldlM_snoc (limit k : Nat) : (List.replicate (k + 1) (0, 0)).foldlM (fun n r => subset limit n r.1 r.2) world =
    ((List.replicate k (0, 0)).foldlM (fun n r => subset limit n r.1 r.2) world >>= fun n => subset limit n 0 0) := by
  rw [List.replicate_succ', List.foldlM_append]
  simp only [List.foldlM_cons, List.foldlM_nil, bind_pure]

/-- The name along a chain of calls for the first rank grows until it has the most characters MPI keeps. -/
theorem zeros_grow {limit : Nat} (h1 : 0 < limit) (hb : limit ≤ 255) (k : Nat) :
    ∃ n, (List.replicate (k + 1) (0, 0)).foldlM (fun n r => subset limit n r.1 r.2) world = .ok n ∧
      (∀ c ∈ n, c ≠ '\u0000') ∧ n.length < limit ∧ min k (limit - 1) ≤ n.length := by
  induction k with
  | zero =>
    obtain ⟨e1, e2⟩ := subset_zero (limit := limit) (n := world) (by decide) (by decide) (0, 0)
    refine ⟨_, (foldlM_snoc limit 0).trans e1, e2, ?_, by omega⟩
    rw [List.length_take]
    omega
  | succ k ih =>
    obtain ⟨n, a1, a2, a3, a4⟩ := ih
    obtain ⟨e1, e2⟩ := subset_zero (limit := limit) a2 (by omega) (0, 0)
    refine ⟨_, by rw [foldlM_snoc, a1, Res.ok_bind, e1], e2, ?_, ?_⟩
    · rw [List.length_take]
      omega
    · rw [List.length_take, List.length_append, zero_length]
      omega

/-- C109 is false for subsets of subsets: whatever MPI keeps, there is a chain of calls after which every further call, for whatever ranks, gives
the same name. -/
theorem C109_long_wrong {limit : Nat} (h1 : 0 < limit) (hb : limit ≤ 255) : ∃ rs : List (Nat × Nat), ∀ r : Nat × Nat,
    nested limit world (rs ++ [r]) = nested limit world rs ∧ ∃ n, nested limit world rs = .ok n := by
  obtain ⟨n, a1, a2, a3, a4⟩ := zeros_grow h1 hb (limit - 1)
  refine ⟨List.replicate (limit - 1 + 1) (0, 0), fun r => ?_⟩
  have a5 : n.length = limit - 1 := by omega
  obtain ⟨e1, -⟩ := subset_zero (limit := limit) a2 (by omega) r
  rw [List.take_left' a5] at e1
  unfold nested
  rw [List.foldlM_append, a1, Res.ok_bind, Res.ok_bind, List.foldlM_cons, e1, Res.ok_bind, List.foldlM_nil]
  exact ⟨rfl, n, by rw [get, if_neg (by omega)]⟩

/-- With an MPI library that keeps names of 255 characters, sixteen subsets one within the other write past the end of the buffer. -/
theorem C109_buffer_wrong {limit : Nat} (h : 256 ≤ limit) : nested limit world (List.replicate 16 (0, 0)) = .ub := by
  have key : ∀ k, k ≤ 15 → ∃ n, (List.replicate k (0, 0)).foldlM (fun n r => subset limit n r.1 r.2) world = .ok n ∧
      (∀ c ∈ n, c ≠ '\u0000') ∧ n.length = 14 + 16 * k := by
    intro k hk
    induction k with
    | zero => exact ⟨world, rfl, by decide, rfl⟩
    | succ k ih =>
      obtain ⟨n, a1, a2, a3⟩ := ih (by omega)
      obtain ⟨e1, e2⟩ := subset_zero (limit := limit) a2 (by omega) (0, 0)
      refine ⟨_, by rw [foldlM_snoc, a1, Res.ok_bind, e1], e2, ?_⟩
      rw [List.length_take, List.length_append, zero_length]
      omega
  obtain ⟨n, a1, a2, a3⟩ := key 15 (by omega)
  obtain ⟨e1, -⟩ := subset_zero (limit := limit) a2 (by omega) (0, 0)
  unfold nested
  rw [foldlM_snoc, a1, Res.ok_bind, e1, Res.ok_bind, get, if_pos]
  rw [List.length_take, List.length_append, zero_length]
  omega

/-- A name that was set is the name that is there exactly if it has no null character and is shorter than what MPI keeps. -/
theorem C109_set_iff {limit : Nat} (h1 : 0 < limit) (hb : limit ≤ 255) (name : Text) :
    setAndGet limit name = .ok name ↔ '\u0000' ∉ name ∧ name.length < limit := by
  have hl : (set limit name).length < limit := by
    unfold set
    rw [List.length_take]
    omega
  have e : setAndGet limit name = .ok (set limit name) := by
    unfold setAndGet get
    rw [if_neg (by omega)]
  rw [e, Res.ok_inj]
  constructor
  · intro h
    refine ⟨fun hc => ?_, by rw [← h]; exact hl⟩
    rw [← h] at hc
    unfold set at hc
    have := mem_takeWhile' _ (List.mem_of_mem_take hc)
    simp at this
  · rintro ⟨h2, h3⟩
    exact set_short (fun c hc hn => h2 (hn ▸ hc)) h3

/-- A node of ranks 3 to 17 with MPICH's limit of 128. -/
example : nodeName 128 3 17 = .ok "MPI_COMM_WORLD_sub_range={3:17}".toList ∧
    readRanges "MPI_COMM_WORLD_sub_range={3:17}".toList = some [(3, 17)] := by decide +kernel

/-- With Open MPI's limit of 64, three subsets one within the other still fit, and of the fourth only the beginning is kept. -/
example : (world ++ added [(0, 15), (4, 7), (0, 1)]).length < 64 ∧ nested 64 world [(0, 15), (4, 7), (0, 1), (1, 1)] =
    .ok "MPI_COMM_WORLD_sub_range={0:15}_sub_range={4:7}_sub_range={0:1}".toList := by decide +kernel

end CommName

end EF
