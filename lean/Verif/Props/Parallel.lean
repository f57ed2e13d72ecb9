import Verif.Props.Quadtree

/-!
# Merge and split on several ranks
-/

namespace EF

variable {K T τ : Type} [Inhabited T]

/-- The configuration in which every rank is about to merge. -/
def mergeConfig (M : Nat) (F : Forest) (lf : T → Res T) (ff : Fam T → Res (Fam T)) (Q : Nat → Quadtree T) (s : τ) :
    Config T (Quadtree T × τ) :=
  fun r => (Q r).merge M r F .broadcast (onData (stateless lf)) (onFamily ff) s

/-- The configuration in which every rank is about to split. -/
def splitConfig (M : Nat) (F : Forest) (lf : T → Res T) (ff : Fam T → Res (Fam T)) (Q : Nat → Quadtree T) (s : τ) :
    Config T (Quadtree T × τ) :=
  fun r => (Q r).split M r F .broadcast (onData (stateless lf)) (onFamily ff) s

/-- Parallel merge is serial merge.  `t` is the tree the ranks hold together, `t'` what the serial recursion makes of it.
When no rank of the range is without leaves, there is a number `n` of collectives such that every run, whatever the order in
which ranks arrive, can be continued to the same end after `n` collectives in all (so no run deadlocks or goes on for ever),
and at that end every rank has finished without error and holds its part of `t'`. -/
theorem C38_merge_partial {M : Nat} {F : Forest} (hM : F.depth ≤ M) (hs : F.Sorted)
    (hfull : ∀ r, F.first ≤ r → r ≤ F.last → r ∈ F.ranks) {lf : T → Res T} {ff : Fam T → Res (Fam T)} {t t' : Tree T}
    (ht : t.merge lf ff = .ok t') {Q : Nat → Quadtree T} (hQ : Holds F t Q) (s : τ) :
    ∃ (n : Nat) (Q' : Nat → Quadtree T), Holds F t' Q' ∧
      ∀ k c, Run k (mergeConfig M F lf ff Q s) c → k ≤ n ∧ Run (n - k) c (fun r => .fin (.ok (Q' r, s))) := by
  obtain ⟨m', h1, h2⟩ := merge_runs (M := M) (m := fun r => (Q r).map) (s := fun _ => s) F (a := []) Addr.Valid.nil
    (by simpa using hM) hs (fun r hr => hfull r hr.1 hr.2) ht (fun r _ => (hQ r).1)
  have h3 := kid_runs (S := fun _ => True) hs (fun r hr x => searchPost_skip (fun hm => hr (hs.spans_of_mem hm)) _ _) (fun _ _ => trivial)
    (Tree.merge_shape ht) (fun r _ => (hQ r).1) (fun _ _ => rfl) ⟨m', h1, h2⟩
  obtain ⟨m'', g1, g2, _⟩ := h3
  obtain ⟨n, c, r1, r2, _⟩ := g1 (Quadtree T × τ) (fun r x => pure (⟨x.1, (Q r).userPointer⟩, x.2)) (mergeConfig M F lf ff Q s)
    (fun r _ => by unfold mergeConfig Quadtree.merge; rw [(hQ r).2]; rfl)
  have hc : c = fun r => .fin (.ok (⟨m'' r, .this⟩, s)) := by
    funext r
    rw [r2 r trivial, (hQ r).2]
    rfl
  refine ⟨n, fun r => ⟨m'' r, .this⟩, fun r => ⟨g2 r trivial, rfl⟩, ?_⟩
  intro k c' hk
  have := Run.all r1 (by rw [hc]; exact fun r => ⟨_, rfl⟩) hk
  rwa [hc] at this

/-- Parallel split is serial split, in the same sense. -/
theorem C38_split_partial {M : Nat} {F : Forest} (hM : F.depth ≤ M) (hs : F.Sorted)
    (hfull : ∀ r, F.first ≤ r → r ≤ F.last → r ∈ F.ranks) {lf : T → Res T} {ff : Fam T → Res (Fam T)} {t t' : Tree T}
    (ht : t.split lf ff = .ok t') {Q : Nat → Quadtree T} (hQ : Holds F t Q) (s : τ) :
    ∃ (n : Nat) (Q' : Nat → Quadtree T), Holds F t' Q' ∧
      ∀ k c, Run k (splitConfig M F lf ff Q s) c → k ≤ n ∧ Run (n - k) c (fun r => .fin (.ok (Q' r, s))) := by
  obtain ⟨m', h1, h2⟩ := split_runs (M := M) (m := fun r => (Q r).map) (s := fun _ => s) F (a := []) Addr.Valid.nil
    (by simpa using hM) hs (fun r hr => hfull r hr.1 hr.2) ht (fun r _ => (hQ r).1)
  have h3 := kid_runs (S := fun _ => True) hs (fun r hr x => searchPre_skip (fun hm => hr (hs.spans_of_mem hm)) _ _) (fun _ _ => trivial)
    (Tree.splitFrom_shape ht) (fun r _ => (hQ r).1) (fun _ _ => rfl) ⟨m', h1, h2⟩
  obtain ⟨m'', g1, g2, _⟩ := h3
  obtain ⟨n, c, r1, r2, _⟩ := g1 (Quadtree T × τ) (fun r x => pure (⟨x.1, (Q r).userPointer⟩, x.2)) (splitConfig M F lf ff Q s)
    (fun r _ => by unfold splitConfig Quadtree.split; rw [(hQ r).2]; rfl)
  have hc : c = fun r => .fin (.ok (⟨m'' r, .this⟩, s)) := by
    funext r
    rw [r2 r trivial, (hQ r).2]
    rfl
  refine ⟨n, fun r => ⟨m'' r, .this⟩, fun r => ⟨g2 r trivial, rfl⟩, ?_⟩
  intro k c' hk
  have := Run.all r1 (by rw [hc]; exact fun r => ⟨_, rfl⟩) hk
  rwa [hc] at this

/-- Ranks without leaves inside the range of a node: four leaves on ranks `k0 ≤ k1 ≤ k2 ≤ k3` with some rank between `k0` and
`k3` that owns none (as p4est distributes four leaves over eight ranks).  The owners wait for that rank in the first
collective, that rank has already finished, and no collective can ever happen. -/
theorem C38_empty_rank_wrong {M : Nat} (hM : 1 ≤ M) {k0 k1 k2 k3 e : Nat} (h01 : k0 ≤ k1) (h12 : k1 ≤ k2) (h23 : k2 ≤ k3)
    (he0 : k0 < e) (he1 : e ≠ k1) (he2 : e ≠ k2) (he3 : e < k3) {lf : T → Res T} (ff : Fam T → Res (Fam T))
    {d d0 d1 d2 d3 : T} (hlf : ∀ x ∈ [d0, d1, d2, d3], ∃ y, lf x = .ok y) {Q : Nat → Quadtree T}
    (hQ : Holds (.node (.leaf k0) (.leaf k1) (.leaf k2) (.leaf k3)) (.node d (.leaf d0) (.leaf d1) (.leaf d2) (.leaf d3)) Q) (s : τ) :
    (mergeConfig M (.node (.leaf k0) (.leaf k1) (.leaf k2) (.leaf k3)) lf ff Q s).Stuck := by
  have hv : ∀ {i : Nat}, i < 4 → Addr.Valid ([] ++ [i]) := fun hi => Addr.Valid.nil.snoc hi
  -- a rank without leaves has nothing to do
  have idle : ∀ r, r ∉ (Forest.node (.leaf k0) (.leaf k1) (.leaf k2) (.leaf k3)).ranks →
      ∃ x, mergeConfig M (.node (.leaf k0) (.leaf k1) (.leaf k2) (.leaf k3)) lf ff Q s r = .fin x := by
    intro r hr
    unfold mergeConfig Quadtree.merge
    rw [searchPost_skip hr]
    exact ⟨_, rfl⟩
  -- an owner waits for all of `k0 … k3`
  have wait : ∀ r, r ∈ (Forest.node (.leaf k0) (.leaf k1) (.leaf k2) (.leaf k3)).ranks →
      ∃ v k, mergeConfig M (.node (.leaf k0) (.leaf k1) (.leaf k2) (.leaf k3)) lf ff Q s r = .allMax k0 k3 ['0'] v k := by
    intro r hr
    obtain ⟨⟨z, z0, z1, z2, z3⟩, hp⟩ := hQ r
    obtain ⟨m0, a0, f0⟩ := leaf_step (M := M) (ff := ff) (s := s) (hv (i := 0) (by omega)) (by simpa using hM) z0 (hlf d0 (by simp))
    have z1' := z1.entry.congr (f0 _ (not_below_sib Addr.Valid.nil (i := 1) (j := 0) (by omega) (by omega) (by omega) (below_self _)))
    obtain ⟨m1, a1, f1⟩ := leaf_step (M := M) (ff := ff) (s := s) (hv (i := 1) (by omega)) (by simpa using hM) z1' (hlf d1 (by simp))
    have z2' := (z2.entry.congr (f0 _ (not_below_sib Addr.Valid.nil (i := 2) (j := 0) (by omega) (by omega) (by omega)
      (below_self _)))).congr (f1 _ (not_below_sib Addr.Valid.nil (i := 2) (j := 1) (by omega) (by omega) (by omega) (below_self _)))
    obtain ⟨m2, a2, f2⟩ := leaf_step (M := M) (ff := ff) (s := s) (hv (i := 2) (by omega)) (by simpa using hM) z2' (hlf d2 (by simp))
    have z3' := ((z3.entry.congr (f0 _ (not_below_sib Addr.Valid.nil (i := 3) (j := 0) (by omega) (by omega) (by omega)
      (below_self _)))).congr (f1 _ (not_below_sib Addr.Valid.nil (i := 3) (j := 1) (by omega) (by omega) (by omega)
      (below_self _)))).congr (f2 _ (not_below_sib Addr.Valid.nil (i := 3) (j := 2) (by omega) (by omega) (by omega) (below_self _)))
    obtain ⟨m3, a3, f3⟩ := leaf_step (M := M) (ff := ff) (s := s) (hv (i := 3) (by omega)) (by simpa using hM) z3' (hlf d3 (by simp))
    have zr := z.congr (frame_kids f0 f1 f2 f3).1
    obtain ⟨v, k, hw⟩ := mergeSplit_waits (M := M) (lf := stateless lf) (ff := ff) (s := s) Addr.Valid.nil (by simp) zr (by
      simp only [Forest.ranks, List.mem_append, List.mem_singleton] at hr
      constructor <;> simp only [Forest.first, Forest.last] <;> omega) (by simp only [Forest.first, Forest.last]; omega)
    unfold mergeConfig Quadtree.merge
    rw [hp, show Quadrant.root = Addr.quad M [] from rfl]
    simp only [searchPost, ← Addr.quad_snoc] at a0 a1 a2 a3 ⊢
    rw [if_pos hr, a0, pure_bind, a1, pure_bind, a2, pure_bind, a3, pure_bind, hw]
    exact ⟨_, _, rfl⟩
  have hk0 : k0 ∈ (Forest.node (.leaf k0) (.leaf k1) (.leaf k2) (.leaf k3)).ranks := by simp [Forest.ranks]
  have he : e ∉ (Forest.node (.leaf k0) (.leaf k1) (.leaf k2) (.leaf k3)).ranks := by
    simp only [Forest.ranks, List.mem_append, List.mem_singleton]
    omega
  constructor
  · intro hd
    obtain ⟨x, hx⟩ := hd k0
    obtain ⟨v, k, hw⟩ := wait k0 hk0
    rw [hw] at hx
    cases hx
  · rintro ⟨c', hc⟩
    obtain ⟨x, hx⟩ := idle e he
    cases hc with
    | allMax lo hi name v k hle arr _ _ =>
      by_cases hlo : lo ∈ (Forest.node (.leaf k0) (.leaf k1) (.leaf k2) (.leaf k3)).ranks
      · obtain ⟨v', k', hw⟩ := wait lo hlo
        have := (arr lo (le_refl _) hle).symm.trans hw
        injection this with e1 e2
        have hm := arr e (by omega) (by omega)
        rw [hx] at hm
        cases hm
      · obtain ⟨y, hy⟩ := idle lo hlo
        have := arr lo (le_refl _) hle
        rw [hy] at this
        cases this
    | bcast lo hi name root v k hle arr _ _ =>
      by_cases hlo : lo ∈ (Forest.node (.leaf k0) (.leaf k1) (.leaf k2) (.leaf k3)).ranks
      · obtain ⟨v', k', hw⟩ := wait lo hlo
        have := (arr lo (le_refl _) (by omega)).symm.trans hw
        cases this
      · obtain ⟨y, hy⟩ := idle lo hlo
        have := arr lo (le_refl _) (by omega)
        rw [hy] at this
        cases this

/-! ## The whole construction -/

/-- What the ranks hold after construction and one pre-order traversal that changes nothing. -/
theorem C38_new_holds [Field K] {M : Nat} (p : Patch K) {F : Forest} (hM : F.depth ≤ M) (hs : F.Sorted) (saved : UserPointer) :
    ∃ Q0 Q : Nat → Quadtree (Patch K), (∀ r, Quadtree.new M r p FVFactory.factory F saved = .ok (Q0 r) ∧
      ∃ log, (Q0 r).traversePreOrder M r F notePath [] = .ok (Q r, log)) ∧ Holds F (startTree p F []) Q := by
  choose m hm he using fun r => construct_ok (M := M) r p hM hs
  refine ⟨fun r => ⟨m r, saved⟩, fun r => ⟨m r, .this⟩, fun r => ⟨?_, ?_⟩, fun r => ⟨(he r).rep, rfl⟩⟩
  · unfold Quadtree.new
    rw [hm r]
    rfl
  · obtain ⟨L, _, h⟩ := C37_preorder_paths (Q := ⟨m r, saved⟩) hM hs (he r).rep
    exact ⟨_, h⟩

/-- The parallel build without cached operators leaves every rank with its part of the tree the serial build makes. -/
theorem C38_build_partial [Field K] {M : Nat} {F : Forest} (hM : F.depth ≤ M) (hs : F.Sorted)
    (hfull : ∀ r, F.first ≤ r → r ≤ F.last → r ∈ F.ranks) (lap : Lapack K) (ps : PatchSolver K) {opt : HPSOptions}
    (hopt : opt.cacheOperators = false) {t t1 : Tree (Patch K)} {c c1 : Option (Mat K)}
    (ht : HPS.buildStage lap ps opt t c = .ok (t1, c1)) {Q : Nat → Quadtree (Patch K)} (hQ : Holds F t Q) :
    ∃ (n : Nat) (Q' : Nat → Quadtree (Patch K)), Holds F t1 Q' ∧
      ∀ k cfg, Run k (fun r => (Q r).merge M r F .broadcast (onData (HPS.buildLeaf ps opt)) (onFamily (HPS.merge4to1 lap)) c) cfg →
        k ≤ n ∧ Run (n - k) cfg (fun r => .fin (.ok (Q' r, c))) := by
  let lf : Patch K → Res (Patch K) := fun p => do
    let T ← ps.buildD2N p.grid
    pure { p with T := T }
  have hl : HPS.buildLeaf ps opt = stateless lf := by
    funext p s
    unfold HPS.buildLeaf
    simp only [hopt, lf, stateless, bind_assoc, pure_bind, Bool.false_eq_true, if_false]
  unfold HPS.buildStage at ht
  rw [hl, Tree.mergeSt_stateless] at ht
  obtain ⟨t', h1, h2⟩ := Res.bind_eq_ok.mp ht
  rw [Res.pure_def, Res.ok_inj] at h2
  obtain ⟨rfl, rfl⟩ := Prod.mk.inj h2
  rw [hl]
  exact C38_merge_partial hM hs hfull h1 hQ c

/-! ## Concrete cases -/

theorem exForest_full : ∀ r, exForest.first ≤ r → r ≤ exForest.last → r ∈ exForest.ranks := by
  intro r _ h
  have : r ≤ 2 := h
  interval_cases r <;> decide

/-- Marks a leaf. -/
def exMark (p : Patch ℚ) : Res (Patch ℚ) := .ok { p with nCoarsens := 1 }

/-- Counts the leaves below a node. -/
def exCount (F : Fam (Patch ℚ)) : Res (Fam (Patch ℚ)) :=
  .ok { F with tau := { F.tau with nCoarsens := F.a.nCoarsens + F.b.nCoarsens + F.c.nCoarsens + F.d.nCoarsens } }

/-- A merge on three ranks that counts leaves. -/
example : ∃ (Q Q' : Nat → Quadtree (Patch ℚ)) (t' : Tree (Patch ℚ)) (n : Nat), Holds exForest t' Q' ∧ t'.val.nCoarsens = 7 ∧
    ∀ k c, Run k (mergeConfig 30 exForest exMark exCount Q ()) c → k ≤ n ∧ Run (n - k) c (fun r => .fin (.ok (Q' r, ()))) := by
  obtain ⟨_, Q, _, hQ⟩ := C38_new_holds exRoot exForest_depth exForest_sorted .null
  obtain ⟨t', ht, h7⟩ : ∃ t', (startTree exRoot exForest []).merge exMark exCount = .ok t' ∧ t'.val.nCoarsens = 7 := ⟨_, rfl, rfl⟩
  obtain ⟨n, Q', h1, h2⟩ := C38_merge_partial exForest_depth exForest_sorted exForest_full ht hQ ()
  exact ⟨Q, Q', t', n, h1, h7, h2⟩

/-- Four leaves on ranks 1, 3, 5, 7: rank 2 has none. -/
example : ∃ Q : Nat → Quadtree (Patch ℚ), (mergeConfig 30 (.node (.leaf 1) (.leaf 3) (.leaf 5) (.leaf 7)) (fun p => .ok p)
    (fun F => .ok F) Q ()).Stuck := by
  obtain ⟨_, Q, _, hQ⟩ := C38_new_holds exRoot (M := 30) (F := .node (.leaf 1) (.leaf 3) (.leaf 5) (.leaf 7)) (by decide)
    (by unfold Forest.Sorted; decide) .null
  exact ⟨Q, C38_empty_rank_wrong (e := 2) (by omega) (by omega) (by omega) (by omega) (by omega) (by omega) (by omega) (by omega)
    _ (fun x _ => ⟨x, rfl⟩) hQ ()⟩

end EF
