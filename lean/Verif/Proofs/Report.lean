import Verif.Proofs.ParallelRun
import Verif.Proofs.Converge
import Verif.Spec.Report
import Verif.Spec.Placed
import Verif.Spec.Sqrt

/-!
# Errors summed over the leaves of a rank
-/

namespace EF

open Finset FV HPS

variable {K T τ : Type}

/-- The traversal after the children hands every leaf of the rank to the function, in z-order. -/
theorem leafVisit_post {M r : Nat} {fn : T → τ → Res (T × τ)} (F : Forest) {a : Addr} (ha : a.Valid)
    (hl : a.length + F.depth ≤ M) (hF : F.Sorted) {t : Tree T} {m : NodeMap T} {s : τ} (h : Rep r F t a m) :
    EndsR (leafPass r fn F t s) (searchPost M r (searchVisit M r .this (leafVisit fn)) F (a.quad M) (m, s))
      (fun t' m' => Rep r F t' a m' ∧ ∀ p, ¬ Below a p → (m'.get p).1 = (m.get p).1) := by
  induction F generalizing t a m s with
  | leaf k =>
    have := leafVisit_run (M := M) (fn := fn) (.leaf k) ha hl hF (s := s) h
    simpa only [searchPre, searchPost] using this
  | node c0 c1 c2 c3 h0 h1 h2 h3 =>
    by_cases hr : r ∈ (Forest.node c0 c1 c2 c3).ranks
    · cases t with
      | leaf => exact absurd h id
      | node d t0 t1 t2 t3 =>
        have hs := hF.spans_of_mem hr
        obtain ⟨he, k0, k1, k2, k3⟩ := h
        obtain ⟨o0, o1, o2, o3⟩ := hF.kids
        simp only [Forest.depth] at hl
        simp only [searchPost, leafPass, ← Addr.quad_snoc]
        rw [if_pos hr]
        refine (h0 (ha.snoc (by omega)) (by simp; omega) o0 k0).bind ?_
        rintro t0' s1 m1 ⟨q0, f0⟩
        refine (h1 (ha.snoc (by omega)) (by simp; omega) o1 (k1.congr fun p hp =>
          f0 p (not_below_sib ha (by omega) (by omega) (by omega) hp))).bind ?_
        rintro t1' s2 m2 ⟨q1, f1⟩
        refine (h2 (ha.snoc (by omega)) (by simp; omega) o2 ((k2.congr fun p hp =>
          f0 p (not_below_sib ha (by omega) (by omega) (by omega) hp)).congr fun p hp =>
          f1 p (not_below_sib ha (by omega) (by omega) (by omega) hp))).bind ?_
        rintro t2' s3 m3 ⟨q2, f2⟩
        refine (h3 (ha.snoc (by omega)) (by simp; omega) o3 (((k3.congr fun p hp =>
          f0 p (not_below_sib ha (by omega) (by omega) (by omega) hp)).congr fun p hp =>
          f1 p (not_below_sib ha (by omega) (by omega) (by omega) hp)).congr fun p hp =>
          f2 p (not_below_sib ha (by omega) (by omega) (by omega) hp))).bind ?_
        rintro t3' s4 m4 ⟨q3, f3⟩
        obtain ⟨e4, f4⟩ := frame_kids f0 f1 f2 f3
        have he4 := he.congr e4
        dsimp only
        rw [searchVisit_entry ha (by omega) he4 hs]
        unfold leafVisit
        rw [if_neg (show ¬ (nodeOf d a (.node c0 c1 c2 c3)).leaf = true from Bool.false_ne_true)]
        simp only [pure_bind]
        have hf : ∀ p, ((m4.set a.text (some (nodeOf d a (.node c0 c1 c2 c3)))).get p).1 = (m4.get p).1 := by
          intro p
          by_cases hp : p = a.text
          · rw [hp, get_set]
            unfold Entry at he4
            rw [he4, if_pos hs]
          · exact get_congr (set_other hp _)
        refine ⟨_, rfl, ⟨he4.congr (hf _), ?_, ?_, ?_, q3.congr fun p _ => hf p⟩, fun p hp => (hf p).trans (f4 p hp)⟩
        · exact (((q0.congr fun p hp => f1 p (not_below_sib ha (by omega) (by omega) (by omega) hp)).congr fun p hp =>
            f2 p (not_below_sib ha (by omega) (by omega) (by omega) hp)).congr fun p hp =>
            f3 p (not_below_sib ha (by omega) (by omega) (by omega) hp)).congr fun p _ => hf p
        · exact ((q1.congr fun p hp => f2 p (not_below_sib ha (by omega) (by omega) (by omega) hp)).congr fun p hp =>
            f3 p (not_below_sib ha (by omega) (by omega) (by omega) hp)).congr fun p _ => hf p
        · exact (q2.congr fun p hp => f3 p (not_below_sib ha (by omega) (by omega) (by omega) hp)).congr fun p _ => hf p
    · rw [leafPass_skip _ h hr]
      refine ⟨m, ?_, h, fun p _ => rfl⟩
      simp only [searchPost]
      rw [if_neg hr]
      rfl

/-- A traversal that only looks at the leaves. -/
theorem traversePost_look {M r : Nat} {F : Forest} (hM : F.depth ≤ M) (hF : F.Sorted) {t : Tree T} {q : Quadtree T}
    (h : Rep r F t [] q.map) (hp : q.userPointer = .this) (g : T → τ → Res τ) (s : τ) {s' : τ}
    (hs : (leavesOf r F t).foldlM (fun s d => g d s) s = .ok s') :
    ∃ q' : Quadtree T, q.traversePostOrder M r F (leafVisit (look g)) s = .ok (q', s') ∧ Rep r F t [] q'.map ∧ q'.userPointer = .this := by
  have e := leafVisit_post (M := M) (fn := look g) F Addr.Valid.nil (by simpa using hM) hF (s := s) h
  rw [leafPass_look F h, hs] at e
  obtain ⟨m', e1, e2, -⟩ := e
  refine ⟨⟨m', .this⟩, ?_, e2, rfl⟩
  unfold Quadtree.traversePostOrder
  rw [hp, show searchPost M r (searchVisit M r .this (leafVisit (look g))) F .root (q.map, s) = _ from e1]
  rfl

/-- A program ends with at most one result. -/
theorem AlwaysEnds.unique {α : Type} {c : Config T α} {z z' : Nat → α} (h : AlwaysEnds c z) (h' : AlwaysEnds c z') : z = z' := by
  obtain ⟨n, hn⟩ := h
  obtain ⟨n', hn'⟩ := h'
  have h1 := (hn 0 c (.refl c)).2
  have h2 := (hn' _ _ h1).2
  have : ∀ k (c1 c2 : Config T α), c1.Done → Run k c1 c2 → c2 = c1 := by
    intro k c1 c2 hd hrun
    cases hrun with
    | refl => rfl
    | step hs _ => exact absurd hs hd.no_step
  have := this _ _ _ (fun r => ⟨_, rfl⟩) h2
  funext r
  have := congrFun this r
  simp only [Prog.fin.injEq, Res.ok_inj] at this
  exact this.symm

theorem foldlM_ok_of {α σ : Type} {f : σ → α → Res σ} {g : σ → α → σ} (l : List α) (h : ∀ a ∈ l, ∀ s, f s a = .ok (g s a)) (s : σ) :
    l.foldlM f s = .ok (l.foldl g s) := by
  induction l generalizing s with
  | nil => rfl
  | cons a l ih =>
    rw [List.foldlM_cons, h a (by simp), Res.ok_bind, ih (fun b hb => h b (by simp [hb]))]
    rfl

/-- The leaves of the ranks together are the leaves of the tree. -/
theorem leavesOf_sum {A : Type} [AddCommMonoid A] (f : T → A) {F : Forest} {r : Nat} {t : Tree T} {a : Addr} {m : NodeMap T}
    (h : Rep r F t a m) {size : Nat} (hr : ∀ k ∈ F.ranks, k < size) :
    ∑ k ∈ range size, ((leavesOf k F t).map f).sum = (t.leaves.map f).sum := by
  induction F generalizing t a with
  | leaf k =>
    cases t with
    | node => exact absurd h id
    | leaf d =>
      have hk := hr k (by simp [Forest.ranks])
      rw [Finset.sum_eq_single k]
      · simp [leavesOf, Tree.leaves]
      · intro b _ hb
        simp [leavesOf, Ne.symm hb]
      · intro hb
        exact absurd (Finset.mem_range.mpr hk) hb
  | node c0 c1 c2 c3 h0 h1 h2 h3 =>
    cases t with
    | leaf => exact absurd h id
    | node d t0 t1 t2 t3 =>
      obtain ⟨-, r0, r1, r2, r3⟩ := h
      simp only [Forest.ranks, List.mem_append] at hr
      simp only [leavesOf, Tree.leaves, List.map_append, List.sum_append, Finset.sum_add_distrib]
      rw [h0 r0 fun k hk => hr k (by simp [hk]), h1 r1 fun k hk => hr k (by simp [hk]), h2 r2 fun k hk => hr k (by simp [hk]),
        h3 r3 fun k hk => hr k (by simp [hk])]

/-- The only rank has all leaves. -/
theorem leavesOf_all {F : Forest} {r k : Nat} {t : Tree T} {a : Addr} {m : NodeMap T} (h : Rep r F t a m) (hk : ∀ j ∈ F.ranks, j = k) :
    leavesOf k F t = t.leaves := by
  induction F generalizing t a with
  | leaf j =>
    cases t with
    | node => exact absurd h id
    | leaf d => simp [leavesOf, Tree.leaves, hk j (by simp [Forest.ranks])]
  | node c0 c1 c2 c3 h0 h1 h2 h3 =>
    cases t with
    | leaf => exact absurd h id
    | node d t0 t1 t2 t3 =>
      obtain ⟨-, r0, r1, r2, r3⟩ := h
      simp only [Forest.ranks, List.mem_append] at hk
      simp only [leavesOf, Tree.leaves]
      rw [h0 r0 fun j hj => hk j (by simp [hj]), h1 r1 fun j hj => hk j (by simp [hj]), h2 r2 fun j hj => hk j (by simp [hj]),
        h3 r3 fun j hj => hk j (by simp [hj])]

/-- A rank that owns leaves has some. -/
theorem leavesOf_ne_nil {F : Forest} {r k : Nat} {t : Tree T} {a : Addr} {m : NodeMap T} (h : Rep r F t a m) (hk : k ∈ F.ranks) :
    leavesOf k F t ≠ [] := by
  induction F generalizing t a with
  | leaf j =>
    cases t with
    | node => exact absurd h id
    | leaf d =>
      simp only [Forest.ranks, List.mem_singleton] at hk
      simp [leavesOf, hk]
  | node c0 c1 c2 c3 h0 h1 h2 h3 =>
    cases t with
    | leaf => exact absurd h id
    | node d t0 t1 t2 t3 =>
      obtain ⟨-, r0, r1, r2, r3⟩ := h
      simp only [Forest.ranks, List.mem_append] at hk
      simp only [leavesOf, ne_eq, List.append_eq_nil_iff, not_and]
      intro a0 a1
      rcases hk with ((hk | hk) | hk) | hk
      · exact absurd a0.1.1 (h0 r0 hk)
      · exact absurd a0.1.2 (h1 r1 hk)
      · exact absurd a0.2 (h2 r2 hk)
      · exact absurd a1 (h3 r3 hk)

section
variable [Field K] [LinearOrder K]

/-- One more cell. -/
def ErrorSums.add (e : ErrorSums K) (c : K × K) : ErrorSums K :=
  { e with l1 := e.l1 + c.1 * c.2, l2 := e.l2 + c.1 * c.2 ^ 2, lI := max e.lI c.2 }

/-- The sums after the cells `cs` of `n` leaves. -/
structure ErrorSums.Of (e : ErrorSums K) (cs : List (K × K)) (n : Nat) : Prop where
  l1 : e.l1 = (cs.map fun c => c.1 * c.2).sum
  l2 : e.l2 = (cs.map fun c => c.1 * c.2 ^ 2).sum
  lI : 0 ≤ e.lI ∧ (∀ c ∈ cs, c.2 ≤ e.lI) ∧ (e.lI = 0 ∨ ∃ c ∈ cs, c.2 = e.lI)
  leaves : e.leaves = n

theorem ErrorSums.Of.start : (ErrorSums.start : ErrorSums K).Of [] 0 :=
  ⟨rfl, rfl, ⟨le_rfl, by simp, Or.inl rfl⟩, rfl⟩

theorem ErrorSums.Of.add {e : ErrorSums K} {cs : List (K × K)} {n : Nat} (h : e.Of cs n) (c : K × K) : (e.add c).Of (cs ++ [c]) n := by
  obtain ⟨h1, h2, ⟨h3, h4, h5⟩, h6⟩ := h
  refine ⟨by simp [ErrorSums.add, h1], by simp [ErrorSums.add, h2], ⟨h3.trans (le_max_left _ _), ?_, ?_⟩, h6⟩
  · intro c' hc'
    rcases List.mem_append.mp hc' with hc' | hc'
    · exact (h4 c' hc').trans (le_max_left _ _)
    · rw [List.mem_singleton.mp hc']; exact le_max_right _ _
  · show max e.lI c.2 = 0 ∨ ∃ c' ∈ cs ++ [c], c'.2 = max e.lI c.2
    rcases le_total e.lI c.2 with hle | hle
    · rw [max_eq_right hle]; exact Or.inr ⟨c, by simp, rfl⟩
    · rw [max_eq_left hle]
      exact h5.imp id fun ⟨c', a, b⟩ => ⟨c', by simp [a], b⟩

theorem ErrorSums.Of.fold {e : ErrorSums K} {cs : List (K × K)} {n : Nat} (h : e.Of cs n) (l : List (K × K)) :
    (l.foldl ErrorSums.add e).Of (cs ++ l) n := by
  induction l generalizing e cs with
  | nil => simpa using h
  | cons c l ih =>
    have := ih (h.add c)
    rwa [List.append_assoc] at this

theorem addLeafError_ok (exact : K → K → K) {p : Patch K} (hu : p.u.size = p.grid.nx * p.grid.ny) (hw : p.u.WF) (e : ErrorSums K) :
    addLeafError exact p e
      = .ok { (cellErrors exact p).foldl ErrorSums.add e with leaves := ((cellErrors exact p).foldl ErrorSums.add e).leaves + 1 } := by
  unfold addLeafError
  have e0 : (forN p.grid.nx (fun i e => do
      let x ← p.grid.point 0 i
      forN p.grid.ny (fun j e => addCellError exact p x i j e) e) e)
      = forN p.grid.nx (fun i e => forN p.grid.ny (fun j e => addCellError exact p (p.grid.x i) i j e) e) e := by
    simp only [Grid.point, if_true, pure_bind]
  rw [e0, forN_cells (fun i j e => addCellError exact p (p.grid.x i) i j e), foldlM_ok_of (g := fun e c =>
    e.add (hx (rect p.grid) p.grid.nx * hy (rect p.grid) p.grid.ny,
      |p.u.data.getD (c.2 + c.1 * p.grid.ny) 0 - exact (cx (rect p.grid) p.grid.nx c.1) (cy (rect p.grid) p.grid.ny c.2)|))]
  · rw [Res.ok_bind]
    unfold cellErrors
    rw [List.foldl_map]
    rfl
  · rintro ⟨i, j⟩ hc s
    obtain ⟨hi, hj⟩ : i < p.grid.nx ∧ j < p.grid.ny := by
      simpa [cellIndices] using hc
    obtain ⟨φ, hφ⟩ := hw.has
    have hlt : j + i * p.grid.ny < p.u.size := by
      rw [hu]
      calc j + i * p.grid.ny < p.grid.ny + i * p.grid.ny := by omega
        _ = (i + 1) * p.grid.ny := by ring
        _ ≤ p.grid.nx * p.grid.ny := Nat.mul_le_mul_right _ hi
    have hget : p.u.get (j + i * p.grid.ny) = .ok (p.u.data.getD (j + i * p.grid.ny) 0) := by
      conv_lhs => rw [Vec.has_iff.mp hφ]
      conv_rhs => rw [Vec.has_iff.mp hφ]
      rw [Vec.get_ofFn hlt, Vec.data_ofFn, getD_listFn hlt]
    unfold addCellError
    simp only [Grid.point, if_true, one_ne_zero, if_false, pure_bind]
    rw [hget, Res.ok_bind, FVSolver.x_eq, FVSolver.y_eq]
    rfl

theorem addLeaves_errors (exact : K → K → K) (L : List (Patch K)) (hL : ∀ p ∈ L, p.u.size = p.grid.nx * p.grid.ny ∧ p.u.WF)
    {e : ErrorSums K} {cs : List (K × K)} {n : Nat} (h : e.Of cs n) :
    ∃ e' : ErrorSums K, L.foldlM (fun s p => addLeafError exact p s) e = .ok e' ∧ e'.Of (cs ++ L.flatMap (cellErrors exact)) (n + L.length) := by
  induction L generalizing e cs n with
  | nil => exact ⟨e, rfl, by simpa using h⟩
  | cons p L ih =>
    obtain ⟨hu, hw⟩ := hL p (by simp)
    have h' := h.fold (cellErrors exact p)
    obtain ⟨e', h1, h2⟩ := ih (fun q hq => hL q (by simp [hq]))
      (e := { (cellErrors exact p).foldl ErrorSums.add e with leaves := ((cellErrors exact p).foldl ErrorSums.add e).leaves + 1 })
      (cs := cs ++ cellErrors exact p) (n := n + 1) ⟨h'.l1, h'.l2, h'.lI, by rw [h'.leaves]⟩
    refine ⟨e', ?_, ?_⟩
    · rw [List.foldlM_cons, addLeafError_ok exact hu hw, Res.ok_bind, h1]
    · rw [List.flatMap_cons, ← List.append_assoc, List.length_cons, Nat.add_comm L.length, ← Nat.add_assoc]
      exact h2

theorem cellErrors_length (exact : K → K → K) (p : Patch K) : (cellErrors exact p).length = p.grid.nx * p.grid.ny := by
  simp [cellErrors, cellIndices, List.length_flatMap]

variable [IsStrictOrderedRing K]

/-- The report of a rank that holds its part of a tree. -/
theorem errorReport_ok {M size r N : Nat} {F : Forest} (hM : F.depth ≤ M) (hF : F.Sorted) {sqrt : K → K} (hq : IsSqrt sqrt)
    (exact : K → K → K) (maxLevel : Nat) {root : Grid K} (hx : root.nx = N) (hy : root.ny = N)
    (hA : 0 < (root.xu - root.xl) * (root.yu - root.yl)) {t : Tree (Patch K)} {q : Quadtree (Patch K)} (h : Rep r F t [] q.map)
    (hp : q.userPointer = .this) (hL : ∀ p ∈ leavesOf r F t, p.u.size = N * N ∧ p.u.WF ∧ p.grid.nx = N ∧ p.grid.ny = N ∧
      0 ≤ FV.hx (rect p.grid) p.grid.nx * FV.hy (rect p.grid) p.grid.ny) :
    ∃ e : ErrorReport K, errorReport ⟨M, size, r, F⟩ sqrt exact maxLevel root q = .ok e ∧
      e.Measures ((root.xu - root.xl) * (root.yu - root.yl)) ((leavesOf r F t).flatMap (cellErrors exact)) ∧
      e.resolution = 2 ^ maxLevel * N := by
  obtain ⟨e, e1, e2⟩ := addLeaves_errors exact (leavesOf r F t) (fun p hp => by
    obtain ⟨a, b, c, d, -⟩ := hL p hp
    exact ⟨by rw [a, c, d], b⟩) ErrorSums.Of.start
  rw [List.nil_append, Nat.zero_add] at e2
  obtain ⟨q', e3, -⟩ := traversePost_look hM hF h hp (addLeafError exact) _ e1
  have h2 : 0 ≤ e.l2 := by
    rw [e2.l2]
    refine List.sum_nonneg fun x hx => ?_
    obtain ⟨c, hc, rfl⟩ := List.mem_map.mp hx
    obtain ⟨p, hp, hc⟩ := List.mem_flatMap.mp hc
    obtain ⟨-, -, -, -, hpos⟩ := hL p hp
    obtain ⟨ij, -, rfl⟩ := List.mem_map.mp hc
    exact mul_nonneg hpos (sq_nonneg _)
  have h3 := div_nonneg h2 hA.le
  refine ⟨⟨e.l1 / ((root.xu - root.xl) * (root.yu - root.yl)), sqrt (e.l2 / ((root.xu - root.xl) * (root.yu - root.yl))), e.lI, e.leaves * (root.nx * root.ny), 2 ^ maxLevel * root.nx⟩, ?_, ⟨?_, ⟨hq.nonneg _ h3, ?_⟩, e2.lI, ?_⟩, ?_⟩
  · unfold errorReport
    dsimp only
    rw [show q.traversePostOrder M r F (leafVisit fun p e => do
        let e ← addLeafError exact p e
        pure (p, e)) ErrorSums.start = _ from e3, Res.ok_bind]
    rfl
  · show e.l1 / _ * _ = _
    rw [div_mul_cancel₀ _ hA.ne', e2.l1]
  · show sqrt (e.l2 / _) ^ 2 * _ = _
    rw [pow_two, hq.sq _ h3, div_mul_cancel₀ _ hA.ne', e2.l2]
  · show e.leaves * (root.nx * root.ny) = _
    rw [e2.leaves, hx, hy, List.length_flatMap]
    have : ((leavesOf r F t).map fun p => (cellErrors exact p).length) = (leavesOf r F t).map fun _ => N * N :=
      List.map_congr_left fun p hp => by
        obtain ⟨-, -, c, d, -⟩ := hL p hp
        rw [cellErrors_length, c, d]
    rw [this]
    simp
  · show 2 ^ maxLevel * root.nx = _
    rw [hx]

/-! ## Areas -/

theorem cellErrors_area (exact : K → K → K) {p : Patch K} (hx : 0 < p.grid.nx) (hy : 0 < p.grid.ny) :
    ((cellErrors exact p).map Prod.fst).sum = (p.grid.xu - p.grid.xl) * (p.grid.yu - p.grid.yl) := by
  have hl := cellErrors_length exact p
  have : (cellErrors exact p).map Prod.fst = List.replicate (p.grid.nx * p.grid.ny) (FV.hx (rect p.grid) p.grid.nx * FV.hy (rect p.grid) p.grid.ny) := by
    rw [← hl]
    apply List.eq_replicate_iff.mpr
    refine ⟨by simp, fun b hb => ?_⟩
    obtain ⟨c, hc, rfl⟩ := List.mem_map.mp hb
    obtain ⟨ij, -, rfl⟩ := List.mem_map.mp hc
    rfl
  rw [this, List.sum_replicate, nsmul_eq_mul]
  have h1 : (p.grid.nx : K) ≠ 0 := by exact_mod_cast hx.ne'
  have h2 : (p.grid.ny : K) ≠ 0 := by exact_mod_cast hy.ne'
  unfold FV.hx FV.hy rect
  push_cast
  field_simp

theorem HPS.Placed.area {N : Nat} (hN : 0 < N) (exact : K → K → K) {t : Tree (Patch K)} {R : Rect K} (h : Placed N t R) :
    ((t.leaves.flatMap (cellErrors exact)).map Prod.fst).sum = (R.xu - R.xl) * (R.yu - R.yl) := by
  induction h with
  | leaf hx hy hR =>
    simp only [Tree.leaves, List.flatMap_cons, List.flatMap_nil, List.append_nil]
    rw [cellErrors_area exact (by omega) (by omega), hR.1, hR.2.1, hR.2.2.1, hR.2.2.2]
  | @node p R c0 c1 c2 c3 _ _ _ _ i0 i1 i2 i3 =>
    simp only [Tree.leaves, List.flatMap_append, List.map_append, List.sum_append]
    rw [i0, i1, i2, i3]
    simp only [Rect.quarter]
    norm_num
    ring

theorem HPS.Placed.leaves {N : Nat} {t : Tree (Patch K)} {R : Rect K} (h : Placed N t R) (hR : Proper R) :
    ∀ p ∈ t.leaves, p.grid.nx = N ∧ p.grid.ny = N ∧ Proper (rect p.grid) := by
  induction h with
  | @leaf p R hx hy hr =>
    intro q hq
    obtain rfl : q = p := by simpa [Tree.leaves] using hq
    exact ⟨hx, hy, by rw [rect_eq hr]; exact hR⟩
  | @node p R c0 c1 c2 c3 _ _ _ _ i0 i1 i2 i3 =>
    intro q hq
    simp only [Tree.leaves, List.mem_append] at hq
    rcases hq with ((hq | hq) | hq) | hq
    · exact i0 (proper_quarter hR 0) q hq
    · exact i1 (proper_quarter hR 1) q hq
    · exact i2 (proper_quarter hR 2) q hq
    · exact i3 (proper_quarter hR 3) q hq

/-- Cauchy–Schwarz for sums over cells. -/
theorem cells_cauchy (cs : List (K × K)) (h0 : ∀ c ∈ cs, 0 ≤ c.1) (x : K) :
    0 ≤ (cs.map fun c => c.1 * c.2 ^ 2).sum - 2 * x * (cs.map fun c => c.1 * c.2).sum + x ^ 2 * (cs.map Prod.fst).sum := by
  induction cs with
  | nil => simp
  | cons c cs ih =>
    have h1 := ih fun c hc => h0 c (by simp [hc])
    have h2 := mul_nonneg (h0 c (by simp)) (sq_nonneg (c.2 - x))
    simp only [List.map_cons, List.sum_cons]
    nlinarith

/-- The mean is at most the root mean square, and this is at most the maximum. -/
theorem ErrorReport.Measures.order {e : ErrorReport K} {A : K} (hA : 0 < A) {cs : List (K × K)} (h : e.Measures A cs)
    (h0 : ∀ c ∈ cs, 0 ≤ c.1 ∧ 0 ≤ c.2) (ha : (cs.map Prod.fst).sum ≤ A) : 0 ≤ e.l1 ∧ e.l1 ≤ e.l2 ∧ e.l2 ≤ e.lI := by
  obtain ⟨h1, ⟨h2, h3⟩, ⟨h4, h5, -⟩, -⟩ := h
  have hl : 0 ≤ e.l1 := by
    have : 0 ≤ (cs.map fun c => c.1 * c.2).sum := by
      refine List.sum_nonneg fun x hx => ?_
      obtain ⟨c, hc, rfl⟩ := List.mem_map.mp hx
      exact mul_nonneg (h0 c hc).1 (h0 c hc).2
    rw [← h1] at this
    exact nonneg_of_mul_nonneg_left this hA
  refine ⟨hl, ?_, ?_⟩
  · have k := cells_cauchy cs (fun c hc => (h0 c hc).1) e.l1
    rw [← h1, ← h3] at k
    have k2 : e.l1 ^ 2 * (cs.map Prod.fst).sum ≤ e.l1 ^ 2 * A := mul_le_mul_of_nonneg_left ha (sq_nonneg _)
    have k3 : e.l1 ^ 2 * A ≤ e.l2 ^ 2 * A := by nlinarith
    exact (sq_le_sq₀ hl h2).mp (le_of_mul_le_mul_right k3 hA)
  · have k : (cs.map fun c => c.1 * c.2 ^ 2).sum ≤ e.lI ^ 2 * (cs.map Prod.fst).sum := by
      clear h1 h3 ha
      induction cs with
      | nil => simp
      | cons c cs ih =>
        simp only [List.map_cons, List.sum_cons]
        have k1 := ih (fun c hc => h0 c (by simp [hc])) (fun c hc => h5 c (by simp [hc]))
        have k2 : c.2 ^ 2 ≤ e.lI ^ 2 := by
          have := (h0 c (by simp)).2
          exact pow_le_pow_left₀ this (h5 c (by simp)) 2
        have k3 := mul_le_mul_of_nonneg_left k2 (h0 c (by simp)).1
        nlinarith
    have k2 : e.lI ^ 2 * (cs.map Prod.fst).sum ≤ e.lI ^ 2 * A := mul_le_mul_of_nonneg_left ha (sq_nonneg _)
    exact (sq_le_sq₀ h2 h4).mp (le_of_mul_le_mul_right (by rw [h3]; exact k.trans k2) hA)

theorem cellErrors_nonneg (exact : K → K → K) {p : Patch K} (hR : Proper (rect p.grid)) :
    ∀ c ∈ cellErrors exact p, 0 ≤ c.1 ∧ 0 ≤ c.2 := by
  intro c hc
  obtain ⟨ij, h, rfl⟩ := List.mem_map.mp hc
  obtain ⟨hi, hj⟩ : ij.1 < p.grid.nx ∧ ij.2 < p.grid.ny := by
    obtain ⟨i, j⟩ := ij
    simpa [cellIndices] using h
  exact ⟨(mul_pos (hx_pos hR (by omega)) (hy_pos hR (by omega))).le, abs_nonneg _⟩

end

end EF
