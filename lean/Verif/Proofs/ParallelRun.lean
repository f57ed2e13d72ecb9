import Verif.Proofs.ParallelHPS
import Verif.Props.Global
import Verif.Props.Cache
import Verif.Props.Mesh

/-!
# The example program on all ranks
-/

namespace EF

open HPS FV

variable {K T : Type}

/-! ## The tree a mesh starts with -/

section
variable [Field K] {N : Nat}

theorem startTree_init {p : Patch K} {R : Rect K} (hg : p.grid = ⟨N, N, R.xl, R.xu, R.yl, R.yu⟩) (hc : p.nCoarsens = 0)
    (F : Forest) (a : Addr) : Init N (startTree p F a) (Addr.rect R a) := by
  have hd : (startData p a).nCoarsens = 0 ∧ (startData p a).grid.nx = N ∧ (startData p a).grid.ny = N ∧
      InRect (startData p a) (Addr.rect R a) := by
    unfold startData
    split
    · rename_i h
      subst h
      rw [hg]
      exact ⟨hc, rfl, rfl, by unfold InRect; rw [hg]; exact ⟨rfl, rfl, rfl, rfl⟩⟩
    · rw [hg]
      exact ⟨rfl, rfl, rfl, rfl, rfl, rfl, rfl⟩
  induction F generalizing a with
  | leaf k => exact .leaf hd.1 hd.2.1 hd.2.2.1 hd.2.2.2
  | node c0 c1 c2 c3 h0 h1 h2 h3 =>
    have step : ∀ i, Addr.rect R (a ++ [i]) = (Addr.rect R a).quarter i := fun i => by
      unfold Addr.rect; rw [List.foldl_append]; rfl
    have hd' : ∀ b : Addr, (startData p b).nCoarsens = 0 ∧ (startData p b).grid.nx = N ∧ (startData p b).grid.ny = N ∧
      InRect (startData p b) (Addr.rect R b) := by
      intro b
      unfold startData
      split
      · rename_i h
        subst h
        rw [hg]
        exact ⟨hc, rfl, rfl, by unfold InRect; rw [hg]; exact ⟨rfl, rfl, rfl, rfl⟩⟩
      · rw [hg]
        exact ⟨rfl, rfl, rfl, rfl, rfl, rfl, rfl⟩
    exact .node hd.1 (by rw [← step]; exact h0 _ (hd' _)) (by rw [← step]; exact h1 _ (hd' _)) (by rw [← step]; exact h2 _ (hd' _))
      (by rw [← step]; exact h3 _ (hd' _))

theorem startTree_uniform (p : Patch K) {d : Nat} {F : Forest} (h : F.shape = .uniform d) (a : Addr) :
    Uniform d (startTree p F a) := by
  induction d generalizing F a with
  | zero =>
    cases F with
    | leaf k => exact .leaf _
    | node => simp [Forest.shape, Shape.uniform] at h
  | succ d ih =>
    cases F with
    | leaf k => simp [Forest.shape, Shape.uniform] at h
    | node c0 c1 c2 c3 =>
      simp only [Forest.shape, Shape.uniform, Shape.node.injEq] at h
      exact .node _ (ih h.1 _) (ih h.2.1 _) (ih h.2.2.1 _) (ih h.2.2.2 _)

/-! ## Building with a cache per rank -/

/-- What building a leaf means without a cache. -/
def plainLeaf (ps : PatchSolver K) (p : Patch K) : Res (Patch K) := do
  let T ← ps.buildD2N p.grid
  pure { p with T := T }

theorem buildLeaf_plain (ps : PatchSolver K) {opt : HPSOptions} (h : opt.cacheOperators = false) :
    buildLeaf ps opt = stateless (plainLeaf ps) := by
  funext p s
  unfold buildLeaf plainLeaf
  simp only [h, stateless, bind_assoc, pure_bind, Bool.false_eq_true, if_false]

/-- With the same operator on every leaf of a rank, the caches do no harm. -/
theorem mergeBy_cached {r : Nat} {ps : PatchSolver K} {opt : HPSOptions} (hc : opt.cacheOperators = true) {B : Nat → Mat K}
    {ff : Fam (Patch K) → Res (Fam (Patch K))} {F : Forest} {t t' : Tree (Patch K)}
    (hB : ∀ k, ∀ p ∈ leavesOf k F t, ps.buildD2N p.grid = .ok (B k))
    {s : Nat → Option (Mat K)} (hs : ∀ k A, s k = some A → A = B k) {a : Addr} {m : NodeMap (Patch K)} (h : Rep r F t a m)
    (ht : t.merge (plainLeaf ps) ff = .ok t') :
    ∃ s', Tree.mergeBy (buildLeaf ps opt) ff F t s = .ok (t', s') ∧ ∀ k A, s' k = some A → A = B k := by
  induction F generalizing t t' s a with
  | leaf k =>
    cases t with
    | node => exact absurd h id
    | leaf d =>
      have hb := hB k d (by simp [leavesOf])
      simp only [Tree.merge, plainLeaf, hb, Res.ok_bind, Res.pure_def, Res.ok_inj] at ht
      have hl : buildLeaf ps opt d (s k) = .ok ({ d with T := B k }, some (B k)) := by
        unfold buildLeaf
        rw [if_pos hc]
        cases e : s k with
        | none => dsimp only; rw [hb]; rfl
        | some A => rw [hs k A e]; rfl
      refine ⟨Function.update s k (some (B k)), ?_, ?_⟩
      · simp only [Tree.mergeBy, hl, Res.ok_bind, Res.pure_def, ← ht]
      · intro i A hi
        by_cases e : i = k
        · subst e
          rw [Function.update_self] at hi
          exact (Option.some.inj hi).symm
        · rw [Function.update_of_ne e] at hi
          exact hs i A hi
  | node c0 c1 c2 c3 h0 h1 h2 h3 =>
    cases t with
    | leaf => exact absurd h id
    | node d t0 t1 t2 t3 =>
      simp only [Tree.merge, Res.bind_eq_ok, Res.pure_def, Res.ok_inj] at ht
      obtain ⟨u0, e0, u1, e1, u2, e2, u3, e3, G, eG, rfl⟩ := ht
      simp only [leavesOf, List.mem_append] at hB
      obtain ⟨s0, f0, g0⟩ := h0 (fun k p hp => hB k p (by tauto)) hs h.2.1 e0
      obtain ⟨s1, f1, g1⟩ := h1 (fun k p hp => hB k p (by tauto)) g0 h.2.2.1 e1
      obtain ⟨s2, f2, g2⟩ := h2 (fun k p hp => hB k p (by tauto)) g1 h.2.2.2.1 e2
      obtain ⟨s3, f3, g3⟩ := h3 (fun k p hp => hB k p (by tauto)) g2 h.2.2.2.2 e3
      refine ⟨s3, ?_, g3⟩
      simp only [Tree.mergeBy, f0, f1, f2, f3, Res.ok_bind, eG, Res.pure_def]

/-- When no rank is misled by its cache, the build with a cache per rank is the serial build without cache. -/
theorem mergeBy_build {r : Nat} (lap : Lapack K) (ps : PatchSolver K) (opt : HPSOptions) {F : Forest} {t t1 : Tree (Patch K)}
    (hc : opt.cacheOperators = true → ∀ k, ∃ B, ∀ p ∈ leavesOf k F t, ps.buildD2N p.grid = .ok B) {a : Addr} {m : NodeMap (Patch K)}
    (h : Rep r F t a m) {c1 : Option (Mat K)}
    (ht : HPS.buildStage lap ps { opt with cacheOperators := false } t none = .ok (t1, c1)) :
    ∃ s', Tree.mergeBy (buildLeaf ps opt) (merge4to1 lap) F t (fun _ => none) = .ok (t1, s') := by
  unfold HPS.buildStage at ht
  rw [buildLeaf_plain ps rfl, Tree.mergeSt_stateless] at ht
  obtain ⟨t', h1, h2⟩ := Res.bind_eq_ok.mp ht
  rw [Res.pure_def, Res.ok_inj] at h2
  obtain ⟨rfl, rfl⟩ := Prod.mk.inj h2
  cases hcc : opt.cacheOperators with
  | false =>
    refine ⟨fun _ => none, ?_⟩
    rw [buildLeaf_plain ps hcc, Tree.mergeBy_stateless h, h1]
    rfl
  | true =>
    choose B hB using hc hcc
    obtain ⟨s', h3, -⟩ := mergeBy_cached hcc hB (s := fun _ => none) (fun k A e => by cases e) h h1
    exact ⟨s', h3⟩

/-- With one rank the build with a cache per rank is the serial build with the cache. -/
theorem mergeBy_one {τ : Type} {r k : Nat} {lf : Patch K → τ → Res (Patch K × τ)} {ff : Fam (Patch K) → Res (Fam (Patch K))} {F : Forest}
    (hF : ∀ i ∈ F.ranks, i = k) {t : Tree (Patch K)} {a : Addr} {m : NodeMap (Patch K)} (h : Rep r F t a m) (s : Nat → τ) :
    Tree.mergeBy lf ff F t s = (t.mergeSt lf ff (s k) >>= fun x => .ok (x.1, Function.update s k x.2)) := by
  induction F generalizing t s a with
  | leaf i =>
    cases t with
    | node => exact absurd h id
    | leaf d =>
      obtain rfl := hF i (by simp [Forest.ranks])
      simp only [Tree.mergeBy, Tree.mergeSt, bind_assoc, Res.ok_bind, Res.pure_def]
  | node c0 c1 c2 c3 h0 h1 h2 h3 =>
    cases t with
    | leaf => exact absurd h id
    | node d t0 t1 t2 t3 =>
      simp only [Forest.ranks, List.mem_append] at hF
      simp only [Tree.mergeBy, Tree.mergeSt, bind_assoc, Res.ok_bind, Res.pure_def]
      rw [h0 (fun i hi => hF i (by tauto)) h.2.1, bind_assoc]
      refine bind_congr fun x0 => ?_
      rw [Res.ok_bind]
      dsimp only
      rw [h1 (fun i hi => hF i (by tauto)) h.2.2.1, bind_assoc, Function.update_self]
      refine bind_congr fun x1 => ?_
      rw [Res.ok_bind]
      dsimp only
      rw [h2 (fun i hi => hF i (by tauto)) h.2.2.2.1, bind_assoc, Function.update_self]
      refine bind_congr fun x2 => ?_
      rw [Res.ok_bind]
      dsimp only
      rw [h3 (fun i hi => hF i (by tauto)) h.2.2.2.2, bind_assoc, Function.update_self]
      refine bind_congr fun x3 => ?_
      simp only [Res.ok_bind, Function.update_idem]

end

/-! ## Requests -/

section
variable [Field K] {M size : Nat} {F : Forest}

theorem request_runs (hM : F.depth ≤ M) (hs : F.Sorted) (hr : EveryRank F size) (lap : Lapack K) (ps : PatchSolver K)
    (opt : HPSOptions) (f : K → K → K) (bc : BoundaryFn K) {t t' : Tree (Patch K)} {A : Nat → HPSRank K}
    (hA : HoldsOn size F t (fun r => (A r).mesh.quadtree)) (ht : (Request.functions f bc).run lap ps opt t = .ok t') :
    ∃ A' : Nat → HPSRank K, Follows size F t' A A' ∧
      Runs (fun r => r < size) (fun r => (A r).upwardsStageAnalytic ⟨M, size, r, F⟩ lap ps opt f >>= fun A =>
        A.solveStageAnalytic ⟨M, size, r, F⟩ lap ps opt bc) A' := by
  unfold Request.run at ht
  obtain ⟨t2, e2, e3⟩ := Res.bind_eq_ok.mp ht
  obtain ⟨A2, h1, h2⟩ := upwardsAnalytic_runs hM hs hr lap ps opt f hA e2
  obtain ⟨A3, h3, h4⟩ := solveAnalytic_runs hM hs hr lap ps opt bc h1.holds e3
  exact ⟨A3, h1.trans h3, Runs.bind h2 h4⟩

theorem solves_runs (hM : F.depth ≤ M) (hs : F.Sorted) (hr : EveryRank F size) (lap : Lapack K) (ps : PatchSolver K)
    (opt : HPSOptions) (f : K → K → K) (bc : BoundaryFn K) {t t' : Tree (Patch K)}
    (ht : (Request.functions f bc).run lap ps opt t = .ok t') (n : Nat) {A : Nat → HPSRank K}
    (hA : HoldsOn size F t (fun r => (A r).mesh.quadtree)) :
    ∃ A' : Nat → HPSRank K, Follows size F t' A A' ∧
      Runs (fun r => r < size) (fun r => (A r).solves ⟨M, size, r, F⟩ lap ps opt f bc (n + 1)) A' := by
  have again : (Request.functions f bc).run lap ps opt t' = .ok t' := by
    rw [C21_rerun lap ps opt [Request.functions f bc] (.functions f bc) (t := t) (by simp [runAll, ht, Res.ok_bind]), ht]
  induction n generalizing t A with
  | zero =>
    obtain ⟨A1, h1, h2⟩ := request_runs hM hs hr lap ps opt f bc hA ht
    refine ⟨A1, h1, ?_⟩
    refine (Runs.bind h2 (q := fun _ A => (pure A : Prog (Patch K) (HPSRank K))) (w := A1) (Runs.pure fun r _ => rfl)).congr
      (fun r _ => ?_) (fun r _ => rfl)
    simp only [HPSRank.solves, bind_assoc]
  | succ n ih =>
    obtain ⟨A1, h1, h2⟩ := request_runs hM hs hr lap ps opt f bc hA ht
    obtain ⟨A2, h3, h4⟩ := ih again h1.holds
    refine ⟨A2, h1.trans h3, ?_⟩
    refine (Runs.bind h2 (q := fun r A => A.solves ⟨M, size, r, F⟩ lap ps opt f bc (n + 1)) (w := A2) h4).congr
      (fun r _ => ?_) (fun r _ => rfl)
    rw [HPSRank.solves]
    simp only [bind_assoc]

/-- Collecting two fields of the leaves of a rank. -/
theorem collect_eq {r : Nat} (hM : F.depth ≤ M) (hs : F.Sorted) {t : Tree (Patch K)} {m : Mesh K} (h : Rep r F t [] m.quadtree.map) :
    ∃ q u fv, m.quadtree.traversePreOrder M r F
      (leafVisit fun p (s : Vec K × Vec K) => pure (p, (s.1.append p.u, s.2.append p.f))) (Vec.empty, Vec.empty) = .ok (q, (u, fv)) ∧
      u = ⟨((leavesOf r F t).map fun p => p.u.size).sum, (leavesOf r F t).flatMap fun p => p.u.data⟩ ∧
      fv = ⟨((leavesOf r F t).map fun p => p.f.size).sum, (leavesOf r F t).flatMap fun p => p.f.data⟩ ∧ Rep r F t [] q.map := by
  have e := iteratePatches_eq hM hs h (look fun p (v : Vec K × Vec K) => pure (v.1.append p.u, v.2.append p.f)) (Vec.empty, Vec.empty)
  have e0 : ∀ L : List (Patch K), ∀ v : Vec K × Vec K,
      L.foldlM (fun v p => (pure (v.1.append p.u, v.2.append p.f) : Res (Vec K × Vec K))) v
      = .ok (v.1.append ⟨(L.map fun p => p.u.size).sum, L.flatMap fun p => p.u.data⟩,
        v.2.append ⟨(L.map fun p => p.f.size).sum, L.flatMap fun p => p.f.data⟩) := by
    intro L
    induction L with
    | nil => intro v; simp [Vec.append]
    | cons p L ih =>
      intro v
      rw [List.foldlM_cons, Res.pure_def, Res.ok_bind, ih, Vec.append_assoc, Vec.append_assoc]
      rfl
  rw [leafPass_look F h, e0] at e
  obtain ⟨q, e1, e2, -⟩ := e
  unfold Mesh.iteratePatches at e1
  obtain ⟨x, h1, h2⟩ := Res.bind_eq_ok.mp e1
  rw [Res.pure_def, Res.ok_inj, Prod.mk.injEq] at h2
  obtain ⟨h2, h3⟩ := h2
  obtain ⟨q', u, fv⟩ := x
  obtain ⟨h4, h5⟩ := Prod.mk.inj h3
  have h6 : q' = q := congrArg Mesh.quadtree h2
  refine ⟨q', u, fv, h1, ?_, ?_, ?_⟩
  · rw [h4]; simp [Vec.append, Vec.empty]
  · rw [h5]; simp [Vec.append, Vec.empty]
  · rw [h6]
    exact e2

end

/-! ## The values of the ranks and the values of the grid -/

section
variable [Field K] [CharZero K] {N : Nat}

theorem cellRect_quarter (R : Rect K) {n : Nat} (hn : 0 < n) {c : Nat} (hc : c < 4) (i j : Nat) :
    cellRect (R.quarter c) n n i j = cellRect R (2 * n) (2 * n) (c % 2 * n + i) (c / 2 * n + j) := by
  have h0 : (n : K) ≠ 0 := by exact_mod_cast hn.ne'
  unfold cellRect Rect.quarter
  interval_cases c <;> simp [-mul_eq_mul_left_iff] <;> refine ⟨?_, ?_, ?_, ?_⟩ <;> field_simp <;> ring

omit [CharZero K] in
theorem gridCells_leaf {p : Patch K} {R : Rect K} (hx : p.grid.nx = N) (hy : p.grid.ny = N) (hR : InRect p R) :
    gridCells p.grid = (cellIndices N N).map fun c => cellRect R N N c.1 c.2 := by
  obtain ⟨a, b, c, d⟩ := hR
  unfold gridCells Grid.rect
  rw [hx, hy, a, b, c, d]

omit [CharZero K] in
theorem data_listFn {v : Vec K} {n : Nat} (h : v.size = n ∧ v.WF) : v.data = (List.range n).map fun k => v.data.getD k 0 := by
  obtain ⟨h1, h2⟩ := h
  apply List.ext_getElem
  · rw [List.length_map, List.length_range, h2, h1]
  · intro k h3 h4
    rw [List.getElem_map, List.getElem_range, List.getD_eq_getElem _ _ h3]

omit [Field K] [CharZero K] in
theorem range_cells (N : Nat) (v : Nat → K) :
    (List.range (N * N)).map v = (cellIndices N N).map fun c => v (c.2 + c.1 * N) := by
  have key : ∀ m, (List.range (m * N)).map v = ((List.range m).flatMap fun i => (List.range N).map fun j => (i, j)).map
      fun c => v (c.2 + c.1 * N) := by
    intro m
    induction m with
    | zero => simp
    | succ m ih =>
      rw [Nat.succ_mul, List.range_add, List.map_append, ih, List.range_succ, List.flatMap_append, List.map_append]
      congr 1
      simp [List.map_map, Function.comp_def, Nat.add_comm]
  exact key N

/-- Cell and value belong together. -/
def At (R : Rect K) (m : Nat) (W : Nat → Nat → K) (c : Rect K) (v : K) : Prop :=
  ∃ I J, I < m ∧ J < m ∧ c = cellRect R m m I J ∧ v = W I J

theorem values_match (v : Patch K → Vec K) (hN : 0 < N) {p : Patch K} (r : Nat) {d : Nat} (F : Forest) {a : Addr} {R : Rect K}
    (h0 : Init N (startTree p F a) R) (hu : Uniform d (startTree p F a)) {t : Tree (Patch K)}
    (hsh : t.shape = (startTree p F a).shape) (hv : ∀ q ∈ t.leaves, (v q).size = N * N ∧ (v q).WF) :
    List.Forall₂ (At R (N * 2 ^ d) (gridFn N v t)) (meshCells r F (startTree p F a)) ((leavesOf r F t).flatMap fun q => (v q).data) := by
  induction F generalizing a R t d with
  | leaf k =>
    cases t with
    | node => cases hsh
    | leaf q =>
      cases h0 with
      | leaf hk hx hy hR =>
      cases hu
      by_cases hk : k = r
      · have hd := data_listFn (hv q (by simp [Tree.leaves]))
        simp only [meshCells, startTree, leavesOf, if_pos hk, List.flatMap_cons, List.flatMap_nil, List.append_nil]
        rw [gridCells_leaf hx hy hR, hd, range_cells, List.forall₂_map_left_iff, List.forall₂_map_right_iff, List.forall₂_same]
        intro c hc
        simp only [cellIndices, List.mem_flatMap, List.mem_map, List.mem_range] at hc
        obtain ⟨i, hi, j, hj, rfl⟩ := hc
        exact ⟨i, j, by simpa using hi, by simpa using hj, by simp, rfl⟩
      · simp only [meshCells, startTree, leavesOf, if_neg hk, List.flatMap_nil]
        exact .nil
  | node c0 c1 c2 c3 i0 i1 i2 i3 =>
    cases t with
    | leaf => cases hsh
    | node q t0 t1 t2 t3 =>
      simp only [startTree, Tree.shape, Tree.node.injEq, true_and] at hsh
      cases h0 with
      | node hk g0 g1 g2 g3 =>
      cases hu with
      | @node d' _ _ _ _ _ u0 u1 u2 u3 =>
      simp only [Tree.leaves, List.mem_append] at hv
      have v0 : Uniform d' t0 := uniform_shape.mp (hsh.1 ▸ uniform_shape.mpr u0)
      have key : ∀ {c : Nat} {C : List (Rect K)} {L : List K} {t' : Tree (Patch K)}, c < 4 →
          (∀ i j, i < N * 2 ^ d' → j < N * 2 ^ d' → gridFn N v (.node q t0 t1 t2 t3) (c % 2 * (N * 2 ^ d') + i) (c / 2 * (N * 2 ^ d') + j)
            = gridFn N v t' i j) →
          List.Forall₂ (At (R.quarter c) (N * 2 ^ d') (gridFn N v t')) C L →
          List.Forall₂ (At R (N * 2 ^ (d' + 1)) (gridFn N v (.node q t0 t1 t2 t3))) C L := by
        intro c C L t' hc hg h
        refine h.imp ?_
        rintro x y ⟨I, J, hI, hJ, rfl, rfl⟩
        have e : N * 2 ^ (d' + 1) = 2 * (N * 2 ^ d') := by ring
        have b1 : c % 2 < 2 := Nat.mod_lt _ (by omega)
        have b2 : c / 2 < 2 := by omega
        refine ⟨c % 2 * (N * 2 ^ d') + I, c / 2 * (N * 2 ^ d') + J, ?_, ?_, ?_, (hg I J hI hJ).symm⟩
        · rw [e]; exact Mat.idx_lt b1 hI
        · rw [e]; exact Mat.idx_lt b2 hJ
        · rw [e]; exact cellRect_quarter R (by positivity) hc I J
      have n0 := cells_uniform (N := N) v0
      simp only [meshCells, startTree, leavesOf, List.flatMap_append]
      refine List.rel_append (List.rel_append (List.rel_append ?_ ?_) ?_) ?_
      · refine key (c := 0) (by omega) ?_ (i0 g0 u0 hsh.1 fun p hp => hv p (by tauto))
        intro i j hi hj
        rw [gridFn, n0]
        simp [hi, hj]
      · refine key (c := 1) (by omega) ?_ (i1 g1 u1 hsh.2.1 fun p hp => hv p (by tauto))
        intro i j hi hj
        rw [gridFn, n0]
        simp [hj]
      · refine key (c := 2) (by omega) ?_ (i2 g2 u2 hsh.2.2.1 fun p hp => hv p (by tauto))
        intro i j hi hj
        rw [gridFn, n0]
        simp [hi]
      · refine key (c := 3) (by omega) ?_ (i3 g3 u3 hsh.2.2.2 fun p hp => hv p (by tauto))
        intro i j hi hj
        rw [gridFn, n0]
        simp

theorem cells_covered (hN : 0 < N) {p : Patch K} {d : Nat} (F : Forest) {a : Addr} {R : Rect K}
    (h0 : Init N (startTree p F a) R) (hu : Uniform d (startTree p F a)) {I J : Nat} (hI : I < N * 2 ^ d) (hJ : J < N * 2 ^ d) :
    ∃ r ∈ F.ranks, cellRect R (N * 2 ^ d) (N * 2 ^ d) I J ∈ meshCells r F (startTree p F a) := by
  induction F generalizing a R d I J with
  | leaf k =>
    cases h0 with
    | leaf hk hx hy hR =>
    cases hu
    simp only [pow_zero, mul_one] at hI hJ ⊢
    refine ⟨k, by simp [Forest.ranks], ?_⟩
    simp only [meshCells, startTree, leavesOf, if_true, List.flatMap_cons, List.flatMap_nil, List.append_nil]
    rw [gridCells_leaf hx hy hR, List.mem_map]
    refine ⟨(I, J), ?_, rfl⟩
    simp only [cellIndices, List.mem_flatMap, List.mem_map, List.mem_range]
    exact ⟨I, hI, J, hJ, rfl⟩
  | node c0 c1 c2 c3 i0 i1 i2 i3 =>
    cases h0 with
    | node hk g0 g1 g2 g3 =>
    cases hu with
    | @node d' _ _ _ _ _ u0 u1 u2 u3 =>
    have e : N * 2 ^ (d' + 1) = 2 * (N * 2 ^ d') := by ring
    have hn : 0 < N * 2 ^ d' := by positivity
    rw [e] at hI hJ ⊢
    simp only [meshCells, startTree, leavesOf, List.flatMap_append, List.mem_append, Forest.ranks]
    by_cases hi : I < N * 2 ^ d' <;> by_cases hj : J < N * 2 ^ d'
    · obtain ⟨r, h1, h2⟩ := i0 g0 u0 hi hj
      rw [cellRect_quarter R hn (by omega)] at h2
      simp only [Nat.zero_mod, Nat.zero_div, Nat.zero_mul, Nat.zero_add] at h2
      exact ⟨r, by tauto, Or.inl (Or.inl (Or.inl h2))⟩
    · obtain ⟨r, h1, h2⟩ := i2 g2 u2 hi (J := J - N * 2 ^ d') (by omega)
      rw [cellRect_quarter R hn (by omega)] at h2
      have e2 : 2 / 2 * (N * 2 ^ d') + (J - N * 2 ^ d') = J := by omega
      rw [e2] at h2
      simp only [Nat.mod_self, Nat.zero_mul, Nat.zero_add] at h2
      exact ⟨r, by tauto, Or.inl (Or.inr h2)⟩
    · obtain ⟨r, h1, h2⟩ := i1 g1 u1 (I := I - N * 2 ^ d') (by omega) hj
      rw [cellRect_quarter R hn (by omega)] at h2
      have e2 : 1 % 2 * (N * 2 ^ d') + (I - N * 2 ^ d') = I := by omega
      have e3 : 1 / 2 * (N * 2 ^ d') + J = J := by omega
      rw [e2, e3] at h2
      exact ⟨r, by tauto, Or.inl (Or.inl (Or.inr h2))⟩
    · obtain ⟨r, h1, h2⟩ := i3 g3 u3 (I := I - N * 2 ^ d') (J := J - N * 2 ^ d') (by omega) (by omega)
      rw [cellRect_quarter R hn (by omega)] at h2
      have e2 : 3 % 2 * (N * 2 ^ d') + (I - N * 2 ^ d') = I := by omega
      have e3 : 3 / 2 * (N * 2 ^ d') + (J - N * 2 ^ d') = J := by omega
      rw [e2, e3] at h2
      exact ⟨r, by tauto, Or.inr h2⟩

omit [CharZero K] in
/-- There are as many leaf values as cells. -/
theorem leavesOf_cells {p : Patch K} {F : Forest} {a : Addr} {R : Rect K} (h0 : Init N (startTree p F a) R) {t : Tree (Patch K)}
    (hsh : t.shape = (startTree p F a).shape) {v : Patch K → Vec K} (hv : ∀ q ∈ t.leaves, (v q).size = N * N ∧ (v q).WF) (r : Nat) :
    (meshCells r F (startTree p F a)).length = ((leavesOf r F t).flatMap fun q => (v q).data).length := by
  induction F generalizing a R t with
  | leaf k =>
    cases t with
    | node => cases hsh
    | leaf q =>
      cases h0 with
      | leaf hk hx hy hR =>
      by_cases hk : k = r
      · have hd := data_listFn (hv q (by simp [Tree.leaves]))
        simp only [meshCells, startTree, leavesOf, if_pos hk, List.flatMap_cons, List.flatMap_nil, List.append_nil]
        rw [gridCells_leaf hx hy hR, hd, range_cells, List.length_map, List.length_map]
      · simp only [meshCells, startTree, leavesOf, if_neg hk, List.flatMap_nil]
        rfl
  | node c0 c1 c2 c3 i0 i1 i2 i3 =>
    cases t with
    | leaf => cases hsh
    | node q t0 t1 t2 t3 =>
      simp only [startTree, Tree.shape, Tree.node.injEq, true_and] at hsh
      cases h0 with
      | node hk g0 g1 g2 g3 =>
      simp only [Tree.leaves, List.mem_append] at hv
      have j0 := i0 g0 hsh.1 fun p hp => hv p (by tauto)
      have j1 := i1 g1 hsh.2.1 fun p hp => hv p (by tauto)
      have j2 := i2 g2 hsh.2.2.1 fun p hp => hv p (by tauto)
      have j3 := i3 g3 hsh.2.2.2 fun p hp => hv p (by tauto)
      simp only [meshCells, startTree, leavesOf, List.flatMap_append, List.length_append] at j0 j1 j2 j3 ⊢
      rw [j0, j1, j2, j3]

omit [Field K] [CharZero K] in
theorem leavesOf_sub {r : Nat} {F : Forest} {t : Tree (Patch K)} {q : Patch K} (h : q ∈ leavesOf r F t) : q ∈ t.leaves := by
  induction F generalizing t with
  | leaf k =>
    cases t with
    | node => simp [leavesOf] at h
    | leaf p =>
      simp only [leavesOf] at h
      split at h
      · simpa [Tree.leaves] using h
      · simp at h
  | node c0 c1 c2 c3 i0 i1 i2 i3 =>
    cases t with
    | leaf => simp [leavesOf] at h
    | node p t0 t1 t2 t3 =>
      simp only [leavesOf, List.mem_append] at h
      simp only [Tree.leaves, List.mem_append]
      rcases h with ((h | h) | h) | h
      · have := i0 h; tauto
      · have := i1 h; tauto
      · have := i2 h; tauto
      · have := i3 h; tauto

/-- The concatenated leaf values are cell values. -/
theorem cellValues_of {R : Rect K} {m : Nat} {W : Nat → Nat → K} {C : List (Rect K)} {L : List (Patch K)} {v : Patch K → Vec K}
    (hL : ∀ q ∈ L, (v q).WF) (h : List.Forall₂ (At R m W) C (L.flatMap fun q => (v q).data)) :
    CellValues R m W C ⟨(L.map fun q => (v q).size).sum, L.flatMap fun q => (v q).data⟩ := by
  have hwf : (L.flatMap fun q => (v q).data).length = (L.map fun q => (v q).size).sum := by
    rw [List.length_flatMap]
    congr 1
    exact List.map_congr_left fun q hq => hL q hq
  have hlen := h.length_eq
  refine ⟨by dsimp only; rw [← hwf, hlen], hwf, ?_⟩
  intro k hk
  obtain ⟨I, J, hI, hJ, h1, h2⟩ := (List.forall₂_iff_get.mp h).2 k hk (by omega)
  refine ⟨I, J, hI, hJ, by simpa using h1, ?_⟩
  unfold Vec.get rd
  dsimp only
  rw [if_neg (by rw [← hwf]; omega), List.getElem?_eq_getElem (by omega)]
  simpa using h2

end

/-! ## A rank without leaves -/

/-- A program that can only end in undefined behaviour, whatever the other ranks do. -/
inductive Doomed {T α : Type} : Prog T α → Prop
  | ub : Doomed (.fin .ub)
  | allMax {lo hi : Nat} {name : Text} {v : Nat} {k : Nat → Prog T α} (h : ∀ n, Doomed (k n)) : Doomed (.allMax lo hi name v k)
  | bcast {lo hi : Nat} {name : Text} {root : Nat} {v : Node T} {k : Node T → Prog T α} (h : ∀ n, Doomed (k n)) :
    Doomed (.bcast lo hi name root v k)

theorem Doomed.bind {α β : Type} {p : Prog T α} (h : Doomed p) (f : α → Prog T β) : Doomed (p >>= f) := by
  induction h with
  | ub => exact .ub
  | allMax _ ih => exact .allMax ih
  | bcast _ ih => exact .bcast ih

theorem Doomed.step {α : Type} {c c' : Config T α} (h : Step c c') {r : Nat} (hr : Doomed (c r)) : Doomed (c' r) := by
  cases h with
  | allMax lo hi name v k hle arrived leaves others =>
    by_cases hb : lo ≤ r ∧ r ≤ hi
    · rw [leaves r hb.1 hb.2]
      rw [arrived r hb.1 hb.2] at hr
      cases hr with
      | allMax h => exact h _
    · rw [others r hb]; exact hr
  | bcast lo hi name root v k hroot arrived leaves others =>
    by_cases hb : lo ≤ r ∧ r ≤ hi
    · rw [leaves r hb.1 hb.2]
      rw [arrived r hb.1 hb.2] at hr
      cases hr with
      | bcast h => exact h _
    · rw [others r hb]; exact hr

theorem Doomed.run {α : Type} {n : Nat} {c c' : Config T α} (h : Run n c c') {r : Nat} (hr : Doomed (c r)) : Doomed (c' r) := by
  induction h with
  | refl => exact hr
  | step h _ ih => exact ih (hr.step h)

theorem Doomed.barrier {α : Type} (size : Nat) {p : Unit → Prog T α} (h : Doomed (p ())) : Doomed (EF.barrier size >>= p) :=
  .allMax fun _ => h

section
variable {m : Type → Type} [Monad m] [LawfulMonad m] {σ : Type}

theorem searchPost_none {M r : Nat} {cb : Quadrant → Bool → σ → m (σ × Bool)} {F : Forest} (h : r ∉ F.ranks) (q : Quadrant) (s : σ) :
    searchPost M r cb F q s = Pure.pure s := by
  cases F with
  | leaf k => rw [searchPost, if_neg (by rintro rfl; exact h (by simp [Forest.ranks]))]
  | node => rw [searchPost, if_neg h]

end

theorem example_doomed [Field K] {M size r : Nat} {F : Forest} (hM : F.depth ≤ M) (hs : F.Sorted) (hr : ¬ F.Spans r) (lap : Lapack K)
    (ps : PatchSolver K) (opt : HPSOptions) (root : Patch K) (f : K → K → K) (bc : BoundaryFn K) (n : Nat) :
    Doomed (exampleMain ⟨M, size, r, F⟩ lap ps opt root f bc (n + 1)) := by
  have hr' : r ∉ F.ranks := fun h => hr (hs.spans_of_mem h)
  obtain ⟨m1, h1, -, h2⟩ := C43_first_refinement_partial (r := r) hM hs root (⟨fun _ => none, .null⟩ : Quadtree (Patch K)) []
  have h3 : (m1.quadtree.map.get ['0']).1 = none := by
    cases F with
    | leaf k => exact Eq.trans h2 (if_neg hr)
    | node => exact Eq.trans h2.1 (if_neg hr)
  have hmerge : ∀ {τ : Type} (lf : Patch K → τ → Res (Patch K × τ)) (ff : Fam (Patch K) → Res (Fam (Patch K))) (t : τ)
      (q : Quadtree (Patch K)), q.merge M r F .broadcast (onData lf) (onFamily ff) t = (Pure.pure (q, t) : Prog (Patch K) _) := by
    intro τ lf ff t q
    unfold Quadtree.merge
    rw [searchPost_none hr', pure_bind]
  unfold exampleMain
  have h1' : Mesh.refineByFunction M r F root FVFactory.factory Mesh.blank = .ok m1 := h1
  simp only [h1', HPSRank.setupStage, HPSRank.buildStage, HPSRank.solves, HPSRank.upwardsStageAnalytic, HPSRank.solveStageAnalytic,
    hmerge, pure_bind, bind_assoc]
  refine Doomed.barrier _ (Doomed.barrier _ (Doomed.barrier _ (Doomed.barrier _ ?_)))
  have h4 : ∀ fn, HPSRank.onRoot fn m1.quadtree = .ub := by
    intro fn
    unfold HPSRank.onRoot
    rw [h3]
  refine Doomed.bind ?_ _
  refine cast (congrArg Doomed (congrArg Prog.fin (h4 _)).symm) ?_
  exact .ub

end EF
