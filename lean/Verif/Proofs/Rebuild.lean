import Verif.Proofs.StageLemmas
import Verif.Proofs.GlobalTree

/-!
# Building twice
-/

namespace EF
namespace HPS

variable {K : Type} [Field K]

theorem coarsenPatch_count {k : Nat} {p q : Patch K} (h : coarsenPatch k p = .ok q) : q.nCoarsens = p.nCoarsens + k := by
  unfold coarsenPatch at h
  induction k generalizing q with
  | zero => rw [forN_zero] at h; rw [← Res.ok_inj.mp h]; rfl
  | succ k ih =>
    rw [forN_succ] at h
    obtain ⟨r, h1, h2⟩ := Res.bind_eq_ok.mp h
    unfold coarsenStep at h2
    simp only [Res.bind_eq_ok, Res.pure_def, Res.ok_inj] at h2
    obtain ⟨_, _, _, _, _, _, _, _, _, _, _, _, rfl⟩ := h2
    simp only [ih h1]
    omega

theorem coarsenPatch_same {k : Nat} {p q : Patch K} (h : coarsenPatch k p = .ok q) (hq : q.nCoarsens = 0) : q = p := by
  have := coarsenPatch_count h
  obtain rfl : k = 0 := by omega
  exact (Res.ok_inj.mp h).symm

/-- A merge that coarsened nothing can be repeated. -/
theorem merge4to1_again {lap : Lapack K} {p a b c d : Patch K} {F : Fam (Patch K)}
    (h : merge4to1 lap ⟨p, a, b, c, d⟩ = .ok F) (ha : F.a.nCoarsens = 0) (hb : F.b.nCoarsens = 0)
    (hc : F.c.nCoarsens = 0) (hd : F.d.nCoarsens = 0) :
    F.a = a ∧ F.b = b ∧ F.c = c ∧ F.d = d ∧ merge4to1 lap ⟨F.tau, a, b, c, d⟩ = .ok F := by
  rw [merge4to1_eq] at h
  obtain ⟨G, h1, h2⟩ := Res.bind_eq_ok.mp h
  have h2' := h2
  unfold mergeEq at h2
  simp only [Res.bind_eq_ok, Res.pure_def, Res.ok_inj] at h2
  obtain ⟨I, e1, B, e2, X, e3, S, e4, HT, e5, ST, e6, rfl⟩ := h2
  have h1' := h1
  unfold coarsen at h1
  simp only [Res.bind_eq_ok, Res.pure_def, Res.ok_inj] at h1
  obtain ⟨tg, c0, a', c1, b', c2, c', c3, d', c4, rfl⟩ := h1
  simp only at ha hb hc hd
  have ea := coarsenPatch_same c1 ha
  have eb := coarsenPatch_same c2 hb
  have ec := coarsenPatch_same c3 hc
  have ed := coarsenPatch_same c4 hd
  subst ea eb ec ed
  refine ⟨rfl, rfl, rfl, rfl, ?_⟩
  rw [merge4to1_eq]
  have h1'' : ∀ tau, coarsen (⟨tau, a', b', c', d'⟩ : Fam (Patch K)) = .ok ⟨tau, a', b', c', d'⟩ := by
    intro tau
    unfold coarsen
    have : tags (⟨tau, a', b', c', d'⟩ : Fam (Patch K)) = .ok tg := c0
    rw [this, Res.ok_bind, c1, Res.ok_bind, c2, Res.ok_bind, c3, Res.ok_bind, c4, Res.ok_bind]
    rfl
  rw [h1'', Res.ok_bind]
  have e1' : ∀ tau, createIndexSets (⟨tau, a', b', c', d'⟩ : Fam (Patch K)) = .ok I := fun _ => e1
  have e2' : ∀ tau, createMatrixBlocks I (⟨tau, a', b', c', d'⟩ : Fam (Patch K)) = .ok B := fun _ => e2
  unfold mergeEq
  rw [e1', Res.ok_bind, e2', Res.ok_bind, e3, Res.ok_bind, e4, Res.ok_bind, e5, Res.ok_bind, e6, Res.ok_bind]
  rfl

theorem All.val {P : Type} {Q : P → Prop} {t : Tree P} (h : All Q t) : Q t.val := by
  cases t with
  | leaf p => exact h
  | node p _ _ _ _ => exact h.1

/-- The cache state is one a leaf leaves behind. -/
def Settled (opt : HPSOptions) (s : Option (Mat K)) : Prop := opt.cacheOperators = true → ∃ T, s = some T

theorem buildLeaf_state {ps : PatchSolver K} {opt : HPSOptions} {p q : Patch K} {s s' : Option (Mat K)}
    (h : buildLeaf ps opt p s = .ok (q, s')) :
    Settled opt s' ∧ (Settled opt s → s' = s) ∧ buildLeaf ps opt q s' = .ok (q, s') ∧ q.grid = p.grid ∧
      q.nCoarsens = p.nCoarsens := by
  unfold buildLeaf at h
  cases hc : opt.cacheOperators with
  | false =>
    rw [hc, if_neg (by simp)] at h
    obtain ⟨T, h1, h2⟩ := Res.bind_eq_ok.mp h
    rw [Res.pure_def, Res.ok_inj, Prod.mk.injEq] at h2
    obtain ⟨rfl, rfl⟩ := h2
    refine ⟨by unfold Settled; simp [hc], fun _ => rfl, ?_, rfl, rfl⟩
    unfold buildLeaf
    rw [hc, if_neg (by simp)]
    simp only
    rw [h1]
    rfl
  | true =>
    rw [hc, if_pos rfl] at h
    cases s with
    | some T =>
      simp only [Res.pure_def, Res.ok_inj, Prod.mk.injEq] at h
      obtain ⟨rfl, rfl⟩ := h
      refine ⟨fun _ => ⟨_, rfl⟩, fun _ => rfl, ?_, rfl, rfl⟩
      unfold buildLeaf
      rw [hc]
      rfl
    | none =>
      simp only at h
      obtain ⟨T, h1, h2⟩ := Res.bind_eq_ok.mp h
      rw [Res.pure_def, Res.ok_inj, Prod.mk.injEq] at h2
      obtain ⟨rfl, rfl⟩ := h2
      refine ⟨fun _ => ⟨_, rfl⟩, ?_, ?_, rfl, rfl⟩
      · intro h
        obtain ⟨T, h⟩ := h hc
        exact absurd h (by simp)
      · unfold buildLeaf
        rw [hc]
        rfl

theorem build_state {lap : Lapack K} {ps : PatchSolver K} {opt : HPSOptions} {t t1 : Tree (Patch K)} {s s' : Option (Mat K)}
    (h : buildStage lap ps opt t s = .ok (t1, s')) : Settled opt s' ∧ (Settled opt s → s' = s) := by
  unfold buildStage at h
  induction t generalizing t1 s s' with
  | leaf p =>
    simp only [Tree.mergeSt, Res.bind_eq_ok, Res.pure_def, Res.ok_inj, Prod.mk.injEq] at h
    obtain ⟨⟨q, s1⟩, h1, rfl, rfl⟩ := h
    have := buildLeaf_state h1
    exact ⟨this.1, this.2.1⟩
  | node p c0 c1 c2 c3 i0 i1 i2 i3 =>
    simp only [Tree.mergeSt, Res.bind_eq_ok, Res.pure_def, Res.ok_inj, Prod.mk.injEq] at h
    obtain ⟨⟨t0, s0⟩, h0, ⟨t1, s1⟩, h1, ⟨t2, s2⟩, h2, ⟨t3, s3⟩, h3, F, hF, rfl, rfl⟩ := h
    have a0 := i0 h0
    have a1 := i1 h1
    have a2 := i2 h2
    have a3 := i3 h3
    refine ⟨a3.1, fun hs => ?_⟩
    have e0 := a0.2 hs
    have e1 := a1.2 a0.1
    have e2 := a2.2 a1.1
    have e3 := a3.2 a2.1
    simp only at e0 e1 e2 e3
    rw [e3, e2, e1, e0]

theorem setVal_val {P : Type} (t : Tree P) : t.setVal t.val = t := by cases t <;> rfl

/-- A build that coarsened nothing can be repeated. -/
theorem build_again {lap : Lapack K} {ps : PatchSolver K} {opt : HPSOptions} {t t1 : Tree (Patch K)} {s s' : Option (Mat K)}
    (h : buildStage lap ps opt t s = .ok (t1, s')) (hn : All (fun p => p.nCoarsens = 0) t1) :
    buildStage lap ps opt t1 s' = .ok (t1, s') := by
  unfold buildStage at *
  induction t generalizing t1 s s' with
  | leaf p =>
    simp only [Tree.mergeSt, Res.bind_eq_ok, Res.pure_def, Res.ok_inj, Prod.mk.injEq] at h
    obtain ⟨⟨q, s1⟩, h1, rfl, rfl⟩ := h
    have := (buildLeaf_state h1).2.2.1
    rw [Tree.mergeSt, this]
    rfl
  | node p c0 c1 c2 c3 i0 i1 i2 i3 =>
    simp only [Tree.mergeSt, Res.bind_eq_ok, Res.pure_def, Res.ok_inj, Prod.mk.injEq] at h
    obtain ⟨⟨t0, s0⟩, h0, ⟨t1, s1⟩, h1, ⟨t2, s2⟩, h2, ⟨t3, s3⟩, h3, F, hF, rfl, rfl⟩ := h
    have a0 := build_state h0
    have a1 := build_state h1
    have a2 := build_state h2
    have a3 := build_state h3
    have e1 := a1.2 a0.1
    have e2 := a2.2 a1.1
    have e3 := a3.2 a2.1
    simp only at e1 e2 e3
    subst e3 e2 e1
    obtain ⟨_, n0, n1, n2, n3⟩ := hn
    obtain ⟨ea, eb, ec, ed, hm⟩ := merge4to1_again hF (by simpa using n0.val) (by simpa using n1.val)
      (by simpa using n2.val) (by simpa using n3.val)
    rw [ea, setVal_val] at n0 
    rw [eb, setVal_val] at n1
    rw [ec, setVal_val] at n2
    rw [ed, setVal_val] at n3
    simp only [ea, eb, ec, ed, setVal_val]
    rw [Tree.mergeSt, i0 h0 n0, Res.ok_bind]
    simp only
    rw [i1 h1 n1, Res.ok_bind]
    simp only
    rw [i2 h2 n2, Res.ok_bind]
    simp only
    rw [i3 h3 n3, Res.ok_bind]
    simp only
    rw [hm, Res.ok_bind]
    simp only [ea, eb, ec, ed, setVal_val]
    rfl

/-! ### Building a tree that has been used -/

/-- Replace what the runs between two builds may have changed. -/
def sx (p' p : Patch K) : Patch K := { p with X := p'.X, u := p'.u, g := p'.g, f := p'.f, h := p'.h, w := p'.w }

theorem coarsenPatch_sx (k : Nat) (p' p : Patch K) : coarsenPatch k (sx p' p) = sx p' <$> coarsenPatch k p := by
  unfold coarsenPatch
  refine forN_map _ _ _ ?_ p
  intro i s
  unfold coarsenStep
  simp only [map_bind, map_pure]
  rfl

/-- The same for the children of a family. -/
def sxF (G F : Fam (Patch K)) : Fam (Patch K) :=
  ⟨{ sx G.tau F.tau with X := F.tau.X }, sx G.a F.a, sx G.b F.b, sx G.c F.c, sx G.d F.d⟩

theorem coarsen_sx (G F : Fam (Patch K)) (X : Mat K) :
    coarsen ⟨{ sx G.tau F.tau with X := X }, sx G.a F.a, sx G.b F.b, sx G.c F.c, sx G.d F.d⟩
      = (fun H : Fam (Patch K) => ⟨{ sx G.tau H.tau with X := X }, sx G.a H.a, sx G.b H.b, sx G.c H.c, sx G.d H.d⟩) <$> coarsen F := by
  unfold coarsen
  have : tags (⟨{ sx G.tau F.tau with X := X }, sx G.a F.a, sx G.b F.b, sx G.c F.c, sx G.d F.d⟩ : Fam (Patch K)) = tags F := rfl
  rw [this]
  simp only [coarsenPatch_sx, map_bind, bind_map_left, map_pure]

theorem merge4to1_sx (lap : Lapack K) (G F : Fam (Patch K)) (X : Mat K) :
    merge4to1 lap ⟨{ sx G.tau F.tau with X := X }, sx G.a F.a, sx G.b F.b, sx G.c F.c, sx G.d F.d⟩
      = sxF G <$> merge4to1 lap F := by
  rw [merge4to1_eq, merge4to1_eq, coarsen_sx, map_bind, bind_map_left]
  refine bind_congr fun H => ?_
  unfold mergeEq
  simp only [map_bind, map_pure]
  rfl

theorem wipe_val (hom : Bool) {t t' : Tree (Patch K)} (h : wipe hom t' = wipe hom t) :
    t'.val = sx t'.val t.val := by
  cases t with
  | leaf p =>
    cases t' with
    | leaf q =>
      simp only [wipe, Tree.leaf.injEq] at h
      simp only [Tree.val]
      cases p; cases q
      simp only [Patch.mk.injEq] at h
      simp only [sx, Patch.mk.injEq]
      simp_all
    | node => simp [wipe] at h
  | node p _ _ _ _ =>
    cases t' with
    | leaf q => simp [wipe] at h
    | node q _ _ _ _ =>
      simp only [wipe, Tree.node.injEq] at h
      obtain ⟨h, _⟩ := h
      simp only [Tree.val]
      cases p; cases q
      cases hom
      · simp only [Bool.false_eq_true, if_false, Patch.mk.injEq] at h
        simp only [sx, Patch.mk.injEq]
        simp_all
      · simp only [if_true, Patch.mk.injEq] at h
        simp only [sx, Patch.mk.injEq]
        simp_all

theorem coarsenPatch_frame {k : Nat} {p q : Patch K} (h : coarsenPatch k p = .ok q) :
    q = { p with T := q.T, nCoarsens := q.nCoarsens } := by
  refine forN_inv (fun p q : Patch K => q = { p with T := q.T, nCoarsens := q.nCoarsens }) (fun _ => rfl) ?_ ?_ h
  · intro a b c h1 h2; rw [h2, h1]
  · intro i s s' hs
    unfold coarsenStep at hs
    simp only [Res.bind_eq_ok, Res.pure_def, Res.ok_inj] at hs
    obtain ⟨_, _, _, _, _, _, _, _, _, _, _, _, rfl⟩ := hs
    rfl

theorem merge4to1_frame {lap : Lapack K} {F F' : Fam (Patch K)} (h : merge4to1 lap F = .ok F') :
    F'.tau = { F.tau with X := F'.tau.X, H := F'.tau.H, S := F'.tau.S, T := F'.tau.T, grid := F'.tau.grid } ∧
      F'.a = { F.a with T := F'.a.T, nCoarsens := F'.a.nCoarsens } ∧
      F'.b = { F.b with T := F'.b.T, nCoarsens := F'.b.nCoarsens } ∧
      F'.c = { F.c with T := F'.c.T, nCoarsens := F'.c.nCoarsens } ∧
      F'.d = { F.d with T := F'.d.T, nCoarsens := F'.d.nCoarsens } := by
  unfold merge4to1 coarsen at h
  simp only [Res.bind_eq_ok, Res.pure_def, Res.ok_inj] at h
  obtain ⟨_, ⟨_, _, a, ha, b, hb, c, hc, d, hd, rfl⟩, _, _, _, _, _, _, _, _, _, _, _, _, rfl⟩ := h
  exact ⟨rfl, coarsenPatch_frame ha, coarsenPatch_frame hb, coarsenPatch_frame hc, coarsenPatch_frame hd⟩

omit [Field K] in
theorem wipe_sx {hom : Bool} {r r' : Tree (Patch K)} (h : wipe hom r' = wipe hom r) {q : Patch K}
    (hq : q = { r.val with T := q.T, nCoarsens := q.nCoarsens }) :
    wipe hom (r'.setVal { q with X := r'.val.X, u := r'.val.u, g := r'.val.g, f := r'.val.f, h := r'.val.h, w := r'.val.w })
      = wipe hom (r.setVal q) := by
  cases r with
  | leaf p =>
    cases r' with
    | leaf p' =>
      simp only [wipe, Tree.leaf.injEq] at h
      simp only [Tree.setVal, wipe, Tree.leaf.injEq, Tree.val] at *
      cases p; cases p'; cases q
      simp only [Patch.mk.injEq] at h hq ⊢
      simp_all
    | node => simp [wipe] at h
  | node p _ _ _ _ =>
    cases r' with
    | leaf q => simp [wipe] at h
    | node p' _ _ _ _ =>
      simp only [wipe, Tree.node.injEq] at h
      obtain ⟨h, h'⟩ := h
      simp only [Tree.setVal, wipe, Tree.node.injEq, Tree.val] at *
      refine ⟨?_, h'⟩
      cases p; cases p'; cases q
      cases hom
      · simp only [Bool.false_eq_true, if_false, Patch.mk.injEq] at h hq ⊢
        simp_all
      · simp only [if_true, Patch.mk.injEq] at h hq ⊢
        simp_all

theorem build_congr {lap : Lapack K} {ps : PatchSolver K} {opt : HPSOptions} {hom : Bool} {t t' r : Tree (Patch K)}
    {s s' : Option (Mat K)} (hw : wipe hom t' = wipe hom t) (h : buildStage lap ps opt t s = .ok (r, s')) :
    ∃ r', buildStage lap ps opt t' s = .ok (r', s') ∧ wipe hom r' = wipe hom r := by
  unfold buildStage at *
  induction t generalizing t' r s s' with
  | leaf p =>
    cases t' with
    | node => simp [wipe] at hw
    | leaf p' =>
      simp only [Tree.mergeSt, Res.bind_eq_ok, Res.pure_def, Res.ok_inj, Prod.mk.injEq] at h
      obtain ⟨⟨q, s1⟩, h1, rfl, rfl⟩ := h
      have hp := wipe_val hom hw
      simp only [Tree.val] at hp
      have hl : buildLeaf ps opt p' s = (fun r => (sx p' r.1, r.2)) <$> buildLeaf ps opt p s := by
        rw [hp]
        unfold buildLeaf
        split
        · split
          · rfl
          · simp only [map_bind, map_pure]; rfl
        · simp only [map_bind, map_pure]; rfl
      refine ⟨.leaf (sx p' q), ?_, ?_⟩
      · rw [Tree.mergeSt, hl, h1]; rfl
      · have hq : q = { p with T := q.T } := by
          unfold buildLeaf at h1
          split at h1
          · split at h1
            · simp only [Res.pure_def, Res.ok_inj, Prod.mk.injEq] at h1
              rw [← h1.1]
            · simp only [Res.bind_eq_ok, Res.pure_def, Res.ok_inj, Prod.mk.injEq] at h1
              obtain ⟨_, _, h1, _⟩ := h1
              rw [← h1]
          · simp only [Res.bind_eq_ok, Res.pure_def, Res.ok_inj, Prod.mk.injEq] at h1
            obtain ⟨_, _, h1, _⟩ := h1
            rw [← h1]
        exact wipe_sx hw (q := q) (by rw [hq]; rfl)
  | node p c0 c1 c2 c3 i0 i1 i2 i3 =>
    cases t' with
    | leaf => simp [wipe] at hw
    | node p' d0 d1 d2 d3 =>
    have hw' := hw
    simp only [wipe, Tree.node.injEq] at hw'
    obtain ⟨w, w0, w1, w2, w3⟩ := hw'
    simp only [Tree.mergeSt, Res.bind_eq_ok, Res.pure_def, Res.ok_inj, Prod.mk.injEq] at h
    obtain ⟨⟨t0, s0⟩, h0, ⟨t1, s1⟩, h1, ⟨t2, s2⟩, h2, ⟨t3, s3⟩, h3, F, hF, rfl, rfl⟩ := h
    obtain ⟨r0, e0, v0⟩ := i0 w0 h0
    obtain ⟨r1, e1, v1⟩ := i1 w1 h1
    obtain ⟨r2, e2, v2⟩ := i2 w2 h2
    obtain ⟨r3, e3, v3⟩ := i3 w3 h3
    have hm : merge4to1 lap ⟨p', r0.val, r1.val, r2.val, r3.val⟩ = .ok (sxF ⟨p', r0.val, r1.val, r2.val, r3.val⟩ F) := by
      have := merge4to1_sx lap ⟨p', r0.val, r1.val, r2.val, r3.val⟩ ⟨p, t0.val, t1.val, t2.val, t3.val⟩ p'.X
      rw [hF] at this
      simp only [← wipe_val hom v0, ← wipe_val hom v1, ← wipe_val hom v2, ← wipe_val hom v3] at this
      rw [show ({ sx p' p with X := p'.X } : Patch K) = p' from (wipe_val hom hw).symm] at this
      exact this
    refine ⟨_, by
      rw [Tree.mergeSt, e0, Res.ok_bind]
      simp only
      rw [e1, Res.ok_bind]
      simp only
      rw [e2, Res.ok_bind]
      simp only
      rw [e3, Res.ok_bind]
      simp only
      rw [hm]
      rfl, ?_⟩
    obtain ⟨f0, f1, f2, f3, f4⟩ := merge4to1_frame hF
    simp only [wipe, sxF]
    refine congr (congr (congr (congr (congrArg Tree.node ?_) (wipe_sx v0 f1)) (wipe_sx v1 f2)) (wipe_sx v2 f3)) (wipe_sx v3 f4)
    generalize F.tau = q at *
    cases p; cases p'; cases q
    cases hom
    · simp only [Bool.false_eq_true, if_false, Patch.mk.injEq] at w f0 ⊢
      simp_all [sx]
    · simp only [if_true, Patch.mk.injEq] at w f0 ⊢
      simp_all [sx]

/-! ### Uniform trees -/

theorem Built.no_coarse {N : Nat} {LP : Grid K → Blk K → Prop} {t : Tree (Patch K)} {R : Rect K} {k m : Nat} {T : Blk K}
    (ht : Built N LP t R k m T) (hk : k = 0) {d : Nat} (hu : Uniform d t) : All (fun p => p.nCoarsens = 0) t := by
  induction ht generalizing d with
  | leaf hk' => exact hk'
  | node h0 h1 h2 h3 hTT hz hn hm hN h3m hk' hx hy hR hX hH hS hSol hT i0 i1 i2 i3 =>
    cases hu with
    | @node d' _ _ _ _ _ u0 u1 u2 u3 =>
    obtain ⟨rfl, rfl, rfl, rfl⟩ := no_coarsening hn hz (h0.res_eq.symm.trans (res_uniform u0))
      (h1.res_eq.symm.trans (res_uniform u1)) (h2.res_eq.symm.trans (res_uniform u2)) (h3.res_eq.symm.trans (res_uniform u3))
    exact ⟨hk'.trans hk, i0 rfl u0, i1 rfl u1, i2 rfl u2, i3 rfl u3⟩

/-! ### The second build of a tree with a coarsened first child -/

theorem forN_ub_first {σ : Type} {n : Nat} (hn : 0 < n) {body : Nat → σ → Res σ} {s : σ} (h : body 0 s = .ub) :
    forN n body s = .ub := by
  induction n with
  | zero => omega
  | succ n ih =>
    rw [forN_succ]
    rcases Nat.eq_zero_or_pos n with rfl | hp
    · rw [forN_zero, Res.ok_bind, h]
    · rw [ih hp]; rfl

/-- Index sets for a side twice as long read past the end. -/
theorem getFromIndexSet_ub {n : Nat} (hn : 0 < n) (B : Blk K) :
    (bm n 4 4 B).getFromIndexSet (seg (2 * n) 1 (fun _ => 2)) (seg (2 * n) 1 (fun _ => 2)) = .ub := by
  unfold Mat.getFromIndexSet
  have hs : (seg (2 * n) 1 (fun _ => 2)).size = 2 * n := by simp [seg, Vec.ofFn]
  rw [hs, nrows_bm, ncols_bm, if_neg (by omega), if_neg (by omega)]
  unfold Mat.loop2
  apply forN_ub_first (by omega)
  apply forN_ub_first (by omega)
  have hg : (seg (2 * n) 1 (fun _ => 2)).get 0 = .ok ((2 * (2 * n) : Nat) : Int) := by
    unfold seg
    rw [Vec.get_ofFn (by omega)]
    simp
  beta_reduce
  rw [hg, Res.ok_bind, Res.ok_bind, toSize_natCast]
  have : (bm n 4 4 B).get (2 * (2 * n)) (2 * (2 * n)) = .ub := by
    unfold Mat.get Mat.flattenIndex
    rw [nrows_bm, ncols_bm, if_neg (by omega), if_neg (by omega), Res.ok_bind]
    unfold rd
    have hl : (bm n 4 4 B).data.length = (4 * n) * (4 * n) := by simp [bm, Mat.ofFn, listFn]
    rw [List.getElem?_eq_none (by rw [hl]; have : 2 * (2 * n) = 4 * n := by ring
                                  rw [this]; omega)]
  rw [this]
  rfl

/-- Patches of equal size are not coarsened. -/
theorem coarsen_equal {tau a b c d : Patch K} {n : Nat} (hn : 0 < n) (ha : a.size = n) (hb : b.size = n) (hc : c.size = n)
    (hd : d.size = n) : coarsen ⟨tau, a, b, c, d⟩ = .ok ⟨tau, a, b, c, d⟩ := by
  unfold coarsen tags
  simp only [ha, hb, hc, hd, min_self]
  rw [if_neg (by omega), Res.ok_bind]
  simp only [Nat.sub_self]
  rfl

/-- Rebuilding a leaf changes nothing. -/
theorem buildLeaf_same {ps : PatchSolver K} {opt : HPSOptions} (hc : opt.cacheOperators = false) {p : Patch K} {T : Blk K}
    {s : Option (Mat K)} {N : Nat} (hT : p.T = bm N 4 4 T) (hL : LPs N ps p.grid T) : buildLeaf ps opt p s = .ok (p, s) := by
  unfold buildLeaf
  rw [hc, if_neg (by simp), hL, Res.ok_bind, ← hT]
  rfl

/-- What a merge without coarsening leaves on the parent. -/
def merged (n : Nat) (tau : Patch K) (F : Fam (Patch K)) (TT : Ops K) (S : Blk K) : Patch K :=
  { tau with
    X := bm n 4 4 (Xf TT)
    H := bm n 8 4 (Hf TT)
    S := bm n 4 8 S
    T := bm n 8 8 (Tp n TT S)
    grid := mergeGrid F }

theorem rebuild_corner_ub {N : Nat} (hN : 0 < N) (lap : Lapack K) {ps : PatchSolver K} {opt : HPSOptions}
    (hc : opt.cacheOperators = false) {p p0 l0 l1 l2 l3 l4 l5 l6 : Patch K} {R : Rect K} {m : Nat} {T : Blk K}
    (h : Built N (LPs N ps) (.node p (.node p0 (.leaf l0) (.leaf l1) (.leaf l2) (.leaf l3)) (.leaf l4) (.leaf l5) (.leaf l6))
      R 0 m T) (s : Option (Mat K)) :
    buildStage lap ps opt (.node p (.node p0 (.leaf l0) (.leaf l1) (.leaf l2) (.leaf l3)) (.leaf l4) (.leaf l5) (.leaf l6)) s
      = .ub := by
  cases h with
  | @node _ _ _ _ _ _ n _ _ k0 k1 k2 k3 T0 T1 T2 T3 S TT h0 h1 h2 h3 hTT hz hn hm hN' h3m hk hx hy hR hX hH hS hSol hT =>
  have r0 := h0.res_eq
  cases h1 with
  | leaf k4 x4 y4 R4 hT4 L4 =>
  cases h2 with
  | leaf k5 x5 y5 R5 hT5 L5 =>
  cases h3 with
  | leaf k6 x6 y6 R6 hT6 L6 =>
  simp only [res, min_self] at r0
  have hk0 : k0 = 1 := by
    have : 2 ^ k0 = 2 ^ 1 := Nat.eq_of_mul_eq_mul_left hN (by omega)
    exact Nat.pow_right_injective (le_refl 2) this
  subst hk0
  cases h0 with
  | @node _ _ _ _ _ _ n' _ _ j0 j1 j2 j3 U0 U1 U2 U3 S' TT' g0 g1 g2 g3 gTT gz gn gm gN g3m gk gx gy gR gX gH gS gSol gT =>
  cases g0 with
  | leaf k0 x0 y0 R0 hT0 L0 =>
  cases g1 with
  | leaf k1 x1 y1 R1 hT1 L1 =>
  cases g2 with
  | leaf k2 x2 y2 R2 hT2 L2 =>
  cases g3 with
  | leaf k3 x3 y3 R3 hT3 L3 =>
  have sz : ∀ q : Patch K, q.nCoarsens = 0 → q.grid.nx = N → q.size = N := fun q a b => size_eq a (by simpa using b)
  obtain ⟨S1, hm1, _⟩ := mergeEq_ok lap hN (TT := ops4 N 0 0 0 0 U0 U1 U2 U3)
    (F := ⟨p0, l0, l1, l2, l3⟩) ⟨hT0, hT1, hT2, hT3⟩ ⟨sz _ k0 x0, sz _ k1 x1, sz _ k2 x2, sz _ k3 x3⟩
  have hm0 : merge4to1 lap ⟨p0, l0, l1, l2, l3⟩ = .ok ⟨merged N p0 ⟨p0, l0, l1, l2, l3⟩ (ops4 N 0 0 0 0 U0 U1 U2 U3) S1,
      l0, l1, l2, l3⟩ := by
    rw [merge4to1_eq, coarsen_equal hN (sz _ k0 x0) (sz _ k1 x1) (sz _ k2 x2) (sz _ k3 x3), Res.ok_bind, hm1]
    rfl
  generalize hq : merged N p0 ⟨p0, l0, l1, l2, l3⟩ (ops4 N 0 0 0 0 U0 U1 U2 U3) S1 = q at hm0
  have hqT : q.T = bm N 8 8 (Tp N (ops4 N 0 0 0 0 U0 U1 U2 U3) S1) := by rw [← hq]; rfl
  have hqs : q.size = N := by
    rw [← hq]
    refine size_eq (k := 1) gk ?_
    simp only [merged, mergeGrid, sz _ k0 x0, sz _ k1 x1]
    omega
  have hroot : merge4to1 lap ⟨p, q, l4, l5, l6⟩ = .ub := by
    rw [merge4to1_eq, coarsen_equal hN hqs (sz _ k4 x4) (sz _ k5 x5) (sz _ k6 x6), Res.ok_bind]
    unfold mergeEq
    rw [createIndexSets_eq (2 * N) _ (by rw [hqs, sz _ k4 x4, sz _ k5 x5, sz _ k6 x6]; exact ⟨rfl, rfl, rfl⟩)
      (by simp only [hqT, nrows_bm]; omega), Res.ok_bind]
    have hb : createMatrixBlocks (I0 (2 * N)) (⟨p, q, l4, l5, l6⟩ : Fam (Patch K)) = .ub := by
      unfold createMatrixBlocks
      simp only [I0, hT5, hqT.trans (bm_double N 4 4 _)]
      rw [getFromIndexSet_b11 (by omega) (by omega), Res.ok_bind, getFromIndexSet_ub hN]
      rfl
    rw [hb]
    rfl
  unfold buildStage
  simp only [Tree.mergeSt, fun s => buildLeaf_same (s := s) hc hT0 L0, fun s => buildLeaf_same (s := s) hc hT1 L1,
    fun s => buildLeaf_same (s := s) hc hT2 L2, fun s => buildLeaf_same (s := s) hc hT3 L3,
    fun s => buildLeaf_same (s := s) hc hT4 L4, fun s => buildLeaf_same (s := s) hc hT5 L5,
    fun s => buildLeaf_same (s := s) hc hT6 L6, Res.pure_def, Res.ok_bind, Tree.val, hm0, hroot]
  rfl

end HPS
end EF
