import Verif.Proofs.Parallel

/-!
# Merge and split on several ranks
-/

namespace EF

variable {T τ : Type} [Inhabited T]

/-- Sharing a child: every rank of the node ends with the child's data, and no map changes what it holds. -/
theorem share_runs {lo hi : Nat} {a : Addr} {i : Nat} (hi4 : i < 4) {G : Forest} {d : T} (h1 : lo ≤ G.first)
    (h2 : G.first ≤ G.last) (h3 : G.last ≤ hi) {m : Nat → NodeMap T}
    (he : ∀ r, lo ≤ r ∧ r ≤ hi → Entry r G d (a ++ [i]) (m r)) :
    ∃ (n : Nat → Node T) (m' : Nat → NodeMap T), Runs (fun r => lo ≤ r ∧ r ≤ hi) (fun r => shareChild r lo hi a.text i (m r)) (fun r => (n r, m' r)) ∧
      ∀ r, lo ≤ r ∧ r ≤ hi → (n r).data = d ∧ (G.Spans r → n r = nodeOf d (a ++ [i]) G) ∧
        ∀ p, ((m' r).get p).1 = ((m r).get p).1 := by
  have hsome : ∀ r, lo ≤ r ∧ r ≤ hi → (((m r).get (Addr.text (a ++ [i]))).1.isSome = true ↔ G.Spans r) := by
    intro r hr
    have := he r hr
    unfold Entry at this
    rw [this]
    split <;> simp [*]
  have hmax : (Finset.Icc lo hi).sup
      (fun r => if ((m r).get (Addr.text (a ++ [i]))).1.isSome = true then r - lo else 0) = G.last - lo := by
    apply le_antisymm
    · refine Finset.sup_le fun r hr => ?_
      rw [Finset.mem_Icc] at hr
      split
      · rename_i h
        have := ((hsome r hr).mp h).2
        omega
      · omega
    · have hm : G.last ∈ Finset.Icc lo hi := Finset.mem_Icc.mpr ⟨by omega, h3⟩
      refine le_trans ?_ (Finset.le_sup hm)
      rw [if_pos ((hsome _ (Finset.mem_Icc.mp hm)).mpr ⟨h2, le_refl _⟩)]
  have hroot : lo + (G.last - lo) = G.last := by omega
  have hlast : lo ≤ G.last ∧ G.last ≤ hi := ⟨by omega, h3⟩
  have hval : ((m G.last).get (Addr.text (a ++ [i]))).1.getD Node.blank = nodeOf d (a ++ [i]) G := by
    have := he _ hlast
    unfold Entry at this
    rw [this, if_pos ⟨h2, le_refl _⟩]
    rfl
  let n : Nat → Node T := fun r => { nodeOf d (a ++ [i]) G with
    comm := (((m r).get (Addr.text (a ++ [i]))).1.getD Node.blank).comm }
  refine ⟨n, fun r => if ((m r).get (Addr.text (a ++ [i]))).1.isSome then
    ((m r).get (Addr.text (a ++ [i]))).2.set (Addr.text (a ++ [i])) (some (n r)) else ((m r).get (Addr.text (a ++ [i]))).2, ?_, ?_⟩
  · unfold shareChild
    simp only [kid_text a hi4]
    refine Runs.bind (Runs.allMax (by omega) a.text _) ?_
    rw [hmax]
    refine Runs.bind (Runs.bcast (by omega) a.text _) ?_
    rw [hroot, hval]
    exact Runs.pure (fun r hr => rfl)
  · intro r hr
    have hspan : G.Spans r → n r = nodeOf d (a ++ [i]) G := by
      intro hs
      have := he r hr
      unfold Entry at this
      show ({ nodeOf d (a ++ [i]) G with comm := (((m r).get (Addr.text (a ++ [i]))).1.getD Node.blank).comm } : Node T) = _
      rw [this, if_pos hs]
      rfl
    refine ⟨rfl, hspan, ?_⟩
    intro p
    have hget : ∀ p, (((m r).get (Addr.text (a ++ [i]))).2.get p).1 = ((m r).get p).1 := by
      intro p
      cases h : m r (Addr.text (a ++ [i])) with
      | some x => simp only [NodeMap.get, h]
      | none =>
        by_cases hp : p = Addr.text (a ++ [i])
        · subst hp
          simp [NodeMap.get, h, NodeMap.set]
        · refine get_congr ?_
          simp only [NodeMap.get, h]
          exact set_other hp _
    by_cases hs : ((m r).get (Addr.text (a ++ [i]))).1.isSome = true
    · simp only [if_pos hs]
      by_cases hp : p = Addr.text (a ++ [i])
      · subst hp
        have hsp := (hsome r hr).mp hs
        have := he r hr
        unfold Entry at this
        rw [get_set, this, if_pos hsp, hspan hsp]
      · rw [get_congr (set_other hp _), hget]
    · simp only [if_neg hs]
      exact hget p

theorem FamRep.congr {r : Nat} {c0 c1 c2 c3 : Forest} {F : Fam T} {a : Addr} {m m' : NodeMap T} (h : FamRep r c0 c1 c2 c3 F a m)
    (hm : ∀ p, (m'.get p).1 = (m.get p).1) : FamRep r c0 c1 c2 c3 F a m' :=
  ⟨h.tau.congr (hm _), h.a.congr (hm _), h.b.congr (hm _), h.c.congr (hm _), h.d.congr (hm _)⟩

theorem Forest.Sorted.allOn {F : Forest} (h : F.Sorted) (e : F.first = F.last) {r : Nat} (hr : F.Spans r) : F.AllOn r := by
  intro k hk
  have := h.first_le hk
  have := h.le_last hk
  have := hr.1
  have := hr.2
  omega

theorem Forest.Sorted.first_le_last {F : Forest} (h : F.Sorted) : F.first ≤ F.last := h.first_le (Forest.last_mem F)

/-- The children's ranges lie in the node's. -/
theorem Forest.Sorted.kid_range {c0 c1 c2 c3 : Forest} (h : (Forest.node c0 c1 c2 c3).Sorted) (G : Forest)
    (hG : G = c0 ∨ G = c1 ∨ G = c2 ∨ G = c3) :
    (Forest.node c0 c1 c2 c3).first ≤ G.first ∧ G.first ≤ G.last ∧ G.last ≤ (Forest.node c0 c1 c2 c3).last := by
  have sub : ∀ k ∈ G.ranks, k ∈ (Forest.node c0 c1 c2 c3).ranks := by
    intro k hk
    simp only [Forest.ranks, List.mem_append]
    rcases hG with rfl | rfl | rfl | rfl <;> tauto
  have hs : G.Sorted := by
    obtain ⟨s0, s1, s2, s3⟩ := h.kids
    rcases hG with rfl | rfl | rfl | rfl <;> assumption
  exact ⟨h.first_le (sub _ (Forest.first_mem G)), hs.first_le_last, h.le_last (sub _ (Forest.last_mem G))⟩

/-- The family callback on all ranks of a node. -/
theorem family_runs {M : Nat} {lf : T → τ → Res (T × τ)} {ff : Fam T → Res (Fam T)} {a : Addr} (ha : a.Valid)
    (hl : a.length ≤ M) {c0 c1 c2 c3 : Forest} (hs : (Forest.node c0 c1 c2 c3).Sorted) {F F' : Fam T} (hf : ff F = .ok F')
    {m : Nat → NodeMap T} {s : Nat → τ} (h : ∀ r, (Forest.node c0 c1 c2 c3).Spans r → FamRep r c0 c1 c2 c3 F a (m r)) :
    ∃ m' : Nat → NodeMap T, Runs (Forest.node c0 c1 c2 c3).Spans
        (fun r => mergeSplit M r .this .broadcast (onData lf) (onFamily ff) (a.quad M) false (m r, s r))
        (fun r => ((m' r, s r), true)) ∧
      ∀ r, (Forest.node c0 c1 c2 c3).Spans r → FamRep r c0 c1 c2 c3 F' a (m' r) ∧
        ∀ p, p ≠ a.text → (∀ i < 4, p ≠ Addr.text (a ++ [i])) → ((m' r).get p).1 = ((m r).get p).1 := by
  by_cases e : (Forest.node c0 c1 c2 c3).first = (Forest.node c0 c1 c2 c3).last
  · refine ⟨fun r => stored (m r) a (famNodes c0 c1 c2 c3 F' a), Runs.pure ?_, ?_⟩
    · intro r hr
      rw [mergeSplit_one ha hl (hs.allOn e hr) (h r hr), hf]
      rfl
    · intro r hr
      exact stored_rep ha (h r hr) hr rfl (.inl rfl) (.inl rfl) (.inl rfl) (.inl rfl)
  · obtain ⟨a1, a2, a3⟩ := hs.kid_range c0 (by simp)
    obtain ⟨n0, m0, R0, p0⟩ := share_runs (i := 0) (by omega) a1 a2 a3 (fun r hr => (h r hr).a)
    have h0 : ∀ r, (Forest.node c0 c1 c2 c3).Spans r → FamRep r c0 c1 c2 c3 F a (m0 r) :=
      fun r hr => (h r hr).congr (p0 r hr).2.2
    obtain ⟨b1, b2, b3⟩ := hs.kid_range c1 (by simp)
    obtain ⟨n1, m1, R1, p1⟩ := share_runs (i := 1) (by omega) b1 b2 b3 (fun r hr => (h0 r hr).b)
    have h1 : ∀ r, (Forest.node c0 c1 c2 c3).Spans r → FamRep r c0 c1 c2 c3 F a (m1 r) :=
      fun r hr => (h0 r hr).congr (p1 r hr).2.2
    obtain ⟨d1, d2, d3⟩ := hs.kid_range c2 (by simp)
    obtain ⟨n2, m2, R2, p2⟩ := share_runs (i := 2) (by omega) d1 d2 d3 (fun r hr => (h1 r hr).c)
    have h2 : ∀ r, (Forest.node c0 c1 c2 c3).Spans r → FamRep r c0 c1 c2 c3 F a (m2 r) :=
      fun r hr => (h1 r hr).congr (p2 r hr).2.2
    obtain ⟨e1, e2, e3⟩ := hs.kid_range c3 (by simp)
    obtain ⟨n3, m3, R3, p3⟩ := share_runs (i := 3) (by omega) e1 e2 e3 (fun r hr => (h2 r hr).d)
    have h3 : ∀ r, (Forest.node c0 c1 c2 c3).Spans r → FamRep r c0 c1 c2 c3 F a (m3 r) :=
      fun r hr => (h2 r hr).congr (p3 r hr).2.2
    let N : Nat → Fam (Node T) := fun r => ⟨nodeOf F'.tau a (.node c0 c1 c2 c3), { n0 r with data := F'.a },
      { n1 r with data := F'.b }, { n2 r with data := F'.c }, { n3 r with data := F'.d }⟩
    refine ⟨fun r => stored (m3 r) a (N r), ?_, ?_⟩
    · have key : Runs (Forest.node c0 c1 c2 c3).Spans (fun r =>
          shareChild r (Forest.node c0 c1 c2 c3).first (Forest.node c0 c1 c2 c3).last a.text 0 (m r) >>= fun x0 =>
          shareChild r (Forest.node c0 c1 c2 c3).first (Forest.node c0 c1 c2 c3).last a.text 1 x0.2 >>= fun x1 =>
          shareChild r (Forest.node c0 c1 c2 c3).first (Forest.node c0 c1 c2 c3).last a.text 2 x1.2 >>= fun x2 =>
          shareChild r (Forest.node c0 c1 c2 c3).first (Forest.node c0 c1 c2 c3).last a.text 3 x2.2 >>= fun x3 =>
          Prog.fin (onFamily ff ⟨nodeOf F.tau a (.node c0 c1 c2 c3), x0.1, x1.1, x2.1, x3.1⟩ (s r)) >>= fun res =>
          (Pure.pure ((stored x3.2 a res.1.1, res.1.2), res.2) : Prog T ((NodeMap T × τ) × Bool)))
          (fun r => ((stored (m3 r) a (N r), s r), true)) := by
        refine Runs.bind R0 (Runs.bind R1 (Runs.bind R2 (Runs.bind R3 (Runs.pure ?_))))
        intro r hr
        dsimp only
        unfold onFamily
        rw [(p0 r hr).1, (p1 r hr).1, (p2 r hr).1, (p3 r hr).1, show (nodeOf F.tau a (.node c0 c1 c2 c3)).data = F.tau from rfl,
          show (⟨F.tau, F.a, F.b, F.c, F.d⟩ : Fam T) = F from rfl, hf]
        rfl
      refine key.congr ?_ (fun r _ => rfl)
      intro r hr
      have ht := (h r hr).tau
      unfold Entry at ht
      rw [if_pos hr] at ht
      unfold mergeSplit
      rw [if_neg (by simp), (Addr.quad_spec ha hl).2.2]
      dsimp only
      rw [ht]
      dsimp only
      rw [nodeOf_comm]
      dsimp only
      rw [if_neg (by simp), if_neg (show ¬ (nodeOf F.tau a (.node c0 c1 c2 c3)).pfirst = (nodeOf F.tau a (.node c0 c1 c2 c3)).plast from
        e), if_pos (show (nodeOf F.tau a (.node c0 c1 c2 c3)).pfirst ≤ r ∧
          r ≤ (nodeOf F.tau a (.node c0 c1 c2 c3)).plast from hr), nodeOf_path]
      rfl
    · intro r hr
      have sp : ∀ {G : Forest} {x : T} {i : Nat} {k : Node T} {y : T}, (G.Spans r → k = nodeOf x (a ++ [i]) G) →
          ({ k with data := y } : Node T) = nodeOf y (a ++ [i]) G ∨ ¬ G.Spans r := by
        intro G x i k y hk
        by_cases hg : G.Spans r
        · left
          rw [hk hg]
          rfl
        · exact .inr hg
      obtain ⟨g1, g2⟩ := stored_rep (F' := F') (N := N r) ha (h3 r hr) hr rfl (sp (p0 r hr).2.1) (sp (p1 r hr).2.1) (sp (p2 r hr).2.1)
        (sp (p3 r hr).2.1)
      refine ⟨g1, fun p hp hk => ?_⟩
      rw [g2 p hp hk, (p3 r hr).2.2, (p2 r hr).2.2, (p1 r hr).2.2, (p0 r hr).2.2]

/-! ## Subtrees of other ranks -/

theorem searchPost_skip {m : Type → Type} [Monad m] {σ : Type} {M r : Nat} {cb : Quadrant → Bool → σ → m (σ × Bool)} {F : Forest}
    (h : r ∉ F.ranks) (q : Quadrant) (s : σ) : searchPost M r cb F q s = pure s := by
  cases F with
  | leaf k =>
    simp only [searchPost]
    exact if_neg (fun e => h (by simp [Forest.ranks, e]))
  | node c0 c1 c2 c3 =>
    simp only [searchPost]
    exact if_neg h

theorem searchPre_skip {m : Type → Type} [Monad m] {σ : Type} {M r : Nat} {cb : Quadrant → Bool → σ → m (σ × Bool)} {F : Forest}
    (h : r ∉ F.ranks) (q : Quadrant) (s : σ) : searchPre M r cb F q s = pure s := by
  cases F with
  | leaf k =>
    simp only [searchPre]
    exact if_neg (fun e => h (by simp [Forest.ranks, e]))
  | node c0 c1 c2 c3 =>
    simp only [searchPre]
    exact if_neg h

/-- A subtree that does not concern the rank may change its data. -/
theorem Rep.away {r : Nat} {F : Forest} (hs : F.Sorted) (hr : ¬ F.Spans r) {t t' : Tree T} (hsh : t'.shape = t.shape) {a : Addr}
    {m : NodeMap T} (h : Rep r F t a m) : Rep r F t' a m := by
  induction F generalizing t t' a with
  | leaf k =>
    cases t <;> cases t' <;> simp only [Rep, Tree.shape, reduceCtorEq] at h hsh ⊢
    unfold Entry at *
    rw [if_neg hr] at h ⊢
    exact h
  | node c0 c1 c2 c3 h0 h1 h2 h3 =>
    obtain ⟨s0, s1, s2, s3⟩ := hs.kids
    have no : ∀ {G : Forest}, (G = c0 ∨ G = c1 ∨ G = c2 ∨ G = c3) → ¬ G.Spans r := by
      intro G hG hsp
      obtain ⟨x, _, y⟩ := hs.kid_range G hG
      exact hr ⟨le_trans x hsp.1, le_trans hsp.2 y⟩
    cases t <;> cases t' <;> simp only [Rep, Tree.shape, reduceCtorEq, Tree.node.injEq, true_and] at h hsh ⊢
    refine ⟨?_, h0 s0 (no (by simp)) hsh.1 h.2.1, h1 s1 (no (by simp)) hsh.2.1 h.2.2.1, h2 s2 (no (by simp)) hsh.2.2.1 h.2.2.2.1,
      h3 s3 (no (by simp)) hsh.2.2.2 h.2.2.2.2⟩
    have := h.1
    unfold Entry at *
    rw [if_neg hr] at this ⊢
    exact this

theorem Tree.shape_setVal' (t : Tree T) (q : T) : (t.setVal q).shape = t.shape := by cases t <;> rfl

theorem Tree.merge_shape {lf : T → Res T} {ff : Fam T → Res (Fam T)} {t t' : Tree T} (h : t.merge lf ff = .ok t') :
    t'.shape = t.shape := by
  induction t generalizing t' with
  | leaf p =>
    simp only [Tree.merge, Res.bind_eq_ok, Res.pure_def, Res.ok_inj] at h
    obtain ⟨q, _, rfl⟩ := h
    rfl
  | node p c0 c1 c2 c3 h0 h1 h2 h3 =>
    simp only [Tree.merge, Res.bind_eq_ok, Res.pure_def, Res.ok_inj] at h
    obtain ⟨t0, e0, t1, e1, t2, e2, t3, e3, F, _, rfl⟩ := h
    simp only [Tree.shape, Tree.shape_setVal', h0 e0, h1 e1, h2 e2, h3 e3]

theorem Tree.splitFrom_shape {lf : T → Res T} {ff : Fam T → Res (Fam T)} {t t' : Tree T} {d : T}
    (h : t.splitFrom lf ff d = .ok t') : t'.shape = t.shape := by
  induction t generalizing t' d with
  | leaf p =>
    simp only [Tree.splitFrom, Res.bind_eq_ok, Res.pure_def, Res.ok_inj] at h
    obtain ⟨q, _, rfl⟩ := h
    rfl
  | node p c0 c1 c2 c3 h0 h1 h2 h3 =>
    simp only [Tree.splitFrom, Res.bind_eq_ok, Res.pure_def, Res.ok_inj] at h
    obtain ⟨F, _, t0, e0, t1, e1, t2, e2, t3, e3, rfl⟩ := h
    simp only [Tree.shape, h0 e0, h1 e1, h2 e2, h3 e3]

/-- Every rank of the range of a subtree owns one of its leaves. -/
def Forest.Full (F : Forest) : Prop := ∀ r, F.Spans r → r ∈ F.ranks

theorem Forest.Full.kids {c0 c1 c2 c3 : Forest} (h : (Forest.node c0 c1 c2 c3).Full) (hs : (Forest.node c0 c1 c2 c3).Sorted) :
    c0.Full ∧ c1.Full ∧ c2.Full ∧ c3.Full := by
  have go : ∀ (i : Nat) (G : Forest), (Forest.node c0 c1 c2 c3).sub [i] = some G → G.Full := by
    intro i G hi r hr
    exact Forest.mem_of_spans hi hs (h r (Forest.sub_spans hi hs hr)) hr
  exact ⟨go 0 c0 (by simp [Forest.sub]), go 1 c1 (by simp [Forest.sub]), go 2 c2 (by simp [Forest.sub]), go 3 c3 (by simp [Forest.sub])⟩

/-- The work on a child, seen by all ranks of the node. -/
theorem kid_runs {S : Nat → Prop} {G : Forest} (hs : G.Sorted) {srch : Nat → NodeMap T × τ → Prog T (NodeMap T × τ)}
    (hskip : ∀ r, ¬ G.Spans r → ∀ x, srch r x = pure x) (hsub : ∀ r, G.Spans r → S r) {t t' : Tree T} {b : Addr}
    (hsh : t'.shape = t.shape) {m : Nat → NodeMap T} {s s' : Nat → τ} (hrep : ∀ r, S r → Rep r G t b (m r))
    (hst : ∀ r, ¬ G.Spans r → s' r = s r)
    (h : ∃ m' : Nat → NodeMap T, Runs G.Spans (fun r => srch r (m r, s r)) (fun r => (m' r, s' r)) ∧
      ∀ r, G.Spans r → Rep r G t' b (m' r) ∧ ∀ p, ¬ Below b p → ((m' r).get p).1 = ((m r).get p).1) :
    ∃ m' : Nat → NodeMap T, Runs S (fun r => srch r (m r, s r)) (fun r => (m' r, s' r)) ∧
      (∀ r, S r → Rep r G t' b (m' r)) ∧ ∀ r, S r → ∀ p, ¬ Below b p → ((m' r).get p).1 = ((m r).get p).1 := by
  obtain ⟨m', h1, h2⟩ := h
  refine ⟨fun r => if G.Spans r then m' r else m r, ?_, ?_, ?_⟩
  · refine Runs.mono (h1.congr (fun r _ => rfl) (fun r hr => by beta_reduce; rw [if_pos hr])) hsub ?_
    intro r _ hn
    beta_reduce
    rw [hskip r hn, if_neg hn, hst r hn]
  · intro r hr
    by_cases hg : G.Spans r
    · simp only [if_pos hg]
      exact (h2 r hg).1
    · simp only [if_neg hg]
      exact (hrep r hr).away hs hg hsh
  · intro r hr p hp
    by_cases hg : G.Spans r
    · simp only [if_pos hg]
      exact (h2 r hg).2 p hp
    · simp only [if_neg hg]

/-- Ranks without leaves in a subtree keep their state. -/
theorem Tree.mergeBy_other {lf : T → τ → Res (T × τ)} {ff : Fam T → Res (Fam T)} {F : Forest} {t t' : Tree T} {s s' : Nat → τ}
    (h : Tree.mergeBy lf ff F t s = .ok (t', s')) {r : Nat} (hr : r ∉ F.ranks) : s' r = s r := by
  induction F generalizing t t' s s' with
  | leaf k =>
    cases t with
    | node => simp only [Tree.mergeBy] at h; cases h
    | leaf d =>
      simp only [Tree.mergeBy, Res.bind_eq_ok, Res.pure_def, Res.ok_inj, Prod.mk.injEq] at h
      obtain ⟨q, _, _, rfl⟩ := h
      exact Function.update_of_ne (fun e => hr (by simp [Forest.ranks, e])) _ _
  | node c0 c1 c2 c3 h0 h1 h2 h3 =>
    cases t with
    | leaf => simp only [Tree.mergeBy] at h; cases h
    | node d t0 t1 t2 t3 =>
      simp only [Tree.mergeBy, Res.bind_eq_ok, Res.pure_def, Res.ok_inj, Prod.mk.injEq] at h
      obtain ⟨x0, e0, x1, e1, x2, e2, x3, e3, F', _, _, rfl⟩ := h
      simp only [Forest.ranks, List.mem_append, not_or] at hr
      rw [h3 e3 hr.2, h2 e2 hr.1.2, h1 e1 hr.1.1.2, h0 e0 hr.1.1.1]

theorem Tree.mergeBy_shape {lf : T → τ → Res (T × τ)} {ff : Fam T → Res (Fam T)} {F : Forest} {t t' : Tree T} {s s' : Nat → τ}
    (h : Tree.mergeBy lf ff F t s = .ok (t', s')) : t'.shape = t.shape := by
  induction F generalizing t t' s s' with
  | leaf k =>
    cases t with
    | node => simp only [Tree.mergeBy] at h; cases h
    | leaf d =>
      simp only [Tree.mergeBy, Res.bind_eq_ok, Res.pure_def, Res.ok_inj, Prod.mk.injEq] at h
      obtain ⟨q, _, rfl, _⟩ := h
      rfl
  | node c0 c1 c2 c3 h0 h1 h2 h3 =>
    cases t with
    | leaf => simp only [Tree.mergeBy] at h; cases h
    | node d t0 t1 t2 t3 =>
      simp only [Tree.mergeBy, Res.bind_eq_ok, Res.pure_def, Res.ok_inj, Prod.mk.injEq] at h
      obtain ⟨x0, e0, x1, e1, x2, e2, x3, e3, F', _, rfl, _⟩ := h
      simp only [Tree.shape, Tree.shape_setVal', h0 e0, h1 e1, h2 e2, h3 e3]

/-- Merging on all ranks of a subtree is merging the tree with a state per rank. -/
theorem mergeBy_runs {M : Nat} {lf : T → τ → Res (T × τ)} {ff : Fam T → Res (Fam T)} (F : Forest) {a : Addr} (ha : a.Valid)
    (hl : a.length + F.depth ≤ M) (hs : F.Sorted) (hfull : F.Full) {t t' : Tree T} {s s' : Nat → τ}
    (ht : Tree.mergeBy lf ff F t s = .ok (t', s')) {m : Nat → NodeMap T} (h : ∀ r, F.Spans r → Rep r F t a (m r)) :
    ∃ m' : Nat → NodeMap T, Runs F.Spans
        (fun r => searchPost M r (mergeSplit M r .this .broadcast (onData lf) (onFamily ff)) F (a.quad M) (m r, s r))
        (fun r => (m' r, s' r)) ∧
      ∀ r, F.Spans r → Rep r F t' a (m' r) ∧ ∀ p, ¬ Below a p → ((m' r).get p).1 = ((m r).get p).1 := by
  induction F generalizing t t' a m s s' with
  | leaf k =>
    have hk : (Forest.leaf k).Spans k := ⟨le_refl _, le_refl _⟩
    cases t with
    | node => exact absurd (h k hk) id
    | leaf d =>
      simp only [Tree.mergeBy, Res.bind_eq_ok, Res.pure_def, Res.ok_inj, Prod.mk.injEq] at ht
      obtain ⟨q, hq, rfl, rfl⟩ := ht
      refine ⟨fun r => (m r).set a.text (some (nodeOf q.1 a (.leaf k))), Runs.pure ?_, ?_⟩
      · intro r hr
        have hkr : k = r := le_antisymm hr.1 hr.2
        simp only [searchPost]
        rw [if_pos hkr, mergeSplit_leaf ha (by omega) hkr (h r hr)]
        subst hkr
        rw [hq, Function.update_self]
        rfl
      · intro r hr
        refine ⟨?_, ?_⟩
        · show Entry r (.leaf k) q.1 a _
          unfold Entry
          rw [get_set, if_pos hr]
        · intro p hp
          exact get_congr (set_other (fun e => hp (by rw [e]; exact below_self a)) _)
  | node c0 c1 c2 c3 h0 h1 h2 h3 =>
    obtain ⟨u0, u1, u2, u3⟩ := hfull.kids hs
    have hn : (Forest.node c0 c1 c2 c3).Spans (Forest.node c0 c1 c2 c3).first := ⟨le_refl _, hs.first_le_last⟩
    obtain ⟨o0, o1, o2, o3⟩ := hs.kids
    have up : ∀ {G : Forest}, (G = c0 ∨ G = c1 ∨ G = c2 ∨ G = c3) → ∀ r, G.Spans r → (Forest.node c0 c1 c2 c3).Spans r := by
      intro G hG r hsp
      obtain ⟨x, _, y⟩ := hs.kid_range G hG
      exact ⟨le_trans x hsp.1, le_trans hsp.2 y⟩
    cases t with
    | leaf => exact absurd (h _ hn) id
    | node d t0 t1 t2 t3 =>
      simp only [Forest.depth] at hl
      simp only [Tree.mergeBy, Res.bind_eq_ok, Res.pure_def, Res.ok_inj, Prod.mk.injEq] at ht
      obtain ⟨⟨t0', s0⟩, e0, ⟨t1', s1⟩, e1, ⟨t2', s2⟩, e2, ⟨t3', s3⟩, e3, F', hF, rfl, rfl⟩ := ht
      dsimp only at e1 e2 e3 hF ⊢
      have other : ∀ {G : Forest} {x x' : Tree T} {y y' : Nat → τ}, G.Sorted → Tree.mergeBy lf ff G x y = .ok (x', y') →
          ∀ r, ¬ G.Spans r → y' r = y r := fun hG e r hr => Tree.mergeBy_other e (fun hm => hr (hG.spans_of_mem hm))
      have sib : ∀ {i j : Nat}, i < 4 → j < 4 → i ≠ j → ∀ {p}, Below (a ++ [i]) p → ¬ Below (a ++ [j]) p :=
        fun hi hj hij _ hp => not_below_sib ha hi hj hij hp
      have skip : ∀ {G : Forest} {q : Quadrant}, G.Sorted → ∀ r, ¬ G.Spans r → ∀ x : NodeMap T × τ,
          searchPost M r (mergeSplit M r .this .broadcast (onData lf) (onFamily ff)) G q x = pure x :=
        fun hG r hr x => searchPost_skip (fun hm => hr (hG.spans_of_mem hm)) _ _
      obtain ⟨m0, R0, q0, f0⟩ := kid_runs (S := (Forest.node c0 c1 c2 c3).Spans) o0 (skip o0) (up (by simp))
        (Tree.mergeBy_shape e0) (fun r hr => (h r hr).2.1) (other o0 e0)
        (h0 (ha.snoc (i := 0) (by omega)) (by simp; omega) o0 u0 e0 (fun r hr => (h r (up (by simp) r hr)).2.1))
      have g1 : ∀ r, (Forest.node c0 c1 c2 c3).Spans r → Rep r c1 t1 (a ++ [1]) (m0 r) := fun r hr =>
        (h r hr).2.2.1.congr fun p hp => f0 r hr p (sib (by omega) (by omega) (by omega) hp)
      obtain ⟨m1, R1, q1, f1⟩ := kid_runs (S := (Forest.node c0 c1 c2 c3).Spans) o1 (skip o1) (up (by simp))
        (Tree.mergeBy_shape e1) g1 (other o1 e1)
        (h1 (ha.snoc (i := 1) (by omega)) (by simp; omega) o1 u1 e1 (fun r hr => g1 r (up (by simp) r hr)))
      have g2 : ∀ r, (Forest.node c0 c1 c2 c3).Spans r → Rep r c2 t2 (a ++ [2]) (m1 r) := fun r hr =>
        ((h r hr).2.2.2.1.congr fun p hp => f0 r hr p (sib (by omega) (by omega) (by omega) hp)).congr
          fun p hp => f1 r hr p (sib (by omega) (by omega) (by omega) hp)
      obtain ⟨m2, R2, q2, f2⟩ := kid_runs (S := (Forest.node c0 c1 c2 c3).Spans) o2 (skip o2) (up (by simp))
        (Tree.mergeBy_shape e2) g2 (other o2 e2)
        (h2 (ha.snoc (i := 2) (by omega)) (by simp; omega) o2 u2 e2 (fun r hr => g2 r (up (by simp) r hr)))
      have g3 : ∀ r, (Forest.node c0 c1 c2 c3).Spans r → Rep r c3 t3 (a ++ [3]) (m2 r) := fun r hr =>
        (((h r hr).2.2.2.2.congr fun p hp => f0 r hr p (sib (by omega) (by omega) (by omega) hp)).congr
          fun p hp => f1 r hr p (sib (by omega) (by omega) (by omega) hp)).congr
          fun p hp => f2 r hr p (sib (by omega) (by omega) (by omega) hp)
      obtain ⟨m3, R3, q3, f3⟩ := kid_runs (S := (Forest.node c0 c1 c2 c3).Spans) o3 (skip o3) (up (by simp))
        (Tree.mergeBy_shape e3) g3 (other o3 e3)
        (h3 (ha.snoc (i := 3) (by omega)) (by simp; omega) o3 u3 e3 (fun r hr => g3 r (up (by simp) r hr)))
      have fk := fun r hr => frame_kids (f0 r hr) (f1 r hr) (f2 r hr) (f3 r hr)
      have R : ∀ r, (Forest.node c0 c1 c2 c3).Spans r → Rep r (.node c0 c1 c2 c3) (.node d t0' t1' t2' t3') a (m3 r) := by
        intro r hr
        refine ⟨(h r hr).1.congr (fk r hr).1, ?_, ?_, ?_, q3 r hr⟩
        · exact (((q0 r hr).congr fun p hp => f1 r hr p (sib (by omega) (by omega) (by omega) hp)).congr fun p hp =>
            f2 r hr p (sib (by omega) (by omega) (by omega) hp)).congr fun p hp =>
            f3 r hr p (sib (by omega) (by omega) (by omega) hp)
        · exact ((q1 r hr).congr fun p hp => f2 r hr p (sib (by omega) (by omega) (by omega) hp)).congr fun p hp =>
            f3 r hr p (sib (by omega) (by omega) (by omega) hp)
        · exact (q2 r hr).congr fun p hp => f3 r hr p (sib (by omega) (by omega) (by omega) hp)
      have fr : ∀ r, (Forest.node c0 c1 c2 c3).Spans r →
          FamRep r c0 c1 c2 c3 ⟨d, t0'.val, t1'.val, t2'.val, t3'.val⟩ a (m3 r) := fun r hr =>
        ⟨(R r hr).1, (R r hr).2.1.entry, (R r hr).2.2.1.entry, (R r hr).2.2.2.1.entry, (R r hr).2.2.2.2.entry⟩
      obtain ⟨m', RF, w⟩ := family_runs (M := M) (lf := lf) (s := s3) ha (by omega) hs hF fr
      refine ⟨m', ?_, ?_⟩
      · have key : Runs (Forest.node c0 c1 c2 c3).Spans (fun r =>
            searchPost M r (mergeSplit M r .this .broadcast (onData lf) (onFamily ff)) c0 (Addr.quad M (a ++ [0]))
              (m r, s r) >>= fun x =>
            searchPost M r (mergeSplit M r .this .broadcast (onData lf) (onFamily ff)) c1 (Addr.quad M (a ++ [1])) x
              >>= fun x =>
            searchPost M r (mergeSplit M r .this .broadcast (onData lf) (onFamily ff)) c2 (Addr.quad M (a ++ [2])) x
              >>= fun x =>
            searchPost M r (mergeSplit M r .this .broadcast (onData lf) (onFamily ff)) c3 (Addr.quad M (a ++ [3])) x
              >>= fun x =>
            mergeSplit M r .this .broadcast (onData lf) (onFamily ff) (a.quad M) false x >>= fun x =>
            (pure x.1 : Prog T (NodeMap T × τ))) (fun r => (m' r, s3 r)) :=
          Runs.bind R0 (Runs.bind R1 (Runs.bind R2 (Runs.bind R3 (Runs.bind RF (Runs.pure fun r _ => rfl)))))
        refine key.congr ?_ (fun r _ => rfl)
        intro r hr
        simp only [searchPost, ← Addr.quad_snoc]
        rw [if_pos (hfull r hr)]
      · intro r hr
        obtain ⟨v1, v2⟩ := stored_frame (F := ⟨d, t0'.val, t1'.val, t2'.val, t3'.val⟩) ha (w r hr).2 (w r hr).1 (R r hr)
        exact ⟨v1, fun p hp => (v2 p hp).trans ((fk r hr).2 p hp)⟩

/-- The merge on all ranks of a node up to the family callback of the node. -/
theorem mergeBy_kids_runs {M : Nat} {lf : T → τ → Res (T × τ)} {ff : Fam T → Res (Fam T)} {c0 c1 c2 c3 : Forest} {a : Addr}
    (ha : a.Valid) (hl : a.length + (Forest.node c0 c1 c2 c3).depth ≤ M) (hs : (Forest.node c0 c1 c2 c3).Sorted)
    (hfull : (Forest.node c0 c1 c2 c3).Full) {t t' : Tree T} {s s' : Nat → τ}
    (ht : Tree.mergeBy lf ff (.node c0 c1 c2 c3) t s = .ok (t', s')) {m : Nat → NodeMap T}
    (h : ∀ r, (Forest.node c0 c1 c2 c3).Spans r → Rep r (.node c0 c1 c2 c3) t a (m r)) :
    ∃ (d : T) (m3 : Nat → NodeMap T) (s3 : Nat → τ), (∀ r, (Forest.node c0 c1 c2 c3).Spans r → Entry r (.node c0 c1 c2 c3) d a (m3 r)) ∧
      Runs (Forest.node c0 c1 c2 c3).Spans (fun r =>
        searchPost M r (mergeSplit M r .this .broadcast (onData lf) (onFamily ff)) c0 (Addr.quad M (a ++ [0])) (m r, s r) >>= fun x =>
        searchPost M r (mergeSplit M r .this .broadcast (onData lf) (onFamily ff)) c1 (Addr.quad M (a ++ [1])) x >>= fun x =>
        searchPost M r (mergeSplit M r .this .broadcast (onData lf) (onFamily ff)) c2 (Addr.quad M (a ++ [2])) x >>= fun x =>
        searchPost M r (mergeSplit M r .this .broadcast (onData lf) (onFamily ff)) c3 (Addr.quad M (a ++ [3])) x)
        (fun r => (m3 r, s3 r)) := by
  obtain ⟨u0, u1, u2, u3⟩ := hfull.kids hs
  have hn : (Forest.node c0 c1 c2 c3).Spans (Forest.node c0 c1 c2 c3).first := ⟨le_refl _, hs.first_le_last⟩
  obtain ⟨o0, o1, o2, o3⟩ := hs.kids
  have up : ∀ {G : Forest}, (G = c0 ∨ G = c1 ∨ G = c2 ∨ G = c3) → ∀ r, G.Spans r → (Forest.node c0 c1 c2 c3).Spans r := by
    intro G hG r hsp
    obtain ⟨x, _, y⟩ := hs.kid_range G hG
    exact ⟨le_trans x hsp.1, le_trans hsp.2 y⟩
  cases t with
  | leaf => exact absurd (h _ hn) id
  | node d t0 t1 t2 t3 =>
    simp only [Forest.depth] at hl
    simp only [Tree.mergeBy, Res.bind_eq_ok, Res.pure_def, Res.ok_inj, Prod.mk.injEq] at ht
    obtain ⟨⟨t0', s0⟩, e0, ⟨t1', s1⟩, e1, ⟨t2', s2⟩, e2, ⟨t3', s3⟩, e3, F', hF, rfl, rfl⟩ := ht
    dsimp only at e1 e2 e3 hF ⊢
    have other : ∀ {G : Forest} {x x' : Tree T} {y y' : Nat → τ}, G.Sorted → Tree.mergeBy lf ff G x y = .ok (x', y') →
        ∀ r, ¬ G.Spans r → y' r = y r := fun hG e r hr => Tree.mergeBy_other e (fun hm => hr (hG.spans_of_mem hm))
    have sib : ∀ {i j : Nat}, i < 4 → j < 4 → i ≠ j → ∀ {p}, Below (a ++ [i]) p → ¬ Below (a ++ [j]) p :=
      fun hi hj hij _ hp => not_below_sib ha hi hj hij hp
    have skip : ∀ {G : Forest} {q : Quadrant}, G.Sorted → ∀ r, ¬ G.Spans r → ∀ x : NodeMap T × τ,
        searchPost M r (mergeSplit M r .this .broadcast (onData lf) (onFamily ff)) G q x = pure x :=
      fun hG r hr x => searchPost_skip (fun hm => hr (hG.spans_of_mem hm)) _ _
    obtain ⟨m0, R0, q0, f0⟩ := kid_runs (S := (Forest.node c0 c1 c2 c3).Spans) o0 (skip o0) (up (by simp))
      (Tree.mergeBy_shape e0) (fun r hr => (h r hr).2.1) (other o0 e0)
      (mergeBy_runs c0 (ha.snoc (i := 0) (by omega)) (by simp; omega) o0 u0 e0 (fun r hr => (h r (up (by simp) r hr)).2.1))
    have g1 : ∀ r, (Forest.node c0 c1 c2 c3).Spans r → Rep r c1 t1 (a ++ [1]) (m0 r) := fun r hr =>
      (h r hr).2.2.1.congr fun p hp => f0 r hr p (sib (by omega) (by omega) (by omega) hp)
    obtain ⟨m1, R1, q1, f1⟩ := kid_runs (S := (Forest.node c0 c1 c2 c3).Spans) o1 (skip o1) (up (by simp))
      (Tree.mergeBy_shape e1) g1 (other o1 e1)
      (mergeBy_runs c1 (ha.snoc (i := 1) (by omega)) (by simp; omega) o1 u1 e1 (fun r hr => g1 r (up (by simp) r hr)))
    have g2 : ∀ r, (Forest.node c0 c1 c2 c3).Spans r → Rep r c2 t2 (a ++ [2]) (m1 r) := fun r hr =>
      ((h r hr).2.2.2.1.congr fun p hp => f0 r hr p (sib (by omega) (by omega) (by omega) hp)).congr
        fun p hp => f1 r hr p (sib (by omega) (by omega) (by omega) hp)
    obtain ⟨m2, R2, q2, f2⟩ := kid_runs (S := (Forest.node c0 c1 c2 c3).Spans) o2 (skip o2) (up (by simp))
      (Tree.mergeBy_shape e2) g2 (other o2 e2)
      (mergeBy_runs c2 (ha.snoc (i := 2) (by omega)) (by simp; omega) o2 u2 e2 (fun r hr => g2 r (up (by simp) r hr)))
    have g3 : ∀ r, (Forest.node c0 c1 c2 c3).Spans r → Rep r c3 t3 (a ++ [3]) (m2 r) := fun r hr =>
      (((h r hr).2.2.2.2.congr fun p hp => f0 r hr p (sib (by omega) (by omega) (by omega) hp)).congr
        fun p hp => f1 r hr p (sib (by omega) (by omega) (by omega) hp)).congr
        fun p hp => f2 r hr p (sib (by omega) (by omega) (by omega) hp)
    obtain ⟨m3, R3, q3, f3⟩ := kid_runs (S := (Forest.node c0 c1 c2 c3).Spans) o3 (skip o3) (up (by simp))
      (Tree.mergeBy_shape e3) g3 (other o3 e3)
      (mergeBy_runs c3 (ha.snoc (i := 3) (by omega)) (by simp; omega) o3 u3 e3 (fun r hr => g3 r (up (by simp) r hr)))
    have fk := fun r hr => frame_kids (f0 r hr) (f1 r hr) (f2 r hr) (f3 r hr)
    exact ⟨d, m3, s3, fun r hr => (h r hr).1.congr (fk r hr).1, Runs.bind R0 (Runs.bind R1 (Runs.bind R2 R3))⟩

/-- Without state, the merge with a state per rank is the merge. -/
theorem Tree.mergeBy_stateless {r : Nat} {lf : T → Res T} {ff : Fam T → Res (Fam T)} {F : Forest} {t : Tree T} {a : Addr}
    {m : NodeMap T} (h : Rep r F t a m) (s : Nat → τ) :
    Tree.mergeBy (stateless lf) ff F t s = (do let t' ← t.merge lf ff; pure (t', s)) := by
  induction F generalizing t a with
  | leaf k =>
    cases t with
    | node => exact absurd h id
    | leaf d => simp only [Tree.mergeBy, Tree.merge, stateless, bind_assoc, pure_bind, Function.update_eq_self]
  | node c0 c1 c2 c3 h0 h1 h2 h3 =>
    cases t with
    | leaf => exact absurd h id
    | node d t0 t1 t2 t3 =>
      simp only [Tree.mergeBy, Tree.merge, h0 h.2.1, h1 h.2.2.1, h2 h.2.2.2.1, h3 h.2.2.2.2, bind_assoc, pure_bind]

/-- Merging on all ranks of a subtree is merging the tree. -/
theorem merge_runs {M : Nat} {lf : T → Res T} {ff : Fam T → Res (Fam T)} (F : Forest) {a : Addr} (ha : a.Valid)
    (hl : a.length + F.depth ≤ M) (hs : F.Sorted) (hfull : F.Full) {t t' : Tree T} (ht : t.merge lf ff = .ok t')
    {m : Nat → NodeMap T} {s : Nat → τ} (h : ∀ r, F.Spans r → Rep r F t a (m r)) :
    ∃ m' : Nat → NodeMap T, Runs F.Spans
        (fun r => searchPost M r (mergeSplit M r .this .broadcast (onData (stateless lf)) (onFamily ff)) F (a.quad M) (m r, s r))
        (fun r => (m' r, s r)) ∧
      ∀ r, F.Spans r → Rep r F t' a (m' r) ∧ ∀ p, ¬ Below a p → ((m' r).get p).1 = ((m r).get p).1 := by
  refine mergeBy_runs F ha hl hs hfull ?_ h
  rw [Tree.mergeBy_stateless (h F.first ⟨le_refl _, hs.first_le_last⟩), ht]
  rfl

/-- Splitting on all ranks of a subtree is splitting the tree. -/
theorem split_runs {M : Nat} {lf : T → Res T} {ff : Fam T → Res (Fam T)} (F : Forest) {a : Addr} (ha : a.Valid)
    (hl : a.length + F.depth ≤ M) (hs : F.Sorted) (hfull : F.Full) {t t' : Tree T} (ht : t.splitFrom lf ff t.val = .ok t')
    {m : Nat → NodeMap T} {s : Nat → τ} (h : ∀ r, F.Spans r → Rep r F t a (m r)) :
    ∃ m' : Nat → NodeMap T, Runs F.Spans
        (fun r => searchPre M r (mergeSplit M r .this .broadcast (onData (stateless lf)) (onFamily ff)) F (a.quad M) (m r, s r))
        (fun r => (m' r, s r)) ∧
      ∀ r, F.Spans r → Rep r F t' a (m' r) ∧ ∀ p, ¬ Below a p → ((m' r).get p).1 = ((m r).get p).1 := by
  induction F generalizing t t' a m with
  | leaf k =>
    have hk : (Forest.leaf k).Spans k := ⟨le_refl _, le_refl _⟩
    cases t with
    | node => exact absurd (h k hk) id
    | leaf d =>
      simp only [Tree.splitFrom, Res.bind_eq_ok, Res.pure_def, Res.ok_inj] at ht
      obtain ⟨q, hq, rfl⟩ := ht
      refine ⟨fun r => (m r).set a.text (some (nodeOf q a (.leaf k))), Runs.pure ?_, ?_⟩
      · intro r hr
        have hkr : k = r := le_antisymm hr.1 hr.2
        simp only [searchPre]
        rw [if_pos hkr, mergeSplit_leaf ha (by omega) hkr (h r hr)]
        unfold stateless
        rw [show lf d = .ok q from hq]
        rfl
      · intro r hr
        refine ⟨?_, ?_⟩
        · show Entry r (.leaf k) q a _
          unfold Entry
          rw [get_set, if_pos hr]
        · intro p hp
          exact get_congr (set_other (fun e => hp (by rw [e]; exact below_self a)) _)
  | node c0 c1 c2 c3 h0 h1 h2 h3 =>
    obtain ⟨u0, u1, u2, u3⟩ := hfull.kids hs
    have hn : (Forest.node c0 c1 c2 c3).Spans (Forest.node c0 c1 c2 c3).first := ⟨le_refl _, hs.first_le_last⟩
    obtain ⟨o0, o1, o2, o3⟩ := hs.kids
    have up : ∀ {G : Forest}, (G = c0 ∨ G = c1 ∨ G = c2 ∨ G = c3) → ∀ r, G.Spans r → (Forest.node c0 c1 c2 c3).Spans r := by
      intro G hG r hsp
      obtain ⟨x, _, y⟩ := hs.kid_range G hG
      exact ⟨le_trans x hsp.1, le_trans hsp.2 y⟩
    cases t with
    | leaf => exact absurd (h _ hn) id
    | node d t0 t1 t2 t3 =>
      simp only [Forest.depth] at hl
      simp only [Tree.splitFrom, Res.bind_eq_ok, Res.pure_def, Res.ok_inj] at ht
      rw [show (Tree.node d t0 t1 t2 t3).val = d from rfl] at ht
      obtain ⟨F', hF, t0', e0, t1', e1, t2', e2, t3', e3, rfl⟩ := ht
      have sib : ∀ {i j : Nat}, i < 4 → j < 4 → i ≠ j → ∀ {p}, Below (a ++ [i]) p → ¬ Below (a ++ [j]) p :=
        fun hi hj hij _ hp => not_below_sib ha hi hj hij hp
      have skip : ∀ {G : Forest} {q : Quadrant}, G.Sorted → ∀ r, ¬ G.Spans r → ∀ x : NodeMap T × τ,
          searchPre M r (mergeSplit M r .this .broadcast (onData (stateless lf)) (onFamily ff)) G q x = pure x :=
        fun hG r hr x => searchPre_skip (fun hm => hr (hG.spans_of_mem hm)) _ _
      have fr : ∀ r, (Forest.node c0 c1 c2 c3).Spans r →
          FamRep r c0 c1 c2 c3 ⟨d, t0.val, t1.val, t2.val, t3.val⟩ a (m r) := fun r hr =>
        ⟨(h r hr).1, (h r hr).2.1.entry, (h r hr).2.2.1.entry, (h r hr).2.2.2.1.entry, (h r hr).2.2.2.2.entry⟩
      obtain ⟨mf, RF, w⟩ := family_runs (M := M) (lf := stateless lf) (s := s) ha (by omega) hs hF fr
      have R : ∀ r, (Forest.node c0 c1 c2 c3).Spans r → Rep r (.node c0 c1 c2 c3)
          (.node F'.tau (t0.setVal F'.a) (t1.setVal F'.b) (t2.setVal F'.c) (t3.setVal F'.d)) a (mf r) ∧
          ∀ p, ¬ Below a p → ((mf r).get p).1 = ((m r).get p).1 := fun r hr =>
        stored_frame (F := ⟨d, t0.val, t1.val, t2.val, t3.val⟩) ha (w r hr).2 (w r hr).1 (h r hr)
      rw [← Tree.splitFrom_setVal] at e0 e1 e2 e3
      obtain ⟨m0, R0, q0, f0⟩ := kid_runs (S := (Forest.node c0 c1 c2 c3).Spans) o0 (skip o0) (up (by simp))
        (Tree.splitFrom_shape e0) (fun r hr => (R r hr).1.2.1) (fun _ _ => rfl)
        (h0 (ha.snoc (i := 0) (by omega)) (by simp; omega) o0 u0 e0 (fun r hr => (R r (up (by simp) r hr)).1.2.1))
      have g1 : ∀ r, (Forest.node c0 c1 c2 c3).Spans r → Rep r c1 (t1.setVal F'.b) (a ++ [1]) (m0 r) := fun r hr =>
        (R r hr).1.2.2.1.congr fun p hp => f0 r hr p (sib (by omega) (by omega) (by omega) hp)
      obtain ⟨m1, R1, q1, f1⟩ := kid_runs (S := (Forest.node c0 c1 c2 c3).Spans) o1 (skip o1) (up (by simp))
        (Tree.splitFrom_shape e1) g1 (fun _ _ => rfl)
        (h1 (ha.snoc (i := 1) (by omega)) (by simp; omega) o1 u1 e1 (fun r hr => g1 r (up (by simp) r hr)))
      have g2 : ∀ r, (Forest.node c0 c1 c2 c3).Spans r → Rep r c2 (t2.setVal F'.c) (a ++ [2]) (m1 r) := fun r hr =>
        ((R r hr).1.2.2.2.1.congr fun p hp => f0 r hr p (sib (by omega) (by omega) (by omega) hp)).congr
          fun p hp => f1 r hr p (sib (by omega) (by omega) (by omega) hp)
      obtain ⟨m2, R2, q2, f2⟩ := kid_runs (S := (Forest.node c0 c1 c2 c3).Spans) o2 (skip o2) (up (by simp))
        (Tree.splitFrom_shape e2) g2 (fun _ _ => rfl)
        (h2 (ha.snoc (i := 2) (by omega)) (by simp; omega) o2 u2 e2 (fun r hr => g2 r (up (by simp) r hr)))
      have g3 : ∀ r, (Forest.node c0 c1 c2 c3).Spans r → Rep r c3 (t3.setVal F'.d) (a ++ [3]) (m2 r) := fun r hr =>
        (((R r hr).1.2.2.2.2.congr fun p hp => f0 r hr p (sib (by omega) (by omega) (by omega) hp)).congr
          fun p hp => f1 r hr p (sib (by omega) (by omega) (by omega) hp)).congr
          fun p hp => f2 r hr p (sib (by omega) (by omega) (by omega) hp)
      obtain ⟨m3, R3, q3, f3⟩ := kid_runs (S := (Forest.node c0 c1 c2 c3).Spans) o3 (skip o3) (up (by simp))
        (Tree.splitFrom_shape e3) g3 (fun _ _ => rfl)
        (h3 (ha.snoc (i := 3) (by omega)) (by simp; omega) o3 u3 e3 (fun r hr => g3 r (up (by simp) r hr)))
      have fk := fun r hr => frame_kids (f0 r hr) (f1 r hr) (f2 r hr) (f3 r hr)
      refine ⟨m3, ?_, ?_⟩
      · have key : Runs (Forest.node c0 c1 c2 c3).Spans (fun r =>
            mergeSplit M r .this .broadcast (onData (stateless lf)) (onFamily ff) (a.quad M) false (m r, s r) >>= fun y =>
            if y.2 = true then
              searchPre M r (mergeSplit M r .this .broadcast (onData (stateless lf)) (onFamily ff)) c0 (Addr.quad M (a ++ [0])) y.1
                >>= fun x =>
              searchPre M r (mergeSplit M r .this .broadcast (onData (stateless lf)) (onFamily ff)) c1 (Addr.quad M (a ++ [1])) x
                >>= fun x =>
              searchPre M r (mergeSplit M r .this .broadcast (onData (stateless lf)) (onFamily ff)) c2 (Addr.quad M (a ++ [2])) x
                >>= fun x =>
              searchPre M r (mergeSplit M r .this .broadcast (onData (stateless lf)) (onFamily ff)) c3 (Addr.quad M (a ++ [3])) x
            else pure y.1) (fun r => (m3 r, s r)) := by
          refine Runs.bind RF ?_
          simp only [if_true]
          exact Runs.bind R0 (Runs.bind R1 (Runs.bind R2 R3))
        refine key.congr ?_ (fun r _ => rfl)
        intro r hr
        simp only [searchPre, ← Addr.quad_snoc]
        rw [if_pos (hfull r hr)]
      · intro r hr
        refine ⟨⟨(R r hr).1.1.congr (fk r hr).1, ?_, ?_, ?_, q3 r hr⟩, fun p hp => ((fk r hr).2 p hp).trans ((R r hr).2 p hp)⟩
        · exact (((q0 r hr).congr fun p hp => f1 r hr p (sib (by omega) (by omega) (by omega) hp)).congr fun p hp =>
            f2 r hr p (sib (by omega) (by omega) (by omega) hp)).congr fun p hp =>
            f3 r hr p (sib (by omega) (by omega) (by omega) hp)
        · exact ((q1 r hr).congr fun p hp => f2 r hr p (sib (by omega) (by omega) (by omega) hp)).congr fun p hp =>
            f3 r hr p (sib (by omega) (by omega) (by omega) hp)
        · exact (q2 r hr).congr fun p hp => f3 r hr p (sib (by omega) (by omega) (by omega) hp)


/-- A leaf needs no collective. -/
theorem leaf_step {M r k : Nat} {lf : T → Res T} {ff : Fam T → Res (Fam T)} {b : Addr} (hb : b.Valid) (hl : b.length ≤ M) {d : T}
    {m : NodeMap T} {s : τ} (h : Entry r (.leaf k) d b m) (hlf : ∃ y, lf d = .ok y) :
    ∃ m', searchPost M r (mergeSplit M r .this .broadcast (onData (stateless lf)) (onFamily ff)) (.leaf k) (b.quad M) (m, s)
        = Pure.pure (m', s) ∧ ∀ p, ¬ Below b p → (m'.get p).1 = (m.get p).1 := by
  by_cases hk : k = r
  · obtain ⟨y, hy⟩ := hlf
    refine ⟨m.set b.text (some (nodeOf y b (.leaf k))), ?_, ?_⟩
    · simp only [searchPost]
      rw [if_pos hk, mergeSplit_leaf hb hl hk h]
      unfold stateless
      rw [hy]
      rfl
    · intro p hp
      exact get_congr (set_other (fun e => hp (by rw [e]; exact below_self b)) _)
  · exact ⟨m, searchPost_skip (by simp [Forest.ranks]; omega) _ _, fun p _ => rfl⟩

/-- At a node with several owners every owner first enters the node's collective. -/
theorem mergeSplit_waits {M r : Nat} {lf : T → τ → Res (T × τ)} {ff : Fam T → Res (Fam T)} {a : Addr} (ha : a.Valid)
    (hl : a.length ≤ M) {c0 c1 c2 c3 : Forest} {d : T} {m : NodeMap T} {s : τ} (h : Entry r (.node c0 c1 c2 c3) d a m)
    (hr : (Forest.node c0 c1 c2 c3).Spans r) (hne : c0.first ≠ c3.last) :
    ∃ v k, mergeSplit M r .this .broadcast (onData lf) (onFamily ff) (a.quad M) false (m, s)
      = .allMax c0.first c3.last a.text v k := by
  unfold Entry at h
  rw [if_pos hr] at h
  unfold mergeSplit
  rw [if_neg (by simp), (Addr.quad_spec ha hl).2.2]
  dsimp only
  rw [h]
  dsimp only
  rw [nodeOf_comm]
  dsimp only
  rw [if_neg (by simp), if_neg (show ¬ (nodeOf d a (.node c0 c1 c2 c3)).pfirst = (nodeOf d a (.node c0 c1 c2 c3)).plast from
    hne), if_pos (show (nodeOf d a (.node c0 c1 c2 c3)).pfirst ≤ r ∧ r ≤ (nodeOf d a (.node c0 c1 c2 c3)).plast from hr), nodeOf_path]
  exact ⟨_, _, rfl⟩


omit [Inhabited T] in
theorem Tree.mergeSt_stateless {lf : T → Res T} {ff : Fam T → Res (Fam T)} (t : Tree T) (s : τ) :
    t.mergeSt (stateless lf) ff s = (do let t' ← t.merge lf ff; pure (t', s)) := by
  induction t generalizing s with
  | leaf p => simp only [Tree.mergeSt, Tree.merge, stateless, bind_assoc, pure_bind]
  | node p c0 c1 c2 c3 h0 h1 h2 h3 => simp only [Tree.mergeSt, Tree.merge, h0, h1, h2, h3, bind_assoc, pure_bind]

end EF
