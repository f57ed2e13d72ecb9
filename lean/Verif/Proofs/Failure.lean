import Verif.Spec.Failure
import Verif.Proofs.QuadParallel
import Verif.Proofs.ParallelHPS

/-!
# Failures on several ranks
-/

namespace EF

variable {T α β γ τ : Type}

theorem Res.fail_bind (e : Option Exn) (f : α → Res β) : ((Res.fail e : Res α) >>= f) = Res.fail e := by cases e <;> rfl

theorem Res.bind_eq_fail {x : Res α} {f : α → Res β} {e : Option Exn} :
    (x >>= f) = Res.fail e ↔ x = Res.fail e ∨ ∃ a, x = .ok a ∧ f a = Res.fail e := by
  cases x with
  | ok a =>
    constructor
    · exact fun h => .inr ⟨a, rfl, h⟩
    · rintro (h | ⟨b, h, h'⟩)
      · cases e <;> cases h
      · cases h; exact h'
  | throw e' =>
    constructor
    · intro h; cases e <;> cases h; exact .inl rfl
    · rintro (h | ⟨b, h, -⟩)
      · cases e <;> cases h; rfl
      · cases h
  | ub =>
    constructor
    · intro h; cases e <;> cases h; exact .inl rfl
    · rintro (h | ⟨b, h, -⟩)
      · cases e <;> cases h; rfl
      · cases h

theorem Res.ok_ne_fail {a : α} {e : Option Exn} : ¬ (Res.ok a = Res.fail e) := by cases e <;> exact fun h => by cases h

theorem Res.ok_or_fail (x : Res α) : (∃ a, x = .ok a) ∨ ∃ e, x = Res.fail e := by
  cases x with
  | ok a => exact .inl ⟨a, rfl⟩
  | throw e => exact .inr ⟨some e, rfl⟩
  | ub => exact .inr ⟨none, rfl⟩

/-! ## Confluence -/

theorem Run.strip {n : Nat} {a b c : Config T α} (h : Run n a b) (hs : Step a c) :
    ∃ d, (Run 0 b d ∨ Run 1 b d) ∧ ∃ n', Run n' c d := by
  induction h generalizing c with
  | refl => exact ⟨c, .inr (.step hs (.refl _)), 0, .refl _⟩
  | step h1 rest ih =>
    rcases h1.diamond hs with rfl | ⟨d, e1, e2⟩
    · exact ⟨_, .inl (.refl _), _, rest⟩
    · obtain ⟨d', h2, n', h3⟩ := ih e1
      exact ⟨d', h2, n' + 1, .step e2 h3⟩

/-- Two runs from the same configuration can be continued to a common one. -/
theorem Run.join {n k : Nat} {a b c : Config T α} (h : Run n a b) (h' : Run k a c) :
    ∃ d n' k', Run n' b d ∧ Run k' c d := by
  induction h' generalizing n b with
  | refl => exact ⟨b, 0, n, .refl _, h⟩
  | step hs rest ih =>
    obtain ⟨d, h1, n', h2⟩ := h.strip hs
    obtain ⟨d', n'', k'', h3, h4⟩ := ih h2
    rcases h1 with h1 | h1
    · exact ⟨d', _, k'', h1.trans h3, h4⟩
    · exact ⟨d', _, k'', h1.trans h3, h4⟩

/-- A rank that has ended stays as it is. -/
theorem Run.ended {n : Nat} {a b : Config T α} (h : Run n a b) {r : Nat} {x : Res α} (hr : a r = .fin x) : b r = .fin x := by
  induction h with
  | refl => exact hr
  | step hs _ ih =>
    refine ih ?_
    cases hs with
    | allMax lo hi name v k hle arr lv oth =>
      by_cases hq : lo ≤ r ∧ r ≤ hi
      · have := arr r hq.1 hq.2
        rw [hr] at this
        cases this
      · rw [oth r hq, hr]
    | bcast lo hi name root v k hle arr lv oth =>
      by_cases hq : lo ≤ r ∧ r ≤ hi
      · have := arr r hq.1 hq.2
        rw [hr] at this
        cases this
      · rw [oth r hq, hr]

/-! ## Ranks that fail together -/

/-- When the ranks of `S` run `p` and then anything, one of them comes to fail with `e`. -/
def Breaks (S : Nat → Prop) (p : Nat → Prog T β) (e : Option Exn) : Prop :=
  ∀ (α : Type) (κ : Nat → β → Prog T α) (c : Config T α), (∀ r, S r → c r = p r >>= κ r) →
    ∃ n c' r, Run n c c' ∧ S r ∧ c' r = .fin (Res.fail e)

theorem Prog.fail_bind (e : Option Exn) (f : α → Prog T β) : ((Prog.fin (Res.fail e) : Prog T α) >>= f) = .fin (Res.fail e) := by
  cases e <;> rfl

theorem Breaks.now {S : Nat → Prop} {p : Nat → Prog T β} {e : Option Exn} {r : Nat} (hr : S r) (h : p r = .fin (Res.fail e)) :
    Breaks S p e := by
  intro α κ c hc
  exact ⟨0, c, r, .refl _, hr, by rw [hc r hr, h, Prog.fail_bind]⟩

theorem Breaks.left {S : Nat → Prop} {p : Nat → Prog T β} {e : Option Exn} (h : Breaks S p e) (q : Nat → β → Prog T γ) :
    Breaks S (fun r => p r >>= q r) e := by
  intro α κ c hc
  exact h α (fun r b => q r b >>= κ r) c (fun r hr => by rw [hc r hr, bind_assoc])

theorem Runs.breaks {S : Nat → Prop} {p : Nat → Prog T β} {v : Nat → β} {q : Nat → β → Prog T γ} {e : Option Exn}
    (h : Runs S p v) (h' : Breaks S (fun r => q r (v r)) e) : Breaks S (fun r => p r >>= q r) e := by
  intro α κ c hc
  obtain ⟨n, c1, r1, e1, f1⟩ := h α (fun r b => q r b >>= κ r) c (fun r hr => by rw [hc r hr, bind_assoc])
  obtain ⟨n', c2, r, r2, hr, e2⟩ := h' α κ c1 e1
  exact ⟨n' + n, c2, r, r1.trans r2, hr, e2⟩

theorem Breaks.congr {S : Nat → Prop} {p p' : Nat → Prog T β} {e : Option Exn} (h : Breaks S p e) (hp : ∀ r, S r → p' r = p r) :
    Breaks S p' e := by
  intro α κ c hc
  exact h α κ c (fun r hr => by rw [hc r hr, hp r hr])

theorem Breaks.mono {S S' : Nat → Prop} {p : Nat → Prog T β} {e : Option Exn} (h : Breaks S p e) (hS : ∀ r, S r → S' r) :
    Breaks S' p e := by
  intro α κ c hc
  obtain ⟨n, c', r, h1, h2, h3⟩ := h α κ c (fun r hr => hc r (hS r hr))
  exact ⟨n, c', r, h1, hS r h2, h3⟩

/-- One rank is bound to fail. -/
theorem Breaks.always {size : Nat} {p : Nat → Prog T β} {e : Option Exn} (h : Breaks (fun r => r < size) p e) {c : Config T β}
    (hc : ∀ r, r < size → c r = p r) : AlwaysFails size c e := by
  obtain ⟨n, c', r, h1, h2, h3⟩ := h β (fun _ b => pure b) c (fun r hr => by rw [hc r hr, bind_pure])
  refine ⟨r, h2, fun k b hb => ?_⟩
  obtain ⟨d, n', k', h4, h5⟩ := h1.join hb
  exact ⟨k', d, h5, h4.ended h3⟩

/-! ## Merge and split -/

section
variable [Inhabited T]

theorem family_breaks {M : Nat} {lf : T → τ → Res (T × τ)} {ff : Fam T → Res (Fam T)} {a : Addr} (ha : a.Valid)
    (hl : a.length ≤ M) {c0 c1 c2 c3 : Forest} (hs : (Forest.node c0 c1 c2 c3).Sorted) {F : Fam T} {e : Option Exn}
    (hf : ff F = Res.fail e) {m : Nat → NodeMap T} {s : Nat → τ}
    (h : ∀ r, (Forest.node c0 c1 c2 c3).Spans r → FamRep r c0 c1 c2 c3 F a (m r)) :
    Breaks (Forest.node c0 c1 c2 c3).Spans
      (fun r => mergeSplit M r .this .broadcast (onData lf) (onFamily ff) (a.quad M) false (m r, s r)) e := by
  have hn : (Forest.node c0 c1 c2 c3).Spans (Forest.node c0 c1 c2 c3).first := ⟨le_refl _, hs.first_le_last⟩
  by_cases he : (Forest.node c0 c1 c2 c3).first = (Forest.node c0 c1 c2 c3).last
  · refine Breaks.now hn ?_
    rw [mergeSplit_one ha hl (hs.allOn he hn) (h _ hn), hf, Prog.fail_bind]
  · obtain ⟨a1, a2, a3⟩ := hs.kid_range c0 (by simp)
    obtain ⟨n0, m0, R0, p0⟩ := share_runs (i := 0) (by omega) a1 a2 a3 (fun r hr => (h r hr).a)
    have h0 : ∀ r, (Forest.node c0 c1 c2 c3).Spans r → FamRep r c0 c1 c2 c3 F a (m0 r) :=
      fun r hr => (h r hr).congr (p0 r hr).2.2
    obtain ⟨b1, b2, b3⟩ := hs.kid_range c1 (by simp)
    obtain ⟨n1, m1, R1, p1⟩ := share_runs (i := 1) (by omega) b1 b2 b3 (fun r hr => (h0 r hr).b)
    have h1 : ∀ r, (Forest.node c0 c1 c2 c3).Spans r → FamRep r c0 c1 c2 c3 F a (m1 r) :=
      fun r hr => (h0 r hr).congr (p1 r hr).2.2
    obtain ⟨d1, d2, d3⟩ := hs.kid_range c2 (by simp)
    obtain ⟨n2, m2, R2, p2⟩ := share_runs (i := 2) (by omega) d1 d2 d3 (fun r hr => (h1 r hr).c)
    have h2 : ∀ r, (Forest.node c0 c1 c2 c3).Spans r → FamRep r c0 c1 c2 c3 F a (m2 r) :=
      fun r hr => (h1 r hr).congr (p2 r hr).2.2
    obtain ⟨e1, e2, e3⟩ := hs.kid_range c3 (by simp)
    obtain ⟨n3, m3, R3, p3⟩ := share_runs (i := 3) (by omega) e1 e2 e3 (fun r hr => (h2 r hr).d)
    have key : Breaks (Forest.node c0 c1 c2 c3).Spans (fun r =>
        shareChild r (Forest.node c0 c1 c2 c3).first (Forest.node c0 c1 c2 c3).last a.text 0 (m r) >>= fun x0 =>
        shareChild r (Forest.node c0 c1 c2 c3).first (Forest.node c0 c1 c2 c3).last a.text 1 x0.2 >>= fun x1 =>
        shareChild r (Forest.node c0 c1 c2 c3).first (Forest.node c0 c1 c2 c3).last a.text 2 x1.2 >>= fun x2 =>
        shareChild r (Forest.node c0 c1 c2 c3).first (Forest.node c0 c1 c2 c3).last a.text 3 x2.2 >>= fun x3 =>
        Prog.fin (onFamily ff ⟨nodeOf F.tau a (.node c0 c1 c2 c3), x0.1, x1.1, x2.1, x3.1⟩ (s r)) >>= fun res =>
        (Pure.pure ((stored x3.2 a res.1.1, res.1.2), res.2) : Prog T ((NodeMap T × τ) × Bool))) e := by
      refine Runs.breaks R0 (Runs.breaks R1 (Runs.breaks R2 (Runs.breaks R3 (Breaks.now hn ?_))))
      dsimp only
      unfold onFamily
      rw [(p0 _ hn).1, (p1 _ hn).1, (p2 _ hn).1, (p3 _ hn).1, show (nodeOf F.tau a (.node c0 c1 c2 c3)).data = F.tau from rfl,
        show (⟨F.tau, F.a, F.b, F.c, F.d⟩ : Fam T) = F from rfl, hf, Res.fail_bind, Prog.fail_bind]
    refine key.congr ?_
    intro r hr
    have ht := (h r hr).tau
    unfold Entry at ht
    rw [if_pos hr] at ht
    unfold mergeSplit
    rw [if_neg (by simp), (Addr.quad_spec ha hl).2.2]
    dsimp only
    rw [ht]
    dsimp only
    rw [nodeOf_comm]
    dsimp only
    rw [if_neg (by simp), if_neg (show ¬ (nodeOf F.tau a (.node c0 c1 c2 c3)).pfirst = (nodeOf F.tau a (.node c0 c1 c2 c3)).plast from
      he), if_pos (show (nodeOf F.tau a (.node c0 c1 c2 c3)).pfirst ≤ r ∧
        r ≤ (nodeOf F.tau a (.node c0 c1 c2 c3)).plast from hr), nodeOf_path]
    rfl

/-- Where merging the tree with a state per rank fails, merging on the ranks of the subtree does. -/
theorem mergeBy_breaks {M : Nat} {lf : T → τ → Res (T × τ)} {ff : Fam T → Res (Fam T)} (F : Forest) {a : Addr} (ha : a.Valid)
    (hl : a.length + F.depth ≤ M) (hs : F.Sorted) (hfull : F.Full) {t : Tree T} {s : Nat → τ} {e : Option Exn}
    (ht : Tree.mergeBy lf ff F t s = Res.fail e) {m : Nat → NodeMap T} (h : ∀ r, F.Spans r → Rep r F t a (m r)) :
    Breaks F.Spans
      (fun r => searchPost M r (mergeSplit M r .this .broadcast (onData lf) (onFamily ff)) F (a.quad M) (m r, s r)) e := by
  induction F generalizing t a m s with
  | leaf k =>
    have hk : (Forest.leaf k).Spans k := ⟨le_refl _, le_refl _⟩
    cases t with
    | node => exact absurd (h k hk) id
    | leaf d =>
      simp only [Tree.mergeBy] at ht
      rcases Res.bind_eq_fail.mp ht with hq | ⟨q, -, h2⟩
      · refine Breaks.now hk ?_
        simp only [searchPost]
        rw [if_pos trivial, mergeSplit_leaf ha (by omega) rfl (h k hk), hq, Prog.fail_bind, Prog.fail_bind]
      · exact absurd h2 Res.ok_ne_fail
  | node c0 c1 c2 c3 h0 h1 h2 h3 =>
    obtain ⟨u0, u1, u2, u3⟩ := hfull.kids hs
    have hn : (Forest.node c0 c1 c2 c3).Spans (Forest.node c0 c1 c2 c3).first := ⟨le_refl _, hs.first_le_last⟩
    obtain ⟨o0, o1, o2, o3⟩ := hs.kids
    have up : ∀ {G : Forest}, (G = c0 ∨ G = c1 ∨ G = c2 ∨ G = c3) → ∀ r, G.Spans r → (Forest.node c0 c1 c2 c3).Spans r := by
      intro G hG r hsp
      obtain ⟨x, _, y⟩ := hs.kid_range G hG
      exact ⟨le_trans x hsp.1, le_trans hsp.2 y⟩
    cases t with
    | leaf => exact absurd (h _ hn) id
    | node d t0 t1 t2 t3 =>
      simp only [Forest.depth] at hl
      have other : ∀ {G : Forest} {x x' : Tree T} {y y' : Nat → τ}, G.Sorted → Tree.mergeBy lf ff G x y = .ok (x', y') →
          ∀ r, ¬ G.Spans r → y' r = y r := fun hG e r hr => Tree.mergeBy_other e (fun hm => hr (hG.spans_of_mem hm))
      have sib : ∀ {i j : Nat}, i < 4 → j < 4 → i ≠ j → ∀ {p}, Below (a ++ [i]) p → ¬ Below (a ++ [j]) p :=
        fun hi hj hij _ hp => not_below_sib ha hi hj hij hp
      have skip : ∀ {G : Forest} {q : Quadrant}, G.Sorted → ∀ r, ¬ G.Spans r → ∀ x : NodeMap T × τ,
          searchPost M r (mergeSplit M r .this .broadcast (onData lf) (onFamily ff)) G q x = pure x :=
        fun hG r hr x => searchPost_skip (fun hm => hr (hG.spans_of_mem hm)) _ _
      have key : Breaks (Forest.node c0 c1 c2 c3).Spans (fun r =>
          searchPost M r (mergeSplit M r .this .broadcast (onData lf) (onFamily ff)) c0 (Addr.quad M (a ++ [0]))
            (m r, s r) >>= fun x =>
          searchPost M r (mergeSplit M r .this .broadcast (onData lf) (onFamily ff)) c1 (Addr.quad M (a ++ [1])) x
            >>= fun x =>
          searchPost M r (mergeSplit M r .this .broadcast (onData lf) (onFamily ff)) c2 (Addr.quad M (a ++ [2])) x
            >>= fun x =>
          searchPost M r (mergeSplit M r .this .broadcast (onData lf) (onFamily ff)) c3 (Addr.quad M (a ++ [3])) x
            >>= fun x =>
          mergeSplit M r .this .broadcast (onData lf) (onFamily ff) (a.quad M) false x >>= fun x =>
          (pure x.1 : Prog T (NodeMap T × τ))) e := by
        simp only [Tree.mergeBy] at ht
        rcases Res.bind_eq_fail.mp ht with e0 | ⟨⟨t0', s0⟩, e0, ht⟩
        · exact ((h0 (ha.snoc (i := 0) (by omega)) (by simp; omega) o0 u0 e0 (fun r hr => (h r (up (by simp) r hr)).2.1)).mono
            (up (by simp))).left _
        obtain ⟨m0, R0, q0, f0⟩ := kid_runs (S := (Forest.node c0 c1 c2 c3).Spans) o0 (skip o0) (up (by simp))
          (Tree.mergeBy_shape e0) (fun r hr => (h r hr).2.1) (other o0 e0)
          (mergeBy_runs c0 (ha.snoc (i := 0) (by omega)) (by simp; omega) o0 u0 e0 (fun r hr => (h r (up (by simp) r hr)).2.1))
        refine Runs.breaks R0 ?_
        have g1 : ∀ r, (Forest.node c0 c1 c2 c3).Spans r → Rep r c1 t1 (a ++ [1]) (m0 r) := fun r hr =>
          (h r hr).2.2.1.congr fun p hp => f0 r hr p (sib (by omega) (by omega) (by omega) hp)
        rcases Res.bind_eq_fail.mp ht with e1 | ⟨⟨t1', s1⟩, e1, ht⟩
        · exact ((h1 (ha.snoc (i := 1) (by omega)) (by simp; omega) o1 u1 e1 (fun r hr => g1 r (up (by simp) r hr))).mono
            (up (by simp))).left _
        obtain ⟨m1, R1, q1, f1⟩ := kid_runs (S := (Forest.node c0 c1 c2 c3).Spans) o1 (skip o1) (up (by simp))
          (Tree.mergeBy_shape e1) g1 (other o1 e1)
          (mergeBy_runs c1 (ha.snoc (i := 1) (by omega)) (by simp; omega) o1 u1 e1 (fun r hr => g1 r (up (by simp) r hr)))
        refine Runs.breaks R1 ?_
        have g2 : ∀ r, (Forest.node c0 c1 c2 c3).Spans r → Rep r c2 t2 (a ++ [2]) (m1 r) := fun r hr =>
          ((h r hr).2.2.2.1.congr fun p hp => f0 r hr p (sib (by omega) (by omega) (by omega) hp)).congr
            fun p hp => f1 r hr p (sib (by omega) (by omega) (by omega) hp)
        rcases Res.bind_eq_fail.mp ht with e2 | ⟨⟨t2', s2⟩, e2, ht⟩
        · exact ((h2 (ha.snoc (i := 2) (by omega)) (by simp; omega) o2 u2 e2 (fun r hr => g2 r (up (by simp) r hr))).mono
            (up (by simp))).left _
        obtain ⟨m2, R2, q2, f2⟩ := kid_runs (S := (Forest.node c0 c1 c2 c3).Spans) o2 (skip o2) (up (by simp))
          (Tree.mergeBy_shape e2) g2 (other o2 e2)
          (mergeBy_runs c2 (ha.snoc (i := 2) (by omega)) (by simp; omega) o2 u2 e2 (fun r hr => g2 r (up (by simp) r hr)))
        refine Runs.breaks R2 ?_
        have g3 : ∀ r, (Forest.node c0 c1 c2 c3).Spans r → Rep r c3 t3 (a ++ [3]) (m2 r) := fun r hr =>
          (((h r hr).2.2.2.2.congr fun p hp => f0 r hr p (sib (by omega) (by omega) (by omega) hp)).congr
            fun p hp => f1 r hr p (sib (by omega) (by omega) (by omega) hp)).congr
            fun p hp => f2 r hr p (sib (by omega) (by omega) (by omega) hp)
        rcases Res.bind_eq_fail.mp ht with e3 | ⟨⟨t3', s3⟩, e3, ht⟩
        · exact ((h3 (ha.snoc (i := 3) (by omega)) (by simp; omega) o3 u3 e3 (fun r hr => g3 r (up (by simp) r hr))).mono
            (up (by simp))).left _
        obtain ⟨m3, R3, q3, f3⟩ := kid_runs (S := (Forest.node c0 c1 c2 c3).Spans) o3 (skip o3) (up (by simp))
          (Tree.mergeBy_shape e3) g3 (other o3 e3)
          (mergeBy_runs c3 (ha.snoc (i := 3) (by omega)) (by simp; omega) o3 u3 e3 (fun r hr => g3 r (up (by simp) r hr)))
        refine Runs.breaks R3 ?_
        have fk := fun r hr => frame_kids (f0 r hr) (f1 r hr) (f2 r hr) (f3 r hr)
        have fr : ∀ r, (Forest.node c0 c1 c2 c3).Spans r →
            FamRep r c0 c1 c2 c3 ⟨d, t0'.val, t1'.val, t2'.val, t3'.val⟩ a (m3 r) := fun r hr =>
          ⟨(h r hr).1.congr (fk r hr).1,
            ((((q0 r hr).congr fun p hp => f1 r hr p (sib (by omega) (by omega) (by omega) hp)).congr fun p hp =>
              f2 r hr p (sib (by omega) (by omega) (by omega) hp)).congr fun p hp =>
              f3 r hr p (sib (by omega) (by omega) (by omega) hp)).entry,
            (((q1 r hr).congr fun p hp => f2 r hr p (sib (by omega) (by omega) (by omega) hp)).congr fun p hp =>
              f3 r hr p (sib (by omega) (by omega) (by omega) hp)).entry,
            ((q2 r hr).congr fun p hp => f3 r hr p (sib (by omega) (by omega) (by omega) hp)).entry, (q3 r hr).entry⟩
        rcases Res.bind_eq_fail.mp ht with hF | ⟨F', -, ht⟩
        · exact (family_breaks (M := M) (lf := lf) (s := s3) ha (by omega) hs hF fr).left _
        · exact absurd ht Res.ok_ne_fail
      refine key.congr ?_
      intro r hr
      simp only [searchPost, ← Addr.quad_snoc]
      rw [if_pos (hfull r hr)]

/-- Where splitting the tree fails, splitting on the ranks of the subtree does. -/
theorem split_breaks {M : Nat} {lf : T → Res T} {ff : Fam T → Res (Fam T)} (F : Forest) {a : Addr} (ha : a.Valid)
    (hl : a.length + F.depth ≤ M) (hs : F.Sorted) (hfull : F.Full) {t : Tree T} {e : Option Exn}
    (ht : t.splitFrom lf ff t.val = Res.fail e) {m : Nat → NodeMap T} {s : Nat → τ} (h : ∀ r, F.Spans r → Rep r F t a (m r)) :
    Breaks F.Spans
      (fun r => searchPre M r (mergeSplit M r .this .broadcast (onData (stateless lf)) (onFamily ff)) F (a.quad M) (m r, s r)) e := by
  induction F generalizing t a m with
  | leaf k =>
    have hk : (Forest.leaf k).Spans k := ⟨le_refl _, le_refl _⟩
    cases t with
    | node => exact absurd (h k hk) id
    | leaf d =>
      simp only [Tree.splitFrom] at ht
      rcases Res.bind_eq_fail.mp ht with hq | ⟨q, -, h2⟩
      · refine Breaks.now hk ?_
        simp only [searchPre]
        rw [if_pos trivial, mergeSplit_leaf ha (by omega) rfl (h k hk)]
        unfold stateless
        rw [show lf d = Res.fail e from hq, Res.fail_bind, Prog.fail_bind, Prog.fail_bind]
      · exact absurd h2 Res.ok_ne_fail
  | node c0 c1 c2 c3 h0 h1 h2 h3 =>
    obtain ⟨u0, u1, u2, u3⟩ := hfull.kids hs
    have hn : (Forest.node c0 c1 c2 c3).Spans (Forest.node c0 c1 c2 c3).first := ⟨le_refl _, hs.first_le_last⟩
    obtain ⟨o0, o1, o2, o3⟩ := hs.kids
    have up : ∀ {G : Forest}, (G = c0 ∨ G = c1 ∨ G = c2 ∨ G = c3) → ∀ r, G.Spans r → (Forest.node c0 c1 c2 c3).Spans r := by
      intro G hG r hsp
      obtain ⟨x, _, y⟩ := hs.kid_range G hG
      exact ⟨le_trans x hsp.1, le_trans hsp.2 y⟩
    cases t with
    | leaf => exact absurd (h _ hn) id
    | node d t0 t1 t2 t3 =>
      simp only [Forest.depth] at hl
      simp only [Tree.splitFrom] at ht
      rw [show (Tree.node d t0 t1 t2 t3).val = d from rfl] at ht
      have sib : ∀ {i j : Nat}, i < 4 → j < 4 → i ≠ j → ∀ {p}, Below (a ++ [i]) p → ¬ Below (a ++ [j]) p :=
        fun hi hj hij _ hp => not_below_sib ha hi hj hij hp
      have skip : ∀ {G : Forest} {q : Quadrant}, G.Sorted → ∀ r, ¬ G.Spans r → ∀ x : NodeMap T × τ,
          searchPre M r (mergeSplit M r .this .broadcast (onData (stateless lf)) (onFamily ff)) G q x = pure x :=
        fun hG r hr x => searchPre_skip (fun hm => hr (hG.spans_of_mem hm)) _ _
      have fr : ∀ r, (Forest.node c0 c1 c2 c3).Spans r →
          FamRep r c0 c1 c2 c3 ⟨d, t0.val, t1.val, t2.val, t3.val⟩ a (m r) := fun r hr =>
        ⟨(h r hr).1, (h r hr).2.1.entry, (h r hr).2.2.1.entry, (h r hr).2.2.2.1.entry, (h r hr).2.2.2.2.entry⟩
      have key : Breaks (Forest.node c0 c1 c2 c3).Spans (fun r =>
          mergeSplit M r .this .broadcast (onData (stateless lf)) (onFamily ff) (a.quad M) false (m r, s r) >>= fun y =>
          if y.2 = true then
            searchPre M r (mergeSplit M r .this .broadcast (onData (stateless lf)) (onFamily ff)) c0 (Addr.quad M (a ++ [0])) y.1
              >>= fun x =>
            searchPre M r (mergeSplit M r .this .broadcast (onData (stateless lf)) (onFamily ff)) c1 (Addr.quad M (a ++ [1])) x
              >>= fun x =>
            searchPre M r (mergeSplit M r .this .broadcast (onData (stateless lf)) (onFamily ff)) c2 (Addr.quad M (a ++ [2])) x
              >>= fun x =>
            searchPre M r (mergeSplit M r .this .broadcast (onData (stateless lf)) (onFamily ff)) c3 (Addr.quad M (a ++ [3])) x
          else pure y.1) e := by
        rcases Res.bind_eq_fail.mp ht with hF | ⟨F', hF, ht⟩
        · exact (family_breaks (M := M) (lf := stateless lf) (s := s) ha (by omega) hs hF fr).left _
        obtain ⟨mf, RF, w⟩ := family_runs (M := M) (lf := stateless lf) (s := s) ha (by omega) hs hF fr
        have R : ∀ r, (Forest.node c0 c1 c2 c3).Spans r → Rep r (.node c0 c1 c2 c3)
            (.node F'.tau (t0.setVal F'.a) (t1.setVal F'.b) (t2.setVal F'.c) (t3.setVal F'.d)) a (mf r) ∧
            ∀ p, ¬ Below a p → ((mf r).get p).1 = ((m r).get p).1 := fun r hr =>
          stored_frame (F := ⟨d, t0.val, t1.val, t2.val, t3.val⟩) ha (w r hr).2 (w r hr).1 (h r hr)
        refine Runs.breaks RF ?_
        simp only [if_true]
        rcases Res.bind_eq_fail.mp ht with e0 | ⟨t0', e0, ht⟩
        · rw [← Tree.splitFrom_setVal] at e0
          exact ((h0 (ha.snoc (i := 0) (by omega)) (by simp; omega) o0 u0 e0 (fun r hr => (R r (up (by simp) r hr)).1.2.1)).mono
            (up (by simp))).left _
        rw [← Tree.splitFrom_setVal] at e0
        obtain ⟨m0, R0, q0, f0⟩ := kid_runs (S := (Forest.node c0 c1 c2 c3).Spans) o0 (skip o0) (up (by simp))
          (Tree.splitFrom_shape e0) (fun r hr => (R r hr).1.2.1) (fun _ _ => rfl)
          (split_runs c0 (ha.snoc (i := 0) (by omega)) (by simp; omega) o0 u0 e0 (fun r hr => (R r (up (by simp) r hr)).1.2.1))
        refine Runs.breaks R0 ?_
        have g1 : ∀ r, (Forest.node c0 c1 c2 c3).Spans r → Rep r c1 (t1.setVal F'.b) (a ++ [1]) (m0 r) := fun r hr =>
          (R r hr).1.2.2.1.congr fun p hp => f0 r hr p (sib (by omega) (by omega) (by omega) hp)
        rcases Res.bind_eq_fail.mp ht with e1 | ⟨t1', e1, ht⟩
        · rw [← Tree.splitFrom_setVal] at e1
          exact ((h1 (ha.snoc (i := 1) (by omega)) (by simp; omega) o1 u1 e1 (fun r hr => g1 r (up (by simp) r hr))).mono
            (up (by simp))).left _
        rw [← Tree.splitFrom_setVal] at e1
        obtain ⟨m1, R1, q1, f1⟩ := kid_runs (S := (Forest.node c0 c1 c2 c3).Spans) o1 (skip o1) (up (by simp))
          (Tree.splitFrom_shape e1) g1 (fun _ _ => rfl)
          (split_runs c1 (ha.snoc (i := 1) (by omega)) (by simp; omega) o1 u1 e1 (fun r hr => g1 r (up (by simp) r hr)))
        refine Runs.breaks R1 ?_
        have g2 : ∀ r, (Forest.node c0 c1 c2 c3).Spans r → Rep r c2 (t2.setVal F'.c) (a ++ [2]) (m1 r) := fun r hr =>
          ((R r hr).1.2.2.2.1.congr fun p hp => f0 r hr p (sib (by omega) (by omega) (by omega) hp)).congr
            fun p hp => f1 r hr p (sib (by omega) (by omega) (by omega) hp)
        rcases Res.bind_eq_fail.mp ht with e2 | ⟨t2', e2, ht⟩
        · rw [← Tree.splitFrom_setVal] at e2
          exact ((h2 (ha.snoc (i := 2) (by omega)) (by simp; omega) o2 u2 e2 (fun r hr => g2 r (up (by simp) r hr))).mono
            (up (by simp))).left _
        rw [← Tree.splitFrom_setVal] at e2
        obtain ⟨m2, R2, q2, f2⟩ := kid_runs (S := (Forest.node c0 c1 c2 c3).Spans) o2 (skip o2) (up (by simp))
          (Tree.splitFrom_shape e2) g2 (fun _ _ => rfl)
          (split_runs c2 (ha.snoc (i := 2) (by omega)) (by simp; omega) o2 u2 e2 (fun r hr => g2 r (up (by simp) r hr)))
        refine Runs.breaks R2 ?_
        have g3 : ∀ r, (Forest.node c0 c1 c2 c3).Spans r → Rep r c3 (t3.setVal F'.d) (a ++ [3]) (m2 r) := fun r hr =>
          (((R r hr).1.2.2.2.2.congr fun p hp => f0 r hr p (sib (by omega) (by omega) (by omega) hp)).congr
            fun p hp => f1 r hr p (sib (by omega) (by omega) (by omega) hp)).congr
            fun p hp => f2 r hr p (sib (by omega) (by omega) (by omega) hp)
        rcases Res.bind_eq_fail.mp ht with e3 | ⟨t3', e3, ht⟩
        · rw [← Tree.splitFrom_setVal] at e3
          exact (h3 (ha.snoc (i := 3) (by omega)) (by simp; omega) o3 u3 e3 (fun r hr => g3 r (up (by simp) r hr))).mono
            (up (by simp))
        · exact absurd ht Res.ok_ne_fail
      refine key.congr ?_
      intro r hr
      simp only [searchPre, ← Addr.quad_snoc]
      rw [if_pos (hfull r hr)]

variable {M size : Nat} {F : Forest}

theorem merge_fails (hM : F.depth ≤ M) (hs : F.Sorted) (hr : EveryRank F size) {lf : T → τ → Res (T × τ)}
    {ff : Fam T → Res (Fam T)} {t : Tree T} {s : Nat → τ} {e : Option Exn} (ht : Tree.mergeBy lf ff F t s = Res.fail e)
    {Q : Nat → Quadtree T} (hQ : HoldsOn size F t Q) : Breaks (fun r => r < size)
      (fun r => (Q r).merge M r F .broadcast (onData lf) (onFamily ff) (s r)) e := by
  have h' := hr.spans hs
  have e' : ∀ r, r < size ↔ F.Spans r := fun r => by rw [← h']
  have h1 := mergeBy_breaks (M := M) (m := fun r => (Q r).map) F (a := []) Addr.Valid.nil
    (by simpa using hM) hs (hr.full hs) ht (fun r h => (hQ r ((e' r).mpr h)).1)
  rw [← h'] at h1
  refine (h1.left (fun r x => (pure (⟨x.1, (Q r).userPointer⟩, x.2) : Prog T (Quadtree T × τ)))).congr (fun r h => ?_)
  unfold Quadtree.merge
  rw [(hQ r h).2]
  rfl

theorem split_fails (hM : F.depth ≤ M) (hs : F.Sorted) (hr : EveryRank F size) {lf : T → Res T}
    {ff : Fam T → Res (Fam T)} {t : Tree T} {e : Option Exn} (ht : t.splitFrom lf ff t.val = Res.fail e) (s : τ)
    {Q : Nat → Quadtree T} (hQ : HoldsOn size F t Q) : Breaks (fun r => r < size)
      (fun r => (Q r).split M r F .broadcast (onData (stateless lf)) (onFamily ff) s) e := by
  have h' := hr.spans hs
  have e' : ∀ r, r < size ↔ F.Spans r := fun r => by rw [← h']
  have h1 := split_breaks (M := M) (m := fun r => (Q r).map) (s := fun _ => s) F (a := []) Addr.Valid.nil
    (by simpa using hM) hs (hr.full hs) ht (fun r h => (hQ r ((e' r).mpr h)).1)
  rw [← h'] at h1
  refine (h1.left (fun r x => (pure (⟨x.1, (Q r).userPointer⟩, x.2) : Prog T (Quadtree T × τ)))).congr (fun r h => ?_)
  unfold Quadtree.split
  rw [(hQ r h).2]
  rfl

end

end EF
