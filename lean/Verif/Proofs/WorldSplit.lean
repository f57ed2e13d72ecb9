import Verif.Proofs.WorldWhole

/-!
# A split where every rank has a quadrant

All families shared by several ranks come before the first leaf; the calls of the leaf solver come after them on all ranks.
-/

namespace EF

open HPS

variable {K T τ α β γ : Type}

/-- The ranks of `S`, running `p` and then anything, come together to the programs `W`; the other ranks do nothing. -/
def Reaches (S : Nat → Prop) (p W : Nat → Prog T β) : Prop :=
  ∀ (α : Type) (κ : Nat → β → Prog T α) (c : Config T α), (∀ r, S r → c r = p r >>= κ r) →
    ∃ n c', Run n c c' ∧ (∀ r, S r → c' r = W r >>= κ r) ∧ ∀ r, ¬ S r → c' r = c r

namespace Reaches

variable {S S' : Nat → Prop} {p p' W W' : Nat → Prog T β}

theorem refl (h : ∀ r, S r → p r = W r) : Reaches S p W := fun _ _ c hc =>
  ⟨0, c, .refl c, fun r hr => by rw [hc r hr, h r hr], fun _ _ => rfl⟩

theorem congr (h : Reaches S p W) (hp : ∀ r, S r → p' r = p r) (hW : ∀ r, S r → W' r = W r) : Reaches S p' W' := by
  intro α κ c hc
  obtain ⟨n, c', h1, h2, h3⟩ := h α κ c fun r hr => by rw [hc r hr, hp r hr]
  exact ⟨n, c', h1, fun r hr => by rw [h2 r hr, hW r hr], h3⟩

theorem after {q : Nat → γ → Prog T β} {g : Nat → Prog T γ} {v : Nat → γ} (hg : Runs S g v) (h : Reaches S (fun r => q r (v r)) W) :
    Reaches S (fun r => g r >>= q r) W := by
  intro α κ c hc
  obtain ⟨n, c1, a1, a2, a3⟩ := hg α (fun r x => q r x >>= κ r) c fun r hr => by rw [hc r hr, bind_assoc]
  obtain ⟨n', c2, b1, b2, b3⟩ := h α κ c1 a2
  exact ⟨n' + n, c2, a1.trans b1, b2, fun r hr => (b3 r hr).trans (a3 r hr)⟩

theorem union (h : Reaches S p W) (h' : Reaches S' p W) (hd : ∀ r, S r → ¬ S' r) : Reaches (fun r => S r ∨ S' r) p W := by
  intro α κ c hc
  obtain ⟨n, c1, a1, a2, a3⟩ := h α κ c fun r hr => hc r (.inl hr)
  obtain ⟨n', c2, b1, b2, b3⟩ := h' α κ c1 fun r hr => by rw [a3 r (fun hs => hd r hs hr), hc r (.inr hr)]
  refine ⟨n' + n, c2, a1.trans b1, fun r hr => ?_, fun r hr => ?_⟩
  · rcases hr with hr | hr
    · rw [b3 r (hd r hr), a2 r hr]
    · exact b2 r hr
  · rw [b3 r (fun h => hr (.inr h)), a3 r (fun h => hr (.inl h))]

theorem runs {size n : Nat} (hpos : 0 < size) {v : Nat → β}
    (h : Reaches (fun r => r < size) p (fun r => indexSets size n >>= fun _ => pure (v r))) : Runs (fun r => r < size) p v := by
  intro α κ c hc
  obtain ⟨n1, c1, a1, a2, a3⟩ := h α κ c hc
  obtain ⟨n2, c2, b1, b2, b3⟩ := indexSets_runs (T := T) hpos n α (fun r _ => κ r (v r)) c1 fun r hr => by
    rw [a2 r hr, bind_assoc]
    rfl
  exact ⟨n2 + n1, c2, a1.trans b1, b2, fun r hr => (b3 r hr).trans (a3 r hr)⟩

end Reaches

theorem Runs.unique {size : Nat} {p : Nat → Prog T β} {v w : Nat → β} (h1 : Runs (fun r => r < size) p v)
    (h2 : Runs (fun r => r < size) p w) {r : Nat} (hr : r < size) : v r = w r := by
  have hd : ∀ r, r < size → (fun r => if r < size then p r else .fin (.ok (v r)) : Config T β) r = p r >>= fun b => Pure.pure b :=
    fun r h => by beta_reduce; rw [if_pos h, bind_pure]
  obtain ⟨j, z, a1, a2, a3⟩ := h1 β (fun _ b => Pure.pure b) _ hd
  obtain ⟨i, y, b1, b2, b3⟩ := h2 β (fun _ b => Pure.pure b) _ hd
  have hz : Config.Done z := fun r => by
    by_cases h : r < size
    · exact ⟨_, a2 r h⟩
    · exact ⟨_, (a3 r h).trans (if_neg h)⟩
  have e := ((a1.all hz b1).2).ended (b2 r hr)
  rw [a2 r hr] at e
  injection e with e
  injection e

section search
variable {size M r c : Nat} {calls : τ → Nat}

/-- A traversal that ends at once makes all its calls before. -/
theorem searchPre_ok (hc : ∀ t, calls t = c) {cb : Quadrant → Bool → NodeMap T × τ → Prog T ((NodeMap T × τ) × Bool)}
    (hf : ∀ q s, (cb q false s).Gives fun x => x.2 = true) (F : Forest)
    (q : Quadrant) {s x : NodeMap T × τ} (h : searchPre M r cb F q s = .fin (.ok x)) :
    searchPre M r (withIndexSets size calls cb) F q s = indexSets size (c * F.ranks.count r) >>= fun _ => .fin (.ok x) := by
  induction F generalizing q s x with
  | leaf k =>
    unfold searchPre at h ⊢
    by_cases hk : k = r
    · rw [if_pos hk] at h ⊢
      have e : c * (Forest.leaf k).ranks.count r = c := by simp [Forest.ranks, hk]
      unfold withIndexSets
      rw [hc, if_pos rfl, e, bind_assoc, h]
    · rw [if_neg hk] at h ⊢
      have e : c * (Forest.leaf k).ranks.count r = 0 := by simp [Forest.ranks, hk]
      rw [e]
      exact h
  | node c0 c1 c2 c3 ih0 ih1 ih2 ih3 =>
    unfold searchPre at h ⊢
    by_cases hm : r ∈ (Forest.node c0 c1 c2 c3).ranks
    · rw [if_pos hm] at h ⊢
      obtain ⟨y, ey, h⟩ := Prog.bind_ok h
      have hy : y.2 = true := by
        have := hf q s
        rw [ey] at this
        exact this
      rw [if_pos hy] at h
      obtain ⟨s0, e0, h⟩ := Prog.bind_ok h
      obtain ⟨s1, e1, h⟩ := Prog.bind_ok h
      obtain ⟨s2, e2, h⟩ := Prog.bind_ok h
      have key : c * (Forest.node c0 c1 c2 c3).ranks.count r =
          c * c0.ranks.count r + (c * c1.ranks.count r + (c * c2.ranks.count r + c * c3.ranks.count r)) := by
        simp only [Forest.ranks, List.count_append]
        ring
      have pb : ∀ {γ δ : Type} (y : γ) (g : γ → Prog T δ), ((Prog.fin (.ok y) : Prog T γ) >>= g) = g y := fun _ _ => rfl
      rw [key, indexSets_add, indexSets_add, indexSets_add, withIndexSets_family, ey]
      simp only [bind_assoc, pb, if_pos hy, ih0 _ e0, ih1 _ e1, ih2 _ e2, ih3 _ h]
    · rw [if_neg hm] at h ⊢
      rw [List.count_eq_zero_of_not_mem hm, Nat.mul_zero]
      exact h

end search

/-- The leaves of the rank are those of one quadrant. -/
def Forest.HasQuadrant (r : Nat) (F : Forest) : Prop :=
  ∃ b G, F.sub b = some G ∧ G.AllOn r ∧ G.ranks.count r = F.ranks.count r

theorem Forest.HasQuadrant.kid {r : Nat} {c0 c1 c2 c3 : Forest} (h : (Forest.node c0 c1 c2 c3).HasQuadrant r)
    (hne : (Forest.node c0 c1 c2 c3).first ≠ (Forest.node c0 c1 c2 c3).last) :
    (c0.HasQuadrant r ∧ c1.ranks.count r = 0 ∧ c2.ranks.count r = 0 ∧ c3.ranks.count r = 0) ∨
    (c1.HasQuadrant r ∧ c0.ranks.count r = 0 ∧ c2.ranks.count r = 0 ∧ c3.ranks.count r = 0) ∨
    (c2.HasQuadrant r ∧ c0.ranks.count r = 0 ∧ c1.ranks.count r = 0 ∧ c3.ranks.count r = 0) ∨
    (c3.HasQuadrant r ∧ c0.ranks.count r = 0 ∧ c1.ranks.count r = 0 ∧ c2.ranks.count r = 0) := by
  obtain ⟨b, G, hb, hG, hn⟩ := h
  have hsum : (Forest.node c0 c1 c2 c3).ranks.count r =
      c0.ranks.count r + c1.ranks.count r + c2.ranks.count r + c3.ranks.count r := by
    simp only [Forest.ranks, List.count_append]
  rcases b with _ | ⟨_ | _ | _ | _ | i, b⟩
  · cases hb
    exact absurd (hG.first.trans hG.last.symm) hne
  · have := Forest.sub_count (F := c0) hb r
    exact .inl ⟨⟨b, G, hb, hG, by omega⟩, by omega, by omega, by omega⟩
  · have := Forest.sub_count (F := c1) hb r
    exact .inr (.inl ⟨⟨b, G, hb, hG, by omega⟩, by omega, by omega, by omega⟩)
  · have := Forest.sub_count (F := c2) hb r
    exact .inr (.inr (.inl ⟨⟨b, G, hb, hG, by omega⟩, by omega, by omega, by omega⟩))
  · have := Forest.sub_count (F := c3) hb r
    exact .inr (.inr (.inr ⟨⟨b, G, hb, hG, by omega⟩, by omega, by omega, by omega⟩))
  · cases hb

/-- All ranks of a subtree come to their calls together. -/
theorem split_reaches [Inhabited T] {size M : Nat} {lf : T → Res T} {ff : Fam T → Res (Fam T)} (F : Forest) {a : Addr} (ha : a.Valid)
    (hl : a.length + F.depth ≤ M) (hs : F.Sorted) (hfull : F.Full) (hq : ∀ r, F.Spans r → F.HasQuadrant r) {t t' : Tree T}
    (ht : t.splitFrom lf ff t.val = .ok t') {m : Nat → NodeMap T} {s : Nat → τ} (h : ∀ r, F.Spans r → Rep r F t a (m r)) :
    ∃ m' : Nat → NodeMap T, ∀ (c : Nat) (calls : τ → Nat), (∀ t, calls t = c) → Reaches F.Spans
      (fun r => searchPre M r (withIndexSets size calls (mergeSplit M r .this .broadcast (onData (stateless lf)) (onFamily ff))) F (a.quad M)
        (m r, s r))
      (fun r => indexSets size (c * F.ranks.count r) >>= fun _ => pure (m' r, s r)) := by
  have alone : ∀ (F : Forest), F.Sorted → F.first = F.last → ∀ {a : Addr}, a.Valid → a.length + F.depth ≤ M → ∀ {t t' : Tree T},
      t.splitFrom lf ff t.val = .ok t' → ∀ {m : Nat → NodeMap T}, (∀ r, F.Spans r → Rep r F t a (m r)) →
      ∃ m' : Nat → NodeMap T, ∀ (c : Nat) (calls : τ → Nat), (∀ t, calls t = c) → Reaches F.Spans
      (fun r => searchPre M r (withIndexSets size calls (mergeSplit M r .this .broadcast (onData (stateless lf)) (onFamily ff))) F (a.quad M)
        (m r, s r))
      (fun r => indexSets size (c * F.ranks.count r) >>= fun _ => pure (m' r, s r)) := by
    intro F hs e a ha hl t t' ht m h
    have : ∀ r, ∃ m1, F.Spans r → searchPre M r (mergeSplit M r .this .broadcast (onData (stateless lf)) (onFamily ff)) F (a.quad M)
        (m r, s r) = .fin (.ok (m1, s r)) := by
      intro r
      by_cases hr : F.Spans r
      · have he := split_one (pol := .broadcast) (lf := lf) (ff := ff) (s := s r) F ha hl (hs.allOn e hr) (h r hr)
        rw [ht] at he
        obtain ⟨m1, e1, -⟩ := he
        exact ⟨m1, fun _ => e1⟩
      · exact ⟨m r, fun h => absurd h hr⟩
    choose m' hm' using this
    exact ⟨m', fun c calls hc => .refl fun r hr => searchPre_ok hc (mergeSplit_goesOn _ _ _ _) F _ (hm' r hr)⟩
  induction F generalizing t t' a m with
  | leaf k => exact alone _ hs rfl ha hl ht h
  | node c0 c1 c2 c3 h0 h1 h2 h3 =>
    by_cases hne : (Forest.node c0 c1 c2 c3).first = (Forest.node c0 c1 c2 c3).last
    · exact alone _ hs hne ha hl ht h
    obtain ⟨u0, u1, u2, u3⟩ := hfull.kids hs
    have hn : (Forest.node c0 c1 c2 c3).Spans (Forest.node c0 c1 c2 c3).first := ⟨le_refl _, hs.first_le_last⟩
    obtain ⟨o0, o1, o2, o3⟩ := hs.kids
    have up : ∀ {G : Forest}, (G = c0 ∨ G = c1 ∨ G = c2 ∨ G = c3) → ∀ r, G.Spans r → (Forest.node c0 c1 c2 c3).Spans r := by
      intro G hG r hsp
      obtain ⟨x, _, y⟩ := hs.kid_range G hG
      exact ⟨le_trans x hsp.1, le_trans hsp.2 y⟩
    have occ : ∀ {G : Forest}, G.Full → ∀ r, G.Spans r → 0 < G.ranks.count r := fun hG r hr => List.count_pos_iff.2 (hG r hr)
    have k0 : ∀ r, c0.Spans r → c0.HasQuadrant r ∧ c1.ranks.count r = 0 ∧ c2.ranks.count r = 0 ∧ c3.ranks.count r = 0 := by
      intro r hr
      have := occ u0 r hr
      rcases (hq r (up (by simp) r hr)).kid hne with k | k | k | k
      · exact k
      all_goals exact absurd k.2 (by omega)
    have k1 : ∀ r, c1.Spans r → c1.HasQuadrant r ∧ c0.ranks.count r = 0 ∧ c2.ranks.count r = 0 ∧ c3.ranks.count r = 0 := by
      intro r hr
      have := occ u1 r hr
      rcases (hq r (up (by simp) r hr)).kid hne with k | k | k | k
      · exact absurd k.2 (by omega)
      · exact k
      all_goals exact absurd k.2 (by omega)
    have k2 : ∀ r, c2.Spans r → c2.HasQuadrant r ∧ c0.ranks.count r = 0 ∧ c1.ranks.count r = 0 ∧ c3.ranks.count r = 0 := by
      intro r hr
      have := occ u2 r hr
      rcases (hq r (up (by simp) r hr)).kid hne with k | k | k | k
      · exact absurd k.2 (by omega)
      · exact absurd k.2 (by omega)
      · exact k
      · exact absurd k.2 (by omega)
    have k3 : ∀ r, c3.Spans r → c3.HasQuadrant r ∧ c0.ranks.count r = 0 ∧ c1.ranks.count r = 0 ∧ c2.ranks.count r = 0 := by
      intro r hr
      have := occ u3 r hr
      rcases (hq r (up (by simp) r hr)).kid hne with k | k | k | k
      · exact absurd k.2 (by omega)
      · exact absurd k.2 (by omega)
      · exact absurd k.2 (by omega)
      · exact k
    have no : ∀ {G : Forest}, G.Full → ∀ r, G.ranks.count r = 0 → ¬ G.Spans r := fun hG r h0 hr => absurd (occ hG r hr) (by omega)
    cases t with
    | leaf => exact absurd (h _ hn) id
    | node d t0 t1 t2 t3 =>
      simp only [Forest.depth] at hl
      simp only [Tree.splitFrom, Res.bind_eq_ok, Res.pure_def, Res.ok_inj] at ht
      rw [show (Tree.node d t0 t1 t2 t3).val = d from rfl] at ht
      obtain ⟨F', hF, t0', e0, t1', e1, t2', e2, t3', e3, rfl⟩ := ht
      have fr : ∀ r, (Forest.node c0 c1 c2 c3).Spans r →
          FamRep r c0 c1 c2 c3 ⟨d, t0.val, t1.val, t2.val, t3.val⟩ a (m r) := fun r hr =>
        ⟨(h r hr).1, (h r hr).2.1.entry, (h r hr).2.2.1.entry, (h r hr).2.2.2.1.entry, (h r hr).2.2.2.2.entry⟩
      obtain ⟨mf, RF, w⟩ := family_runs (M := M) (lf := stateless lf) (s := s) ha (by omega) hs hF fr
      have R : ∀ r, (Forest.node c0 c1 c2 c3).Spans r → Rep r (.node c0 c1 c2 c3)
          (.node F'.tau (t0.setVal F'.a) (t1.setVal F'.b) (t2.setVal F'.c) (t3.setVal F'.d)) a (mf r) := fun r hr =>
        (stored_frame (F := ⟨d, t0.val, t1.val, t2.val, t3.val⟩) ha (w r hr).2 (w r hr).1 (h r hr)).1
      rw [← Tree.splitFrom_setVal] at e0 e1 e2 e3
      obtain ⟨m0, R0⟩ := h0 (ha.snoc (i := 0) (by omega)) (by simp; omega) o0 u0 (fun r hr => (k0 r hr).1) e0
        (fun r hr => (R r (up (by simp) r hr)).2.1)
      obtain ⟨m1, R1⟩ := h1 (ha.snoc (i := 1) (by omega)) (by simp; omega) o1 u1 (fun r hr => (k1 r hr).1) e1
        (fun r hr => (R r (up (by simp) r hr)).2.2.1)
      obtain ⟨m2, R2⟩ := h2 (ha.snoc (i := 2) (by omega)) (by simp; omega) o2 u2 (fun r hr => (k2 r hr).1) e2
        (fun r hr => (R r (up (by simp) r hr)).2.2.2.1)
      obtain ⟨m3, R3⟩ := h3 (ha.snoc (i := 3) (by omega)) (by simp; omega) o3 u3 (fun r hr => (k3 r hr).1) e3
        (fun r hr => (R r (up (by simp) r hr)).2.2.2.2)
      have hsum : ∀ r, (Forest.node c0 c1 c2 c3).ranks.count r =
          c0.ranks.count r + c1.ranks.count r + c2.ranks.count r + c3.ranks.count r := fun r => by
        simp only [Forest.ranks, List.count_append]
      refine ⟨fun r => if c0.Spans r then m0 r else if c1.Spans r then m1 r else if c2.Spans r then m2 r else m3 r, fun c calls hc => ?_⟩
      have R0 := R0 c calls hc
      have R1 := R1 c calls hc
      have R2 := R2 c calls hc
      have R3 := R3 c calls hc
      refine (Reaches.after RF (q := fun r x => if x.2 = true then do
          let s ← searchPre M r (withIndexSets size calls (mergeSplit M r .this .broadcast (onData (stateless lf)) (onFamily ff))) c0
            (Addr.quad M (a ++ [0])) x.1
          let s ← searchPre M r (withIndexSets size calls (mergeSplit M r .this .broadcast (onData (stateless lf)) (onFamily ff))) c1
            (Addr.quad M (a ++ [1])) s
          let s ← searchPre M r (withIndexSets size calls (mergeSplit M r .this .broadcast (onData (stateless lf)) (onFamily ff))) c2
            (Addr.quad M (a ++ [2])) s
          searchPre M r (withIndexSets size calls (mergeSplit M r .this .broadcast (onData (stateless lf)) (onFamily ff))) c3
            (Addr.quad M (a ++ [3])) s
          else pure x.1) ?_).congr (fun r hr => ?_) (fun r _ => rfl)
      · simp only [if_true]
        have z : ∀ {G : Forest} {r : Nat}, G.ranks.count r = 0 → r ∉ G.ranks := fun h => List.count_eq_zero.1 h
        have e : (Forest.node c0 c1 c2 c3).Spans = fun r => ((c0.Spans r ∨ c1.Spans r) ∨ c2.Spans r) ∨ c3.Spans r := by
          funext r
          refine propext ⟨fun hr => ?_, fun hr => ?_⟩
          · have hm := hfull r hr
            simp only [Forest.ranks, List.mem_append] at hm
            rcases hm with ((hm | hm) | hm) | hm
            · exact .inl (.inl (.inl (o0.spans_of_mem hm)))
            · exact .inl (.inl (.inr (o1.spans_of_mem hm)))
            · exact .inl (.inr (o2.spans_of_mem hm))
            · exact .inr (o3.spans_of_mem hm)
          · rcases hr with ((hr | hr) | hr) | hr
            · exact up (by simp) r hr
            · exact up (by simp) r hr
            · exact up (by simp) r hr
            · exact up (by simp) r hr
        rw [e]
        refine Reaches.union (Reaches.union (Reaches.union (R0.congr (fun r hr => ?_) (fun r hr => ?_))
          (R1.congr (fun r hr => ?_) (fun r hr => ?_)) ?_) (R2.congr (fun r hr => ?_) (fun r hr => ?_)) ?_)
          (R3.congr (fun r hr => ?_) (fun r hr => ?_)) ?_
        · obtain ⟨-, z1, z2, z3⟩ := k0 r hr
          simp only [searchPre_skip (z z1), searchPre_skip (z z2), searchPre_skip (z z3), bind_pure]
        · obtain ⟨-, z1, z2, z3⟩ := k0 r hr
          rw [if_pos hr, hsum, z1, z2, z3]
          simp only [Nat.add_zero, Nat.zero_add]
        · obtain ⟨-, z0, z2, z3⟩ := k1 r hr
          simp only [searchPre_skip (z z0), searchPre_skip (z z2), searchPre_skip (z z3), pure_bind, bind_pure]
        · obtain ⟨-, z0, z2, z3⟩ := k1 r hr
          rw [if_neg (no u0 r z0), if_pos hr, hsum, z0, z2, z3]
          simp only [Nat.add_zero, Nat.zero_add]
        · intro r hr hr'
          exact no u1 r (k0 r hr).2.1 hr'
        · obtain ⟨-, z0, z1, z3⟩ := k2 r hr
          simp only [searchPre_skip (z z0), searchPre_skip (z z1), searchPre_skip (z z3), pure_bind, bind_pure]
        · obtain ⟨-, z0, z1, z3⟩ := k2 r hr
          rw [if_neg (no u0 r z0), if_neg (no u1 r z1), if_pos hr, hsum, z0, z1, z3]
          simp only [Nat.add_zero, Nat.zero_add]
        · rintro r (hr | hr) hr'
          · exact no u2 r (k0 r hr).2.2.1 hr'
          · exact no u2 r (k1 r hr).2.2.1 hr'
        · obtain ⟨-, z0, z1, z2⟩ := k3 r hr
          simp only [searchPre_skip (z z0), searchPre_skip (z z1), searchPre_skip (z z2), pure_bind]
        · obtain ⟨-, z0, z1, z2⟩ := k3 r hr
          rw [if_neg (no u0 r z0), if_neg (no u1 r z1), if_neg (no u2 r z2), hsum, z0, z1, z2]
          simp only [Nat.add_zero, Nat.zero_add]
        · rintro r ((hr | hr) | hr) hr'
          · exact no u3 r (k0 r hr).2.2.2 hr'
          · exact no u3 r (k1 r hr).2.2.2 hr'
          · exact no u3 r (k2 r hr).2.2.2 hr'
      · conv_lhs => unfold searchPre
        rw [if_pos (hfull r hr), withIndexSets_family]
        simp only [← Addr.quad_snoc]

theorem withIndexSets_none {size : Nat} (cb : Quadrant → Bool → NodeMap T × τ → Prog T ((NodeMap T × τ) × Bool)) :
    withIndexSets size (fun _ => 0) cb = cb := by
  funext q b s
  unfold withIndexSets
  cases b <;> rfl

/-- The split with the calls ends as the one without them. -/
theorem splitWorld_whole [Inhabited T] {M size k c : Nat} {F : Forest} (hM : F.depth ≤ M) (hs : F.Sorted) (hr : EveryRank F size)
    (hq : QuadrantEach size k F) {lf : T → Res T} {ff : Fam T → Res (Fam T)} {t t' : Tree T} (ht : t.splitFrom lf ff t.val = .ok t') (s : τ)
    {Q : Nat → Quadtree T} (hQ : HoldsOn size F t Q) :
    ∃ Q' : Nat → Quadtree T, HoldsOn size F t' Q' ∧ Runs (fun r => r < size)
      (fun r => (Q r).splitWorld size (fun _ => c) M r F .broadcast (onData (stateless lf)) (onFamily ff) s) (fun r => (Q' r, s)) := by
  have e := hr.spans hs
  have e' : ∀ r, r < size ↔ F.Spans r := fun r => by rw [← e]
  have hh : ∀ r, F.Spans r → Rep r F t [] (Q r).map := fun r h => (hQ r ((e' r).mpr h)).1
  obtain ⟨m, h1, h2⟩ := split_runs (M := M) (m := fun r => (Q r).map) (s := fun _ => s) F (a := []) Addr.Valid.nil
    (by simpa using hM) hs (hr.full hs) ht hh
  obtain ⟨m', R⟩ := split_reaches (size := size) (M := M) (m := fun r => (Q r).map) (s := fun _ => s) F (a := []) Addr.Valid.nil
    (by simpa using hM) hs (hr.full hs) (fun r h => by
      obtain ⟨b, G, b1, b2, b3, b4⟩ := hq r ((e' r).mpr h)
      exact ⟨b, G, b1, b2, b3.trans b4.symm⟩) ht hh
  rw [← e] at h1 R
  have key : ∀ c, Runs (fun r => r < size)
      (fun r => searchPre M r (withIndexSets size (fun _ => c) (mergeSplit M r .this .broadcast (onData (stateless lf)) (onFamily ff))) F
        (Addr.quad M []) ((Q r).map, s)) (fun r => (m' r, s)) := fun c =>
    Reaches.runs (n := c * k) hr.pos ((R c (fun _ => c) (fun _ => rfl)).congr (fun _ _ => rfl) fun r h => by
      obtain ⟨b, G, b1, b2, b3, b4⟩ := hq r h
      rw [b4])
  have same : ∀ r, r < size → m' r = m r := fun r h => by
    have k0 := key 0
    simp only [withIndexSets_none] at k0
    exact congrArg Prod.fst (Runs.unique k0 h1 h)
  refine ⟨fun r => ⟨m' r, .this⟩, fun r h => ⟨by rw [show (Quadtree.mk (m' r) UserPointer.this).map = m r from same r h]; exact (h2 r ((e' r).mp h)).1, rfl⟩, ?_⟩
  refine (Runs.bind (key c) (q := fun r x => (pure (⟨x.1, (Q r).userPointer⟩, x.2) : Prog T (Quadtree T × τ)))
    (Runs.pure fun r h => rfl)).congr (fun r h => ?_) (fun r h => ?_)
  · unfold Quadtree.splitWorld
    rw [(hQ r h).2]
    rfl
  · rw [(hQ r h).2]

section
variable [Field K] {M size k : Nat} {F : Forest}

theorem splitDownWorld_whole (hM : F.depth ≤ M) (hs : F.Sorted) (hr : EveryRank F size) (hk : QuadrantEach size k F) (ps : PatchSolver K)
    (opt : HPSOptions) {t t' : Tree (Patch K)} {d : Patch K} {A : Nat → HPSRank K}
    (hA : HoldsOn size F t (fun r => (A r).mesh.quadtree)) {fn : Patch K → Res (Patch K)} (hd : fn t.val = .ok d)
    (ht : t.splitFrom (HPS.leafSolve ps opt) (HPS.split1to4 opt) d = .ok t') :
    ∃ A' : Nat → HPSRank K, Follows size F t' A A' ∧
      Runs (fun r => r < size) (fun r => Prog.fin (HPSRank.onRoot fn (A r).mesh.quadtree) >>= fun q =>
        HPSRank.splitDownWorld ⟨M, size, r, F⟩ ps opt ((A r).withTree q)) A' := by
  have e' : ∀ r, r < size → F.Spans r := fun r h => (congrFun (hr.spans hs) r) ▸ h
  have hq : ∀ r, ∃ q', r < size → HPSRank.onRoot fn (A r).mesh.quadtree = .ok q' ∧ Rep r F (t.setVal d) [] q'.map ∧
      q'.userPointer = .this := by
    intro r
    by_cases h : r < size
    · obtain ⟨q', k⟩ := onRoot_eq (e' r h) (hA r h).1 (hA r h).2 hd
      exact ⟨q', fun _ => k⟩
    · exact ⟨(A r).mesh.quadtree, fun h' => absurd h' h⟩
  choose q hq using hq
  have ht' : (t.setVal d).splitFrom (HPS.leafSolve ps opt) (HPS.split1to4 opt) (t.setVal d).val = .ok t' := by
    rw [splitFrom_setVal, val_setVal, ht]
  obtain ⟨Q', h1, h2⟩ := splitWorld_whole (c := 2) (Q := q) hM hs hr hk ht' () (fun r h => (hq r h).2)
  refine ⟨fun r => (A r).withTree (Q' r), fun r h => ⟨(h1 r h).1, (h1 r h).2, rfl, rfl⟩, ?_⟩
  have h3 : Runs (T := Patch K) (fun r => r < size) (fun r => Prog.fin (HPSRank.onRoot fn (A r).mesh.quadtree)) q :=
    Runs.pure fun r h => by rw [(hq r h).1]; rfl
  refine Runs.bind (v := q) h3 (q := fun r q => HPSRank.splitDownWorld ⟨M, size, r, F⟩ ps opt ((A r).withTree q)) ?_
  exact (Runs.bind h2 (q := fun r x => (pure ((A r).withTree x.1) : Prog (Patch K) (HPSRank K)))
    (Runs.pure fun r h => rfl)).congr (fun r h => rfl) (fun r h => rfl)

theorem solveWorld_whole (hM : F.depth ≤ M) (hs : F.Sorted) (hr : EveryRank F size) (hk : QuadrantEach size k F) (lap : Lapack K)
    (ps : PatchSolver K) (opt : HPSOptions) (bc : HPS.BoundaryFn K) {t t' : Tree (Patch K)} {A : Nat → HPSRank K}
    (hA : HoldsOn size F t (fun r => (A r).mesh.quadtree)) (ht : HPS.solveStageAnalytic lap ps opt bc t = .ok t') :
    ∃ A' : Nat → HPSRank K, Follows size F t' A A' ∧
      Runs (fun r => r < size) (fun r => (A r).solveStageWorld ⟨M, size, r, F⟩ lap ps opt bc) A' := by
  unfold HPS.solveStageAnalytic at ht
  obtain ⟨g, h1, h2⟩ := Res.bind_eq_ok.mp ht
  obtain ⟨A', h3, h4⟩ := splitDownWorld_whole (M := M) hM hs hr hk ps opt (d := { t.val with g := g }) (fn := fun root => do
    let g ← HPS.rootDirichlet lap bc root
    pure { root with g := g }) hA (by beta_reduce; rw [h1]; rfl) h2
  exact ⟨A', h3, (Runs.bind (barrier_runs hr.pos) h4).congr (fun r h => rfl) (fun r h => rfl)⟩

end

end EF
