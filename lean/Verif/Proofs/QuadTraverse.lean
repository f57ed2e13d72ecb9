import Verif.Proofs.QuadMap

/-!
# Searches as loops over lists of nodes
-/

namespace EF

variable {K T τ : Type}

namespace Prog

variable {α β : Type}

instance : LawfulMonad (Prog T) := by
  refine LawfulMonad.mk' (Prog T) ?_ ?_ ?_
  · intro α x
    show x.bind (fun a => fin (.ok a)) = x
    induction x with
    | fin a => cases a <;> rfl
    | allMax lo hi c v k ih => exact congrArg (allMax lo hi c v) (funext ih)
    | bcast lo hi c r v k ih => exact congrArg (bcast lo hi c r v) (funext ih)
  · intros; rfl
  · intro α β γ x f g
    show (x.bind f).bind g = x.bind (fun a => (f a).bind g)
    induction x with
    | fin a => cases a <;> rfl
    | allMax lo hi c v k ih => exact congrArg (allMax lo hi c v) (funext ih)
    | bcast lo hi c r v k ih => exact congrArg (bcast lo hi c r v) (funext ih)

end Prog

namespace Forest

/-- Nodes of a rank below an address, parents first; the flag tells the leaves. -/
def preEv (r : Nat) : Forest → Addr → List (Addr × Bool)
  | leaf k, a => if k = r then [(a, true)] else []
  | node c0 c1 c2 c3, a => if r ∈ (node c0 c1 c2 c3).ranks then
      (a, false) :: (c0.preEv r (a ++ [0]) ++ c1.preEv r (a ++ [1]) ++ c2.preEv r (a ++ [2]) ++ c3.preEv r (a ++ [3]))
    else []

/-- The same with parents last. -/
def postEv (r : Nat) : Forest → Addr → List (Addr × Bool)
  | leaf k, a => if k = r then [(a, true)] else []
  | node c0 c1 c2 c3, a => if r ∈ (node c0 c1 c2 c3).ranks then
      (c0.postEv r (a ++ [0]) ++ c1.postEv r (a ++ [1]) ++ c2.postEv r (a ++ [2]) ++ c3.postEv r (a ++ [3])) ++ [(a, false)]
    else []

theorem mem_preEv {r : Nat} {F : Forest} {a : Addr} {e : Addr × Bool} :
    e ∈ F.preEv r a ↔ ∃ b G, F.sub b = some G ∧ r ∈ G.ranks ∧ e = (a ++ b, G.isLeaf) := by
  induction F generalizing a with
  | leaf k =>
    simp only [preEv]
    constructor
    · intro h
      split at h
      · rename_i hk
        rw [List.mem_singleton] at h
        exact ⟨[], _, rfl, by simp [ranks, hk], by rw [h]; simp [isLeaf]⟩
      · simp at h
    · rintro ⟨b, G, hb, hr, rfl⟩
      cases b with
      | nil =>
        simp only [sub, Option.some.injEq] at hb
        subst hb
        simp only [ranks, List.mem_singleton] at hr
        simp [hr, isLeaf]
      | cons i b => simp [sub] at hb
  | node c0 c1 c2 c3 h0 h1 h2 h3 =>
    have app : ∀ (i : Nat) (b : Addr), (a ++ [i]) ++ b = a ++ (i :: b) := fun i b => by simp
    simp only [preEv]
    constructor
    · intro h
      split at h
      · rename_i hk
        simp only [List.mem_cons, List.mem_append] at h
        rcases h with rfl | ((h | h) | h) | h
        · exact ⟨[], _, rfl, hk, by simp [isLeaf]⟩
        · obtain ⟨b, G, hb, hr, rfl⟩ := h0.mp h
          exact ⟨0 :: b, G, hb, hr, by rw [app]⟩
        · obtain ⟨b, G, hb, hr, rfl⟩ := h1.mp h
          exact ⟨1 :: b, G, hb, hr, by rw [app]⟩
        · obtain ⟨b, G, hb, hr, rfl⟩ := h2.mp h
          exact ⟨2 :: b, G, hb, hr, by rw [app]⟩
        · obtain ⟨b, G, hb, hr, rfl⟩ := h3.mp h
          exact ⟨3 :: b, G, hb, hr, by rw [app]⟩
      · simp at h
    · rintro ⟨b, G, hb, hr, rfl⟩
      rw [if_pos (sub_ranks hb hr)]
      simp only [List.mem_cons, List.mem_append]
      cases b with
      | nil =>
        simp only [sub, Option.some.injEq] at hb
        subst hb
        exact Or.inl (by simp [isLeaf])
      | cons i b =>
        match i, hb with
        | 0, hb => exact Or.inr (Or.inl (Or.inl (Or.inl (h0.mpr ⟨b, G, hb, hr, by rw [app]⟩))))
        | 1, hb => exact Or.inr (Or.inl (Or.inl (Or.inr (h1.mpr ⟨b, G, hb, hr, by rw [app]⟩))))
        | 2, hb => exact Or.inr (Or.inl (Or.inr (h2.mpr ⟨b, G, hb, hr, by rw [app]⟩)))
        | 3, hb => exact Or.inr (Or.inr (h3.mpr ⟨b, G, hb, hr, by rw [app]⟩))

theorem postEv_perm (r : Nat) (F : Forest) (a : Addr) : (F.postEv r a).Perm (F.preEv r a) := by
  induction F generalizing a with
  | leaf k => exact List.Perm.refl _
  | node c0 c1 c2 c3 h0 h1 h2 h3 =>
    simp only [preEv, postEv]
    split
    · refine List.perm_append_comm.trans ?_
      exact List.Perm.cons _ ((((h0 _).append (h1 _)).append (h2 _)).append (h3 _))
    · exact List.Perm.refl _

theorem preEv_prefix {r : Nat} {F : Forest} {a : Addr} {e : Addr × Bool} (h : e ∈ F.preEv r a) : a <+: e.1 := by
  obtain ⟨b, G, _, _, rfl⟩ := mem_preEv.mp h
  exact ⟨b, rfl⟩

theorem postEv_prefix {r : Nat} {F : Forest} {a : Addr} {e : Addr × Bool} (h : e ∈ F.postEv r a) : a <+: e.1 :=
  preEv_prefix ((postEv_perm r F a).subset h)

theorem preEv_sorted (r : Nat) (F : Forest) (a : Addr) : (F.preEv r a).Pairwise (fun e e' => Addr.PreLt e.1 e'.1) := by
  induction F generalizing a with
  | leaf k => simp only [preEv]; split <;> simp
  | node c0 c1 c2 c3 h0 h1 h2 h3 =>
    simp only [preEv]
    split
    · have par : ∀ {i : Nat} {c : Forest} {e : Addr × Bool}, e ∈ c.preEv r (a ++ [i]) → Addr.PreLt a e.1 := by
        intro i c e he
        have hp := preEv_prefix he
        refine Or.inl ⟨(List.prefix_append a [i]).trans hp, fun h => ?_⟩
        have := hp.length_le
        rw [← h] at this
        simp at this
      have sib : ∀ {i j : Nat} {c c' : Forest} {e e' : Addr × Bool}, i < j → e ∈ c.preEv r (a ++ [i]) →
          e' ∈ c'.preEv r (a ++ [j]) → Addr.PreLt e.1 e'.1 :=
        fun hij he he' => Or.inr ⟨a, _, _, hij, preEv_prefix he, preEv_prefix he'⟩
      rw [List.pairwise_cons]
      constructor
      · intro e he
        simp only [List.mem_append] at he
        rcases he with ((he | he) | he) | he <;> exact par he
      · simp only [List.pairwise_append, List.mem_append]
        refine ⟨⟨⟨h0 _, h1 _, fun e he e' he' => sib (by omega) he he'⟩, h2 _, ?_⟩, h3 _, ?_⟩
        · rintro e (he | he) e' he' <;> exact sib (by omega) he he'
        · rintro e ((he | he) | he) e' he' <;> exact sib (by omega) he he'
    · exact List.Pairwise.nil

theorem postEv_sorted (r : Nat) (F : Forest) (a : Addr) : (F.postEv r a).Pairwise (fun e e' => Addr.PostLt e.1 e'.1) := by
  induction F generalizing a with
  | leaf k => simp only [postEv]; split <;> simp
  | node c0 c1 c2 c3 h0 h1 h2 h3 =>
    simp only [postEv]
    split
    · have par : ∀ {i : Nat} {c : Forest} {e : Addr × Bool}, e ∈ c.postEv r (a ++ [i]) → Addr.PostLt e.1 a := by
        intro i c e he
        have hp := postEv_prefix he
        refine Or.inl ⟨(List.prefix_append a [i]).trans hp, fun h => ?_⟩
        have := hp.length_le
        rw [h] at this
        simp at this
      have sib : ∀ {i j : Nat} {c c' : Forest} {e e' : Addr × Bool}, i < j → e ∈ c.postEv r (a ++ [i]) →
          e' ∈ c'.postEv r (a ++ [j]) → Addr.PostLt e.1 e'.1 :=
        fun hij he he' => Or.inr ⟨a, _, _, hij, postEv_prefix he, postEv_prefix he'⟩
      simp only [List.pairwise_append, List.mem_append, List.mem_singleton]
      refine ⟨⟨⟨⟨h0 _, h1 _, fun e he e' he' => sib (by omega) he he'⟩, h2 _, ?_⟩, h3 _, ?_⟩, List.pairwise_singleton _ _, ?_⟩
      · rintro e (he | he) e' he' <;> exact sib (by omega) he he'
      · rintro e ((he | he) | he) e' he' <;> exact sib (by omega) he he'
      · rintro e (((he | he) | he) | he) e' rfl <;> exact par he
    · exact List.Pairwise.nil

end Forest

theorem Addr.PreLt.ne {a b : Addr} (h : a.PreLt b) : a ≠ b := by
  rintro rfl
  rcases h with h | ⟨c, i, j, hij, h1, h2⟩
  · exact h.2 rfl
  · have := List.prefix_of_prefix_length_le h1 h2 (by simp)
    have := this.eq_of_length (by simp)
    simp at this
    omega

theorem Addr.PostLt.ne {a b : Addr} (h : a.PostLt b) : a ≠ b := by
  rintro rfl
  rcases h with h | ⟨c, i, j, hij, h1, h2⟩
  · exact h.2 rfl
  · have := List.prefix_of_prefix_length_le h1 h2 (by simp)
    have := this.eq_of_length (by simp)
    simp at this
    omega

section searches

variable {m : Type → Type} [Monad m] [LawfulMonad m] {σ : Type}

/-- A callback that never asks to stop. -/
def Continues (cb : Quadrant → Bool → σ → m (σ × Bool)) : Prop :=
  ∀ q l s, ∃ x : m σ, cb q l s = (fun y => (y, true)) <$> x

theorem searchPre_eq {M r : Nat} {cb : Quadrant → Bool → σ → m (σ × Bool)} (hc : Continues cb) (F : Forest) (a : Addr) (s : σ) :
    searchPre M r cb F (a.quad M) s = (F.preEv r a).foldlM (fun s e => Prod.fst <$> cb (Addr.quad M e.1) e.2 s) s := by
  induction F generalizing a s with
  | leaf k =>
    simp only [searchPre, Forest.preEv]
    split
    · simp only [List.foldlM_cons, List.foldlM_nil, map_eq_pure_bind, bind_assoc, pure_bind]
    · simp
  | node c0 c1 c2 c3 h0 h1 h2 h3 =>
    simp only [searchPre, Forest.preEv]
    split
    · obtain ⟨x, hx⟩ := hc (a.quad M) false s
      simp only [List.foldlM_cons, List.foldlM_append, hx, ← Addr.quad_snoc, h0, h1, h2, h3]
      simp only [map_eq_pure_bind, bind_assoc, pure_bind, if_true]
    · simp

theorem searchPost_eq {M r : Nat} (cb : Quadrant → Bool → σ → m (σ × Bool)) (F : Forest) (a : Addr) (s : σ) :
    searchPost M r cb F (a.quad M) s = (F.postEv r a).foldlM (fun s e => Prod.fst <$> cb (Addr.quad M e.1) e.2 s) s := by
  induction F generalizing a s with
  | leaf k =>
    simp only [searchPost, Forest.postEv]
    split
    · simp only [List.foldlM_cons, List.foldlM_nil, map_eq_pure_bind, bind_assoc, pure_bind]
    · simp
  | node c0 c1 c2 c3 h0 h1 h2 h3 =>
    simp only [searchPost, Forest.postEv]
    split
    · simp only [List.foldlM_cons, List.foldlM_append, List.foldlM_nil, ← Addr.quad_snoc, h0, h1, h2, h3]
      simp only [map_eq_pure_bind, bind_assoc, pure_bind]
    · simp

end searches

/-- Nodes the traversal relies on. -/
def Ready (r : Nat) (m : NodeMap T) (a : Addr) : Prop :=
  ∃ n, m a.text = some (some n) ∧ n.pfirst ≤ r ∧ r ≤ n.plast

theorem searchVisit_ready {M r : Nat} {fn : Node T → τ → Res ((Node T × τ) × Bool)} {a : Addr} (ha : a.Valid)
    (hl : a.length ≤ M) {l : Bool} {s : NodeMap T × τ} (hr : Ready r s.1 a) :
    Prod.fst <$> searchVisit M r .this fn (a.quad M) l s = visitBody fn a s := by
  obtain ⟨n, hn, h1, h2⟩ := hr
  unfold searchVisit visitBody NodeMap.need
  rw [if_pos rfl, (Addr.quad_spec ha hl).2.2]
  simp only [NodeMap.get, hn]
  rw [if_pos ⟨h1, h2⟩]
  simp only [map_eq_pure_bind, bind_assoc, Res.ok_bind, Res.pure_def]

/-- A loop of visits at different nodes. -/
theorem visits_eq {M r : Nat} {fn : Node T → τ → Res ((Node T × τ) × Bool)} (L : List (Addr × Bool))
    (hv : ∀ e ∈ L, Addr.Valid e.1 ∧ e.1.length ≤ M) (hn : L.Pairwise (fun e e' => e.1 ≠ e'.1)) (s : NodeMap T × τ)
    (hr : ∀ e ∈ L, Ready r s.1 e.1) :
    L.foldlM (fun s e => Prod.fst <$> searchVisit M r .this fn (Addr.quad M e.1) e.2 s) s
      = (L.map Prod.fst).foldlM (fun s a => visitBody fn a s) s := by
  induction L generalizing s with
  | nil => rfl
  | cons e L ih =>
    rw [List.pairwise_cons] at hn
    obtain ⟨v, l⟩ := hv e (by simp)
    simp only [List.foldlM_cons, List.map_cons]
    rw [searchVisit_ready v l (hr e (by simp))]
    cases hb : visitBody fn e.1 s with
    | ok s' =>
      simp only [Res.ok_bind]
      refine ih (fun e' he' => hv e' (by simp [he'])) hn.2 s' ?_
      intro e' he'
      obtain ⟨n, h1, h2⟩ := hr e' (by simp [he'])
      unfold visitBody at hb
      obtain ⟨n0, _, hb⟩ := Res.bind_eq_ok.mp hb
      obtain ⟨x, _, hb⟩ := Res.bind_eq_ok.mp hb
      rw [Res.pure_def, Res.ok_inj] at hb
      subst hb
      refine ⟨n, ?_, h2⟩
      show (if e'.1.text = e.1.text then some (some x.1.1) else s.1 e'.1.text) = _
      rw [if_neg]
      · exact h1
      · intro ht
        exact hn.1 e' he' (Addr.text_inj v (hv e' (by simp [he'])).1 ht.symm)
    | throw e => rfl
    | ub => rfl

end EF
