import Verif.Proofs.QuadTraverse

/-!
# Maps that hold a tree
-/

namespace EF

variable {T τ : Type}

/-- `t` lies strictly below or at address `a`. -/
def Below (a : Addr) (t : Text) : Prop := ∃ b, Addr.Valid b ∧ t = Addr.text (a ++ b)

theorem get_congr {m m' : NodeMap T} {p : Text} (h : m' p = m p) : (m'.get p).1 = (m.get p).1 := by
  unfold NodeMap.get
  rw [h]
  cases m p <;> rfl

theorem get_set (m : NodeMap T) (p : Text) (n : Option (Node T)) : ((m.set p n).get p).1 = n := by
  simp [NodeMap.get, NodeMap.set]

theorem set_other {m : NodeMap T} {p p' : Text} (h : p' ≠ p) (n : Option (Node T)) : (m.set p n) p' = m p' := by
  simp [NodeMap.set, h]

theorem get_eq_some {m : NodeMap T} {p : Text} {n : Node T} : (m.get p).1 = some n ↔ m p = some (some n) := by
  unfold NodeMap.get
  cases h : m p with
  | none => simp
  | some x => simp

theorem need_eq {m : NodeMap T} {p : Text} {n : Node T} (h : (m.get p).1 = some n) : m.need p = .ok n := by
  unfold NodeMap.need
  rw [h]

theorem store_some {m : NodeMap T} {p : Text} {n : Node T} (h : (m.get p).1 = some n) (n' : Node T) :
    m.store p n' = m.set p (some n') := by
  unfold NodeMap.store
  rw [get_eq_some.mp h]

theorem store_none {m : NodeMap T} {p : Text} (h : (m.get p).1 = none) (n' : Node T) : m.store p n' = m := by
  unfold NodeMap.store
  split
  · rename_i x hx
    rw [get_eq_some.mpr hx] at h
    cases h
  · rfl

theorem store_other (m : NodeMap T) {p p' : Text} (h : p' ≠ p) (n' : Node T) : (m.store p n') p' = m p' := by
  unfold NodeMap.store
  rcases m p with _ | _ | x
  · rfl
  · rfl
  · exact set_other h _

theorem store_get {m : NodeMap T} {p : Text} {b : Prop} [Decidable b] {n : Node T}
    (h : (m.get p).1 = if b then some n else none) (n' : Node T) :
    ((m.store p n').get p).1 = if b then some n' else none := by
  split at h
  · rename_i hb
    rw [store_some h, get_set, if_pos hb]
  · rename_i hb
    rw [store_none h, h, if_neg hb]

theorem Entry.congr {r : Nat} {G : Forest} {d : T} {a : Addr} {m m' : NodeMap T} (h : Entry r G d a m)
    (hm : (m'.get a.text).1 = (m.get a.text).1) : Entry r G d a m' := by
  unfold Entry at *
  rw [hm, h]

theorem below_self (a : Addr) : Below a a.text := ⟨[], Addr.Valid.nil, by rw [List.append_nil]⟩

theorem below_kid {a : Addr} {i : Nat} {t : Text} (hi : i < 4) (h : Below (a ++ [i]) t) : Below a t := by
  obtain ⟨b, hb, rfl⟩ := h
  refine ⟨i :: b, ?_, by simp⟩
  intro k hk
  rcases List.mem_cons.mp hk with rfl | hk
  · exact hi
  · exact hb k hk

theorem not_below_self {a : Addr} {i : Nat} : ¬ Below (a ++ [i]) a.text := by
  rintro ⟨b, _, h⟩
  exact Addr.text_ne_self h

theorem not_below_sib {a : Addr} (ha : a.Valid) {i j : Nat} (hi : i < 4) (hj : j < 4) (h : i ≠ j) {t : Text}
    (ht : Below (a ++ [i]) t) : ¬ Below (a ++ [j]) t := by
  obtain ⟨b, hb, rfl⟩ := ht
  rintro ⟨b', hb', e⟩
  refine Addr.text_ne_kids ha hb hb' hi hj h ?_
  rw [← e]
  congr 1
  simp

theorem Rep.entry {r : Nat} {F : Forest} {t : Tree T} {a : Addr} {m : NodeMap T} (h : Rep r F t a m) :
    Entry r F t.val a m := by
  cases F <;> cases t <;> simp only [Rep] at h
  · exact h
  · exact h.1

/-- The part below an address is all that matters. -/
theorem Rep.congr {r : Nat} {F : Forest} {t : Tree T} {a : Addr} {m m' : NodeMap T} (h : Rep r F t a m)
    (hm : ∀ p, Below a p → (m'.get p).1 = (m.get p).1) : Rep r F t a m' := by
  induction F generalizing t a with
  | leaf k =>
    cases t <;> simp only [Rep] at h ⊢
    exact h.congr (hm _ (below_self a))
  | node c0 c1 c2 c3 h0 h1 h2 h3 =>
    cases t <;> simp only [Rep] at h ⊢
    exact ⟨h.1.congr (hm _ (below_self a)), h0 h.2.1 (fun p hp => hm p (below_kid (by omega) hp)),
      h1 h.2.2.1 (fun p hp => hm p (below_kid (by omega) hp)), h2 h.2.2.2.1 (fun p hp => hm p (below_kid (by omega) hp)),
      h3 h.2.2.2.2 (fun p hp => hm p (below_kid (by omega) hp))⟩

/-- Change of the data at the top. -/
theorem Rep.setVal {r : Nat} {F : Forest} {t : Tree T} {a : Addr} {m m' : NodeMap T} {d : T} (h : Rep r F t a m)
    (he : Entry r F d a m') (hm : ∀ p, Below a p → p ≠ a.text → (m'.get p).1 = (m.get p).1) : Rep r F (t.setVal d) a m' := by
  have low : ∀ {i : Nat}, i < 4 → ∀ p, Below (a ++ [i]) p → (m'.get p).1 = (m.get p).1 := by
    intro i hi p hp
    refine hm p (below_kid hi hp) ?_
    rintro rfl
    exact not_below_self hp
  cases F with
  | leaf k => cases t <;> simp only [Rep, Tree.setVal] at h ⊢; exact he
  | node c0 c1 c2 c3 =>
    cases t <;> simp only [Rep, Tree.setVal] at h ⊢
    exact ⟨he, h.2.1.congr (low (by omega)), h.2.2.1.congr (low (by omega)), h.2.2.2.1.congr (low (by omega)),
      h.2.2.2.2.congr (low (by omega))⟩

/-- The map after the family callback: node and children replaced. -/
def stored (m : NodeMap T) (a : Addr) (F : Fam (Node T)) : NodeMap T :=
  ((((m.set a.text (some F.tau)).store (a.text ++ natText 0) F.a).store (a.text ++ natText 1) F.b).store
    (a.text ++ natText 2) F.c).store (a.text ++ natText 3) F.d

theorem kid_text (a : Addr) {i : Nat} (hi : i < 4) : a.text ++ natText i = Addr.text (a ++ [i]) := (Addr.text_snoc a hi).symm

/-- The five nodes of a family in a map. -/
structure FamRep (r : Nat) (c0 c1 c2 c3 : Forest) (F : Fam T) (z : Addr) (m : NodeMap T) : Prop where
  tau : Entry r (.node c0 c1 c2 c3) F.tau z m
  a : Entry r c0 F.a (z ++ [0]) m
  b : Entry r c1 F.b (z ++ [1]) m
  c : Entry r c2 F.c (z ++ [2]) m
  d : Entry r c3 F.d (z ++ [3]) m

/-- The family of node objects. -/
def famNodes (c0 c1 c2 c3 : Forest) (F : Fam T) (a : Addr) : Fam (Node T) :=
  ⟨nodeOf F.tau a (.node c0 c1 c2 c3), nodeOf F.a (a ++ [0]) c0, nodeOf F.b (a ++ [1]) c1, nodeOf F.c (a ++ [2]) c2,
    nodeOf F.d (a ++ [3]) c3⟩

theorem text_ne {a : Addr} {i : Nat} : a.text ≠ Addr.text (a ++ [i]) := by
  have := @Addr.text_ne_self a [] i
  rwa [List.append_nil] at this

theorem text_kid_ne {a : Addr} (ha : a.Valid) {i j : Nat} (hi : i < 4) (hj : j < 4) (h : i ≠ j) :
    Addr.text (a ++ [i]) ≠ Addr.text (a ++ [j]) := by
  have := Addr.text_ne_kids ha Addr.Valid.nil Addr.Valid.nil hi hj h
  rwa [List.append_nil] at this

theorem Entry.store {r : Nat} {G : Forest} {d d' : T} {a : Addr} {m : NodeMap T} {n : Node T} (h : Entry r G d a m)
    (hn : n = nodeOf d' a G ∨ ¬ G.Spans r) : Entry r G d' a (m.store a.text n) := by
  unfold Entry at *
  rw [store_get h]
  split
  · rename_i hs
    rcases hn with rfl | hn
    · rfl
    · exact absurd hs hn
  · rfl

/-- Storing a family. -/
theorem stored_rep {r : Nat} {c0 c1 c2 c3 : Forest} {F F' : Fam T} {a : Addr} (ha : a.Valid) {m : NodeMap T}
    (h : FamRep r c0 c1 c2 c3 F a m) (hs : (Forest.node c0 c1 c2 c3).Spans r) {N : Fam (Node T)}
    (ht : N.tau = nodeOf F'.tau a (.node c0 c1 c2 c3))
    (h0 : N.a = nodeOf F'.a (a ++ [0]) c0 ∨ ¬ c0.Spans r) (h1 : N.b = nodeOf F'.b (a ++ [1]) c1 ∨ ¬ c1.Spans r)
    (h2 : N.c = nodeOf F'.c (a ++ [2]) c2 ∨ ¬ c2.Spans r) (h3 : N.d = nodeOf F'.d (a ++ [3]) c3 ∨ ¬ c3.Spans r) :
    FamRep r c0 c1 c2 c3 F' a (stored m a N) ∧
      ∀ p, p ≠ a.text → (∀ i < 4, p ≠ Addr.text (a ++ [i])) → ((stored m a N).get p).1 = (m.get p).1 := by
  unfold stored
  simp only [kid_text a (show 0 < 4 by omega), kid_text a (show 1 < 4 by omega), kid_text a (show 2 < 4 by omega),
    kid_text a (show 3 < 4 by omega)]
  constructor
  · constructor
    · refine Entry.congr (m := m.set a.text (some N.tau)) ?_ ?_
      · unfold Entry
        rw [get_set, if_pos hs, ht]
      · refine get_congr ?_
        rw [store_other _ text_ne, store_other _ text_ne, store_other _ text_ne, store_other _ text_ne]
    · refine Entry.congr (m := (m.set a.text (some N.tau)).store (Addr.text (a ++ [0])) N.a) ?_ ?_
      · exact (h.a.congr (get_congr (set_other text_ne.symm _))).store h0
      · refine get_congr ?_
        rw [store_other _ (text_kid_ne ha (by omega) (by omega) (by omega)),
          store_other _ (text_kid_ne ha (by omega) (by omega) (by omega)),
          store_other _ (text_kid_ne ha (by omega) (by omega) (by omega))]
    · refine Entry.congr (m := ((m.set a.text (some N.tau)).store (Addr.text (a ++ [0])) N.a).store
        (Addr.text (a ++ [1])) N.b) ?_ ?_
      · refine Entry.store (h.b.congr (get_congr ?_)) h1
        rw [store_other _ (text_kid_ne ha (by omega) (by omega) (by omega)), set_other text_ne.symm]
      · refine get_congr ?_
        rw [store_other _ (text_kid_ne ha (by omega) (by omega) (by omega)),
          store_other _ (text_kid_ne ha (by omega) (by omega) (by omega))]
    · refine Entry.congr (m := (((m.set a.text (some N.tau)).store (Addr.text (a ++ [0])) N.a).store
        (Addr.text (a ++ [1])) N.b).store (Addr.text (a ++ [2])) N.c) ?_ ?_
      · refine Entry.store (h.c.congr (get_congr ?_)) h2
        rw [store_other _ (text_kid_ne ha (by omega) (by omega) (by omega)),
          store_other _ (text_kid_ne ha (by omega) (by omega) (by omega)), set_other text_ne.symm]
      · refine get_congr ?_
        rw [store_other _ (text_kid_ne ha (by omega) (by omega) (by omega))]
    · refine Entry.store (h.d.congr (get_congr ?_)) h3
      rw [store_other _ (text_kid_ne ha (by omega) (by omega) (by omega)),
        store_other _ (text_kid_ne ha (by omega) (by omega) (by omega)),
        store_other _ (text_kid_ne ha (by omega) (by omega) (by omega)), set_other text_ne.symm]
  · intro p hp hk
    refine get_congr ?_
    rw [store_other _ (hk 3 (by omega)), store_other _ (hk 2 (by omega)), store_other _ (hk 1 (by omega)),
      store_other _ (hk 0 (by omega)), set_other hp]

theorem stored_frame {r : Nat} {c0 c1 c2 c3 : Forest} {F F' : Fam T} {a : Addr} {m m' : NodeMap T}
    {t0 t1 t2 t3 : Tree T} (ha : a.Valid)
    (hm : ∀ p, p ≠ a.text → (∀ i < 4, p ≠ Addr.text (a ++ [i])) → (m'.get p).1 = (m.get p).1)
    (h : FamRep r c0 c1 c2 c3 F' a m') (hr : Rep r (.node c0 c1 c2 c3) (.node F.tau t0 t1 t2 t3) a m) :
    Rep r (.node c0 c1 c2 c3) (.node F'.tau (t0.setVal F'.a) (t1.setVal F'.b) (t2.setVal F'.c) (t3.setVal F'.d)) a m' ∧
      ∀ p, ¬ Below a p → (m'.get p).1 = (m.get p).1 := by
  have low : ∀ {i : Nat}, i < 4 → ∀ p, Below (a ++ [i]) p → p ≠ Addr.text (a ++ [i]) →
      (m'.get p).1 = (m.get p).1 := by
    intro i hi p hp hne
    refine hm p ?_ ?_
    · rintro rfl
      exact not_below_self hp
    · rintro j hj rfl
      by_cases hij : i = j
      · exact hne (by rw [hij])
      · exact not_below_sib ha hi hj hij hp (below_self _)
  obtain ⟨_, r0, r1, r2, r3⟩ := hr
  refine ⟨⟨h.tau, r0.setVal h.a (low (by omega)), r1.setVal h.b (low (by omega)), r2.setVal h.c (low (by omega)),
    r3.setVal h.d (low (by omega))⟩, ?_⟩
  intro p hp
  refine hm p ?_ ?_
  · rintro rfl
    exact hp (below_self a)
  · rintro i hi rfl
    exact hp (below_kid hi (below_self _))

end EF
