import Mathlib.Algebra.Order.Field.Basic
import Mathlib.Tactic.Linarith
import Verif.Proofs.QuadParallel

/-!
# Leaves tile the domain; the constructor plants the starting tree
-/

namespace EF

variable {K : Type} [Field K]

section order
variable [LinearOrder K] [IsStrictOrderedRing K]

/-- A point of a rectangle lies in exactly one of its quarters. -/
theorem Rect.quarter_unique (R : Rect K) {x y : K} (h : R.Has x y) : ∃ i < 4, (R.quarter i).Has x y ∧
    ∀ j < 4, (R.quarter j).Has x y → j = i := by
  obtain ⟨h1, h2, h3, h4⟩ := h
  have close : ∀ {j i : Nat}, j < 4 → i < 4 → (R.quarter j).Has x y → (R.quarter i).Has x y → j = i := by
    intro j i hj hi hh hk
    obtain ⟨a1, a2, a3, a4⟩ := hh
    obtain ⟨b1, b2, b3, b4⟩ := hk
    interval_cases j <;> interval_cases i <;> first
      | rfl
      | (exfalso; norm_num [Rect.quarter] at a1 a2 a3 a4 b1 b2 b3 b4; linarith)
  by_cases hx : x < (R.xl + R.xu) / 2 <;> by_cases hy : y < (R.yl + R.yu) / 2
  · have k : (R.quarter 0).Has x y := ⟨h1, hx, h3, hy⟩
    exact ⟨0, by omega, k, fun j hj hh => close hj (by omega) hh k⟩
  · have k : (R.quarter 2).Has x y := ⟨h1, hx, not_lt.mp hy, h4⟩
    exact ⟨2, by omega, k, fun j hj hh => close hj (by omega) hh k⟩
  · have k : (R.quarter 1).Has x y := ⟨not_lt.mp hx, h2, h3, hy⟩
    exact ⟨1, by omega, k, fun j hj hh => close hj (by omega) hh k⟩
  · have k : (R.quarter 3).Has x y := ⟨not_lt.mp hx, h2, not_lt.mp hy, h4⟩
    exact ⟨3, by omega, k, fun j hj hh => close hj (by omega) hh k⟩

/-- A quarter lies in the rectangle. -/
theorem Rect.quarter_sub (R : Rect K) {i : Nat} (hi : i < 4) {x y : K} (h : (R.quarter i).Has x y) : R.Has x y := by
  obtain ⟨h1, h2, h3, h4⟩ := h
  interval_cases i <;> norm_num [Rect.quarter] at h1 h2 h3 h4 <;> refine ⟨?_, ?_, ?_, ?_⟩ <;> linarith

theorem Addr.rect_sub (R : Rect K) {b : Addr} (hb : b.Valid) {x y : K} (h : (Addr.rect R b).Has x y) : R.Has x y := by
  induction b generalizing R with
  | nil => exact h
  | cons i b ih =>
    have := ih (R := R.quarter i) (fun k hk => hb k (by simp [hk])) h
    exact R.quarter_sub (hb i (by simp)) this

/-- Exactly one leaf holds a given point. -/
theorem Forest.leaf_unique (F : Forest) (R : Rect K) {x y : K} (h : R.Has x y) :
    ∃ b k, F.sub b = some (.leaf k) ∧ (Addr.rect R b).Has x y ∧
      ∀ b' k', F.sub b' = some (.leaf k') → (Addr.rect R b').Has x y → b' = b := by
  induction F generalizing R with
  | leaf k =>
    refine ⟨[], k, rfl, h, ?_⟩
    intro b' k' hb' _
    cases b' with
    | nil => rfl
    | cons i b' => simp [Forest.sub] at hb'
  | node c0 c1 c2 c3 h0 h1 h2 h3 =>
    obtain ⟨i, hi, hin, huniq⟩ := R.quarter_unique h
    have main : ∀ (G : Forest), (∀ b, (Forest.node c0 c1 c2 c3).sub (i :: b) = G.sub b) →
        (∃ b k, G.sub b = some (.leaf k) ∧ (Addr.rect (R.quarter i) b).Has x y ∧
          ∀ b' k', G.sub b' = some (.leaf k') → (Addr.rect (R.quarter i) b').Has x y → b' = b) →
        ∃ b k, (Forest.node c0 c1 c2 c3).sub b = some (.leaf k) ∧ (Addr.rect R b).Has x y ∧
          ∀ b' k', (Forest.node c0 c1 c2 c3).sub b' = some (.leaf k') → (Addr.rect R b').Has x y → b' = b := by
      rintro G hG ⟨b, k, e1, e2, e3⟩
      refine ⟨i :: b, k, by rw [hG, e1], e2, ?_⟩
      intro b' k' hb' hh
      cases b' with
      | nil => simp [Forest.sub] at hb'
      | cons j b' =>
        have hv := Forest.sub_valid hb'
        have hj : j < 4 := hv j (by simp)
        have hb'v : Addr.Valid b' := fun k hk => hv k (by simp [hk])
        have : j = i := huniq j hj (Addr.rect_sub (R.quarter j) hb'v hh)
        subst this
        rw [hG] at hb'
        rw [e3 b' k' hb' hh]
    interval_cases i
    · exact main c0 (fun b => by simp [Forest.sub]) (h0 _ hin)
    · exact main c1 (fun b => by simp [Forest.sub]) (h1 _ hin)
    · exact main c2 (fun b => by simp [Forest.sub]) (h2 _ hin)
    · exact main c3 (fun b => by simp [Forest.sub]) (h3 _ hin)

end order

/-- What `Ext` says about one node, as an entry. -/
theorem Ext.entry {p : Patch K} {r : Nat} {F : Forest} {m : NodeMap (Patch K)} (h : Ext p r F [] (fun _ => none) m) {b : Addr}
    {G : Forest} (hb : F.sub b = some G) : Entry r G (startData p b) b m := by
  unfold Entry
  by_cases hs : G.Spans r
  · rw [if_pos hs]
    have := h.here b G hb hs
    exact get_eq_some.mpr this
  · rw [if_neg hs]
    cases hg : (m.get b.text).1 with
    | none => rfl
    | some n =>
      rcases h.only _ n (get_eq_some.mp hg) with h' | ⟨b', G', e1, e2, e3⟩
      · cases h'
      · rw [List.nil_append] at e3
        have := Addr.text_inj (Forest.sub_valid hb) (Forest.sub_valid e1) e3
        subst this
        rw [hb] at e1
        cases e1
        exact absurd e2 hs

theorem Forest.sub_append {F G : Forest} {a b : Addr} (h : F.sub a = some G) : F.sub (a ++ b) = G.sub b := by
  induction a generalizing F with
  | nil => simp only [sub, Option.some.injEq] at h; rw [h]; rfl
  | cons i a ih =>
    cases F with
    | leaf k => simp [sub] at h
    | node c0 c1 c2 c3 =>
      match i, h with
      | 0, h => simp only [sub] at h; simpa [sub] using ih h
      | 1, h => simp only [sub] at h; simpa [sub] using ih h
      | 2, h => simp only [sub] at h; simpa [sub] using ih h
      | 3, h => simp only [sub] at h; simpa [sub] using ih h
      | n + 4, h => simp [sub] at h

theorem Ext.rep_sub {p : Patch K} {r : Nat} {F : Forest} {m : NodeMap (Patch K)} (h : Ext p r F [] (fun _ => none) m) (G : Forest)
    {a : Addr} (ha : F.sub a = some G) : Rep r G (startTree p G a) a m := by
  induction G generalizing a with
  | leaf k => exact h.entry ha
  | node c0 c1 c2 c3 h0 h1 h2 h3 =>
    refine ⟨h.entry ha, h0 ?_, h1 ?_, h2 ?_, h3 ?_⟩ <;> rw [Forest.sub_append ha] <;> simp [Forest.sub]

/-- The constructor plants the starting tree. -/
theorem Ext.rep {p : Patch K} {r : Nat} {F : Forest} {m : NodeMap (Patch K)} (h : Ext p r F [] (fun _ => none) m) :
    Rep r F (startTree p F []) [] m := h.rep_sub F (by simp [Forest.sub])

/-- Entry of any node of a tree held by a map. -/
theorem Rep.node {T : Type} {r : Nat} {F : Forest} {t : Tree T} {a : Addr} {m : NodeMap T} (h : Rep r F t a m) {b : Addr} {G : Forest}
    (hb : F.sub b = some G) : ∃ d, Entry r G d (a ++ b) m := by
  induction b generalizing F t a with
  | nil =>
    simp only [Forest.sub, Option.some.injEq] at hb
    subst hb
    rw [List.append_nil]
    exact ⟨_, h.entry⟩
  | cons i b ih =>
    cases F with
    | leaf k => simp [Forest.sub] at hb
    | node c0 c1 c2 c3 =>
      cases t with
      | leaf d => exact absurd h id
      | node d t0 t1 t2 t3 =>
        obtain ⟨_, r0, r1, r2, r3⟩ := h
        match i, hb with
        | 0, hb => simp only [Forest.sub] at hb; simpa using ih r0 hb
        | 1, hb => simp only [Forest.sub] at hb; simpa using ih r1 hb
        | 2, hb => simp only [Forest.sub] at hb; simpa using ih r2 hb
        | 3, hb => simp only [Forest.sub] at hb; simpa using ih r3 hb
        | n + 4, hb => simp [Forest.sub] at hb

/-- Nodes of a rank are ready to be visited. -/
theorem Rep.ready {T : Type} {r : Nat} {F : Forest} (hs : F.Sorted) {t : Tree T} {m : NodeMap T} (h : Rep r F t [] m) {b : Addr}
    {G : Forest} (hb : F.sub b = some G) (hr : r ∈ G.ranks) : Ready r m b := by
  obtain ⟨d, hd⟩ := h.node hb
  have hsp := (Forest.sub_sorted hb hs).spans_of_mem hr
  unfold Entry at hd
  rw [if_pos hsp, List.nil_append] at hd
  exact ⟨_, get_eq_some.mp hd, hsp.1, hsp.2⟩

theorem preOrder_exists (F : Forest) (r : Nat) : VisitOrder F r Addr.PreLt ((F.preEv r []).map Prod.fst) := by
  refine ⟨List.pairwise_map.mpr (F.preEv_sorted r []), fun b => ?_⟩
  simp only [List.mem_map]
  constructor
  · rintro ⟨e, he, rfl⟩
    obtain ⟨b, G, h1, h2, rfl⟩ := Forest.mem_preEv.mp he
    exact ⟨G, by simpa using h1, h2⟩
  · rintro ⟨G, h1, h2⟩
    exact ⟨(b, G.isLeaf), Forest.mem_preEv.mpr ⟨b, G, h1, h2, rfl⟩, rfl⟩

theorem postOrder_exists (F : Forest) (r : Nat) : VisitOrder F r Addr.PostLt ((F.postEv r []).map Prod.fst) := by
  refine ⟨List.pairwise_map.mpr (F.postEv_sorted r []), fun b => ?_⟩
  rw [← (preOrder_exists F r).2 b]
  exact ((F.postEv_perm r []).map _).mem_iff

/-- A loop of visits that only note paths. -/
theorem notes_eq {T : Type} (L : List Addr) (s : NodeMap T × List Text) (h : ∀ a ∈ L, ∃ n, s.1 a.text = some (some n) ∧ n.path = a.text) :
    ∃ m, L.foldlM (fun s a => visitBody notePath a s) s = .ok (m, s.2 ++ L.map Addr.text) ∧ m = s.1 := by
  induction L generalizing s with
  | nil => exact ⟨s.1, by simp [List.foldlM], rfl⟩
  | cons a L ih =>
    obtain ⟨n, hn, hp⟩ := h a (by simp)
    have e : visitBody notePath a s = .ok (s.1, s.2 ++ [a.text]) := by
      unfold visitBody notePath
      rw [need_eq (get_eq_some.mpr hn)]
      simp only [Res.ok_bind, Res.pure_def, hp]
      congr 2
      funext t
      unfold NodeMap.set
      split
      · rename_i ht
        rw [ht, hn]
      · rfl
    obtain ⟨m, h1, h2⟩ := ih (s.1, s.2 ++ [a.text]) (fun b hb => h b (by simp [hb]))
    refine ⟨m, ?_, h2⟩
    rw [List.foldlM_cons, e]
    simp only [Res.ok_bind, h1, List.map_cons, List.append_assoc, List.singleton_append]

/-- Path noted under a rank's nodes. -/
theorem Rep.path {T : Type} {r : Nat} {F : Forest} (hs : F.Sorted) {t : Tree T} {m : NodeMap T} (h : Rep r F t [] m) {b : Addr}
    {G : Forest} (hb : F.sub b = some G) (hr : r ∈ G.ranks) : ∃ n, m b.text = some (some n) ∧ n.path = b.text := by
  obtain ⟨d, hd⟩ := h.node hb
  unfold Entry at hd
  rw [if_pos ((Forest.sub_sorted hb hs).spans_of_mem hr), List.nil_append] at hd
  exact ⟨_, get_eq_some.mp hd, rfl⟩

end EF
