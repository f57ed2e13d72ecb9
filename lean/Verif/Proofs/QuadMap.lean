import Verif.Proofs.QuadPath

/-!
# The map built by the constructor
-/

namespace EF

namespace Forest

theorem first_mem (F : Forest) : F.first ∈ F.ranks := by
  induction F with
  | leaf r => simp [first, ranks]
  | node c0 c1 c2 c3 h0 h1 h2 h3 => simp [first, ranks, h0]

theorem last_mem (F : Forest) : F.last ∈ F.ranks := by
  induction F with
  | leaf r => simp [last, ranks]
  | node c0 c1 c2 c3 h0 h1 h2 h3 => simp [last, ranks, h3]

theorem Sorted.first_le {F : Forest} (h : F.Sorted) {r : Nat} (hr : r ∈ F.ranks) : F.first ≤ r := by
  induction F with
  | leaf k => simp [first, ranks] at hr ⊢; omega
  | node c0 c1 c2 c3 h0 h1 h2 h3 =>
    simp only [Sorted, ranks, List.pairwise_append] at h
    obtain ⟨⟨⟨⟨p0, p1, q1⟩, p2, q2⟩, p3, q3⟩⟩ := And.intro h trivial
    simp only [ranks, List.mem_append] at hr
    show c0.first ≤ r
    rcases hr with ((hr | hr) | hr) | hr
    · exact h0 p0 hr
    · exact q1 _ (first_mem c0) _ hr
    · exact q2 _ (by simp [first_mem c0]) _ hr
    · exact q3 _ (by simp [first_mem c0]) _ hr

theorem Sorted.le_last {F : Forest} (h : F.Sorted) {r : Nat} (hr : r ∈ F.ranks) : r ≤ F.last := by
  induction F with
  | leaf k => simp [last, ranks] at hr ⊢; omega
  | node c0 c1 c2 c3 h0 h1 h2 h3 =>
    simp only [Sorted, ranks, List.pairwise_append] at h
    obtain ⟨⟨⟨⟨p0, p1, q1⟩, p2, q2⟩, p3, q3⟩⟩ := And.intro h trivial
    simp only [ranks, List.mem_append] at hr
    show r ≤ c3.last
    rcases hr with ((hr | hr) | hr) | hr
    · exact q3 _ (by simp [hr]) _ (last_mem c3)
    · exact q3 _ (by simp [hr]) _ (last_mem c3)
    · exact q3 _ (by simp [hr]) _ (last_mem c3)
    · exact h3 p3 hr

theorem Sorted.kids {c0 c1 c2 c3 : Forest} (h : (node c0 c1 c2 c3).Sorted) :
    c0.Sorted ∧ c1.Sorted ∧ c2.Sorted ∧ c3.Sorted := by
  simp only [Sorted, ranks, List.pairwise_append] at h
  exact ⟨h.1.1.1, h.1.1.2.1, h.1.2.1, h.2.1⟩

/-- A subtree's owners are owners of the tree. -/
theorem sub_ranks {F G : Forest} {b : Addr} (h : F.sub b = some G) {r : Nat} (hr : r ∈ G.ranks) : r ∈ F.ranks := by
  induction b generalizing F with
  | nil => simp only [sub, Option.some.injEq] at h; rw [h]; exact hr
  | cons i b ih =>
    cases F with
    | leaf k => simp [sub] at h
    | node c0 c1 c2 c3 =>
      simp only [ranks, List.mem_append]
      match i, h with
      | 0, h => exact Or.inl (Or.inl (Or.inl (ih h)))
      | 1, h => exact Or.inl (Or.inl (Or.inr (ih h)))
      | 2, h => exact Or.inl (Or.inr (ih h))
      | 3, h => exact Or.inr (ih h)

theorem sub_sorted {F G : Forest} {b : Addr} (h : F.sub b = some G) (hs : F.Sorted) : G.Sorted := by
  induction b generalizing F with
  | nil => simp only [sub, Option.some.injEq] at h; rw [← h]; exact hs
  | cons i b ih =>
    cases F with
    | leaf k => simp [sub] at h
    | node c0 c1 c2 c3 =>
      obtain ⟨s0, s1, s2, s3⟩ := hs.kids
      match i, h with
      | 0, h => exact ih h s0
      | 1, h => exact ih h s1
      | 2, h => exact ih h s2
      | 3, h => exact ih h s3

theorem sub_valid {F G : Forest} {b : Addr} (h : F.sub b = some G) : b.Valid := by
  induction b generalizing F with
  | nil => exact Addr.Valid.nil
  | cons i b ih =>
    cases F with
    | leaf k => simp [sub] at h
    | node c0 c1 c2 c3 =>
      have key : i < 4 ∧ Addr.Valid b := by
        match i, h with
        | 0, h => exact ⟨by omega, ih h⟩
        | 1, h => exact ⟨by omega, ih h⟩
        | 2, h => exact ⟨by omega, ih h⟩
        | 3, h => exact ⟨by omega, ih h⟩
      intro j hj
      rcases List.mem_cons.mp hj with rfl | hj
      · exact key.1
      · exact key.2 j hj

theorem sub_depth {F G : Forest} {b : Addr} (h : F.sub b = some G) : b.length + G.depth ≤ F.depth := by
  induction b generalizing F with
  | nil => simp only [sub, Option.some.injEq] at h; rw [h]; simp
  | cons i b ih =>
    cases F with
    | leaf k => simp [sub] at h
    | node c0 c1 c2 c3 =>
      simp only [depth, List.length_cons]
      match i, h with
      | 0, h => have := ih h; omega
      | 1, h => have := ih h; omega
      | 2, h => have := ih h; omega
      | 3, h => have := ih h; omega

theorem sub_spans {F G : Forest} {b : Addr} (h : F.sub b = some G) (hs : F.Sorted) {r : Nat} (hr : G.Spans r) :
    F.Spans r :=
  ⟨le_trans (hs.first_le (sub_ranks h (first_mem G))) hr.1, le_trans hr.2 (hs.le_last (sub_ranks h (last_mem G)))⟩

theorem Sorted.spans_of_mem {F : Forest} (h : F.Sorted) {r : Nat} (hr : r ∈ F.ranks) : F.Spans r :=
  ⟨h.first_le hr, h.le_last hr⟩

/-- A rank that owns some leaf owns a leaf of every subtree that spans it. -/
theorem mem_of_spans {F G : Forest} {b : Addr} (h : F.sub b = some G) (hs : F.Sorted) {r : Nat} (hr : r ∈ F.ranks)
    (hg : G.Spans r) : r ∈ G.ranks := by
  induction b generalizing F with
  | nil => simp only [sub, Option.some.injEq] at h; rw [← h]; exact hr
  | cons i b ih =>
    cases F with
    | leaf k => simp [sub] at h
    | node c0 c1 c2 c3 =>
      obtain ⟨s0, s1, s2, s3⟩ := hs.kids
      have hh := hs
      simp only [Sorted, ranks, List.pairwise_append, List.mem_append] at hh
      obtain ⟨⟨⟨-, -, q1⟩, -, q2⟩, -, q3⟩ := hh
      simp only [ranks, List.mem_append] at hr
      obtain ⟨g1, g2⟩ := hg
      match i, h with
      | 0, h =>
        refine ih h s0 ?_
        have hl := sub_ranks (F := c0) h (last_mem G)
        have e : r ∉ c0.ranks → G.last = r := fun hn => by
          rcases hr with ((hr | hr) | hr) | hr
          · exact absurd hr hn
          · exact le_antisymm (q1 _ hl _ hr) g2
          · exact le_antisymm (q2 _ (Or.inl hl) _ hr) g2
          · exact le_antisymm (q3 _ (Or.inl (Or.inl hl)) _ hr) g2
        by_contra hn
        exact hn (e hn ▸ hl)
      | 1, h =>
        refine ih h s1 ?_
        have hl := sub_ranks (F := c1) h (last_mem G)
        have hf := sub_ranks (F := c1) h (first_mem G)
        by_contra hn
        rcases hr with ((hr | hr) | hr) | hr
        · exact hn (le_antisymm (q1 _ hr _ hf) g1 ▸ hf)
        · exact hn hr
        · exact hn ((le_antisymm (q2 _ (Or.inr hl) _ hr) g2) ▸ hl)
        · exact hn ((le_antisymm (q3 _ (Or.inl (Or.inr hl)) _ hr) g2) ▸ hl)
      | 2, h =>
        refine ih h s2 ?_
        have hl := sub_ranks (F := c2) h (last_mem G)
        have hf := sub_ranks (F := c2) h (first_mem G)
        by_contra hn
        rcases hr with ((hr | hr) | hr) | hr
        · exact hn (le_antisymm (q2 _ (Or.inl hr) _ hf) g1 ▸ hf)
        · exact hn (le_antisymm (q2 _ (Or.inr hr) _ hf) g1 ▸ hf)
        · exact hn hr
        · exact hn ((le_antisymm (q3 _ (Or.inr hl) _ hr) g2) ▸ hl)
      | 3, h =>
        refine ih h s3 ?_
        have hf := sub_ranks (F := c3) h (first_mem G)
        by_contra hn
        rcases hr with ((hr | hr) | hr) | hr
        · exact hn (le_antisymm (q3 _ (Or.inl (Or.inl hr)) _ hf) g1 ▸ hf)
        · exact hn (le_antisymm (q3 _ (Or.inl (Or.inr hr)) _ hf) g1 ▸ hf)
        · exact hn (le_antisymm (q3 _ (Or.inr hr) _ hf) g1 ▸ hf)
        · exact hn hr

end Forest

variable {K T : Type} [Field K]

/-- The node the constructor stores at an address. -/
def nodeAt (p : Patch K) (a : Addr) (G : Forest) : Node (Patch K) :=
  ⟨if a = [] then p else Patch.fresh (gridAt p.grid a), a.text, a.length, G.first, G.last, G.isLeaf, some (G.first, G.last)⟩

theorem nodeAt_grid (p : Patch K) (a : Addr) (G : Forest) : (nodeAt p a G).data.grid = gridAt p.grid a := by
  unfold nodeAt
  split
  · rename_i h; subst h; rfl
  · rfl

theorem childGrid_eq (g : Grid K) (a : Addr) {i : Nat} (hi : i < 4) :
    FVFactory.childGrid (gridAt g a) i = .ok (gridAt g (a ++ [i])) := by
  unfold gridAt
  rw [Addr.rect_snoc]
  interval_cases i <;> rfl

/-- What a run over a subtree changes in the map. -/
structure Ext (p : Patch K) (r : Nat) (F : Forest) (a : Addr) (m m' : NodeMap (Patch K)) : Prop where
  here : ∀ b G, F.sub b = some G → G.Spans r → m' (Addr.text (a ++ b)) = some (some (nodeAt p (a ++ b) G))
  only : ∀ t n, m' t = some (some n) → m t = some (some n) ∨ ∃ b G, F.sub b = some G ∧ G.Spans r ∧ t = Addr.text (a ++ b)
  frame : ∀ t, (∀ b, Addr.Valid b → t ≠ Addr.text (a ++ b)) → m' t = m t

theorem Addr.text_ne_kids {a b b' : Addr} {i j : Nat} (ha : a.Valid) (hb : b.Valid) (hb' : b'.Valid) (hi : i < 4) (hj : j < 4)
    (h : i ≠ j) : Addr.text (a ++ (i :: b)) ≠ Addr.text ((a ++ [j]) ++ b') := by
  intro e
  have v1 : Addr.Valid (a ++ (i :: b)) := by
    intro k hk
    simp only [List.mem_append, List.mem_cons] at hk
    rcases hk with hk | rfl | hk
    · exact ha k hk
    · exact hi
    · exact hb k hk
  have v2 : Addr.Valid ((a ++ [j]) ++ b') := by
    intro k hk
    simp only [List.mem_append, List.mem_singleton] at hk
    rcases hk with (hk | rfl) | hk
    · exact ha k hk
    · exact hj
    · exact hb' k hk
  have := Addr.text_inj v1 v2 e
  simp at this
  exact h this.1

theorem Addr.text_ne_self {a b : Addr} {j : Nat} : Addr.text a ≠ Addr.text ((a ++ [j]) ++ b) := by
  intro e
  have := congrArg List.length e
  simp [Addr.text] at this

/-- Four subtrees in turn after the entry of the node itself. -/
theorem Ext.node {p : Patch K} {r : Nat} {c0 c1 c2 c3 : Forest} {a : Addr} (ha : a.Valid)
    {m m1 m2 m3 m4 : NodeMap (Patch K)} {X : Option (Node (Patch K))}
    (hX : X = if (Forest.node c0 c1 c2 c3).Spans r then some (nodeAt p a (.node c0 c1 c2 c3)) else none)
    (h0 : Ext p r c0 (a ++ [0]) (m.set a.text X) m1) (h1 : Ext p r c1 (a ++ [1]) m1 m2) (h2 : Ext p r c2 (a ++ [2]) m2 m3)
    (h3 : Ext p r c3 (a ++ [3]) m3 m4) : Ext p r (.node c0 c1 c2 c3) a m m4 := by
  have ne : ∀ {i j : Nat} {b : Addr}, i < 4 → j < 4 → b.Valid → i ≠ j → ∀ b', Addr.Valid b' →
      Addr.text (a ++ (i :: b)) ≠ Addr.text ((a ++ [j]) ++ b') := fun hi hj hb h b' hb' =>
    Addr.text_ne_kids ha hb hb' hi hj h
  have app : ∀ (i : Nat) (b : Addr), (a ++ [i]) ++ b = a ++ (i :: b) := fun i b => by simp
  constructor
  · intro b G hb hG
    cases b with
    | nil =>
      simp only [Forest.sub, Option.some.injEq] at hb
      subst hb
      rw [List.append_nil, h3.frame _ (fun b _ => Addr.text_ne_self), h2.frame _ (fun b _ => Addr.text_ne_self),
        h1.frame _ (fun b _ => Addr.text_ne_self), h0.frame _ (fun b _ => Addr.text_ne_self), hX, if_pos hG]
      simp [NodeMap.set]
    | cons i b =>
      match i, hb with
      | 0, hb =>
        have v := Forest.sub_valid (F := c0) hb
        rw [h3.frame _ (ne (by omega) (by omega) v (by omega)), h2.frame _ (ne (by omega) (by omega) v (by omega)),
          h1.frame _ (ne (by omega) (by omega) v (by omega))]
        have := h0.here b G hb hG
        rwa [app] at this
      | 1, hb =>
        have v := Forest.sub_valid (F := c1) hb
        rw [h3.frame _ (ne (by omega) (by omega) v (by omega)), h2.frame _ (ne (by omega) (by omega) v (by omega))]
        have := h1.here b G hb hG
        rwa [app] at this
      | 2, hb =>
        have v := Forest.sub_valid (F := c2) hb
        rw [h3.frame _ (ne (by omega) (by omega) v (by omega))]
        have := h2.here b G hb hG
        rwa [app] at this
      | 3, hb =>
        have := h3.here b G hb hG
        rwa [app] at this
  · intro t n ht
    rcases h3.only t n ht with ht | ⟨b, G, hb, hG, rfl⟩
    · rcases h2.only t n ht with ht | ⟨b, G, hb, hG, rfl⟩
      · rcases h1.only t n ht with ht | ⟨b, G, hb, hG, rfl⟩
        · rcases h0.only t n ht with ht | ⟨b, G, hb, hG, rfl⟩
          · unfold NodeMap.set at ht
            split at ht
            · rename_i e
              simp only [Option.some.injEq] at ht
              rw [hX] at ht
              split at ht
              · rename_i hs
                exact Or.inr ⟨[], _, rfl, hs, by rw [List.append_nil]; exact e⟩
              · simp at ht
            · exact Or.inl ht
          · exact Or.inr ⟨0 :: b, G, hb, hG, by rw [app]⟩
        · exact Or.inr ⟨1 :: b, G, hb, hG, by rw [app]⟩
      · exact Or.inr ⟨2 :: b, G, hb, hG, by rw [app]⟩
    · exact Or.inr ⟨3 :: b, G, hb, hG, by rw [app]⟩
  · intro t ht
    have val : ∀ {i : Nat}, i < 4 → ∀ b, Addr.Valid b → t ≠ Addr.text ((a ++ [i]) ++ b) := by
      intro i hi b hb
      rw [app]
      refine ht _ ?_
      intro k hk
      rcases List.mem_cons.mp hk with rfl | hk
      · exact hi
      · exact hb k hk
    rw [h3.frame t (val (by omega)), h2.frame t (val (by omega)), h1.frame t (val (by omega)), h0.frame t (val (by omega))]
    unfold NodeMap.set
    rw [if_neg]
    have := ht [] Addr.Valid.nil
    rwa [List.append_nil] at this

/-- What the constructor needs to know about the parent. -/
def HasParent (p : Patch K) (a : Addr) (m : NodeMap (Patch K)) : Prop :=
  ∀ a0 i, a = a0 ++ [i] → ∃ G, m a0.text = some (some (nodeAt p a0 G))

/-- One call of the callback. -/
theorem ctorVisit_eq {M r : Nat} {p : Patch K} {F : Forest} {a : Addr} (ha : a.Valid) (hl : a.length ≤ M)
    {m : NodeMap (Patch K)} (hp : F.Spans r → HasParent p a m) :
    ctorVisit M r p FVFactory.factory m ⟨a.quad M, F.first, F.last, F.isLeaf && decide (F.first = r)⟩
      = .ok (m.set a.text (if F.Spans r then some (nodeAt p a F) else none)) := by
  obtain ⟨g, l, hpath⟩ := Addr.quad_spec ha hl
  unfold ctorVisit
  simp only [hpath, l]
  by_cases hs : F.Spans r
  · rw [if_pos hs, if_pos (show F.first ≤ r ∧ r ≤ F.last from hs)]
    have hleaf : (F.isLeaf && decide (F.first = r)) = F.isLeaf := by
      cases F with
      | leaf k =>
        obtain ⟨h1, h2⟩ := hs
        simp only [Forest.first, Forest.last] at h1 h2
        have : k = r := by omega
        simp [Forest.first, Forest.isLeaf, this]
      | node => rfl
    rw [hleaf]
    rcases List.eq_nil_or_concat a with rfl | ⟨a0, i, rfl⟩
    · simp only [List.length_nil, if_pos]
      rfl
    · rw [List.concat_eq_append] at *
      obtain ⟨ha0, hi⟩ := ha.init
      obtain ⟨G, hG⟩ := hp hs a0 i rfl
      simp only [List.length_append, List.length_singleton] at hl
      have hid := Addr.quad_id (M := M) ha0 hi (by omega)
      rw [l] at hid
      rw [if_neg (by simp), Addr.text_dropLast, hid]
      simp only [NodeMap.get, hG]
      show (FVFactory.createChildNode (nodeAt p a0 G) i F.first F.last >>= _) = _
      unfold FVFactory.createChildNode
      rw [nodeAt_grid, childGrid_eq _ _ hi]
      simp only [Res.ok_bind, Res.pure_def]
      congr 3
      unfold nodeAt
      rw [if_neg (show ¬ (a0 ++ [i] = []) by simp), Addr.text_snoc a0 hi]
      simp
  · rw [if_neg hs, if_neg (show ¬ (F.first ≤ r ∧ r ≤ F.last) from hs)]
    rfl

theorem HasParent.mono {p : Patch K} {a : Addr} {i : Nat} {m : NodeMap (Patch K)} {G : Forest}
    (h : m a.text = some (some (nodeAt p a G))) : HasParent p (a ++ [i]) m := by
  intro a0 j e
  obtain ⟨rfl, _⟩ := List.append_inj' e rfl
  exact ⟨G, h⟩

/-- The run of the constructor over a subtree. -/
theorem ctor_sub {M r : Nat} {p : Patch K} (F : Forest) {a : Addr} (ha : a.Valid) (hl : a.length + F.depth ≤ M)
    (hs : F.Sorted) {m : NodeMap (Patch K)} (hp : F.Spans r → HasParent p a m) :
    ∃ m', (searchAll M r F (a.quad M)).foldlM (ctorVisit M r p FVFactory.factory) m = .ok m' ∧ Ext p r F a m m' := by
  induction F generalizing a m with
  | leaf k =>
    refine ⟨m.set a.text (if (Forest.leaf k).Spans r then some (nodeAt p a (.leaf k)) else none), ?_, ?_⟩
    · have := ctorVisit_eq (M := M) (r := r) (F := .leaf k) ha (by omega) hp
      simp only [searchAll, List.foldlM_cons, List.foldlM_nil]
      refine (congrArg (· >>= _) this).trans rfl
    · constructor
      · intro b G hb hG
        cases b with
        | nil =>
          simp only [Forest.sub, Option.some.injEq] at hb
          subst hb
          simp [NodeMap.set, hG]
        | cons i b => simp [Forest.sub] at hb
      · intro t n ht
        unfold NodeMap.set at ht
        split at ht
        · rename_i e
          simp only [Option.some.injEq] at ht
          split at ht
          · rename_i hh
            exact Or.inr ⟨[], _, rfl, hh, by rw [List.append_nil]; exact e⟩
          · simp at ht
        · exact Or.inl ht
      · intro t ht
        unfold NodeMap.set
        rw [if_neg]
        have := ht [] Addr.Valid.nil
        rwa [List.append_nil] at this
  | node c0 c1 c2 c3 i0 i1 i2 i3 =>
    obtain ⟨s0, s1, s2, s3⟩ := hs.kids
    have hv := ctorVisit_eq (M := M) (r := r) (F := .node c0 c1 c2 c3) ha (by omega) hp
    simp only [Forest.depth] at hl
    generalize hX : (if (Forest.node c0 c1 c2 c3).Spans r then some (nodeAt p a (.node c0 c1 c2 c3)) else none) = X at hv
    rw [searchAll, List.foldlM_cons]
    by_cases hd : c0.first = c3.last ∧ c0.first ≠ r
    · rw [if_pos hd]
      refine ⟨_, (congrArg (· >>= _) hv).trans rfl, ?_⟩
      have hns : ¬ (Forest.node c0 c1 c2 c3).Spans r := by
        intro h
        obtain ⟨h1, h2⟩ := h
        simp only [Forest.first, Forest.last] at h1 h2
        omega
      have hX' : X = none := by rw [← hX, if_neg hns]
      subst hX'
      constructor
      · intro b G hb hG
        exact absurd (Forest.sub_spans hb hs hG) hns
      · intro t n ht
        unfold NodeMap.set at ht
        split at ht
        · simp at ht
        · exact Or.inl ht
      · intro t ht
        unfold NodeMap.set
        rw [if_neg]
        have := ht [] Addr.Valid.nil
        rwa [List.append_nil] at this
    · rw [if_neg hd]
      have hkid : ∀ {i : Nat} {c : Forest} {m : NodeMap (Patch K)}, (Forest.node c0 c1 c2 c3).sub [i] = some c →
          m a.text = some X → c.Spans r → HasParent p (a ++ [i]) m := by
        intro i c m hc hm hsp
        have := Forest.sub_spans hc hs hsp
        rw [← hX, if_pos this] at hm
        exact HasParent.mono hm
      obtain ⟨m1, e1, x1⟩ := i0 (m := m.set a.text X) (a := a ++ [0]) (ha.snoc (by omega)) (by simp; omega) s0
        (hkid (by simp [Forest.sub]) (by simp [NodeMap.set]))
      have k1 : m1 a.text = some X := by rw [x1.frame _ (fun b _ => Addr.text_ne_self)]; simp [NodeMap.set]
      obtain ⟨m2, e2, x2⟩ := i1 (m := m1) (a := a ++ [1]) (ha.snoc (by omega)) (by simp; omega) s1 (hkid (by simp [Forest.sub]) k1)
      have k2 : m2 a.text = some X := by rw [x2.frame _ (fun b _ => Addr.text_ne_self), k1]
      obtain ⟨m3, e3, x3⟩ := i2 (m := m2) (a := a ++ [2]) (ha.snoc (by omega)) (by simp; omega) s2 (hkid (by simp [Forest.sub]) k2)
      have k3 : m3 a.text = some X := by rw [x3.frame _ (fun b _ => Addr.text_ne_self), k2]
      obtain ⟨m4, e4, x4⟩ := i3 (m := m3) (a := a ++ [3]) (ha.snoc (by omega)) (by simp; omega) s3 (hkid (by simp [Forest.sub]) k3)
      refine ⟨m4, ?_, Ext.node ha hX.symm x1 x2 x3 x4⟩
      refine (congrArg (· >>= _) hv).trans ?_
      rw [Res.ok_bind]
      simp only [List.foldlM_append, Addr.quad_snoc] at e1 e2 e3 e4 ⊢
      simp only [e1, e2, e3, e4, Res.ok_bind]

theorem construct_ok {M : Nat} (r : Nat) (p : Patch K) {F : Forest} (hM : F.depth ≤ M) (hs : F.Sorted) :
    ∃ m, construct M r p FVFactory.factory F = .ok m ∧ Ext p r F [] (fun _ => none) m :=
  ctor_sub F (a := []) Addr.Valid.nil (by simpa using hM) hs (fun _ a0 i h => absurd h (by simp))

end EF
