import Verif.Proofs.QuadTile
import Verif.Proofs.Mesh
import Verif.Spec.Refine

/-!
# Refinement and balancing
-/

namespace EF

variable {K : Type}

namespace Shape

theorem child_lt {S : Shape} {i : Nat} {c : Shape} (h : S.child i = some c) : i < 4 := by
  match S, i with
  | leaf, _ => simp [child] at h
  | node _ _ _ _, 0 => omega
  | node _ _ _ _, 1 => omega
  | node _ _ _ _, 2 => omega
  | node _ _ _ _, 3 => omega
  | node _ _ _ _, _ + 4 => simp [child] at h

theorem child_leaf (i : Nat) : leaf.child i = none := by cases i <;> rfl

theorem sub_append (S : Shape) (a b : Addr) : S.sub (a ++ b) = (S.sub a).bind fun X => X.sub b := by
  induction a generalizing S with
  | nil => rfl
  | cons i a ih =>
    rw [List.cons_append, sub, sub]
    cases S.child i with
    | none => rfl
    | some c => exact ih c

theorem sub_valid {S X : Shape} {a : Addr} (h : S.sub a = some X) : a.Valid := by
  induction a generalizing S with
  | nil => exact Addr.Valid.nil
  | cons i a ih =>
    rw [sub] at h
    cases hc : S.child i with
    | none => rw [hc] at h; cases h
    | some c =>
      rw [hc] at h
      intro k hk
      rcases List.mem_cons.mp hk with rfl | hk
      · exact child_lt hc
      · exact ih h k hk

theorem leaf_sub {a : Addr} {X : Shape} (h : leaf.sub a = some X) : a = [] := by
  cases a with
  | nil => rfl
  | cons i a => rw [sub, child_leaf] at h; cases h

theorem leaf_below (S : Shape) : ∃ a, S.IsLeaf a := by
  induction S with
  | leaf => exact ⟨[], rfl⟩
  | node c0 c1 c2 c3 h0 =>
    obtain ⟨a, ha⟩ := h0
    exact ⟨0 :: a, ha⟩

theorem leaf_under {S X : Shape} {a : Addr} (h : S.sub a = some X) : ∃ b, S.IsLeaf (a ++ b) := by
  obtain ⟨b, hb⟩ := leaf_below X
  exact ⟨b, by unfold IsLeaf; rw [sub_append, h]; exact hb⟩

theorem Fits.le {M : Nat} {S X : Shape} {a : Addr} (hS : S.Fits M) (h : S.sub a = some X) : a.length ≤ M := by
  obtain ⟨b, hb⟩ := leaf_under h
  have := hS _ hb
  rw [List.length_append] at this
  omega

/-- A node with a proper descendant is not a leaf. -/
theorem IsLeaf.no_child {S : Shape} {a : Addr} (h : S.IsLeaf a) {i : Nat} {b : Addr} : ¬ (S.sub (a ++ i :: b)).isSome := by
  rw [sub_append, h]
  simp [sub, child_leaf]

theorem sub_of_child {S : Shape} {a : Addr} (h : (S.sub a).isSome) (hn : ¬ S.IsLeaf a) {i : Nat} (hi : i < 4) :
    (S.sub (a ++ [i])).isSome := by
  rw [sub_append]
  cases hs : S.sub a with
  | none => rw [hs] at h; cases h
  | some X =>
    cases X with
    | leaf => exact absurd hs hn
    | node c0 c1 c2 c3 => interval_cases i <;> rfl

/-! ### Uniform trees -/

theorem uniform_sub {n : Nat} {a : Addr} (ha : a.Valid) (h : a.length ≤ n) : (uniform n).sub a = some (uniform (n - a.length)) := by
  induction a generalizing n with
  | nil => rfl
  | cons i a ih =>
    obtain ⟨n, rfl⟩ : ∃ k, n = k + 1 := ⟨n - 1, by simp at h; omega⟩
    have hi : i < 4 := ha i (by simp)
    have : (uniform (n + 1)).child i = some (uniform n) := by interval_cases i <;> rfl
    rw [sub, this]
    simp only [List.length_cons] at h ⊢
    rw [Nat.add_sub_add_right]
    exact ih (fun k hk => ha k (by simp [hk])) (by omega)

theorem uniform_leaf {n : Nat} {a : Addr} (h : (uniform n).IsLeaf a) : a.length = n := by
  unfold IsLeaf at h
  have hv := sub_valid h
  by_cases hl : a.length ≤ n
  · rw [uniform_sub hv hl, Option.some.injEq] at h
    cases hk : n - a.length with
    | zero => omega
    | succ k => rw [hk] at h; cases h
  · exfalso
    have h1 : (uniform n).sub (a.take n) = some (uniform (n - (a.take n).length)) :=
      uniform_sub (fun k hk => hv k (List.mem_of_mem_take hk)) (by simp)
    have h2 : (a.take n).length = n := by simp; omega
    rw [h2, Nat.sub_self] at h1
    have h3 : (uniform n).IsLeaf (a.take n) := h1
    obtain ⟨i, b, hb⟩ : ∃ i b, a.drop n = i :: b := by
      cases hd : a.drop n with
      | nil =>
        have := congrArg List.length hd
        rw [List.length_drop] at this
        simp at this
        omega
      | cons i b => exact ⟨i, b, rfl⟩
    have h4 := h3.no_child (i := i) (b := b)
    rw [← hb, List.take_append_drop, h] at h4
    exact h4 rfl

theorem uniform_fits {n M : Nat} (h : n ≤ M) : (uniform n).Fits M := fun _ ha => (uniform_leaf ha).le.trans h

theorem uniform_balanced (n M : Nat) : (uniform n).Balanced M := fun a b ha hb _ => by
  rw [uniform_leaf ha, uniform_leaf hb]
  omega

theorem uniform_refines {S : Shape} {n : Nat} (h : S.Fits n) : (uniform n).Refines S := by
  intro a ha
  obtain ⟨X, hX⟩ := Option.isSome_iff_exists.mp ha
  rw [uniform_sub (sub_valid hX) (h.le hX)]
  rfl

theorem fits_of_uniform {S : Shape} {n : Nat} (h : (uniform n).Refines S) : S.Fits n := by
  intro a ha
  have h1 := h a (by rw [show S.sub a = some leaf from ha]; rfl)
  obtain ⟨X, hX⟩ := Option.isSome_iff_exists.mp h1
  exact (uniform_fits (le_refl n)).le hX

/-! ### Refinement -/

/-- Leaves of a refined leaf. -/
theorem grow_leaf {M : Nat} {want : Quadrant → Bool} {n : Nat} {q : Quadrant} {a : Addr}
    (h : (grow M want n q).IsLeaf a) :
    (a.length < n → want (a.foldl (Quadrant.child M) q) = false) ∧
      ∀ b c, a = b ++ c → c ≠ [] → want (b.foldl (Quadrant.child M) q) = true := by
  induction n generalizing q a with
  | zero =>
    have := leaf_sub h
    subst this
    refine ⟨fun h => absurd h (Nat.not_lt_zero _), fun b c hbc hc => ?_⟩
    simp at hbc
    exact absurd hbc.2 hc
  | succ n ih =>
    unfold grow at h
    by_cases hw : want q = true
    · rw [if_pos hw] at h
      cases a with
      | nil => simp [IsLeaf, sub] at h
      | cons i a =>
        have hi : i < 4 := sub_valid h i (by simp)
        have hc : (grow M want n (q.child M i)).IsLeaf a := by
          unfold IsLeaf sub at h
          interval_cases i <;> exact h
        obtain ⟨h1, h2⟩ := ih hc
        refine ⟨fun hl => h1 (by simp at hl; omega), ?_⟩
        intro b c hbc hne
        cases b with
        | nil => exact hw
        | cons j b =>
          simp only [List.cons_append, List.cons.injEq] at hbc
          obtain ⟨rfl, rfl⟩ := hbc
          exact h2 b c rfl hne
    · rw [if_neg hw] at h
      have := leaf_sub h
      subst this
      refine ⟨fun _ => by simpa using hw, fun b c hbc hc => ?_⟩
      simp at hbc
      exact absurd hbc.2 hc

/-- Leaves of a refined uniform tree. -/
theorem refine_leaf {M : Nat} {want : Quadrant → Bool} {n : Nat} {q : Quadrant} {a : Addr}
    (h : ((uniform n).refine M want q).IsLeaf a) :
    n ≤ a.length ∧ (q.level + a.length < M - 1 → want (a.foldl (Quadrant.child M) q) = false) ∧
      ∀ b c, a = b ++ c → c ≠ [] → n ≤ b.length → want (b.foldl (Quadrant.child M) q) = true := by
  induction n generalizing q a with
  | zero =>
    obtain ⟨h1, h2⟩ := grow_leaf h
    exact ⟨Nat.zero_le _, fun hl => h1 (by omega), fun b c hbc hne _ => h2 b c hbc hne⟩
  | succ n ih =>
    cases a with
    | nil => simp [IsLeaf, sub, uniform, refine] at h
    | cons i a =>
      have hi : i < 4 := sub_valid h i (by simp)
      have hc : ((uniform n).refine M want (q.child M i)).IsLeaf a := by
        unfold IsLeaf sub at h
        interval_cases i <;> exact h
      obtain ⟨h0, h1, h2⟩ := ih hc
      refine ⟨by simpa using h0, fun hl => h1 ?_, ?_⟩
      · show q.level + 1 + a.length < M - 1
        simp only [List.length_cons] at hl
        omega
      · intro b c hbc hne hb
        cases b with
        | nil => simp at hb
        | cons j b =>
          simp only [List.cons_append, List.cons.injEq] at hbc
          obtain ⟨rfl, rfl⟩ := hbc
          exact h2 b c rfl hne (by simpa using hb)

theorem refine_refines (M : Nat) (want : Quadrant → Bool) (S : Shape) (q : Quadrant) : (S.refine M want q).Refines S := by
  induction S generalizing q with
  | leaf =>
    intro a ha
    obtain ⟨X, hX⟩ := Option.isSome_iff_exists.mp ha
    rw [leaf_sub hX]
    rfl
  | node c0 c1 c2 c3 h0 h1 h2 h3 =>
    intro a ha
    cases a with
    | nil => rfl
    | cons i a =>
      obtain ⟨X, hX⟩ := Option.isSome_iff_exists.mp ha
      have hi : i < 4 := sub_valid hX i (by simp)
      unfold refine sub
      unfold sub at ha
      interval_cases i
      · exact h0 _ a ha
      · exact h1 _ a ha
      · exact h2 _ a ha
      · exact h3 _ a ha

/-! ### Balancing -/

theorem touch_symm {M : Nat} {q q' : Quadrant} (h : q.Touch M q') : q'.Touch M q := ⟨h.2.1, h.1, h.2.2.2, h.2.2.1⟩

/-- A child of a touching quadrant touches. -/
theorem touch_child {M : Nat} {q q' : Quadrant} (hl : q'.level < M) (h : q.Touch M q') :
    ∃ i < 4, q.Touch M (q'.child M i) := by
  obtain ⟨h1, h2, h3, h4⟩ := h
  have e := Quadrant.pow_split hl
  have hx : ∃ i < 2, q.x ≤ q'.x + i * 2 ^ (M - (q'.level + 1)) + 2 ^ (M - (q'.level + 1)) ∧
      q'.x + i * 2 ^ (M - (q'.level + 1)) ≤ q.x + 2 ^ (M - q.level) := by
    generalize 2 ^ (M - q.level) = A at h2 h4 ⊢
    by_cases hc : q.x ≤ q'.x + 2 ^ (M - (q'.level + 1))
    · exact ⟨0, by omega, by omega, by omega⟩
    · exact ⟨1, by omega, by omega, by omega⟩
  have hy : ∃ i < 2, q.y ≤ q'.y + i * 2 ^ (M - (q'.level + 1)) + 2 ^ (M - (q'.level + 1)) ∧
      q'.y + i * 2 ^ (M - (q'.level + 1)) ≤ q.y + 2 ^ (M - q.level) := by
    generalize 2 ^ (M - q.level) = A at h2 h4 ⊢
    by_cases hc : q.y ≤ q'.y + 2 ^ (M - (q'.level + 1))
    · exact ⟨0, by omega, by omega, by omega⟩
    · exact ⟨1, by omega, by omega, by omega⟩
  obtain ⟨i, hi, hx1, hx2⟩ := hx
  obtain ⟨j, hj, hy1, hy2⟩ := hy
  refine ⟨2 * j + i, by omega, ?_⟩
  have m1 : (2 * j + i) % 2 = i := by omega
  have m2 : (2 * j + i) / 2 = j := by omega
  unfold Quadrant.Touch Quadrant.child
  dsimp only
  rw [m1, m2]
  exact ⟨hx1, hx2, hy1, hy2⟩

/-- Below a touching node there is a touching leaf. -/
theorem touch_leaf {M : Nat} {S : Shape} (hS : S.Fits M) {q : Quadrant} {b : Addr} (X : Shape) (hb : S.sub b = some X)
    (h : q.Touch M (b.quad M)) : ∃ c, S.IsLeaf (b ++ c) ∧ q.Touch M (Addr.quad M (b ++ c)) := by
  induction X generalizing b with
  | leaf => exact ⟨[], by rw [List.append_nil]; exact hb, by rw [List.append_nil]; exact h⟩
  | node c0 c1 c2 c3 h0 h1 h2 h3 =>
    have hkid : ∀ i < 4, ∃ c, (node c0 c1 c2 c3).child i = some c := by
      intro i hi
      interval_cases i <;> exact ⟨_, rfl⟩
    have hle : b.length < M := by
      have : S.sub (b ++ [0]) = some c0 := by rw [sub_append, hb]; rfl
      have := hS.le this
      simp at this
      omega
    have hlev : (b.quad M).level = b.length := (Addr.quad_spec (sub_valid hb) hle.le).2.1
    obtain ⟨i, hi, ht⟩ := touch_child (by rw [hlev]; exact hle) h
    rw [← Addr.quad_snoc] at ht
    have key : ∀ c, (node c0 c1 c2 c3).child i = some c → S.sub (b ++ [i]) = some c := by
      intro c hc
      rw [sub_append, hb]
      show (node c0 c1 c2 c3).sub [i] = _
      rw [sub, hc]
      rfl
    have fin : ∀ c', S.IsLeaf (b ++ [i] ++ c') ∧ q.Touch M (Addr.quad M (b ++ [i] ++ c')) →
        ∃ c, S.IsLeaf (b ++ c) ∧ q.Touch M (Addr.quad M (b ++ c)) := by
      intro c' hc'
      refine ⟨i :: c', ?_⟩
      simpa using hc'
    interval_cases i
    · obtain ⟨c', hc'⟩ := h0 (key _ rfl) ht; exact fin c' hc'
    · obtain ⟨c', hc'⟩ := h1 (key _ rfl) ht; exact fin c' hc'
    · obtain ⟨c', hc'⟩ := h2 (key _ rfl) ht; exact fin c' hc'
    · obtain ⟨c', hc'⟩ := h3 (key _ rfl) ht; exact fin c' hc'

/-- In a balanced tree no node lies two levels below a touching leaf. -/
theorem Balanced.node {M : Nat} {S : Shape} (hS : S.Fits M) (h : S.Balanced M) {a b : Addr} (ha : S.IsLeaf a)
    (hb : (S.sub b).isSome) (ht : (Addr.quad M a).Touch M (Addr.quad M b)) : b.length ≤ a.length + 1 := by
  obtain ⟨X, hX⟩ := Option.isSome_iff_exists.mp hb
  obtain ⟨c, hc, htc⟩ := touch_leaf hS X hX ht
  have := h a _ ha hc htc
  rw [List.length_append] at this
  omega

/-- The common part of two trees. -/
def meet : Shape → Shape → Shape
  | node a0 a1 a2 a3, node b0 b1 b2 b3 => node (a0.meet b0) (a1.meet b1) (a2.meet b2) (a3.meet b3)
  | _, _ => leaf

theorem meet_leaf (S : Shape) : S.meet leaf = leaf := by cases S <;> rfl

theorem meet_sub (S T : Shape) (a : Addr) : ((S.meet T).sub a).isSome ↔ (S.sub a).isSome ∧ (T.sub a).isSome := by
  induction a generalizing S T with
  | nil => simp [sub]
  | cons i a ih =>
    match S, T with
    | leaf, T => simp [meet, sub, child_leaf]
    | S, leaf => simp [meet_leaf, sub, child_leaf]
    | node a0 a1 a2 a3, node b0 b1 b2 b3 =>
      match i with
      | 0 => exact ih a0 b0
      | 1 => exact ih a1 b1
      | 2 => exact ih a2 b2
      | 3 => exact ih a3 b3
      | k + 4 => simp [meet, sub, child]

theorem isLeaf_iff {S : Shape} {a : Addr} : S.IsLeaf a ↔ (S.sub a).isSome ∧ ¬ (S.sub (a ++ [0])).isSome := by
  constructor
  · intro h
    exact ⟨by rw [show S.sub a = some leaf from h]; rfl, h.no_child⟩
  · rintro ⟨h1, h2⟩
    by_contra hc
    exact h2 (sub_of_child h1 hc (by omega))

theorem meet_isLeaf {S T : Shape} {a : Addr} (h : (S.meet T).IsLeaf a) : S.IsLeaf a ∨ T.IsLeaf a := by
  rw [isLeaf_iff, meet_sub, meet_sub] at h
  rw [isLeaf_iff, isLeaf_iff]
  tauto

theorem meet_fits {M : Nat} {S T : Shape} (hS : S.Fits M) (hT : T.Fits M) : (S.meet T).Fits M := by
  intro a ha
  rcases meet_isLeaf ha with h | h
  · exact hS a h
  · exact hT a h

theorem meet_balanced {M : Nat} {S T : Shape} (hS : S.Fits M) (hT : T.Fits M) (bS : S.Balanced M) (bT : T.Balanced M) :
    (S.meet T).Balanced M := by
  intro a b ha hb ht
  have hb' := (meet_sub S T b).mp (by rw [show (S.meet T).sub b = some leaf from hb]; rfl)
  rcases meet_isLeaf ha with h | h
  · exact bS.node hS h hb'.1 ht
  · exact bT.node hT h hb'.2 ht

/-- Number of nodes. -/
def size : Shape → Nat
  | leaf => 1
  | node c0 c1 c2 c3 => c0.size + c1.size + c2.size + c3.size + 1

theorem meet_size_le (S T : Shape) : (S.meet T).size ≤ S.size := by
  induction S generalizing T with
  | leaf => simp [meet]
  | node a0 a1 a2 a3 h0 h1 h2 h3 =>
    cases T with
    | leaf => simp [meet, size]
    | node b0 b1 b2 b3 =>
      simp only [meet, size]
      have := h0 b0; have := h1 b1; have := h2 b2; have := h3 b3
      omega

theorem size_pos (S : Shape) : 0 < S.size := by cases S <;> simp [size]

theorem meet_eq {S T : Shape} (h : S.size ≤ (S.meet T).size) : S.meet T = S := by
  induction S generalizing T with
  | leaf => simp [meet]
  | node a0 a1 a2 a3 h0 h1 h2 h3 =>
    cases T with
    | leaf =>
      simp only [meet, size] at h
      have := a0.size_pos
      omega
    | node b0 b1 b2 b3 =>
      simp only [meet, size] at h ⊢
      have l0 := meet_size_le a0 b0
      have l1 := meet_size_le a1 b1
      have l2 := meet_size_le a2 b2
      have l3 := meet_size_le a3 b3
      rw [h0 (by omega), h1 (by omega), h2 (by omega), h3 (by omega)]

/-- The contract of balancing can be met. -/
theorem balance_exists {M : Nat} {S : Shape} (hS : S.Fits M) : ∃ T, S.BalanceOf M T := by
  classical
  let P : Nat → Prop := fun n => ∃ T : Shape, T.size = n ∧ T.Fits M ∧ T.Refines S ∧ T.Balanced M
  have hP : ∃ n, P n := ⟨_, uniform M, rfl, uniform_fits (le_refl M), uniform_refines hS, uniform_balanced M M⟩
  obtain ⟨T, h1, h2, h3, h4⟩ := Nat.find_spec hP
  refine ⟨T, h2, h3, h4, fun T' f r b => ?_⟩
  have hm : T.size ≤ (T.meet T').size := by
    rw [h1]
    exact Nat.find_min' hP ⟨T.meet T', rfl, meet_fits h2 f, fun a ha => (meet_sub _ _ _).mpr ⟨h3 a ha, r a ha⟩,
      meet_balanced h2 f h4 b⟩
  intro a ha
  rw [← meet_eq hm] at ha
  exact ((meet_sub _ _ _).mp ha).2

/-- Addresses of the leaves. -/
def leaves : Shape → List Addr
  | leaf => [[]]
  | node c0 c1 c2 c3 => c0.leaves.map (List.cons 0) ++ c1.leaves.map (List.cons 1) ++ c2.leaves.map (List.cons 2) ++
      c3.leaves.map (List.cons 3)

theorem mem_leaves {S : Shape} {a : Addr} (h : S.IsLeaf a) : a ∈ S.leaves := by
  induction S generalizing a with
  | leaf => rw [leaf_sub h]; simp [leaves]
  | node c0 c1 c2 c3 h0 h1 h2 h3 =>
    cases a with
    | nil => simp [IsLeaf, sub] at h
    | cons i a =>
      have hi : i < 4 := sub_valid h i (by simp)
      unfold IsLeaf sub at h
      simp only [leaves, List.mem_append]
      interval_cases i
      · exact .inl (.inl (.inl (List.mem_map_of_mem (h0 h))))
      · exact .inl (.inl (.inr (List.mem_map_of_mem (h1 h))))
      · exact .inl (.inr (List.mem_map_of_mem (h2 h)))
      · exact .inr (List.mem_map_of_mem (h3 h))

theorem refines_of_meet {S T : Shape} (h : S.meet T = S) : T.Refines S := by
  intro a ha
  rw [← h] at ha
  exact ((meet_sub _ _ _).mp ha).2

end Shape

/-! ### Geometry of the callback -/

section geometry
variable [Field K] [NeZero (2 : K)]

theorem lattice_half {M l : Nat} (h : l < M) : (2 : K) ^ (M - (l + 1)) / 2 ^ M = (2 ^ (M - l) / 2 ^ M) / 2 := by
  have h2 : (2 : K) ≠ 0 := NeZero.ne _
  have : (2 : K) ^ (M - l) = 2 * 2 ^ (M - (l + 1)) := by rw [← pow_succ']; congr 1; omega
  rw [this]
  field_simp

/-- The rectangle of an address is the square of its quadrant mapped to the domain. -/
theorem rect_of_quad {M : Nat} (R : Rect K) {a : Addr} (ha : a.Valid) (hl : a.length ≤ M) :
    (a.rect R).xl = R.xl + ((a.quad M).x : K) / 2 ^ M * (R.xu - R.xl) ∧
    (a.rect R).xu - (a.rect R).xl = 2 ^ (M - a.length) / 2 ^ M * (R.xu - R.xl) ∧
    (a.rect R).yl = R.yl + ((a.quad M).y : K) / 2 ^ M * (R.yu - R.yl) ∧
    (a.rect R).yu - (a.rect R).yl = 2 ^ (M - a.length) / 2 ^ M * (R.yu - R.yl) := by
  have h2 : (2 : K) ≠ 0 := NeZero.ne _
  have hp : (2 : K) ^ M ≠ 0 := pow_ne_zero _ h2
  induction a using List.reverseRecOn with
  | nil => simp [Addr.rect, Addr.quad, Quadrant.root, hp]
  | append_singleton a i ih =>
    obtain ⟨va, hi⟩ := ha.init
    simp only [List.length_append, List.length_singleton] at hl ⊢
    obtain ⟨e1, e2, e3, e4⟩ := ih va (by omega)
    have hlev : (Addr.quad M a).level = a.length := (Addr.quad_spec va (by omega)).2.1
    have hw := lattice_half (K := K) (show a.length < M by omega)
    have e5 : (Addr.rect R a).xu = (Addr.rect R a).xl + 2 ^ (M - a.length) / 2 ^ M * (R.xu - R.xl) := by rw [← e2]; ring
    have e6 : (Addr.rect R a).yu = (Addr.rect R a).yl + 2 ^ (M - a.length) / 2 ^ M * (R.yu - R.yl) := by rw [← e4]; ring
    rw [Addr.rect_snoc, Addr.quad_snoc]
    unfold Rect.quarter Quadrant.child
    dsimp only
    rw [hlev, e5, e6, e1, e3]
    push_cast
    simp only [add_div, mul_div_assoc, hw]
    generalize ((Addr.quad M a).x : K) / 2 ^ M = u
    generalize ((Addr.quad M a).y : K) / 2 ^ M = v
    generalize (2 : K) ^ (M - a.length) / 2 ^ M = w
    refine ⟨?_, ?_, ?_, ?_⟩ <;> interval_cases i <;> norm_num <;> (try field_simp) <;> (try ring)

theorem qcoord_square (M : Nat) (xl xu yl yu : K) (x y : Nat) :
    qcoordToVertex M (squareDomain xl xu yl yu) x y
      = (xl + (x : K) / 2 ^ M * (xu - xl), yl + (y : K) / 2 ^ M * (yu - yl)) := by
  unfold qcoordToVertex squareDomain
  refine Prod.ext ?_ ?_ <;> (dsimp only; ring)

/-- The callback says whether a cell centre of the leaf that the quadrant would become is true. -/
theorem callback_iff {M : Nat} {fn : K → K → Bool} {maxLevel : Nat} {g : Grid K} {a : Addr} (ha : a.Valid) (hl : a.length ≤ M) :
    refineCallback M fn maxLevel g (a.quad M) = true ↔
      a.length < maxLevel ∧ ∃ i < g.nx, ∃ j < g.ny, fn ((gridAt g a).x i) ((gridAt g a).y j) = true := by
  have h2 : (2 : K) ≠ 0 := NeZero.ne _
  have hlev : (a.quad M).level = a.length := (Addr.quad_spec ha hl).2.1
  obtain ⟨e1, e2, e3, e4⟩ := rect_of_quad (M := M) ⟨g.xl, g.xu, g.yl, g.yu⟩ ha hl
  unfold refineCallback
  rw [hlev]
  by_cases hm : a.length ≥ maxLevel
  · rw [if_pos hm]
    simp
    omega
  · rw [if_neg hm]
    dsimp only
    rw [qcoord_square, qcoord_square]
    push_cast
    dsimp only at e1 e2 e3 e4 ⊢
    have hx : ∀ i : Nat, g.xl + ((a.quad M).x : K) / 2 ^ M * (g.xu - g.xl) + ((i : K) + 1 / 2) *
        ((g.xl + (((a.quad M).x : K) + 2 ^ (M - a.length)) / 2 ^ M * (g.xu - g.xl) -
          (g.xl + ((a.quad M).x : K) / 2 ^ M * (g.xu - g.xl))) / g.nx) = (gridAt g a).x i := by
      intro i
      unfold Grid.x Grid.dx gridAt
      dsimp only
      rw [e2, e1]
      ring
    have hy : ∀ j : Nat, g.yl + ((a.quad M).y : K) / 2 ^ M * (g.yu - g.yl) + ((j : K) + 1 / 2) *
        ((g.yl + (((a.quad M).y : K) + 2 ^ (M - a.length)) / 2 ^ M * (g.yu - g.yl) -
          (g.yl + ((a.quad M).y : K) / 2 ^ M * (g.yu - g.yl))) / g.ny) = (gridAt g a).y j := by
      intro j
      unfold Grid.y Grid.dy gridAt
      dsimp only
      rw [e4, e3]
      ring
    simp only [hx, hy, List.any_eq_true, List.mem_range]
    constructor
    · rintro ⟨i, hi, j, hj, h⟩
      exact ⟨by omega, i, hi, j, hj, h⟩
    · rintro ⟨-, i, hi, j, hj, h⟩
      exact ⟨i, hi, j, hj, h⟩

end geometry

/-! ### Forests -/

theorem Forest.shape_leaf {F : Forest} {a : Addr} : F.shape.IsLeaf a ↔ ∃ k, F.sub a = some (.leaf k) := by
  induction a generalizing F with
  | nil =>
    cases F with
    | leaf k => simp [Forest.shape, Shape.IsLeaf, Shape.sub, Forest.sub]
    | node => simp [Forest.shape, Shape.IsLeaf, Shape.sub, Forest.sub]
  | cons i a ih =>
    cases F with
    | leaf k => simp [Forest.shape, Shape.IsLeaf, Shape.sub, Forest.sub, Shape.child_leaf]
    | node c0 c1 c2 c3 =>
      match i with
      | 0 => exact ih (F := c0)
      | 1 => exact ih (F := c1)
      | 2 => exact ih (F := c2)
      | 3 => exact ih (F := c3)
      | k + 4 => simp [Forest.shape, Shape.IsLeaf, Shape.sub, Forest.sub, Shape.child]

theorem Forest.shape_fits {F : Forest} {M : Nat} (h : F.shape.Fits M) : F.depth ≤ M := by
  induction F generalizing M with
  | leaf => exact Nat.zero_le _
  | node c0 c1 c2 c3 h0 h1 h2 h3 =>
    have kid : ∀ (i : Nat) (c : Forest), (Forest.node c0 c1 c2 c3).shape.child i = some c.shape → c.shape.Fits (M - 1) ∧ 1 ≤ M := by
      intro i c hc
      have key : ∀ a, c.shape.IsLeaf a → a.length + 1 ≤ M := by
        intro a ha
        have := h (i :: a) (by unfold Shape.IsLeaf Shape.sub; rw [hc]; exact ha)
        simpa using this
      obtain ⟨a, ha⟩ := Shape.leaf_below c.shape
      have := key a ha
      exact ⟨fun a ha => by have := key a ha; omega, by omega⟩
    have k0 := kid 0 c0 rfl
    have := h0 k0.1
    have := h1 (kid 1 c1 rfl).1
    have := h2 (kid 2 c2 rfl).1
    have := h3 (kid 3 c3 rfl).1
    simp only [Forest.depth]
    omega

theorem Rep.start [Field K] {r : Nat} {F : Forest} {p : Patch K} {a : Addr} {m : NodeMap (Patch K)}
    (h : Rep r F (startTree p F a) a m) {b : Addr} {G : Forest} (hb : F.sub b = some G) :
    Entry r G (startData p (a ++ b)) (a ++ b) m := by
  induction b generalizing F a with
  | nil =>
    simp only [Forest.sub, Option.some.injEq] at hb
    subst hb
    rw [List.append_nil]
    have := h.entry
    cases F <;> exact this
  | cons i b ih =>
    cases F with
    | leaf => simp [Forest.sub] at hb
    | node c0 c1 c2 c3 =>
      obtain ⟨-, r0, r1, r2, r3⟩ := h
      rw [show a ++ i :: b = (a ++ [i]) ++ b by simp]
      match i with
      | 0 => exact ih r0 hb
      | 1 => exact ih r1 hb
      | 2 => exact ih r2 hb
      | 3 => exact ih r3 hb
      | k + 4 => simp [Forest.sub] at hb

end EF
