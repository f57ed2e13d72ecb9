import Verif.Spec.Quadtree
import Mathlib.Data.Nat.Bitwise
import Mathlib.Tactic

/-!
# Paths of quadrants
-/

namespace EF

namespace Quadrant

theorem onGrid_root (M : Nat) : (root).OnGrid M :=
  ⟨Nat.zero_le _, dvd_zero _, dvd_zero _, by simp [root], by simp [root]⟩

theorem pow_split {M l : Nat} (h : l < M) : 2 ^ (M - l) = 2 * 2 ^ (M - (l + 1)) := by
  rw [← pow_succ']; congr 1; omega

/-- Coordinates of a child. -/
theorem coord_child {M l x b : Nat} (h : l < M) (dx : 2 ^ (M - l) ∣ x) (lx : x < 2 ^ M) (hb : b < 2) :
    2 ^ (M - (l + 1)) ∣ x + b * 2 ^ (M - (l + 1)) ∧ x + b * 2 ^ (M - (l + 1)) < 2 ^ M := by
  obtain ⟨k, rfl⟩ := dx
  constructor
  · exact Dvd.dvd.add (Dvd.dvd.mul_right (pow_dvd_pow 2 (by omega)) k) (Dvd.intro_left _ rfl)
  · have hM : 2 ^ M = 2 ^ (M - l) * 2 ^ l := by rw [← pow_add]; congr 1; omega
    rw [hM] at lx ⊢
    have hk : k < 2 ^ l := Nat.lt_of_mul_lt_mul_left lx
    calc 2 ^ (M - l) * k + b * 2 ^ (M - (l + 1)) < 2 ^ (M - l) * k + 2 ^ (M - l) := by
          rw [pow_split h]
          have : 0 < 2 ^ (M - (l + 1)) := by positivity
          nlinarith
      _ = 2 ^ (M - l) * (k + 1) := by ring
      _ ≤ _ := Nat.mul_le_mul_left _ hk

theorem OnGrid.child {M : Nat} {q : Quadrant} (h : q.OnGrid M) (hl : q.level < M) {i : Nat} (hi : i < 4) :
    (q.child M i).OnGrid M := by
  obtain ⟨a, b⟩ := coord_child hl h.dx h.lx (b := i % 2) (by omega)
  obtain ⟨c, d⟩ := coord_child hl h.dy h.ly (b := i / 2) (by omega)
  exact ⟨hl, a, c, b, d⟩

theorem testBit_child {M l x b j : Nat} (h : l < M) (dx : 2 ^ (M - l) ∣ x) (hb : b < 2) (hj : j ≤ l) :
    (x + b * 2 ^ (M - (l + 1))).testBit (M - (j + 1)) = if j = l then decide (b = 1) else x.testBit (M - (j + 1)) := by
  obtain ⟨k, rfl⟩ := dx
  have hlt : b * 2 ^ (M - (l + 1)) < 2 ^ (M - l) := by
    rw [pow_split h]
    have : 0 < 2 ^ (M - (l + 1)) := by positivity
    nlinarith
  rw [Nat.testBit_two_pow_mul_add _ hlt]
  split
  · rename_i h1
    have : j = l := by omega
    subst this
    rw [if_pos rfl]
    have hb' : b = 0 ∨ b = 1 := by omega
    rcases hb' with rfl | rfl
    · simp
    · simp [Nat.testBit_two_pow_self]
  · rename_i h1
    have : j ≠ l := by omega
    rw [if_neg this]
    rw [show 2 ^ (M - l) * k = 2 ^ (M - l) * k + 0 from rfl, Nat.testBit_two_pow_mul_add _ (by positivity), if_neg h1]

/-- The number of an ancestor of a child. -/
theorem ancestorId_child {M : Nat} {q : Quadrant} (h : q.OnGrid M) (hl : q.level < M) {i : Nat} (hi : i < 4) {j : Nat}
    (hj : j ≤ q.level) :
    (q.child M i).ancestorId M (j + 1) = if j = q.level then i else q.ancestorId M (j + 1) := by
  unfold ancestorId Quadrant.child
  rw [testBit_child hl h.dx (by omega) hj, testBit_child hl h.dy (by omega) hj]
  split
  · interval_cases i <;> rfl
  · rfl

theorem ancestorId_lt (M : Nat) (q : Quadrant) (l : Nat) : q.ancestorId M l < 4 := by
  unfold ancestorId
  split <;> split <;> omega

theorem natText_small {i : Nat} (h : i < 4) : natText i = [Nat.digitChar i] := by
  interval_cases i <;> rfl

theorem foldl_append {α : Type} (f : Nat → List α) (n : Nat) (s : List α) :
    (List.range n).foldl (fun s k => s ++ f k) s = s ++ (List.range n).flatMap f := by
  induction n generalizing s with
  | zero => simp
  | succ n ih => rw [List.range_succ, List.foldl_append, ih]; simp

/-- The path read from the root. -/
theorem path_eq (M : Nat) (q : Quadrant) :
    q.path M = '0' :: (List.range q.level).map (fun j => Nat.digitChar (q.ancestorId M (j + 1))) := by
  unfold path
  rw [foldl_append, List.nil_append]
  congr 1
  have : (List.range q.level).flatMap (fun k => natText (q.ancestorId M (q.level - k)))
      = (List.range q.level).map (fun k => Nat.digitChar (q.ancestorId M (q.level - k))) := by
    rw [List.map_eq_flatMap]
    congr 1; funext k
    exact natText_small (ancestorId_lt M q _)
  rw [this]
  apply List.ext_getElem
  · simp
  · intro n h1 h2
    simp only [List.length_reverse, List.length_map, List.length_range] at h1
    simp only [List.getElem_reverse, List.getElem_map, List.getElem_range, List.length_map, List.length_range]
    congr 2
    omega

@[simp] theorem path_root (M : Nat) : root.path M = ['0'] := rfl

theorem path_child {M : Nat} {q : Quadrant} (h : q.OnGrid M) (hl : q.level < M) {i : Nat} (hi : i < 4) :
    (q.child M i).path M = q.path M ++ natText i := by
  rw [path_eq, path_eq, natText_small hi]
  have hl' : (q.child M i).level = q.level + 1 := rfl
  rw [hl', List.range_succ, List.map_append, List.cons_append]
  congr 1
  congr 1
  · apply List.map_congr_left
    intro j hj
    have hj := List.mem_range.mp hj
    rw [ancestorId_child h hl hi (by omega), if_neg (by omega)]
  · simp only [List.map_cons, List.map_nil]
    rw [ancestorId_child h hl hi (le_refl _), if_pos rfl]

theorem path_length (M : Nat) (q : Quadrant) : (q.path M).length = q.level + 1 := by
  rw [path_eq]; simp

end Quadrant

namespace Addr

open Quadrant

theorem Valid.init {a : Addr} {i : Nat} (h : Addr.Valid (a ++ [i])) : a.Valid ∧ i < 4 :=
  ⟨fun j hj => h j (by simp [hj]), h i (by simp)⟩

theorem Valid.snoc {a : Addr} {i : Nat} (h : a.Valid) (hi : i < 4) : Addr.Valid (a ++ [i]) := by
  intro j hj
  rcases List.mem_append.mp hj with h1 | h1
  · exact h j h1
  · rw [List.mem_singleton.mp h1]; exact hi

theorem Valid.nil : Addr.Valid [] := fun _ h => absurd h (by simp)

theorem quad_snoc (M : Nat) (a : Addr) (i : Nat) : Addr.quad M (a ++ [i]) = (a.quad M).child M i := by
  simp [Addr.quad]

theorem rect_snoc {K : Type} [Field K] (R : Rect K) (a : Addr) (i : Nat) :
    Addr.rect R (a ++ [i]) = (a.rect R).quarter i := by
  simp [Addr.rect]

theorem text_snoc (a : Addr) {i : Nat} (hi : i < 4) : Addr.text (a ++ [i]) = a.text ++ natText i := by
  rw [natText_small hi]; simp [Addr.text]

theorem text_dropLast (a : Addr) (i : Nat) : (Addr.text (a ++ [i])).dropLast = a.text := by
  simp only [Addr.text, List.map_append, List.map_cons, List.map_nil]
  rw [← List.cons_append, List.dropLast_concat]

theorem quad_spec {M : Nat} {a : Addr} (h : a.Valid) (hl : a.length ≤ M) :
    (a.quad M).OnGrid M ∧ (a.quad M).level = a.length ∧ (a.quad M).path M = a.text := by
  induction a using List.reverseRecOn with
  | nil => exact ⟨onGrid_root M, rfl, rfl⟩
  | append_singleton a i ih =>
    obtain ⟨ha, hi⟩ := h.init
    simp only [List.length_append, List.length_singleton] at hl
    obtain ⟨h1, h2, h3⟩ := ih ha (by omega)
    rw [quad_snoc]
    refine ⟨h1.child (by omega) hi, ?_, ?_⟩
    · show (Addr.quad M a).level + 1 = _
      rw [h2]; simp
    · rw [path_child h1 (by omega) hi, h3, text_snoc a hi]

theorem quad_id {M : Nat} {a : Addr} {i : Nat} (h : a.Valid) (hi : i < 4) (hl : a.length < M) :
    (Addr.quad M (a ++ [i])).ancestorId M (Addr.quad M (a ++ [i])).level = i := by
  obtain ⟨h1, h2, _⟩ := quad_spec h (le_of_lt hl)
  rw [quad_snoc]
  show ((a.quad M).child M i).ancestorId M ((a.quad M).level + 1) = i
  rw [ancestorId_child h1 (by omega) hi (le_refl _), if_pos rfl]

theorem digit_inj {i j : Nat} (hi : i < 4) (hj : j < 4) (h : Nat.digitChar i = Nat.digitChar j) : i = j := by
  interval_cases i <;> interval_cases j <;> first | rfl | (exact absurd h (by decide))

theorem digits_inj {a b : Addr} (ha : a.Valid) (hb : b.Valid) (h : a.map Nat.digitChar = b.map Nat.digitChar) : a = b := by
  induction a generalizing b with
  | nil => cases b with
    | nil => rfl
    | cons j b => simp at h
  | cons i a ih => cases b with
    | nil => simp at h
    | cons j b =>
      simp only [List.map_cons, List.cons.injEq] at h
      rw [digit_inj (ha i (by simp)) (hb j (by simp)) h.1,
        ih (fun k hk => ha k (by simp [hk])) (fun k hk => hb k (by simp [hk])) h.2]

theorem text_inj {a b : Addr} (ha : a.Valid) (hb : b.Valid) (h : a.text = b.text) : a = b :=
  digits_inj ha hb (by simpa [Addr.text] using h)

theorem digits_prefix {a b : Addr} (ha : a.Valid) (hb : b.Valid) (h : a.map Nat.digitChar <+: b.map Nat.digitChar) :
    a <+: b := by
  induction a generalizing b with
  | nil => simp
  | cons i a ih => cases b with
    | nil => simp at h
    | cons j b =>
      simp only [List.map_cons, List.cons_prefix_cons] at h ⊢
      exact ⟨digit_inj (ha i (by simp)) (hb j (by simp)) h.1,
        ih (fun k hk => ha k (by simp [hk])) (fun k hk => hb k (by simp [hk])) h.2⟩

theorem text_prefix {a b : Addr} (ha : a.Valid) (hb : b.Valid) : a.text <+: b.text ↔ a <+: b := by
  constructor
  · intro h
    exact digits_prefix ha hb (by simpa [Addr.text] using h)
  · rintro ⟨c, rfl⟩
    exact ⟨c.map Nat.digitChar, by simp [Addr.text]⟩

end Addr

namespace Quadrant

/-- Coordinate of the parent and the bit of the child. -/
theorem coord_parent {M l x : Nat} (h : l < M) (dx : 2 ^ (M - (l + 1)) ∣ x) (lx : x < 2 ^ M) :
    ∃ y b, b < 2 ∧ x = y + b * 2 ^ (M - (l + 1)) ∧ 2 ^ (M - l) ∣ y ∧ y < 2 ^ M := by
  obtain ⟨k, rfl⟩ := dx
  refine ⟨2 ^ (M - l) * (k / 2), k % 2, by omega, ?_, Dvd.intro _ rfl, ?_⟩
  · rw [pow_split h]
    conv_lhs => rw [← Nat.div_add_mod k 2]
    ring
  · refine lt_of_le_of_lt ?_ lx
    rw [pow_split h, mul_comm 2, mul_assoc]
    exact Nat.mul_le_mul_left _ (by omega)

/-- Every quadrant on the lattice has an address. -/
theorem OnGrid.addr {M : Nat} {q : Quadrant} (h : q.OnGrid M) : ∃ a : Addr, a.Valid ∧ a.length = q.level ∧ a.quad M = q := by
  obtain ⟨x, y, l⟩ := q
  induction l generalizing x y with
  | zero =>
    refine ⟨[], Addr.Valid.nil, rfl, ?_⟩
    have h1 := h.dx
    have h2 := h.dy
    have h3 := h.lx
    have h4 := h.ly
    simp only [Nat.sub_zero] at h1 h2 h3 h4
    rw [Nat.eq_zero_of_dvd_of_lt h1 h3, Nat.eq_zero_of_dvd_of_lt h2 h4]
    rfl
  | succ l ih =>
    have hl : l < M := h.level
    obtain ⟨x', b, hb, rfl, dx, lx⟩ := coord_parent hl h.dx h.lx
    obtain ⟨y', c, hc, rfl, dy, ly⟩ := coord_parent hl h.dy h.ly
    obtain ⟨a, ha, hal, hq⟩ := ih x' y' ⟨le_of_lt hl, dx, dy, lx, ly⟩
    refine ⟨a ++ [b + 2 * c], ha.snoc (by omega), by simp [hal], ?_⟩
    rw [Addr.quad_snoc, hq]
    unfold Quadrant.child
    congr 3 <;> omega

theorem eq_of_coord {d x x' z : Nat} (hd : 0 < d) (h : d ∣ x) (h' : d ∣ x') (h1 : x ≤ z) (h2 : z < x + d) (h3 : x' ≤ z)
    (h4 : z < x' + d) : x = x' := by
  obtain ⟨k, rfl⟩ := h
  obtain ⟨k', rfl⟩ := h'
  congr 1
  rcases Nat.lt_trichotomy k k' with h | h | h
  · nlinarith
  · exact h
  · nlinarith

theorem Contains.child {M : Nat} {q q' : Quadrant} (h : q.Contains M q') (hl : q'.level < M) {i : Nat} (hi : i < 4) :
    q.Contains M (q'.child M i) := by
  obtain ⟨h1, h2, h3, h4⟩ := h
  have hp := pow_split hl
  have hpos : 0 < 2 ^ (M - (q'.level + 1)) := by positivity
  unfold Contains Quadrant.child
  have b1 : i % 2 * 2 ^ (M - (q'.level + 1)) ≤ 1 * 2 ^ (M - (q'.level + 1)) := Nat.mul_le_mul_right _ (by omega)
  have b2 : i / 2 * 2 ^ (M - (q'.level + 1)) ≤ 1 * 2 ^ (M - (q'.level + 1)) := Nat.mul_le_mul_right _ (by omega)
  simp only
  generalize i % 2 * 2 ^ (M - (q'.level + 1)) = u at *
  generalize i / 2 * 2 ^ (M - (q'.level + 1)) = v at *
  omega

end Quadrant

namespace Addr

open Quadrant

theorem contains_of_prefix {M : Nat} {a b : Addr} (hb : b.Valid) (hl : b.length ≤ M) (h : a <+: b) :
    (a.quad M).Contains M (b.quad M) := by
  obtain ⟨c, rfl⟩ := h
  induction c using List.reverseRecOn with
  | nil => rw [List.append_nil]; exact ⟨le_refl _, le_refl _, le_refl _, le_refl _⟩
  | append_singleton c i ih =>
    rw [← List.append_assoc] at hb hl ⊢
    obtain ⟨hc, hi⟩ := hb.init
    simp only [List.length_append, List.length_singleton] at hl
    rw [quad_snoc]
    refine (ih hc (by simp; omega)).child ?_ hi
    rw [(quad_spec hc (by simp; omega)).2.1]
    simp; omega

theorem prefix_of_contains {M : Nat} {a b : Addr} (ha : a.Valid) (hb : b.Valid) (hal : a.length ≤ M) (hbl : b.length ≤ M)
    (h : (a.quad M).Contains M (b.quad M)) : a <+: b := by
  obtain ⟨g1, l1, p1⟩ := quad_spec ha hal
  obtain ⟨g2, l2, p2⟩ := quad_spec hb hbl
  have hlen : a.length ≤ b.length := by
    by_contra hc
    have hlt : 2 ^ (M - (a.quad M).level) < 2 ^ (M - (b.quad M).level) :=
      Nat.pow_lt_pow_right (by omega) (by omega)
    obtain ⟨h1, h2, _⟩ := h
    omega
  have hc : Addr.Valid (b.take a.length) := fun i hi => hb i (List.mem_of_mem_take hi)
  have hcl : (b.take a.length).length = a.length := by simp [hlen]
  have hpre : b.take a.length <+: b := List.take_prefix _ _
  obtain ⟨g3, l3, p3⟩ := quad_spec hc (by omega : (b.take a.length).length ≤ M)
  have hcon := contains_of_prefix (M := M) hb hbl hpre
  have hd : 0 < 2 ^ (M - a.length) := by positivity
  have hd2 : 0 < 2 ^ (M - b.length) := by positivity
  obtain ⟨a1, a2, a3, a4⟩ := h
  obtain ⟨c1, c2, c3, c4⟩ := hcon
  rw [l1, l2] at a2 a4
  rw [l3, l2, hcl] at c2 c4
  have d1 := g1.dx
  have d2 := g1.dy
  have d3 := g3.dx
  have d4 := g3.dy
  rw [l1] at d1 d2
  rw [l3, hcl] at d3 d4
  have ex := eq_of_coord hd d1 d3 a1 (by omega) c1 (by omega)
  have ey := eq_of_coord hd d2 d4 a3 (by omega) c3 (by omega)
  have : a.quad M = Addr.quad M (b.take a.length) := by
    cases h1 : a.quad M
    cases h2 : Addr.quad M (b.take a.length)
    rw [h1, h2] at ex ey
    rw [h1] at l1
    rw [h2] at l3
    simp only at ex ey l1 l3
    rw [ex, ey, l1, l3, hcl]
  have : a = b.take a.length := text_inj ha hc (by rw [← p1, ← p3, this])
  rw [this]
  exact hpre

end Addr

end EF
