import Verif.Proofs.GlobalTree
import Verif.Spec.Levels

/-!
# Operators of problems with a large reaction term

If the reaction term is large, the operator of a patch is close to a diagonal one: the flux on a side is close to the value on the side
divided by half a cell width.  This survives merging and, up to a factor, coarsening.
-/

namespace EF
namespace HPS

open Finset FV

variable {K : Type} [Field K] [LinearOrder K] [IsStrictOrderedRing K] {N : Nat}

/-- Sign of the flux on a side: the derivative is taken in coordinate direction. -/
def sgn (p : Nat) : K := if p % 2 = 1 then 1 else -1

/-- The operator is close to the diagonal operator `d`: up to `e` times the size of all boundary values and a sixth of the second
differences on the side in question. -/
def Near (n : Nat) (T : Blk K) (d : Nat → Nat → K) (e : K) : Prop :=
  ∀ (g : Nat → Nat → K) (M D : K) (p : Nat), p < 4 → 0 ≤ D → (∀ q, q < 4 → ∀ i, i < n → |g q i| ≤ M) →
    (∀ i, i + 2 < n → |g p i - 2 * g p (i + 1) + g p (i + 2)| ≤ D) →
    ∀ i, i < n → |app n 4 T g p i - sgn p * d p i * g p i| ≤ d p i * (e * M + D / 6)

/-! ### Coarsening -/

theorem pro_first {m : Nat} (hm : 3 ≤ m) (g : Nat → Nat → K) (p : Nat) :
    pro m g p 0 = 45 / 32 * g p 0 - 9 / 16 * g p 1 + 5 / 32 * g p 2 := by
  unfold pro
  rw [Mat.sum_c2f_first hm]
  ring

theorem pro_last {m : Nat} (hm : 3 ≤ m) (g : Nat → Nat → K) (p : Nat) :
    pro m g p (2 * m - 1) = 45 / 32 * g p (m - 1) - 9 / 16 * g p (m - 2) + 5 / 32 * g p (m - 3) := by
  unfold pro
  rw [Mat.sum_c2f_last hm]
  ring

theorem pro_odd {m i : Nat} (hi : i + 1 < m) (g : Nat → Nat → K) (p : Nat) :
    pro m g p (2 * i + 1) = 3 / 4 * g p i + 1 / 4 * g p (i + 1) := by
  unfold pro
  rw [Mat.sum_c2f_odd hi]

theorem pro_even {m i : Nat} (hi : i + 1 < m) (g : Nat → Nat → K) (p : Nat) :
    pro m g p (2 * i + 2) = 1 / 4 * g p i + 3 / 4 * g p (i + 1) := by
  unfold pro
  rw [Mat.sum_c2f_even hi]

/-- The four kinds of rows. -/
theorem row_cases {m : Nat} (hm : 3 ≤ m) {j : Nat} (hj : j < 2 * m) :
    j = 0 ∨ j = 2 * m - 1 ∨ (∃ i, i + 1 < m ∧ j = 2 * i + 1) ∨ ∃ i, i + 1 < m ∧ j = 2 * i + 2 := by
  rcases Nat.even_or_odd' j with ⟨k, rfl | rfl⟩
  · rcases Nat.eq_zero_or_pos k with rfl | h
    · exact Or.inl rfl
    · exact Or.inr (Or.inr (Or.inr ⟨k - 1, by omega, by omega⟩))
  · by_cases h : k + 1 < m
    · exact Or.inr (Or.inr (Or.inl ⟨k, h, rfl⟩))
    · exact Or.inr (Or.inl (by omega))

theorem pro_bound {m : Nat} (hm : 3 ≤ m) {g : Nat → Nat → K} {p : Nat} {M : K} (h : ∀ i, i < m → |g p i| ≤ M) {j : Nat} (hj : j < 2 * m) :
    |pro m g p j| ≤ 17 / 8 * M := by
  have h' := fun i hi => abs_le.mp (h i hi)
  have M0 : 0 ≤ M := (abs_nonneg _).trans (h 0 (by omega))
  rw [abs_le]
  rcases row_cases hm hj with rfl | rfl | ⟨i, hi, rfl⟩ | ⟨i, hi, rfl⟩
  · rw [pro_first hm]
    have a := h' 0 (by omega)
    have b := h' 1 (by omega)
    have c := h' 2 (by omega)
    constructor <;> linarith
  · rw [pro_last hm]
    have a := h' (m - 1) (by omega)
    have b := h' (m - 2) (by omega)
    have c := h' (m - 3) (by omega)
    constructor <;> linarith
  · rw [pro_odd hi]
    have a := h' i (by omega)
    have b := h' (i + 1) (by omega)
    constructor <;> linarith
  · rw [pro_even hi]
    have a := h' i (by omega)
    have b := h' (i + 1) (by omega)
    constructor <;> linarith

/-- Prolongation divides second differences by four at least. -/
theorem pro_second {m : Nat} (hm : 3 ≤ m) {g : Nat → Nat → K} {p : Nat} {D : K}
    (h : ∀ i, i + 2 < m → |g p i - 2 * g p (i + 1) + g p (i + 2)| ≤ D) {j : Nat} (hj : j + 2 < 2 * m) :
    |pro m g p j - 2 * pro m g p (j + 1) + pro m g p (j + 2)| ≤ D / 4 := by
  have h' := fun i hi => abs_le.mp (h i hi)
  have D0 : 0 ≤ D := (abs_nonneg _).trans (h 0 (by omega))
  rw [abs_le]
  rcases Nat.even_or_odd' j with ⟨k, rfl | rfl⟩
  · rcases Nat.eq_zero_or_pos k with rfl | hk
    · have a := h' 0 (by omega)
      have e1 := pro_odd (m := m) (i := 0) (by omega) g p
      have e2 := pro_even (m := m) (i := 0) (by omega) g p
      simp only [Nat.mul_zero, Nat.zero_add] at a e1 e2 ⊢
      rw [pro_first hm, e1, e2]
      constructor <;> linarith
    · obtain ⟨i, rfl⟩ : ∃ i, k = i + 1 := ⟨k - 1, by omega⟩
      have a := h' i (by omega)
      have e0 := pro_even (m := m) (i := i) (by omega) g p
      have e1 := pro_odd (m := m) (i := i + 1) (by omega) g p
      have e2 := pro_even (m := m) (i := i + 1) (by omega) g p
      rw [show 2 * (i + 1) = 2 * i + 2 by ring] at e1 e2 ⊢
      rw [e0, e1, e2]
      rw [show i + 1 + 1 = i + 2 by ring]
      constructor <;> linarith
  · by_cases hk : k + 2 < m
    · have a := h' k (by omega)
      have e0 := pro_odd (m := m) (i := k) (by omega) g p
      have e1 := pro_even (m := m) (i := k) (by omega) g p
      have e2 := pro_odd (m := m) (i := k + 1) (by omega) g p
      rw [show 2 * (k + 1) + 1 = 2 * k + 1 + 2 by ring] at e2
      rw [show 2 * k + 1 + 1 = 2 * k + 2 by ring, e0, e1, e2]
      rw [show k + 1 + 1 = k + 2 by ring]
      constructor <;> linarith
    · obtain ⟨i, rfl⟩ : ∃ i, k = i + 1 := ⟨k - 1, by omega⟩
      have em : m = i + 3 := by omega
      have a := h' i (by omega)
      have e0 := pro_odd (m := m) (i := i + 1) (by omega) g p
      have e1 := pro_even (m := m) (i := i + 1) (by omega) g p
      have e2 := pro_last (m := m) (by omega) g p
      rw [show 2 * m - 1 = 2 * (i + 1) + 1 + 2 by omega, show m - 1 = i + 2 by omega, show m - 2 = i + 1 by omega,
        show m - 3 = i by omega] at e2
      rw [show 2 * (i + 1) + 1 + 1 = 2 * (i + 1) + 2 by ring, e0, e1, e2]
      rw [show i + 1 + 1 = i + 2 by ring]
      constructor <;> linarith

/-- Averaging the prolonged values returns the coarse ones up to an eighth of the second differences. -/
theorem pro_mean {m : Nat} (hm : 3 ≤ m) {g : Nat → Nat → K} {p : Nat} {D : K}
    (h : ∀ i, i + 2 < m → |g p i - 2 * g p (i + 1) + g p (i + 2)| ≤ D) {i : Nat} (hi : i < m) :
    |1 / 2 * pro m g p (2 * i) + 1 / 2 * pro m g p (2 * i + 1) - g p i| ≤ D / 8 := by
  have h' := fun i hi => abs_le.mp (h i hi)
  have D0 : 0 ≤ D := (abs_nonneg _).trans (h 0 (by omega))
  rw [abs_le]
  rcases Nat.eq_zero_or_pos i with rfl | hp
  · have a := h' 0 (by omega)
    have e1 := pro_odd (m := m) (i := 0) (by omega) g p
    simp only [Nat.mul_zero, Nat.zero_add] at a e1 ⊢
    rw [pro_first hm, e1]
    constructor <;> linarith
  · obtain ⟨k, rfl⟩ : ∃ k, i = k + 1 := ⟨i - 1, by omega⟩
    have e0 := pro_even (m := m) (i := k) (by omega) g p
    by_cases hk : k + 2 < m
    · have a := h' k (by omega)
      have e1 := pro_odd (m := m) (i := k + 1) (by omega) g p
      rw [show 2 * (k + 1) = 2 * k + 2 by ring] at e1 ⊢
      rw [e0, e1, show k + 1 + 1 = k + 2 by ring]
      constructor <;> linarith
    · obtain ⟨l, rfl⟩ : ∃ l, k = l + 1 := ⟨k - 1, by omega⟩
      have a := h' l (by omega)
      have e1 := pro_last (m := m) (by omega) g p
      rw [show 2 * m - 1 = 2 * (l + 1 + 1) + 1 by omega, show m - 1 = l + 2 by omega, show m - 2 = l + 1 by omega,
        show m - 3 = l by omega] at e1
      rw [show 2 * (l + 1 + 1) = 2 * (l + 1) + 2 by ring] at e1 ⊢
      rw [e0, e1, show l + 1 + 1 = l + 2 by ring]
      constructor <;> linarith

theorem Near.crs {m : Nat} (hm : 3 ≤ m) {T : Blk K} {d : Nat → Nat → K} {e : K} (h : Near (2 * m) T d e)
    (hd : ∀ p, p < 4 → ∀ i, i < m → d p (2 * i + 1) = d p (2 * i)) (h0 : ∀ p, p < 4 → ∀ i, i < 2 * m → 0 < d p i) :
    Near m (crs m T) (fun p i => d p (2 * i)) (17 / 8 * e) := by
  intro g M D p hp D0 hM hD i hi
  have e1 := h (pro m g) (17 / 8 * M) (D / 4) p hp (by positivity) (fun q hq j hj => pro_bound hm (hM q hq) hj) (fun j hj => pro_second hm hD hj)
  have a := e1 (2 * i) (by omega)
  have b := e1 (2 * i + 1) (by omega)
  rw [hd p hp i hi] at b
  have c := pro_mean hm hD hi
  have hd0 := h0 p hp (2 * i) (by omega)
  rw [app_crs]
  unfold rst
  rw [Mat.sum_f2c hi]
  beta_reduce
  have hs : |(sgn p : K)| = 1 := by unfold sgn; split_ifs <;> simp
  generalize app (2 * m) 4 T (pro m g) p (2 * i) = x at *
  generalize app (2 * m) 4 T (pro m g) p (2 * i + 1) = y at *
  generalize pro m g p (2 * i) = u at *
  generalize pro m g p (2 * i + 1) = v at *
  generalize d p (2 * i) = δ at *
  have key : 1 / 2 * x + 1 / 2 * y - sgn p * δ * g p i = 1 / 2 * (x - sgn p * δ * u) + 1 / 2 * (y - sgn p * δ * v) +
      sgn p * δ * (1 / 2 * u + 1 / 2 * v - g p i) := by ring
  have z : |sgn p * δ * (1 / 2 * u + 1 / 2 * v - g p i)| ≤ δ * (D / 8) := by
    rw [abs_mul, abs_mul, hs, one_mul, abs_of_pos hd0]
    exact mul_le_mul_of_nonneg_left c hd0.le
  have w : δ * (17 / 8 * e * M + D / 6) = 1 / 2 * (δ * (e * (17 / 8 * M) + D / 4 / 6)) + 1 / 2 * (δ * (e * (17 / 8 * M) + D / 4 / 6)) +
      δ * (D / 8) := by ring
  rw [key, w]
  rw [abs_le] at a b z ⊢
  constructor <;> linarith

/-- Coarsening several times. -/
theorem Near.crsN {T : Blk K} {d : Nat → Nat → K} {e : K} (k : Nat) {m : Nat} (hm : k = 0 ∨ 3 ≤ m) (h : Near (m * 2 ^ k) T d e)
    (hd : ∀ p, p < 4 → ∀ i j, i < m * 2 ^ k → j < m * 2 ^ k → i / 2 ^ k = j / 2 ^ k → d p i = d p j)
    (h0 : ∀ p, p < 4 → ∀ i, i < m * 2 ^ k → 0 < d p i) :
    Near m (crsN k m T) (fun p i => d p (2 ^ k * i)) ((17 / 8) ^ k * e) := by
  induction k generalizing m with
  | zero => simpa [HPS.crsN] using h
  | succ k ih =>
    have hm := hm.resolve_left (by omega)
    have e1 : 2 * m * 2 ^ k = m * 2 ^ (k + 1) := by ring
    have p1 : 0 < 2 ^ k := by positivity
    have h' := ih (m := 2 * m) (Or.inr (by omega)) (by rw [e1]; exact h) (by
      rw [e1]
      intro p hp i j hi hj hij
      refine hd p hp i j hi hj ?_
      rw [pow_succ, ← Nat.div_div_eq_div_mul, ← Nat.div_div_eq_div_mul, hij]) (by rw [e1]; exact h0)
    have hlt : ∀ i, i < 2 * m → 2 ^ k * i < m * 2 ^ (k + 1) := by
      intro i hi
      rw [← e1, mul_comm (2 * m)]
      exact Nat.mul_lt_mul_of_pos_left hi p1
    have := h'.crs hm (by
      intro p hp i hi
      refine hd p hp _ _ (hlt _ (by omega)) (hlt _ (by omega)) ?_
      rw [pow_succ, ← Nat.div_div_eq_div_mul, ← Nat.div_div_eq_div_mul, Nat.mul_div_cancel_left _ p1, Nat.mul_div_cancel_left _ p1]
      omega) (fun p hp i hi => h0 p hp _ (hlt i hi))
    rw [HPS.crsN]
    convert this using 1
    · funext p i
      rw [pow_succ, mul_assoc]
    · ring

/-! ### Merging -/

theorem cd_le {G u : Nat → Nat → K} {n : Nat} {M : K} (M0 : 0 ≤ M) (hG : ∀ q, q < 8 → ∀ i, i < n → |G q i| ≤ M)
    (hu : ∀ q, q < 4 → ∀ i, i < n → |u q i| ≤ M) (c q : Nat) {i : Nat} (hi : i < n) : |cd c G u q i| ≤ M := by
  unfold cd
  split <;> first | exact hG _ (by decide) i hi | exact hu _ (by decide) i hi | simpa using M0

theorem cd_jl (G u : Nat → Nat → K) : ∀ r, r < 4 → cd (jl r).1 G u (jl r).2 = u r := by
  intro r hr
  interval_cases r <;> rfl

theorem cd_jr (G u : Nat → Nat → K) : ∀ r, r < 4 → cd (jr r).1 G u (jr r).2 = u r := by
  intro r hr
  interval_cases r <;> rfl

theorem cd_ex (G u : Nat → Nat → K) : ∀ p, p < 8 → cd (ex p).1 G u (ex p).2 = G p := by
  intro r hr
  interval_cases r <;> rfl

theorem second_le {g : Nat → K} {n : Nat} {M : K} (h : ∀ i, i < n → |g i| ≤ M) {i : Nat} (hi : i + 2 < n) :
    |g i - 2 * g (i + 1) + g (i + 2)| ≤ 4 * M := by
  have a := abs_le.mp (h i (by omega))
  have b := abs_le.mp (h (i + 1) (by omega))
  have c := abs_le.mp (h (i + 2) (by omega))
  rw [abs_le]
  constructor <;> linarith

/-- Interface values that make the fluxes continuous are not larger than the boundary values. -/
theorem interface_le {n : Nat} {TT : Ops K} {d : Nat → Nat → Nat → K} {e : K} (he : 3 * e < 1)
    (hT : ∀ c, c < 4 → Near n (TT c) (d c) e) (hd : ∀ c, c < 4 → ∀ p, p < 4 → ∀ i, i < n → 0 < d c p i)
    {G u : Nat → Nat → K} {M : K} (M0 : 0 ≤ M) (hG : ∀ q, q < 8 → ∀ i, i < n → |G q i| ≤ M)
    (hj : ∀ r, r < 4 → ∀ i, i < n → jump n TT G u r i = 0) : ∀ r, r < 4 → ∀ i, i < n → |u r i| ≤ M := by
  intro r0 hr0 i0 hi0
  by_contra hcon
  push Not at hcon
  obtain ⟨⟨r, i⟩, hp, hmax⟩ := exists_max_image (range 4 ×ˢ range n) (fun p => |u p.1 p.2|) ⟨(r0, i0), by simp [hr0, hi0]⟩
  simp only [mem_product, mem_range] at hp hmax
  obtain ⟨hr, hi⟩ := hp
  obtain ⟨U, eU⟩ : ∃ U, U = |u r i| := ⟨_, rfl⟩
  have hU : ∀ q, q < 4 → ∀ j, j < n → |u q j| ≤ U := fun q hq j hj => by rw [eU]; exact hmax (q, j) ⟨hq, hj⟩
  have hMU : M < U := lt_of_lt_of_le hcon (hU _ hr0 _ hi0)
  have U0 : 0 < U := lt_of_le_of_lt M0 hMU
  have hb : ∀ c q i, i < n → |cd c G u q i| ≤ U := fun c q i hi => cd_le U0.le (fun q hq i hi => (hG q hq i hi).trans hMU.le) hU c q hi
  have hl := jl_lt r hr
  have hr' := jr_lt r hr
  have a := hT _ hl.1 (cd (jl r).1 G u) U (4 * U) _ hl.2 (by positivity) (fun q _ i hi => hb _ q i hi)
    (fun i hi => second_le (n := n) (fun i hi => hb _ _ i hi) hi) i hi
  have b := hT _ hr'.1 (cd (jr r).1 G u) U (4 * U) _ hr'.2 (by positivity) (fun q _ i hi => hb _ q i hi)
    (fun i hi => second_le (n := n) (fun i hi => hb _ _ i hi) hi) i hi
  have dl := hd _ hl.1 _ hl.2 i hi
  have dr := hd _ hr'.1 _ hr'.2 i hi
  have sl : (sgn (jl r).2 : K) = 1 := by interval_cases r <;> simp [sgn, jl]
  have sr : (sgn (jr r).2 : K) = -1 := by interval_cases r <;> simp [sgn, jr]
  rw [cd_jl G u r hr, sl, one_mul] at a
  rw [cd_jr G u r hr, sr] at b
  have j0 : app n 4 (TT (jl r).1) (cd (jl r).1 G u) (jl r).2 i = app n 4 (TT (jr r).1) (cd (jr r).1 G u) (jr r).2 i := sub_eq_zero.mp (hj r hr i hi)
  rw [j0] at a
  generalize app n 4 (TT (jr r).1) (cd (jr r).1 G u) (jr r).2 i = x at *
  generalize d (jl r).1 (jl r).2 i = α at *
  generalize d (jr r).1 (jr r).2 i = β at *
  have s1 : |(α + β) * u r i| ≤ (α + β) * (e * U + 4 * U / 6) := by
    rw [abs_le] at a b ⊢
    constructor <;> nlinarith
  rw [abs_mul, abs_of_pos (add_pos dl dr), ← eU] at s1
  have s2 := le_of_mul_le_mul_left s1 (add_pos dl dr)
  nlinarith

theorem Near.bnonsing {n : Nat} {TT : Ops K} {d : Nat → Nat → Nat → K} {e : K} (he : 3 * e < 1)
    (hT : ∀ c, c < 4 → Near n (TT c) (d c) e) (hd : ∀ c, c < 4 → ∀ p, p < 4 → ∀ i, i < n → 0 < d c p i) : BNonsing n 4 (Xf TT) := by
  intro u hu r hr i hi
  have := interface_le he hT hd (G := fun _ _ => 0) (u := u) (M := 0) le_rfl (fun _ _ _ _ => by simp) (by
    intro r hr i hi
    rw [jump_eq _ _ _ _ r hr, hu r hr i hi]
    simp) r hr i hi
  exact abs_eq_zero.mp (le_antisymm this (abs_nonneg _))

/-- The diagonal of the merged operator. -/
def dOf (n : Nat) (d : Nat → Nat → Nat → K) (p i : Nat) : K := d (ex (p * 2 + i / n)).1 (ex (p * 2 + i / n)).2 (i % n)

theorem Near.merge {n : Nat} (hn : 0 < n) {TT : Ops K} {d : Nat → Nat → Nat → K} {e : K} (he : 3 * e < 1)
    (hT : ∀ c, c < 4 → Near n (TT c) (d c) e) (hd : ∀ c, c < 4 → ∀ p, p < 4 → ∀ i, i < n → 0 < d c p i) {S : Blk K}
    (hS : SolCond n TT S) : Near (2 * n) (dbl n (Tp n TT S)) (dOf n d) e := by
  have hX := hS.1 (Near.bnonsing he hT hd)
  intro g M D p hp D0 hM hD i hi
  have M0 : 0 ≤ M := (abs_nonneg _).trans (hM 0 (by omega) 0 (by omega))
  have hz : i / n < 2 := Nat.div_lt_of_lt_mul (by rw [mul_comm]; exact hi)
  have hi' := Nat.mod_lt i hn
  obtain ⟨z, ez⟩ : ∃ z, z = i / n := ⟨_, rfl⟩
  have ei : z * n + i % n = i := by rw [ez]; exact Nat.div_add_mod' i n
  rw [app_dbl]
  unfold dOf
  rw [← ez] at hz ⊢
  have hp8 : p * 2 + z < 8 := by omega
  have hex := ex_lt _ hp8
  have hG : ∀ q, q < 8 → ∀ j, j < n → |hlv n g q j| ≤ M := by
    intro q hq j hj
    refine hM _ (by omega) _ ?_
    have : q % 2 = 0 ∨ q % 2 = 1 := by omega
    rcases this with h | h <;> rw [h] <;> omega
  have hu := interface_le he hT hd M0 hG (fun r hr i hi => hX.jump (hlv n g) hr hi)
  rw [app_Tp n TT S (hlv n g) hp8]
  have e1 : (p * 2 + z) / 2 = p := by omega
  have e2 : (p * 2 + z) % 2 = z := by omega
  have eg : ∀ j, hlv n g (p * 2 + z) j = g p (z * n + j) := by
    intro j
    unfold hlv
    rw [e1, e2]
  have key := hT _ hex.1 (cd (ex (p * 2 + z)).1 (hlv n g) (app n 8 S (hlv n g))) M D _ hex.2 D0
    (fun q _ j hj => cd_le M0 hG hu _ q hj) (by
      intro j hj
      rw [cd_ex _ _ _ hp8, eg, eg, eg]
      exact hD (z * n + j) (by
        have : z = 0 ∨ z = 1 := by omega
        rcases this with h | h <;> rw [h] <;> omega)) (i % n) hi'
  rw [cd_ex _ _ _ hp8, eg, ei] at key
  have es : (sgn (ex (p * 2 + z)).2 : K) = sgn p := by
    have : z = 0 ∨ z = 1 := by omega
    rcases this with h | h <;> rw [h] <;> interval_cases p <;> rfl
  rw [es] at key
  exact key

/-! ### Uniform subtrees -/

theorem Damped.quarter {s : FVSolver K} {R : Rect K} {B Λ : K} (h : Damped s R B Λ) (hR : Proper R) (q : Nat) : Damped s (R.quarter q) B Λ :=
  fun x y hi => h x y (inside_quarter hR q hi)

/-- Contribution of the two faces of a cell in one direction, where the cell value is `v` and the boundary value `M`. -/
theorem faces_le {β β' B M v h : K} (h0 : 0 < h) (b1 : 0 < β) (b2 : β ≤ B) (b3 : 0 < β') (b4 : β' ≤ B) (M0 : 0 ≤ M) (v0 : 0 ≤ v) {P Q : Prop}
    [Decidable P] [Decidable Q] (hPQ : ¬ (P ∧ Q)) :
    (β * ((if P then 2 * M - v else v) - v) - β' * (v - (if Q then 2 * M - v else v))) / h ^ 2 ≤ 2 * B * M * (1 / h ^ 2) := by
  rw [div_eq_mul_one_div]
  refine mul_le_mul_of_nonneg_right ?_ (by positivity)
  have k1 : β * (M - v) ≤ B * M := by nlinarith
  have k2 : β' * (M - v) ≤ B * M := by nlinarith
  have k3 : 0 ≤ B * M := mul_nonneg (b1.le.trans b2) M0
  split_ifs with hp hq
  · exact absurd ⟨hp, hq⟩ hPQ
  · linarith
  · linarith
  · linarith

theorem const_super {s : FVSolver K} {R : Rect K} (hR : Proper R) (hE : EllipticOn s R) {B Λ e : K} (hD : Damped s R B Λ) {m : Nat} (hm : 2 ≤ m)
    (he : 0 ≤ e) (hl : 2 * B * (1 / hx R m ^ 2 + 1 / hy R m ^ 2) ≤ e * Λ) {M : K} (M0 : 0 ≤ M) {i : Nat} (hi : i < m) {j : Nat} (hj : j < m) :
    balance s R m m ⟨fun _ => M, fun _ => M, fun _ => M, fun _ => M⟩ (fun _ _ => e * M) i j / s.alpha (cx R m i) (cy R m j) ≤ 0 := by
  have hx0 := hx_pos hR (by omega : 0 < m)
  have hy0 := hy_pos hR (by omega : 0 < m)
  obtain ⟨fx1, fx2⟩ := cx_face hR hi
  obtain ⟨fy1, fy2⟩ := cy_face hR hj
  have in0 : Inside R (cx R m i) (cy R m j) := ⟨by linarith, by linarith, by linarith, by linarith⟩
  have inE : Inside R (cx R m i + hx R m / 2) (cy R m j) := ⟨by linarith, by linarith, by linarith, by linarith⟩
  have inW : Inside R (cx R m i - hx R m / 2) (cy R m j) := ⟨by linarith, by linarith, by linarith, by linarith⟩
  have inN : Inside R (cx R m i) (cy R m j + hy R m / 2) := ⟨by linarith, by linarith, by linarith, by linarith⟩
  have inS : Inside R (cx R m i) (cy R m j - hy R m / 2) := ⟨by linarith, by linarith, by linarith, by linarith⟩
  have v0 : 0 ≤ e * M := mul_nonneg he M0
  have X := faces_le (P := i + 1 = m) (Q := i = 0) hx0 (hE _ _ inE).1 (hD _ _ inE).1 (hE _ _ inW).1 (hD _ _ inW).1 M0 v0 (by omega)
  have Y := faces_le (P := j + 1 = m) (Q := j = 0) hy0 (hE _ _ inN).1 (hD _ _ inN).1 (hE _ _ inS).1 (hD _ _ inS).1 M0 v0 (by omega)
  have ha := (hE _ _ in0).2.1
  have hla := (hD _ _ in0).2
  unfold balance east west north south
  dsimp only
  generalize (s.beta (cx R m i + hx R m / 2) (cy R m j) * ((if i + 1 = m then 2 * M - e * M else e * M) - e * M) -
    s.beta (cx R m i - hx R m / 2) (cy R m j) * (e * M - if i = 0 then 2 * M - e * M else e * M)) / hx R m ^ 2 = x at *
  generalize (s.beta (cx R m i) (cy R m j + hy R m / 2) * ((if j + 1 = m then 2 * M - e * M else e * M) - e * M) -
    s.beta (cx R m i) (cy R m j - hy R m / 2) * (e * M - if j = 0 then 2 * M - e * M else e * M)) / hy R m ^ 2 = y at *
  generalize s.alpha (cx R m i) (cy R m j) = a at *
  generalize s.lambda (cx R m i) (cy R m j) = l at *
  have e1 : (a * (x + y) + l * (e * M)) / a = x + y + l / a * (e * M) := by field_simp
  rw [e1]
  have e2 : l / a * (e * M) ≤ -Λ * (e * M) := mul_le_mul_of_nonneg_right hla v0
  have e3 : 2 * B * (1 / hx R m ^ 2 + 1 / hy R m ^ 2) * M ≤ e * Λ * M := mul_le_mul_of_nonneg_right hl M0
  linarith

theorem damped_le {s : FVSolver K} {R : Rect K} (hR : Proper R) (hE : EllipticOn s R) {B Λ e : K} (hD : Damped s R B Λ) {m : Nat} (hm : 2 ≤ m)
    (he : 0 ≤ e) (hl : 2 * B * (1 / hx R m ^ 2 + 1 / hy R m ^ 2) ≤ e * Λ) {M : K} {g U : Nat → Nat → K}
    (hg : ∀ q, q < 4 → ∀ i, i < m → |g q i| ≤ M) (hU : Solves s R m m (ofB g) (fun _ _ => 0) U) :
    ∀ i, i < m → ∀ j, j < m → |U i j| ≤ e * M := by
  have M0 : 0 ≤ M := (abs_nonneg _).trans (hg 0 (by omega) 0 (by omega))
  have key : ∀ σ : K, |σ| = 1 → ∀ i, i < m → ∀ j, j < m → σ * U i j + -1 * (e * M) ≤ 0 := by
    intro σ hσ
    have hb : ∀ q, q < 4 → ∀ k, k < m → σ * g q k + -1 * M ≤ 0 := by
      intro q hq k hk
      have : |σ * g q k| ≤ M := by rw [abs_mul, hσ, one_mul]; exact hg q hq k hk
      linarith [(abs_le.mp this).2]
    refine comparison hR hE (b := (ofB g).lin σ (-1) ⟨fun _ => M, fun _ => M, fun _ => M, fun _ => M⟩)
      (u := fun i j => σ * U i j + -1 * (e * M)) ⟨hb 0 (by omega), hb 1 (by omega), hb 2 (by omega), hb 3 (by omega)⟩ (Or.inl le_rfl) ?_
    intro i hi j hj
    have := balance_lin s R m m σ (-1) (ofB g) ⟨fun _ => M, fun _ => M, fun _ => M, fun _ => M⟩ U (fun _ _ => e * M) i j
    rw [this, hU i hi j hj]
    have c := const_super hR hE hD hm he hl M0 hi hj
    rw [mul_zero, zero_add, neg_one_mul, neg_div]
    linarith
  intro i hi j hj
  have k1 := key 1 (by norm_num) i hi j hj
  have k2 := key (-1) (by norm_num) i hi j hj
  rw [abs_le]
  constructor <;> linarith

/-- Twice the reciprocal cell width across a side. -/
def invHalf (R : Rect K) (m p : Nat) : K := if p < 2 then 1 / (hx R m / 2) else 1 / (hy R m / 2)

theorem invHalf_pos {R : Rect K} (hR : Proper R) {m : Nat} (hm : 0 < m) (p : Nat) : 0 < invHalf R m p := by
  have hx0 := hx_pos hR hm
  have hy0 := hy_pos hR hm
  unfold invHalf
  split_ifs <;> positivity

theorem deriv_diag (R : Rect K) (m : Nat) (g U : Nat → Nat → K) {M : K} (hm : 0 < m) (hR : Proper R)
    (hU : ∀ i, i < m → ∀ j, j < m → |U i j| ≤ M) {p : Nat} (hp : p < 4) {i : Nat} (hi : i < m) :
    |deriv R m m (ofB g) U p i - sgn p * invHalf R m p * g p i| ≤ invHalf R m p * M := by
  have h0 := invHalf_pos hR hm p
  have hx0 := hx_pos hR hm
  have hy0 := hy_pos hR hm
  have key : ∃ v, |v| ≤ M ∧ |deriv R m m (ofB g) U p i - sgn p * invHalf R m p * g p i| = |invHalf R m p * v| := by
    interval_cases p
    · refine ⟨U 0 i, hU 0 hm i hi, ?_⟩
      congr 1
      simp only [deriv, ofB, sgn, invHalf]
      norm_num
      field_simp
      ring
    · refine ⟨-U (m - 1) i, by rw [abs_neg]; exact hU _ (by omega) i hi, ?_⟩
      congr 1
      simp only [deriv, ofB, sgn, invHalf]
      norm_num
      field_simp
      ring
    · refine ⟨U i 0, hU i hi 0 hm, ?_⟩
      congr 1
      simp only [deriv, ofB, sgn, invHalf]
      norm_num
      field_simp
      ring
    · refine ⟨-U i (m - 1), by rw [abs_neg]; exact hU i hi _ (by omega), ?_⟩
      congr 1
      simp only [deriv, ofB, sgn, invHalf]
      norm_num
      field_simp
      ring
  obtain ⟨v, hv, e⟩ := key
  rw [e, abs_mul, abs_of_pos h0]
  exact mul_le_mul_of_nonneg_left hv h0.le

theorem TrueOp.near {s : FVSolver K} {R : Rect K} (hR : Proper R) (hE : EllipticOn s R) {B Λ e : K} (hD : Damped s R B Λ) {m : Nat} (hm : 2 ≤ m)
    (he : 0 ≤ e) (hl : 2 * B * (1 / hx R m ^ 2 + 1 / hy R m ^ 2) ≤ e * Λ) {T : Blk K} (hT : TrueOp s R m T (fun _ _ => 0) (fun _ _ => 0)) :
    Near m T (fun p _ => invHalf R m p) e := by
  intro g M D p hp D0 hM hD' i hi
  obtain ⟨U, hU⟩ := exists_of_unique (unique_of_elliptic hR hE m m) (ofB g) (fun _ _ => 0)
  have hb := damped_le hR hE hD hm he hl hM hU
  have h1 := hT g U hU p hp i hi
  unfold opFlux at h1
  rw [add_zero] at h1
  have h2 := deriv_diag R m g U (by omega) hR hb hp hi
  rw [h1] at h2
  have h0 := invHalf_pos hR (by omega : 0 < m) p
  refine h2.trans (mul_le_mul_of_nonneg_left ?_ h0.le)
  linarith

/-! ### Trees -/

theorem low_le_high {P : Type} (t : Tree P) : low t ≤ high t := by
  induction t with
  | leaf => exact le_refl _
  | node p c0 c1 c2 c3 i0 i1 i2 i3 =>
    simp only [low, high]
    omega

theorem uniform_of_levels {P : Type} (t : Tree P) (h : high t ≤ low t) : Uniform (high t) t := by
  induction t with
  | leaf p => exact .leaf p
  | node p c0 c1 c2 c3 i0 i1 i2 i3 =>
    simp only [low, high] at h ⊢
    have a0 := low_le_high c0
    have a1 := low_le_high c1
    have a2 := low_le_high c2
    have a3 := low_le_high c3
    have u0 := i0 (by omega)
    have u1 := i1 (by omega)
    have u2 := i2 (by omega)
    have u3 := i3 (by omega)
    obtain ⟨M, eM⟩ : ∃ M, M = max (max (high c0) (high c1)) (max (high c2) (high c3)) := ⟨_, rfl⟩
    rw [show high c0 = M by omega] at u0
    rw [show high c1 = M by omega] at u1
    rw [show high c2 = M by omega] at u2
    rw [show high c3 = M by omega] at u3
    rw [← eM]
    exact .node p u0 u1 u2 u3

theorem uniform_high {P : Type} {d : Nat} {t : Tree P} (h : Uniform d t) : high t = d := by
  induction h with
  | leaf => rfl
  | node p h0 h1 h2 h3 i0 i1 i2 i3 => simp [high, i0, i1, i2, i3]

omit [LinearOrder K] [IsStrictOrderedRing K] in
theorem res_low (N : Nat) (t : Tree (Patch K)) : res N t = N * 2 ^ low t := by
  have key : ∀ a b, min (N * 2 ^ a) (N * 2 ^ b) = N * 2 ^ min a b := by
    intro a b
    rcases le_total a b with h | h
    · rw [min_eq_left h, min_eq_left (Nat.mul_le_mul_left N (Nat.pow_le_pow_right (by omega) h))]
    · rw [min_eq_right h, min_eq_right (Nat.mul_le_mul_left N (Nat.pow_le_pow_right (by omega) h))]
  induction t with
  | leaf => simp [res, low]
  | node p c0 c1 c2 c3 i0 i1 i2 i3 =>
    rw [res, low, i0, i1, i2, i3, key, key, key, pow_succ]
    ring

theorem hx_anti {R : Rect K} (hR : Proper R) {a b : Nat} (ha : 0 < a) (h : a ≤ b) : hx R b ≤ hx R a := by
  unfold hx
  have := hR.1
  exact div_le_div_of_nonneg_left (by linarith) (by exact_mod_cast ha) (by exact_mod_cast h)

theorem hy_anti {R : Rect K} (hR : Proper R) {a b : Nat} (ha : 0 < a) (h : a ≤ b) : hy R b ≤ hy R a := by
  unfold hy
  have := hR.2
  exact div_le_div_of_nonneg_left (by linarith) (by exact_mod_cast ha) (by exact_mod_cast h)

/-- The inverse squares of the cell widths. -/
def widths (R : Rect K) (m : Nat) : K := 1 / hx R m ^ 2 + 1 / hy R m ^ 2

theorem widths_mono {R : Rect K} (hR : Proper R) {a b : Nat} (ha : 0 < a) (h : a ≤ b) : widths R a ≤ widths R b := by
  have h1 := hx_pos hR ha
  have h2 := hy_pos hR ha
  have h3 := hx_pos hR (show 0 < b by omega)
  have h4 := hy_pos hR (show 0 < b by omega)
  unfold widths
  refine add_le_add (one_div_le_one_div_of_le (by positivity) ?_) (one_div_le_one_div_of_le (by positivity) ?_)
  · exact pow_le_pow_left₀ h3.le (hx_anti hR ha h) 2
  · exact pow_le_pow_left₀ h4.le (hy_anti hR ha h) 2

theorem widths_quarter (R : Rect K) (n c : Nat) : widths (R.quarter c) n = widths R (2 * n) := by
  unfold widths
  rw [hx_quarter, hy_quarter]

/-- Same value on blocks of `2^a` cells. -/
def OnBlocks (d : Nat → Nat → K) (a : Nat) : Prop := ∀ p i j, i / 2 ^ a = j / 2 ^ a → d p i = d p j

theorem Near.mono {n : Nat} {T : Blk K} {d : Nat → Nat → K} {e e' : K} (h : Near n T d e) (h0 : ∀ p, p < 4 → ∀ i, i < n → 0 < d p i)
    (he : e ≤ e') : Near n T d e' := by
  intro g M D p hp D0 hM hD i hi
  have M0 : 0 ≤ M := (abs_nonneg _).trans (hM p hp i hi)
  refine (h g M D p hp D0 hM hD i hi).trans (mul_le_mul_of_nonneg_left ?_ (h0 p hp i hi).le)
  have := mul_le_mul_of_nonneg_right he M0
  linarith

/-- The operators of a uniform subtree. -/
theorem Built.near_uniform (lu : PetscLU K) {s : FVSolver K} (hN : 3 ≤ N) {B Λ e : K} (he : 0 ≤ e) (hB : 0 ≤ B) {t : Tree (Patch K)}
    {R : Rect K} {k m : Nat} {T : Blk K} (ht : Built N (LPs N (s.toPatchSolver lu)) t R k m T) (hR : Proper R) (hE : EllipticOn s R)
    (hD : Damped s R B Λ) {H : Nat} (hH : high t ≤ H) (hl : 2 * B * widths R (N * 2 ^ H) ≤ e * Λ) (E a : Nat) {d : Nat} (hu : Uniform d t) :
    (∃ d, Near (m * 2 ^ k) T d ((17 / 8) ^ E * e) ∧ (∀ p, p < 4 → ∀ i, i < m * 2 ^ k → 0 < d p i) ∧ OnBlocks d a) ∧
      Branches (fun p => NonsingularMat p.X) t := by
  obtain ⟨h1, h2⟩ := ht.globalN lu (by omega) hu hR hE
  have e1 := ht.res_eq
  rw [res_uniform hu] at e1
  rw [← e1] at h1 ⊢
  have hdH : d ≤ H := by rw [← uniform_high hu]; exact hH
  have hpos : 0 < N * 2 ^ d := by positivity
  have hle : N * 2 ^ d ≤ N * 2 ^ H := Nat.mul_le_mul_left N (Nat.pow_le_pow_right (by omega) hdH)
  have h2m : 2 ≤ N * 2 ^ d := le_trans (by omega) (Nat.le_mul_of_pos_right N (by positivity))
  have hd0 : ∀ p, p < 4 → ∀ i, i < N * 2 ^ d → 0 < (fun p (_ : Nat) => invHalf R (N * 2 ^ d) p) p i :=
    fun p _ _ _ => invHalf_pos hR hpos p
  have hn := h1.near hR hE hD h2m he
    (le_trans (mul_le_mul_of_nonneg_left (widths_mono hR hpos hle) (by positivity)) hl)
  exact ⟨⟨_, hn.mono hd0 (le_mul_of_one_le_left he (one_le_pow₀ (by norm_num))), hd0, fun _ _ _ _ => rfl⟩, h2⟩

theorem levels_of {a0 a1 a2 a3 b0 b1 b2 b3 k0 k1 k2 k3 l E : Nat} (hz : k0 = 0 ∨ k1 = 0 ∨ k2 = 0 ∨ k3 = 0) (l0 : a0 = l + k0) (l1 : a1 = l + k1)
    (l2 : a2 = l + k2) (l3 : a3 = l + k3) (h : max (max b0 b1) (max b2 b3) + 1 ≤ min (min a0 a1) (min a2 a3) + 1 + E) :
    b0 ≤ l + E ∧ b1 ≤ l + E ∧ b2 ≤ l + E ∧ b3 ≤ l + E := by
  omega

theorem levels_max {b0 b1 b2 b3 H : Nat} (h : max (max b0 b1) (max b2 b3) + 1 ≤ H) :
    ∃ H', H = H' + 1 ∧ b0 ≤ H' ∧ b1 ≤ H' ∧ b2 ≤ H' ∧ b3 ≤ H' := ⟨H - 1, by omega⟩

/-- Coarsening a child. -/
theorem near_child {n k E a : Nat} {T : Blk K} {e : K} (hn : 3 ≤ n) (hk : k ≤ E)
    (h : ∃ d, Near (n * 2 ^ k) T d ((17 / 8) ^ (E - k) * e) ∧ (∀ p, p < 4 → ∀ i, i < n * 2 ^ k → 0 < d p i) ∧ OnBlocks d (a + k)) :
    ∃ d, Near n (crsN k n T) d ((17 / 8) ^ E * e) ∧ (∀ p, p < 4 → ∀ i, i < n → 0 < d p i) ∧ OnBlocks d a := by
  obtain ⟨d, h1, h2, h3⟩ := h
  have p1 : 0 < 2 ^ k := by positivity
  refine ⟨fun p i => d p (2 ^ k * i), ?_, ?_, ?_⟩
  · have := Near.crsN k (Or.inr hn) h1 (fun p _ i j _ _ hij => h3 p i j (by
      rw [add_comm a k, pow_add, ← Nat.div_div_eq_div_mul, ← Nat.div_div_eq_div_mul, hij])) h2
    rwa [← mul_assoc, ← pow_add, show k + (E - k) = E by omega] at this
  · intro p hp i hi
    exact h2 p hp _ (by rw [mul_comm]; exact Nat.mul_lt_mul_of_pos_right hi p1)
  · intro p i j hij
    refine h3 p _ _ ?_
    rw [add_comm a k, pow_add, Nat.mul_div_mul_left _ _ p1, Nat.mul_div_mul_left _ _ p1, hij]

omit [LinearOrder K] [IsStrictOrderedRing K] in
theorem OnBlocks.dOf {n a : Nat} {d : Nat → Nat → Nat → K} (h : ∀ c, OnBlocks (d c) a) (hn : 2 ^ a ∣ n) : OnBlocks (dOf n d) a := by
  obtain ⟨q, rfl⟩ := hn
  intro p i j hij
  unfold HPS.dOf
  have e1 : i / (2 ^ a * q) = j / (2 ^ a * q) := by
    rw [← Nat.div_div_eq_div_mul, ← Nat.div_div_eq_div_mul, hij]
  rw [e1]
  refine h _ _ _ _ ?_
  rw [Nat.mod_mul_right_div_self, Nat.mod_mul_right_div_self, hij]

/-- The operators of a built tree whose leaf levels differ by at most `E`, and its interface systems. -/
theorem Built.near (lu : PetscLU K) {s : FVSolver K} (hN : 3 ≤ N) {B Λ e : K} (he : 0 ≤ e) (hB : 0 ≤ B) {t : Tree (Patch K)} {R : Rect K} {k m : Nat} {T : Blk K}
    (ht : Built N (LPs N (s.toPatchSolver lu)) t R k m T) (hR : Proper R) (hE : EllipticOn s R) (hD : Damped s R B Λ) {H : Nat}
    (hH : high t ≤ H) (hl : 2 * B * widths R (N * 2 ^ H) ≤ e * Λ) {E a : Nat} (hL : high t ≤ low t + E) (h3 : 3 * ((17 / 8) ^ E * e) < 1)
    (hdv : E ≤ 1 ∨ 2 ^ (a + E) ∣ N) (ha : a = 0 ∨ (∃ d, Uniform d t) ∨ 2 ^ (a + E) ∣ N) :
    (∃ d, Near (m * 2 ^ k) T d ((17 / 8) ^ E * e) ∧ (∀ p, p < 4 → ∀ i, i < m * 2 ^ k → 0 < d p i) ∧ OnBlocks d a) ∧
      Branches (fun p => NonsingularMat p.X) t := by
  induction ht generalizing H E a with
  | @leaf p R T hk hx hy hR' hT hL' => exact (Built.leaf hk hx hy hR' hT hL').near_uniform lu hN he hB hR hE hD hH hl E a (.leaf p)
  | @node p R c0 c1 c2 c3 n k m k0 k1 k2 k3 T0 T1 T2 T3 S TT h0 h1 h2 h3' hTT hz hn hm hN' h3m hk hx hy hR' hX hH' hS hSol hT i0 i1 i2 i3 =>
    by_cases hu : ∃ d, Uniform d (Tree.node p c0 c1 c2 c3)
    · obtain ⟨d, hu⟩ := hu
      exact (Built.node h0 h1 h2 h3' hTT hz hn hm hN' h3m hk hx hy hR' hX hH' hS hSol hT).near_uniform lu hN he hB hR hE hD hH hl E a hu
    have ha' : a = 0 ∨ 2 ^ (a + E) ∣ N := by
      rcases ha with h | h | h
      · exact Or.inl h
      · exact absurd h hu
      · exact Or.inr h
    have hN0 : 0 < N := by omega
    have lv : ∀ {c : Tree (Patch K)} {kc : Nat} {Rc : Rect K} {Tc : Blk K}, Built N (LPs N (s.toPatchSolver lu)) c Rc kc n Tc →
        n * 2 ^ kc = N * 2 ^ low c := fun h => by rw [← h.res_eq, res_low]
    obtain ⟨l, hl'⟩ : ∃ l, n = N * 2 ^ l := by
      rcases hz with rfl | rfl | rfl | rfl
      · exact ⟨_, by simpa using lv h0⟩
      · exact ⟨_, by simpa using lv h1⟩
      · exact ⟨_, by simpa using lv h2⟩
      · exact ⟨_, by simpa using lv h3'⟩
    have lw : ∀ {c : Tree (Patch K)} {kc : Nat}, n * 2 ^ kc = N * 2 ^ low c → low c = l + kc := by
      intro c kc h
      rw [hl', mul_assoc, ← pow_add] at h
      exact (Nat.pow_right_injective (le_refl 2) (Nat.eq_of_mul_eq_mul_left hN0 h)).symm
    have l0 := lw (lv h0)
    have l1 := lw (lv h1)
    have l2 := lw (lv h2)
    have l3 := lw (lv h3')
    simp only [low, high] at hL hH
    have g0 := low_le_high c0
    have g1 := low_le_high c1
    have g2 := low_le_high c2
    have g3 := low_le_high c3
    obtain ⟨H', rfl, m0, m1, m2, m3⟩ := levels_max hH
    obtain ⟨f0, f1, f2, f3⟩ := levels_of hz l0 l1 l2 l3 hL
    have hw : ∀ q, 2 * B * widths (R.quarter q) (N * 2 ^ H') ≤ e * Λ := by
      intro q
      rw [widths_quarter, show 2 * (N * 2 ^ H') = N * 2 ^ (H' + 1) by ring]
      exact hl
    have hn3 : 3 ≤ n := by
      rw [hl']
      exact le_trans hN (Nat.le_mul_of_pos_right N (by positivity))
    have side : ∀ {c : Tree (Patch K)} {kc : Nat}, low c = l + kc → high c ≤ l + E → low c ≤ high c →
        kc ≤ E ∧ high c ≤ low c + (E - kc) ∧ 3 * ((17 / 8 : K) ^ (E - kc) * e) < 1 ∧ (E - kc ≤ 1 ∨ 2 ^ (a + kc + (E - kc)) ∣ N) ∧
        (a + kc = 0 ∨ (∃ d, Uniform d c) ∨ 2 ^ (a + kc + (E - kc)) ∣ N) := by
      intro c kc h1 h2 h4
      have hk : kc ≤ E := by omega
      rw [show a + kc + (E - kc) = a + E by omega]
      refine ⟨hk, by omega, ?_, ?_, ?_⟩
      · have : (17 / 8 : K) ^ (E - kc) ≤ (17 / 8) ^ E := pow_le_pow_right₀ (by norm_num) (by omega)
        have := mul_le_mul_of_nonneg_right this he
        linarith
      · rcases hdv with h | h
        · exact Or.inl (by omega)
        · exact Or.inr h
      · rcases ha' with h | h
        · rcases hdv with h5 | h5
          · rcases Nat.eq_zero_or_pos kc with h6 | h6
            · exact Or.inl (by omega)
            · exact Or.inr (Or.inl ⟨_, uniform_of_levels c (by omega)⟩)
          · exact Or.inr (Or.inr h5)
        · exact Or.inr (Or.inr h)
    have hP := fun q => proper_quarter hR q
    have hEq := fun q => elliptic_quarter hR hE q
    have hDq := fun q => hD.quarter hR q
    obtain ⟨q0, r0, s0, t0, w0⟩ := side l0 f0 g0
    obtain ⟨q1, r1, s1, t1, w1⟩ := side l1 f1 g1
    obtain ⟨q2, r2, s2, t2, w2⟩ := side l2 f2 g2
    obtain ⟨q3, r3, s3, t3, w3⟩ := side l3 f3 g3
    obtain ⟨z0, b0⟩ := i0 (hP 0) (hEq 0) (hDq 0) m0 (hw 0) r0 s0 t0 w0
    obtain ⟨z1, b1⟩ := i1 (hP 1) (hEq 1) (hDq 1) m1 (hw 1) r1 s1 t1 w1
    obtain ⟨z2, b2⟩ := i2 (hP 2) (hEq 2) (hDq 2) m2 (hw 2) r2 s2 t2 w2
    obtain ⟨z3, b3⟩ := i3 (hP 3) (hEq 3) (hDq 3) m3 (hw 3) r3 s3 t3 w3
    obtain ⟨d0, x0, y0, o0⟩ := near_child hn3 q0 z0
    obtain ⟨d1, x1, y1, o1⟩ := near_child hn3 q1 z1
    obtain ⟨d2, x2, y2, o2⟩ := near_child hn3 q2 z2
    obtain ⟨d3, x3, y3, o3⟩ := near_child hn3 q3 z3
    obtain ⟨d, ed⟩ : ∃ d : Nat → Nat → Nat → K, d = fun c => match c with | 0 => d0 | 1 => d1 | 2 => d2 | _ => d3 := ⟨_, rfl⟩
    have hTc : ∀ c, c < 4 → Near n (TT c) (d c) ((17 / 8) ^ E * e) := by
      intro c hc
      rw [hTT, ed]
      interval_cases c
      · exact x0
      · exact x1
      · exact x2
      · exact x3
    have hdc : ∀ c, c < 4 → ∀ p, p < 4 → ∀ i, i < n → 0 < d c p i := by
      intro c hc
      rw [ed]
      interval_cases c
      · exact y0
      · exact y1
      · exact y2
      · exact y3
    have hob : ∀ c, OnBlocks (d c) a := by
      intro c
      rw [ed]
      beta_reduce
      split
      · exact o0
      · exact o1
      · exact o2
      · exact o3
    refine ⟨⟨dOf n d, ?_, ?_, ?_⟩, nonsingularMat_of hX (Near.bnonsing h3 hTc hdc), b0, b1, b2, b3⟩
    · rw [hm]
      exact Near.merge hn h3 hTc hdc hSol
    · rw [hm]
      intro p hp i hi
      have hz : i / n < 2 := Nat.div_lt_of_lt_mul (by rw [mul_comm]; exact hi)
      unfold HPS.dOf
      generalize i / n = z at hz ⊢
      have hex := ex_lt (p * 2 + z) (by omega)
      exact hdc _ hex.1 _ hex.2 _ (Nat.mod_lt i hn)
    · refine OnBlocks.dOf hob ?_
      rcases ha' with rfl | h
      · simp
      · rw [hl']
        exact dvd_mul_of_dvd_left ((pow_dvd_pow 2 (by omega)).trans h) _

end HPS
end EF
