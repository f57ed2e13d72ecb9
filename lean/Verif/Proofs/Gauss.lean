import Verif.Props.Stages
import Verif.Proofs.Thermal
import Verif.Proofs.Same

/-!
# Summing the flux over the sides of an adaptive tree
-/

namespace EF
namespace HPS

open Finset FV

variable {K : Type} [Field K] [CharZero K] {N : Nat}

/-- Mean of the flux over a side of a subtree. -/
def sideMean (N : Nat) (φ : Patch K → Nat → Nat → K) (t : Tree (Patch K)) (s : Nat) : K :=
  (∑ i ∈ range (res N t), sideFlux N φ t s i) / res N t

/-- Flux out of a subtree on the rectangle `R`. -/
def outflow (N : Nat) (φ : Patch K → Nat → Nat → K) (R : Rect K) (t : Tree (Patch K)) : K :=
  (R.yu - R.yl) * (sideMean N φ t 1 - sideMean N φ t 0) + (R.xu - R.xl) * (sideMean N φ t 3 - sideMean N φ t 2)

omit [CharZero K] in
theorem res_pow (N : Nat) (t : Tree (Patch K)) : ∃ j, res N t = N * 2 ^ j := by
  induction t with
  | leaf => exact ⟨0, by simp [res]⟩
  | node p c0 c1 c2 c3 i0 i1 i2 i3 =>
    have key : ∀ a b, (∃ j, a = N * 2 ^ j) → (∃ j, b = N * 2 ^ j) → ∃ j, min a b = N * 2 ^ j := by
      intro a b ha hb
      rcases min_choice a b with h | h <;> rw [h]
      · exact ha
      · exact hb
    obtain ⟨j, hj⟩ := key _ _ (key _ _ i0 i1) (key _ _ i2 i3)
    exact ⟨j + 1, by rw [res, hj]; ring⟩

omit [CharZero K] in
theorem res_dvd (hN : 0 < N) {a b : Nat} (ha : ∃ j, a = N * 2 ^ j) (hb : ∃ j, b = N * 2 ^ j) (h : a ≤ b) : a ∣ b := by
  obtain ⟨i, rfl⟩ := ha
  obtain ⟨j, rfl⟩ := hb
  have : 2 ^ i ≤ 2 ^ j := Nat.le_of_mul_le_mul_left h hN
  exact Nat.mul_dvd_mul_left N (Nat.pow_dvd_pow 2 ((Nat.pow_le_pow_iff_right (by omega)).mp this))

theorem mean_meanOver {n r : Nat} (hn : 0 < n) (hr : 0 < r) (x : Nat → K) :
    (∑ i ∈ range n, meanOver r x i) / n = (∑ i ∈ range (n * r), x i) / ((n * r : Nat) : K) := by
  have h1 : (n : K) ≠ 0 := by exact_mod_cast hn.ne'
  have h2 : (r : K) ≠ 0 := by exact_mod_cast hr.ne'
  rw [sum_range_mul]
  unfold meanOver
  simp only [div_eq_mul_inv _ (r : K)]
  rw [← sum_mul]
  push_cast
  field_simp

omit [CharZero K] in
/-- The least resolution among the children divides all of them. -/
theorem res_min (hN : 0 < N) (c0 c1 c2 c3 : Tree (Patch K)) {n : Nat}
    (hn : n = min (min (res N c0) (res N c1)) (min (res N c2) (res N c3))) :
    0 < n ∧ n ∣ res N c0 ∧ n ∣ res N c1 ∧ n ∣ res N c2 ∧ n ∣ res N c3 ∧ 0 < res N c0 ∧ 0 < res N c1 ∧ 0 < res N c2 ∧ 0 < res N c3 := by
  have h0 := res_pow N c0
  have h1 := res_pow N c1
  have h2 := res_pow N c2
  have h3 := res_pow N c3
  have hp : ∀ {a}, (∃ j, a = N * 2 ^ j) → 0 < a := by
    rintro _ ⟨j, rfl⟩
    positivity
  have hm : ∃ j, n = N * 2 ^ j := by
    rw [hn]
    have key : ∀ a b, (∃ j, a = N * 2 ^ j) → (∃ j, b = N * 2 ^ j) → ∃ j, min a b = N * 2 ^ j := by
      intro a b ha hb
      rcases min_choice a b with h | h <;> rw [h]
      · exact ha
      · exact hb
    exact key _ _ (key _ _ h0 h1) (key _ _ h2 h3)
  have a0 : n ≤ res N c0 := by omega
  have a1 : n ≤ res N c1 := by omega
  have a2 : n ≤ res N c2 := by omega
  have a3 : n ≤ res N c3 := by omega
  exact ⟨hp hm, res_dvd hN hm h0 a0, res_dvd hN hm h1 a1, res_dvd hN hm h2 a2, res_dvd hN hm h3 a3, hp h0, hp h1, hp h2, hp h3⟩

/-- The mean over a side of a child, taken over the coarse cells. -/
theorem mean_child {φ : Patch K → Nat → Nat → K} {c : Tree (Patch K)} {n : Nat} (hn : 0 < n) (hd : n ∣ res N c) (hc : 0 < res N c) (s : Nat) :
    (∑ i ∈ range n, meanOver (res N c / n) (sideFlux N φ c s) i) / n = sideMean N φ c s := by
  have hr : 0 < res N c / n := Nat.div_pos (Nat.le_of_dvd hc hd) hn
  rw [mean_meanOver hn hr, Nat.mul_div_cancel' hd]
  rfl

theorem sideMean_node (hN : 0 < N) {φ : Patch K → Nat → Nat → K} (p : Patch K) (c0 c1 c2 c3 : Tree (Patch K)) {s : Nat} (hs : s < 4) :
    sideMean N φ (.node p c0 c1 c2 c3) s =
      (sideMean N φ (sideChild c0 c1 c2 c3 s 0) s + sideMean N φ (sideChild c0 c1 c2 c3 s 1) s) / 2 := by
  obtain ⟨n, en⟩ : ∃ n, n = min (min (res N c0) (res N c1)) (min (res N c2) (res N c3)) := ⟨_, rfl⟩
  obtain ⟨hn, d0, d1, d2, d3, p0, p1, p2, p3⟩ := res_min hN c0 c1 c2 c3 en
  have hres : res N (.node p c0 c1 c2 c3) = 2 * n := by rw [res, ← en]
  have hf : ∀ z, z < 2 → ∀ i, i < n → sideFlux N φ (.node p c0 c1 c2 c3) s (z * n + i) =
      meanOver (res N (sideChild c0 c1 c2 c3 s z) / n) (sideFlux N φ (sideChild c0 c1 c2 c3 s z) s) i := by
    intro z hz i hi
    rw [sideFlux, ← en]
    simp only [Mat.idx_div hi, Mat.idx_mod hi]
    rcases (by omega : s = 0 ∨ s = 1 ∨ s = 2 ∨ s = 3) with rfl | rfl | rfl | rfl <;>
      rcases (by omega : z = 0 ∨ z = 1) with rfl | rfl <;> rfl
  have hc : ∀ z, z < 2 → (∑ i ∈ range n, sideFlux N φ (.node p c0 c1 c2 c3) s (z * n + i)) / (n : K) =
      sideMean N φ (sideChild c0 c1 c2 c3 s z) s := by
    intro z hz
    rw [sum_congr rfl (fun i hi => hf z hz i (mem_range.mp hi))]
    have h : n ∣ res N (sideChild c0 c1 c2 c3 s z) ∧ 0 < res N (sideChild c0 c1 c2 c3 s z) := by
      rcases (by omega : s = 0 ∨ s = 1 ∨ s = 2 ∨ s = 3) with rfl | rfl | rfl | rfl <;>
        rcases (by omega : z = 0 ∨ z = 1) with rfl | rfl <;> simp only [sideChild] <;> constructor <;> assumption
    exact mean_child hn h.1 h.2 s
  rw [← hc 0 (by omega), ← hc 1 (by omega)]
  rw [sideMean, hres, sum_range_mul, sum_range_succ, sum_range_one]
  have h1 : (n : K) ≠ 0 := by exact_mod_cast hn.ne'
  push_cast
  field_simp

/-- With conserved fluxes the flux out of a tree is the sum of the fluxes out of its leaves. -/
theorem outflow_leaves (hN : 0 < N) {φ : Patch K → Nat → Nat → K} {t : Tree (Patch K)} {R : Rect K} (hp : Placed N t R) (hc : Conserved N φ t) :
    outflow N φ R t = (t.leaves.map (fun p => outflow N φ (rect p.grid) (.leaf p))).sum := by
  induction hp with
  | leaf hx hy hR => simp [Tree.leaves, rect_of_inRect hR]
  | @node p R c0 c1 c2 c3 h0 h1 h2 h3 i0 i1 i2 i3 =>
    obtain ⟨n, en⟩ : ∃ n, n = min (min (res N c0) (res N c1)) (min (res N c2) (res N c3)) := ⟨_, rfl⟩
    obtain ⟨hn, d0, d1, d2, d3, p0, p1, p2, p3⟩ := res_min hN c0 c1 c2 c3 en
    rw [Conserved, ← en] at hc
    obtain ⟨hi, k0, k1, k2, k3⟩ := hc
    simp only [Tree.leaves, List.map_append, List.sum_append]
    rw [← i0 k0, ← i1 k1, ← i2 k2, ← i3 k3]
    have m0 : sideMean N φ c0 1 = sideMean N φ c1 0 := by
      rw [← mean_child hn d0 p0, ← mean_child hn d1 p1, sum_congr rfl (fun i h => (hi i (mem_range.mp h)).1)]
    have m1 : sideMean N φ c2 1 = sideMean N φ c3 0 := by
      rw [← mean_child hn d2 p2, ← mean_child hn d3 p3, sum_congr rfl (fun i h => (hi i (mem_range.mp h)).2.1)]
    have m2 : sideMean N φ c0 3 = sideMean N φ c2 2 := by
      rw [← mean_child hn d0 p0, ← mean_child hn d2 p2, sum_congr rfl (fun i h => (hi i (mem_range.mp h)).2.2.1)]
    have m3 : sideMean N φ c1 3 = sideMean N φ c3 2 := by
      rw [← mean_child hn d1 p1, ← mean_child hn d3 p3, sum_congr rfl (fun i h => (hi i (mem_range.mp h)).2.2.2)]
    unfold outflow
    rw [sideMean_node hN _ _ _ _ _ (by omega), sideMean_node hN _ _ _ _ _ (by omega), sideMean_node hN _ _ _ _ _ (by omega),
      sideMean_node hN _ _ _ _ _ (by omega), m0, m1, m2, m3]
    have q : ∀ k, k < 4 → (R.quarter k).yu - (R.quarter k).yl = (R.yu - R.yl) / 2 ∧ (R.quarter k).xu - (R.quarter k).xl = (R.xu - R.xl) / 2 := by
      intro k hk
      interval_cases k <;> constructor <;> norm_num [Rect.quarter] <;> ring
    rw [(q 0 (by omega)).1, (q 0 (by omega)).2, (q 1 (by omega)).1, (q 1 (by omega)).2, (q 2 (by omega)).1, (q 2 (by omega)).2,
      (q 3 (by omega)).1, (q 3 (by omega)).2]
    simp only [sideChild]
    field_simp
    ring

end HPS
end EF
