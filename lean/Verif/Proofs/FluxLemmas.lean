import Verif.Spec.Flux
import Verif.Proofs.TreeStages
import Mathlib.Tactic.IntervalCases

/-!
# Fluxes of solved trees
-/

namespace EF
namespace HPS

open Finset

variable {K : Type} [Field K] {N : Nat} {LP : Grid K → Blk K → Prop}
  {HP : Grid K → Vec K → (Nat → Nat → K) → Prop} {UP : Grid K → (Nat → Nat → K) → Vec K → Vec K → Prop}

theorem rst_add (m : Nat) (a b : Nat → Nat → K) :
    rst m (fun p i => a p i + b p i) = fun p i => rst m a p i + rst m b p i := by
  funext p i
  simp [rst, mul_add, sum_add_distrib]

theorem rstN_add (k m : Nat) (a b : Nat → Nat → K) :
    rstN k m (fun p i => a p i + b p i) = fun p i => rstN k m a p i + rstN k m b p i := by
  induction k generalizing m with
  | zero => rfl
  | succ k ih => rw [rstN, ih, rst_add]; rfl

/-- `app` through doubled blocks. -/
theorem app_dbl (n : Nat) (B : Blk K) (x : Nat → Nat → K) (s i : Nat) :
    app (2 * n) 4 (dbl n B) x s i = app n 8 B (hlv n x) (s * 2 + i / n) (i % n) := by
  unfold app dbl hlv
  have h : ∀ q, ∑ j ∈ range (2 * n), B (s * 2 + i / n) (q * 2 + j / n) (i % n) (j % n) * x q j
      = ∑ z ∈ range 2, ∑ j ∈ range n, B (s * 2 + i / n) (q * 2 + z) (i % n) j * x q (z * n + j) := by
    intro q
    rw [sum_range_mul]
    apply sum_congr rfl; intro z _
    apply sum_congr rfl; intro j hj
    rw [Mat.idx_div (mem_range.mp hj), Mat.idx_mod (mem_range.mp hj)]
  simp only [h]
  rw [show (8 : Nat) = 4 * 2 from rfl, sum_range_mul 4 2]
  apply sum_congr rfl; intro q _
  apply sum_congr rfl; intro z hz
  apply sum_congr rfl; intro j _
  have hz2 := mem_range.mp hz
  rw [show (q * 2 + z) / 2 = q by omega, show (q * 2 + z) % 2 = z by omega]

/-- The common side length of the four children. -/
theorem min_eq {n k0 k1 k2 k3 : Nat} (hz : k0 = 0 ∨ k1 = 0 ∨ k2 = 0 ∨ k3 = 0) :
    min (min (n * 2 ^ k0) (n * 2 ^ k1)) (min (n * 2 ^ k2) (n * 2 ^ k3)) = n := by
  have hge : ∀ k, n ≤ n * 2 ^ k := fun k => Nat.le_mul_of_pos_right n (by positivity)
  have h0 := hge k0
  have h1 := hge k1
  have h2 := hge k2
  have h3 := hge k3
  rcases hz with rfl | rfl | rfl | rfl <;> rw [pow_zero, mul_one] at * <;> omega

theorem Slv.res_eq {t : Tree (Patch K)} {R : Rect K} {k m : Nat} {T : Blk K} {h g : Nat → Nat → K}
    (ht : Slv N LP HP UP t R k m T h g) : res N t = m * 2 ^ k := by
  induction ht with
  | leaf => simp [res]
  | @node p R c0 c1 c2 c3 n k m k0 k1 k2 k3 T0 T1 T2 T3 S TT f0 f1 f2 f3 w g G u hh h0 h1 h2 h3 hTT hhh hz hn hm hN h3m
      hk hx hy hR hX hSol hW hG hu hg i0 i1 i2 i3 =>
    rw [res, i0, i1, i2, i3, hm]
    rw [min_eq hz]

/-- The mean over the fine cells is the repeated restriction. -/
theorem meanOver_rstN [CharZero K] {n k : Nat} (hn : 0 < n) {x : Nat → Nat → K} {s i : Nat} (hi : i < n) {y : Nat → K}
    (hy : ∀ j, j < n * 2 ^ k → y j = x s j) : meanOver (n * 2 ^ k / n) y i = rstN k n x s i := by
  rw [Nat.mul_div_cancel_left _ hn, rstN_eq _ _ _ _ _ hi, meanOver, Nat.cast_pow, Nat.cast_ofNat]
  congr 1
  apply sum_congr rfl
  intro j hj
  apply hy
  have hj := mem_range.mp hj
  calc i * 2 ^ k + j < i * 2 ^ k + 2 ^ k := by omega
    _ = (i + 1) * 2 ^ k := by ring
    _ ≤ n * 2 ^ k := Nat.mul_le_mul_right _ hi

/-- Total flux of a solved patch as computed by its operator. -/
def opFlux (M : Nat) (T : Blk K) (g h : Nat → Nat → K) (s i : Nat) : K := app M 4 T g s i + h s i

/-- The coarsened total flux of child `c`. -/
theorem coarse_flux [CharZero K] {n k : Nat} (hn : 0 < n) {T : Blk K} {g h : Nat → Nat → K} {y : Nat → Nat → K}
    (hy : ∀ s, s < 4 → ∀ j, j < n * 2 ^ k → y s j = opFlux (n * 2 ^ k) T (proN k n g) h s j) {s i : Nat} (hs : s < 4)
    (hi : i < n) :
    meanOver (n * 2 ^ k / n) (y s) i = fl n (crsN k n T) g s i + rstN k n h s i := by
  rw [meanOver_rstN hn hi (hy s hs)]
  have := rstN_add k n (app (n * 2 ^ k) 4 T (proN k n g)) h
  unfold opFlux
  rw [this]
  simp only []
  rw [← app_crsN]
  rfl

/-- In a solved tree with nonsingular interface systems fluxes are conserved, and the flux through the sides of
every subtree is the one its operator gives. -/
theorem Slv.flux [CharZero K] {φ : Patch K → Nat → Nat → K}
    (hφ : ∀ (p : Patch K) (T : Blk K) (h g : Nat → Nat → K), p.grid.nx = N → p.grid.ny = N → LP p.grid T →
      HP p.grid p.f h → p.g = bv N 4 g → UP p.grid g p.f p.u →
      ∀ s, s < 4 → ∀ i, i < N → φ p s i = opFlux N T g h s i)
    {t : Tree (Patch K)} {R : Rect K} {k m : Nat} {T : Blk K} {h g : Nat → Nat → K}
    (ht : Slv N LP HP UP t R k m T h g) (hB : Branches (fun p => NonsingularMat p.X) t) :
    (∀ s, s < 4 → ∀ i, i < m * 2 ^ k → sideFlux N φ t s i = opFlux (m * 2 ^ k) T (proN k m g) h s i) ∧
      Conserved N φ t := by
  induction ht with
  | @leaf p R T h g hk hx hy hR hT hL hh hg hu =>
    refine ⟨?_, trivial⟩
    intro s hs i hi
    rw [sideFlux]
    simp only [pow_zero, mul_one] at hi ⊢
    exact hφ p T h g hx hy hL hh hg hu s hs i hi
  | @node p R c0 c1 c2 c3 n k m k0 k1 k2 k3 T0 T1 T2 T3 S TT f0 f1 f2 f3 w g G u hh h0 h1 h2 h3 hTT hhh hz hn hm hN h3m
      hk hx hy hR hX hSol hW hG hu hg i0 i1 i2 i3 =>
    obtain ⟨hp, b0, b1, b2, b3⟩ := hB
    have ⟨e0, v0⟩ := i0 b0
    have ⟨e1, v1⟩ := i1 b1
    have ⟨e2, v2⟩ := i2 b2
    have ⟨e3, v3⟩ := i3 b3
    have hns : BNonsing n 4 (Xf TT) := by
      obtain ⟨n', a, ha, hna⟩ := hp
      rw [hX] at ha
      have hsz : n' = 4 * n := by have := ha.1; simp at this; omega
      subst hsz
      refine bnonsing_iff.mp (hna.congr ?_)
      intro i hi j hj
      have h1 := ha.2.2.2 i hi j hj
      rw [bm] at h1
      have h2 := (Mat.has_ofFn (4 * n) (4 * n) (fun i j => Xf TT (i / n) (j / n) (i % n) (j % n))).2.2.2 i hi j hj
      rw [h2] at h1
      exact (Res.ok_inj.mp h1).symm
    have r0 := h0.res_eq
    have r1 := h1.res_eq
    have r2 := h2.res_eq
    have r3 := h3.res_eq
    have hmin := min_eq (n := n) hz
    have q0 : ∀ s, s < 4 → ∀ i, i < n → meanOver (res N c0 / n) (sideFlux N φ c0 s) i = tfl n TT hh G u (0, s) i := by
      intro s hs i hi
      rw [r0, coarse_flux hn e0 hs hi, hTT, hhh]; rfl
    have q1 : ∀ s, s < 4 → ∀ i, i < n → meanOver (res N c1 / n) (sideFlux N φ c1 s) i = tfl n TT hh G u (1, s) i := by
      intro s hs i hi
      rw [r1, coarse_flux hn e1 hs hi, hTT, hhh]; rfl
    have q2 : ∀ s, s < 4 → ∀ i, i < n → meanOver (res N c2 / n) (sideFlux N φ c2 s) i = tfl n TT hh G u (2, s) i := by
      intro s hs i hi
      rw [r2, coarse_flux hn e2 hs hi, hTT, hhh]; rfl
    have q3 : ∀ s, s < 4 → ∀ i, i < n → meanOver (res N c3 / n) (sideFlux N φ c3 s) i = tfl n TT hh G u (3, s) i := by
      intro s hs i hi
      rw [r3, coarse_flux hn e3 hs hi, hTT, hhh]; rfl
    have hmin' : min (min (res N c0) (res N c1)) (min (res N c2) (res N c3)) = n := by
      rw [r0, r1, r2, r3]; exact hmin
    constructor
    · intro s hs i hi
      rw [hm] at hi ⊢
      have hz2 : i / n < 2 := Nat.div_lt_of_lt_mul (by rw [Nat.mul_comm]; exact hi)
      have hin : i % n < n := Nat.mod_lt _ hn
      rw [sideFlux]
      simp only [hmin']
      have hx1 : meanOver (sideChild (res N c0) (res N c1) (res N c2) (res N c3) s (i / n) / n)
          (sideChild (sideFlux N φ c0 s) (sideFlux N φ c1 s) (sideFlux N φ c2 s) (sideFlux N φ c3 s) s (i / n)) (i % n)
          = tfl n TT hh G u (ex (s * 2 + i / n)) (i % n) := by
        generalize i / n = z at hz2 ⊢
        interval_cases s <;> interval_cases z <;> simp only [sideChild, ex, List.getD_cons_zero, List.getD_cons_succ]
        · exact q0 0 (by omega) _ hin
        · exact q2 0 (by omega) _ hin
        · exact q1 1 (by omega) _ hin
        · exact q3 1 (by omega) _ hin
        · exact q0 2 (by omega) _ hin
        · exact q1 2 (by omega) _ hin
        · exact q2 3 (by omega) _ hin
        · exact q3 3 (by omega) _ hin
      rw [hx1, opFlux, app_dbl, ← hG, dblv, hu, ← total_ext n TT S hh w G (by omega)]
    · rw [Conserved]
      simp only [hmin']
      refine ⟨?_, v0, v1, v2, v3⟩
      intro i hi
      have hj := fun r hr => total_jump (hSol.1 hns) (hW.1 hns) G (r := r) hr (i := i) hi
      rw [← hu] at hj
      rw [q0 1 (by omega) i hi, q1 0 (by omega) i hi, q2 1 (by omega) i hi, q3 0 (by omega) i hi, q0 3 (by omega) i hi,
        q2 2 (by omega) i hi, q1 3 (by omega) i hi, q3 2 (by omega) i hi]
      exact ⟨hj 2 (by omega), hj 3 (by omega), hj 0 (by omega), hj 1 (by omega)⟩

end HPS
end EF
