import Verif.Proofs.MergeCore

/-!
# Block form of the coarsening and uncoarsening loops
-/

namespace EF
namespace HPS

open Finset

variable {K : Type} [Field K]

/-- Restriction of side data from `2m` to `m` cells. -/
def rst (m : Nat) (h : Nat → Nat → K) (p i : Nat) : K := ∑ s ∈ range (2 * m), Mat.f2cFn i s * h p s

/-- Prolongation of side data from `m` to `2m` cells. -/
def pro (m : Nat) (g : Nat → Nat → K) (p i : Nat) : K := ∑ t ∈ range m, Mat.c2fFn m i t * g p t

/-- The operator coarsened from `2m` to `m` cells per side. -/
def crs (m : Nat) (T : Nat → Nat → Nat → Nat → K) (p q i j : Nat) : K :=
  ∑ t ∈ range (2 * m), (∑ s ∈ range (2 * m), Mat.f2cFn i s * T p q s t) * Mat.c2fFn m t j

theorem app_crs (m : Nat) (T : Nat → Nat → Nat → Nat → K) (g : Nat → Nat → K) :
    app m 4 (crs m T) g = rst m (app (2 * m) 4 T (pro m g)) := by
  funext p i
  simp only [app, rst, crs, pro]
  have h : ∀ q, ∑ j ∈ range m, (∑ t ∈ range (2 * m), (∑ s ∈ range (2 * m), Mat.f2cFn i s * T p q s t) *
        Mat.c2fFn m t j) * g q j
      = ∑ s ∈ range (2 * m), Mat.f2cFn i s * ∑ t ∈ range (2 * m), T p q s t * ∑ j ∈ range m, Mat.c2fFn m t j * g q j := by
    intro q
    simp only [sum_mul, mul_sum]
    rw [sum_comm]
    rw [sum_congr rfl fun t _ => sum_comm]
    rw [sum_comm]
    apply sum_congr rfl; intro s _
    apply sum_congr rfl; intro t _
    apply sum_congr rfl; intro j _
    ring
  rw [sum_congr rfl fun q _ => h q, sum_comm]
  apply sum_congr rfl; intro s _
  rw [mul_sum]

/-- `blockDiagonalMatrix({L,L,L,L})` of a rectangular block. -/
theorem diag4_ofFn (r c : Nat) (f : Nat → Nat → K) :
    diag4 (Mat.ofFn r c f)
      = .ok (Mat.ofFn (4 * r) (4 * c) (fun i j => if i / r = j / c then f (i % r) (j % c) else 0)) :=
  Mat.blockDiagonal_uniform 4 r c (fun _ => f)

theorem sum_diag {c q0 : Nat} (hq : q0 < 4) (a : Nat → K) (b : Nat → Nat → K) :
    ∑ k ∈ range (4 * c), (if q0 = k / c then a (k % c) else 0) * b (k / c) (k % c)
      = ∑ s ∈ range c, a s * b q0 s := by
  rw [sum_range_blk 4 c (fun q s => (if q0 = q then a s else 0) * b q s)]
  rw [sum_eq_single q0]
  · simp
  · intro q _ hne
    apply sum_eq_zero
    intro s _
    rw [if_neg (fun h => hne h.symm), zero_mul]
  · intro h; exact absurd (mem_range.mpr hq) h

theorem diag4_mulVec {r c : Nat} (hc : 0 < c) (f : Nat → Nat → K) (b : Nat → Nat → K) :
    (Mat.ofFn (4 * r) (4 * c) (fun i j => if i / r = j / c then f (i % r) (j % c) else 0)).mulVec (bv c 4 b)
      = .ok (bv r 4 (fun p i => ∑ s ∈ range c, f i s * b p s)) := by
  unfold bv
  rw [Mat.mulVec_ofFn (by omega)]
  congr 1
  apply Vec.ofFn_congr
  intro i hi
  exact sum_diag (Mat.div_lt' hi) (fun s => f (i % r) s) b

theorem coarsen_T {m : Nat} (hm : 0 < m) (T : Nat → Nat → Nat → Nat → K) :
    (do let A ← (Mat.ofFn (4 * m) (4 * (2 * m)) (fun i j => if i / m = j / (2 * m) then
                  Mat.f2cFn (i % m) (j % (2 * m)) else 0)).mul (bm (2 * m) 4 4 T)
        A.mul (Mat.ofFn (4 * (2 * m)) (4 * m) (fun i j => if i / (2 * m) = j / m then
                  Mat.c2fFn m (i % (2 * m)) (j % m) else 0)))
      = .ok (bm m 4 4 (crs m T)) := by
  unfold bm
  rw [Mat.mul_ofFn (by omega) (by omega) (by omega), Res.ok_bind, Mat.mul_ofFn (by omega) (by omega) (by omega)]
  congr 1
  apply Mat.ofFn_congr
  intro i hi j hj
  have h1 : ∀ l, ∑ k ∈ range (4 * (2 * m)), (if i / m = k / (2 * m) then Mat.f2cFn (i % m) (k % (2 * m)) else 0) *
      T (k / (2 * m)) (l / (2 * m)) (k % (2 * m)) (l % (2 * m))
      = ∑ s ∈ range (2 * m), Mat.f2cFn (i % m) s * T (i / m) (l / (2 * m)) s (l % (2 * m)) := fun l =>
    sum_diag (Mat.div_lt' hi) (fun s => Mat.f2cFn (i % m) s) (fun q s => T q (l / (2 * m)) s (l % (2 * m)))
  simp only [h1]
  rw [sum_range_blk 4 (2 * m) (fun q t => (∑ s ∈ range (2 * m), Mat.f2cFn (i % m) s * T (i / m) q s t) *
    (if q = j / m then Mat.c2fFn m t (j % m) else 0))]
  rw [sum_eq_single (j / m)]
  · simp only [if_pos, crs]
  · intro q _ hne
    apply sum_eq_zero
    intro s _
    rw [if_neg hne, mul_zero]
  · intro h; exact absurd (mem_range.mpr (Mat.div_lt' hj)) h

/-- Coarsening `k` times, down to `m` cells per side. -/
def crsN : Nat → Nat → (Nat → Nat → Nat → Nat → K) → Nat → Nat → Nat → Nat → K
  | 0, _, T => T
  | k + 1, m, T => crs m (crsN k (2 * m) T)

/-- Restriction `k` times, down to `m` cells per side. -/
def rstN : Nat → Nat → (Nat → Nat → K) → Nat → Nat → K
  | 0, _, h => h
  | k + 1, m, h => rst m (rstN k (2 * m) h)

/-- Prolongation `k` times, up from `m` cells per side. -/
def proN : Nat → Nat → (Nat → Nat → K) → Nat → Nat → K
  | 0, _, g => g
  | k + 1, m, g => pro (m * 2 ^ k) (proN k m g)

theorem proN_succ (k m : Nat) (g : Nat → Nat → K) : proN (k + 1) m g = proN k (2 * m) (pro m g) := by
  induction k with
  | zero => simp [proN]
  | succ k ih =>
    rw [proN, ih, proN]
    congr 1
    ring

theorem app_crsN (k m : Nat) (T : Nat → Nat → Nat → Nat → K) (g : Nat → Nat → K) :
    app m 4 (crsN k m T) g = rstN k m (app (m * 2 ^ k) 4 T (proN k m g)) := by
  induction k generalizing m g with
  | zero => simp [crsN, rstN, proN]
  | succ k ih =>
    rw [crsN, app_crs, ih, ← proN_succ, rstN, show 2 * m * 2 ^ k = m * 2 ^ (k + 1) by ring]

theorem half_pow {nx m k n : Nat} (h : nx = m * 2 ^ k) (hn : n < k) :
    nx / 2 ^ n = 2 * (m * 2 ^ (k - (n + 1))) ∧ nx / 2 ^ n / 2 = m * 2 ^ (k - (n + 1)) := by
  have e : nx = m * 2 ^ (k - (n + 1)) * 2 * 2 ^ n := by
    rw [h, mul_assoc, mul_assoc, ← pow_succ', ← pow_add]
    congr 2
    omega
  have e2 : nx / 2 ^ n = m * 2 ^ (k - (n + 1)) * 2 := by
    rw [e, Nat.mul_div_cancel _ (by positivity)]
  rw [e2]
  omega

theorem coarsenStep_eq {m : Nat} (hm : 3 ≤ m) {n : Nat} {p : Patch K} (h1 : p.grid.nx / 2 ^ n = 2 * m)
    {T : Nat → Nat → Nat → Nat → K} (hT : p.T = bm (2 * m) 4 4 T) :
    coarsenStep n p = .ok { p with T := bm m 4 4 (crs m T), nCoarsens := p.nCoarsens + 1 } := by
  unfold coarsenStep
  simp only []
  rw [h1, show 2 * m / 2 = m by omega, Mat.fine2coarse_eq, Res.ok_bind, diag4_ofFn, Res.ok_bind,
    Mat.coarse2fine_eq hm, Res.ok_bind, diag4_ofFn, Res.ok_bind, hT, ← bind_assoc, coarsen_T (by omega)]
  rfl

theorem coarsenPatch_eq {m k : Nat} (hm : 3 ≤ m) {p : Patch K} (h1 : p.grid.nx = m * 2 ^ k)
    {T : Nat → Nat → Nat → Nat → K} (hT : p.T = bm (m * 2 ^ k) 4 4 T) :
    coarsenPatch k p = .ok { p with T := bm m 4 4 (crsN k m T), nCoarsens := p.nCoarsens + k } := by
  unfold coarsenPatch
  have := forN_ok (n := k) (body := coarsenStep) (fun n => ({ p with
    T := bm (m * 2 ^ (k - n)) 4 4 (crsN n (m * 2 ^ (k - n)) T), nCoarsens := p.nCoarsens + n } : Patch K)) (by
      intro n hn
      obtain ⟨e1, _⟩ := half_pow h1 hn
      have e3 : m * 2 ^ (k - n) = 2 * (m * 2 ^ (k - (n + 1))) := by
        rw [show k - n = (k - (n + 1)) + 1 by omega, pow_succ]; ring
      rw [e3]
      refine coarsenStep_eq (m := m * 2 ^ (k - (n + 1))) (T := crsN n (2 * (m * 2 ^ (k - (n + 1)))) T)
        (le_trans hm (Nat.le_mul_of_pos_right m (by positivity))) ?_ ?_
      · exact e1
      · rfl)
  simp only [Nat.sub_zero, Nat.sub_self, pow_zero, mul_one, Nat.add_zero, crsN] at this
  rw [← this, ← hT]

theorem coarsenPatch_zero (p : Patch K) : coarsenPatch 0 p = .ok p := rfl

theorem coarsenUpStep_eq {m : Nat} (hm : 0 < m) {n : Nat} {p : Patch K} (h1 : p.grid.nx / 2 ^ n = 2 * m)
    {h : Nat → Nat → K} (hh : p.h = bv (2 * m) 4 h) :
    coarsenUpStep n p = .ok { p with h := bv m 4 (rst m h) } := by
  unfold coarsenUpStep
  simp only []
  rw [h1, show 2 * m / 2 = m by omega, Mat.fine2coarse_eq, Res.ok_bind, diag4_ofFn, Res.ok_bind, hh,
    diag4_mulVec (by omega), Res.ok_bind]
  rfl

theorem coarsenUpPatch_eq {m k : Nat} (hm : 0 < m) {p : Patch K} (hk : p.nCoarsens = k)
    (h1 : p.grid.nx = m * 2 ^ k) {h : Nat → Nat → K} (hh : p.h = bv (m * 2 ^ k) 4 h) :
    coarsenUpPatch p = .ok { p with h := bv m 4 (rstN k m h) } := by
  unfold coarsenUpPatch
  rw [hk]
  have := forN_ok (n := k) (body := coarsenUpStep) (fun n => ({ p with
    h := bv (m * 2 ^ (k - n)) 4 (rstN n (m * 2 ^ (k - n)) h) } : Patch K)) (by
      intro n hn
      obtain ⟨e1, _⟩ := half_pow h1 hn
      have e3 : m * 2 ^ (k - n) = 2 * (m * 2 ^ (k - (n + 1))) := by
        rw [show k - n = (k - (n + 1)) + 1 by omega, pow_succ]; ring
      rw [e3]
      refine coarsenUpStep_eq (m := m * 2 ^ (k - (n + 1))) (h := rstN n (2 * (m * 2 ^ (k - (n + 1)))) h)
        (by positivity) ?_ ?_
      · exact e1
      · rfl)
  simp only [Nat.sub_zero, Nat.sub_self, pow_zero, mul_one, rstN] at this
  rw [hk] at this
  rw [← this, ← hh, ← hk]

theorem uncoarsenStep_eq {m : Nat} (hm : 3 ≤ m) {n : Nat} {p : Patch K}
    (h1 : p.grid.nx / 2 ^ (p.nCoarsens - (n + 1)) = 2 * m) {g : Nat → Nat → K} (hg : p.g = bv m 4 g) :
    uncoarsenStep n p = .ok { p with g := bv (2 * m) 4 (pro m g) } := by
  unfold uncoarsenStep
  simp only []
  rw [h1, Mat.coarse2fine_eq hm, Res.ok_bind, diag4_ofFn, Res.ok_bind, hg,
    diag4_mulVec (by omega), Res.ok_bind]
  rfl

theorem uncoarsen_eq {m k : Nat} (hm3 : k = 0 ∨ 3 ≤ m) {p : Patch K} (hk : p.nCoarsens = k)
    (h1 : p.grid.nx = m * 2 ^ k) {g : Nat → Nat → K} (hg : p.g = bv m 4 g) :
    uncoarsen p = .ok { p with g := bv (m * 2 ^ k) 4 (proN k m g) } := by
  unfold uncoarsen
  rw [hk]
  have := forN_ok (n := k) (body := uncoarsenStep) (fun n => ({ p with
    g := bv (m * 2 ^ n) 4 (proN n m g) } : Patch K)) (by
      intro n hn
      have e1 : p.grid.nx / 2 ^ (p.nCoarsens - (n + 1)) = 2 * (m * 2 ^ n) := by
        rw [hk, h1]
        have : m * 2 ^ k = 2 * (m * 2 ^ n) * 2 ^ (k - (n + 1)) := by
          rw [show k = (n + 1) + (k - (n + 1)) by omega, pow_add, pow_succ,
            show n + 1 + (k - (n + 1)) - (n + 1) = k - (n + 1) by omega]
          ring
        rw [this, Nat.mul_div_cancel _ (by positivity)]
      have h3 : 3 ≤ m * 2 ^ n := le_trans (hm3.resolve_left (by omega)) (Nat.le_mul_of_pos_right m (by positivity))
      have e2 : m * 2 ^ (n + 1) = 2 * (m * 2 ^ n) := by ring
      rw [e2]
      refine uncoarsenStep_eq (m := m * 2 ^ n) h3 ?_ ?_
      · exact e1
      · rfl)
  simp only [pow_zero, mul_one, proN] at this
  rw [hk] at this
  rw [← this, ← hg, ← hk]

/-- Restriction averages over the cells covered. -/
theorem rstN_eq [CharZero K] (k m : Nat) (h : Nat → Nat → K) (p i : Nat) (hi : i < m) :
    rstN k m h p i = (∑ s ∈ range (2 ^ k), h p (i * 2 ^ k + s)) / 2 ^ k := by
  induction k generalizing m i with
  | zero => simp [rstN]
  | succ k ih =>
    rw [rstN, rst, Mat.sum_f2c hi, ih _ _ (by omega), ih _ _ (by omega), pow_succ (2 : K), pow_succ (2 : ℕ), show 2 ^ k * 2 = 2 ^ k + 2 ^ k by ring,
      sum_range_add]
    have e1 : ∀ s, i * (2 ^ k + 2 ^ k) + s = 2 * i * 2 ^ k + s := by intro s; ring
    have e2 : ∀ s, 2 * i * 2 ^ k + (2 ^ k + s) = (2 * i + 1) * 2 ^ k + s := by intro s; ring
    simp only [e1, e2]
    field_simp

end HPS
end EF
