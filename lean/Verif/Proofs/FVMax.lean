import Verif.Proofs.FVSolve
import Mathlib.Tactic.Positivity
import Mathlib.Data.Finset.Max

/-!
# The discrete maximum principle and unique solvability
-/

namespace EF
namespace FV

open Finset

variable {K : Type} [Field K] [LinearOrder K] [IsStrictOrderedRing K]

theorem hx_pos {R : Rect K} (hR : Proper R) {nx : Nat} (h : 0 < nx) : 0 < hx R nx := by
  unfold hx
  have := hR.1
  exact div_pos (by linarith) (by exact_mod_cast h)

theorem hy_pos {R : Rect K} (hR : Proper R) {ny : Nat} (h : 0 < ny) : 0 < hy R ny := by
  unfold hy
  have := hR.2
  exact div_pos (by linarith) (by exact_mod_cast h)

theorem cx_face {R : Rect K} (hR : Proper R) {nx i : Nat} (h : i < nx) :
    R.xl ≤ cx R nx i - hx R nx / 2 ∧ cx R nx i + hx R nx / 2 ≤ R.xu := by
  have hp := hx_pos hR (Nat.lt_of_le_of_lt (Nat.zero_le i) h)
  have hw : nx * hx R nx = R.xu - R.xl := by
    unfold hx
    have : (nx : K) ≠ 0 := by exact_mod_cast (Nat.ne_of_gt (Nat.lt_of_le_of_lt (Nat.zero_le i) h))
    field_simp
  have hi : (i : K) + 1 ≤ nx := by exact_mod_cast h
  have h0 : (0 : K) ≤ i := Nat.cast_nonneg i
  unfold cx
  constructor
  · nlinarith [mul_nonneg h0 hp.le]
  · nlinarith [mul_le_mul_of_nonneg_right hi hp.le]

theorem cy_face {R : Rect K} (hR : Proper R) {ny j : Nat} (h : j < ny) :
    R.yl ≤ cy R ny j - hy R ny / 2 ∧ cy R ny j + hy R ny / 2 ≤ R.yu := by
  have hp := hy_pos hR (Nat.lt_of_le_of_lt (Nat.zero_le j) h)
  have hw : ny * hy R ny = R.yu - R.yl := by
    unfold hy
    have : (ny : K) ≠ 0 := by exact_mod_cast (Nat.ne_of_gt (Nat.lt_of_le_of_lt (Nat.zero_le j) h))
    field_simp
  have hi : (j : K) + 1 ≤ ny := by exact_mod_cast h
  have h0 : (0 : K) ≤ j := Nat.cast_nonneg j
  unfold cy
  constructor
  · nlinarith [mul_nonneg h0 hp.le]
  · nlinarith [mul_le_mul_of_nonneg_right hi hp.le]

/-- All boundary values are at most `M`. -/
def BdryLe (nx ny : Nat) (b : Bdry K) (M : K) : Prop :=
  (∀ j, j < ny → b.W j ≤ M) ∧ (∀ j, j < ny → b.E j ≤ M) ∧ (∀ i, i < nx → b.S i ≤ M) ∧ (∀ i, i < nx → b.N i ≤ M)

/-- Comparison: a subsolution whose boundary values are at most `M` is at most `M`, if `M` is not negative or
`lambda` vanishes. -/
theorem comparison {c : FVSolver K} {R : Rect K} (hR : Proper R) (hc : EllipticOn c R) {nx ny : Nat} {b : Bdry K}
    {u : Nat → Nat → K} {M : K} (hb : BdryLe nx ny b M) (hM : 0 ≤ M ∨ ∀ x y, c.lambda x y = 0)
    (hu : ∀ i, i < nx → ∀ j, j < ny → 0 ≤ balance c R nx ny b u i j / c.alpha (cx R nx i) (cy R ny j)) :
    ∀ i, i < nx → ∀ j, j < ny → u i j ≤ M := by
  intro i0 hi0 j0 hj0
  by_contra hcon
  push Not at hcon
  obtain ⟨p, hp, hmax⟩ := exists_max_image (range nx ×ˢ range ny) (fun p => u p.1 p.2)
    ⟨(i0, j0), by simp [hi0, hj0]⟩
  have hle : ∀ i, i < nx → ∀ j, j < ny → u i j ≤ u p.1 p.2 := fun i hi j hj => hmax (i, j) (by simp [hi, hj])
  have hm : M < u p.1 p.2 := lt_of_lt_of_le hcon (hle i0 hi0 j0 hj0)
  classical
  have hex : ∃ i, i < nx ∧ ∃ j, j < ny ∧ u i j = u p.1 p.2 := by
    simp only [mem_product, mem_range] at hp
    exact ⟨p.1, hp.1, p.2, hp.2, rfl⟩
  obtain ⟨hi, j, hj, huij⟩ := Nat.find_spec hex
  have hmin : ∀ i', i' < Nat.find hex → ∀ j', j' < ny → u i' j' < u p.1 p.2 := by
    intro i' hi' j' hj'
    refine lt_of_le_of_ne (hle i' (by omega) j' hj') ?_
    intro h
    exact Nat.find_min hex hi' ⟨by omega, j', hj', h⟩
  set i := Nat.find hex with hidef
  clear_value i
  generalize hmm : u p.1 p.2 = m at *
  have hW : west b u i j < m := by
    unfold west
    split_ifs with h
    · rw [huij]; have := hb.1 j hj; linarith
    · exact hmin _ (by omega) _ hj
  have hE : east nx b u i j ≤ m := by
    unfold east
    split_ifs with h
    · rw [huij]; have := hb.2.1 j hj; linarith
    · exact hle _ (by omega) _ hj
  have hS : south b u i j ≤ m := by
    unfold south
    split_ifs with h
    · rw [huij]; have := hb.2.2.1 i hi; linarith
    · exact hle _ hi _ (by omega)
  have hN : north ny b u i j ≤ m := by
    unfold north
    split_ifs with h
    · rw [huij]; have := hb.2.2.2 i hi; linarith
    · exact hle _ hi _ (by omega)
  have hpx := hx_pos hR (Nat.lt_of_le_of_lt (Nat.zero_le i) hi)
  have hpy := hy_pos hR (Nat.lt_of_le_of_lt (Nat.zero_le j) hj)
  obtain ⟨fx1, fx2⟩ := cx_face hR hi
  obtain ⟨fy1, fy2⟩ := cy_face hR hj
  have iE : Inside R (cx R nx i + hx R nx / 2) (cy R ny j) := ⟨by linarith, fx2, by linarith, by linarith⟩
  have iW : Inside R (cx R nx i - hx R nx / 2) (cy R ny j) := ⟨fx1, by linarith, by linarith, by linarith⟩
  have iN : Inside R (cx R nx i) (cy R ny j + hy R ny / 2) := ⟨by linarith, by linarith, by linarith, fy2⟩
  have iS : Inside R (cx R nx i) (cy R ny j - hy R ny / 2) := ⟨by linarith, by linarith, fy1, by linarith⟩
  have iC : Inside R (cx R nx i) (cy R ny j) := ⟨by linarith, by linarith, by linarith, by linarith⟩
  have bE := (hc _ _ iE).1
  have bW := (hc _ _ iW).1
  have bN := (hc _ _ iN).1
  have bS := (hc _ _ iS).1
  obtain ⟨_, ha, hl⟩ := hc _ _ iC
  have h0 := hu i hi j hj
  have heq : balance c R nx ny b u i j / c.alpha (cx R nx i) (cy R ny j) =
      ((c.beta (cx R nx i + hx R nx / 2) (cy R ny j) * (east nx b u i j - u i j)
        - c.beta (cx R nx i - hx R nx / 2) (cy R ny j) * (u i j - west b u i j)) / hx R nx ^ 2 +
        (c.beta (cx R nx i) (cy R ny j + hy R ny / 2) * (north ny b u i j - u i j)
          - c.beta (cx R nx i) (cy R ny j - hy R ny / 2) * (u i j - south b u i j)) / hy R ny ^ 2) +
      c.lambda (cx R nx i) (cy R ny j) / c.alpha (cx R nx i) (cy R ny j) * u i j := by
    unfold balance
    field_simp
  rw [heq, huij] at h0
  have t1 : (c.beta (cx R nx i + hx R nx / 2) (cy R ny j) * (east nx b u i j - m)
        - c.beta (cx R nx i - hx R nx / 2) (cy R ny j) * (m - west b u i j)) / hx R nx ^ 2 < 0 := by
    apply div_neg_of_neg_of_pos _ (by positivity)
    have := mul_nonneg bE.le (sub_nonneg.mpr hE)
    have := mul_pos bW (sub_pos.mpr hW)
    linarith
  have t2 : (c.beta (cx R nx i) (cy R ny j + hy R ny / 2) * (north ny b u i j - m)
          - c.beta (cx R nx i) (cy R ny j - hy R ny / 2) * (m - south b u i j)) / hy R ny ^ 2 ≤ 0 := by
    apply div_nonpos_of_nonpos_of_nonneg _ (by positivity)
    have := mul_nonneg bN.le (sub_nonneg.mpr hN)
    have := mul_nonneg bS.le (sub_nonneg.mpr hS)
    linarith
  have t3 : c.lambda (cx R nx i) (cy R ny j) / c.alpha (cx R nx i) (cy R ny j) * m ≤ 0 := by
    rcases hM with hM | hM
    · exact mul_nonpos_of_nonpos_of_nonneg hl (by linarith)
    · rw [hM]; simp
  linarith

theorem comparison_zero {c : FVSolver K} {R : Rect K} (hR : Proper R) (hc : EllipticOn c R) {nx ny : Nat}
    {u : Nat → Nat → K} (hu : Solves c R nx ny FVSolver.bz (fun _ _ => 0) u) :
    ∀ i, i < nx → ∀ j, j < ny → u i j = 0 := by
  have key : ∀ v : Nat → Nat → K, Solves c R nx ny FVSolver.bz (fun _ _ => 0) v → ∀ i, i < nx → ∀ j, j < ny → v i j ≤ 0 := by
    intro v hv
    refine comparison hR hc (b := FVSolver.bz) ⟨fun _ _ => le_refl _, fun _ _ => le_refl _, fun _ _ => le_refl _,
      fun _ _ => le_refl _⟩ (Or.inl (le_refl _)) ?_
    intro i hi j hj
    rw [hv i hi j hj]; simp
  have hneg : Solves c R nx ny FVSolver.bz (fun _ _ => 0) (fun i j => - u i j) := by
    have := (hu.lin (-1) 0 hu)
    refine this.congr ?_ ?_ ?_ ?_ ?_ ?_ <;> intros <;> simp [Bdry.lin, FVSolver.bz]
  intro i hi j hj
  have h1 := key u hu i hi j hj
  have h2 := key _ hneg i hi j hj
  exact le_antisymm h1 (by linarith)

/-- An elliptic discrete Dirichlet problem has at most one solution. -/
theorem unique_of_elliptic {c : FVSolver K} {R : Rect K} (hR : Proper R) (hc : EllipticOn c R) (nx ny : Nat) :
    Unique c R nx ny := by
  intro b f u v hu hv i hi j hj
  have := comparison_zero hR hc (nx := nx) (ny := ny) (u := fun i j => 1 * u i j + (-1) * v i j)
    (by
      refine (hu.lin 1 (-1) hv).congr ?_ ?_ ?_ ?_ ?_ (fun _ _ _ _ => rfl) <;> intros <;> simp [Bdry.lin, FVSolver.bz])
    i hi j hj
  linarith

end FV
end EF

/-! ### Existence -/

namespace EF
namespace FV

open Finset

variable {K : Type} [Field K]

theorem balance_sum (c : FVSolver K) (R : Rect K) (nx ny : Nat) (v : Nat → K) (w : Nat → Nat → Nat → K) (m i j : Nat) :
    balance c R nx ny FVSolver.bz (fun i j => ∑ l ∈ range m, v l * w l i j) i j =
      ∑ l ∈ range m, v l * balance c R nx ny FVSolver.bz (w l) i j := by
  have hz : ∀ a a' : K, (FVSolver.bz : Bdry K).lin a a' FVSolver.bz = FVSolver.bz := by
    intro a a'; simp [Bdry.lin, FVSolver.bz]
  induction m with
  | zero =>
    simp only [range_zero, sum_empty]
    unfold balance west east south north FVSolver.bz
    split_ifs <;> ring
  | succ m ih =>
    have e : (fun i j => ∑ l ∈ range (m + 1), v l * w l i j) =
        fun i j => 1 * (∑ l ∈ range m, v l * w l i j) + v m * w m i j := by
      funext i j; rw [sum_range_succ, one_mul]
    have := balance_lin c R nx ny 1 (v m) FVSolver.bz FVSolver.bz (fun i j => ∑ l ∈ range m, v l * w l i j) (w m) i j
    rw [hz] at this
    rw [e, this, ih, sum_range_succ, one_mul]

/-- A discrete Dirichlet problem with at most one solution has a solution. -/
theorem exists_of_unique {c : FVSolver K} {R : Rect K} {nx ny : Nat} (hq : Unique c R nx ny) (b : Bdry K)
    (f : Nat → Nat → K) : ∃ u, Solves c R nx ny b f u := by
  rcases Nat.eq_zero_or_pos ny with h0 | hny
  · exact ⟨fun _ _ => 0, fun i _ j hj => by omega⟩
  have hdm : ∀ {i j : Nat}, j < ny → (j + i * ny) / ny = i ∧ (j + i * ny) % ny = j := by
    intro i j hj
    exact ⟨by rw [Nat.add_mul_div_right _ _ hny, Nat.div_eq_of_lt hj, zero_add],
      by rw [Nat.add_mul_mod_self_right, Nat.mod_eq_of_lt hj]⟩
  let w : Nat → Nat → Nat → K := fun l i j => if j + i * ny = l then 1 else 0
  let A : Nat → Nat → K := fun k l => balance c R nx ny FVSolver.bz (w l) (k / ny) (k % ny)
  have hA : ∀ (v : Nat → K) i, i < nx → ∀ j, j < ny → ∑ l ∈ range (nx * ny), A (j + i * ny) l * v l =
      balance c R nx ny FVSolver.bz (fun i j => v (j + i * ny)) i j := by
    intro v i hi j hj
    have e1 := balance_sum c R nx ny v w (nx * ny) i j
    have e2 : ∑ l ∈ range (nx * ny), A (j + i * ny) l * v l =
        ∑ l ∈ range (nx * ny), v l * balance c R nx ny FVSolver.bz (w l) i j := by
      refine sum_congr rfl fun l _ => ?_
      simp only [A, (hdm hj).1, (hdm hj).2]
      ring
    rw [e2, ← e1]
    refine balance_congr (fun _ _ => rfl) (fun _ _ => rfl) (fun _ _ => rfl) (fun _ _ => rfl) ?_ hi hj
    intro i' hi' j' hj'
    have : ∀ l ∈ range (nx * ny), v l * w l i' j' = if l = j' + i' * ny then v l else 0 := by
      intro l _
      simp only [w]
      by_cases h : j' + i' * ny = l
      · simp [h]
      · simp [h, Ne.symm h]
    rw [sum_congr rfl this, sum_ite_eq' (range (nx * ny)), if_pos (mem_range.mpr (FVSolver.idx_lt hi' hj'))]
  have hns : Nonsing (nx * ny) A := by
    intro v hv k hk
    have h1 : k / ny < nx := Nat.div_lt_of_lt_mul (by rwa [Nat.mul_comm])
    have h2 : k % ny < ny := Nat.mod_lt _ hny
    have := hq FVSolver.bz (fun _ _ => 0) (fun i j => v (j + i * ny)) (fun _ _ => 0)
      (fun i hi j hj => by rw [← hA v i hi j hj]; exact hv _ (FVSolver.idx_lt hi hj)) (solves_zero _ _ _ _)
      (k / ny) h1 (k % ny) h2
    have e : k % ny + k / ny * ny = k := by rw [Nat.mul_comm]; exact Nat.mod_add_div k ny
    simpa only [e] using this
  obtain ⟨v, hv⟩ := hns.exists_sol (fun k => f (k / ny) (k % ny) - balance c R nx ny b (fun _ _ => 0) (k / ny) (k % ny))
  refine ⟨fun i j => v (j + i * ny), ?_⟩
  intro i hi j hj
  have e := hv (j + i * ny) (FVSolver.idx_lt hi hj)
  rw [hA v i hi j hj, (hdm hj).1, (hdm hj).2] at e
  have l := balance_lin c R nx ny 1 1 FVSolver.bz b (fun i j => v (j + i * ny)) (fun _ _ => 0) i j
  have hb : (FVSolver.bz : Bdry K).lin 1 1 b = b := by simp [Bdry.lin, FVSolver.bz]
  have hu : (fun i j => 1 * v (j + i * ny) + 1 * (0 : K)) = fun i j => v (j + i * ny) := by funext i j; ring
  rw [hb, hu, e] at l
  rw [l]; ring

end FV
end EF
