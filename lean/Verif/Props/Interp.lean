import Verif.Proofs.SpecialLemmas
import Verif.Proofs.HasLemmas
import Mathlib.Tactic.Ring
import Mathlib.Tactic.NormNum

/-!
# C13 – C15: the side interpolation matrices

Cell centres: a side `[a, a + L]` cut into `n` cells has the centres `a + (i + 1/2) L / n`.
-/

namespace EF

open Finset

variable {K : Type} [Field K] [CharZero K]

/-- Centre of cell `i` of the side `[a, a+L]` cut into `n` equal cells. -/
def centre (a L : K) (n i : Nat) : K := a + ((i : K) + 1 / 2) * (L / n)

omit [CharZero K] in
/-- Result of `InterpolationMatrixFine2Coarse(n) * x`. -/
theorem f2c_mulVec {n : Nat} (hn : 0 < n) {x : Vec K} {v : Nat → K} (hx : x.Has (2 * n) v) :
    (do let A ← Mat.fine2coarse n
        A.mulVec x) = .ok (Vec.ofFn n (fun i => 1 / 2 * v (2 * i) + 1 / 2 * v (2 * i + 1))) := by
  rw [Mat.fine2coarse_eq, Res.ok_bind, Vec.has_iff.mp hx, Mat.mulVec_ofFn (by omega)]
  congr 1
  apply Vec.ofFn_congr
  intro i hi
  exact Mat.sum_f2c hi v

omit [CharZero K] in
/-- Result of `InterpolationMatrixCoarse2Fine(2m) * x`. -/
theorem c2f_mulVec {m : Nat} (hm : 3 ≤ m) {x : Vec K} {v : Nat → K} (hx : x.Has m v) :
    (do let A ← Mat.coarse2fine (2 * m)
        A.mulVec x) = .ok (Vec.ofFn (2 * m) (fun i => ∑ j ∈ range m, Mat.c2fFn m i j * v j)) := by
  rw [Mat.coarse2fine_eq hm, Res.ok_bind, Vec.has_iff.mp hx, Mat.mulVec_ofFn (by omega)]

section C13

omit [CharZero K] in
/-- C13: the result is the `n` pairwise averages. -/
theorem C13_averages {n : Nat} (hn : 0 < n) {x : Vec K} {v : Nat → K} (hx : x.Has (2 * n) v) :
    (do let A ← Mat.fine2coarse n
        A.mulVec x).Returns (fun y => y.Has n (fun i => (v (2 * i) + v (2 * i + 1)) / 2)) := by
  refine ⟨_, f2c_mulVec hn hx, ?_⟩
  rw [show (fun i => 1 / 2 * v (2 * i) + 1 / 2 * v (2 * i + 1)) = fun i => (v (2 * i) + v (2 * i + 1)) / 2 by
    funext i; ring]
  exact Vec.has_ofFn _ _

/-- C13: twice the coarse total is the fine total. -/
theorem C13_conserves {n : Nat} (hn : 0 < n) {x : Vec K} {v : Nat → K} (hx : x.Has (2 * n) v) :
    ∃ w : Nat → K, (do let A ← Mat.fine2coarse n
                       A.mulVec x).Returns (fun y => y.Has n w) ∧
      2 * ∑ i ∈ range n, w i = ∑ k ∈ range (2 * n), v k := by
  refine ⟨_, C13_averages hn hx, ?_⟩
  clear hx hn
  induction n with
  | zero => simp
  | succ n ih =>
    rw [sum_range_succ, mul_add, ih, show 2 * (n + 1) = 2 * n + 1 + 1 by ring, sum_range_succ, sum_range_succ]
    ring

/-- C13: samples of `p + q·x` at fine centres go to its samples at coarse centres. -/
theorem C13_linear {n : Nat} (hn : 0 < n) {x : Vec K} (a L p q : K)
    (hx : x.Has (2 * n) (fun k => p + q * centre a L (2 * n) k)) :
    (do let A ← Mat.fine2coarse n
        A.mulVec x).Returns (fun y => y.Has n (fun i => p + q * centre a L n i)) := by
  refine ⟨_, f2c_mulVec hn hx, ?_⟩
  rw [show (fun i => 1 / 2 * (p + q * centre a L (2 * n) (2 * i)) + 1 / 2 * (p + q * centre a L (2 * n) (2 * i + 1)))
    = fun i => p + q * centre a L n i by
      funext i
      have : (n : K) ≠ 0 := by exact_mod_cast (by omega : n ≠ 0)
      unfold centre
      push_cast
      field_simp
      ring]
  exact Vec.has_ofFn _ _

/-- C13: constants are preserved. -/
theorem C13_constant {n : Nat} (hn : 0 < n) {x : Vec K} (c : K) (hx : x.Has (2 * n) (fun _ => c)) :
    (do let A ← Mat.fine2coarse n
        A.mulVec x).Returns (fun y => y.Has n (fun _ => c)) := by
  have := C13_linear (p := c) (q := 0) (a := 0) (L := 0) hn (by simpa using hx)
  simpa using this

example := C13_averages (n := 2) (by omega)
  (show (Vec.ofList [1, 2, 3, 10] : Vec ℚ).Has 4 (fun i => [1, 2, 3, 10].getD i 0) from ⟨rfl, rfl, by decide⟩)
example : (do let A ← Mat.fine2coarse 2
              A.mulVec (Vec.ofList [1, 2, 3, 10] : Vec ℚ)) = .ok (Vec.ofList [3 / 2, 13 / 2]) := by
  decide +kernel
example := C13_linear (K := ℚ) (n := 2) (by omega) (a := -1) (L := 4) (p := 5) (q := 3)
  (Vec.has_ofFn _ _)

end C13

/-- The interpolation is exact on linear functions of the cell number. -/
theorem c2f_affine {m i : Nat} (hm : 3 ≤ m) (hi : i < 2 * m) (p q : K) :
    ∑ j ∈ range m, Mat.c2fFn m i j * (p + q * (j : K)) = p + q * (((i : K) + 1 / 2) / 2 - 1 / 2) := by
  rcases Nat.eq_zero_or_pos i with rfl | h0
  · rw [Mat.sum_c2f_first hm]; push_cast; ring
  · by_cases h1 : i = 2 * m - 1
    · subst h1
      rw [Mat.sum_c2f_last hm]
      obtain ⟨d, rfl⟩ : ∃ d, m = d + 3 := ⟨m - 3, by omega⟩
      rw [show d + 3 - 3 = d by omega, show d + 3 - 2 = d + 1 by omega, show d + 3 - 1 = d + 2 by omega,
        show 2 * (d + 3) - 1 = 2 * d + 5 by omega]
      push_cast; ring
    · rcases Nat.even_or_odd' i with ⟨k, rfl | rfl⟩
      · obtain ⟨k, rfl⟩ : ∃ l, k = l + 1 := ⟨k - 1, by omega⟩
        rw [show 2 * (k + 1) = 2 * k + 2 by ring, Mat.sum_c2f_even (by omega)]
        push_cast; ring
      · rw [Mat.sum_c2f_odd (by omega)]
        push_cast; ring

section C14

/-- C14: samples of `p + q·x` at coarse centres go to its samples at fine centres. -/
theorem C14_linear_exact {m : Nat} (hm : 3 ≤ m) {x : Vec K} (a L p q : K)
    (hx : x.Has m (fun j => p + q * centre a L m j)) :
    (do let A ← Mat.coarse2fine (2 * m)
        A.mulVec x).Returns (fun y => y.Has (2 * m) (fun i => p + q * centre a L (2 * m) i)) := by
  refine ⟨_, c2f_mulVec hm hx, ?_⟩
  apply Vec.has_iff.mpr
  apply Vec.ofFn_congr
  intro i hi
  have hm0 : (m : K) ≠ 0 := by exact_mod_cast (by omega : m ≠ 0)
  have := c2f_affine hm hi (p + q * a + q * (1 / 2) * (L / m)) (q * (L / m))
  rw [show (fun j => Mat.c2fFn m i j * (p + q * centre a L m j)) = fun j : Nat =>
    Mat.c2fFn m i j * ((p + q * a + q * (1 / 2) * (L / m)) + (q * (L / m)) * (j : K)) by
      funext j; unfold centre; ring]
  rw [this]
  unfold centre
  push_cast
  field_simp
  ring

/-- C14: every row sums to one. -/
theorem C14_row_sums {m : Nat} (hm : 3 ≤ m) :
    ∃ f : Nat → Nat → K, (Mat.coarse2fine (2 * m)).Returns (fun A => A.Has (2 * m) m f) ∧
      ∀ i, i < 2 * m → ∑ j ∈ range m, f i j = 1 := by
  refine ⟨_, ⟨_, Mat.coarse2fine_eq hm, Mat.has_ofFn _ _ _⟩, ?_⟩
  intro i hi
  have := c2f_affine (K := K) hm hi 1 0
  simpa using this

/-- C14: the first and last fine values are exact for quadratics `p + q·x + r·x²`. -/
theorem C14_ends_quadratic {m : Nat} (hm : 3 ≤ m) {x : Vec K} (a L p q r : K)
    (hx : x.Has m (fun j => p + q * centre a L m j + r * centre a L m j ^ 2)) :
    ∃ w : Nat → K, (do let A ← Mat.coarse2fine (2 * m)
                       A.mulVec x).Returns (fun y => y.Has (2 * m) w) ∧
      ∀ i, i = 0 ∨ i = 2 * m - 1 →
        w i = p + q * centre a L (2 * m) i + r * centre a L (2 * m) i ^ 2 := by
  refine ⟨_, ⟨_, c2f_mulVec hm hx, Vec.has_ofFn _ _⟩, ?_⟩
  have hm0 : (m : K) ≠ 0 := by exact_mod_cast (by omega : m ≠ 0)
  rintro i (rfl | rfl)
  · rw [Mat.sum_c2f_first hm]
    unfold centre
    push_cast
    field_simp
    ring
  · rw [Mat.sum_c2f_last hm]
    obtain ⟨d, rfl⟩ : ∃ d, m = d + 3 := ⟨m - 3, by omega⟩
    rw [show d + 3 - 3 = d by omega, show d + 3 - 2 = d + 1 by omega, show d + 3 - 1 = d + 2 by omega,
      show 2 * (d + 3) - 1 = 2 * d + 5 by omega]
    unfold centre
    push_cast at hm0 ⊢
    field_simp
    ring

omit [CharZero K] in
/-- C52 fails for two coarse cells: the constructor returns normally, but its last row is zero
(the row sum is not one), so it interpolates no non-zero constant. -/
theorem C52_two_coarse_cells_wrong :
    ∃ f : Nat → Nat → ℚ, (Mat.coarse2fine 4 : Res (Mat ℚ)).Returns (fun A => A.Has 4 2 f) ∧
      ∑ j ∈ range 2, f 3 j = 0 := by
  refine ⟨fun i j => ([[45/32, -9/16], [3/4, 1/4], [1/4, 3/4], [0, 0]].getD i []).getD j 0,
    ⟨⟨4, 2, [45/32, -9/16, 3/4, 1/4, 1/4, 3/4, 0, 0]⟩, ?_, ?_⟩, ?_⟩
  · decide +kernel
  · refine ⟨rfl, rfl, rfl, ?_⟩
    decide +kernel
  · decide +kernel

/-- C52, the case of one coarse cell: it is refused (an exception, not a wrong matrix). -/
theorem C52_one_coarse_cell_partial : (Mat.coarse2fine 2 : Res (Mat ℚ)).Throws := by
  refine ⟨.outOfRange, ?_⟩
  decide +kernel

example := C14_linear_exact (K := ℚ) (m := 3) (by omega) (a := -1) (L := 4) (p := 5) (q := 3) (Vec.has_ofFn _ _)
example := C14_ends_quadratic (K := ℚ) (m := 4) (by omega) (a := -1) (L := 4) (p := 5) (q := 3) (r := 2)
  (Vec.has_ofFn _ _)

end C14

section C15

/-- C15: coarsening an interpolated linear sample vector gives it back. -/
theorem C15_roundtrip_linear {m : Nat} (hm : 3 ≤ m) {x : Vec K} (a L p q : K)
    (hx : x.Has m (fun j => p + q * centre a L m j)) :
    (do let A ← Mat.coarse2fine (2 * m)
        let y ← A.mulVec x
        let B ← Mat.fine2coarse m
        B.mulVec y) = .ok x := by
  obtain ⟨y, h1, h2⟩ := C14_linear_exact hm a L p q hx
  obtain ⟨z, h3, h4⟩ := C13_linear (by omega : 0 < m) a L p q h2
  cases hA : (Mat.coarse2fine (2 * m) : Res (Mat K)) with
  | ok A =>
    rw [hA, Res.ok_bind] at h1
    rw [Res.ok_bind, h1, Res.ok_bind, h3, Vec.has_iff.mp h4, Vec.has_iff.mp hx]
  | throw e => rw [hA] at h1; exact absurd h1 (by simp)
  | ub => rw [hA] at h1; exact absurd h1 (by simp)

/-- C15 does not extend to all vectors: the round trip of `(1,0,0)` is not `(1,0,0)`. -/
theorem C15_roundtrip_general_wrong :
    (do let A ← Mat.coarse2fine 6
        let y ← A.mulVec (Vec.ofList [1, 0, 0] : Vec ℚ)
        let B ← Mat.fine2coarse 3
        B.mulVec y) = .ok (Vec.ofList [69 / 64, 1 / 8, 5 / 64]) := by
  decide +kernel

example := C15_roundtrip_linear (K := ℚ) (m := 5) (by omega) (a := 0) (L := 1) (p := 2) (q := -1) (Vec.has_ofFn _ _)

end C15
end EF
