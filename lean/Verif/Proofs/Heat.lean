import Verif.Spec.Thermal
import Verif.Proofs.RobinMax
import Verif.Proofs.FVSolve
import Mathlib.Tactic.LinearCombination

/-!
# Comparison of implicit Euler steps
-/

namespace EF
namespace FV

open Finset

variable {K : Type} [Field K] [LinearOrder K] [IsStrictOrderedRing K]

/-- Factors of the boundary conditions of a heat step. -/
def heatA (s : Nat) (_ : Nat) : K := if s < 2 then 1 else 0
@[inherit_doc heatA] def heatB (s : Nat) (_ : Nat) : K := if s < 2 then 0 else 1

theorem heat_wellPosed (c : FVSolver K) (R : Rect K) {m : Nat} (hm : 0 < m) : WellPosed c R m heatA heatB := by
  refine ⟨fun s _ k _ => ?_, Or.inl ⟨0, by omega, 0, hm, by simp [heatA]⟩⟩
  unfold heatA heatB
  split_ifs <;> simp

theorem heat_elliptic {beta : K → K → K} {R : Rect K} (hb : ∀ x y, Inside R x y → 0 < beta x y) {dt : K} (hdt : 0 < dt) :
    EllipticOn ⟨fun _ _ => 1, beta, fun _ _ => -1 / dt⟩ R := by
  intro x y h
  refine ⟨hb x y h, one_ne_zero, ?_⟩
  simp only [div_one]
  exact div_nonpos_of_nonpos_of_nonneg (by linarith) hdt.le

/-- Linear combination with a zeroth order term. -/
theorem balance_lambda (beta : K → K → K) (R : Rect K) (m : Nat) (l : K) (g : Bdry K) (u : Nat → Nat → K) (i j : Nat) :
    balance ⟨fun _ _ => 1, beta, fun _ _ => l⟩ R m m g u i j =
      balance ⟨fun _ _ => 1, beta, fun _ _ => 0⟩ R m m g u i j + l * u i j := by
  unfold balance
  ring

theorem balance_sub (c : FVSolver K) (R : Rect K) (m : Nat) (g g' : Bdry K) (u u' : Nat → Nat → K) (i j : Nat) :
    balance c R m m ⟨fun k => g.W k - g'.W k, fun k => g.E k - g'.E k, fun k => g.S k - g'.S k, fun k => g.N k - g'.N k⟩
      (fun i j => u i j - u' i j) i j = balance c R m m g u i j - balance c R m m g' u' i j := by
  unfold balance west east south north
  split_ifs <;> ring

/-- More heat at the start, from the sources or through the boundary gives more heat after the step. -/
theorem heat_mono {beta : K → K → K} {R : Rect K} (hR : Proper R) (hb : ∀ x y, Inside R x y → 0 < beta x y) {dt : K} (hdt : 0 < dt)
    {m : Nat} {w e s n w' e' s' n' : Nat → K} {q q' u u' v v' : Nat → Nat → K} {g g' : Bdry K}
    (h : HeatStep beta R m dt w e s n q u v g) (h' : HeatStep beta R m dt w' e' s' n' q' u' v' g')
    (hw : ∀ k, k < m → w k ≤ w' k) (he : ∀ k, k < m → e k ≤ e' k) (hs : ∀ k, k < m → s k ≤ s' k) (hn : ∀ k, k < m → n k ≤ n' k)
    (hq : ∀ i, i < m → ∀ j, j < m → q i j ≤ q' i j) (hu : ∀ i, i < m → ∀ j, j < m → u i j ≤ u' i j) :
    ∀ i, i < m → ∀ j, j < m → v i j ≤ v' i j := by
  intro i hi j hj
  have hm : 0 < m := by omega
  have hx0 := hx_pos hR hm
  have hy0 := hy_pos hR hm
  have key := robin_le hR (heat_elliptic hb hdt) (heat_wellPosed _ R hm)
    (g := ⟨fun k => g.W k - g'.W k, fun k => g.E k - g'.E k, fun k => g.S k - g'.S k, fun k => g.N k - g'.N k⟩)
    (u := fun i j => v i j - v' i j) (r := fun side k => if side = 0 then w k - w' k else if side = 1 then e k - e' k else
      if side = 2 then s k - s' k else n k - n' k)
    (f := fun i j => -(u i j - u' i j) / dt - (q i j - q' i j)) (M := 0) ?_ ?_ ?_ i hi j hj
  · linarith
  · refine ⟨?_, ?_⟩
    · intro i hi j hj
      rw [balance_sub, balance_lambda beta R m (-1 / dt) g v, balance_lambda beta R m (-1 / dt) g' v']
      have a := h.1 i hi j hj
      have b := h'.1 i hi j hj
      have a' : balance ⟨fun _ _ => 1, beta, fun _ _ => 0⟩ R m m g v i j = (v i j - u i j) / dt - q i j := by rw [a]; ring
      have b' : balance ⟨fun _ _ => 1, beta, fun _ _ => 0⟩ R m m g' v' i j = (v' i j - u' i j) / dt - q' i j := by rw [b]; ring
      rw [a', b']
      ring
    · intro side hside k hk
      obtain ⟨a1, a2, a3, a4⟩ := h.2 k hk
      obtain ⟨b1, b2, b3, b4⟩ := h'.2 k hk
      have h4 : side = 0 ∨ side = 1 ∨ side = 2 ∨ side = 3 := by omega
      rcases h4 with rfl | rfl | rfl | rfl
      · simp [heatA, heatB, Bdry.side, a1, b1]
      · simp [heatA, heatB, Bdry.side, a2, b2]
      · simp only [heatA, heatB, Bdry.side, normalDeriv] at a3 b3 ⊢
        norm_num
        rw [← a3, ← b3]
        ring
      · simp only [heatA, heatB, Bdry.side, normalDeriv] at a4 b4 ⊢
        norm_num
        rw [← a4, ← b4]
        ring
  · intro side hside k hk
    have h1 := hw k hk
    have h2 := he k hk
    have h3 := hs k hk
    have h4 := hn k hk
    rw [mul_zero]
    split_ifs <;> linarith
  · intro i hi j hj
    have h1 := hu i hi j hj
    have h2 := hq i hi j hj
    have h3 : 0 ≤ -(u i j - u' i j) / dt := div_nonneg (by linarith) hdt.le
    simp only [mul_zero, sub_zero, div_one]
    linarith

/-- Adding a constant. -/
theorem HeatStep.shift {beta : K → K → K} {R : Rect K} {dt : K} {m : Nat} {w e s n : Nat → K} {q u v : Nat → Nat → K} {g : Bdry K}
    (h : HeatStep beta R m dt w e s n q u v g) (hdt : dt ≠ 0) (M ε : K) :
    HeatStep beta R m dt (fun k => w k + (M + dt * ε)) (fun k => e k + (M + dt * ε)) s n (fun i j => q i j + ε)
      (fun i j => u i j + M) (fun i j => v i j + (M + dt * ε))
      ⟨fun k => g.W k - -(M + dt * ε), fun k => g.E k - -(M + dt * ε), fun k => g.S k - -(M + dt * ε), fun k => g.N k - -(M + dt * ε)⟩ := by
  refine ⟨?_, ?_⟩
  · intro i hi j hj
    have e : (fun i j => v i j + (M + dt * ε)) = fun i j => v i j - -(M + dt * ε) := by
      funext i j; ring
    rw [e, balance_shift]
    have := h.1 i hi j hj
    simp only [zero_mul, sub_zero]
    have h2 : balance ⟨fun _ _ => 1, beta, fun _ _ => 0⟩ R m m g v i j = (v i j - u i j) / dt - q i j := by rw [this]; ring
    rw [h2]
    field_simp
    ring
  · intro k hk
    obtain ⟨a1, a2, a3, a4⟩ := h.2 k hk
    simp only [normalDeriv] at a3 a4 ⊢
    refine ⟨by rw [← a1]; ring, by rw [← a2]; ring, ?_, ?_⟩
    · rw [← a3]
      ring
    · rw [← a4]
      ring

/-- A constant stays as it is. -/
theorem heat_const (beta : K → K → K) (R : Rect K) (dt : K) (m : Nat) (M : K) :
    HeatStep beta R m dt (fun _ => M) (fun _ => M) (fun _ => 0) (fun _ => 0) (fun _ _ => 0) (fun _ _ => M) (fun _ _ => M)
      ⟨fun _ => M, fun _ => M, fun _ => M, fun _ => M⟩ := by
  refine ⟨?_, ?_⟩
  · intro i _ j _
    unfold balance west east south north
    simp only [sub_self, zero_div, zero_mul, add_zero]
    split_ifs <;> ring
  · intro k _
    simp [normalDeriv]

/-- The difference of two steps. -/
theorem HeatStep.sub {beta : K → K → K} {R : Rect K} {dt : K} {m : Nat} {w e s n w' e' s' n' : Nat → K}
    {q q' u u' v v' : Nat → Nat → K} {g g' : Bdry K} (h : HeatStep beta R m dt w e s n q u v g)
    (h' : HeatStep beta R m dt w' e' s' n' q' u' v' g') :
    HeatStep beta R m dt (fun k => w k - w' k) (fun k => e k - e' k) (fun k => s k - s' k) (fun k => n k - n' k)
      (fun i j => q i j - q' i j) (fun i j => u i j - u' i j) (fun i j => v i j - v' i j)
      ⟨fun k => g.W k - g'.W k, fun k => g.E k - g'.E k, fun k => g.S k - g'.S k, fun k => g.N k - g'.N k⟩ := by
  refine ⟨?_, ?_⟩
  · intro i hi j hj
    have a := h.1 i hi j hj
    have b := h'.1 i hi j hj
    rw [balance_sub]
    linear_combination a - b
  · intro k hk
    obtain ⟨a1, a2, a3, a4⟩ := h.2 k hk
    obtain ⟨b1, b2, b3, b4⟩ := h'.2 k hk
    simp only [normalDeriv] at a3 a4 b3 b4 ⊢
    refine ⟨by rw [a1, b1], by rw [a2, b2], ?_, ?_⟩
    · rw [← a3, ← b3]
      ring
    · rw [← a4, ← b4]
      ring

theorem HeatStep.congr {beta : K → K → K} {R : Rect K} {dt : K} {m : Nat} {w e s n w' e' s' n' : Nat → K}
    {q q' u u' v v' : Nat → Nat → K} {g : Bdry K} (h : HeatStep beta R m dt w e s n q u v g)
    (hw : ∀ k, k < m → w' k = w k) (he : ∀ k, k < m → e' k = e k) (hs : ∀ k, k < m → s' k = s k) (hn : ∀ k, k < m → n' k = n k)
    (hq : ∀ i, i < m → ∀ j, j < m → q' i j = q i j) (hu : ∀ i, i < m → ∀ j, j < m → u' i j = u i j) (hv : v' = v) :
    HeatStep beta R m dt w' e' s' n' q' u' v' g := by
  subst hv
  refine ⟨fun i hi j hj => ?_, fun k hk => ?_⟩
  · rw [hq i hi j hj, hu i hi j hj]
    exact h.1 i hi j hj
  · rw [hw k hk, he k hk, hs k hk, hn k hk]
    exact h.2 k hk

/-- A function that a step with sources and boundary values not below zero takes from `B w` to `B w / (1 + dt κ / L²)`. -/
def bump (R : Rect K) (x : K) : K := (R.xu - R.xl) ^ 2 - (x - (R.xl + R.xu) / 2) ^ 2 / 2

theorem bump_le (R : Rect K) (x : K) : bump R x ≤ (R.xu - R.xl) ^ 2 := by
  unfold bump
  have := sq_nonneg (x - (R.xl + R.xu) / 2)
  linarith

/-- On a band around the rectangle that contains the ghost cells. -/
theorem bump_ge {R : Rect K} {x : K} (h1 : R.xl - (R.xu - R.xl) / 2 ≤ x) (h2 : x ≤ R.xu + (R.xu - R.xl) / 2) :
    (R.xu - R.xl) ^ 2 / 2 ≤ bump R x := by
  unfold bump
  have a : x - (R.xl + R.xu) / 2 ≤ R.xu - R.xl := by linarith
  have b : -(R.xu - R.xl) ≤ x - (R.xl + R.xu) / 2 := by linarith
  have := sq_le_sq' b a
  linarith

/-- The step of the barrier. -/
theorem heat_bump {κ : K} (hκ : 0 < κ) {R : Rect K} (hR : Proper R) {dt : K} (hdt : 0 < dt) {m : Nat} (hm : 0 < m) {B : K} (hB : 0 ≤ B) :
    ∃ (w e : Nat → K) (q : Nat → Nat → K) (g : Bdry K), (∀ k, 0 ≤ w k) ∧ (∀ k, 0 ≤ e k) ∧ (∀ i j, 0 ≤ q i j) ∧
      HeatStep (fun _ _ => κ) R m dt w e (fun _ => 0) (fun _ => 0) q
        (fun i _ => B * (1 + dt * κ / (R.xu - R.xl) ^ 2) * bump R (cx R m i)) (fun i _ => B * bump R (cx R m i)) g := by
  have hL : 0 < R.xu - R.xl := by have := hR.1; linarith
  have hx0 := hx_pos hR hm
  have hm1 : (1 : K) ≤ m := by exact_mod_cast hm
  have hxL : hx R m ≤ R.xu - R.xl := by
    unfold hx
    rw [div_le_iff₀ (by linarith)]
    nlinarith
  have hxm : hx R m * m = R.xu - R.xl := by
    unfold hx
    field_simp
  have c0 : cx R m 0 = R.xl + hx R m / 2 := by unfold cx; push_cast; ring
  have cm : cx R m (m - 1) = R.xu - hx R m / 2 := by
    unfold cx
    rw [Nat.cast_sub hm, Nat.cast_one]
    linear_combination hxm
  have p1 := bump_ge (R := R) (x := cx R m 0) (by rw [c0]; linarith) (by rw [c0]; linarith)
  have p2 := bump_ge (R := R) (x := cx R m 0 - hx R m) (by rw [c0]; linarith) (by rw [c0]; linarith)
  have p3 := bump_ge (R := R) (x := cx R m (m - 1)) (by rw [cm]; linarith) (by rw [cm]; linarith)
  have p4 := bump_ge (R := R) (x := cx R m (m - 1) + hx R m) (by rw [cm]; linarith) (by rw [cm]; linarith)
  have hL2 : 0 < (R.xu - R.xl) ^ 2 := by positivity
  refine ⟨fun _ => B * ((bump R (cx R m 0) + bump R (cx R m 0 - hx R m)) / 2),
    fun _ => B * ((bump R (cx R m (m - 1)) + bump R (cx R m (m - 1) + hx R m)) / 2),
    fun i _ => B * (κ * (1 - bump R (cx R m i) / (R.xu - R.xl) ^ 2)),
    ⟨fun _ => B * ((bump R (cx R m 0) + bump R (cx R m 0 - hx R m)) / 2),
      fun _ => B * ((bump R (cx R m (m - 1)) + bump R (cx R m (m - 1) + hx R m)) / 2),
      fun i => B * bump R (cx R m i), fun i => B * bump R (cx R m i)⟩, ?_, ?_, ?_, ?_, ?_⟩
  · intro k
    exact mul_nonneg hB (by linarith)
  · intro k
    exact mul_nonneg hB (by linarith)
  · intro i j
    have h1 : bump R (cx R m i) / (R.xu - R.xl) ^ 2 ≤ 1 := by
      rw [div_le_one hL2]
      exact bump_le R _
    exact mul_nonneg hB (mul_nonneg hκ.le (by linarith))
  · intro i hi j hj
    have eW : west ⟨fun _ => B * ((bump R (cx R m 0) + bump R (cx R m 0 - hx R m)) / 2),
        fun _ => B * ((bump R (cx R m (m - 1)) + bump R (cx R m (m - 1) + hx R m)) / 2),
        fun i => B * bump R (cx R m i), fun i => B * bump R (cx R m i)⟩ (fun i _ => B * bump R (cx R m i)) i j =
          B * bump R (cx R m i - hx R m) := by
      unfold west
      split_ifs with h0
      · subst h0
        ring
      · have : cx R m (i - 1) = cx R m i - hx R m := by
          unfold cx
          rw [Nat.cast_sub (by omega), Nat.cast_one]
          ring
        simp only [this]
    have eE : east m ⟨fun _ => B * ((bump R (cx R m 0) + bump R (cx R m 0 - hx R m)) / 2),
        fun _ => B * ((bump R (cx R m (m - 1)) + bump R (cx R m (m - 1) + hx R m)) / 2),
        fun i => B * bump R (cx R m i), fun i => B * bump R (cx R m i)⟩ (fun i _ => B * bump R (cx R m i)) i j =
          B * bump R (cx R m i + hx R m) := by
      unfold east
      split_ifs with h0
      · have : m - 1 = i := by omega
        rw [this]
        ring
      · have : cx R m (i + 1) = cx R m i + hx R m := by
          unfold cx
          push_cast
          ring
        simp only [this]
    unfold balance
    rw [eW, eE]
    have eS : south ⟨fun _ => B * ((bump R (cx R m 0) + bump R (cx R m 0 - hx R m)) / 2),
        fun _ => B * ((bump R (cx R m (m - 1)) + bump R (cx R m (m - 1) + hx R m)) / 2),
        fun i => B * bump R (cx R m i), fun i => B * bump R (cx R m i)⟩ (fun i _ => B * bump R (cx R m i)) i j =
          B * bump R (cx R m i) := by
      unfold south
      split_ifs <;> ring
    have eN : north m ⟨fun _ => B * ((bump R (cx R m 0) + bump R (cx R m 0 - hx R m)) / 2),
        fun _ => B * ((bump R (cx R m (m - 1)) + bump R (cx R m (m - 1) + hx R m)) / 2),
        fun i => B * bump R (cx R m i), fun i => B * bump R (cx R m i)⟩ (fun i _ => B * bump R (cx R m i)) i j =
          B * bump R (cx R m i) := by
      unfold north
      split_ifs <;> ring
    rw [eS, eN]
    dsimp only
    have hb : bump R (cx R m i + hx R m) - bump R (cx R m i) - (bump R (cx R m i) - bump R (cx R m i - hx R m)) = - hx R m ^ 2 := by
      unfold bump
      ring
    have hd : (κ * (B * bump R (cx R m i + hx R m) - B * bump R (cx R m i)) -
        κ * (B * bump R (cx R m i) - B * bump R (cx R m i - hx R m))) / hx R m ^ 2 = - (κ * B) := by
      rw [div_eq_iff (by positivity)]
      linear_combination κ * B * hb
    rw [hd]
    field_simp
    ring
  · intro k _
    simp [normalDeriv]

/-- The cell values and the other boundary values determine the boundary value of a South cell. -/
theorem south_determined {c : FVSolver K} {R : Rect K} (hR : Proper R) (hc : EllipticOn c R) {m : Nat} {g g' : Bdry K}
    {f u : Nat → Nat → K} (h : Solves c R m m g f u) (h' : Solves c R m m g' f u) (hW : ∀ k, k < m → g.W k = g'.W k)
    (hE : ∀ k, k < m → g.E k = g'.E k) (hN : ∀ k, k < m → g.N k = g'.N k) {k : Nat} (hk : k < m) : g.S k = g'.S k := by
  have hm : 0 < m := by omega
  have h1 := h k hk 0 hm
  have h2 := h' k hk 0 hm
  have e1 : east m g u k 0 = east m g' u k 0 := by unfold east; rw [hE 0 hm]
  have e2 : west g u k 0 = west g' u k 0 := by unfold west; rw [hW 0 hm]
  have e3 : north m g u k 0 = north m g' u k 0 := by unfold north; rw [hN k hk]
  rw [← h2] at h1
  have hpx := hx_pos hR hm
  have hpy := hy_pos hR hm
  obtain ⟨fx1, fx2⟩ := cx_face hR hk
  obtain ⟨fy1, fy2⟩ := cy_face hR hm
  have bS := (hc (cx R m k) (cy R m 0 - hy R m / 2) ⟨by linarith, by linarith, fy1, by linarith⟩).1
  have aS := (hc (cx R m k) (cy R m 0) ⟨by linarith, by linarith, by linarith, by linarith⟩).2.1
  unfold balance at h1
  rw [e1, e2, e3] at h1
  have e4 : ∀ g : Bdry K, south g u k 0 = 2 * g.S k - u k 0 := by intro g; unfold south; rw [if_pos rfl]
  rw [e4 g, e4 g'] at h1
  have hz : c.alpha (cx R m k) (cy R m 0) * c.beta (cx R m k) (cy R m 0 - hy R m / 2) * 2 / hy R m ^ 2 * (g.S k - g'.S k) = 0 := by
    linear_combination h1
  have hne : c.alpha (cx R m k) (cy R m 0) * c.beta (cx R m k) (cy R m 0 - hy R m / 2) * 2 / hy R m ^ 2 ≠ 0 := by
    have := bS.ne'
    have := hpy.ne'
    positivity
  have := (mul_eq_zero.mp hz).resolve_left hne
  linarith

end FV
end EF
