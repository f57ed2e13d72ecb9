import Verif.Proofs.FluxConverge
import Verif.Props.Robin
import Verif.Props.Converge
import Verif.Props.Thermal

/-!
# Second order convergence with boundary conditions with derivatives (C76)
-/

namespace EF

open Finset FV HPS Thermal

/-- The sign of the coordinate direction along the outward normal. -/
def tilt (s : Nat) : ℝ := if s = 0 ∨ s = 2 then -1 else 1

theorem tilt_sq (s : Nat) : tilt s * tilt s = 1 := by
  unfold tilt
  split_ifs <;> norm_num

theorem onSide_sidePoint {R : Rect ℝ} (hR : Proper R) {m s k : Nat} (hs : s < 4) (hk : k < m) :
    OnSide R s (sidePoint R m s k).1 (sidePoint R m s k).2 := by
  have hm : 0 < m := by omega
  have hx0 := hx_pos hR hm
  have hy0 := hy_pos hR hm
  obtain ⟨fx1, fx2⟩ := cx_face hR hk
  obtain ⟨fy1, fy2⟩ := cy_face hR hk
  rcases (by omega : s = 0 ∨ s = 1 ∨ s = 2 ∨ s = 3) with rfl | rfl | rfl | rfl <;> simp only [OnSide, sidePoint] <;>
    exact ⟨trivial, by linarith, by linarith⟩

/-- What the stages solve to second order, whatever the sides with derivatives: on some sides the boundary function asks for
`κ u + σ du/dn`, where `σ` is `-1` on the West and the South side and 1 on the other two and `σ κ ≥ 0`, on the others, of which there is at
least one, for `u`.  There is a constant, independent of the mesh and of `κ`, such that on every uniformly refined mesh the stages
return, and leave in every cell of every leaf a value within the constant divided by the square of the number of cells per side of `u` at the
centre of the cell. -/
theorem C76_second_order_actual {s : FVSolver ℝ} {R : Rect ℝ} (hR : Proper R) (hE : EllipticOn s R) {Bx By : Nat → ℝ → ℝ → ℝ} {B : ℝ}
    (hβ : Derivs R s.beta Bx By B) {u : ℝ → ℝ → ℝ} {Dx Dy : Nat → ℝ → ℝ → ℝ} {M : ℝ} (hu : Derivs R u Dx Dy M) {f : ℝ → ℝ → ℝ}
    (hf : Classical s R u Dx Dy Bx By f) :
    ∃ C, 0 ≤ C ∧ ∀ (flux : Nat → Bool) (κ : Nat → ℝ → ℝ → ℝ) (bc : BoundaryFn ℝ), (∃ v, v < 4 ∧ flux v = false) →
      (∀ q, q < 4 → flux q = true → ∀ x y, OnSide R q x y → 0 ≤ tilt q * κ q x y) →
      (∀ q, q < 4 → ∀ x y, OnSide R q x y → bc q x y =
        if flux q = true then (κ q x y * u x y + tilt q * outward Dx Dy q x y, κ q x y, 1) else (u x y, 1, 0)) →
      ∀ (lap : Lapack ℝ) (lu : PetscLU ℝ) (N : Nat), 2 ≤ N → ∀ opt : HPSOptions, opt.cacheOperators = false →
      opt.homogeneousRhs = false → ∀ t : Tree (Patch ℝ), Init N t R → ∀ d, Uniform d t →
      ∃ t1 c1 t3, buildStage lap (s.toPatchSolver lu) opt t none = .ok (t1, c1) ∧
        (Request.functions f bc).run lap (s.toPatchSolver lu) opt t1 = .ok t3 ∧ t3.shape = t.shape ∧
        (∀ i, i < N * 2 ^ d → ∀ j, j < N * 2 ^ d →
          |gridFn N (·.u) t3 i j - u (cx R (N * 2 ^ d) i) (cy R (N * 2 ^ d) j)| ≤ C / (N * 2 ^ d) ^ 2) ∧
        ∀ p ∈ t3.leaves, LeafNear N u (C / (N * 2 ^ d) ^ 2) p := by
  obtain ⟨b0, h0, hb⟩ := hβ.lower hR (fun x y h => (hE x y h).1)
  have B0 := hβ.nonneg hR
  have M0 := hu.nonneg hR
  have r1 : 0 < R.xu - R.xl := by have := hR.1; linarith
  have r2 : 0 < R.yu - R.yl := by have := hR.2; linarith
  obtain ⟨L, eL⟩ : ∃ L, L = (R.xu - R.xl) + (R.yu - R.yl) := ⟨_, rfl⟩
  have L0 : 0 < L := by linarith
  have hC' : 0 ≤ fluxConst R b0 B M L := by
    have t1 : 0 ≤ top R b0 B := by unfold top; positivity
    have d1 := drop_pos hR h0 B0
    have t2 : 0 ≤ top (swapRect R) b0 B := by unfold top; positivity
    have d2 := drop_pos (R := swapRect R) ⟨hR.2, hR.1⟩ h0 B0
    have : 0 ≤ reach R b0 B := by unfold reach; positivity
    unfold fluxConst
    positivity
  refine ⟨fluxConst R b0 B M L * ((R.xu - R.xl) ^ 2 + (R.yu - R.yl) ^ 2), by positivity, ?_⟩
  intro flux κ bc ⟨v, hv4, hv⟩ hκ hbc lap lu N hN opt hc ho t ht d hd
  have hs := FVSolver.shapes lu s hN
  have hm : 2 ≤ N * 2 ^ d := hN.trans (Nat.le_mul_of_pos_right _ (by positivity))
  have hm0 : 0 < N * 2 ^ d := by omega
  obtain ⟨t1, c1, t3, e1, e2, e3, _⟩ := C20_stages_succeed_functions lap (by omega) hs ho ht (Or.inr ⟨d, hd⟩) f bc
  -- the conditions at the side points, multiplied by the sign
  obtain ⟨κ', eκ⟩ : ∃ κ' : Nat → Nat → ℝ, κ' = fun q k => tilt q * κ q (sidePoint R (N * 2 ^ d) q k).1 (sidePoint R (N * 2 ^ d) q k).2 := ⟨_, rfl⟩
  have hκ' : ∀ q, q < 4 → flux q = true → ∀ k, k < N * 2 ^ d → 0 ≤ κ' q k := by
    intro q hq hf k hk
    rw [eκ]
    exact hκ q hq hf _ _ (onSide_sidePoint hR hq hk)
  have hA : ∀ q, q < 4 → ∀ k, k < N * 2 ^ d → sideData (·.2.1) bc R (N * 2 ^ d) q k =
      (if flux q = true then tilt q else 1) * (if flux q = true then κ' q k else 1) := by
    intro q hq k hk
    unfold sideData
    rw [hbc q hq _ _ (onSide_sidePoint hR hq hk), eκ]
    by_cases h : flux q = true
    · simp only [if_pos h]
      rw [← mul_assoc, tilt_sq, one_mul]
    · simp only [if_neg h, one_mul]
  have hB' : ∀ q, q < 4 → ∀ k, k < N * 2 ^ d → flipWS (sideData (·.2.2) bc R (N * 2 ^ d)) q k =
      (if flux q = true then tilt q else 1) * (if flux q = true then 1 else 0) := by
    intro q hq k hk
    unfold flipWS sideData
    rw [hbc q hq _ _ (onSide_sidePoint hR hq hk)]
    by_cases h : flux q = true
    · simp only [if_pos h, tilt, mul_one]
    · simp only [if_neg h, neg_zero, ite_self, mul_zero]
  have hσ : ∀ q, (if flux q = true then tilt q else 1) * (if flux q = true then tilt q else 1) = 1 := by
    intro q
    split_ifs
    · exact tilt_sq q
    · norm_num
  have wp : WellPosed s R (N * 2 ^ d) (fun q k => if flux q = true then κ' q k else 1) (fun q _ => if flux q = true then 1 else 0) := by
    refine ⟨fun q hq k hk => ?_, Or.inl ⟨v, hv4, 0, hm0, ?_⟩⟩
    · by_cases h : flux q = true
      · have := hκ' q hq h k hk
        simp only [if_pos h]
        exact ⟨this, by norm_num, by linarith⟩
      · simp only [if_neg h]
        norm_num
    · simp [hv]
  have hq : RobinUnique s R (N * 2 ^ d) (sideData (·.2.1) bc R (N * 2 ^ d)) (flipWS (sideData (·.2.2) bc R (N * 2 ^ d))) := by
    refine (wp.unique hR hE).scale (σ := fun q _ => if flux q = true then tilt q else 1) ?_ hA hB'
    intro q _ k _ h
    have := hσ q
    rw [h] at this
    norm_num at this
  obtain ⟨g, hg⟩ := robin_functions lap lu hN hc ho ht hd hR hE f bc e1 e2 hq
  have hU : RobinSolves s R (N * 2 ^ d) (fun q k => if flux q = true then κ' q k else 1) (fun q _ => if flux q = true then 1 else 0)
      (fun q k => if flux q = true then κ' q k * u (sidePoint R (N * 2 ^ d) q k).1 (sidePoint R (N * 2 ^ d) q k).2 +
        outward Dx Dy q (sidePoint R (N * 2 ^ d) q k).1 (sidePoint R (N * 2 ^ d) q k).2 else
          u (sidePoint R (N * 2 ^ d) q k).1 (sidePoint R (N * 2 ^ d) q k).2)
      (fun i j => f (cx R (N * 2 ^ d) i) (cy R (N * 2 ^ d) j)) g (gridFn N (·.u) t3) := by
    refine ⟨hg.1, fun q hq k hk => ?_⟩
    have h1 := hg.2 q hq k hk
    rw [hA q hq k hk, hB' q hq k hk] at h1
    unfold sideData at h1
    rw [hbc q hq _ _ (onSide_sidePoint hR hq hk)] at h1
    by_cases h : flux q = true
    · simp only [if_pos h] at h1 ⊢
      rw [eκ] at h1 ⊢
      dsimp only at h1 ⊢
      have e := tilt_sq q
      generalize κ q (sidePoint R (N * 2 ^ d) q k).1 (sidePoint R (N * 2 ^ d) q k).2 = a at *
      generalize u (sidePoint R (N * 2 ^ d) q k).1 (sidePoint R (N * 2 ^ d) q k).2 = b at *
      generalize outward Dx Dy q (sidePoint R (N * 2 ^ d) q k).1 (sidePoint R (N * 2 ^ d) q k).2 = o at *
      generalize normalDeriv R (N * 2 ^ d) g (gridFn N (·.u) t3) q k = n at *
      generalize tilt q = σ at *
      linear_combination σ * h1 - (σ * a * g.side q k + n - o) * e
    · simp only [if_neg h] at h1 ⊢
      linarith
  have bound := flux_error hR hE h0 hb hβ hu hf (L := L) (by linarith) (by linarith) hm hv4 hv hκ' hU
  have bound' : ∀ i, i < N * 2 ^ d → ∀ j, j < N * 2 ^ d → |gridFn N (·.u) t3 i j - u (cx R (N * 2 ^ d) i) (cy R (N * 2 ^ d) j)| ≤
      fluxConst R b0 B M L * ((R.xu - R.xl) ^ 2 + (R.yu - R.yl) ^ 2) / (N * 2 ^ d) ^ 2 := by
    intro i hi j hj
    refine (bound i hi j hj).trans (le_of_eq ?_)
    unfold hx hy
    push_cast
    ring
  refine ⟨t1, c1, t3, e1, e2, e3, bound', ?_⟩
  have pl := (C20_leaves_in_place lap (by omega) hs ho ht (Or.inr ⟨d, hd⟩) f _ e1 e2).1
  have hd3 : Uniform d t3 := uniform_shape.mp (e3 ▸ uniform_shape.mpr hd)
  have := pl.leaf_of_grid (by omega) hd3 (·.u)
    (fun x y v => |v - u x y| ≤ fluxConst R b0 B M L * ((R.xu - R.xl) ^ 2 + (R.yu - R.yl) ^ 2) / (N * 2 ^ d) ^ 2) bound'
  intro p hp i hi j hj
  exact (this p hp).2.2 i hi j hj

/-- C76 where it holds: conditions `κ u + du/dn = r` with `κ ≥ 0` on any sides, but on the West and the South side only `du/dn = 0`; values
on the other sides, of which there is at least one.  The leaf values are within a constant, independent of the mesh, divided by the square of
the number of cells per side of the classical solution.

Missing: other conditions with derivatives on the West and the South side, see `C76_west_flux_wrong`; all four sides with derivatives; meshes
that are not uniform. -/
theorem C76_second_order_partial {s : FVSolver ℝ} {R : Rect ℝ} (hR : Proper R) (hE : EllipticOn s R) {Bx By : Nat → ℝ → ℝ → ℝ} {B : ℝ}
    (hβ : Derivs R s.beta Bx By B) {u : ℝ → ℝ → ℝ} {Dx Dy : Nat → ℝ → ℝ → ℝ} {M : ℝ} (hu : Derivs R u Dx Dy M) {f : ℝ → ℝ → ℝ}
    (hf : Classical s R u Dx Dy Bx By f) :
    ∃ C, 0 ≤ C ∧ ∀ (flux : Nat → Bool) (κ : Nat → ℝ → ℝ → ℝ) (bc : BoundaryFn ℝ), (∃ v, v < 4 ∧ flux v = false) →
      (∀ q, q < 4 → flux q = true → ∀ x y, OnSide R q x y → 0 ≤ κ q x y) →
      (∀ q, q = 0 ∨ q = 2 → flux q = true → ∀ x y, OnSide R q x y → κ q x y = 0 ∧ outward Dx Dy q x y = 0) →
      (∀ q, q < 4 → ∀ x y, OnSide R q x y → bc q x y =
        if flux q = true then (κ q x y * u x y + outward Dx Dy q x y, κ q x y, 1) else (u x y, 1, 0)) →
      ∀ (lap : Lapack ℝ) (lu : PetscLU ℝ) (N : Nat), 2 ≤ N → ∀ opt : HPSOptions, opt.cacheOperators = false →
      opt.homogeneousRhs = false → ∀ t : Tree (Patch ℝ), Init N t R → ∀ d, Uniform d t →
      ∃ t1 c1 t3, buildStage lap (s.toPatchSolver lu) opt t none = .ok (t1, c1) ∧
        (Request.functions f bc).run lap (s.toPatchSolver lu) opt t1 = .ok t3 ∧ t3.shape = t.shape ∧
        ∀ p ∈ t3.leaves, LeafNear N u (C / (N * 2 ^ d) ^ 2) p := by
  obtain ⟨C, hC, h⟩ := C76_second_order_actual hR hE hβ hu hf
  refine ⟨C, hC, fun flux κ bc hv hκ hz hbc lap lu N hN opt hc ho t ht d hd => ?_⟩
  have k1 : ∀ q, q < 4 → flux q = true → ∀ x y, OnSide R q x y → 0 ≤ tilt q * κ q x y := by
    intro q hq hf x y hxy
    by_cases h : q = 0 ∨ q = 2
    · rw [(hz q h hf x y hxy).1, mul_zero]
    · unfold tilt
      rw [if_neg h, one_mul]
      exact hκ q hq hf x y hxy
  have k2 : ∀ q, q < 4 → ∀ x y, OnSide R q x y → bc q x y =
      if flux q = true then (κ q x y * u x y + tilt q * outward Dx Dy q x y, κ q x y, 1) else (u x y, 1, 0) := by
    intro q hq x y hxy
    rw [hbc q hq x y hxy]
    by_cases hf : flux q = true
    · rw [if_pos hf, if_pos hf]
      by_cases h : q = 0 ∨ q = 2
      · obtain ⟨z1, z2⟩ := hz q h hf x y hxy
        rw [z1, z2, mul_zero]
      · unfold tilt
        rw [if_neg h, one_mul]
    · rw [if_neg hf, if_neg hf]
  obtain ⟨t1, c1, t3, e1, e2, e3, _, e4⟩ := h flux κ bc hv k1 k2 lap lu N hN opt hc ho t ht d hd
  exact ⟨t1, c1, t3, e1, e2, e3, e4⟩

/-- C76, convergence: under the same conditions every accuracy is reached on every uniformly refined mesh with enough cells per side. -/
theorem C76_converges_partial {s : FVSolver ℝ} {R : Rect ℝ} (hR : Proper R) (hE : EllipticOn s R) {Bx By : Nat → ℝ → ℝ → ℝ} {B : ℝ}
    (hβ : Derivs R s.beta Bx By B) {u : ℝ → ℝ → ℝ} {Dx Dy : Nat → ℝ → ℝ → ℝ} {M : ℝ} (hu : Derivs R u Dx Dy M) {f : ℝ → ℝ → ℝ}
    (hf : Classical s R u Dx Dy Bx By f) {ε : ℝ} (hε : 0 < ε) :
    ∃ m : Nat, ∀ (flux : Nat → Bool) (κ : Nat → ℝ → ℝ → ℝ) (bc : BoundaryFn ℝ), (∃ v, v < 4 ∧ flux v = false) →
      (∀ q, q < 4 → flux q = true → ∀ x y, OnSide R q x y → 0 ≤ κ q x y) →
      (∀ q, q = 0 ∨ q = 2 → flux q = true → ∀ x y, OnSide R q x y → κ q x y = 0 ∧ outward Dx Dy q x y = 0) →
      (∀ q, q < 4 → ∀ x y, OnSide R q x y → bc q x y =
        if flux q = true then (κ q x y * u x y + outward Dx Dy q x y, κ q x y, 1) else (u x y, 1, 0)) →
      ∀ (lap : Lapack ℝ) (lu : PetscLU ℝ) (N : Nat), 2 ≤ N → ∀ opt : HPSOptions, opt.cacheOperators = false →
      opt.homogeneousRhs = false → ∀ t : Tree (Patch ℝ), Init N t R → ∀ d, Uniform d t → m ≤ N * 2 ^ d →
      ∃ t1 c1 t3, buildStage lap (s.toPatchSolver lu) opt t none = .ok (t1, c1) ∧
        (Request.functions f bc).run lap (s.toPatchSolver lu) opt t1 = .ok t3 ∧ ∀ p ∈ t3.leaves, LeafNear N u ε p := by
  obtain ⟨C, hC, h⟩ := C76_second_order_partial hR hE hβ hu hf
  obtain ⟨m, hm⟩ := exists_nat_gt (C / ε)
  refine ⟨m + 1, fun flux κ bc hv hκ hz hbc lap lu N hN opt hc ho t ht d hd hmN => ?_⟩
  obtain ⟨t1, c1, t3, e1, e2, _, e3⟩ := h flux κ bc hv hκ hz hbc lap lu N hN opt hc ho t ht d hd
  refine ⟨t1, c1, t3, e1, e2, fun p hp i hi j hj => (e3 p hp i hi j hj).trans ?_⟩
  have k : (m : ℝ) + 1 ≤ (N : ℝ) * 2 ^ d := by exact_mod_cast hmN
  have k0 : (0 : ℝ) ≤ m := by positivity
  have k1 : (m : ℝ) ≤ ((N : ℝ) * 2 ^ d) ^ 2 := by nlinarith
  rw [div_lt_iff₀ hε] at hm
  rw [div_le_iff₀ (by nlinarith)]
  nlinarith

/-! ### A flux on the West side -/

/-- Derivatives of `a + b x`. -/
def lineX (a b : ℝ) (k : Nat) (x _y : ℝ) : ℝ := if k = 0 then a + b * x else if k = 1 then b else 0
@[inherit_doc lineX] def lineY (a b : ℝ) (k : Nat) (x _y : ℝ) : ℝ := if k = 0 then a + b * x else 0

theorem line_derivs (a b : ℝ) : Derivs unitSquareR (fun x _ => a + b * x) (lineX a b) (lineY a b) (|a| + |b|) := by
  have hb : ∀ x ∈ Set.Icc (0 : ℝ) 1, |a + b * x| ≤ |a| + |b| := by
    intro x hx
    refine (abs_add_le _ _).trans (add_le_add le_rfl ?_)
    rw [abs_mul, abs_of_nonneg hx.1]
    exact mul_le_of_le_one_right (abs_nonneg b) hx.2
  refine ⟨by funext x y; simp [lineX], by funext x y; simp [lineY], fun y _ => ⟨fun k _ x _ => ?_, fun k _ x hx => ?_⟩,
    fun x hx => ⟨fun k _ y _ => ?_, fun k _ y _ => ?_⟩⟩
  · rcases k with _ | _ | k
    · simp only [lineX, zero_add, if_true, one_ne_zero, if_false]
      exact (((hasDerivAt_id x).const_mul b).const_add a |>.congr_deriv (by simp)).hasDerivWithinAt
    · simp only [lineX, zero_add, one_ne_zero, if_false, if_true, Nat.reduceAdd, OfNat.ofNat_ne_zero, OfNat.ofNat_ne_one]
      exact hasDerivWithinAt_const _ _ _
    · simp only [lineX, Nat.add_eq_zero_iff, one_ne_zero, and_false, if_false, Nat.add_eq_right]
      exact hasDerivWithinAt_const _ _ _
  · dsimp only [lineX]
    split_ifs
    · exact hb x hx
    · linarith [abs_nonneg a]
    · rw [abs_zero]; positivity
  · rcases k with _ | k
    · simp only [lineY, zero_add, if_true, one_ne_zero, if_false]
      exact hasDerivWithinAt_const _ _ _
    · simp only [lineY, Nat.add_eq_zero_iff, one_ne_zero, and_false, if_false]
      exact hasDerivWithinAt_const _ _ _
  · dsimp only [lineY]
    split_ifs
    · exact hb x hx
    · rw [abs_zero]; positivity

/-- Laplace's equation. -/
def laplaceR : FVSolver ℝ := ⟨fun _ _ => 1, fun _ _ => 1, fun _ _ => 0⟩

theorem laplaceR_beta : Derivs unitSquareR laplaceR.beta (lineX 1 0) (lineY 1 0) (|1| + |0|) := by
  have := line_derivs 1 0
  simp only [zero_mul, add_zero] at this ⊢
  exact this

theorem laplaceR_elliptic : EllipticOn laplaceR unitSquareR := fun x y _ => ⟨one_pos, one_ne_zero, by simp [laplaceR]⟩

theorem line_classical (a b : ℝ) :
    Classical laplaceR unitSquareR (fun x _ => a + b * x) (lineX a b) (lineY a b) (lineX 1 0) (lineY 1 0) (fun _ _ => 0) := by
  intro x y _
  simp [laplaceR, lineX, lineY]

/-- The flux of `x` on the West side, its value on the East side, no flux on the others. -/
def westFlux : BoundaryFn ℝ := fun q _ _ => if q = 0 then (-1, 0, 1) else if q = 1 then (1, 1, 0) else (0, 0, 1)

/-- C76 is false for a flux on the West side: `x` solves Laplace's equation on the unit square with `du/dn = -1` on the West side, the value 1
on the East side and no flux on the other two, but the leaf values approach `2 - x`. -/
theorem C76_west_flux_wrong :
    (Classical laplaceR unitSquareR (fun x _ => 0 + 1 * x) (lineX 0 1) (lineY 0 1) (lineX 1 0) (lineY 1 0) (fun _ _ => 0) ∧
      ∀ q, q < 4 → ∀ x y, OnSide unitSquareR q x y →
        (westFlux q x y).2.1 * (0 + 1 * x) + (westFlux q x y).2.2 * outward (lineX 0 1) (lineY 0 1) q x y = (westFlux q x y).1) ∧
    ∀ ε : ℝ, 0 < ε → ∃ m : Nat, ∀ (lap : Lapack ℝ) (lu : PetscLU ℝ) (N : Nat), 2 ≤ N → ∀ opt : HPSOptions, opt.cacheOperators = false →
      opt.homogeneousRhs = false → ∀ t : Tree (Patch ℝ), Init N t unitSquareR → ∀ d, Uniform d t → m ≤ N * 2 ^ d →
      ∃ t1 c1 t3, buildStage lap (laplaceR.toPatchSolver lu) opt t none = .ok (t1, c1) ∧
        (Request.functions (fun _ _ => 0) westFlux).run lap (laplaceR.toPatchSolver lu) opt t1 = .ok t3 ∧
        ∀ p ∈ t3.leaves, LeafNear N (fun x _ => 2 + -1 * x) ε p := by
  have hR : Proper unitSquareR := ⟨by norm_num [unitSquareR], by norm_num [unitSquareR]⟩
  refine ⟨⟨line_classical 0 1, ?_⟩, fun ε hε => ?_⟩
  · intro q hq x y hxy
    rcases (by omega : q = 0 ∨ q = 1 ∨ q = 2 ∨ q = 3) with rfl | rfl | rfl | rfl
    · simp [westFlux, outward, lineX]
    · obtain ⟨rfl, _⟩ := hxy
      simp [westFlux, unitSquareR]
    · simp [westFlux, outward, lineY]
    · simp [westFlux, outward, lineY]
  · obtain ⟨C, hC, h⟩ := C76_second_order_actual hR laplaceR_elliptic laplaceR_beta (line_derivs 2 (-1)) (line_classical 2 (-1))
    obtain ⟨m, hm⟩ := exists_nat_gt (C / ε)
    refine ⟨m + 1, fun lap lu N hN opt hc ho t ht d hd hmN => ?_⟩
    obtain ⟨t1, c1, t3, e1, e2, _, _, e3⟩ := h (fun q => q != 1) (fun _ _ _ => 0) westFlux ⟨1, by omega, rfl⟩ (fun _ _ _ _ _ _ => by simp) (by
        intro q hq x y hxy
        rcases (by omega : q = 0 ∨ q = 1 ∨ q = 2 ∨ q = 3) with rfl | rfl | rfl | rfl
        · simp [westFlux, outward, lineX, tilt]
        · obtain ⟨rfl, _⟩ := hxy
          simp [westFlux, unitSquareR]
          norm_num
        · simp [westFlux, outward, lineY, tilt]
        · simp [westFlux, outward, lineY, tilt]) lap lu N hN opt hc ho t ht d hd
    refine ⟨t1, c1, t3, e1, e2, fun p hp i hi j hj => (e3 p hp i hi j hj).trans ?_⟩
    have k : (m : ℝ) + 1 ≤ (N : ℝ) * 2 ^ d := by exact_mod_cast hmN
    have k0 : (0 : ℝ) ≤ m := by positivity
    have k1 : (m : ℝ) ≤ ((N : ℝ) * 2 ^ d) ^ 2 := by nlinarith
    rw [div_lt_iff₀ hε] at hm
    rw [div_le_iff₀ (by nlinarith)]
    nlinarith

/-! ### The time loop after many passes -/

/-- C75, after many passes: with a constant coefficient and data that do not change in time the arrays of the time loop are, from some
pass on, as close as one likes to a constant, independent of the mesh and of the time step, divided by the square of the number of cells per
side, of the classical solution `v` of the stationary problem, whatever the size of the time step.

Missing: fluxes on the South side are taken with the wrong sign, coefficients that vary, meshes that are not uniform. -/
theorem C75_stationary_partial {R : Rect ℝ} (hR : Proper R) {κ : ℝ} (hκ : 0 < κ) {v q : ℝ → ℝ → ℝ} {Dx Dy : Nat → ℝ → ℝ → ℝ} {M : ℝ}
    (hv : Derivs R v Dx Dy M) (heq : ∀ x y, Inside R x y → κ * (Dx 2 x y + Dy 2 x y) + q x y = 0) :
    ∃ C, 0 ≤ C ∧ ∀ c : Thermal ℝ, 0 < c.dt → (∀ x y τ, c.sources x y τ = q x y) →
      (∀ y ∈ Set.Icc R.yl R.yu, v R.xl y = c.uWest R.xl y 0 ∧ v R.xu y = c.uEast R.xu y 0) →
      (∀ x ∈ Set.Icc R.xl R.xu, Dy 1 x R.yl = 0 ∧ c.dudnSouth x R.yl 0 = 0 ∧ Dy 1 x R.yu = c.dudnNorth x R.yu 0) →
      (∀ x y τ τ', c.uWest x y τ = c.uWest x y τ' ∧ c.uEast x y τ = c.uEast x y τ' ∧ c.dudnSouth x y τ = c.dudnSouth x y τ' ∧
        c.dudnNorth x y τ = c.dudnNorth x y τ') →
      ∀ (lap : Lapack ℝ) (lu : PetscLU ℝ) (N : Nat), 2 ≤ N → ∀ opt : HPSOptions, opt.cacheOperators = false →
      opt.homogeneousRhs = false → ∀ t : Tree (Patch ℝ), Init N t R → ∀ d, Uniform d t →
      ∃ s c1, buildStage lap ((c.solver fun _ _ => κ).toPatchSolver lu) opt t none = .ok (s, c1) ∧ ∀ ε : ℝ, 0 < ε → ∃ k0 : Nat, ∀ k, k0 ≤ k →
        ∃ s', steps lap ((c.solver fun _ _ => κ).toPatchSolver lu) opt c (k + 1) s = .ok s' ∧ s'.shape = t.shape ∧
          ∀ p ∈ s'.leaves, LeafNear N v (C / (N * 2 ^ d) ^ 2 + ε) p := by
  have hβ : Derivs R (⟨fun _ _ => 1, fun _ _ => κ, fun _ _ => 0⟩ : FVSolver ℝ).beta (fun k _ _ => if k = 0 then κ else 0)
      (fun k _ _ => if k = 0 then κ else 0) κ := by
    have hb : ∀ k : Nat, |if k = 0 then κ else 0| ≤ κ := by
      intro k
      split_ifs
      · rw [abs_of_pos hκ]
      · rw [abs_zero]; exact hκ.le
    exact ⟨rfl, rfl, fun y _ => ⟨fun k _ x _ => by simpa using hasDerivWithinAt_const _ _ _, fun k _ x _ => hb k⟩,
      fun x _ => ⟨fun k _ y _ => by simpa using hasDerivWithinAt_const _ _ _, fun k _ y _ => hb k⟩⟩
  have hE : EllipticOn (⟨fun _ _ => 1, fun _ _ => κ, fun _ _ => 0⟩ : FVSolver ℝ) R := fun x y _ => ⟨hκ, one_ne_zero, by simp⟩
  obtain ⟨C, hC, h⟩ := C76_second_order_actual hR hE hβ hv (f := fun x y => -q x y) (by
    intro x y hxy
    have := heq x y hxy
    simp only [one_ne_zero, if_false, zero_mul, zero_add, add_zero, one_mul]
    linarith)
  refine ⟨C, hC, fun c hdt hq hWE hSN hst lap lu N hN opt hc ho t hi d hd => ?_⟩
  obtain ⟨s1, c2, s3, a1, a2, _, a4, _⟩ := h (fun q => q == 2 || q == 3) (fun _ _ _ => 0) (c.boundary 0) ⟨0, by omega, rfl⟩
    (fun _ _ _ _ _ _ => by simp) (by
      intro p hp x y hxy
      rcases (by omega : p = 0 ∨ p = 1 ∨ p = 2 ∨ p = 3) with rfl | rfl | rfl | rfl
      · obtain ⟨rfl, y1, y2⟩ := hxy
        simp only [boundary, if_true]
        rw [(hst _ _ (c.time 0) 0).1, ← (hWE y ⟨y1, y2⟩).1]
        simp
      · obtain ⟨rfl, y1, y2⟩ := hxy
        simp only [boundary, one_ne_zero, if_false, if_true]
        rw [(hst _ _ (c.time 0) 0).2.1, ← (hWE y ⟨y1, y2⟩).2]
        simp
      · obtain ⟨rfl, x1, x2⟩ := hxy
        simp [boundary, outward, tilt]
        rw [(hst _ _ (c.time 0) 0).2.2.1, (hSN x ⟨x1, x2⟩).1, (hSN x ⟨x1, x2⟩).2.1]
      · obtain ⟨rfl, x1, x2⟩ := hxy
        simp [boundary, outward, tilt]
        rw [(hst _ _ (c.time 0) 0).2.2.2, (hSN x ⟨x1, x2⟩).2.2]) lap lu N hN opt hc ho t hi d hd
  have hs := FVSolver.shapes lu (c.solver fun _ _ => κ) hN
  obtain ⟨s, c1, _, e1, _⟩ := C68_steps_return lap lu c (fun _ _ => κ) hN ho hi (Or.inr ⟨d, hd⟩) hR 0
  have all : ∀ k, ∃ t', steps lap ((c.solver fun _ _ => κ).toPatchSolver lu) opt c k s = .ok t' ∧ Good N opt R t s k t' :=
    fun k => steps_ok lap (by omega) hs ho hi (Or.inr ⟨d, hd⟩) hR e1 c k
  choose S hS hG using all
  refine ⟨s, c1, e1, fun ε hε => ?_⟩
  obtain ⟨B, hB⟩ : ∃ B : ℝ, ∀ i, i < N * 2 ^ d → ∀ j, j < N * 2 ^ d → |gridFn N (·.u) (S 1) i j - gridFn N (·.u) s3 i j| ≤ B := by
    refine ⟨∑ i ∈ range (N * 2 ^ d), ∑ j ∈ range (N * 2 ^ d), |gridFn N (·.u) (S 1) i j - gridFn N (·.u) s3 i j|, fun i hi j hj => ?_⟩
    refine (single_le_sum (f := fun j => |gridFn N (·.u) (S 1) i j - gridFn N (·.u) s3 i j|) (fun _ _ => abs_nonneg _)
      (mem_range.mpr hj)).trans ?_
    exact single_le_sum (f := fun i => ∑ j ∈ range (N * 2 ^ d), |gridFn N (·.u) (S 1) i j - gridFn N (·.u) s3 i j|)
      (fun _ _ => sum_nonneg fun _ _ => abs_nonneg _) (mem_range.mpr hi)
  have hm : 0 < N * 2 ^ d := by positivity
  have B0 : 0 ≤ B := (abs_nonneg _).trans (hB 0 hm 0 hm)
  have hL : 0 < R.xu - R.xl := by have := hR.1; linarith
  obtain ⟨ρ, eρ⟩ : ∃ ρ, ρ = 1 + c.dt * κ / (R.xu - R.xl) ^ 2 := ⟨_, rfl⟩
  have hρ : 1 < ρ := by
    rw [eρ]
    have : 0 < c.dt * κ / (R.xu - R.xl) ^ 2 := by positivity
    linarith
  obtain ⟨k0, hk0⟩ := pow_unbounded_of_one_lt (2 * B / ε) hρ
  refine ⟨k0, fun k hk => ⟨S (k + 1), hS (k + 1), (hG (k + 1)).shape, ?_⟩⟩
  have near := C68_steady_state_partial lap lu c hκ hN hc ho hi hd hR hdt (fun x y τ τ' => (hst x y τ τ').1) (fun x y τ τ' => (hst x y τ τ').2.1)
    (fun x y τ τ' => (hst x y τ τ').2.2.1) (fun x y τ τ' => (hst x y τ τ').2.2.2) (fun x y τ τ' => by rw [hq, hq]) e1 a1
    (by simpa only [hq] using a2) (hS 1) hB (hS (k + 1))
  rw [← eρ] at near
  have small : 2 * B / ρ ^ k ≤ ε := by
    have p1 : ρ ^ k0 ≤ ρ ^ k := pow_le_pow_right₀ hρ.le hk
    have p2 : 0 < ρ ^ k := by positivity
    rw [div_lt_iff₀ hε] at hk0
    rw [div_le_iff₀ p2]
    have := mul_le_mul_of_nonneg_right p1 hε.le
    linarith
  have hd3 : Uniform d (S (k + 1)) := uniform_shape.mp ((hG (k + 1)).shape ▸ uniform_shape.mpr hd)
  have := (hG (k + 1)).placed.leaf_of_grid (by omega) hd3 (·.u) (fun x y w => |w - v x y| ≤ C / (N * 2 ^ d) ^ 2 + ε) (by
    intro i hi' j hj'
    have n1 := near i hi' j hj'
    have n2 := a4 i hi' j hj'
    have n3 := abs_sub_le (gridFn N (·.u) (S (k + 1)) i j) (gridFn N (·.u) s3 i j) (v (cx R (N * 2 ^ d) i) (cy R (N * 2 ^ d) j))
    linarith)
  intro p hp i hi' j hj'
  exact (this p hp).2.2 i hi' j hj'

/-- Derivatives of `x (1 - x)`. -/
def archX (k : Nat) (x _y : ℝ) : ℝ := if k = 0 then x * (1 - x) else if k = 1 then 1 - 2 * x else if k = 2 then -2 else 0
@[inherit_doc archX] def archY (k : Nat) (x _y : ℝ) : ℝ := if k = 0 then x * (1 - x) else 0

/-- Heat comes in everywhere at the rate 2 and leaves through the West and East side. -/
noncomputable def archThermal : Thermal ℝ where
  dt := 1 / 10
  tStart := 0
  uWest := fun _ _ _ => 0
  uEast := fun _ _ _ => 0
  dudnSouth := fun _ _ _ => 0
  dudnNorth := fun _ _ _ => 0
  sources := fun _ _ _ => 2

/-- The hypotheses of `C75_stationary_partial` hold. -/
example : Derivs unitSquareR (fun x _ => x * (1 - x)) archX archY 2 ∧
    (∀ x y, Inside unitSquareR x y → (1 : ℝ) * (archX 2 x y + archY 2 x y) + (fun _ _ => 2 : ℝ → ℝ → ℝ) x y = 0) ∧ 0 < archThermal.dt ∧
    (∀ x y τ, archThermal.sources x y τ = 2) ∧
    (∀ y ∈ Set.Icc unitSquareR.yl unitSquareR.yu, unitSquareR.xl * (1 - unitSquareR.xl) = archThermal.uWest unitSquareR.xl y 0 ∧
      unitSquareR.xu * (1 - unitSquareR.xu) = archThermal.uEast unitSquareR.xu y 0) ∧
    (∀ x ∈ Set.Icc unitSquareR.xl unitSquareR.xu, archY 1 x unitSquareR.yl = 0 ∧ archThermal.dudnSouth x unitSquareR.yl 0 = 0 ∧
      archY 1 x unitSquareR.yu = archThermal.dudnNorth x unitSquareR.yu 0) := by
  refine ⟨⟨by funext x y; simp [archX], by funext x y; simp [archY], fun y _ => ⟨fun k _ x _ => ?_, fun k _ x hx => ?_⟩,
    fun x hx => ⟨fun k _ y _ => ?_, fun k _ y _ => ?_⟩⟩, ?_, ?_, ?_, ?_, ?_⟩
  · rcases k with _ | _ | _ | k
    · simp only [archX, zero_add, if_true, one_ne_zero, if_false]
      exact ((hasDerivAt_id x).mul ((hasDerivAt_id x).const_sub 1) |>.congr_deriv (by simp; ring)).hasDerivWithinAt
    · simp only [archX, zero_add, one_ne_zero, if_false, if_true, Nat.reduceAdd, OfNat.ofNat_ne_zero, OfNat.ofNat_ne_one]
      exact (((hasDerivAt_id x).const_mul 2).const_sub 1 |>.congr_deriv (by simp)).hasDerivWithinAt
    · simp only [archX, zero_add, one_ne_zero, if_false, if_true, Nat.reduceAdd, OfNat.ofNat_ne_zero, OfNat.ofNat_ne_one]
      exact hasDerivWithinAt_const _ _ _
    · have e : ∀ j : Nat, archX (j + 3) = fun _ _ => 0 := by
        intro j
        funext x y
        simp [archX]
      have h : HasDerivWithinAt (fun x => archX (k + 3) x y) (archX (k + 1 + 3) x y) (Set.Icc unitSquareR.xl unitSquareR.xu) x := by
        rw [e k, e (k + 1)]
        exact hasDerivWithinAt_const _ _ _
      exact h
  · obtain ⟨x0, x1⟩ : 0 ≤ x ∧ x ≤ 1 := hx
    dsimp only [archX]
    split_ifs
    · rw [abs_le]; constructor <;> nlinarith
    · rw [abs_le]; constructor <;> linarith
    · norm_num
    · norm_num
  · rcases k with _ | k
    · simp only [archY, zero_add, if_true, one_ne_zero, if_false]
      exact hasDerivWithinAt_const _ _ _
    · simp only [archY, Nat.add_eq_zero_iff, one_ne_zero, and_false, if_false]
      exact hasDerivWithinAt_const _ _ _
  · obtain ⟨x0, x1⟩ : 0 ≤ x ∧ x ≤ 1 := hx
    dsimp only [archY]
    split_ifs
    · rw [abs_le]; constructor <;> nlinarith
    · norm_num
  · intro x y _
    simp [archX, archY]
  · norm_num [archThermal]
  · intro x y τ
    rfl
  · intro y _
    simp [archThermal, unitSquareR]
  · intro x _
    simp [archThermal, archY]

/-! ### The hypotheses hold: `div(eˣ grad u) - u = f` with solution `eˣ⁺ʸ`, the condition `3 u + du/dn = r` on the East side, the flux on the
North side and values on the other two -/

/-- The conditions. -/
noncomputable def expConditions : BoundaryFn ℝ := fun q x y =>
  if q = 1 then (4 * Real.exp (x + y), 3, 1) else if q = 3 then (Real.exp (x + y), 0, 1) else (Real.exp (x + y), 1, 0)

example : (∃ v, v < 4 ∧ (fun q => q == 1 || q == 3) v = false) ∧
    (∀ q, q < 4 → (q == 1 || q == 3) = true → ∀ x y, OnSide unitSquareR q x y → (0 : ℝ) ≤ (fun q _ _ => if q = 1 then 3 else 0 : Nat → ℝ → ℝ → ℝ) q x y) ∧
    (∀ q, q = 0 ∨ q = 2 → (q == 1 || q == 3) = true → ∀ x y, OnSide unitSquareR q x y →
      (fun q _ _ => if q = 1 then 3 else 0 : Nat → ℝ → ℝ → ℝ) q x y = 0 ∧
        outward (fun _ x y => Real.exp (x + y)) (fun _ x y => Real.exp (x + y)) q x y = 0) ∧
    (∀ q, q < 4 → ∀ x y, OnSide unitSquareR q x y → expConditions q x y =
      if (q == 1 || q == 3) = true then ((fun q _ _ => if q = 1 then 3 else 0 : Nat → ℝ → ℝ → ℝ) q x y * Real.exp (x + y) +
        outward (fun _ x y => Real.exp (x + y)) (fun _ x y => Real.exp (x + y)) q x y,
        (fun q _ _ => if q = 1 then 3 else 0 : Nat → ℝ → ℝ → ℝ) q x y, 1) else (Real.exp (x + y), 1, 0)) := by
  refine ⟨⟨0, by omega, rfl⟩, ?_, ?_, ?_⟩
  · intro q _ _ x y _
    dsimp only
    split_ifs <;> norm_num
  · intro q hq hf
    rcases hq with rfl | rfl <;> simp at hf
  · intro q hq x y _
    rcases (by omega : q = 0 ∨ q = 1 ∨ q = 2 ∨ q = 3) with rfl | rfl | rfl | rfl
    · simp [expConditions]
    · simp [expConditions, outward]
      ring
    · simp [expConditions]
    · simp [expConditions, outward]

end EF
