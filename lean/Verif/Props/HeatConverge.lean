import Verif.Proofs.HeatError
import Verif.Props.Converge
import Verif.Props.Thermal

/-!
# The time loop of the thermal example converges to the heat equation (C75)
-/

namespace EF

open FV HPS Thermal

/-- The bound is linear in the squares of the cell widths and the time step. -/
theorem FV.heatBound_le {R : Rect ℝ} (hR : Proper R) {b0 B M L : ℝ} (h0 : 0 < b0) (hB : 0 ≤ B) (hM : 0 ≤ M) (hL : 0 ≤ L) {m : Nat} (hm : 0 < m)
    {dt : ℝ} (hdt : 0 ≤ dt) :
    heatBound R b0 B M L (hx R m ^ 2) (hy R m ^ 2) dt ≤
      (heatBound R b0 B M L ((R.xu - R.xl) ^ 2) ((R.yu - R.yl) ^ 2) 0 + heatBound R b0 B M L 0 0 1) * (dt + 1 / (m : ℝ) ^ 2) := by
  have r1 := hR.1
  have r2 := hR.2
  have hd := drop_pos hR h0 hB
  have ht : 0 ≤ top R b0 B := by unfold top; positivity
  have hLy : 0 < R.yu - R.yl := by linarith
  obtain ⟨X, eX⟩ : ∃ X, X = heatBound R b0 B M L ((R.xu - R.xl) ^ 2) ((R.yu - R.yl) ^ 2) 0 := ⟨_, rfl⟩
  obtain ⟨Y, eY⟩ : ∃ Y, Y = heatBound R b0 B M L 0 0 1 := ⟨_, rfl⟩
  have X0 : 0 ≤ X := by rw [eX]; unfold heatBound; positivity
  have Y0 : 0 ≤ Y := by rw [eY]; unfold heatBound; positivity
  have e : heatBound R b0 B M L (hx R m ^ 2) (hy R m ^ 2) dt = X * (1 / (m : ℝ) ^ 2) + Y * dt := by
    rw [eX, eY]
    unfold heatBound hx hy
    have : (m : ℝ) ≠ 0 := by positivity
    field_simp
    ring
  rw [e, ← eX, ← eY]
  have p1 : 0 ≤ X * dt := by positivity
  have p2 : 0 ≤ Y * (1 / (m : ℝ) ^ 2) := by positivity
  linarith

/-- A function that is zero on an interval has derivative zero. -/
theorem FV.deriv_of_zero {F F' : ℝ → ℝ} {lo hi : ℝ} (hlt : lo < hi) (h0 : ∀ y ∈ Set.Icc lo hi, F y = 0)
    (hd : ∀ y ∈ Set.Icc lo hi, HasDerivWithinAt F (F' y) (Set.Icc lo hi) y) : ∀ y ∈ Set.Icc lo hi, F' y = 0 := by
  intro y hy
  have h1 : HasDerivWithinAt F 0 (Set.Icc lo hi) y := (hasDerivWithinAt_const y (Set.Icc lo hi) (0 : ℝ)).congr (fun x hx => h0 x hx) (h0 y hy)
  exact ((uniqueDiffOn_Icc hlt).uniqueDiffWithinAt hy).eq_deriv _ (hd y hy) h1

/-- What the loop converges to, whatever is asked for on the South side: there the value is taken for the derivative by `y`, that is for the
negative of the outward flux.  The arrays of all passes are within a constant times `dt + 1/m²` of the solution, `m` the number of cells per
side; the constant depends on the solution, `beta` and the rectangle only. -/
theorem C75_converges_actual {R : Rect ℝ} (hR : Proper R) {beta : ℝ → ℝ → ℝ} (hb : ∀ x y, Inside R x y → 0 < beta x y)
    {Bx By : Nat → ℝ → ℝ → ℝ} {B : ℝ} (hβ : Derivs R beta Bx By B) {t0 t1 : ℝ} (ht : t0 ≤ t1) {q v : ℝ → ℝ → ℝ → ℝ}
    {Dx Dy Dt : Nat → ℝ → ℝ → ℝ → ℝ} {M : ℝ} (hv : HeatSolution R beta Bx By t0 t1 q v Dx Dy Dt M)
    (hv0 : ∀ x y, Inside R x y → v x y t0 = 0) :
    ∃ C, 0 ≤ C ∧ ∀ c : Thermal ℝ, c.tStart = t0 → 0 < c.dt →
      (∀ τ ∈ Set.Icc t0 t1, ∀ x y, Inside R x y → c.sources x y τ = q x y τ) →
      (∀ τ ∈ Set.Icc t0 t1, ∀ y ∈ Set.Icc R.yl R.yu, c.uWest R.xl y τ = v R.xl y τ ∧ c.uEast R.xu y τ = v R.xu y τ) →
      (∀ τ ∈ Set.Icc t0 t1, ∀ x ∈ Set.Icc R.xl R.xu, c.dudnSouth x R.yl τ = Dy 1 x R.yl τ ∧ c.dudnNorth x R.yu τ = Dy 1 x R.yu τ) →
      ∀ (lap : Lapack ℝ) (lu : PetscLU ℝ) (N : Nat), 2 ≤ N → ∀ opt : HPSOptions, opt.cacheOperators = false →
      opt.homogeneousRhs = false → ∀ t : Tree (Patch ℝ), Init N t R → ∀ d, Uniform d t →
      ∃ s c1, buildStage lap ((c.solver beta).toPatchSolver lu) opt t none = .ok (s, c1) ∧ ∀ n, c.time n ≤ t1 →
        ∃ s', steps lap ((c.solver beta).toPatchSolver lu) opt c (n + 1) s = .ok s' ∧ s'.shape = t.shape ∧
          ∀ p ∈ s'.leaves, LeafNear N (fun x y => v x y (c.time n)) (C * (c.dt + 1 / (N * 2 ^ d) ^ 2)) p := by
  obtain ⟨b0, h0, hb0⟩ := hβ.lower hR hb
  have B0 := hβ.nonneg hR
  have M0 := (hv.space t0 ⟨le_rfl, ht⟩).nonneg hR
  have r1 := hR.1
  have r2 := hR.2
  obtain ⟨L, eL⟩ : ∃ L, L = (R.xu - R.xl) + (R.yu - R.yl) := ⟨_, rfl⟩
  have L0 : 0 < L := by linarith
  refine ⟨heatBound R b0 B M L ((R.xu - R.xl) ^ 2) ((R.yu - R.yl) ^ 2) 0 + heatBound R b0 B M L 0 0 1, ?_, ?_⟩
  · have hd := drop_pos hR h0 B0
    have ht : 0 ≤ top R b0 B := by unfold top; positivity
    have hLy : 0 < R.yu - R.yl := by linarith
    unfold heatBound
    positivity
  intro c ec hdt hq hWE hSN lap lu N hN opt hc ho t hi d hd
  have hm : 2 ≤ N * 2 ^ d := hN.trans (Nat.le_mul_of_pos_right _ (by positivity))
  have hm0 : 0 < N * 2 ^ d := by omega
  have hx0 := hx_pos hR hm0
  have hy0 := hy_pos hR hm0
  have cxI : ∀ i, i < N * 2 ^ d → cx R (N * 2 ^ d) i ∈ Set.Icc R.xl R.xu := fun i h => by
    obtain ⟨a, b⟩ := cx_face hR h
    exact ⟨by linarith, by linarith⟩
  have cyI : ∀ j, j < N * 2 ^ d → cy R (N * 2 ^ d) j ∈ Set.Icc R.yl R.yu := fun j h => by
    obtain ⟨a, b⟩ := cy_face hR h
    exact ⟨by linarith, by linarith⟩
  have hs := FVSolver.shapes lu (c.solver beta) hN
  obtain ⟨s, c1, _, e1, _⟩ := C68_steps_return lap lu c beta hN ho hi (Or.inr ⟨d, hd⟩) hR 0
  refine ⟨s, c1, e1, ?_⟩
  intro n hn
  have tk : ∀ k : Nat, c.time k = t0 + k * c.dt := fun k => by unfold Thermal.time; rw [ec]
  have all : ∀ k, ∃ t', steps lap ((c.solver beta).toPatchSolver lu) opt c k s = .ok t' ∧ Good N opt R t s k t' :=
    fun k => steps_ok lap (by omega) hs ho hi (Or.inr ⟨d, hd⟩) hR e1 c k
  choose S hS hG using all
  have inT : ∀ k : Nat, k ≤ n → t0 + k * c.dt ∈ Set.Icc t0 t1 := by
    intro k hk
    rw [tk] at hn
    have : (k : ℝ) ≤ n := by exact_mod_cast hk
    have h1 := mul_le_mul_of_nonneg_right this hdt.le
    have h2 : 0 ≤ (k : ℝ) * c.dt := by positivity
    exact ⟨by linarith, by linarith⟩
  -- the first pass
  have first : ∀ i, i < N * 2 ^ d → ∀ j, j < N * 2 ^ d →
      field N 1 (S 1) i j = v (cx R (N * 2 ^ d) i) (cy R (N * 2 ^ d) j) t0 := by
    obtain ⟨t', g, e, hh⟩ := steps_heat lap lu c hN hc ho hi hd hR hb hdt e1 (hS 1)
    have hz : ∀ x ∈ Set.Icc R.xl R.xu, ∀ y ∈ Set.Icc R.yl R.yu, Dy 1 x y t0 = 0 := by
      intro x hx
      have sp := hv.space t0 ⟨le_rfl, ht⟩
      refine deriv_of_zero hR.2 (fun y hy => hv0 x y ⟨hx.1, hx.2, hy.1, hy.2⟩) (fun y hy => ?_)
      have d0 : HasDerivWithinAt (fun y => Dy 0 x y t0) (Dy 1 x y t0) (Set.Icc R.yl R.yu) y := (sp.inY x hx).1 0 (by omega) y hy
      have y0 : (fun y => Dy 0 x y t0) = fun y => v x y t0 := congrFun sp.y0 x
      rw [y0] at d0
      exact d0
    have h00 : t0 ∈ Set.Icc t0 t1 := ⟨le_rfl, ht⟩
    have tz : c.time 0 = t0 := by rw [tk]; simp
    rw [tz] at hh
    have zW : ∀ k, k < N * 2 ^ d → c.uWest R.xl (cy R (N * 2 ^ d) k) t0 = 0 := fun k hk => by
      rw [(hWE t0 h00 _ (cyI k hk)).1, hv0 _ _ ⟨le_rfl, hR.1.le, (cyI k hk).1, (cyI k hk).2⟩]
    have zE : ∀ k, k < N * 2 ^ d → c.uEast R.xu (cy R (N * 2 ^ d) k) t0 = 0 := fun k hk => by
      rw [(hWE t0 h00 _ (cyI k hk)).2, hv0 _ _ ⟨hR.1.le, le_rfl, (cyI k hk).1, (cyI k hk).2⟩]
    have zS : ∀ k, k < N * 2 ^ d → -c.dudnSouth (cx R (N * 2 ^ d) k) R.yl t0 = 0 := fun k hk => by
      rw [(hSN t0 h00 _ (cxI k hk)).1, hz _ (cxI k hk) _ ⟨le_rfl, hR.2.le⟩, neg_zero]
    have zN : ∀ k, k < N * 2 ^ d → c.dudnNorth (cx R (N * 2 ^ d) k) R.yu t0 = 0 := fun k hk => by
      rw [(hSN t0 h00 _ (cxI k hk)).2, hz _ (cxI k hk) _ ⟨hR.2.le, le_rfl⟩]
    have up := heat_mono hR hb hdt hh (heat_const beta R c.dt (N * 2 ^ d) 0) (fun k hk => (zW k hk).le) (fun k hk => (zE k hk).le)
      (fun k hk => (zS k hk).le) (fun k hk => (zN k hk).le) (fun i _ j _ => by simp [sourceAt]) (fun i _ j _ => by simp [field])
    have down := heat_mono hR hb hdt (heat_const beta R c.dt (N * 2 ^ d) 0) hh (fun k hk => (zW k hk).ge) (fun k hk => (zE k hk).ge)
      (fun k hk => (zS k hk).ge) (fun k hk => (zN k hk).ge) (fun i _ j _ => by simp [sourceAt]) (fun i _ j _ => by simp [field])
    intro i hi j hj
    rw [hv0 _ _ ⟨(cxI i hi).1, (cxI i hi).2, (cyI j hj).1, (cyI j hj).2⟩]
    exact le_antisymm (up i hi j hj) (down i hi j hj)
  have bound := heat_error hR h0 hb0 hβ hv hm (L := L) (by linarith) (by linarith) hdt (U := fun k => field N (k + 1) (S (k + 1))) first
    (n := n) (by rw [← tk]; exact hn) (by
      intro k hk
      obtain ⟨t', g, e, hh⟩ := steps_heat lap lu c hN hc ho hi hd hR hb hdt e1 (hS (k + 2))
      rw [hS (k + 1)] at e
      obtain rfl := Res.ok_inj.mp e
      have tm := inT (k + 1) (by omega)
      rw [tk] at hh
      refine ⟨g, hh.congr ?_ ?_ ?_ ?_ ?_ (fun _ _ _ _ => rfl) rfl⟩
      · intro i hi'
        exact (hWE _ tm _ (cyI i hi')).1.symm
      · intro i hi'
        exact (hWE _ tm _ (cyI i hi')).2.symm
      · intro i hi'
        rw [(hSN _ tm _ (cxI i hi')).1]
      · intro i hi'
        exact (hSN _ tm _ (cxI i hi')).2.symm
      · intro i hi' j hj'
        unfold sourceAt
        rw [if_neg (by omega), tk]
        exact (hq _ tm _ _ ⟨(cxI i hi').1, (cxI i hi').2, (cyI j hj').1, (cyI j hj').2⟩).symm)
  refine ⟨S (n + 1), hS (n + 1), (hG (n + 1)).shape, ?_⟩
  have hd3 : Uniform d (S (n + 1)) := uniform_shape.mp ((hG (n + 1)).shape ▸ uniform_shape.mpr hd)
  have := (hG (n + 1)).placed.leaf_of_grid (by omega) hd3 (·.u) (fun x y w => |w - v x y (c.time n)| ≤
    (heatBound R b0 B M L ((R.xu - R.xl) ^ 2) ((R.yu - R.yl) ^ 2) 0 + heatBound R b0 B M L 0 0 1) * (c.dt + 1 / (N * 2 ^ d) ^ 2)) (by
      intro i hi' j hj'
      have h1 := bound n le_rfl i hi' j hj'
      have h2 := heatBound_le hR h0 B0 M0 L0.le hm0 hdt.le
      push_cast at h2
      have h3 : field N (n + 1) (S (n + 1)) = gridFn N (·.u) (S (n + 1)) := by unfold field; rw [if_neg (by omega)]
      rw [h3, ← tk] at h1
      exact h1.trans h2)
  intro p hp i hi' j hj'
  exact (this p hp).2.2 i hi' j hj'

/-- C75 where it holds: a classical solution of the heat equation that is zero at the start and has no flux through the South side.  The
arrays of all passes are within a constant times `dt + 1/m²` of the solution at the time of the pass at the cell centres.

Missing: fluxes on the South side (see `C75_converges_actual`: the sign is wrong), meshes that are not uniform, and solutions that are not
smooth up to the start, for example because the boundary values do not start from zero. -/
theorem C75_heat_equation_partial {R : Rect ℝ} (hR : Proper R) {beta : ℝ → ℝ → ℝ} (hb : ∀ x y, Inside R x y → 0 < beta x y)
    {Bx By : Nat → ℝ → ℝ → ℝ} {B : ℝ} (hβ : Derivs R beta Bx By B) {t0 t1 : ℝ} (ht : t0 ≤ t1) {q v : ℝ → ℝ → ℝ → ℝ}
    {Dx Dy Dt : Nat → ℝ → ℝ → ℝ → ℝ} {M : ℝ} (hv : HeatSolution R beta Bx By t0 t1 q v Dx Dy Dt M)
    (hv0 : ∀ x y, Inside R x y → v x y t0 = 0) :
    ∃ C, 0 ≤ C ∧ ∀ c : Thermal ℝ, c.tStart = t0 → 0 < c.dt →
      (∀ τ ∈ Set.Icc t0 t1, ∀ x y, Inside R x y → c.sources x y τ = q x y τ) →
      (∀ τ ∈ Set.Icc t0 t1, ∀ y ∈ Set.Icc R.yl R.yu, c.uWest R.xl y τ = v R.xl y τ ∧ c.uEast R.xu y τ = v R.xu y τ) →
      (∀ τ ∈ Set.Icc t0 t1, ∀ x ∈ Set.Icc R.xl R.xu, c.dudnSouth x R.yl τ = -Dy 1 x R.yl τ ∧ c.dudnNorth x R.yu τ = Dy 1 x R.yu τ) →
      (∀ x y τ, c.dudnSouth x y τ = 0) →
      ∀ (lap : Lapack ℝ) (lu : PetscLU ℝ) (N : Nat), 2 ≤ N → ∀ opt : HPSOptions, opt.cacheOperators = false →
      opt.homogeneousRhs = false → ∀ t : Tree (Patch ℝ), Init N t R → ∀ d, Uniform d t →
      ∃ s c1, buildStage lap ((c.solver beta).toPatchSolver lu) opt t none = .ok (s, c1) ∧ ∀ n, c.time n ≤ t1 →
        ∃ s', steps lap ((c.solver beta).toPatchSolver lu) opt c (n + 1) s = .ok s' ∧ s'.shape = t.shape ∧
          ∀ p ∈ s'.leaves, LeafNear N (fun x y => v x y (c.time n)) (C * (c.dt + 1 / (N * 2 ^ d) ^ 2)) p := by
  obtain ⟨C, hC, h⟩ := C75_converges_actual hR hb hβ ht hv hv0
  refine ⟨C, hC, fun c ec hdt hq hWE hSN hS => h c ec hdt hq hWE (fun τ hτ x hx => ⟨?_, (hSN τ hτ x hx).2⟩)⟩
  have := (hSN τ hτ x hx).1
  rw [hS] at this ⊢
  linarith

/-- Every accuracy is reached at all passes up to `t1` with steps short enough and cells enough. -/
theorem C75_converges_partial {R : Rect ℝ} (hR : Proper R) {beta : ℝ → ℝ → ℝ} (hb : ∀ x y, Inside R x y → 0 < beta x y)
    {Bx By : Nat → ℝ → ℝ → ℝ} {B : ℝ} (hβ : Derivs R beta Bx By B) {t0 t1 : ℝ} (ht : t0 ≤ t1) {q v : ℝ → ℝ → ℝ → ℝ}
    {Dx Dy Dt : Nat → ℝ → ℝ → ℝ → ℝ} {M : ℝ} (hv : HeatSolution R beta Bx By t0 t1 q v Dx Dy Dt M)
    (hv0 : ∀ x y, Inside R x y → v x y t0 = 0) {ε : ℝ} (hε : 0 < ε) :
    ∃ δ, 0 < δ ∧ ∃ m : Nat, ∀ c : Thermal ℝ, c.tStart = t0 → 0 < c.dt → c.dt ≤ δ →
      (∀ τ ∈ Set.Icc t0 t1, ∀ x y, Inside R x y → c.sources x y τ = q x y τ) →
      (∀ τ ∈ Set.Icc t0 t1, ∀ y ∈ Set.Icc R.yl R.yu, c.uWest R.xl y τ = v R.xl y τ ∧ c.uEast R.xu y τ = v R.xu y τ) →
      (∀ τ ∈ Set.Icc t0 t1, ∀ x ∈ Set.Icc R.xl R.xu, c.dudnSouth x R.yl τ = -Dy 1 x R.yl τ ∧ c.dudnNorth x R.yu τ = Dy 1 x R.yu τ) →
      (∀ x y τ, c.dudnSouth x y τ = 0) →
      ∀ (lap : Lapack ℝ) (lu : PetscLU ℝ) (N : Nat), 2 ≤ N → ∀ opt : HPSOptions, opt.cacheOperators = false →
      opt.homogeneousRhs = false → ∀ t : Tree (Patch ℝ), Init N t R → ∀ d, Uniform d t → m ≤ N * 2 ^ d →
      ∃ s c1, buildStage lap ((c.solver beta).toPatchSolver lu) opt t none = .ok (s, c1) ∧ ∀ n, c.time n ≤ t1 →
        ∃ s', steps lap ((c.solver beta).toPatchSolver lu) opt c (n + 1) s = .ok s' ∧
          ∀ p ∈ s'.leaves, LeafNear N (fun x y => v x y (c.time n)) ε p := by
  obtain ⟨C, hC, h⟩ := C75_heat_equation_partial hR hb hβ ht hv hv0
  obtain ⟨m, hm⟩ := exists_nat_gt (2 * C / ε)
  refine ⟨ε / (2 * C + 1), by positivity, m + 1, fun c ec hdt hδ hq hWE hSN hS lap lu N hN opt hc ho t hi d hd hmN => ?_⟩
  obtain ⟨s, c1, e1, e2⟩ := h c ec hdt hq hWE hSN hS lap lu N hN opt hc ho t hi d hd
  refine ⟨s, c1, e1, fun n hn => ?_⟩
  obtain ⟨s', e3, _, e4⟩ := e2 n hn
  refine ⟨s', e3, fun p hp i hi j hj => (e4 p hp i hi j hj).trans ?_⟩
  have k : (m : ℝ) + 1 ≤ (N : ℝ) * 2 ^ d := by exact_mod_cast hmN
  have k0 : (0 : ℝ) ≤ m := by positivity
  have k1 : (m : ℝ) ≤ ((N : ℝ) * 2 ^ d) ^ 2 := by nlinarith
  rw [div_lt_iff₀ hε] at hm
  rw [le_div_iff₀ (by positivity)] at hδ
  have p1 : C * c.dt ≤ ε / 2 := by nlinarith
  have p2 : C * (1 / ((N : ℝ) * 2 ^ d) ^ 2) ≤ ε / 2 := by
    rw [mul_one_div, div_le_iff₀ (by nlinarith)]
    nlinarith
  linarith

/-! ### The hypotheses hold: `v = t (eˣ + 3y² - 2y³)` on the unit square, with `beta = eˣ` -/

/-- The derivatives of `3y² - 2y³`. -/
def smoothStep (k : Nat) (y : ℝ) : ℝ :=
  match k with
  | 0 => 3 * y ^ 2 - 2 * y ^ 3
  | 1 => 6 * y - 6 * y ^ 2
  | 2 => 6 - 12 * y
  | 3 => -12
  | _ => 0

theorem smoothStep_deriv (k : Nat) (y : ℝ) : HasDerivAt (smoothStep k) (smoothStep (k + 1) y) y := by
  match k with
  | 0 =>
    have := ((hasDerivAt_pow 2 y).const_mul 3).sub ((hasDerivAt_pow 3 y).const_mul 2)
    refine this.congr_deriv ?_
    simp only [smoothStep]
    push_cast
    ring
  | 1 =>
    have := ((hasDerivAt_id y).const_mul 6).sub ((hasDerivAt_pow 2 y).const_mul 6)
    refine this.congr_deriv ?_
    simp only [smoothStep]
    push_cast
    ring
  | 2 =>
    have := (hasDerivAt_const y (6 : ℝ)).sub ((hasDerivAt_id y).const_mul 12)
    refine this.congr_deriv ?_
    simp only [smoothStep]
    ring
  | 3 => exact hasDerivAt_const y _
  | k + 4 => exact hasDerivAt_const y _

theorem smoothStep_le (k : Nat) {y : ℝ} (hy : y ∈ Set.Icc (0 : ℝ) 1) : |smoothStep k y| ≤ 12 := by
  obtain ⟨h1, h2⟩ := hy
  have h3 : 0 ≤ y ^ 2 := by positivity
  have h4 : y ^ 2 ≤ 1 := by nlinarith
  have h5 : 0 ≤ y ^ 3 := by positivity
  have h6 : y ^ 3 ≤ 1 := by nlinarith
  rw [abs_le]
  unfold smoothStep
  split <;> constructor <;> linarith

/-- The solution and its derivatives. -/
noncomputable def warm (x y t : ℝ) : ℝ := t * (Real.exp x + smoothStep 0 y)
@[inherit_doc warm] noncomputable def warmX (k : Nat) (x y t : ℝ) : ℝ := if k = 0 then warm x y t else t * Real.exp x
@[inherit_doc warm] noncomputable def warmY (k : Nat) (x y t : ℝ) : ℝ := if k = 0 then warm x y t else t * smoothStep k y
@[inherit_doc warm] noncomputable def warmT (k : Nat) (x y t : ℝ) : ℝ :=
  if k = 0 then warm x y t else if k = 1 then Real.exp x + smoothStep 0 y else 0

/-- The sources. -/
noncomputable def warmSource (x y t : ℝ) : ℝ :=
  Real.exp x + smoothStep 0 y - (Real.exp x * (t * Real.exp x) + Real.exp x * (t * Real.exp x) + Real.exp x * (t * smoothStep 2 y))

theorem warm_solution : HeatSolution unitSquareR expPde.beta (fun _ x _ => Real.exp x) (fun k x _ => if k = 0 then Real.exp x else 0) 0 2
    warmSource warm warmX warmY warmT (2 * (Real.exp 1 + 12)) := by
  have hE : ∀ x ∈ Set.Icc (0 : ℝ) 1, |Real.exp x| ≤ Real.exp 1 := by
    intro x hx
    rw [abs_of_pos (Real.exp_pos x)]
    exact Real.exp_le_exp.mpr hx.2
  have eP := Real.exp_pos 1
  have sum : ∀ x ∈ Set.Icc (0 : ℝ) 1, ∀ y ∈ Set.Icc (0 : ℝ) 1, |Real.exp x + smoothStep 0 y| ≤ Real.exp 1 + 12 := fun x hx y hy =>
    (abs_add_le _ _).trans (add_le_add (hE x hx) (smoothStep_le 0 hy))
  have tm : ∀ t ∈ Set.Icc (0 : ℝ) 2, ∀ z : ℝ, |z| ≤ Real.exp 1 + 12 → |t * z| ≤ 2 * (Real.exp 1 + 12) := by
    intro t ht z hz
    rw [abs_mul, abs_of_nonneg ht.1]
    exact mul_le_mul ht.2 hz (abs_nonneg _) (by norm_num)
  refine ⟨fun t ht => ⟨rfl, rfl, fun y hy => ⟨fun k _ x hx => ?_, fun k _ x hx => ?_⟩, fun x hx => ⟨fun k _ y hy => ?_, fun k _ y hy => ?_⟩⟩,
    rfl, fun x y hxy => ⟨fun k hk t ht => ?_, fun k hk t ht => ?_⟩, fun t ht x y hxy => ?_⟩
  · unfold warmX warm
    simp only [Nat.add_eq_zero_iff, one_ne_zero, and_false, if_false]
    split_ifs
    · exact (((Real.hasDerivAt_exp x).add_const (smoothStep 0 y)).const_mul t).hasDerivWithinAt
    · exact ((Real.hasDerivAt_exp x).const_mul t).hasDerivWithinAt
  · dsimp only
    unfold warmX warm
    split_ifs
    · exact tm t ht _ (sum x hx y hy)
    · exact tm t ht _ ((hE x hx).trans (by linarith))
  · unfold warmY warm
    simp only [Nat.add_eq_zero_iff, one_ne_zero, and_false, if_false]
    split_ifs with h
    · subst h
      exact (((smoothStep_deriv 0 y).const_add (Real.exp x)).const_mul t).hasDerivWithinAt
    · exact ((smoothStep_deriv k y).const_mul t).hasDerivWithinAt
  · dsimp only
    unfold warmY warm
    split_ifs
    · exact tm t ht _ (sum x hx y hy)
    · exact tm t ht _ ((smoothStep_le k hy).trans (by linarith))
  · unfold warmT warm
    have hk' : k = 0 ∨ k = 1 := by omega
    rcases hk' with rfl | rfl
    · simpa using ((hasDerivAt_id t).mul_const (Real.exp x + smoothStep 0 y)).hasDerivWithinAt
    · simpa using hasDerivWithinAt_const t (Set.Icc (0 : ℝ) 2) (Real.exp x + smoothStep 0 y)
  · have hx : x ∈ Set.Icc (0 : ℝ) 1 := ⟨hxy.1, hxy.2.1⟩
    have hy : y ∈ Set.Icc (0 : ℝ) 1 := ⟨hxy.2.2.1, hxy.2.2.2⟩
    dsimp only
    unfold warmT warm
    split_ifs
    · exact tm t ht _ (sum x hx y hy)
    · exact (sum x hx y hy).trans (by linarith)
    · rw [abs_zero]; positivity
  · simp only [warmT, warmX, warmY, warmSource, expPde]
    norm_num

/-- The loop for this solution, with steps of 1/100. -/
noncomputable def exWarm : Thermal ℝ :=
  ⟨0, 1 / 100, warm, warm, fun _ _ _ => 0, fun _ _ _ => 0, warmSource⟩

example : Proper unitSquareR ∧ (∀ x y, Inside unitSquareR x y → 0 < expPde.beta x y) ∧ (0 : ℝ) ≤ 2 ∧
    (∀ x y, Inside unitSquareR x y → warm x y 0 = 0) ∧ exWarm.tStart = 0 ∧ 0 < exWarm.dt ∧
    (∀ τ ∈ Set.Icc (0 : ℝ) 2, ∀ x y, Inside unitSquareR x y → exWarm.sources x y τ = warmSource x y τ) ∧
    (∀ τ ∈ Set.Icc (0 : ℝ) 2, ∀ y ∈ Set.Icc unitSquareR.yl unitSquareR.yu, exWarm.uWest unitSquareR.xl y τ = warm unitSquareR.xl y τ ∧
      exWarm.uEast unitSquareR.xu y τ = warm unitSquareR.xu y τ) ∧
    (∀ τ ∈ Set.Icc (0 : ℝ) 2, ∀ x ∈ Set.Icc unitSquareR.xl unitSquareR.xu, exWarm.dudnSouth x unitSquareR.yl τ = -warmY 1 x unitSquareR.yl τ ∧
      exWarm.dudnNorth x unitSquareR.yu τ = warmY 1 x unitSquareR.yu τ) ∧ (∀ x y τ, exWarm.dudnSouth x y τ = 0) ∧ exWarm.time 150 ≤ 2 ∧
    warm 0 1 1 ≠ 0 := by
  refine ⟨⟨by norm_num [unitSquareR], by norm_num [unitSquareR]⟩, fun x y _ => Real.exp_pos x, by norm_num, fun x y _ => by simp [warm], rfl,
    by norm_num [exWarm], fun _ _ _ _ _ => rfl, fun _ _ _ _ => ⟨rfl, rfl⟩, fun τ _ x _ => ?_, fun _ _ _ => rfl,
    by norm_num [exWarm, Thermal.time], ?_⟩
  · simp [exWarm, warmY, smoothStep, unitSquareR]
  · norm_num [warm, smoothStep]

end EF
