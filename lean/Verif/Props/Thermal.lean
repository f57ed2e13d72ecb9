import Verif.Proofs.Thermal
import Verif.Proofs.Heat
import Verif.Props.Robin

/-!
# The time loop of the thermal example (C68)
-/

namespace EF

open Finset FV HPS

variable {K : Type} [Field K] [LinearOrder K] [IsStrictOrderedRing K] {N : Nat}

namespace Thermal

/-- The array after `k` passes: zero before the first. -/
def field (N k : Nat) (t : Tree (Patch K)) : Nat → Nat → K := if k = 0 then fun _ _ => 0 else gridFn N (·.u) t

/-- The sources that enter pass `k`, at the cell centres: none in pass 0. -/
def sourceAt (c : Thermal K) (R : Rect K) (m k i j : Nat) : K := if k = 0 then 0 else c.sources (cx R m i) (cy R m j) (c.time k)

/-- One pass takes the array of `k` passes to that of `k + 1` passes by an implicit Euler step, with the boundary data of time `k`
and the flux on the South side with its sign changed. -/
theorem step_heat (lap : Lapack K) (lu : PetscLU K) (c : Thermal K) {beta : K → K → K} (hN : 2 ≤ N) {opt : HPSOptions}
    (hc : opt.cacheOperators = false) (ho : opt.homogeneousRhs = false) {t : Tree (Patch K)} {R : Rect K} (ht : Init N t R)
    {d : Nat} (hu : Uniform d t) (hR : Proper R) (hb : ∀ x y, Inside R x y → 0 < beta x y) (hdt : 0 < c.dt)
    {t1 : Tree (Patch K)} {c1 : Option (Mat K)}
    (h1 : buildStage lap ((c.solver beta).toPatchSolver lu) opt t none = .ok (t1, c1)) {k : Nat} {t' : Tree (Patch K)}
    (hg : Good N opt R t t1 k t') :
    ∃ t3 g, step lap ((c.solver beta).toPatchSolver lu) opt c k t' = .ok t3 ∧ Good N opt R t t1 (k + 1) t3 ∧
      (∀ i, i < N * 2 ^ d → ∀ j, j < N * 2 ^ d → gridFn N (·.f) t3 i j = if k = 0 then 0 else
        -(1 / c.dt) * gridFn N (·.u) t' i j - c.sources (cx R (N * 2 ^ d) i) (cy R (N * 2 ^ d) j) (c.time k)) ∧
      HeatStep beta R (N * 2 ^ d) c.dt (fun i => c.uWest R.xl (cy R (N * 2 ^ d) i) (c.time k))
        (fun i => c.uEast R.xu (cy R (N * 2 ^ d) i) (c.time k)) (fun i => -c.dudnSouth (cx R (N * 2 ^ d) i) R.yl (c.time k))
        (fun i => c.dudnNorth (cx R (N * 2 ^ d) i) R.yu (c.time k)) (c.sourceAt R (N * 2 ^ d) k) (field N k t')
        (field N (k + 1) t3) g := by
  have hm : 0 < N * 2 ^ d := by positivity
  have hE : EllipticOn (c.solver beta) R := heat_elliptic hb hdt
  obtain ⟨φ, t2, t3, f1, f2, e2, e3, e4, g3, w3⟩ := step_ok lap (by omega) (FVSolver.shapes lu _ hN) ho ht (Or.inr ⟨d, hu⟩) hR h1 c hg
  have hφ : SetsLoad N (fun p => .ok { p with f := φ p.grid }) φ := ⟨fun _ => rfl, f2⟩
  have hw : RobinUnique (c.solver beta) R (N * 2 ^ d) (sideData (·.2.1) (c.boundary k) R (N * 2 ^ d))
      (flipWS (sideData (·.2.2) (c.boundary k) R (N * 2 ^ d))) := by
    refine ((heat_wellPosed (c.solver beta) R hm).unique hR hE).scale (σ := fun s _ => if s = 2 then -1 else 1) ?_ ?_ ?_
    · intro s _ i _
      split_ifs <;> simp
    · intro s hs i _
      have h4 : s = 0 ∨ s = 1 ∨ s = 2 ∨ s = 3 := by omega
      rcases h4 with rfl | rfl | rfl | rfl <;> simp [sideData, boundary, heatA]
    · intro s hs i _
      have h4 : s = 0 ∨ s = 1 ∨ s = 2 ∨ s = 3 := by omega
      rcases h4 with rfl | rfl | rfl | rfl <;> simp [sideData, boundary, heatB, flipWS]
  obtain ⟨g, s1, s2⟩ := robin_global lap lu hN hc ho ht hu hR hE hφ (c.boundary k) h1 e2 e3 hw
  obtain ⟨ψ, q1, q2⟩ := sampleLoad_fn (fun x y => c.sources x y (c.time k))
  have hu' : Uniform d t' := uniform_shape.mp (by rw [hg.shape]; exact uniform_shape.mpr hu)
  have l1 : ∀ i, i < N * 2 ^ d → ∀ j, j < N * 2 ^ d → gridFn N (fun p => φ p.grid) t i j =
      if k = 0 then 0 else -(1 / c.dt) * gridFn N (·.u) t' i j - c.sources (cx R (N * 2 ^ d) i) (cy R (N * 2 ^ d) j) (c.time k) := by
    intro i hi j hj
    rw [ht.placed.gridFn_eq hg.placed hg.shape.symm φ]
    have := gridFn_map2 (N := N) (fun a b => if k = 0 then 0 else -(1 / c.dt) * a - b) (v := fun p => φ p.grid) (w := (·.u))
      (z := fun p => ψ p.grid) hu' ?_ i hi j hj
    · rw [this, ← ht.placed.gridFn_eq hg.placed hg.shape.symm ψ, gridFn_sampled (by omega) q1 ht hu i hi j hj]
    · intro p hp i hi j hj
      obtain ⟨x, y, z⟩ := hg.cells p hp
      obtain ⟨F, a1, _, _, a4⟩ := loadOf_ok c k (p := p) (by rw [x, y]; exact z)
      rw [f1 p hp] at a1
      obtain rfl := Res.ok_inj.mp a1
      rw [x, y] at a4
      have b4 := a4 i hi j hj
      rw [b4]
      obtain ⟨F', h1, χ, h2, h3⟩ := C33_load_sampled (fun x y => c.sources x y (c.time k)) p.grid
      rw [q1] at h1
      obtain rfl := Res.ok_inj.mp h1
      rw [x, y] at h2 h3
      have hv : (ψ p.grid).data.getD (j + i * N) 0 = χ (j + i * N) := by
        rw [Vec.has_iff.mp h2]
        exact getD_listFn (FVSolver.idx_lt hi hj) 0
      rw [hv, h3 i hi j hj]
      have ex := FVSolver.x_eq p.grid i
      have ey := FVSolver.y_eq p.grid j
      rw [x] at ex
      rw [y] at ey
      rw [ex, ey]
  refine ⟨t3, g, e4, g3, ?_, ?_, ?_⟩
  · intro i hi j hj
    rw [gridFn_congr w3, ← ht.placed.gridFn_eq g3.placed g3.shape.symm φ]
    exact l1 i hi j hj
  · intro i hi j hj
    have a := s1 i hi j hj
    rw [l1 i hi j hj] at a
    have hd := hdt.ne'
    have a' : balance ⟨fun _ _ => 1, beta, fun _ _ => 0⟩ R (N * 2 ^ d) (N * 2 ^ d) g (gridFn N (·.u) t3) i j =
        balance (c.solver beta) R (N * 2 ^ d) (N * 2 ^ d) g (gridFn N (·.u) t3) i j + gridFn N (·.u) t3 i j / c.dt := by
      show _ = balance ⟨fun _ _ => 1, beta, fun _ _ => -1 / c.dt⟩ R (N * 2 ^ d) (N * 2 ^ d) g (gridFn N (·.u) t3) i j + _
      rw [balance_lambda beta R (N * 2 ^ d) (-1 / c.dt)]
      ring
    have e0 : field N (k + 1) t3 = gridFn N (·.u) t3 := by unfold field; rw [if_neg (by omega)]
    rw [e0, a', a]
    unfold field sourceAt
    split_ifs with h0
    · ring
    · ring
  · intro i hi
    have c0 := s2 0 (by omega) i hi
    have c1 := s2 1 (by omega) i hi
    have c2 := s2 2 (by omega) i hi
    have c3 := s2 3 (by omega) i hi
    have e0 : field N (k + 1) t3 = gridFn N (·.u) t3 := by unfold field; rw [if_neg (by omega)]
    rw [e0]
    simp only [sideData, boundary, flipWS, Bdry.side, sidePoint] at c0 c1 c2 c3
    norm_num at c0 c1 c2 c3
    refine ⟨c0, c1, ?_, c3⟩
    exact neg_eq_iff_eq_neg.mp c2

/-- All passes. -/
theorem steps_heat (lap : Lapack K) (lu : PetscLU K) (c : Thermal K) {beta : K → K → K} (hN : 2 ≤ N) {opt : HPSOptions}
    (hc : opt.cacheOperators = false) (ho : opt.homogeneousRhs = false) {t : Tree (Patch K)} {R : Rect K} (ht : Init N t R)
    {d : Nat} (hu : Uniform d t) (hR : Proper R) (hb : ∀ x y, Inside R x y → 0 < beta x y) (hdt : 0 < c.dt)
    {t1 : Tree (Patch K)} {c1 : Option (Mat K)}
    (h1 : buildStage lap ((c.solver beta).toPatchSolver lu) opt t none = .ok (t1, c1)) {k : Nat} {t3 : Tree (Patch K)}
    (h : steps lap ((c.solver beta).toPatchSolver lu) opt c (k + 1) t1 = .ok t3) :
    ∃ t' g, steps lap ((c.solver beta).toPatchSolver lu) opt c k t1 = .ok t' ∧
      HeatStep beta R (N * 2 ^ d) c.dt (fun i => c.uWest R.xl (cy R (N * 2 ^ d) i) (c.time k))
        (fun i => c.uEast R.xu (cy R (N * 2 ^ d) i) (c.time k)) (fun i => -c.dudnSouth (cx R (N * 2 ^ d) i) R.yl (c.time k))
        (fun i => c.dudnNorth (cx R (N * 2 ^ d) i) R.yu (c.time k)) (c.sourceAt R (N * 2 ^ d) k) (field N k t')
        (field N (k + 1) t3) g := by
  obtain ⟨t', e, g⟩ := steps_ok lap (by omega) (FVSolver.shapes lu _ hN) ho ht (Or.inr ⟨d, hu⟩) hR h1 c k
  obtain ⟨t3', g', e', _, _, hh⟩ := step_heat lap lu c hN hc ho ht hu hR hb hdt h1 g
  rw [steps, e, Res.ok_bind, e'] at h
  obtain rfl := Res.ok_inj.mp h
  exact ⟨t', g', e, hh⟩

end Thermal

open Thermal

/-! ### C68 -/

/-- C68, the loop returns: on every mesh, uniform or not, after every number of passes, for all functions of the boundary conditions
and sources. -/
theorem C68_steps_return (lap : Lapack K) (lu : PetscLU K) (c : Thermal K) (beta : K → K → K) (hN : 2 ≤ N) {opt : HPSOptions}
    (ho : opt.homogeneousRhs = false) {t : Tree (Patch K)} {R : Rect K} (ht : Init N t R) (h3 : 3 ≤ N ∨ ∃ d, Uniform d t)
    (hR : Proper R) (k : Nat) :
    ∃ t1 c1 t', buildStage lap ((c.solver beta).toPatchSolver lu) opt t none = .ok (t1, c1) ∧
      steps lap ((c.solver beta).toPatchSolver lu) opt c k t1 = .ok t' ∧ t'.shape = t.shape := by
  obtain ⟨t1, c1, _, _, e1, _⟩ := buildStage_any lap (FVSolver.shapes lu (c.solver beta) hN) opt (by omega) ht h3 no_cache
  obtain ⟨t', e, g⟩ := steps_ok lap (by omega) (FVSolver.shapes lu (c.solver beta) hN) ho ht h3 hR e1 c k
  exact ⟨t1, c1, t', e1, e, g.shape⟩

/-- C68 where it holds.  On a uniform mesh, if no flux is prescribed on the South side, every pass is an implicit Euler step for the
heat equation: from zero without sources in pass 0, from the array of the pass before with the sources of the time of the pass in
later ones, with the boundary data of the time of the pass.

Missing: fluxes on the South side (see `C68_south_flux_wrong`); for meshes that are not uniform see `C68_adaptive_partial`. -/
theorem C68_implicit_euler_partial (lap : Lapack K) (lu : PetscLU K) (c : Thermal K) {beta : K → K → K} (hN : 2 ≤ N)
    {opt : HPSOptions} (hc : opt.cacheOperators = false) (ho : opt.homogeneousRhs = false) {t : Tree (Patch K)} {R : Rect K}
    (ht : Init N t R) {d : Nat} (hu : Uniform d t) (hR : Proper R) (hb : ∀ x y, Inside R x y → 0 < beta x y) (hdt : 0 < c.dt)
    (hS : ∀ x y τ, c.dudnSouth x y τ = 0) {t1 : Tree (Patch K)} {c1 : Option (Mat K)}
    (h1 : buildStage lap ((c.solver beta).toPatchSolver lu) opt t none = .ok (t1, c1)) {k : Nat} {t3 : Tree (Patch K)}
    (h : steps lap ((c.solver beta).toPatchSolver lu) opt c (k + 1) t1 = .ok t3) :
    ∃ t' g, steps lap ((c.solver beta).toPatchSolver lu) opt c k t1 = .ok t' ∧
      HeatStep beta R (N * 2 ^ d) c.dt (fun i => c.uWest R.xl (cy R (N * 2 ^ d) i) (c.time k))
        (fun i => c.uEast R.xu (cy R (N * 2 ^ d) i) (c.time k)) (fun i => c.dudnSouth (cx R (N * 2 ^ d) i) R.yl (c.time k))
        (fun i => c.dudnNorth (cx R (N * 2 ^ d) i) R.yu (c.time k))
        (fun i j => if k = 0 then 0 else c.sources (cx R (N * 2 ^ d) i) (cy R (N * 2 ^ d) j) (c.time k))
        (if k = 0 then fun _ _ => 0 else gridFn N (·.u) t') (gridFn N (·.u) t3) g := by
  obtain ⟨t', g, e, hh⟩ := steps_heat lap lu c hN hc ho ht hu hR hb hdt h1 h
  refine ⟨t', g, e, hh.congr (fun _ _ => rfl) (fun _ _ => rfl) (fun _ _ => ?_) (fun _ _ => rfl) (fun _ _ _ _ => rfl) (fun _ _ _ _ => rfl) ?_⟩
  · simp only [hS, neg_zero]
  · unfold field
    rw [if_neg (by omega)]

/-- C68 is false on the South side: with a flux there that is not zero at the centre of some boundary cell at the time of a pass,
the array of the pass is not that of an implicit Euler step, whatever boundary values are taken.  (The flux it has is the negative
of the one asked for.) -/
theorem C68_south_flux_wrong (lap : Lapack K) (lu : PetscLU K) (c : Thermal K) {beta : K → K → K} (hN : 2 ≤ N)
    {opt : HPSOptions} (hc : opt.cacheOperators = false) (ho : opt.homogeneousRhs = false) {t : Tree (Patch K)} {R : Rect K}
    (ht : Init N t R) {d : Nat} (hu : Uniform d t) (hR : Proper R) (hb : ∀ x y, Inside R x y → 0 < beta x y) (hdt : 0 < c.dt)
    {t1 : Tree (Patch K)} {c1 : Option (Mat K)}
    (h1 : buildStage lap ((c.solver beta).toPatchSolver lu) opt t none = .ok (t1, c1)) {k : Nat} {t' t3 : Tree (Patch K)}
    (h' : steps lap ((c.solver beta).toPatchSolver lu) opt c k t1 = .ok t')
    (h : steps lap ((c.solver beta).toPatchSolver lu) opt c (k + 1) t1 = .ok t3) {i : Nat} (hi : i < N * 2 ^ d)
    (hS : c.dudnSouth (cx R (N * 2 ^ d) i) R.yl (c.time k) ≠ 0) :
    ¬ ∃ g, HeatStep beta R (N * 2 ^ d) c.dt (fun i => c.uWest R.xl (cy R (N * 2 ^ d) i) (c.time k))
        (fun i => c.uEast R.xu (cy R (N * 2 ^ d) i) (c.time k)) (fun i => c.dudnSouth (cx R (N * 2 ^ d) i) R.yl (c.time k))
        (fun i => c.dudnNorth (cx R (N * 2 ^ d) i) R.yu (c.time k))
        (fun i j => if k = 0 then 0 else c.sources (cx R (N * 2 ^ d) i) (cy R (N * 2 ^ d) j) (c.time k))
        (if k = 0 then fun _ _ => 0 else gridFn N (·.u) t') (gridFn N (·.u) t3) g := by
  rintro ⟨g', hh'⟩
  obtain ⟨t'', g, e, hh⟩ := steps_heat lap lu c hN hc ho ht hu hR hb hdt h1 h
  rw [h'] at e
  obtain rfl := Res.ok_inj.mp e
  have e0 : field N (k + 1) t3 = gridFn N (·.u) t3 := by unfold field; rw [if_neg (by omega)]
  rw [e0] at hh
  have hm : 0 < N * 2 ^ d := by omega
  have hy0 := hy_pos hR hm
  have hs : ∀ g : Bdry K, ∀ s n, HeatStep beta R (N * 2 ^ d) c.dt (fun i => c.uWest R.xl (cy R (N * 2 ^ d) i) (c.time k))
      (fun i => c.uEast R.xu (cy R (N * 2 ^ d) i) (c.time k)) s n (c.sourceAt R (N * 2 ^ d) k) (field N k t') (gridFn N (·.u) t3) g →
      Solves ⟨fun _ _ => 1, beta, fun _ _ => 0⟩ R (N * 2 ^ d) (N * 2 ^ d) g
        (fun i j => (gridFn N (·.u) t3 i j - field N k t' i j) / c.dt - c.sourceAt R (N * 2 ^ d) k i j) (gridFn N (·.u) t3) := by
    intro g s n hg i hi j hj
    have := hg.1 i hi j hj
    linear_combination -this
  have hE : EllipticOn ⟨fun _ _ => 1, beta, fun _ _ => 0⟩ R := by
    intro x y hxy
    exact ⟨hb x y hxy, one_ne_zero, by simp⟩
  have key := south_determined hR hE (hs g _ _ hh) (hs g' _ _ hh') (fun k hk => by rw [(hh.2 k hk).1, (hh'.2 k hk).1])
    (fun k hk => by rw [(hh.2 k hk).2.1, (hh'.2 k hk).2.1]) (fun k hk => by
      have a := (hh.2 k hk).2.2.2
      have b := (hh'.2 k hk).2.2.2
      have ab := a.trans b.symm
      simp only [normalDeriv] at ab
      have := (div_left_inj' (by positivity : hy R (N * 2 ^ d) / 2 ≠ 0)).mp ab
      linarith) hi
  have a := (hh.2 i hi).2.2.1
  have b := (hh'.2 i hi).2.2.1
  simp only [normalDeriv] at a b
  rw [key, b] at a
  exact hS (by linarith)

/-- The array written with the label `t-start` is that of one step after the zero initial condition, so it is not the initial
condition: without fluxes and with a West value that is not zero at the centre of some boundary cell it has a cell that is not
zero. -/
theorem C68_first_output_wrong (lap : Lapack K) (lu : PetscLU K) (c : Thermal K) {beta : K → K → K} (hN : 2 ≤ N)
    {opt : HPSOptions} (hc : opt.cacheOperators = false) (ho : opt.homogeneousRhs = false) {t : Tree (Patch K)} {R : Rect K}
    (ht : Init N t R) {d : Nat} (hu : Uniform d t) (hR : Proper R) (hb : ∀ x y, Inside R x y → 0 < beta x y) (hdt : 0 < c.dt)
    (hS : ∀ x y τ, c.dudnSouth x y τ = 0) (hNo : ∀ x y τ, c.dudnNorth x y τ = 0) {t1 : Tree (Patch K)} {c1 : Option (Mat K)}
    (h1 : buildStage lap ((c.solver beta).toPatchSolver lu) opt t none = .ok (t1, c1)) {t3 : Tree (Patch K)}
    (h : steps lap ((c.solver beta).toPatchSolver lu) opt c 1 t1 = .ok t3) {j : Nat} (hj : j < N * 2 ^ d)
    (hW : c.uWest R.xl (cy R (N * 2 ^ d) j) c.tStart ≠ 0) :
    ∃ i, i < N * 2 ^ d ∧ ∃ j, j < N * 2 ^ d ∧ gridFn N (·.u) t3 i j ≠ 0 := by
  by_contra hcon
  push Not at hcon
  obtain ⟨t', g, e, hh⟩ := steps_heat lap lu c hN hc ho ht hu hR hb hdt h1 h
  have hm : 0 < N * 2 ^ d := by omega
  have hm2 : 1 < N * 2 ^ d := by
    have : 1 ≤ 2 ^ d := Nat.one_le_two_pow
    nlinarith
  have hx0 := hx_pos hR hm
  have hy0 := hy_pos hR hm
  have e0 : field N (0 + 1) t3 = gridFn N (·.u) t3 := rfl
  rw [e0] at hh
  have ht0 : c.time 0 = c.tStart := by unfold time; simp
  have a := hh.1 0 hm j hj
  obtain ⟨w, _⟩ := hh.2 j hj
  obtain ⟨_, _, s, n⟩ := hh.2 0 hm
  rw [ht0] at w
  simp only [normalDeriv, hS, hNo, neg_zero, hcon 0 hm 0 hm, hcon 0 hm (N * 2 ^ d - 1) (by omega), sub_zero] at s n
  have hs : g.S 0 = 0 := by
    have := (div_eq_zero_iff.mp s).resolve_right (by positivity)
    exact this
  have hn : g.N 0 = 0 := by
    have := (div_eq_zero_iff.mp n).resolve_right (by positivity)
    exact this
  have ew : west g (gridFn N (·.u) t3) 0 j = 2 * c.uWest R.xl (cy R (N * 2 ^ d) j) c.tStart := by
    unfold west
    rw [if_pos rfl, w, hcon 0 hm j hj, sub_zero]
  have ee : east (N * 2 ^ d) g (gridFn N (·.u) t3) 0 j = 0 := by
    unfold east
    rw [if_neg (by omega), hcon 1 hm2 j hj]
  have es : south g (gridFn N (·.u) t3) 0 j = 0 := by
    unfold south
    split_ifs
    · rw [hs, hcon 0 hm j hj]; ring
    · exact hcon 0 hm (j - 1) (by omega)
  have en : north (N * 2 ^ d) g (gridFn N (·.u) t3) 0 j = 0 := by
    unfold north
    split_ifs
    · rw [hn, hcon 0 hm j hj]; ring
    · exact hcon 0 hm (j + 1) (by omega)
  unfold balance at a
  rw [ew, ee, es, en, hcon 0 hm j hj] at a
  simp only [field, sourceAt, if_true] at a
  obtain ⟨fx1, fx2⟩ := cx_face hR hm
  obtain ⟨fy1, fy2⟩ := cy_face hR hj
  have bW := hb (cx R (N * 2 ^ d) 0 - hx R (N * 2 ^ d) / 2) (cy R (N * 2 ^ d) j) ⟨fx1, by linarith, by linarith, by linarith⟩
  have z : beta (cx R (N * 2 ^ d) 0 - hx R (N * 2 ^ d) / 2) (cy R (N * 2 ^ d) j) * (2 * c.uWest R.xl (cy R (N * 2 ^ d) j) c.tStart) /
      hx R (N * 2 ^ d) ^ 2 = 0 := by
    linear_combination -a
  have z2 := (div_eq_zero_iff.mp z).resolve_right (by positivity)
  have z3 := (mul_eq_zero.mp z2).resolve_left bW.ne'
  exact hW ((mul_eq_zero.mp z3).resolve_left two_ne_zero)

/-- Bounds: without sources and fluxes the temperatures stay between the smallest and the largest value on the West and East side
and the zero of the start. -/
theorem C68_bounds_partial (lap : Lapack K) (lu : PetscLU K) (c : Thermal K) {beta : K → K → K} (hN : 2 ≤ N)
    {opt : HPSOptions} (hc : opt.cacheOperators = false) (ho : opt.homogeneousRhs = false) {t : Tree (Patch K)} {R : Rect K}
    (ht : Init N t R) {d : Nat} (hu : Uniform d t) (hR : Proper R) (hb : ∀ x y, Inside R x y → 0 < beta x y) (hdt : 0 < c.dt)
    (hS : ∀ x y τ, c.dudnSouth x y τ = 0) (hNo : ∀ x y τ, c.dudnNorth x y τ = 0) (hq : ∀ x y τ, c.sources x y τ = 0)
    {lo hi : K} (hlo : lo ≤ 0) (hhi : 0 ≤ hi) (hW : ∀ x y τ, lo ≤ c.uWest x y τ ∧ c.uWest x y τ ≤ hi)
    (hE : ∀ x y τ, lo ≤ c.uEast x y τ ∧ c.uEast x y τ ≤ hi) {t1 : Tree (Patch K)} {c1 : Option (Mat K)}
    (h1 : buildStage lap ((c.solver beta).toPatchSolver lu) opt t none = .ok (t1, c1)) {k : Nat} {t3 : Tree (Patch K)}
    (h : steps lap ((c.solver beta).toPatchSolver lu) opt c (k + 1) t1 = .ok t3) :
    ∀ i, i < N * 2 ^ d → ∀ j, j < N * 2 ^ d → lo ≤ gridFn N (·.u) t3 i j ∧ gridFn N (·.u) t3 i j ≤ hi := by
  have hs0 : ∀ k i j, c.sourceAt R (N * 2 ^ d) k i j = 0 := by
    intro k i j
    unfold sourceAt
    split_ifs
    · rfl
    · exact hq _ _ _
  have key : ∀ k t3, steps lap ((c.solver beta).toPatchSolver lu) opt c k t1 = .ok t3 →
      ∀ i, i < N * 2 ^ d → ∀ j, j < N * 2 ^ d → lo ≤ field N k t3 i j ∧ field N k t3 i j ≤ hi := by
    intro k
    induction k with
    | zero => intro t3 _ i _ j _; exact ⟨hlo, hhi⟩
    | succ k ih =>
      intro t3 h i hi' j hj'
      obtain ⟨t', g, e, hh⟩ := steps_heat lap lu c hN hc ho ht hu hR hb hdt h1 h
      refine ⟨heat_mono hR hb hdt (heat_const beta R c.dt (N * 2 ^ d) lo) hh ?_ ?_ ?_ ?_ ?_ ?_ i hi' j hj',
        heat_mono hR hb hdt hh (heat_const beta R c.dt (N * 2 ^ d) hi) ?_ ?_ ?_ ?_ ?_ ?_ i hi' j hj'⟩
      · intro k _; exact (hW _ _ _).1
      · intro k _; exact (hE _ _ _).1
      · intro k _; simp [hS]
      · intro k _; simp [hNo]
      · intro i _ j _; exact (hs0 _ _ _).ge
      · intro i hi j hj; exact (ih t' e i hi j hj).1
      · intro k _; exact (hW _ _ _).2
      · intro k _; exact (hE _ _ _).2
      · intro k _; simp [hS]
      · intro k _; simp [hNo]
      · intro i _ j _; exact (hs0 _ _ _).le
      · intro i hi j hj; exact (ih t' e i hi j hj).2
  exact key (k + 1) t3 h

/-- With data that do not depend on the time, boundary values and sources not below zero and no fluxes, no cell ever cools. -/
theorem C68_monotone_in_time_partial (lap : Lapack K) (lu : PetscLU K) (c : Thermal K) {beta : K → K → K} (hN : 2 ≤ N)
    {opt : HPSOptions} (hc : opt.cacheOperators = false) (ho : opt.homogeneousRhs = false) {t : Tree (Patch K)} {R : Rect K}
    (ht : Init N t R) {d : Nat} (hu : Uniform d t) (hR : Proper R) (hb : ∀ x y, Inside R x y → 0 < beta x y) (hdt : 0 < c.dt)
    (hS : ∀ x y τ, c.dudnSouth x y τ = 0) (hNo : ∀ x y τ, c.dudnNorth x y τ = 0)
    (hW : ∀ x y τ τ', 0 ≤ c.uWest x y τ ∧ c.uWest x y τ = c.uWest x y τ')
    (hE : ∀ x y τ τ', 0 ≤ c.uEast x y τ ∧ c.uEast x y τ = c.uEast x y τ')
    (hq : ∀ x y τ τ', 0 ≤ c.sources x y τ ∧ c.sources x y τ = c.sources x y τ') {t1 : Tree (Patch K)} {c1 : Option (Mat K)}
    (h1 : buildStage lap ((c.solver beta).toPatchSolver lu) opt t none = .ok (t1, c1)) {k : Nat} {t' t3 : Tree (Patch K)}
    (h' : steps lap ((c.solver beta).toPatchSolver lu) opt c (k + 1) t1 = .ok t')
    (h : steps lap ((c.solver beta).toPatchSolver lu) opt c (k + 2) t1 = .ok t3) :
    ∀ i, i < N * 2 ^ d → ∀ j, j < N * 2 ^ d → 0 ≤ gridFn N (·.u) t' i j ∧ gridFn N (·.u) t' i j ≤ gridFn N (·.u) t3 i j := by
  have hs0 : ∀ k i j, 0 ≤ c.sourceAt R (N * 2 ^ d) k i j := by
    intro k i j
    unfold sourceAt
    split_ifs
    · exact le_rfl
    · exact (hq _ _ _ 0).1
  have hs1 : ∀ k i j, c.sourceAt R (N * 2 ^ d) k i j ≤ c.sourceAt R (N * 2 ^ d) (k + 1) i j := by
    intro k i j
    by_cases hk : k = 0
    · unfold sourceAt
      rw [if_pos hk, if_neg (by omega)]
      exact (hq _ _ _ 0).1
    · unfold sourceAt
      rw [if_neg hk, if_neg (by omega)]
      exact (hq _ _ _ _).2.le
  have pos : ∀ k t3, steps lap ((c.solver beta).toPatchSolver lu) opt c k t1 = .ok t3 →
      ∀ i, i < N * 2 ^ d → ∀ j, j < N * 2 ^ d → 0 ≤ field N k t3 i j := by
    intro k
    induction k with
    | zero => intro t3 _ i _ j _; exact le_rfl
    | succ k ih =>
      intro t3 h
      obtain ⟨t', g, e, hh⟩ := steps_heat lap lu c hN hc ho ht hu hR hb hdt h1 h
      refine heat_mono hR hb hdt (heat_const beta R c.dt (N * 2 ^ d) 0) hh ?_ ?_ ?_ ?_ ?_ ?_
      · intro k _; exact (hW _ _ _ 0).1
      · intro k _; exact (hE _ _ _ 0).1
      · intro k _; simp [hS]
      · intro k _; simp [hNo]
      · intro i _ j _; exact hs0 _ _ _
      · intro i hi j hj; exact ih t' e i hi j hj
  have mono : ∀ k t' t3, steps lap ((c.solver beta).toPatchSolver lu) opt c k t1 = .ok t' →
      steps lap ((c.solver beta).toPatchSolver lu) opt c (k + 1) t1 = .ok t3 →
      ∀ i, i < N * 2 ^ d → ∀ j, j < N * 2 ^ d → field N k t' i j ≤ field N (k + 1) t3 i j := by
    intro k
    induction k with
    | zero => intro t' t3 _ h; exact pos 1 t3 h
    | succ k ih =>
      intro t' t3 h' h
      obtain ⟨ta, g, e, hh⟩ := steps_heat lap lu c hN hc ho ht hu hR hb hdt h1 h'
      obtain ⟨tb, g', e', hh'⟩ := steps_heat lap lu c hN hc ho ht hu hR hb hdt h1 h
      refine heat_mono hR hb hdt hh hh' ?_ ?_ ?_ ?_ ?_ ?_
      · intro k _; exact (hW _ _ _ _).2.le
      · intro k _; exact (hE _ _ _ _).2.le
      · intro k _; simp [hS]
      · intro k _; simp [hNo]
      · intro i _ j _; exact hs1 _ _ _
      · exact ih ta tb e e'
  intro i hi j hj
  exact ⟨pos (k + 1) t' h' i hi j hj, mono (k + 1) t' t3 h' h i hi j hj⟩

/-- Stability for every step length: two runs of the loop on the same built solver, with West and East values that differ by at most
`δ`, sources that differ by at most `ε` and the same fluxes, differ by at most `δ` plus `ε` times the time that has passed. -/
theorem C68_stable_partial (lap : Lapack K) (lu : PetscLU K) (c c' : Thermal K) {beta : K → K → K} (hN : 2 ≤ N)
    {opt : HPSOptions} (hc : opt.cacheOperators = false) (ho : opt.homogeneousRhs = false) {t : Tree (Patch K)} {R : Rect K}
    (ht : Init N t R) {d : Nat} (hu : Uniform d t) (hR : Proper R) (hb : ∀ x y, Inside R x y → 0 < beta x y) (hdt : 0 < c.dt)
    (hdt' : c'.dt = c.dt) (hst : c'.tStart = c.tStart) (hS : c'.dudnSouth = c.dudnSouth) (hNo : c'.dudnNorth = c.dudnNorth)
    {δ ε : K} (hδ : 0 ≤ δ) (hε : 0 ≤ ε) (hW : ∀ x y τ, |c.uWest x y τ - c'.uWest x y τ| ≤ δ)
    (hE : ∀ x y τ, |c.uEast x y τ - c'.uEast x y τ| ≤ δ) (hq : ∀ x y τ, |c.sources x y τ - c'.sources x y τ| ≤ ε)
    {t1 : Tree (Patch K)} {c1 : Option (Mat K)}
    (h1 : buildStage lap ((c.solver beta).toPatchSolver lu) opt t none = .ok (t1, c1)) {k : Nat} {t' t3 : Tree (Patch K)}
    (h : steps lap ((c.solver beta).toPatchSolver lu) opt c (k + 1) t1 = .ok t3)
    (h' : steps lap ((c.solver beta).toPatchSolver lu) opt c' (k + 1) t1 = .ok t') :
    ∀ i, i < N * 2 ^ d → ∀ j, j < N * 2 ^ d →
      |gridFn N (·.u) t3 i j - gridFn N (·.u) t' i j| ≤ δ + ((k + 1 : Nat) : K) * c.dt * ε := by
  have hsol : c'.solver beta = c.solver beta := by unfold solver; rw [hdt']
  have htime : ∀ k, c'.time k = c.time k := by intro k; unfold time; rw [hdt', hst]
  have one : ∀ (c c' : Thermal K), 0 < c.dt → c'.dt = c.dt → c'.tStart = c.tStart → c'.dudnSouth = c.dudnSouth →
      c'.dudnNorth = c.dudnNorth → (∀ x y τ, c.uWest x y τ ≤ c'.uWest x y τ + δ) → (∀ x y τ, c.uEast x y τ ≤ c'.uEast x y τ + δ) →
      (∀ x y τ, c.sources x y τ ≤ c'.sources x y τ + ε) → buildStage lap ((c.solver beta).toPatchSolver lu) opt t none = .ok (t1, c1) →
      ∀ k t3 t', steps lap ((c.solver beta).toPatchSolver lu) opt c k t1 = .ok t3 →
      steps lap ((c'.solver beta).toPatchSolver lu) opt c' k t1 = .ok t' →
      ∀ i, i < N * 2 ^ d → ∀ j, j < N * 2 ^ d → field N k t3 i j ≤ field N k t' i j + (δ + (k : K) * c.dt * ε) := by
    intro c c' hdt hdt' hst hS hNo hW hE hq h1 k
    have htime : ∀ k, c'.time k = c.time k := by intro k; unfold time; rw [hdt', hst]
    induction k with
    | zero =>
      intro t3 t' _ _ i _ j _
      show (0 : K) ≤ 0 + _
      simp only [Nat.cast_zero, zero_mul, add_zero, zero_add]
      exact hδ
    | succ k ih =>
      intro t3 t' h h' i hi j hj
      obtain ⟨ta, g, e, hh⟩ := steps_heat lap lu c hN hc ho ht hu hR hb hdt h1 h
      have h1' : buildStage lap ((c'.solver beta).toPatchSolver lu) opt t none = .ok (t1, c1) := by
        have hsol : c'.solver beta = c.solver beta := by unfold solver; rw [hdt']
        rw [hsol]
        exact h1
      obtain ⟨tb, g', e', hh'⟩ := steps_heat lap lu c' hN hc ho ht hu hR hb (by rw [hdt']; exact hdt) h1' h'
      rw [hdt'] at hh'
      have key := heat_mono hR hb hdt hh (hh'.shift hdt.ne' (δ + (k : K) * c.dt * ε) ε) ?_ ?_ ?_ ?_ ?_ ?_ i hi j hj
      · refine key.trans (le_of_eq ?_)
        push_cast
        ring
      · intro q _
        have a := hW R.xl (cy R (N * 2 ^ d) q) (c.time k)
        have b : 0 ≤ (k : K) * c.dt * ε := by positivity
        have b' : 0 ≤ c.dt * ε := by positivity
        rw [htime]
        linarith
      · intro q _
        have a := hE R.xu (cy R (N * 2 ^ d) q) (c.time k)
        have b : 0 ≤ (k : K) * c.dt * ε := by positivity
        have b' : 0 ≤ c.dt * ε := by positivity
        rw [htime]
        linarith
      · intro q _
        rw [hS, htime]
      · intro q _
        rw [hNo, htime]
      · intro i _ j _
        unfold sourceAt
        rw [htime]
        split_ifs
        · linarith
        · exact hq _ _ _
      · exact ih ta tb e e'
  intro i hi j hj
  have a := one c c' hdt hdt' hst hS hNo (fun x y τ => by have := abs_le.mp (hW x y τ); linarith)
    (fun x y τ => by have := abs_le.mp (hE x y τ); linarith) (fun x y τ => by have := abs_le.mp (hq x y τ); linarith) h1 (k + 1) t3 t' h
    (by rw [hsol]; exact h') i hi j hj
  have b := one c' c (by rw [hdt']; exact hdt) hdt'.symm hst.symm hS.symm hNo.symm (fun x y τ => by have := abs_le.mp (hW x y τ); linarith)
    (fun x y τ => by have := abs_le.mp (hE x y τ); linarith) (fun x y τ => by have := abs_le.mp (hq x y τ); linarith)
    (by rw [hsol]; exact h1) (k + 1) t' t3 (by rw [hsol]; exact h') h i hi j hj
  rw [hdt'] at b
  unfold field at a b
  rw [if_neg (by omega), if_neg (by omega)] at a b
  rw [abs_le]
  constructor <;> linarith

/-- Convergence to the steady state: for a constant conductivity `κ`, data that do not depend on the time and any step length, the
distance from the array that the solver returns for the steady problem (same boundary function, `lambda = 0`, load minus the
sources) falls by the factor `1 + dt κ / (xu - xl)²` in every pass, up to a factor of 2. -/
theorem C68_steady_state_partial (lap : Lapack K) (lu : PetscLU K) (c : Thermal K) {κ : K} (hκ : 0 < κ) (hN : 2 ≤ N)
    {opt : HPSOptions} (hc : opt.cacheOperators = false) (ho : opt.homogeneousRhs = false) {t : Tree (Patch K)} {R : Rect K}
    (ht : Init N t R) {d : Nat} (hu : Uniform d t) (hR : Proper R) (hdt : 0 < c.dt)
    (hW : ∀ x y τ τ', c.uWest x y τ = c.uWest x y τ') (hE : ∀ x y τ τ', c.uEast x y τ = c.uEast x y τ')
    (hS : ∀ x y τ τ', c.dudnSouth x y τ = c.dudnSouth x y τ') (hNo : ∀ x y τ τ', c.dudnNorth x y τ = c.dudnNorth x y τ')
    (hq : ∀ x y τ τ', c.sources x y τ = c.sources x y τ') {t1 s1 s3 : Tree (Patch K)} {c1 c2 : Option (Mat K)}
    (h1 : buildStage lap ((c.solver fun _ _ => κ).toPatchSolver lu) opt t none = .ok (t1, c1))
    (hs1 : buildStage lap ((⟨fun _ _ => 1, fun _ _ => κ, fun _ _ => 0⟩ : FVSolver K).toPatchSolver lu) opt t none = .ok (s1, c2))
    (hs3 : (Request.functions (fun x y => -c.sources x y 0) (c.boundary 0)).run lap
      ((⟨fun _ _ => 1, fun _ _ => κ, fun _ _ => 0⟩ : FVSolver K).toPatchSolver lu) opt s1 = .ok s3)
    {t2 t3 : Tree (Patch K)} (h2 : steps lap ((c.solver fun _ _ => κ).toPatchSolver lu) opt c 1 t1 = .ok t2) {B : K}
    (hB : ∀ i, i < N * 2 ^ d → ∀ j, j < N * 2 ^ d → |gridFn N (·.u) t2 i j - gridFn N (·.u) s3 i j| ≤ B) {k : Nat}
    (h3 : steps lap ((c.solver fun _ _ => κ).toPatchSolver lu) opt c (k + 1) t1 = .ok t3) :
    ∀ i, i < N * 2 ^ d → ∀ j, j < N * 2 ^ d →
      |gridFn N (·.u) t3 i j - gridFn N (·.u) s3 i j| ≤ 2 * B / (1 + c.dt * κ / (R.xu - R.xl) ^ 2) ^ k := by
  have hm : 0 < N * 2 ^ d := by positivity
  have hE0 : EllipticOn (⟨fun _ _ => 1, fun _ _ => κ, fun _ _ => 0⟩ : FVSolver K) R := fun x y _ => ⟨hκ, one_ne_zero, by simp⟩
  have hw : RobinUnique (⟨fun _ _ => 1, fun _ _ => κ, fun _ _ => 0⟩ : FVSolver K) R (N * 2 ^ d)
      (sideData (·.2.1) (c.boundary 0) R (N * 2 ^ d)) (flipWS (sideData (·.2.2) (c.boundary 0) R (N * 2 ^ d))) := by
    refine ((heat_wellPosed _ R hm).unique hR hE0).scale (σ := fun s _ => if s = 2 then -1 else 1) ?_ ?_ ?_
    · intro s _ i _
      split_ifs <;> simp
    · intro s hs i _
      have h4 : s = 0 ∨ s = 1 ∨ s = 2 ∨ s = 3 := by omega
      rcases h4 with rfl | rfl | rfl | rfl <;> simp [sideData, boundary, heatA]
    · intro s hs i _
      have h4 : s = 0 ∨ s = 1 ∨ s = 2 ∨ s = 3 := by omega
      rcases h4 with rfl | rfl | rfl | rfl <;> simp [sideData, boundary, heatB, flipWS]
  obtain ⟨gs, ss, sb⟩ := robin_functions lap lu hN hc ho ht hu hR hE0 _ _ hs1 hs3 hw
  have hL : 0 < R.xu - R.xl := by have := hR.1; linarith
  have hL2 : 0 < (R.xu - R.xl) ^ 2 := by positivity
  have hr : 0 < 1 + c.dt * κ / (R.xu - R.xl) ^ 2 := by positivity
  have hB0 : 0 ≤ B := (abs_nonneg _).trans (hB 0 hm 0 hm)
  -- the steady state as a step
  have steady : ∀ k, k ≠ 0 → HeatStep (fun _ _ => κ) R (N * 2 ^ d) c.dt (fun i => c.uWest R.xl (cy R (N * 2 ^ d) i) (c.time k))
      (fun i => c.uEast R.xu (cy R (N * 2 ^ d) i) (c.time k)) (fun i => -c.dudnSouth (cx R (N * 2 ^ d) i) R.yl (c.time k))
      (fun i => c.dudnNorth (cx R (N * 2 ^ d) i) R.yu (c.time k)) (c.sourceAt R (N * 2 ^ d) k) (gridFn N (·.u) s3)
      (gridFn N (·.u) s3) gs := by
    intro k hk
    refine ⟨fun i hi j hj => ?_, fun i hi => ?_⟩
    · rw [ss i hi j hj]
      unfold sourceAt
      rw [if_neg hk, hq _ _ (c.time k) 0]
      ring
    · have c0 := sb 0 (by omega) i hi
      have c1 := sb 1 (by omega) i hi
      have c2 := sb 2 (by omega) i hi
      have c3 := sb 3 (by omega) i hi
      simp only [sideData, boundary, flipWS, Bdry.side, sidePoint] at c0 c1 c2 c3
      norm_num at c0 c1 c2 c3
      refine ⟨by rw [c0]; exact hW _ _ _ _, by rw [c1]; exact hE _ _ _ _, ?_, by rw [c3]; exact hNo _ _ _ _⟩
      rw [neg_eq_iff_eq_neg.mp c2, hS _ _ (c.time 0) (c.time k)]
  -- inside the rectangle the barrier is between half its maximum and its maximum
  have bmp : ∀ i, i < N * 2 ^ d → (R.xu - R.xl) ^ 2 / 2 ≤ bump R (cx R (N * 2 ^ d) i) := by
    intro i hi
    obtain ⟨f1, f2⟩ := cx_face hR hi
    have := hx_pos hR hm
    exact bump_ge (by linarith) (by linarith)
  have key : ∀ k t3, steps lap ((c.solver fun _ _ => κ).toPatchSolver lu) opt c (k + 1) t1 = .ok t3 →
      ∀ i, i < N * 2 ^ d → ∀ j, j < N * 2 ^ d →
      |gridFn N (·.u) t3 i j - gridFn N (·.u) s3 i j| ≤
        2 * B / (R.xu - R.xl) ^ 2 / (1 + c.dt * κ / (R.xu - R.xl) ^ 2) ^ k * bump R (cx R (N * 2 ^ d) i) := by
    intro k
    induction k with
    | zero =>
      intro t3 h i hi j hj
      rw [h2] at h
      obtain rfl := Res.ok_inj.mp h
      refine (hB i hi j hj).trans ?_
      rw [pow_zero, div_one]
      have := mul_le_mul_of_nonneg_left (bmp i hi) (by positivity : 0 ≤ 2 * B / (R.xu - R.xl) ^ 2)
      refine le_trans (le_of_eq ?_) this
      field_simp
    | succ k ih =>
      intro t3 h
      obtain ⟨t', g, e, hh⟩ := steps_heat lap lu c hN hc ho ht hu hR (fun _ _ _ => hκ) hdt h1 h
      have e0 : field N (k + 1 + 1) t3 = gridFn N (·.u) t3 := by unfold field; rw [if_neg (by omega)]
      have e1 : field N (k + 1) t' = gridFn N (·.u) t' := by unfold field; rw [if_neg (by omega)]
      rw [e0, e1] at hh
      have df := hh.sub (steady (k + 1) (by omega))
      have df' := (steady (k + 1) (by omega)).sub hh
      obtain ⟨w, ea, q, gb, w0, ea0, q0, hbp⟩ := heat_bump hκ hR hdt hm (B := 2 * B / (R.xu - R.xl) ^ 2 / (1 + c.dt * κ / (R.xu - R.xl) ^ 2) ^ (k + 1))
        (by positivity)
      have hst : 2 * B / (R.xu - R.xl) ^ 2 / (1 + c.dt * κ / (R.xu - R.xl) ^ 2) ^ (k + 1) * (1 + c.dt * κ / (R.xu - R.xl) ^ 2) =
          2 * B / (R.xu - R.xl) ^ 2 / (1 + c.dt * κ / (R.xu - R.xl) ^ 2) ^ k := by
        have aux : ∀ A r : K, r ≠ 0 → A / r ^ (k + 1) * r = A / r ^ k := by
          intro A r h0
          rw [pow_succ]
          field_simp
        exact aux _ _ hr.ne'
      rw [hst] at hbp
      have up := heat_mono hR (fun _ _ _ => hκ) hdt df hbp (fun k _ => by simpa using w0 k) (fun k _ => by simpa using ea0 k)
        (fun k _ => by simp) (fun k _ => by simp) (fun i _ j _ => by simpa using q0 i j) (fun i hi j hj => (abs_le.mp (ih t' e i hi j hj)).2)
      have dn := heat_mono hR (fun _ _ _ => hκ) hdt df' hbp (fun k _ => by simpa using w0 k) (fun k _ => by simpa using ea0 k)
        (fun k _ => by simp) (fun k _ => by simp) (fun i _ j _ => by simpa using q0 i j) (fun i hi j hj => by
          have := (abs_le.mp (ih t' e i hi j hj)).1
          linarith)
      intro i hi j hj
      rw [abs_le]
      have a := up i hi j hj
      have b := dn i hi j hj
      constructor <;> linarith
  intro i hi j hj
  refine (key k t3 h3 i hi j hj).trans ?_
  have := mul_le_mul_of_nonneg_left (bump_le R (cx R (N * 2 ^ d) i))
    (by positivity : 0 ≤ 2 * B / (R.xu - R.xl) ^ 2 / (1 + c.dt * κ / (R.xu - R.xl) ^ 2) ^ k)
  refine this.trans (le_of_eq ?_)
  field_simp

/-- The functions of the example, with `y` for `sin y` and steps of length 1. -/
def exThermal : Thermal ℚ := ⟨0, 1, fun _ y _ => 40 * y, fun _ _ _ => 20, fun _ _ _ => 0, fun _ _ _ => 0, fun _ _ _ => 0⟩

/-- The hypotheses of the theorems on uniform meshes hold for the functions of the example, on a mesh refined twice, after seven
passes; the West value is not zero at a cell centre. -/
example (lap : Lapack ℚ) (lu : PetscLU ℚ) : ∃ t1 c1 t3,
    buildStage lap ((exThermal.solver fun x _ => 1 + x ^ 2).toPatchSolver lu) ⟨false, false⟩ (freshTree 2 exUniform unitSquare) none =
        .ok (t1, c1) ∧
      steps lap ((exThermal.solver fun x _ => 1 + x ^ 2).toPatchSolver lu) ⟨false, false⟩ exThermal 7 t1 = .ok t3 ∧
      Uniform 2 (freshTree 2 exUniform unitSquare) ∧ (∀ x y, Inside unitSquare x y → 0 < 1 + x ^ 2) ∧ 0 < exThermal.dt ∧
      exThermal.uWest unitSquare.xl (cy unitSquare (2 * 2 ^ 2) 3) exThermal.tStart ≠ 0 := by
  obtain ⟨t1, c1, t3, h1, h2, _⟩ := C68_steps_return lap lu exThermal (fun x _ => 1 + x ^ 2) (N := 2) (by omega) (opt := ⟨false, false⟩)
    rfl (freshTree_init 2 exUniform unitSquare) (Or.inr ⟨2, exUniform_uniform 2⟩) ⟨by decide +kernel, by decide +kernel⟩ 7
  exact ⟨t1, c1, t3, h1, h2, exUniform_uniform 2, fun x _ _ => by positivity, by decide +kernel, by decide +kernel⟩

/-- The hypotheses of `C68_steps_return` hold on a mesh that is not uniform. -/
example (lap : Lapack ℚ) (lu : PetscLU ℚ) : ∃ t1 c1 t3,
    buildStage lap ((exThermal.solver fun _ _ => 1).toPatchSolver lu) ⟨false, false⟩ (freshTree 3 exShape unitSquare) none = .ok (t1, c1) ∧
      steps lap ((exThermal.solver fun _ _ => 1).toPatchSolver lu) ⟨false, false⟩ exThermal 101 t1 = .ok t3 := by
  obtain ⟨t1, c1, t3, h1, h2, _⟩ := C68_steps_return lap lu exThermal (fun _ _ => 1) (N := 3) (by omega) (opt := ⟨false, false⟩)
    rfl (freshTree_init 3 exShape unitSquare) (Or.inl (by omega)) ⟨by decide +kernel, by decide +kernel⟩ 101
  exact ⟨t1, c1, t3, h1, h2⟩

/-- The hypotheses of `C68_steady_state_partial` and `C68_stable_partial` hold: the loop and the steady solve return, the data do not depend on the
time, and a bound for the first distance exists. -/
example (lap : Lapack ℚ) (lu : PetscLU ℚ) : ∃ t1 c1 s1 c2 s3 t2,
    buildStage lap ((exThermal.solver fun _ _ => 1).toPatchSolver lu) ⟨false, false⟩ (freshTree 2 exUniform unitSquare) none =
        .ok (t1, c1) ∧
      buildStage lap ((⟨fun _ _ => 1, fun _ _ => 1, fun _ _ => 0⟩ : FVSolver ℚ).toPatchSolver lu) ⟨false, false⟩
        (freshTree 2 exUniform unitSquare) none = .ok (s1, c2) ∧
      (Request.functions (fun x y => -exThermal.sources x y 0) (exThermal.boundary 0)).run lap
        ((⟨fun _ _ => 1, fun _ _ => 1, fun _ _ => 0⟩ : FVSolver ℚ).toPatchSolver lu) ⟨false, false⟩ s1 = .ok s3 ∧
      steps lap ((exThermal.solver fun _ _ => 1).toPatchSolver lu) ⟨false, false⟩ exThermal 1 t1 = .ok t2 := by
  obtain ⟨t1, c1, t2, h1, h2, _⟩ := C68_steps_return lap lu exThermal (fun _ _ => 1) (N := 2) (by omega) (opt := ⟨false, false⟩)
    rfl (freshTree_init 2 exUniform unitSquare) (Or.inr ⟨2, exUniform_uniform 2⟩) ⟨by decide +kernel, by decide +kernel⟩ 1
  obtain ⟨s1, c2, s3, a1, a2, _⟩ := C20_stages_succeed_functions lap (by omega)
    (FVSolver.shapes lu (⟨fun _ _ => 1, fun _ _ => 1, fun _ _ => 0⟩ : FVSolver ℚ) (n := 2) (by omega)) (opt := ⟨false, false⟩) rfl
    (freshTree_init 2 exUniform unitSquare) (Or.inr ⟨2, exUniform_uniform 2⟩) (fun x y => -exThermal.sources x y 0) (exThermal.boundary 0)
  exact ⟨t1, c1, s1, c2, s3, t2, h1, a1, a2, h2⟩

/-- Those of `C68_south_flux_wrong`: a flux of 3 on the South side. -/
example : ({ exThermal with dudnSouth := fun _ _ _ => 3 } : Thermal ℚ).dudnSouth (cx unitSquare (2 * 2 ^ 2) 5) unitSquare.yl
    (({ exThermal with dudnSouth := fun _ _ _ => 3 } : Thermal ℚ).time 4) ≠ 0 := by
  show (3 : ℚ) ≠ 0
  norm_num

end EF
