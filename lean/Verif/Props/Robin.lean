import Verif.Proofs.Robin
import Verif.Proofs.RobinMax
import Verif.Props.Exact

/-!
# Boundary conditions with derivatives (C67)
-/

namespace EF

open Finset FV HPS

variable {K : Type} [Field K] [LinearOrder K] [IsStrictOrderedRing K] {N : Nat}

/-- The functions `f` and `bc` on a uniform tree. -/
theorem robin_functions (lap : Lapack K) (lu : PetscLU K) {s : FVSolver K} (hN : 2 ≤ N) {opt : HPSOptions}
    (hc : opt.cacheOperators = false) (ho : opt.homogeneousRhs = false) {t : Tree (Patch K)} {R : Rect K} (ht : Init N t R)
    {d : Nat} (hu : Uniform d t) (hR : Proper R) (hE : EllipticOn s R) (f : K → K → K) (bc : BoundaryFn K)
    {t1 t3 : Tree (Patch K)} {c1 : Option (Mat K)} (h1 : buildStage lap (s.toPatchSolver lu) opt t none = .ok (t1, c1))
    (h2 : (Request.functions f bc).run lap (s.toPatchSolver lu) opt t1 = .ok t3)
    (hq : RobinUnique s R (N * 2 ^ d) (sideData (·.2.1) bc R (N * 2 ^ d)) (flipWS (sideData (·.2.2) bc R (N * 2 ^ d)))) :
    ∃ g, RobinSolves s R (N * 2 ^ d) (sideData (·.2.1) bc R (N * 2 ^ d)) (flipWS (sideData (·.2.2) bc R (N * 2 ^ d)))
      (sideData (·.1) bc R (N * 2 ^ d)) (fun i j => f (cx R (N * 2 ^ d) i) (cy R (N * 2 ^ d) j)) g (gridFn N (·.u) t3) := by
  unfold Request.run at h2
  obtain ⟨t2, e2, e3⟩ := Res.bind_eq_ok.mp h2
  obtain ⟨φ, f1, f2⟩ := sampleLoad_fn f
  rw [upwardsStageAnalytic_eq lap _ opt f1] at e2
  have hφ : SetsLoad N (fun p => .ok { p with f := φ p.grid }) φ :=
    ⟨fun _ => rfl, fun grid hx hy => by have := f2 grid; rwa [hx, hy] at this⟩
  obtain ⟨g, g1, g2⟩ := robin_global lap lu hN hc ho ht hu hR hE hφ bc h1 e2 e3 hq
  exact ⟨g, g1.congr (fun _ _ => rfl) (fun _ _ => rfl) (fun _ _ => rfl) (fun _ _ => rfl) (gridFn_sampled (by omega) f1 ht hu)
    (fun _ _ _ _ => rfl), g2⟩

/-! ### C67 -/

/-- C67 where it holds.  If the boundary function sets `b = 0` on the West and the South side and the problem is well posed, the
leaf values together with some boundary values solve the finite volume equations of the global grid with the documented boundary
conditions `a u + b du/dn = r`, the derivative taken along the outward normal.

Missing: other conditions on the West and the South side, see `C67_west_neumann_wrong`, and meshes that are not uniform. -/
theorem C67_boundary_conditions_partial (lap : Lapack K) (lu : PetscLU K) {s : FVSolver K} (hN : 2 ≤ N) {opt : HPSOptions}
    (hc : opt.cacheOperators = false) (ho : opt.homogeneousRhs = false) {t : Tree (Patch K)} {R : Rect K} (ht : Init N t R)
    {d : Nat} (hu : Uniform d t) (hR : Proper R) (hE : EllipticOn s R) (f : K → K → K) (bc : BoundaryFn K)
    (hb : ∀ side x y, side = 0 ∨ side = 2 → (bc side x y).2.2 = 0)
    (hw : WellPosed s R (N * 2 ^ d) (sideData (·.2.1) bc R (N * 2 ^ d)) (sideData (·.2.2) bc R (N * 2 ^ d)))
    {t1 t3 : Tree (Patch K)} {c1 : Option (Mat K)} (h1 : buildStage lap (s.toPatchSolver lu) opt t none = .ok (t1, c1))
    (h2 : (Request.functions f bc).run lap (s.toPatchSolver lu) opt t1 = .ok t3) :
    ∃ g, RobinSolves s R (N * 2 ^ d) (sideData (·.2.1) bc R (N * 2 ^ d)) (sideData (·.2.2) bc R (N * 2 ^ d))
      (sideData (·.1) bc R (N * 2 ^ d)) (fun i j => f (cx R (N * 2 ^ d) i) (cy R (N * 2 ^ d) j)) g (gridFn N (·.u) t3) := by
  have e : flipWS (sideData (·.2.2) bc R (N * 2 ^ d)) = sideData (·.2.2) bc R (N * 2 ^ d) := by
    funext side k
    unfold flipWS
    split_ifs with h
    · unfold sideData
      simp only [hb side _ _ h, neg_zero]
    · rfl
  have := robin_functions lap lu hN hc ho ht hu hR hE f bc h1 h2 (by rw [e]; exact hw.unique hR hE)
  rwa [e] at this

/-- C67, what is solved in general: the conditions with the sign of `b` changed on the West and the South side, whenever the
problem with these has at most one solution. -/
theorem C67_condition_solved (lap : Lapack K) (lu : PetscLU K) {s : FVSolver K} (hN : 2 ≤ N) {opt : HPSOptions}
    (hc : opt.cacheOperators = false) (ho : opt.homogeneousRhs = false) {t : Tree (Patch K)} {R : Rect K} (ht : Init N t R)
    {d : Nat} (hu : Uniform d t) (hR : Proper R) (hE : EllipticOn s R) (f : K → K → K) (bc : BoundaryFn K)
    (hq : RobinUnique s R (N * 2 ^ d) (sideData (·.2.1) bc R (N * 2 ^ d)) (flipWS (sideData (·.2.2) bc R (N * 2 ^ d))))
    {t1 t3 : Tree (Patch K)} {c1 : Option (Mat K)} (h1 : buildStage lap (s.toPatchSolver lu) opt t none = .ok (t1, c1))
    (h2 : (Request.functions f bc).run lap (s.toPatchSolver lu) opt t1 = .ok t3) :
    ∃ g, RobinSolves s R (N * 2 ^ d) (sideData (·.2.1) bc R (N * 2 ^ d)) (flipWS (sideData (·.2.2) bc R (N * 2 ^ d)))
      (sideData (·.1) bc R (N * 2 ^ d)) (fun i j => f (cx R (N * 2 ^ d) i) (cy R (N * 2 ^ d) j)) g (gridFn N (·.u) t3) :=
  robin_functions lap lu hN hc ho ht hu hR hE f bc h1 h2 hq

/-- Bounds for the leaf values: a well-posed problem with the derivative factor zero on the West and the South side, boundary data
between `a lo` and `a hi` and no load stays between `lo ≤ 0` and `hi ≥ 0`. -/
theorem C67_bounds_partial (lap : Lapack K) (lu : PetscLU K) {s : FVSolver K} (hN : 2 ≤ N) {opt : HPSOptions}
    (hc : opt.cacheOperators = false) (ho : opt.homogeneousRhs = false) {t : Tree (Patch K)} {R : Rect K} (ht : Init N t R)
    {d : Nat} (hu : Uniform d t) (hR : Proper R) (hE : EllipticOn s R) (bc : BoundaryFn K)
    (hb : ∀ side x y, side = 0 ∨ side = 2 → (bc side x y).2.2 = 0)
    (hw : WellPosed s R (N * 2 ^ d) (sideData (·.2.1) bc R (N * 2 ^ d)) (sideData (·.2.2) bc R (N * 2 ^ d)))
    {lo hi : K} (hlo : lo ≤ 0) (hhi : 0 ≤ hi)
    (hbc : ∀ side x y, (bc side x y).2.1 * lo ≤ (bc side x y).1 ∧ (bc side x y).1 ≤ (bc side x y).2.1 * hi)
    {t1 t3 : Tree (Patch K)} {c1 : Option (Mat K)} (h1 : buildStage lap (s.toPatchSolver lu) opt t none = .ok (t1, c1))
    (h2 : (Request.functions (fun _ _ => 0) bc).run lap (s.toPatchSolver lu) opt t1 = .ok t3) :
    ∀ i, i < N * 2 ^ d → ∀ j, j < N * 2 ^ d → lo ≤ gridFn N (·.u) t3 i j ∧ gridFn N (·.u) t3 i j ≤ hi := by
  obtain ⟨g, hg⟩ := C67_boundary_conditions_partial lap lu hN hc ho ht hu hR hE _ bc hb hw h1 h2
  have hl : ∀ i, i < N * 2 ^ d → ∀ j, j < N * 2 ^ d →
      s.lambda (cx R (N * 2 ^ d) i) (cy R (N * 2 ^ d) j) / s.alpha (cx R (N * 2 ^ d) i) (cy R (N * 2 ^ d) j) ≤ 0 := by
    intro i hi j hj
    obtain ⟨fx1, fx2⟩ := cx_face hR hi
    obtain ⟨fy1, fy2⟩ := cy_face hR hj
    have hpx := hx_pos hR (Nat.lt_of_le_of_lt (Nat.zero_le i) hi)
    have hpy := hy_pos hR (Nat.lt_of_le_of_lt (Nat.zero_le j) hj)
    exact (hE _ _ ⟨by linarith, by linarith, by linarith, by linarith⟩).2.2
  intro i hi' j hj'
  refine ⟨robin_ge hR hE hw hg (fun q _ k _ => (hbc q _ _).1) ?_ i hi' j hj', robin_le hR hE hw hg (fun q _ k _ => (hbc q _ _).2) ?_ i hi' j hj'⟩
  · intro i hi j hj
    have := mul_nonneg_of_nonpos_of_nonpos (hl i hi j hj) hlo
    have e : ∀ x y : K, (0 - x * lo) / y = - (x / y * lo) := by intro x y; ring
    rw [e]
    linarith
  · intro i hi j hj
    have := mul_nonpos_of_nonpos_of_nonneg (hl i hi j hj) hhi
    have e : ∀ x y z : K, (0 - x * z) / y = - (x / y * z) := by intro x y z; ring
    rw [e]
    linarith

/-- Neumann data `ν` on the West side, Dirichlet data on the others. -/
def westNeumann (ν : K → K) (r : Nat → K → K → K) : BoundaryFn K :=
  fun side x y => if side = 0 then (ν y, 0, 1) else (r side x y, 1, 0)

/-- C67 is false on the West side.  With Neumann data there that is not zero at the centre of some boundary cell, and Dirichlet data
on the other sides, the leaf values do not solve the documented problem, whatever boundary values are taken: for every elliptic
problem and every uniform mesh.  (The value of `du/dn` they have is the negative of the one asked for.) -/
theorem C67_west_neumann_wrong (lap : Lapack K) (lu : PetscLU K) {s : FVSolver K} (hN : 2 ≤ N) {opt : HPSOptions}
    (hc : opt.cacheOperators = false) (ho : opt.homogeneousRhs = false) {t : Tree (Patch K)} {R : Rect K} (ht : Init N t R)
    {d : Nat} (hu : Uniform d t) (hR : Proper R) (hE : EllipticOn s R) (f : K → K → K) (ν : K → K) (r : Nat → K → K → K)
    {k : Nat} (hk : k < N * 2 ^ d) (hν : ν (cy R (N * 2 ^ d) k) ≠ 0)
    {t1 t3 : Tree (Patch K)} {c1 : Option (Mat K)} (h1 : buildStage lap (s.toPatchSolver lu) opt t none = .ok (t1, c1))
    (h2 : (Request.functions f (westNeumann ν r)).run lap (s.toPatchSolver lu) opt t1 = .ok t3) :
    WellPosed s R (N * 2 ^ d) (sideData (·.2.1) (westNeumann ν r) R (N * 2 ^ d)) (sideData (·.2.2) (westNeumann ν r) R (N * 2 ^ d)) ∧
      ¬ ∃ g, RobinSolves s R (N * 2 ^ d) (sideData (·.2.1) (westNeumann ν r) R (N * 2 ^ d))
        (sideData (·.2.2) (westNeumann ν r) R (N * 2 ^ d)) (sideData (·.1) (westNeumann ν r) R (N * 2 ^ d))
        (fun i j => f (cx R (N * 2 ^ d) i) (cy R (N * 2 ^ d) j)) g (gridFn N (·.u) t3) := by
  have hw : WellPosed s R (N * 2 ^ d) (sideData (·.2.1) (westNeumann ν r) R (N * 2 ^ d))
      (sideData (·.2.2) (westNeumann ν r) R (N * 2 ^ d)) := by
    refine ⟨fun q _ j _ => ?_, Or.inl ⟨1, by omega, k, hk, ?_⟩⟩
    · unfold sideData westNeumann
      split_ifs <;> simp
    · simp [sideData, westNeumann]
  have hq : RobinUnique s R (N * 2 ^ d) (sideData (·.2.1) (westNeumann ν r) R (N * 2 ^ d))
      (flipWS (sideData (·.2.2) (westNeumann ν r) R (N * 2 ^ d))) := by
    refine (hw.unique hR hE).scale (σ := fun q _ => if q = 0 then -1 else 1) ?_ ?_ ?_
    · intro q _ j _
      split_ifs <;> simp
    · intro q _ j _
      unfold sideData westNeumann
      split_ifs <;> simp
    · intro q _ j _
      unfold flipWS sideData westNeumann
      by_cases h0 : q = 0
      · simp [h0]
      · simp [h0]
  refine ⟨hw, ?_⟩
  rintro ⟨g', s', c'⟩
  obtain ⟨g, s0, c0⟩ := robin_functions lap lu hN hc ho ht hu hR hE f _ h1 h2 hq
  have other : ∀ q, q < 4 → q ≠ 0 → ∀ j, j < N * 2 ^ d → g.side q j = g'.side q j := by
    intro q hq4 hq0 j hj
    have a1 := c0 q hq4 j hj
    have a2 := c' q hq4 j hj
    unfold flipWS sideData westNeumann at a1
    unfold sideData westNeumann at a2
    simp only [if_neg hq0, neg_zero, ite_self, zero_mul, add_zero, one_mul] at a1 a2
    rw [a1, a2]
  have hW := west_determined hR hE s0 s' (other 1 (by omega) (by omega)) (other 2 (by omega) (by omega))
    (other 3 (by omega) (by omega)) hk
  have a1 := c0 0 (by omega) k hk
  have a2 := c' 0 (by omega) k hk
  unfold flipWS sideData westNeumann at a1
  unfold sideData westNeumann at a2
  simp only [sidePoint, normalDeriv, Bdry.side, if_pos, true_or, zero_mul, zero_add, one_mul, neg_mul] at a1 a2
  rw [hW] at a1
  rw [a2] at a1
  apply hν
  linarith

/-- `u + du/dn = r` on the West side, Dirichlet data on the East side, Neumann data on the others. -/
def westRobin (r : Nat → K → K → K) : BoundaryFn K :=
  fun side x y => if side = 0 then (r 0 x y, 1, 1) else if side = 1 then (r 1 x y, 1, 0) else (r side x y, 0, 1)

/-- A uniform tree: the operator the root has after the build stage and what it means for the boundary system. -/
theorem boundary_system (lap : Lapack K) (lu : PetscLU K) {s : FVSolver K} (hN : 2 ≤ N) {opt : HPSOptions}
    (hc : opt.cacheOperators = false) {t : Tree (Patch K)} {R : Rect K} (ht : Init N t R)
    {d : Nat} (hu : Uniform d t) (hR : Proper R) (hE : EllipticOn s R) {t1 : Tree (Patch K)} {c1 : Option (Mat K)}
    (h1 : buildStage lap (s.toPatchSolver lu) opt t none = .ok (t1, c1)) :
    ∃ τ, t1.val.T.Has (4 * (N * 2 ^ d)) (4 * (N * 2 ^ d)) τ ∧ ∀ a b : Nat → Nat → K,
      Nonsing (4 * (N * 2 ^ d)) (fun i j => (if i = j then a (i / (N * 2 ^ d)) (i % (N * 2 ^ d)) else 0) +
        b (i / (N * 2 ^ d)) (i % (N * 2 ^ d)) * τ i j) ↔ RobinUnique s R (N * 2 ^ d) a (flipWS b) := by
  obtain ⟨t1', m, T, e1, b1, s1, hm⟩ := buildStage_ok lap (FVSolver.shapes lu s hN) hc (by omega) ht (Or.inr ⟨d, hu⟩) none
  rw [h1] at e1
  obtain ⟨rfl, rfl⟩ := Prod.mk.inj (Res.ok_inj.mp e1)
  obtain rfl := hm d hu
  have hr := b1.root
  simp only [pow_zero, mul_one, crsN] at hr
  have hu1 : Uniform d t1 := uniform_shape.mp (s1 ▸ uniform_shape.mpr hu)
  refine ⟨_, hr.2.2.2.2.1 ▸ bm_has _ _ _ _, fun a b => ?_⟩
  exact boundary_nonsing (b1.global lu hN rfl hu1 hR hE).1 (unique_of_elliptic hR hE _ _)

/-- C67 is false on the West side also for well-posed problems with `a` and `b` positive: for the Laplace equation on a square of
side 1, `u + du/dn` prescribed on the West side, `u` on the East side and `du/dn` on the others, the problem is well posed, but the
boundary system the solve stage assembles from the operator of the root is singular, on every uniform mesh. -/
theorem C67_west_robin_wrong (lap : Lapack K) (lu : PetscLU K) (hN : 2 ≤ N) {opt : HPSOptions}
    (hc : opt.cacheOperators = false) {t : Tree (Patch K)} (ht : Init N t ⟨0, 1, 0, 1⟩)
    {d : Nat} (hu : Uniform d t) (r : Nat → K → K → K) {t1 : Tree (Patch K)} {c1 : Option (Mat K)}
    (h1 : buildStage lap ((⟨fun _ _ => 1, fun _ _ => 1, fun _ _ => 0⟩ : FVSolver K).toPatchSolver lu) opt t none = .ok (t1, c1)) :
    WellPosed ⟨fun _ _ => 1, fun _ _ => 1, fun _ _ => 0⟩ ⟨0, 1, 0, 1⟩ (N * 2 ^ d)
        (sideData (·.2.1) (westRobin r) ⟨0, 1, 0, 1⟩ (N * 2 ^ d)) (sideData (·.2.2) (westRobin r) ⟨0, 1, 0, 1⟩ (N * 2 ^ d)) ∧
      ∃ τ, t1.val.T.Has (4 * (N * 2 ^ d)) (4 * (N * 2 ^ d)) τ ∧
        ¬ Nonsing (4 * (N * 2 ^ d)) (fun i j =>
          (if i = j then sideData (·.2.1) (westRobin r) ⟨0, 1, 0, 1⟩ (N * 2 ^ d) (i / (N * 2 ^ d)) (i % (N * 2 ^ d)) else 0) +
            sideData (·.2.2) (westRobin r) ⟨0, 1, 0, 1⟩ (N * 2 ^ d) (i / (N * 2 ^ d)) (i % (N * 2 ^ d)) * τ i j) := by
  have hR : Proper (⟨0, 1, 0, 1⟩ : Rect K) := ⟨by norm_num, by norm_num⟩
  have hE : EllipticOn (⟨fun _ _ => 1, fun _ _ => 1, fun _ _ => 0⟩ : FVSolver K) ⟨0, 1, 0, 1⟩ := by
    intro x y _
    simp
  have hm : 0 < N * 2 ^ d := by positivity
  refine ⟨⟨fun q _ j _ => ?_, Or.inl ⟨1, by omega, 0, hm, ?_⟩⟩, ?_⟩
  · unfold sideData westRobin
    split_ifs <;> simp
  · simp [sideData, westRobin]
  obtain ⟨τ, h2, h3⟩ := boundary_system lap lu hN hc ht hu hR hE h1
  refine ⟨τ, h2, fun h => ?_⟩
  have hq := (h3 _ _).mp h
  generalize N * 2 ^ d = m at *
  have hm' : (m : K) ≠ 0 := by exact_mod_cast hm.ne'
  have hb := hq ⟨fun _ => -1, fun _ => 0, fun k => cx ⟨0, 1, 0, 1⟩ m k - 1, fun k => cx ⟨0, 1, 0, 1⟩ m k - 1⟩
    (fun i _ => cx ⟨0, 1, 0, 1⟩ m i - 1) (by
      refine ⟨?_, ?_⟩
      · have := solves_linear (s := (⟨fun _ _ => 1, fun _ _ => 1, fun _ _ => 0⟩ : FVSolver K)) (a := -1) (b := 1) (c := 0)
          (fun _ _ _ _ => rfl) (fun _ _ _ _ => rfl) (R := ⟨0, 1, 0, 1⟩) hm (f := fun _ _ => 0) (by intro i _ j _; simp)
        refine this.congr ?_ ?_ ?_ ?_ (fun _ _ _ _ => rfl) ?_ <;> intros <;> simp [ofB, smp, sidePoint, sub_eq_add_neg, add_comm]
      · intro q hq k hk
        have hc0 : cx (⟨0, 1, 0, 1⟩ : Rect K) m 0 = 1 / m / 2 := by simp [cx, hx]; ring
        have hc1 : cx (⟨0, 1, 0, 1⟩ : Rect K) m (m - 1) = 1 - 1 / m / 2 := by
          have : ((m - 1 : Nat) : K) = m - 1 := by push_cast [Nat.cast_sub (by omega : 1 ≤ m)]; rfl
          simp [cx, hx, this]
          field_simp
          ring
        have hh : hx (⟨0, 1, 0, 1⟩ : Rect K) m = 1 / m := by simp [hx]
        have h4 : q = 0 ∨ q = 1 ∨ q = 2 ∨ q = 3 := by omega
        rcases h4 with rfl | rfl | rfl | rfl
        · simp only [sideData, westRobin, flipWS, Bdry.side, normalDeriv, hc0, hh, if_pos, true_or]
          field_simp
          ring
        · simp [sideData, westRobin, flipWS, Bdry.side]
        · simp [sideData, westRobin, flipWS, Bdry.side, normalDeriv]
        · simp [sideData, westRobin, flipWS, Bdry.side, normalDeriv])
  have := hb.2 0 (by omega) 0 hm
  simp [Bdry.side] at this

/-- C67: the boundary system the solve stage solves is nonsingular exactly when the problem with the sign of `b` changed on the
West and the South side has at most one solution; in particular when that problem is well posed. -/
theorem C67_boundary_system (lap : Lapack K) (lu : PetscLU K) {s : FVSolver K} (hN : 2 ≤ N) {opt : HPSOptions}
    (hc : opt.cacheOperators = false) {t : Tree (Patch K)} {R : Rect K} (ht : Init N t R)
    {d : Nat} (hu : Uniform d t) (hR : Proper R) (hE : EllipticOn s R) {t1 : Tree (Patch K)} {c1 : Option (Mat K)}
    (h1 : buildStage lap (s.toPatchSolver lu) opt t none = .ok (t1, c1)) :
    ∃ τ, t1.val.T.Has (4 * (N * 2 ^ d)) (4 * (N * 2 ^ d)) τ ∧ ∀ a b : Nat → Nat → K,
      (Nonsing (4 * (N * 2 ^ d)) (fun i j => (if i = j then a (i / (N * 2 ^ d)) (i % (N * 2 ^ d)) else 0) +
        b (i / (N * 2 ^ d)) (i % (N * 2 ^ d)) * τ i j) ↔ RobinUnique s R (N * 2 ^ d) a (flipWS b)) ∧
      (WellPosed s R (N * 2 ^ d) a (flipWS b) → RobinUnique s R (N * 2 ^ d) a (flipWS b)) := by
  obtain ⟨τ, h2, h3⟩ := boundary_system lap lu hN hc ht hu hR hE h1
  exact ⟨τ, h2, fun a b => ⟨h3 a b, fun h => h.unique hR hE⟩⟩

/-- A mixed problem: Dirichlet data on the West and the South side, Neumann data in the North, a Robin condition in the East. -/
def exMixed : BoundaryFn ℚ := fun side x y =>
  if side = 0 ∨ side = 2 then (x - 2 * y, 1, 0) else if side = 1 then (x + y, 2, 1) else (x * y, 0, 1)

/-- The hypotheses of C67 hold for this problem on a mesh refined twice, and those of the counterexamples for Neumann data on the
West side. -/
example (lap : Lapack ℚ) (lu : PetscLU ℚ) (f : ℚ → ℚ → ℚ) : ∃ t1 c1 t3 t3',
    buildStage lap (exPde.toPatchSolver lu) ⟨false, false⟩ (freshTree 2 exUniform unitSquare) none = .ok (t1, c1) ∧
      (Request.functions f exMixed).run lap (exPde.toPatchSolver lu) ⟨false, false⟩ t1 = .ok t3 ∧
      (Request.functions f (westNeumann (fun y => 1 + y) (fun _ x _ => x))).run lap (exPde.toPatchSolver lu) ⟨false, false⟩ t1 = .ok t3' ∧
      (∀ side x y, side = 0 ∨ side = 2 → (exMixed side x y).2.2 = 0) ∧
      WellPosed exPde unitSquare (2 * 2 ^ 2) (sideData (·.2.1) exMixed unitSquare (2 * 2 ^ 2)) (sideData (·.2.2) exMixed unitSquare (2 * 2 ^ 2)) ∧
      1 + cy unitSquare (2 * 2 ^ 2) 3 ≠ 0 := by
  have h := fun bc => C20_stages_succeed_functions lap (by omega) (FVSolver.shapes lu exPde (n := 2) (by omega))
      (opt := ⟨false, false⟩) rfl (freshTree_init 2 exUniform unitSquare) (Or.inr ⟨2, exUniform_uniform 2⟩) f bc
  obtain ⟨t1, c1, t3, h1, h2, _⟩ := h exMixed
  obtain ⟨t1', c1', t3', h1', h2', _⟩ := h (westNeumann (fun y => 1 + y) (fun _ x _ => x))
  rw [h1] at h1'
  obtain ⟨rfl, rfl⟩ := Prod.mk.inj (Res.ok_inj.mp h1')
  refine ⟨t1, c1, t3, t3', h1, h2, h2', ?_, ⟨?_, Or.inl ⟨0, by omega, 0, by omega, ?_⟩⟩, ?_⟩
  · intro side x y h
    simp [exMixed, h]
  · intro q _ k _
    unfold sideData exMixed
    split_ifs <;> norm_num
  · simp [sideData, exMixed]
  · simp only [cy, hy, unitSquare]
    norm_num

/-- The hypotheses of `C67_west_robin_wrong` hold. -/
example (lap : Lapack ℚ) (lu : PetscLU ℚ) : ∃ t1 c1, buildStage lap
      ((⟨fun _ _ => 1, fun _ _ => 1, fun _ _ => 0⟩ : FVSolver ℚ).toPatchSolver lu) ⟨false, false⟩ (freshTree 2 exUniform unitSquare) none = .ok (t1, c1) := by
  obtain ⟨t1, c1, _, h, _⟩ := C20_stages_succeed_functions lap (by omega)
      (FVSolver.shapes lu (⟨fun _ _ => 1, fun _ _ => 1, fun _ _ => 0⟩ : FVSolver ℚ) (n := 2) (by omega))
      (opt := ⟨false, false⟩) rfl (freshTree_init 2 exUniform unitSquare) (Or.inr ⟨2, exUniform_uniform 2⟩) (fun _ _ => 0)
      (fun _ _ _ => (0, 1, 0))
  exact ⟨t1, c1, h⟩

end EF
