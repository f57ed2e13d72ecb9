import Verif.Spec.Mixed
import Verif.Props.Move
import Verif.Props.Robin

/-!
# Boundary conditions on adaptive meshes (C100, C101, C102)
-/

namespace EF

open Finset FV HPS

variable {K : Type} [Field K] [LinearOrder K] [IsStrictOrderedRing K] {N : Nat}

omit [LinearOrder K] [IsStrictOrderedRing K] in
theorem boundary_row {m : Nat} {T : Blk K} {α β : Nat → Nat → K} (v : Nat → K) {i : Nat} (hi : i < 4 * m) :
    ∑ j ∈ range (4 * m), ((if i = j then α (i / m) (i % m) else 0) + β (i / m) (i % m) * T (i / m) (j / m) (i % m) (j % m)) * v j =
      α (i / m) (i % m) * v i + β (i / m) (i % m) * app m 4 T (toBv m v) (i / m) (i % m) := by
  simp only [add_mul, sum_add_distrib, ite_mul, zero_mul]
  rw [sum_ite_eq (range (4 * m)) i, if_pos (mem_range.mpr hi)]
  congr 1
  unfold app
  rw [mul_sum, sum_range_mul]
  refine sum_congr rfl fun q _ => ?_
  rw [mul_sum]
  refine sum_congr rfl fun j hj => ?_
  have hj := mem_range.mp hj
  rw [Mat.idx_div hj, Mat.idx_mod hj]
  unfold toBv
  ring

/-- The boundary system is nonsingular if only zero boundary values meet the homogeneous conditions. -/
theorem BoundaryRigid.nonsing {s : FVSolver K} {c : Pieces Unit} {R : Rect K} {bc : BoundaryFn K} (h : BoundaryRigid s N c R bc) {m : Nat} {T : Blk K}
    (hT : ∀ g, ∃ M : Pieces (Nat → Nat → K), M.Alike c ∧ Composite s (fun _ _ => 0) N M R m g (app m 4 T g)) :
    Nonsing (4 * m) (fun i j => (if i = j then sideData (·.2.1) bc R m (i / m) (i % m) else 0) +
      sideData (·.2.2) bc R m (i / m) (i % m) * T (i / m) (j / m) (i % m) (j % m)) := by
  intro v hv k hk
  obtain ⟨M, hM, hC⟩ := hT (toBv m v)
  have := h M hM m _ _ hC (fun a ha i hi => by
    have := hv (a * m + i) (Mat.idx_lt ha hi)
    rw [boundary_row v (Mat.idx_lt ha hi), Mat.idx_div hi, Mat.idx_mod hi] at this
    exact this) (k / m) (Mat.div_lt' hk) (k % m) (Mat.mod_lt' hk)
  unfold toBv at this
  rwa [Nat.div_add_mod'] at this

/-- C100 for any boundary conditions, missing: that the merge systems are nonsingular on every adaptive mesh and that the boundary conditions fit
(`C100_mixed_uniform` and `C100_mixed_damped` prove both in two cases).
A run leaves the one and only solution of the discretised equation on the mesh that meets the conditions.  The derivative in them is the one in
coordinate direction (see C67). -/
theorem C100_mixed_partial (lap : Lapack K) (lu : PetscLU K) {s : FVSolver K} (hN : 2 ≤ N) {opt : HPSOptions}
    (hc : opt.cacheOperators = false) (ho : opt.homogeneousRhs = false) {t : Tree (Patch K)} {R : Rect K} (ht : Init N t R)
    (h3 : 3 ≤ N ∨ ∃ d, Uniform d t) (hR : Proper R) (hE : EllipticOn s R) (f : K → K → K) (bc : BoundaryFn K)
    {t1 t3 : Tree (Patch K)} {c1 : Option (Mat K)} (h1 : buildStage lap (s.toPatchSolver lu) opt t none = .ok (t1, c1))
    (h2 : (Request.functions f bc).run lap (s.toPatchSolver lu) opt t1 = .ok t3) (hX : Branches (fun p => NonsingularMat p.X) t1)
    (hb : BoundaryRigid s N t.cuts R bc) :
    (∃ m g q, 0 < m ∧ Composite s f N (treeCells N t3) R m g q ∧ BoundaryHolds bc R m g q) ∧
      ∀ M : Pieces (Nat → Nat → K), M.Alike t.cuts → ∀ m g q, Composite s f N M R m g q → BoundaryHolds bc R m g q →
        M.Same N (treeCells N t3) := by
  obtain ⟨m, γ, q, T, h, hm, hg, hC, _, hs, hB, hT, hO⟩ := functions_ops lap lu hN hc ho ht h3 hR hE f bc h1 h2 hX
  have hn := hb.nonsing hT
  have hBq := hB hn
  have hal : ∀ M : Pieces (Nat → Nat → K), M.Alike t.cuts → M.Alike (treeCells N t3) := by
    intro M hM
    rw [treeCells_cuts, ← t3.cuts_shape, hs, t.cuts_shape]
    exact hM
  have hq := (hO _ (hal _ (by rw [← t.cuts_shape, ← hs, t3.cuts_shape]; exact treeCells_self t3)) _ _ _ hC).2.1
  refine ⟨⟨m, _, q, hm, hC, hBq⟩, fun M hM m' g' q' hC' hB' => ?_⟩
  obtain ⟨rfl, hq', hS⟩ := hO M (hal M hM) m' g' q' hC'
  refine hS fun a ha i hi => ?_
  have := hn (fun k => g' (k / m') (k % m') - γ k) (fun k hk => by
    have ha := Mat.div_lt' hk
    have hi := Mat.mod_lt' hk
    rw [boundary_row _ hk]
    have e1 := hB' _ ha _ hi
    have e2 := hBq _ ha _ hi
    rw [hq' _ ha _ hi] at e1
    rw [hq _ ha _ hi] at e2
    rw [Nat.div_add_mod'] at e2
    have e3 : app m' 4 T (toBv m' fun k => g' (k / m') (k % m') - γ k) (k / m') (k % m') =
        opFlux m' T g' h (k / m') (k % m') - opFlux m' T (fun a i => γ (a * m' + i)) h (k / m') (k % m') := by
      unfold opFlux app
      rw [add_sub_add_right_eq_sub, ← sum_sub_distrib]
      refine sum_congr rfl fun b _ => ?_
      rw [← sum_sub_distrib]
      refine sum_congr rfl fun j hj => ?_
      unfold toBv
      beta_reduce
      rw [Mat.idx_div (mem_range.mp hj), Mat.idx_mod (mem_range.mp hj)]
      ring
    rw [e3]
    linear_combination e1 - e2) (a * m' + i) (Mat.idx_lt ha hi)
  simp only [Mat.idx_div hi, Mat.idx_mod hi] at this
  exact sub_eq_zero.mp this

/-- The fluxes of solutions without load are those of the root operator. -/
theorem HPS.build_flux (lap : Lapack K) (lu : PetscLU K) {s : FVSolver K} (hN : 2 ≤ N) {opt : HPSOptions}
    (hc : opt.cacheOperators = false) {t : Tree (Patch K)} {R : Rect K} (ht : Init N t R) (h3 : 3 ≤ N ∨ ∃ d, Uniform d t) (hR : Proper R)
    (hE : EllipticOn s R) {t1 : Tree (Patch K)} {c1 : Option (Mat K)} (h1 : buildStage lap (s.toPatchSolver lu) opt t none = .ok (t1, c1))
    (hX : Branches (fun p => NonsingularMat p.X) t1) :
    ∃ m T, Built N (LPs N (s.toPatchSolver lu)) t1 R 0 m T ∧ t1.shape = t.shape ∧ ∀ M : Pieces (Nat → Nat → K), M.Alike t.cuts → ∀ m' g q,
      Composite s (fun _ _ => 0) N M R m' g q → m' = m ∧ ∀ a, a < 4 → ∀ i, i < m → q a i = app m 4 T g a i := by
  obtain ⟨t1', m, T, e1, b1, s1, _⟩ := buildStage_ok lap (FVSolver.shapes lu s hN) hc (by omega) ht h3 none
  rw [h1] at e1
  obtain ⟨rfl, rfl⟩ := Prod.mk.inj (Res.ok_inj.mp e1)
  have b2 := b1.leaves (P := fun grid => Proper (rect grid) ∧ EllipticOn s (rect grid)) (by
    rw [buildStage_leaves h1]
    intro grid hg
    obtain ⟨p, hp, rfl⟩ := List.mem_map.mp hg
    exact ht.elliptic hR hE p hp)
  refine ⟨m, T, b1, s1, fun M hM m' g q hC => ?_⟩
  have := b2.flux (s := s) (fun p T hx hy hL g U hU a ha i hi => by
    rw [leaf_trueOp0 lu s hN hx hy (unique_of_elliptic hL.2.1 hL.2.2 N N) hL.1 g U hU a ha i hi, opFlux, add_zero]) hX
    (M := M) (by rw [← t1.cuts_shape, s1, t.cuts_shape]; exact hM) m' g q hC
  simp only [pow_zero, mul_one] at this
  obtain ⟨rfl, h⟩ := this
  exact ⟨rfl, h⟩

/-- On uniform meshes, well-posed conditions leave only zero. -/
theorem boundaryRigid_uniform (lap : Lapack K) (lu : PetscLU K) {s : FVSolver K} (hN : 2 ≤ N) {opt : HPSOptions}
    (hc : opt.cacheOperators = false) (ho : opt.homogeneousRhs = false) {t : Tree (Patch K)} {R : Rect K} (ht : Init N t R) {d : Nat}
    (hu : Uniform d t) (hR : Proper R) (hE : EllipticOn s R) {bc : BoundaryFn K} {t1 : Tree (Patch K)} {c1 : Option (Mat K)}
    (h1 : buildStage lap (s.toPatchSolver lu) opt t none = .ok (t1, c1))
    (hq : RobinUnique s R (N * 2 ^ d) (sideData (·.2.1) bc R (N * 2 ^ d)) (flipWS (sideData (·.2.2) bc R (N * 2 ^ d)))) :
    BoundaryRigid s N t.cuts R bc := by
  obtain ⟨m, T, b1, s1, hf⟩ := build_flux lap lu hN hc ht (Or.inr ⟨d, hu⟩) hR hE h1 (C19_nonsingular lap lu hN hc ho ht hu hR hE h1).1
  have hu1 : Uniform d t1 := uniform_shape.mp (s1 ▸ uniform_shape.mpr hu)
  have hT := (b1.globalN lu hN hu1 hR hE).1
  rw [pow_zero, mul_one] at hT
  have e1 := b1.res_eq
  rw [res_uniform hu1, pow_zero, mul_one] at e1
  obtain rfl := e1
  have hn := (boundary_nonsing hT (unique_of_elliptic hR hE _ _)).mpr hq
  intro M hM m' g q hC hB a ha i hi
  obtain ⟨rfl, hf⟩ := hf M hM m' g q hC
  have := hn (fun k => g (k / (N * 2 ^ d)) (k % (N * 2 ^ d))) (fun k hk => by
    rw [boundary_row _ hk]
    have e := hB _ (Mat.div_lt' hk) _ (Mat.mod_lt' hk)
    rw [hf _ (Mat.div_lt' hk) _ (Mat.mod_lt' hk)] at e
    refine Eq.trans ?_ e
    congr 2
    unfold app
    refine sum_congr rfl fun b _ => sum_congr rfl fun j hj => ?_
    unfold toBv
    beta_reduce
    rw [Mat.idx_div (mem_range.mp hj), Mat.idx_mod (mem_range.mp hj)]) (a * (N * 2 ^ d) + i) (Mat.idx_lt ha hi)
  simp only [Mat.idx_div hi, Mat.idx_mod hi] at this
  exact this

/-- If the reaction term dominates, proper conditions leave only zero. -/
theorem boundaryRigid_damped (lap : Lapack K) (lu : PetscLU K) {s : FVSolver K} (hN : 3 ≤ N) {opt : HPSOptions}
    (hc : opt.cacheOperators = false) {t : Tree (Patch K)} {R : Rect K} (ht : Init N t R) (hR : Proper R) (hE : EllipticOn s R)
    (hd : Dominated N s R t) {bc : BoundaryFn K} (hbc : BoundaryProper bc) {t1 : Tree (Patch K)} {c1 : Option (Mat K)}
    (h1 : buildStage lap (s.toPatchSolver lu) opt t none = .ok (t1, c1)) : BoundaryRigid s N t.cuts R bc := by
  obtain ⟨m, T, b1, es, hf⟩ := build_flux lap lu (by omega) hc ht (Or.inl hN) hR hE h1 (C86_nonsingular lap lu hN hc ht hR hE hd h1)
  obtain ⟨δ, e, he, hT, hδ⟩ := hd.near lu hN hR hE b1 es
  intro M hM m' g q hC hB
  obtain ⟨rfl, hf⟩ := hf M hM m' g q hC
  by_contra hcon
  push Not at hcon
  obtain ⟨a0, ha0, i0, hi0, hne⟩ := hcon
  obtain ⟨⟨a, i⟩, hp, hmax⟩ := exists_max_image (range 4 ×ˢ range m') (fun p => |g p.1 p.2|) ⟨(a0, i0), by simp [ha0, hi0]⟩
  simp only [mem_product, mem_range] at hp hmax
  obtain ⟨ha, hi⟩ := hp
  have hM : ∀ q, q < 4 → ∀ j, j < m' → |g q j| ≤ |g a i| := fun q hq j hj => hmax (q, j) ⟨hq, hj⟩
  have hpos : 0 < |g a i| := lt_of_lt_of_le (abs_pos.mpr hne) (hM a0 ha0 i0 hi0)
  have hn := hT g _ (4 * |g a i|) a ha (by positivity) hM (fun j hj => second_le (hM a ha) hj) i hi
  have hB' := hB a ha i hi
  rw [hf a ha i hi] at hB'
  obtain ⟨p1, p2, p3⟩ := hbc a ha (sidePoint R m' a i).1 (sidePoint R m' a i).2
  simp only [sideData, BoundaryFn.zero] at hB'
  have hδ' := hδ a ha i hi
  generalize (bc a (sidePoint R m' a i).1 (sidePoint R m' a i).2).2.1 = A at *
  generalize (bc a (sidePoint R m' a i).1 (sidePoint R m' a i).2).2.2 = Bc at *
  generalize app m' 4 T g a i = y at *
  generalize g a i = x at *
  generalize δ a i = dd at *
  -- the derivative in the direction of the normal has the sign of the value
  have hB2 : A * x + (if a = 0 ∨ a = 2 then -Bc else Bc) * (sgn a * y) = 0 := by
    rw [← hB']
    interval_cases a <;> simp [sgn]
  have hn2 : |sgn a * y - dd * x| ≤ dd * (e * |x| + 4 * |x| / 6) := by
    refine le_trans (le_of_eq ?_) hn
    interval_cases a <;> simp only [sgn] <;> norm_num
    · rw [← abs_neg]; congr 1; ring
    · rw [← abs_neg]; congr 1; ring
  have hBn : (if a = 0 ∨ a = 2 then -Bc else Bc) ≠ 0 ∨ A ≠ 0 := by
    rcases p3 with h | h
    · exact Or.inr h
    · left; split_ifs <;> simpa using h
  generalize (if a = 0 ∨ a = 2 then -Bc else Bc) = b at *
  generalize sgn a * y = z at *
  have hz : 0 < z * x := by
    have h1 : |z * x - dd * x ^ 2| ≤ dd * (e + 2 / 3) * x ^ 2 := by
      have : z * x - dd * x ^ 2 = (z - dd * x) * x := by ring
      rw [this, abs_mul]
      refine le_trans (mul_le_mul_of_nonneg_right hn2 hpos.le) (le_of_eq ?_)
      rw [← sq_abs x]
      ring
    have h2 := (abs_le.mp h1).1
    have h3 : 0 < dd * (1 / 3 - e) * x ^ 2 := by
      have : 0 < x ^ 2 := by rw [← sq_abs]; positivity
      have : 0 < 1 / 3 - e := by linarith
      positivity
    nlinarith
  have hx2 : 0 < x ^ 2 := by rw [← sq_abs]; positivity
  have : A * x ^ 2 + b * (z * x) = 0 := by linear_combination x * hB2
  have k1 : 0 ≤ A * x ^ 2 := by positivity
  have k2 : 0 ≤ b * (z * x) := by positivity
  rcases hBn with h | h
  · have : 0 < b * (z * x) := mul_pos (lt_of_le_of_ne p2 (Ne.symm h)) hz
    linarith
  · have : 0 < A * x ^ 2 := mul_pos (lt_of_le_of_ne p1 (Ne.symm h)) hx2
    linarith

/-- C100 on uniform meshes of depth `d`, for any boundary conditions that are well posed. -/
theorem C100_mixed_uniform (lap : Lapack K) (lu : PetscLU K) {s : FVSolver K} (hN : 2 ≤ N) {opt : HPSOptions}
    (hc : opt.cacheOperators = false) (ho : opt.homogeneousRhs = false) {t : Tree (Patch K)} {R : Rect K} (ht : Init N t R) {d : Nat}
    (hu : Uniform d t) (hR : Proper R) (hE : EllipticOn s R) (f : K → K → K) (bc : BoundaryFn K)
    (hw : WellPosed s R (N * 2 ^ d) (sideData (·.2.1) bc R (N * 2 ^ d)) (flipWS (sideData (·.2.2) bc R (N * 2 ^ d))))
    {t1 t3 : Tree (Patch K)} {c1 : Option (Mat K)} (h1 : buildStage lap (s.toPatchSolver lu) opt t none = .ok (t1, c1))
    (h2 : (Request.functions f bc).run lap (s.toPatchSolver lu) opt t1 = .ok t3) :
    (∃ m g q, 0 < m ∧ Composite s f N (treeCells N t3) R m g q ∧ BoundaryHolds bc R m g q) ∧
      ∀ M : Pieces (Nat → Nat → K), M.Alike t.cuts → ∀ m g q, Composite s f N M R m g q → BoundaryHolds bc R m g q →
        M.Same N (treeCells N t3) :=
  C100_mixed_partial lap lu hN hc ho ht (Or.inr ⟨d, hu⟩) hR hE f bc h1 h2 (C19_nonsingular lap lu hN hc ho ht hu hR hE h1).1
    (boundaryRigid_uniform lap lu hN hc ho ht hu hR hE h1 (hw.unique hR hE))

/-- C100 on adaptive meshes for any proper boundary conditions, if the reaction term dominates. -/
theorem C100_mixed_damped (lap : Lapack K) (lu : PetscLU K) {s : FVSolver K} (hN : 3 ≤ N) {opt : HPSOptions}
    (hc : opt.cacheOperators = false) (ho : opt.homogeneousRhs = false) {t : Tree (Patch K)} {R : Rect K} (ht : Init N t R)
    (hR : Proper R) (hE : EllipticOn s R) (hd : Dominated N s R t) (f : K → K → K) {bc : BoundaryFn K} (hb : BoundaryProper bc)
    {t1 t3 : Tree (Patch K)} {c1 : Option (Mat K)} (h1 : buildStage lap (s.toPatchSolver lu) opt t none = .ok (t1, c1))
    (h2 : (Request.functions f bc).run lap (s.toPatchSolver lu) opt t1 = .ok t3) :
    (∃ m g q, 0 < m ∧ Composite s f N (treeCells N t3) R m g q ∧ BoundaryHolds bc R m g q) ∧
      ∀ M : Pieces (Nat → Nat → K), M.Alike t.cuts → ∀ m g q, Composite s f N M R m g q → BoundaryHolds bc R m g q →
        M.Same N (treeCells N t3) :=
  C100_mixed_partial lap lu (by omega) hc ho ht (Or.inl hN) hR hE f bc h1 h2 (C86_nonsingular lap lu hN hc ht hR hE hd h1)
    (boundaryRigid_damped lap lu hN hc ht hR hE hd hb h1)

/-! ## Moved problems -/

omit [LinearOrder K] [IsStrictOrderedRing K] in
theorem Move.sign_factor {μ : Move K} (hL : μ.L ≠ 0) (a : Nat) : μ.sign a * μ.L * sideFactor μ.fV (1 / μ.L) a = 1 := by
  obtain ⟨τ, L, x, y⟩ := μ
  simp only at hL
  cases τ <;> simp only [Move.sign, Move.fV, sideFactor] <;> split_ifs <;> field_simp

theorem SameConditions.zero {μ : Move K} {k : Nat → K → K → K} {bc bc' : BoundaryFn K} (h : SameConditions μ k bc bc') :
    SameConditions μ k (BoundaryFn.zero bc) (BoundaryFn.zero bc') := by
  intro a ha x y
  obtain ⟨h1, h2⟩ := h a ha x y
  refine ⟨h1, ?_⟩
  simp only [BoundaryFn.zero, h2, mul_zero]

/-- Moved values meet the moved conditions. -/
theorem SameConditions.holds {μ : Move K} (hL : μ.L ≠ 0) {k : Nat → K → K → K} {bc bc' : BoundaryFn K} (h : SameConditions μ k bc bc') {R : Rect K}
    {m : Nat} {g q : Nat → Nat → K} : BoundaryHolds bc' (μ.rect R) m (μ.turn.act m g) (fun a i => sideFactor μ.fV (1 / μ.L) a * μ.turn.act m q a i) ↔
      BoundaryHolds bc R m g q := by
  have key : ∀ a, a < 4 → ∀ i, i < m →
      ((sideData (·.2.1) bc' (μ.rect R) m a i * μ.turn.act m g a i +
        sideData (·.2.2) bc' (μ.rect R) m a i * (sideFactor μ.fV (1 / μ.L) a * μ.turn.act m q a i) = sideData (·.1) bc' (μ.rect R) m a i) ↔
      (sideData (·.2.1) bc R m (μ.turn.side a) (μ.turn.idx m a i) * g (μ.turn.side a) (μ.turn.idx m a i) +
        sideData (·.2.2) bc R m (μ.turn.side a) (μ.turn.idx m a i) * q (μ.turn.side a) (μ.turn.idx m a i) =
          sideData (·.1) bc R m (μ.turn.side a) (μ.turn.idx m a i))) := by
    intro a ha i hi
    have hm : (m : K) ≠ 0 := by exact_mod_cast (show m ≠ 0 by omega)
    obtain ⟨h1, h2⟩ := h a ha (sidePoint R m (μ.turn.side a) (μ.turn.idx m a i)).1 (sidePoint R m (μ.turn.side a) (μ.turn.idx m a i)).2
    have h3 := Move.sign_factor hL a
    unfold sideData
    rw [μ.sidePoint_rect R hm hi ha, h2]
    unfold Turn.act
    generalize bc (μ.turn.side a) (sidePoint R m (μ.turn.side a) (μ.turn.idx m a i)).1 (sidePoint R m (μ.turn.side a) (μ.turn.idx m a i)).2 = v
    generalize k a (sidePoint R m (μ.turn.side a) (μ.turn.idx m a i)).1 (sidePoint R m (μ.turn.side a) (μ.turn.idx m a i)).2 = k at *
    generalize g (μ.turn.side a) (μ.turn.idx m a i) = x
    generalize q (μ.turn.side a) (μ.turn.idx m a i) = y
    simp only
    constructor <;> intro e
    · refine mul_left_cancel₀ h1 ?_
      linear_combination e - k * v.2.2 * y * h3
    · linear_combination k * e + k * v.2.2 * y * h3
  constructor
  · intro hb a ha i hi
    have := (key _ (μ.turn.side_lt ha) _ (μ.turn.idx_lt hi)).mp (hb _ (μ.turn.side_lt ha) _ (μ.turn.idx_lt (a := a) hi))
    rwa [μ.turn.side_side ha, μ.turn.idx_idx ha hi] at this
  · intro hb a ha i hi
    exact (key a ha i hi).mpr (hb _ (μ.turn.side_lt ha) _ (μ.turn.idx_lt hi))

/-- A problem with any boundary conditions and the moved one. -/
structure MovedMixed (μ : Move K) (c : K) (w : K → K → K) (k : Nat → K → K → K) (s s' : FVSolver K) (f f' : K → K → K) (bc bc' : BoundaryFn K) : Prop where
  pos : 0 < μ.L
  cpos : 0 < c
  nonzero : ∀ x y, w x y ≠ 0
  equation : SameEquation μ c w s s'
  load : ∀ x y, f' (μ.pt x y).1 (μ.pt x y).2 = w x y * f x y
  boundary : SameConditions μ k bc bc'

theorem MovedMixed.moved {μ : Move K} {c : K} {w : K → K → K} {k : Nat → K → K → K} {s s' : FVSolver K} {f f' : K → K → K} {bc bc' : BoundaryFn K}
    (hp : MovedMixed μ c w k s s' f f' bc bc') : MovedProblem μ c w s s' f f' (fun _ _ _ => 0) (fun _ _ _ => 0) :=
  ⟨hp.pos, hp.cpos, hp.nonzero, hp.equation, hp.load, fun _ _ _ _ => rfl⟩

/-- The moved conditions leave only zero if the conditions do. -/
theorem MovedMixed.rigid {μ : Move K} {c : K} {w : K → K → K} {k : Nat → K → K → K} {s s' : FVSolver K} {f f' : K → K → K} {bc bc' : BoundaryFn K}
    (hp : MovedMixed μ c w k s s' f f' bc bc') (hN : 3 ≤ N) {t : Tree (Patch K)} {R : Rect K} (h : BoundaryRigid s N t.cuts R bc) :
    BoundaryRigid s' N (t.turn μ.turn).cuts (μ.rect R) bc' := by
  intro M hM m g q hC hB a ha i hi
  have hL := hp.pos.ne'
  have hN0 : (N : K) ≠ 0 := by exact_mod_cast (show N ≠ 0 by omega)
  have hleaf : LeafTurn s' s (fun _ _ => 0) (fun _ _ => 0) N μ.inv.turn μ.inv.fV (1 / μ.inv.L) μ.inv.rect :=
    leafTurn_of hN0 (by rw [μ.inv_L]; exact one_div_ne_zero hL) (one_div_ne_zero hp.cpos.ne')
      (hp.equation.inv hL hp.cpos.ne' hp.nonzero) (fun _ _ => (mul_zero _).symm)
  obtain ⟨hT, _⟩ := hC.turn μ.inv.turn μ.inv.rect μ.inv.rect_quarter hleaf hN
  rw [μ.inv_turn, μ.inv_rect hL] at hT
  have := h _ (Pieces.turn_alike μ.turn N _ _ hM) m _ _ hT ((hp.boundary.zero.holds hL).mp ?_)
    _ (μ.turn.side_lt ha) _ (μ.turn.idx_lt (a := a) hi)
  · unfold Turn.act at this
    rwa [μ.turn.side_side ha, μ.turn.idx_idx ha hi] at this
  · intro b hb j hj
    have e := hB b hb j hj
    rw [μ.turn.act_act g hb hj]
    have e2 : sideFactor μ.fV (1 / μ.L) b * μ.turn.act m (fun a i => sideFactor μ.inv.fV (1 / μ.inv.L) a * μ.turn.act m q a i) b j = q b j := by
      have : sideFactor μ.fV (1 / μ.L) b * sideFactor μ.inv.fV (1 / μ.inv.L) (μ.turn.side b) = 1 := by
        obtain ⟨τ, L, x, y⟩ := μ
        simp only at hL
        cases τ <;> interval_cases b <;> simp [Move.fV, sideFactor, Move.inv, Turn.side, hL]
      have e3 := μ.turn.act_act q hb hj
      unfold Turn.act at e3 ⊢
      linear_combination this * q (μ.turn.side (μ.turn.side b)) (μ.turn.idx m (μ.turn.side b) (μ.turn.idx m b j)) + e3
    beta_reduce
    rw [e2]
    exact e

/-- The run of a moved problem leaves the moved cell values, for any boundary conditions. -/
theorem MovedMixed.run {μ : Move K} {c : K} {w : K → K → K} {k : Nat → K → K → K} {s s' : FVSolver K} {f f' : K → K → K} {bc bc' : BoundaryFn K}
    (hp : MovedMixed μ c w k s s' f f' bc bc') (lap lap' : Lapack K) (lu lu' : PetscLU K) (hN : 3 ≤ N) {opt opt' : HPSOptions}
    (hc : opt.cacheOperators = false) (ho : opt.homogeneousRhs = false) (hc' : opt'.cacheOperators = false) (ho' : opt'.homogeneousRhs = false)
    {t t' : Tree (Patch K)} {R : Rect K} (ht : Init N t R) (ht' : Init N t' (μ.rect R)) (hsh : t'.shape = (t.turn μ.turn).shape) (hR : Proper R)
    (hE : EllipticOn s R) {t1 t3 t1' t3' : Tree (Patch K)} {c1 c1' : Option (Mat K)}
    (h1 : buildStage lap (s.toPatchSolver lu) opt t none = .ok (t1, c1))
    (h2 : (Request.functions f bc).run lap (s.toPatchSolver lu) opt t1 = .ok t3)
    (h1' : buildStage lap' (s'.toPatchSolver lu') opt' t' none = .ok (t1', c1'))
    (h2' : (Request.functions f' bc').run lap' (s'.toPatchSolver lu') opt' t1' = .ok t3')
    (hX : Branches (fun p => NonsingularMat p.X) t1) (hb : BoundaryRigid s N t.cuts R bc) :
    ((treeCells N t3).turn μ.turn N).Same N (treeCells N t3') := by
  have hX' := hp.moved.nonsingular lap lap' lu lu' hN hc hc' ht ht' hsh hR hE h1 h1' hX
  have hN0 : (N : K) ≠ 0 := by exact_mod_cast (show N ≠ 0 by omega)
  have ecut : t'.cuts = (t.turn μ.turn).cuts := by rw [← t'.cuts_shape, hsh, Tree.cuts_shape]
  obtain ⟨⟨m, g, q, _, hC, hB⟩, _⟩ := C100_mixed_partial lap lu (by omega) hc ho ht (Or.inl hN) hR hE f bc h1 h2 hX hb
  obtain ⟨_, hO⟩ := C100_mixed_partial lap' lu' (by omega) hc' ho' ht' (Or.inl hN) (Move.proper hp.pos hR)
    (hp.equation.elliptic hp.pos hp.cpos hp.nonzero hE) f' bc' h1' h2' hX' (by rw [ecut]; exact hp.rigid hN hb)
  obtain ⟨hT, hNm⟩ := hC.turn μ.turn μ.rect μ.rect_quarter (leafTurn_of hN0 hp.pos.ne' hp.cpos.ne' hp.equation hp.load) hN
  have hs3 : t3.shape = t.shape := by
    obtain ⟨_, _, _, _, _, _, _, hs, _⟩ := functions_composite lap lu (by omega) hc ho ht (Or.inl hN) hR hE f _ h1 h2 hX
    exact hs
  refine hO _ ?_ m _ _ hT ((hp.boundary.holds hp.pos.ne').mpr hB)
  rw [ecut]
  refine Pieces.turn_alike μ.turn N _ _ ?_
  rw [Tree.turn_turn, ← t.cuts_shape, ← hs3, t3.cuts_shape]
  exact treeCells_self t3

/-! ## C101 and C102 -/

/-- C101 for any boundary conditions, missing: that the interface systems are nonsingular on every adaptive mesh, and that the conditions fit
(see `C102_mixed_uniform` and `C102_mixed_damped`, which contain this case).
In other units the factor of the derivative is multiplied by the unit of length; each condition may be multiplied by a function. -/
theorem C101_mixed_partial (lap lap' : Lapack K) (lu lu' : PetscLU K) {s s' : FVSolver K} (hN : 3 ≤ N) {opt opt' : HPSOptions}
    (hc : opt.cacheOperators = false) (ho : opt.homogeneousRhs = false) (hc' : opt'.cacheOperators = false) (ho' : opt'.homogeneousRhs = false)
    {t t' : Tree (Patch K)} {R : Rect K} (ht : Init N t R)
    {L a b c : K} {w : K → K → K} {k : Nat → K → K → K} (hL : 0 < L) (hc0 : 0 < c) (hw : ∀ x y, w x y ≠ 0) (hk : ∀ e x y, k e x y ≠ 0)
    (ht' : Init N t' ⟨L * R.xl + a, L * R.xu + a, L * R.yl + b, L * R.yu + b⟩)
    (hsh : t'.shape = t.shape) (hR : Proper R) (hE : EllipticOn s R)
    (hβ : ∀ x y, s'.beta (L * x + a) (L * y + b) = c * s.beta x y) (hα : ∀ x y, s'.alpha (L * x + a) (L * y + b) = w x y * (L ^ 2 / c) * s.alpha x y)
    (hl : ∀ x y, s'.lambda (L * x + a) (L * y + b) = w x y * s.lambda x y) {f f' : K → K → K}
    (hf : ∀ x y, f' (L * x + a) (L * y + b) = w x y * f x y) {bc bc' : BoundaryFn K}
    (hr : ∀ e, e < 4 → ∀ x y, bc' e (L * x + a) (L * y + b) =
      (k e x y * (bc e x y).1, k e x y * (bc e x y).2.1, k e x y * (L * (bc e x y).2.2)))
    {t1 t3 t1' t3' : Tree (Patch K)} {c1 c1' : Option (Mat K)}
    (h1 : buildStage lap (s.toPatchSolver lu) opt t none = .ok (t1, c1))
    (h2 : (Request.functions f bc).run lap (s.toPatchSolver lu) opt t1 = .ok t3)
    (h1' : buildStage lap' (s'.toPatchSolver lu') opt' t' none = .ok (t1', c1'))
    (h2' : (Request.functions f' bc').run lap' (s'.toPatchSolver lu') opt' t1' = .ok t3')
    (hX : Branches (fun p => NonsingularMat p.X) t1) (hb : BoundaryRigid s N t.cuts R bc) : (treeCells N t3).Same N (treeCells N t3') := by
  have hp : MovedMixed ⟨.keep, L, a, b⟩ c w k s s' f f' bc bc' := by
    refine ⟨hL, hc0, hw, ⟨hβ, hα, hl⟩, hf, fun e he x y => ⟨hk e x y, ?_⟩⟩
    simpa [Move.pt, Move.sign, Turn.side] using hr e he x y
  have := hp.run lap lap' lu lu' hN hc ho hc' ho' ht ht' (by rw [hsh, Tree.turn_keep]) hR hE h1 h2 h1' h2' hX hb
  rwa [Pieces.turn_keep] at this

/-- C102 for any boundary conditions, missing: that the interface systems are nonsingular on every adaptive mesh, and that the conditions fit
(see `C102_mixed_uniform` and `C102_mixed_damped`).
The derivative in the conditions is the one in coordinate direction, so its factor changes its sign on the West and the East side when
these are exchanged (see `C102_normal_wrong`). -/
theorem C102_mixed_partial {μ : Move K} {c : K} {w : K → K → K} {k : Nat → K → K → K} {s s' : FVSolver K} {f f' : K → K → K} {bc bc' : BoundaryFn K}
    (hp : MovedMixed μ c w k s s' f f' bc bc') (lap lap' : Lapack K) (lu lu' : PetscLU K) (hN : 3 ≤ N) {opt opt' : HPSOptions}
    (hc : opt.cacheOperators = false) (ho : opt.homogeneousRhs = false) (hc' : opt'.cacheOperators = false) (ho' : opt'.homogeneousRhs = false)
    {t t' : Tree (Patch K)} {R : Rect K} (ht : Init N t R) (ht' : Init N t' (μ.rect R)) (hsh : t'.shape = (t.turn μ.turn).shape) (hR : Proper R)
    (hE : EllipticOn s R) {t1 t3 t1' t3' : Tree (Patch K)} {c1 c1' : Option (Mat K)}
    (h1 : buildStage lap (s.toPatchSolver lu) opt t none = .ok (t1, c1))
    (h2 : (Request.functions f bc).run lap (s.toPatchSolver lu) opt t1 = .ok t3)
    (h1' : buildStage lap' (s'.toPatchSolver lu') opt' t' none = .ok (t1', c1'))
    (h2' : (Request.functions f' bc').run lap' (s'.toPatchSolver lu') opt' t1' = .ok t3')
    (hX : Branches (fun p => NonsingularMat p.X) t1) (hb : BoundaryRigid s N t.cuts R bc) :
    ((treeCells N t3).turn μ.turn N).Same N (treeCells N t3') :=
  hp.run lap lap' lu lu' hN hc ho hc' ho' ht ht' hsh hR hE h1 h2 h1' h2' hX hb

/-- C101 and C102 on uniform meshes for well-posed conditions. -/
theorem C102_mixed_uniform {μ : Move K} {c : K} {w : K → K → K} {k : Nat → K → K → K} {s s' : FVSolver K} {f f' : K → K → K} {bc bc' : BoundaryFn K}
    (hp : MovedMixed μ c w k s s' f f' bc bc') (lap lap' : Lapack K) (lu lu' : PetscLU K) (hN : 3 ≤ N) {opt opt' : HPSOptions}
    (hc : opt.cacheOperators = false) (ho : opt.homogeneousRhs = false) (hc' : opt'.cacheOperators = false) (ho' : opt'.homogeneousRhs = false)
    {t t' : Tree (Patch K)} {R : Rect K} (ht : Init N t R) {d : Nat} (hu : Uniform d t) (ht' : Init N t' (μ.rect R))
    (hsh : t'.shape = (t.turn μ.turn).shape) (hR : Proper R) (hE : EllipticOn s R)
    (hw : WellPosed s R (N * 2 ^ d) (sideData (·.2.1) bc R (N * 2 ^ d)) (flipWS (sideData (·.2.2) bc R (N * 2 ^ d))))
    {t1 t3 t1' t3' : Tree (Patch K)} {c1 c1' : Option (Mat K)}
    (h1 : buildStage lap (s.toPatchSolver lu) opt t none = .ok (t1, c1))
    (h2 : (Request.functions f bc).run lap (s.toPatchSolver lu) opt t1 = .ok t3)
    (h1' : buildStage lap' (s'.toPatchSolver lu') opt' t' none = .ok (t1', c1'))
    (h2' : (Request.functions f' bc').run lap' (s'.toPatchSolver lu') opt' t1' = .ok t3') :
    ((treeCells N t3).turn μ.turn N).Same N (treeCells N t3') :=
  hp.run lap lap' lu lu' hN hc ho hc' ho' ht ht' hsh hR hE h1 h2 h1' h2' (C19_nonsingular lap lu (by omega) hc ho ht hu hR hE h1).1
    (boundaryRigid_uniform lap lu (by omega) hc ho ht hu hR hE h1 (hw.unique hR hE))

/-- C101 and C102 on adaptive meshes for proper conditions, if the reaction term dominates. -/
theorem C102_mixed_damped {μ : Move K} {c : K} {w : K → K → K} {k : Nat → K → K → K} {s s' : FVSolver K} {f f' : K → K → K} {bc bc' : BoundaryFn K}
    (hp : MovedMixed μ c w k s s' f f' bc bc') (lap lap' : Lapack K) (lu lu' : PetscLU K) (hN : 3 ≤ N) {opt opt' : HPSOptions}
    (hc : opt.cacheOperators = false) (ho : opt.homogeneousRhs = false) (hc' : opt'.cacheOperators = false) (ho' : opt'.homogeneousRhs = false)
    {t t' : Tree (Patch K)} {R : Rect K} (ht : Init N t R) (hd : Dominated N s R t) (ht' : Init N t' (μ.rect R))
    (hsh : t'.shape = (t.turn μ.turn).shape) (hR : Proper R) (hE : EllipticOn s R) (hbc : BoundaryProper bc)
    {t1 t3 t1' t3' : Tree (Patch K)} {c1 c1' : Option (Mat K)}
    (h1 : buildStage lap (s.toPatchSolver lu) opt t none = .ok (t1, c1))
    (h2 : (Request.functions f bc).run lap (s.toPatchSolver lu) opt t1 = .ok t3)
    (h1' : buildStage lap' (s'.toPatchSolver lu') opt' t' none = .ok (t1', c1'))
    (h2' : (Request.functions f' bc').run lap' (s'.toPatchSolver lu') opt' t1' = .ok t3') :
    ((treeCells N t3).turn μ.turn N).Same N (treeCells N t3') :=
  hp.run lap lap' lu lu' hN hc ho hc' ho' ht ht' hsh hR hE h1 h2 h1' h2' (C86_nonsingular lap lu hN hc ht hR hE hd h1)
    (boundaryRigid_damped lap lu hN hc ht hR hE hd hbc h1)

/-- Neumann data `ν` on the East side, Dirichlet data on the others. -/
def eastNeumann (ν : K → K) (r : Nat → K → K → K) : BoundaryFn K :=
  fun side x y => if side = 1 then (ν y, 0, 1) else (r side x y, 1, 0)

/-- C102 is false for derivatives along the outward normal, as the conditions are documented.  One patch, any elliptic problem, Neumann data
on the East side that are not zero at some boundary cell: the run of the mirror image, with the data on the West side, does not leave the
mirrored cell values. -/
theorem C102_normal_wrong (lap lap' : Lapack K) (lu lu' : PetscLU K) {s s' : FVSolver K} (hN : 2 ≤ N) {opt opt' : HPSOptions}
    (hc : opt.cacheOperators = false) (ho : opt.homogeneousRhs = false) (hc' : opt'.cacheOperators = false) (ho' : opt'.homogeneousRhs = false)
    {p p' : Patch K} {R : Rect K} {a : K} (ht : Init N (.leaf p) R) (ht' : Init N (.leaf p') ⟨a - R.xu, a - R.xl, R.yl, R.yu⟩)
    (hR : Proper R) (hE : EllipticOn s R)
    (hβ : ∀ x y, s'.beta (a - x) y = s.beta x y) (hα : ∀ x y, s'.alpha (a - x) y = s.alpha x y)
    (hl : ∀ x y, s'.lambda (a - x) y = s.lambda x y) {f f' : K → K → K} (hf : ∀ x y, f' (a - x) y = f x y) {ν : K → K} {r r' : Nat → K → K → K}
    (hr0 : ∀ x y, r' 1 (a - x) y = r 0 x y) (hr2 : ∀ x y, r' 2 (a - x) y = r 2 x y) (hr3 : ∀ x y, r' 3 (a - x) y = r 3 x y)
    {j : Nat} (hj : j < N) (hν : ν (cy R N j) ≠ 0)
    {t1 t3 t1' t3' : Tree (Patch K)} {c1 c1' : Option (Mat K)}
    (h1 : buildStage lap (s.toPatchSolver lu) opt (.leaf p) none = .ok (t1, c1))
    (h2 : (Request.functions f (eastNeumann ν r)).run lap (s.toPatchSolver lu) opt t1 = .ok t3)
    (h1' : buildStage lap' (s'.toPatchSolver lu') opt' (.leaf p') none = .ok (t1', c1'))
    (h2' : (Request.functions f' (westNeumann ν r')).run lap' (s'.toPatchSolver lu') opt' t1' = .ok t3') :
    ¬ ((treeCells N t3).turn .flip N).Same N (treeCells N t3') := by
  intro hS
  have hN0 : (N : K) ≠ 0 := by exact_mod_cast (show N ≠ 0 by omega)
  have hp : MovedProblem (⟨.flip, 1, a, 0⟩ : Move K) 1 (fun _ _ => 1) s s' f f' (fun _ _ _ => 0) (fun _ _ _ => 0) := by
    refine ⟨one_pos, one_pos, fun _ _ => one_ne_zero, ⟨?_, ?_, ?_⟩, ?_, fun _ _ _ _ => rfl⟩ <;> simp only [Move.pt, one_mul, add_zero]
    · exact hβ
    · simpa using hα
    · exact hl
    · exact hf
  have er : (⟨.flip, 1, a, 0⟩ : Move K).rect R = ⟨a - R.xu, a - R.xl, R.yl, R.yu⟩ := by simp [Move.rect]
  have hR' := Move.proper (μ := ⟨.flip, 1, a, 0⟩) hp.pos hR
  have hE' := hp.equation.elliptic hp.pos hp.cpos hp.nonzero hE
  rw [← er] at ht'
  have hw : WellPosed s R (N * 2 ^ 0) (sideData (·.2.1) (eastNeumann ν r) R (N * 2 ^ 0)) (sideData (·.2.2) (eastNeumann ν r) R (N * 2 ^ 0)) := by
    refine ⟨fun q _ j _ => ?_, Or.inl ⟨0, by omega, j, by simpa using hj, ?_⟩⟩
    · unfold sideData eastNeumann
      split_ifs <;> simp
    · simp [sideData, eastNeumann]
  obtain ⟨g, g1, g2⟩ := C67_boundary_conditions_partial lap lu hN hc ho ht (.leaf p) hR hE f (eastNeumann ν r)
    (by rintro side x y (rfl | rfl) <;> simp [eastNeumann]) hw h1 h2
  have hcy : cy ((⟨.flip, 1, a, 0⟩ : Move K).rect R) N j = cy R N j := by simp [cy, hy, Move.rect]
  obtain ⟨_, hno⟩ := C67_west_neumann_wrong lap' lu' hN hc' ho' ht' (.leaf p') hR' hE' f' ν r' (k := j) (by simpa using hj)
    (by rw [pow_zero, mul_one, hcy]; exact hν) h1' h2'
  apply hno
  have e3 := (functions_composite lap lu hN hc ho ht (Or.inr ⟨0, .leaf p⟩) hR hE f _ h1 h2
    (C19_nonsingular lap lu hN hc ho ht (.leaf p) hR hE h1).1)
  have e3' := (functions_composite lap' lu' hN hc' ho' ht' (Or.inr ⟨0, .leaf p'⟩) hR' hE' f' _ h1' h2'
    (C19_nonsingular lap' lu' hN hc' ho' ht' (.leaf p') hR' hE' h1').1)
  obtain ⟨_, _, _, _, _, _, _, e3, _⟩ := e3
  obtain ⟨_, _, _, _, _, _, _, e3', _⟩ := e3'
  cases t3 with
  | node => cases e3
  | leaf p3 =>
  cases t3' with
  | node => cases e3'
  | leaf p3' =>
  rw [pow_zero, mul_one] at g1 g2 ⊢
  have hS' : ∀ i, i < N → ∀ j, j < N → p3.u.data.getD (j + (N - 1 - i) * N) 0 = p3'.u.data.getD (j + i * N) 0 := hS
  obtain ⟨k1, _⟩ := leafTurn_of hN0 (one_ne_zero : (⟨.flip, 1, a, 0⟩ : Move K).L ≠ 0) one_ne_zero hp.equation hp.load R (fun a i => g.side a i) _ g1
  have hhx : hx ((⟨.flip, 1, a, 0⟩ : Move K).rect R) N = hx R N := by
    rw [Move.rect_hx]
    exact one_mul _
  refine ⟨ofB (Turn.flip.act N fun a i => g.side a i), k1.congr (fun _ _ => rfl) (fun _ _ => rfl) (fun _ _ => rfl) (fun _ _ => rfl)
    (fun _ _ _ _ => rfl) (fun i hi j hj => hS' i hi j hj), fun q hq i hi => ?_⟩
  have hpt := Move.sidePoint_rect (⟨.flip, 1, a, 0⟩ : Move K) R hN0 hi hq
  have hg := g2 (Turn.flip.side q) (Turn.flip.side_lt hq) (Turn.flip.idx N q i) (Turn.flip.idx_lt hi)
  unfold sideData at hg ⊢
  rw [hpt]
  rw [side_ofB _ hq]
  generalize hP : sidePoint R N (Turn.flip.side q) (Turn.flip.idx N q i) = P at *
  simp only [Move.pt, one_mul, add_zero]
  interval_cases q
  · simp only [Turn.side, Turn.idx, westNeumann, eastNeumann, Turn.act, normalDeriv, ofB, gridFn, Bdry.side] at hg ⊢
    simp only [if_true] at hg ⊢
    rw [hhx, ← hS' 0 (by omega) i hi]
    simpa using hg
  · simpa [Turn.side, Turn.idx, westNeumann, eastNeumann, Turn.act, hr0] using hg
  · simpa [Turn.side, Turn.idx, westNeumann, eastNeumann, Turn.act, hr2] using hg
  · simpa [Turn.side, Turn.idx, westNeumann, eastNeumann, Turn.act, hr3] using hg

/-- Conditions of all kinds: Robin in the West, Neumann in the East, values in the South, Robin in the North.  The derivatives are those in
coordinate direction, so the factor is negative in the West. -/
def exRobin : BoundaryFn ℚ := fun side x y =>
  if side = 0 then (x + y, 1, -2) else if side = 1 then (y * y, 0, 1) else if side = 2 then (x, 1, 0) else (x * y, 3, 1)

theorem exRobin_proper : BoundaryProper exRobin := by
  intro a ha x y
  interval_cases a <;> norm_num [exRobin]

/-- Those of the mirror image on the square with corners `(4, 0)` and `(6, 2)`, where one condition is multiplied by five. -/
def exRobin' : BoundaryFn ℚ := fun side x y =>
  if side = 0 then ((y / 2) * (y / 2), 0, -2) else if side = 1 then (5 * ((6 - x) / 2 + y / 2), 5, 20) else
    if side = 2 then ((6 - x) / 2, 1, 0) else ((6 - x) / 2 * (y / 2), 3, 2)

theorem exRobin_same : SameConditions (⟨.flip, 2, 6, 0⟩ : Move ℚ) (fun a _ _ => if a = 1 then 5 else 1) exRobin exRobin' := by
  intro a ha x y
  refine ⟨?_, ?_⟩
  · show (if a = 1 then (5 : ℚ) else 1) ≠ 0
    split_ifs <;> norm_num
  · have h0 : Turn.side .flip 0 = 1 := rfl
    have h1 : Turn.side .flip 1 = 0 := rfl
    have h2 : Turn.side .flip 2 = 2 := rfl
    have h3 : Turn.side .flip 3 = 3 := rfl
    interval_cases a
    all_goals first | rw [h0] | rw [h1] | rw [h2] | rw [h3]
    all_goals simp [exRobin, exRobin', Move.pt, Move.sign]
    all_goals norm_num
    all_goals ring_nf

/-- The hypotheses of `C100_mixed_damped` and `C102_mixed_damped` hold on a mesh with leaves on three levels: mirrored and twice as large. -/
example (lap lap' : Lapack ℚ) (lu lu' : PetscLU ℚ) :
    let s' : FVSolver ℚ := ⟨fun _ _ => 4 * 2, fun x _ => 1 + (6 - x) / 2, fun _ y => -600000 - (y / 2) * (y / 2)⟩
    ∃ t1 c1 t3 t1' c1' t3', buildStage lap (exThreePde.toPatchSolver lu) ⟨false, false⟩ (freshTree 4 exThree unitSquare) none = .ok (t1, c1) ∧
      (Request.functions (fun x y => x + y) exRobin).run lap (exThreePde.toPatchSolver lu) ⟨false, false⟩ t1 = .ok t3 ∧
      buildStage lap' (s'.toPatchSolver lu') ⟨false, false⟩ (freshTree 4 (exThree.turn .flip) ⟨4, 6, 0, 2⟩) none = .ok (t1', c1') ∧
      (Request.functions (fun x y => (6 - x) / 2 + y / 2) exRobin').run lap' (s'.toPatchSolver lu') ⟨false, false⟩ t1' = .ok t3' ∧
      (∃ m g q, Composite exThreePde (fun x y => x + y) 4 (treeCells 4 t3) unitSquare m g q ∧ BoundaryHolds exRobin unitSquare m g q) ∧
      ((treeCells 4 t3).turn .flip 4).Same 4 (treeCells 4 t3') := by
  intro s'
  have hi := freshTree_init (K := ℚ) 4 exThree unitSquare
  have hi' := freshTree_init (K := ℚ) 4 (exThree.turn .flip) ⟨4, 6, 0, 2⟩
  obtain ⟨t1, c1, t3, e1, e2, _⟩ := C20_stages_succeed_functions lap (by omega) (FVSolver.shapes lu exThreePde (n := 4) (by omega))
    (opt := ⟨false, false⟩) rfl hi (Or.inl (by omega)) (fun x y => x + y) exRobin
  obtain ⟨t1', c1', t3', e1', e2', _⟩ := C20_stages_succeed_functions lap' (by omega) (FVSolver.shapes lu' s' (n := 4) (by omega))
    (opt := ⟨false, false⟩) rfl hi' (Or.inl (by omega)) (fun x y => (6 - x) / 2 + y / 2) exRobin'
  have hp : MovedMixed (⟨.flip, 2, 6, 0⟩ : Move ℚ) 1 (fun _ _ => 1) (fun a _ _ => if a = 1 then 5 else 1) exThreePde s' (fun x y => x + y)
      (fun x y => (6 - x) / 2 + y / 2) exRobin exRobin' := by
    refine ⟨by norm_num, by norm_num, fun _ _ => by norm_num, ⟨?_, ?_, ?_⟩, ?_, exRobin_same⟩
    · intro x y; simp only [s', Move.pt, exThreePde]; ring
    · intro x y; simp only [s', exThreePde]; norm_num
    · intro x y; simp only [s', Move.pt, exThreePde]; ring
    · intro x y; simp only [Move.pt]; ring
  have hsh : (freshTree (K := ℚ) 4 (exThree.turn .flip) ⟨4, 6, 0, 2⟩).shape = ((freshTree (K := ℚ) 4 exThree unitSquare).turn .flip).shape := by
    rw [Tree.turn_shape]
    rfl
  have hq : (⟨.flip, 2, 6, 0⟩ : Move ℚ).rect unitSquare = ⟨4, 6, 0, 2⟩ := by norm_num [Move.rect, unitSquare]
  obtain ⟨⟨m, g, q, _, h1, h2⟩, _⟩ := C100_mixed_damped lap lu (by omega) rfl rfl hi exPde_elliptic_unit.1 exThree_elliptic exThree_dominated _
    exRobin_proper e1 e2
  exact ⟨t1, c1, t3, t1', c1', t3', e1, e2, e1', e2', ⟨m, g, q, h1, h2⟩, C102_mixed_damped hp lap lap' lu lu' (by omega) rfl rfl rfl rfl hi
    exThree_dominated (hq ▸ hi') hsh exPde_elliptic_unit.1 exThree_elliptic exRobin_proper e1 e2 e1' e2'⟩

/-- Well-posed mixed conditions in the sense of the code: Robin conditions in the West and the East, Neumann data in the South, values in the North. -/
def exSides : BoundaryFn ℚ := fun side x y =>
  if side = 0 then (x + y, 1, -2) else if side = 1 then (y * y, 2, 1) else if side = 2 then (x, 0, -1) else (x * y, 1, 0)

/-- The hypotheses of `C100_mixed_uniform`, `C101_mixed_partial` and `C102_mixed_uniform` hold on a mesh refined twice, for units half as large. -/
example (lap lap' : Lapack ℚ) (lu lu' : PetscLU ℚ) :
    let s' : FVSolver ℚ := ⟨fun _ _ => 4, fun x _ => 1 + (x - 1) / 2, fun _ _ => -1⟩
    let bc' : BoundaryFn ℚ := fun e x y => ((exSides e ((x - 1) / 2) (y / 2)).1, (exSides e ((x - 1) / 2) (y / 2)).2.1, 2 * (exSides e ((x - 1) / 2) (y / 2)).2.2)
    ∃ t1 c1 t3 t1' c1' t3', buildStage lap (exPde.toPatchSolver lu) ⟨false, false⟩ (freshTree 3 exUniform unitSquare) none = .ok (t1, c1) ∧
      (Request.functions (fun x y => x + y) exSides).run lap (exPde.toPatchSolver lu) ⟨false, false⟩ t1 = .ok t3 ∧
      buildStage lap' (s'.toPatchSolver lu') ⟨false, false⟩ (freshTree 3 exUniform ⟨1, 3, 0, 2⟩) none = .ok (t1', c1') ∧
      (Request.functions (fun x y => (x - 1) / 2 + y / 2) bc').run lap' (s'.toPatchSolver lu') ⟨false, false⟩ t1' = .ok t3' ∧
      (∃ m g q, Composite exPde (fun x y => x + y) 3 (treeCells 3 t3) unitSquare m g q ∧ BoundaryHolds exSides unitSquare m g q) ∧
      (treeCells 3 t3).Same 3 (treeCells 3 t3') ∧ ((treeCells 3 t3).turn .keep 3).Same 3 (treeCells 3 t3') := by
  intro s' bc'
  have hi := freshTree_init (K := ℚ) 3 exUniform unitSquare
  have hi' := freshTree_init (K := ℚ) 3 exUniform ⟨1, 3, 0, 2⟩
  obtain ⟨t1, c1, t3, e1, e2, _⟩ := C20_stages_succeed_functions lap (by omega) (FVSolver.shapes lu exPde (n := 3) (by omega))
    (opt := ⟨false, false⟩) rfl hi (Or.inl (by omega)) (fun x y => x + y) exSides
  obtain ⟨t1', c1', t3', e1', e2', _⟩ := C20_stages_succeed_functions lap' (by omega) (FVSolver.shapes lu' s' (n := 3) (by omega))
    (opt := ⟨false, false⟩) rfl hi' (Or.inl (by omega)) (fun x y => (x - 1) / 2 + y / 2) bc'
  have hu := exUniform_uniform 3
  have hw : WellPosed exPde unitSquare (3 * 2 ^ 2) (sideData (·.2.1) exSides unitSquare (3 * 2 ^ 2))
      (flipWS (sideData (·.2.2) exSides unitSquare (3 * 2 ^ 2))) := by
    refine ⟨?_, Or.inl ⟨3, by omega, 0, by omega, ?_⟩⟩
    · intro q hq k _
      unfold flipWS sideData exSides
      interval_cases q <;> norm_num
    · norm_num [sideData, exSides, flipWS]
  have hβ : ∀ x y : ℚ, s'.beta (2 * x + 1) (2 * y + 0) = 1 * exPde.beta x y := by
    intro x y; simp only [s', exPde]; ring
  have hα : ∀ x y : ℚ, s'.alpha (2 * x + 1) (2 * y + 0) = 1 * (2 ^ 2 / 1) * exPde.alpha x y := by
    intro x y; simp only [s', exPde]; norm_num
  have hl : ∀ x y : ℚ, s'.lambda (2 * x + 1) (2 * y + 0) = 1 * exPde.lambda x y := by
    intro x y; simp only [s', exPde]; norm_num
  have hf : ∀ x y : ℚ, (2 * x + 1 - 1) / 2 + (2 * y + 0) / 2 = 1 * (x + y) := by
    intro x y; ring
  have hr : ∀ e, e < 4 → ∀ x y : ℚ, bc' e (2 * x + 1) (2 * y + 0) =
      (1 * (exSides e x y).1, 1 * (exSides e x y).2.1, 1 * (2 * (exSides e x y).2.2)) := by
    intro e _ x y
    have hx : (2 * x + 1 - 1) / 2 = x := by ring
    have hy : (2 * y + 0) / 2 = y := by ring
    simp only [bc', hx, hy, one_mul]
  have hq : (⟨2 * unitSquare.xl + 1, 2 * unitSquare.xu + 1, 2 * unitSquare.yl + 0, 2 * unitSquare.yu + 0⟩ : Rect ℚ) = ⟨1, 3, 0, 2⟩ := by
    norm_num [unitSquare]
  have hsh : (freshTree (K := ℚ) 3 exUniform ⟨1, 3, 0, 2⟩).shape = (freshTree (K := ℚ) 3 exUniform unitSquare).shape := rfl
  have hp : MovedMixed (⟨.keep, 2, 1, 0⟩ : Move ℚ) 1 (fun _ _ => 1) (fun _ _ _ => 1) exPde s' (fun x y => x + y)
      (fun x y => (x - 1) / 2 + y / 2) exSides bc' := by
    refine ⟨by norm_num, by norm_num, fun _ _ => by norm_num, ⟨hβ, hα, hl⟩, hf, fun e he x y => ⟨by norm_num, ?_⟩⟩
    simpa [Move.pt, Move.sign, Turn.side] using hr e he x y
  have hX := (C19_nonsingular lap lu (by omega) rfl rfl hi hu exPde_elliptic_unit.1 exPde_elliptic_unit.2 e1).1
  have hb := boundaryRigid_uniform lap lu (by omega) rfl rfl hi hu exPde_elliptic_unit.1 exPde_elliptic_unit.2 e1
    (hw.unique exPde_elliptic_unit.1 exPde_elliptic_unit.2)
  obtain ⟨⟨m, g, q, _, h1, h2⟩, _⟩ := C100_mixed_uniform lap lu (by omega) rfl rfl hi hu exPde_elliptic_unit.1 exPde_elliptic_unit.2 _ _ hw e1 e2
  refine ⟨t1, c1, t3, t1', c1', t3', e1, e2, e1', e2', ⟨m, g, q, h1, h2⟩, ?_, ?_⟩
  · exact C101_mixed_partial (L := 2) (a := 1) (b := 0) (c := 1) (w := fun _ _ => 1) (k := fun _ _ _ => 1) lap lap' lu lu' (by omega) rfl rfl rfl rfl
      hi (by norm_num) (by norm_num) (fun _ _ => by norm_num) (fun _ _ _ => by norm_num) (by rw [hq]; exact hi') hsh exPde_elliptic_unit.1
      exPde_elliptic_unit.2 hβ hα hl hf hr e1 e2 e1' e2' hX hb
  · have hq' : (⟨.keep, 2, 1, 0⟩ : Move ℚ).rect unitSquare = ⟨1, 3, 0, 2⟩ := by norm_num [Move.rect, unitSquare]
    exact C102_mixed_uniform hp lap lap' lu lu' (by omega) rfl rfl rfl rfl hi hu (by rw [hq']; exact hi') (by rw [Tree.turn_keep]; exact hsh)
      exPde_elliptic_unit.1 exPde_elliptic_unit.2 hw e1 e2 e1' e2'

/-- The hypotheses of `C102_normal_wrong` hold for a problem with variable coefficients. -/
example (lap lap' : Lapack ℚ) (lu lu' : PetscLU ℚ) :
    let s' : FVSolver ℚ := ⟨fun _ _ => 1, fun x _ => 1 + (1 - x), fun _ _ => -1⟩
    ∃ t1 c1 t3 t1' c1' t3', buildStage lap (exPde.toPatchSolver lu) ⟨false, false⟩ (freshTree 3 (.leaf ()) unitSquare) none = .ok (t1, c1) ∧
      (Request.functions (fun x _ => x) (eastNeumann (fun y => 1 + y) (fun _ x y => x * y))).run lap (exPde.toPatchSolver lu) ⟨false, false⟩ t1 = .ok t3 ∧
      buildStage lap' (s'.toPatchSolver lu') ⟨false, false⟩ (freshTree 3 (.leaf ()) unitSquare) none = .ok (t1', c1') ∧
      (Request.functions (fun x _ => 1 - x) (westNeumann (fun y => 1 + y) (fun _ x y => (1 - x) * y))).run lap' (s'.toPatchSolver lu') ⟨false, false⟩
        t1' = .ok t3' ∧
      ¬ ((treeCells 3 t3).turn .flip 3).Same 3 (treeCells 3 t3') := by
  intro s'
  have hi := freshTree_init (K := ℚ) 3 (.leaf ()) unitSquare
  obtain ⟨t1, c1, t3, e1, e2, _⟩ := C20_stages_succeed_functions lap (by omega) (FVSolver.shapes lu exPde (n := 3) (by omega))
    (opt := ⟨false, false⟩) rfl hi (Or.inl (by omega)) (fun x _ => x) (eastNeumann (fun y => 1 + y) (fun _ x y => x * y))
  obtain ⟨t1', c1', t3', e1', e2', _⟩ := C20_stages_succeed_functions lap' (by omega) (FVSolver.shapes lu' s' (n := 3) (by omega))
    (opt := ⟨false, false⟩) rfl hi (Or.inl (by omega)) (fun x _ => 1 - x) (westNeumann (fun y => 1 + y) (fun _ x y => (1 - x) * y))
  have hq : (⟨1 - unitSquare.xu, 1 - unitSquare.xl, unitSquare.yl, unitSquare.yu⟩ : Rect ℚ) = unitSquare := by norm_num [unitSquare]
  refine ⟨t1, c1, t3, t1', c1', t3', e1, e2, e1', e2', C102_normal_wrong (a := 1) lap lap' lu lu' (by omega) rfl rfl rfl rfl hi (by rw [hq]; exact hi)
    exPde_elliptic_unit.1 exPde_elliptic_unit.2 ?_ ?_ ?_ ?_ ?_ ?_ ?_ (j := 0) (by omega) ?_ e1 e2 e1' e2'⟩
  · intro x y; simp only [s', exPde]; ring
  · intro x y; rfl
  · intro x y; rfl
  · intro x y; ring
  · intro x y; ring
  · intro x y; ring
  · intro x y; ring
  · norm_num [cy, hy, unitSquare]

end EF
