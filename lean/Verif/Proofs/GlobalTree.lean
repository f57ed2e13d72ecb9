import Verif.Proofs.GlobalFV
import Verif.Spec.Global

/-!
# Uniformly refined trees and the global finite volume problem
-/

namespace EF
namespace HPS

open Finset FV

variable {K : Type} [Field K] {N : Nat}

/-- Flat boundary data of a leaf as four sides. -/
theorem flat_ofB {n : Nat} (hn : 0 < n) (b : Nat → Nat → K) :
    (∀ j, j < n → (Bdry.ofFn n (fun k => b (k / n) (k % n))).W j = (ofB b).W j) ∧
    (∀ j, j < n → (Bdry.ofFn n (fun k => b (k / n) (k % n))).E j = (ofB b).E j) ∧
    (∀ j, j < n → (Bdry.ofFn n (fun k => b (k / n) (k % n))).S j = (ofB b).S j) ∧
    (∀ j, j < n → (Bdry.ofFn n (fun k => b (k / n) (k % n))).N j = (ofB b).N j) := by
  refine ⟨?_, ?_, ?_, ?_⟩ <;> intro j hj <;> simp only [Bdry.ofFn, ofB]
  · rw [Nat.div_eq_of_lt hj, Nat.mod_eq_of_lt hj]
  · have h1 : (n + j) / n = 1 := by rw [Nat.add_div_left _ hn, Nat.div_eq_of_lt hj]
    have h2 : (n + j) % n = j := by rw [Nat.add_mod_left, Nat.mod_eq_of_lt hj]
    rw [h1, h2]
  · rw [Mat.idx_div hj, Mat.idx_mod hj]
  · rw [Mat.idx_div hj, Mat.idx_mod hj]

/-- Operator and flux of a leaf. -/
theorem leaf_trueOp (lu : PetscLU K) (s : FVSolver K) (hN : 2 ≤ N) {grid : Grid K} (hx : grid.nx = N) (hy : grid.ny = N)
    (hq : Unique s (rect grid) N N) {T : Blk K} {h : Nat → Nat → K} {f : Vec K} (hL : LPs N (s.toPatchSolver lu) grid T)
    (hH : HPs N (s.toPatchSolver lu) grid f h) :
    TrueOp s (rect grid) N T h (fun i j => f.data.getD (j + i * N) 0) := by
  intro b U hU d hd i hi
  have hN0 : 0 < N := by omega
  obtain ⟨⟨f1, f2⟩, hH⟩ := hH
  have hφ : f = Vec.ofFn (N * N) _ := Vec.has_iff.mp (has_of_wf f1 f2)
  obtain ⟨a, η, t1, t2, t3⟩ := FVSolver.represent lu s hN hx hy hq (fun i => f.data.getD i 0)
  obtain ⟨cW, cE, cS, cN⟩ := flat_ofB hN0 b
  have hk : d * N + i < 4 * N := Mat.idx_lt hd hi
  have hU' : Solves s (rect grid) N N (Bdry.ofFn N (fun k => b (k / N) (k % N))) (fun i j => f.data.getD (j + i * N) 0) U :=
    hU.congr (fun j hj => (cW j hj).symm) (fun j hj => (cE j hj).symm) (fun j hj => (cS j hj).symm)
      (fun j hj => (cN j hj).symm) (fun _ _ _ _ => rfl) (fun _ _ _ _ => rfl)
  have key := t3 _ _ hU' (d * N + i) hk
  rw [Mat.idx_div hi, Mat.idx_mod hi] at key
  rw [← deriv_congr hN0 cW cE cS cN (fun _ _ _ _ => rfl) hi, key]
  have hη : η (d * N + i) = h d i := by
    have hH : s.particularNeumannData lu grid f = .ok (bv N 4 h) := hH
    rw [hφ, t2] at hH
    have := Vec.ofFn_inj (Res.ok_inj.mp hH) _ hk
    rw [Mat.idx_div hi, Mat.idx_mod hi] at this
    exact this
  have hL : s.buildD2N lu grid = .ok (bm N 4 4 T) := hL
  rw [t1] at hL
  have ha : ∀ j, j < 4 * N → a (d * N + i) j = T d (j / N) i (j % N) := by
    intro j hj
    have := Mat.ofFn_inj (Res.ok_inj.mp hL) _ hk _ hj
    rw [Mat.idx_div hi, Mat.idx_mod hi] at this
    exact this
  rw [hη]
  unfold opFlux app
  congr 1
  rw [sum_range_mul 4 N (fun j => a (d * N + i) j * b (j / N) (j % N))]
  refine Finset.sum_congr rfl fun q hq => Finset.sum_congr rfl fun j hj => ?_
  rw [mem_range] at hq hj
  rw [ha _ (Mat.idx_lt hq hj), Mat.idx_div hj, Mat.idx_mod hj]

/-- The operator of a leaf alone. -/
theorem leaf_trueOp0 (lu : PetscLU K) (s : FVSolver K) (hN : 2 ≤ N) {grid : Grid K} (hx : grid.nx = N) (hy : grid.ny = N)
    (hq : Unique s (rect grid) N N) {T : Blk K} (hL : LPs N (s.toPatchSolver lu) grid T) :
    TrueOp s (rect grid) N T (fun _ _ => 0) (fun _ _ => 0) := by
  obtain ⟨v, hv, η, hη⟩ := (FVSolver.shapes lu s hN).flux grid (Vec.ofFn (N * N) (fun _ => 0)) hx hy rfl (Vec.has_ofFn _ _).wf
  have h1 := leaf_trueOp lu s hN hx hy hq hL (f := Vec.ofFn (N * N) (fun _ => 0)) (h := toBv N η)
    ⟨⟨rfl, (Vec.has_ofFn _ _).wf⟩, by rw [hv, has_bv hη]⟩
  have hz : (fun i j => (Vec.ofFn (N * N) (fun _ => (0 : K))).data.getD (j + i * N) 0) = fun _ _ => 0 := by
    funext i j
    simp [Vec.ofFn, listFn, List.getD_eq_getElem?_getD]
  rw [hz] at h1
  have h0 := fun p hp i hi => h1 (fun _ _ => 0) (fun _ _ => 0) (solves_zero s _ N N) p hp i hi
  intro b U hU p hp i hi
  rw [h1 b U hU p hp i hi]
  have := h0 p hp i hi
  unfold opFlux at this ⊢
  congr 1
  have hd : deriv (rect grid) N N (ofB (fun _ _ => (0 : K))) (fun _ _ => 0) p i = 0 := by
    unfold deriv ofB; split <;> simp
  rw [hd] at this
  unfold app at this
  simpa using this.symm

/-- Cells along the side of the root of a uniform tree. -/
theorem res_uniform {d : Nat} {t : Tree (Patch K)} (h : Uniform d t) : res N t = N * 2 ^ d := by
  induction h with
  | leaf => simp [res]
  | node p h0 h1 h2 h3 i0 i1 i2 i3 =>
    rw [res, i0, i1, i2, i3]
    simp only [min_self]
    ring

theorem cells_uniform {P : Type} {d : Nat} {t : Tree P} (h : Uniform d t) : cells N t = N * 2 ^ d := by
  induction h with
  | leaf => simp [cells]
  | node p h0 h1 h2 h3 i0 i1 i2 i3 => rw [cells, i0]; ring

theorem Built.res_eq {LP : Grid K → Blk K → Prop} {t : Tree (Patch K)} {R : Rect K} {k m : Nat} {T : Blk K}
    (ht : Built N LP t R k m T) : res N t = m * 2 ^ k := by
  induction ht with
  | leaf => simp [res]
  | node h0 h1 h2 h3 hTT hz hn hm hN h3m hk hx hy hR hX hH hS hSol hT i0 i1 i2 i3 =>
    rw [res, i0, i1, i2, i3, hm, min_eq hz]

/-- Equal resolutions mean that no child is coarsened. -/
theorem no_coarsening {n k0 k1 k2 k3 M : Nat} (hn : 0 < n) (hz : k0 = 0 ∨ k1 = 0 ∨ k2 = 0 ∨ k3 = 0) (h0 : n * 2 ^ k0 = M)
    (h1 : n * 2 ^ k1 = M) (h2 : n * 2 ^ k2 = M) (h3 : n * 2 ^ k3 = M) : k0 = 0 ∧ k1 = 0 ∧ k2 = 0 ∧ k3 = 0 := by
  have key : ∀ a b, n * 2 ^ a = M → n * 2 ^ b = M → a = b := by
    intro a b ha hb
    exact Nat.pow_right_injective (le_refl 2) (Nat.eq_of_mul_eq_mul_left hn (ha.trans hb.symm))
  have e1 := key _ _ h0 h1
  have e2 := key _ _ h0 h2
  have e3 := key _ _ h0 h3
  omega

section
variable [LinearOrder K] [IsStrictOrderedRing K]

omit [LinearOrder K] [IsStrictOrderedRing K] in
theorem rect_eq {p : Patch K} {R : Rect K} (h : InRect p R) : rect p.grid = R := by
  obtain ⟨a, b, c, d⟩ := h
  unfold rect
  rw [a, b, c, d]

omit [LinearOrder K] [IsStrictOrderedRing K] in
theorem nonsingularMat_of {n : Nat} {X : Blk K} {A : Mat K} (hA : A = bm n 4 4 X) (h : BNonsing n 4 X) : NonsingularMat A :=
  ⟨4 * n, _, by rw [hA]; exact Mat.has_ofFn _ _ _, bnonsing_iff.mpr h⟩

/-- Operators of a built uniform tree are those of the global problem (before coarsening), and no interface system is singular. -/
theorem Built.globalN (lu : PetscLU K) {s : FVSolver K} (hN : 2 ≤ N) {t : Tree (Patch K)} {R : Rect K} {k m : Nat} {T : Blk K}
    (ht : Built N (LPs N (s.toPatchSolver lu)) t R k m T) {d : Nat} (hu : Uniform d t) (hR : Proper R)
    (hc : EllipticOn s R) : TrueOp s R (m * 2 ^ k) T (fun _ _ => 0) (fun _ _ => 0) ∧ Branches (fun p => NonsingularMat p.X) t := by
  induction ht generalizing d with
  | @leaf p R T hk hx hy hR' hT hL =>
    rw [← rect_eq hR'] at hR hc ⊢
    rw [pow_zero, mul_one]
    exact ⟨leaf_trueOp0 lu s hN hx hy (unique_of_elliptic hR hc N N) hL, trivial⟩
  | @node p R c0 c1 c2 c3 n k m k0 k1 k2 k3 T0 T1 T2 T3 S TT h0 h1 h2 h3 hTT hz hn hm hN' h3m hk' hx hy hR' hX hH hS hSol hT
      i0 i1 i2 i3 =>
    cases hu with
    | @node d' _ _ _ _ _ u0 u1 u2 u3 =>
    obtain ⟨rfl, rfl, rfl, rfl⟩ := no_coarsening hn hz (h0.res_eq.symm.trans (res_uniform u0))
      (h1.res_eq.symm.trans (res_uniform u1)) (h2.res_eq.symm.trans (res_uniform u2)) (h3.res_eq.symm.trans (res_uniform u3))
    have hP := fun q => proper_quarter hR q
    have hE := fun q => elliptic_quarter hR hc q
    obtain ⟨t0, b0⟩ := i0 u0 (hP 0) (hE 0)
    obtain ⟨t1, b1⟩ := i1 u1 (hP 1) (hE 1)
    obtain ⟨t2, b2⟩ := i2 u2 (hP 2) (hE 2)
    obtain ⟨t3, b3⟩ := i3 u3 (hP 3) (hE 3)
    rw [pow_zero, mul_one] at t0 t1 t2 t3
    have hTc : ∀ c, c < 4 → TrueOp s (R.quarter c) n (TT c) (fun _ _ => 0) (fun _ _ => 0) := by
      intro c hc
      rw [hTT]
      interval_cases c
      · exact t0
      · exact t1
      · exact t2
      · exact t3
    have hhx : FV.hx R (2 * n) ≠ 0 := (hx_pos hR (by omega)).ne'
    have hhy : FV.hy R (2 * n) ≠ 0 := (hy_pos hR (by omega)).ne'
    have hns := bnonsing_merge hn hhx hhy (fun c _ => unique_of_elliptic (hP c) (hE c) n n)
      (unique_of_elliptic hR hc (2 * n) (2 * n)) hTc
    refine ⟨?_, nonsingularMat_of hX hns, b0, b1, b2, b3⟩
    have hw : WCond n TT (fun _ _ _ => 0) (fun _ _ => 0) := by
      refine ⟨fun _ r _ i _ => by simp [hjump], fun _ => ?_⟩
      funext r i
      simp [hjump]
    have := trueOp_merge (f := fun _ _ => 0) hn hhx hhy (hh := fun _ _ _ => 0) hTc hns hSol hw
    have hz : dblv n (hp n TT (fun _ _ _ => 0) (fun _ _ => 0)) = fun _ _ => (0 : K) := by
      funext a b
      simp [dblv, hp, app]
    rw [hz] at this
    rw [hm]
    exact this

/-- The case of a root which has not been coarsened. -/
theorem Built.global (lu : PetscLU K) {s : FVSolver K} (hN : 2 ≤ N) {t : Tree (Patch K)} {R : Rect K} {k m : Nat} {T : Blk K}
    (ht : Built N (LPs N (s.toPatchSolver lu)) t R k m T) (hk : k = 0) {d : Nat} (hu : Uniform d t) (hR : Proper R)
    (hc : EllipticOn s R) : TrueOp s R m T (fun _ _ => 0) (fun _ _ => 0) ∧ Branches (fun p => NonsingularMat p.X) t := by
  have := ht.globalN lu hN hu hR hc
  rwa [hk, pow_zero, mul_one] at this

/-- The cell values of a solved uniform tree are the solution of the global problem. -/
theorem Slv.global (lu : PetscLU K) {s : FVSolver K} (hN : 2 ≤ N) {P : Grid K → Vec K → Prop} {t : Tree (Patch K)} {R : Rect K}
    {k m : Nat} {T : Blk K} {h g : Nat → Nat → K}
    (ht : Slv N (LPs N (s.toPatchSolver lu)) (fun grid f h => P grid f ∧ HPs N (s.toPatchSolver lu) grid f h)
      (UPs N (s.toPatchSolver lu)) t R k m T h g)
    (hk : k = 0) {d : Nat} (hu : Uniform d t) (hR : Proper R)
    (hc : EllipticOn s R) : TrueOp s R m T h (gridFn N (·.f) t) ∧ TrueOp s R m T (fun _ _ => 0) (fun _ _ => 0) ∧
      (∀ U, Solves s R m m (ofB g) (gridFn N (·.f) t) U → ∀ i, i < m → ∀ j, j < m → gridFn N (·.u) t i j = U i j) ∧
      Branches (fun p => NonsingularMat p.X) t := by
  induction ht generalizing d with
  | @leaf p R T h g hk hx hy hR' hT hL hh hg hu' =>
    have hrect := rect_eq hR'
    subst hrect
    have hq := unique_of_elliptic hR hc N N
    refine ⟨leaf_trueOp lu s hN hx hy hq hL hh.2, leaf_trueOp0 lu s hN hx hy hq hL, ?_, trivial⟩
    intro U hU i hi j hj
    obtain ⟨⟨f1, f2⟩, _⟩ := hh.2
    have hφ : p.f = Vec.ofFn (N * N) _ := Vec.has_iff.mp (has_of_wf f1 f2)
    obtain ⟨V, v1, v2⟩ := FVSolver.solve_ok lu s hN hx hy (fun k => g (k / N) (k % N)) (fun i => p.f.data.getD i 0)
    have hu' : s.solve lu p.grid (bv N 4 g) p.f = .ok p.u := hu'
    have e1 : bv N 4 g = Vec.ofFn (4 * N) (fun k => g (k / N) (k % N)) := rfl
    rw [e1, hφ] at hu'
    rw [v1] at hu'
    have eu := (Res.ok_inj.mp hu').symm
    obtain ⟨cW, cE, cS, cN⟩ := flat_ofB (n := N) (by omega) g
    have hV := (v2 hq).congr cW cE cS cN (fun _ _ _ _ => rfl) (fun _ _ _ _ => rfl)
    have hgrid : gridFn N (·.f) (.leaf p) = fun i j => p.f.data.getD (j + i * N) 0 := rfl
    rw [hgrid] at hU
    rw [hq _ _ _ _ hU hV i hi j hj]
    unfold gridFn
    rw [eu]
    exact getD_listFn (FVSolver.idx_lt hi hj) 0
  | @node p R c0 c1 c2 c3 n k m k0 k1 k2 k3 T0 T1 T2 T3 S TT f0 f1 f2 f3 w g G u hh h0 h1 h2 h3 hTT hhh hz hn hm hN' h3m
      hk' hx hy hR' hX hSol hW hG hu' hg i0 i1 i2 i3 =>
    subst hk
    cases hu with
    | @node d' _ _ _ _ _ u0 u1 u2 u3 =>
    obtain ⟨rfl, rfl, rfl, rfl⟩ := no_coarsening hn hz (h0.res_eq.symm.trans (res_uniform u0))
      (h1.res_eq.symm.trans (res_uniform u1)) (h2.res_eq.symm.trans (res_uniform u2)) (h3.res_eq.symm.trans (res_uniform u3))
    have hP := fun q => proper_quarter hR q
    have hE := fun q => elliptic_quarter hR hc q
    obtain ⟨t0, b0, s0, x0⟩ := i0 rfl u0 (hP 0) (hE 0)
    obtain ⟨t1, b1, s1, x1⟩ := i1 rfl u1 (hP 1) (hE 1)
    obtain ⟨t2, b2, s2, x2⟩ := i2 rfl u2 (hP 2) (hE 2)
    obtain ⟨t3, b3, s3, x3⟩ := i3 rfl u3 (hP 3) (hE 3)
    have hn' : cells N c0 = n := by
      have := h0.res_eq
      rw [res_uniform u0] at this
      rw [cells_uniform u0, this]; simp
    have hgf : ∀ v : Patch K → Vec K, ∀ c, c < 4 → ∀ i, i < n → ∀ j, j < n →
        sub n c (gridFn N v (.node p c0 c1 c2 c3)) i j =
        (match c with | 0 => gridFn N v c0 i j | 1 => gridFn N v c1 i j | 2 => gridFn N v c2 i j | _ => gridFn N v c3 i j) := by
      intro v c hc i hi j hj
      unfold sub
      rw [gridFn, hn']
      interval_cases c <;> simp [hi, hj]
    have hTc0 : ∀ c, c < 4 → TrueOp s (R.quarter c) n (TT c) (fun _ _ => 0) (fun _ _ => 0) := by
      intro c hc
      rw [hTT]
      interval_cases c
      · exact b0
      · exact b1
      · exact b2
      · exact b3
    have tcongr : ∀ {c : Nat} {T : Blk K} {h f f' : Nat → Nat → K}, TrueOp s (R.quarter c) n T h f →
        (∀ i, i < n → ∀ j, j < n → f' i j = f i j) → TrueOp s (R.quarter c) n T h f' := by
      intro c T h f f' hT hf b U hU
      exact hT b U (hU.congr (fun _ _ => rfl) (fun _ _ => rfl) (fun _ _ => rfl) (fun _ _ => rfl) hf (fun _ _ _ _ => rfl))
    have hTc : ∀ c, c < 4 → TrueOp s (R.quarter c) n (TT c) (hh c) (sub n c (gridFn N (·.f) (.node p c0 c1 c2 c3))) := by
      intro c hc
      rw [hTT, hhh]
      have := hgf (·.f) c hc
      interval_cases c
      · exact tcongr t0 this
      · exact tcongr t1 this
      · exact tcongr t2 this
      · exact tcongr t3 this
    have hhx : FV.hx R (2 * n) ≠ 0 := (hx_pos hR (by omega)).ne'
    have hhy : FV.hy R (2 * n) ≠ 0 := (hy_pos hR (by omega)).ne'
    have hns := bnonsing_merge hn hhx hhy (fun c _ => unique_of_elliptic (hP c) (hE c) n n)
      (unique_of_elliptic hR hc (2 * n) (2 * n)) hTc0
    have hm' : m = 2 * n := by simpa using hm
    subst hm'
    refine ⟨trueOp_merge hn hhx hhy hTc hns hSol hW, ?_, ?_, nonsingularMat_of hX hns, x0, x1, x2, x3⟩
    · have hw : WCond n TT (fun _ _ _ => 0) (fun _ _ => 0) := by
        refine ⟨fun _ r _ i _ => by simp [hjump], fun _ => ?_⟩
        funext r i
        simp [hjump]
      have := trueOp_merge (f := fun _ _ => 0) hn hhx hhy (hh := fun _ _ _ => 0) hTc0 hns hSol hw
      have hz : dblv n (hp n TT (fun _ _ _ => 0) (fun _ _ => 0)) = fun _ _ => (0 : K) := by
        funext a b
        simp [dblv, hp, app]
      rw [hz] at this
      exact this
    · intro U hU i hi j hj
      have ha := interface_avg hn hhx hhy hTc hns hSol hW hU
      have hG' : G = hlv n g := hG
      have hcd : ∀ c q i, i < n → cd c (hlv n g) (avg n U) q i = cd c G u q i := by
        intro c q i hi
        rw [hG', hu']
        refine cd_congr ?_ c q hi
        intro l hl i hi
        rw [ha l hl i hi, hG']
      have hsub : ∀ c, c < 4 → ∀ {f : Nat → Nat → K}, (∀ i, i < n → ∀ j, j < n →
          sub n c (gridFn N (·.f) (.node p c0 c1 c2 c3)) i j = f i j) →
          Solves s (R.quarter c) n n (ofB (cd c G u)) f (sub n c U) := by
        intro c hc f hf
        exact (solves_sub hn hU hc).congr (hcd c 0) (hcd c 1) (hcd c 2) (hcd c 3) hf (fun _ _ _ _ => rfl)
      have r0 := s0 _ (hsub 0 (by omega) (hgf (·.f) 0 (by omega)))
      have r1 := s1 _ (hsub 1 (by omega) (hgf (·.f) 1 (by omega)))
      have r2 := s2 _ (hsub 2 (by omega) (hgf (·.f) 2 (by omega)))
      have r3 := s3 _ (hsub 3 (by omega) (hgf (·.f) 3 (by omega)))
      rw [gridFn, hn']
      split_ifs with c1 c2 c3
      · rw [r0 i c1 j c2]; simp [sub]
      · rw [r2 i c1 (j - n) (by omega)]; simp only [sub]; congr 1 <;> omega
      · rw [r1 (i - n) (by omega) j c3]; simp only [sub]; congr 1 <;> omega
      · rw [r3 (i - n) (by omega) (j - n) (by omega)]; simp only [sub]; congr 1 <;> omega

omit [LinearOrder K] [IsStrictOrderedRing K] in
/-- The leaf loads of a solved tree, if they are determined by the leaf grids. -/
theorem Slv.load {LP : Grid K → Blk K → Prop} {HP : Grid K → Vec K → (Nat → Nat → K) → Prop}
    {UP : Grid K → (Nat → Nat → K) → Vec K → Vec K → Prop} {φ : Grid K → Vec K} {t : Tree (Patch K)} {R : Rect K}
    {k m : Nat} {T : Blk K} {h g : Nat → Nat → K}
    (ht : Slv N LP (fun grid f h => f = φ grid ∧ HP grid f h) UP t R k m T h g) {t0 : Tree (Patch K)} (h0 : Init N t0 R)
    (hsh : t.shape = t0.shape) : gridFn N (·.f) t = gridFn N (fun p => φ p.grid) t0 := by
  induction ht generalizing t0 with
  | @leaf p R T h g hk hx hy hR' hT hL hh hg hu' =>
    cases h0 with
    | node => cases hsh
    | @leaf p0 _ hk0 hx0 hy0 hR0 =>
      have : p.grid = p0.grid := by
        obtain ⟨a, b, c, d⟩ := hR'
        obtain ⟨a', b', c', d'⟩ := hR0
        cases hp : p.grid
        cases hp0 : p0.grid
        rw [hp] at hx hy a b c d
        rw [hp0] at hx0 hy0 a' b' c' d'
        simp only at *
        subst_vars
        rfl
      funext i j
      unfold gridFn
      rw [hh.1, this]
  | @node p R c0 c1 c2 c3 n k m k0 k1 k2 k3 T0 T1 T2 T3 S TT f0 f1 f2 f3 w g G u hh h0' h1 h2 h3 hTT hhh hz hn hm hN' h3m
      hk' hx hy hR' hX hSol hW hG hu' hg i0 i1 i2 i3 =>
    cases h0 with
    | leaf => cases hsh
    | @node p' _ d0 d1 d2 d3 _ g0 g1 g2 g3 =>
      simp only [Tree.shape, Tree.node.injEq, true_and] at hsh
      obtain ⟨s0, s1, s2, s3⟩ := hsh
      have hcell : ∀ {a b : Tree (Patch K)}, a.shape = b.shape → cells N a = cells N b := by
        intro a
        induction a with
        | leaf => intro b h; cases b with
          | leaf => rfl
          | node => cases h
        | node _ _ _ _ _ j0 _ _ _ => intro b h; cases b with
          | leaf => cases h
          | node =>
            simp only [Tree.shape, Tree.node.injEq, true_and] at h
            rw [cells, cells, j0 h.1]
      funext i j
      rw [gridFn, gridFn, i0 g0 s0, i1 g1 s1, i2 g2 s2, i3 g3 s3, hcell s0]

end

end HPS
end EF
