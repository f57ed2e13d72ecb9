import Verif.Proofs.Move
import Verif.Props.Composite

/-!
# Units, origin, form of the equation and orientation do not matter (C100, C101, C102)
-/

namespace EF

open Finset FV HPS

variable {K : Type} [Field K] [LinearOrder K] [IsStrictOrderedRing K] {N : Nat}

theorem Tree.turn_shape {P : Type} (τ : Turn) (t : Tree P) : (t.turn τ).shape = t.shape.turn τ := by
  induction t with
  | leaf => rfl
  | node p c0 c1 c2 c3 i0 i1 i2 i3 => cases τ <;> simp only [Tree.shape, Tree.turn, i0, i1, i2, i3]

theorem Tree.turn_turn {P : Type} (τ : Turn) (t : Tree P) : (t.turn τ).turn τ = t := by
  induction t with
  | leaf => rfl
  | node p c0 c1 c2 c3 i0 i1 i2 i3 => cases τ <;> simp only [Tree.turn, i0, i1, i2, i3]

theorem Tree.turn_keep {P : Type} (t : Tree P) : t.turn .keep = t := by
  induction t with
  | leaf => rfl
  | node p c0 c1 c2 c3 i0 i1 i2 i3 => simp only [Tree.turn, i0, i1, i2, i3]

theorem Pieces.turn_keep (N : Nat) (M : Pieces (Nat → Nat → K)) : M.turn .keep N = M := by
  induction M with
  | one => rfl
  | four c0 c1 c2 c3 i0 i1 i2 i3 => simp only [Pieces.turn, i0, i1, i2, i3]

/-- C100: what the nonsingular interface systems mean.  They are all nonsingular exactly if, on every square of the mesh that is cut, zero load
and zero boundary values leave only zero values at the interfaces. -/
theorem C100_singular_iff (lap : Lapack K) (lu : PetscLU K) {s : FVSolver K} (hN : 2 ≤ N) {opt : HPSOptions}
    (hc : opt.cacheOperators = false) {t : Tree (Patch K)} {R : Rect K} (ht : Init N t R)
    (h3 : 3 ≤ N ∨ ∃ d, Uniform d t) (hR : Proper R) (hE : EllipticOn s R) {t1 : Tree (Patch K)} {c1 : Option (Mat K)}
    (h1 : buildStage lap (s.toPatchSolver lu) opt t none = .ok (t1, c1)) :
    Branches (fun p => NonsingularMat p.X) t1 ↔ Rigid s N t.cuts R := by
  have hs := FVSolver.shapes lu s hN
  have hN0 : 0 < N := by omega
  obtain ⟨t1', m, T, e1, b1, s1, _⟩ := buildStage_ok lap hs hc (by omega) ht h3 none
  rw [h1] at e1
  obtain ⟨rfl, rfl⟩ := Prod.mk.inj (Res.ok_inj.mp e1)
  have b2 := b1.leaves (P := fun grid => Proper (rect grid) ∧ EllipticOn s (rect grid)) (by
    rw [buildStage_leaves h1]
    intro grid hg
    obtain ⟨p, hp, rfl⟩ := List.mem_map.mp hg
    exact ht.elliptic hR hE p hp)
  rw [← t.cuts_shape, ← s1, t1.cuts_shape]
  have hflux : ∀ (p : Patch K) (T : Blk K), p.grid.nx = N → p.grid.ny = N →
      (LPs N (s.toPatchSolver lu) p.grid T ∧ Proper (rect p.grid) ∧ EllipticOn s (rect p.grid)) → ∀ g U,
      Solves s (rect p.grid) N N (ofB g) (fun _ _ => 0) U → ∀ a, a < 4 → ∀ i, i < N →
        deriv (rect p.grid) N N (ofB g) U a i = app N 4 T g a i := by
    intro p T hx hy hL g U hU a ha i hi
    have := leaf_trueOp0 lu s hN hx hy (unique_of_elliptic hL.2.1 hL.2.2 N N) hL.1 g U hU a ha i hi
    rw [this, opFlux, add_zero]
  refine b2.rigid (s := s) ?_ hflux
  intro p T hx hy hL g
  obtain ⟨V, w1, w2⟩ := FVSolver.solve_ok lu s hN hx hy (fun k => g (k / N) (k % N)) (fun _ => 0)
  obtain ⟨cW, cE, cS, cN⟩ := flat_ofB (n := N) hN0 g
  have := (w2 (unique_of_elliptic hL.2.1 hL.2.2 N N)).congr cW cE cS cN (f' := fun _ _ => 0) (fun _ _ _ _ => rfl) (fun _ _ _ _ => rfl)
  exact ⟨_, this, fun a ha i hi => (hflux p T hx hy hL g _ this a ha i hi).symm⟩

theorem SameEquation.inv {μ : Move K} (hL : μ.L ≠ 0) {c : K} (hc : c ≠ 0) {w : K → K → K} (hw : ∀ x y, w x y ≠ 0) {s s' : FVSolver K}
    (h : SameEquation μ c w s s') : SameEquation μ.inv (1 / c) (fun x y => 1 / w (μ.inv.pt x y).1 (μ.inv.pt x y).2) s' s := by
  refine ⟨fun x y => ?_, fun x y => ?_, fun x y => ?_⟩
  · have := h.beta (μ.inv.pt x y).1 (μ.inv.pt x y).2
    rw [μ.pt_inv hL] at this
    rw [this]
    field_simp
  · have := h.alpha (μ.inv.pt x y).1 (μ.inv.pt x y).2
    rw [μ.pt_inv hL] at this
    have hw' := hw (μ.inv.pt x y).1 (μ.inv.pt x y).2
    rw [this, μ.inv_L]
    field_simp
  · have := h.lambda (μ.inv.pt x y).1 (μ.inv.pt x y).2
    rw [μ.pt_inv hL] at this
    have hw' := hw (μ.inv.pt x y).1 (μ.inv.pt x y).2
    rw [this]
    field_simp

theorem Move.proper {μ : Move K} (hL : 0 < μ.L) {R : Rect K} (hR : Proper R) : Proper (μ.rect R) := by
  have h1 := mul_lt_mul_of_pos_left hR.1 hL
  have h2 := mul_lt_mul_of_pos_left hR.2 hL
  obtain ⟨τ, L, a, b⟩ := μ
  simp only at h1 h2
  cases τ <;> constructor <;> simp only [Move.rect] <;> linarith

theorem Move.inside {μ : Move K} (hL : 0 < μ.L) {R : Rect K} {x y : K} (h : Inside (μ.rect R) (μ.pt x y).1 (μ.pt x y).2) : Inside R x y := by
  obtain ⟨h1, h2, h3, h4⟩ := h
  obtain ⟨τ, L, a, b⟩ := μ
  simp only at hL
  have key : ∀ p q : K, L * p ≤ L * q → p ≤ q := fun p q h => le_of_mul_le_mul_left h hL
  cases τ <;> simp only [Move.rect, Move.pt] at h1 h2 h3 h4 <;>
    exact ⟨key _ _ (by linarith), key _ _ (by linarith), key _ _ (by linarith), key _ _ (by linarith)⟩

theorem SameEquation.elliptic {μ : Move K} (hL : 0 < μ.L) {c : K} (hc : 0 < c) {w : K → K → K} (hw : ∀ x y, w x y ≠ 0) {s s' : FVSolver K}
    (h : SameEquation μ c w s s') {R : Rect K} (hE : EllipticOn s R) : EllipticOn s' (μ.rect R) := by
  intro x y hxy
  have e := μ.pt_inv hL.ne' x y
  have hi : Inside R (μ.inv.pt x y).1 (μ.inv.pt x y).2 := Move.inside hL (by rw [e]; exact hxy)
  obtain ⟨e1, e2, e3⟩ := hE _ _ hi
  have b := h.beta (μ.inv.pt x y).1 (μ.inv.pt x y).2
  have a := h.alpha (μ.inv.pt x y).1 (μ.inv.pt x y).2
  have l := h.lambda (μ.inv.pt x y).1 (μ.inv.pt x y).2
  have hw' := hw (μ.inv.pt x y).1 (μ.inv.pt x y).2
  rw [e] at a b l
  simp only at a b l
  refine ⟨by rw [b]; positivity, ?_, ?_⟩
  · rw [a]
    have : μ.L ^ 2 / c ≠ 0 := by positivity
    exact mul_ne_zero (mul_ne_zero hw' this) e2
  · rw [a, l]
    have hLc : 0 < c / μ.L ^ 2 := by positivity
    have : w (μ.inv.pt x y).1 (μ.inv.pt x y).2 * s.lambda (μ.inv.pt x y).1 (μ.inv.pt x y).2 /
        (w (μ.inv.pt x y).1 (μ.inv.pt x y).2 * (μ.L ^ 2 / c) * s.alpha (μ.inv.pt x y).1 (μ.inv.pt x y).2) =
        c / μ.L ^ 2 * (s.lambda (μ.inv.pt x y).1 (μ.inv.pt x y).2 / s.alpha (μ.inv.pt x y).1 (μ.inv.pt x y).2) := by
      have := hL.ne'
      field_simp
    rw [this]
    exact mul_nonpos_of_nonneg_of_nonpos hLc.le e3

/-- A problem and the moved one. -/
structure MovedProblem (μ : Move K) (c : K) (w : K → K → K) (s s' : FVSolver K) (f f' : K → K → K) (r r' : Nat → K → K → K) : Prop where
  pos : 0 < μ.L
  cpos : 0 < c
  nonzero : ∀ x y, w x y ≠ 0
  equation : SameEquation μ c w s s'
  load : ∀ x y, f' (μ.pt x y).1 (μ.pt x y).2 = w x y * f x y
  boundary : ∀ a, a < 4 → ∀ x y, r' a (μ.pt x y).1 (μ.pt x y).2 = r (μ.turn.side a) x y

/-- Interface systems of the moved problem are nonsingular if those of the problem are. -/
theorem MovedProblem.nonsingular {μ : Move K} {c : K} {w : K → K → K} {s s' : FVSolver K} {f f' : K → K → K} {r r' : Nat → K → K → K}
    (hp : MovedProblem μ c w s s' f f' r r') (lap lap' : Lapack K) (lu lu' : PetscLU K) (hN : 3 ≤ N) {opt opt' : HPSOptions}
    (hc : opt.cacheOperators = false) (hc' : opt'.cacheOperators = false)
    {t t' : Tree (Patch K)} {R : Rect K} (ht : Init N t R) (ht' : Init N t' (μ.rect R)) (hsh : t'.shape = (t.turn μ.turn).shape) (hR : Proper R)
    (hE : EllipticOn s R) {t1 t1' : Tree (Patch K)} {c1 c1' : Option (Mat K)} (h1 : buildStage lap (s.toPatchSolver lu) opt t none = .ok (t1, c1))
    (h1' : buildStage lap' (s'.toPatchSolver lu') opt' t' none = .ok (t1', c1')) (hX : Branches (fun p => NonsingularMat p.X) t1) :
    Branches (fun p => NonsingularMat p.X) t1' := by
  have hL := hp.pos.ne'
  have hN0 : (N : K) ≠ 0 := by exact_mod_cast (show N ≠ 0 by omega)
  rw [C100_singular_iff lap lu (by omega) hc ht (Or.inl hN) hR hE h1] at hX
  rw [C100_singular_iff lap' lu' (by omega) hc' ht' (Or.inl hN) (Move.proper hp.pos hR) (hp.equation.elliptic hp.pos hp.cpos hp.nonzero hE) h1',
    ← t'.cuts_shape, hsh, Tree.cuts_shape]
  have hleaf : LeafTurn s' s (fun _ _ => 0) (fun _ _ => 0) N μ.inv.turn μ.inv.fV (1 / μ.inv.L) μ.inv.rect :=
    leafTurn_of hN0 (by rw [μ.inv_L]; exact one_div_ne_zero hL) (one_div_ne_zero hp.cpos.ne')
      (hp.equation.inv hL hp.cpos.ne' hp.nonzero) (fun _ _ => (mul_zero _).symm)
  rw [μ.inv_turn] at hleaf
  refine hX.turn μ.turn μ.rect μ.inv.rect μ.rect_quarter ?_ (μ.inv_rect hL) hleaf hN
  have := μ.inv.rect_quarter
  rwa [μ.inv_turn] at this

theorem treeCells_cuts {A : Type} (M : Pieces A) (t : Tree (Patch K)) : M.Alike (treeCells N t) ↔ M.Alike t.cuts := by
  induction t generalizing M with
  | leaf p => cases M <;> exact Iff.rfl
  | node p c0 c1 c2 c3 i0 i1 i2 i3 =>
    cases M with
    | one => exact Iff.rfl
    | four M0 M1 M2 M3 =>
      exact and_congr (i0 M0) (and_congr (i1 M1) (and_congr (i2 M2) (i3 M3)))

theorem treeCells_self (t : Tree (Patch K)) : (treeCells N t).Alike t.cuts := by
  induction t with
  | leaf p => trivial
  | node p c0 c1 c2 c3 i0 i1 i2 i3 => exact ⟨i0, i1, i2, i3⟩

/-- The run of a moved problem leaves the moved cell values. -/
theorem MovedProblem.run {μ : Move K} {c : K} {w : K → K → K} {s s' : FVSolver K} {f f' : K → K → K} {r r' : Nat → K → K → K}
    (hp : MovedProblem μ c w s s' f f' r r') (lap lap' : Lapack K) (lu lu' : PetscLU K) (hN : 3 ≤ N) {opt opt' : HPSOptions}
    (hc : opt.cacheOperators = false) (ho : opt.homogeneousRhs = false) (hc' : opt'.cacheOperators = false) (ho' : opt'.homogeneousRhs = false)
    {t t' : Tree (Patch K)} {R : Rect K} (ht : Init N t R) (ht' : Init N t' (μ.rect R)) (hsh : t'.shape = (t.turn μ.turn).shape) (hR : Proper R)
    (hE : EllipticOn s R) {t1 t3 t1' t3' : Tree (Patch K)} {c1 c1' : Option (Mat K)}
    (h1 : buildStage lap (s.toPatchSolver lu) opt t none = .ok (t1, c1))
    (h2 : (Request.functions f (fun a x y => (r a x y, 1, 0))).run lap (s.toPatchSolver lu) opt t1 = .ok t3)
    (h1' : buildStage lap' (s'.toPatchSolver lu') opt' t' none = .ok (t1', c1'))
    (h2' : (Request.functions f' (fun a x y => (r' a x y, 1, 0))).run lap' (s'.toPatchSolver lu') opt' t1' = .ok t3')
    (hX : Branches (fun p => NonsingularMat p.X) t1) :
    ((treeCells N t3).turn μ.turn N).Same N (treeCells N t3') := by
  have hX' := hp.nonsingular lap lap' lu lu' hN hc hc' ht ht' hsh hR hE h1 h1' hX
  have hN0 : (N : K) ≠ 0 := by exact_mod_cast (show N ≠ 0 by omega)
  obtain ⟨m, _, ⟨q, hC⟩, _⟩ := C100_solution_partial lap lu (by omega) hc ho ht (Or.inl hN) hR hE f r h1 h2 hX
  obtain ⟨m', _, _, hO⟩ := C100_solution_partial lap' lu' (by omega) hc' ho' ht' (Or.inl hN) (Move.proper hp.pos hR)
    (hp.equation.elliptic hp.pos hp.cpos hp.nonzero hE) f' r' h1' h2' hX'
  obtain ⟨hT, hNm⟩ := hC.turn μ.turn μ.rect μ.rect_quarter (leafTurn_of hN0 hp.pos.ne' hp.cpos.ne' hp.equation hp.load) hN
  have hm0 : (m : K) ≠ 0 := by exact_mod_cast (show m ≠ 0 by omega)
  have hs3 : t3.shape = t.shape := by
    obtain ⟨_, _, _, _, _, _, _, hs, _⟩ := functions_composite lap lu (by omega) hc ho ht (Or.inl hN) hR hE f _ h1 h2 hX
    exact hs
  refine hO _ ?_ m _ (hT.congr fun a ha i hi => ?_)
  · rw [treeCells_cuts, ← t'.cuts_shape, hsh, Tree.cuts_shape]
    refine Pieces.turn_alike μ.turn N _ _ ?_
    rw [Tree.turn_turn, ← t.cuts_shape, ← hs3, t3.cuts_shape]
    exact treeCells_self t3
  · rw [μ.sidePoint_rect R hm0 hi ha, hp.boundary a ha]
    rfl

/-! ## C101 -/

/-- C101, missing: that the interface systems are nonsingular on every adaptive mesh (see `C101_uniform` and `C101_damped`).
The run in other units of length, with another origin, with `beta` in other units and the equation multiplied by a function, leaves the same
cell values. -/
theorem C101_units_partial (lap lap' : Lapack K) (lu lu' : PetscLU K) {s s' : FVSolver K} (hN : 3 ≤ N) {opt opt' : HPSOptions}
    (hc : opt.cacheOperators = false) (ho : opt.homogeneousRhs = false) (hc' : opt'.cacheOperators = false) (ho' : opt'.homogeneousRhs = false)
    {t t' : Tree (Patch K)} {R : Rect K} (ht : Init N t R)
    {L a b c : K} {w : K → K → K} (hL : 0 < L) (hc0 : 0 < c) (hw : ∀ x y, w x y ≠ 0)
    (ht' : Init N t' ⟨L * R.xl + a, L * R.xu + a, L * R.yl + b, L * R.yu + b⟩)
    (hsh : t'.shape = t.shape) (hR : Proper R) (hE : EllipticOn s R)
    (hβ : ∀ x y, s'.beta (L * x + a) (L * y + b) = c * s.beta x y) (hα : ∀ x y, s'.alpha (L * x + a) (L * y + b) = w x y * (L ^ 2 / c) * s.alpha x y)
    (hl : ∀ x y, s'.lambda (L * x + a) (L * y + b) = w x y * s.lambda x y) {f f' : K → K → K}
    (hf : ∀ x y, f' (L * x + a) (L * y + b) = w x y * f x y) {r r' : Nat → K → K → K}
    (hr : ∀ e, e < 4 → ∀ x y, r' e (L * x + a) (L * y + b) = r e x y)
    {t1 t3 t1' t3' : Tree (Patch K)} {c1 c1' : Option (Mat K)}
    (h1 : buildStage lap (s.toPatchSolver lu) opt t none = .ok (t1, c1))
    (h2 : (Request.functions f (fun a x y => (r a x y, 1, 0))).run lap (s.toPatchSolver lu) opt t1 = .ok t3)
    (h1' : buildStage lap' (s'.toPatchSolver lu') opt' t' none = .ok (t1', c1'))
    (h2' : (Request.functions f' (fun a x y => (r' a x y, 1, 0))).run lap' (s'.toPatchSolver lu') opt' t1' = .ok t3')
    (hX : Branches (fun p => NonsingularMat p.X) t1) : (treeCells N t3).Same N (treeCells N t3') := by
  have hp : MovedProblem ⟨.keep, L, a, b⟩ c w s s' f f' r r' := ⟨hL, hc0, hw, ⟨hβ, hα, hl⟩, hf, hr⟩
  have := hp.run lap lap' lu lu' hN hc ho hc' ho' ht ht' (by rw [hsh, Tree.turn_keep]) hR hE h1 h2 h1' h2' hX
  rwa [Pieces.turn_keep] at this

/-- C101 on uniform meshes. -/
theorem C101_uniform (lap lap' : Lapack K) (lu lu' : PetscLU K) {s s' : FVSolver K} (hN : 3 ≤ N) {opt opt' : HPSOptions}
    (hc : opt.cacheOperators = false) (ho : opt.homogeneousRhs = false) (hc' : opt'.cacheOperators = false) (ho' : opt'.homogeneousRhs = false)
    {t t' : Tree (Patch K)} {R : Rect K} (ht : Init N t R) {d : Nat} (hu : Uniform d t)
    {L a b c : K} {w : K → K → K} (hL : 0 < L) (hc0 : 0 < c) (hw : ∀ x y, w x y ≠ 0)
    (ht' : Init N t' ⟨L * R.xl + a, L * R.xu + a, L * R.yl + b, L * R.yu + b⟩)
    (hsh : t'.shape = t.shape) (hR : Proper R) (hE : EllipticOn s R)
    (hβ : ∀ x y, s'.beta (L * x + a) (L * y + b) = c * s.beta x y) (hα : ∀ x y, s'.alpha (L * x + a) (L * y + b) = w x y * (L ^ 2 / c) * s.alpha x y)
    (hl : ∀ x y, s'.lambda (L * x + a) (L * y + b) = w x y * s.lambda x y) {f f' : K → K → K}
    (hf : ∀ x y, f' (L * x + a) (L * y + b) = w x y * f x y) {r r' : Nat → K → K → K}
    (hr : ∀ e, e < 4 → ∀ x y, r' e (L * x + a) (L * y + b) = r e x y)
    {t1 t3 t1' t3' : Tree (Patch K)} {c1 c1' : Option (Mat K)}
    (h1 : buildStage lap (s.toPatchSolver lu) opt t none = .ok (t1, c1))
    (h2 : (Request.functions f (fun a x y => (r a x y, 1, 0))).run lap (s.toPatchSolver lu) opt t1 = .ok t3)
    (h1' : buildStage lap' (s'.toPatchSolver lu') opt' t' none = .ok (t1', c1'))
    (h2' : (Request.functions f' (fun a x y => (r' a x y, 1, 0))).run lap' (s'.toPatchSolver lu') opt' t1' = .ok t3') :
    (treeCells N t3).Same N (treeCells N t3') :=
  C101_units_partial lap lap' lu lu' hN hc ho hc' ho' ht hL hc0 hw ht' hsh hR hE hβ hα hl hf hr h1 h2 h1' h2'
    (C19_nonsingular lap lu (by omega) hc ho ht hu hR hE h1).1

/-- C101 on adaptive meshes, if the reaction term dominates. -/
theorem C101_damped (lap lap' : Lapack K) (lu lu' : PetscLU K) {s s' : FVSolver K} (hN : 3 ≤ N) {opt opt' : HPSOptions}
    (hc : opt.cacheOperators = false) (ho : opt.homogeneousRhs = false) (hc' : opt'.cacheOperators = false) (ho' : opt'.homogeneousRhs = false)
    {t t' : Tree (Patch K)} {R : Rect K} (ht : Init N t R) (hd : Dominated N s R t)
    {L a b c : K} {w : K → K → K} (hL : 0 < L) (hc0 : 0 < c) (hw : ∀ x y, w x y ≠ 0)
    (ht' : Init N t' ⟨L * R.xl + a, L * R.xu + a, L * R.yl + b, L * R.yu + b⟩)
    (hsh : t'.shape = t.shape) (hR : Proper R) (hE : EllipticOn s R)
    (hβ : ∀ x y, s'.beta (L * x + a) (L * y + b) = c * s.beta x y) (hα : ∀ x y, s'.alpha (L * x + a) (L * y + b) = w x y * (L ^ 2 / c) * s.alpha x y)
    (hl : ∀ x y, s'.lambda (L * x + a) (L * y + b) = w x y * s.lambda x y) {f f' : K → K → K}
    (hf : ∀ x y, f' (L * x + a) (L * y + b) = w x y * f x y) {r r' : Nat → K → K → K}
    (hr : ∀ e, e < 4 → ∀ x y, r' e (L * x + a) (L * y + b) = r e x y)
    {t1 t3 t1' t3' : Tree (Patch K)} {c1 c1' : Option (Mat K)}
    (h1 : buildStage lap (s.toPatchSolver lu) opt t none = .ok (t1, c1))
    (h2 : (Request.functions f (fun a x y => (r a x y, 1, 0))).run lap (s.toPatchSolver lu) opt t1 = .ok t3)
    (h1' : buildStage lap' (s'.toPatchSolver lu') opt' t' none = .ok (t1', c1'))
    (h2' : (Request.functions f' (fun a x y => (r' a x y, 1, 0))).run lap' (s'.toPatchSolver lu') opt' t1' = .ok t3') :
    (treeCells N t3).Same N (treeCells N t3') :=
  C101_units_partial lap lap' lu lu' hN hc ho hc' ho' ht hL hc0 hw ht' hsh hR hE hβ hα hl hf hr h1 h2 h1' h2'
    (C86_nonsingular lap lu hN hc ht hR hE hd h1)

/-! ## C102 -/

/-- C102, missing: that the interface systems are nonsingular on every adaptive mesh (see `C102_uniform` and `C102_damped`).
The run of the problem mirrored at a vertical line leaves the mirrored cell values. -/
theorem C102_mirror_partial (lap lap' : Lapack K) (lu lu' : PetscLU K) {s s' : FVSolver K} (hN : 3 ≤ N) {opt opt' : HPSOptions}
    (hc : opt.cacheOperators = false) (ho : opt.homogeneousRhs = false) (hc' : opt'.cacheOperators = false) (ho' : opt'.homogeneousRhs = false)
    {t t' : Tree (Patch K)} {R : Rect K} (ht : Init N t R)
    {a : K} (ht' : Init N t' ⟨a - R.xu, a - R.xl, R.yl, R.yu⟩) (hsh : t'.shape = (t.turn .flip).shape) (hR : Proper R) (hE : EllipticOn s R)
    (hβ : ∀ x y, s'.beta (a - x) y = s.beta x y) (hα : ∀ x y, s'.alpha (a - x) y = s.alpha x y)
    (hl : ∀ x y, s'.lambda (a - x) y = s.lambda x y) {f f' : K → K → K} (hf : ∀ x y, f' (a - x) y = f x y) {r r' : Nat → K → K → K}
    (hr0 : ∀ x y, r' 0 (a - x) y = r 1 x y) (hr1 : ∀ x y, r' 1 (a - x) y = r 0 x y) (hr2 : ∀ x y, r' 2 (a - x) y = r 2 x y)
    (hr3 : ∀ x y, r' 3 (a - x) y = r 3 x y)
    {t1 t3 t1' t3' : Tree (Patch K)} {c1 c1' : Option (Mat K)}
    (h1 : buildStage lap (s.toPatchSolver lu) opt t none = .ok (t1, c1))
    (h2 : (Request.functions f (fun a x y => (r a x y, 1, 0))).run lap (s.toPatchSolver lu) opt t1 = .ok t3)
    (h1' : buildStage lap' (s'.toPatchSolver lu') opt' t' none = .ok (t1', c1'))
    (h2' : (Request.functions f' (fun a x y => (r' a x y, 1, 0))).run lap' (s'.toPatchSolver lu') opt' t1' = .ok t3')
    (hX : Branches (fun p => NonsingularMat p.X) t1) : ((treeCells N t3).turn .flip N).Same N (treeCells N t3') := by
  have hp : MovedProblem ⟨.flip, 1, a, 0⟩ 1 (fun _ _ => 1) s s' f f' r r' := by
    refine ⟨one_pos, one_pos, fun _ _ => one_ne_zero, ⟨?_, ?_, ?_⟩, ?_, ?_⟩ <;> simp only [Move.pt, one_mul, add_zero]
    · exact hβ
    · simpa using hα
    · exact hl
    · exact hf
    · intro e he
      interval_cases e
      exacts [hr0, hr1, hr2, hr3]
  exact hp.run lap lap' lu lu' hN hc ho hc' ho' ht (by simpa [Move.rect] using ht') hsh hR hE h1 h2 h1' h2' hX

/-- C102, missing: that the interface systems are nonsingular on every adaptive mesh (see `C102_uniform` and `C102_damped`).
The run of the problem with the two coordinates exchanged leaves the cell values with the two indices exchanged. -/
theorem C102_transpose_partial (lap lap' : Lapack K) (lu lu' : PetscLU K) {s s' : FVSolver K} (hN : 3 ≤ N) {opt opt' : HPSOptions}
    (hc : opt.cacheOperators = false) (ho : opt.homogeneousRhs = false) (hc' : opt'.cacheOperators = false) (ho' : opt'.homogeneousRhs = false)
    {t t' : Tree (Patch K)} {R : Rect K} (ht : Init N t R)
    (ht' : Init N t' ⟨R.yl, R.yu, R.xl, R.xu⟩) (hsh : t'.shape = (t.turn .swap).shape) (hR : Proper R) (hE : EllipticOn s R)
    (hβ : ∀ x y, s'.beta y x = s.beta x y) (hα : ∀ x y, s'.alpha y x = s.alpha x y)
    (hl : ∀ x y, s'.lambda y x = s.lambda x y) {f f' : K → K → K} (hf : ∀ x y, f' y x = f x y) {r r' : Nat → K → K → K}
    (hr0 : ∀ x y, r' 0 y x = r 2 x y) (hr1 : ∀ x y, r' 1 y x = r 3 x y) (hr2 : ∀ x y, r' 2 y x = r 0 x y)
    (hr3 : ∀ x y, r' 3 y x = r 1 x y)
    {t1 t3 t1' t3' : Tree (Patch K)} {c1 c1' : Option (Mat K)}
    (h1 : buildStage lap (s.toPatchSolver lu) opt t none = .ok (t1, c1))
    (h2 : (Request.functions f (fun a x y => (r a x y, 1, 0))).run lap (s.toPatchSolver lu) opt t1 = .ok t3)
    (h1' : buildStage lap' (s'.toPatchSolver lu') opt' t' none = .ok (t1', c1'))
    (h2' : (Request.functions f' (fun a x y => (r' a x y, 1, 0))).run lap' (s'.toPatchSolver lu') opt' t1' = .ok t3')
    (hX : Branches (fun p => NonsingularMat p.X) t1) : ((treeCells N t3).turn .swap N).Same N (treeCells N t3') := by
  have hp : MovedProblem ⟨.swap, 1, 0, 0⟩ 1 (fun _ _ => 1) s s' f f' r r' := by
    refine ⟨one_pos, one_pos, fun _ _ => one_ne_zero, ⟨?_, ?_, ?_⟩, ?_, ?_⟩ <;> simp only [Move.pt, one_mul, add_zero]
    · exact hβ
    · simpa using hα
    · exact hl
    · exact hf
    · intro e he
      interval_cases e
      exacts [hr0, hr1, hr2, hr3]
  exact hp.run lap lap' lu lu' hN hc ho hc' ho' ht (by simpa [Move.rect] using ht') hsh hR hE h1 h2 h1' h2' hX

/-- C102 on uniform meshes, for a mirrored or transposed problem which may also be in other units. -/
theorem C102_uniform {μ : Move K} {c : K} {w f f' : K → K → K} {r r' : Nat → K → K → K} (lap lap' : Lapack K) (lu lu' : PetscLU K) {s s' : FVSolver K} (hN : 3 ≤ N) {opt opt' : HPSOptions}
    (hc : opt.cacheOperators = false) (ho : opt.homogeneousRhs = false) (hc' : opt'.cacheOperators = false) (ho' : opt'.homogeneousRhs = false)
    {t t' : Tree (Patch K)} {R : Rect K} (ht : Init N t R) {d : Nat} (hu : Uniform d t)
    (hp : MovedProblem μ c w s s' f f' r r') (ht' : Init N t' (μ.rect R)) (hsh : t'.shape = (t.turn μ.turn).shape) (hR : Proper R)
    (hE : EllipticOn s R) {t1 t3 t1' t3' : Tree (Patch K)} {c1 c1' : Option (Mat K)}
    (h1 : buildStage lap (s.toPatchSolver lu) opt t none = .ok (t1, c1))
    (h2 : (Request.functions f (fun a x y => (r a x y, 1, 0))).run lap (s.toPatchSolver lu) opt t1 = .ok t3)
    (h1' : buildStage lap' (s'.toPatchSolver lu') opt' t' none = .ok (t1', c1'))
    (h2' : (Request.functions f' (fun a x y => (r' a x y, 1, 0))).run lap' (s'.toPatchSolver lu') opt' t1' = .ok t3') :
    ((treeCells N t3).turn μ.turn N).Same N (treeCells N t3') :=
  hp.run lap lap' lu lu' hN hc ho hc' ho' ht ht' hsh hR hE h1 h2 h1' h2' (C19_nonsingular lap lu (by omega) hc ho ht hu hR hE h1).1

/-- C102 on adaptive meshes, if the reaction term dominates. -/
theorem C102_damped {μ : Move K} {c : K} {w f f' : K → K → K} {r r' : Nat → K → K → K} (lap lap' : Lapack K) (lu lu' : PetscLU K) {s s' : FVSolver K} (hN : 3 ≤ N) {opt opt' : HPSOptions}
    (hc : opt.cacheOperators = false) (ho : opt.homogeneousRhs = false) (hc' : opt'.cacheOperators = false) (ho' : opt'.homogeneousRhs = false)
    {t t' : Tree (Patch K)} {R : Rect K} (ht : Init N t R) (hd : Dominated N s R t)
    (hp : MovedProblem μ c w s s' f f' r r') (ht' : Init N t' (μ.rect R)) (hsh : t'.shape = (t.turn μ.turn).shape) (hR : Proper R)
    (hE : EllipticOn s R) {t1 t3 t1' t3' : Tree (Patch K)} {c1 c1' : Option (Mat K)}
    (h1 : buildStage lap (s.toPatchSolver lu) opt t none = .ok (t1, c1))
    (h2 : (Request.functions f (fun a x y => (r a x y, 1, 0))).run lap (s.toPatchSolver lu) opt t1 = .ok t3)
    (h1' : buildStage lap' (s'.toPatchSolver lu') opt' t' none = .ok (t1', c1'))
    (h2' : (Request.functions f' (fun a x y => (r' a x y, 1, 0))).run lap' (s'.toPatchSolver lu') opt' t1' = .ok t3') :
    ((treeCells N t3).turn μ.turn N).Same N (treeCells N t3') :=
  hp.run lap lap' lu lu' hN hc ho hc' ho' ht ht' hsh hR hE h1 h2 h1' h2' (C86_nonsingular lap lu hN hc ht hR hE hd h1)

/-- A moved problem on a mesh with leaves on three levels: transposed, three times as large, `beta` and the equation doubled. -/
example (lap lap' : Lapack ℚ) (lu lu' : PetscLU ℚ) :
    let s' : FVSolver ℚ := ⟨fun _ _ => 2 * (9 / 2) * 2, fun _ y => 2 * (1 + (y - 5) / 3), fun x _ => 2 * (-600000 - (x / 3) * (x / 3))⟩
    ∃ t1 c1 t3 t1' c1' t3', buildStage lap (exThreePde.toPatchSolver lu) ⟨false, false⟩ (freshTree 4 exThree unitSquare) none = .ok (t1, c1) ∧
      (Request.functions (fun x y => x + y) (fun a x y => ((a : ℚ) + x, 1, 0))).run lap (exThreePde.toPatchSolver lu) ⟨false, false⟩ t1 = .ok t3 ∧
      buildStage lap' (s'.toPatchSolver lu') ⟨false, false⟩ (freshTree 4 (exThree.turn .swap) ⟨0, 3, 5, 8⟩) none = .ok (t1', c1') ∧
      (Request.functions (fun x y => 2 * ((y - 5) / 3 + x / 3)) (fun a _ y => ((((a + 2) % 4 : ℕ) : ℚ) + (y - 5) / 3, 1, 0))).run lap' (s'.toPatchSolver lu')
        ⟨false, false⟩ t1' = .ok t3' ∧
      ((treeCells 4 t3).turn .swap 4).Same 4 (treeCells 4 t3') := by
  intro s'
  have hi := freshTree_init (K := ℚ) 4 exThree unitSquare
  have hi' := freshTree_init (K := ℚ) 4 (exThree.turn .swap) ⟨0, 3, 5, 8⟩
  obtain ⟨t1, c1, t3, e1, e2, _⟩ := C20_stages_succeed_functions lap (by omega) (FVSolver.shapes lu exThreePde (n := 4) (by omega))
    (opt := ⟨false, false⟩) rfl hi (Or.inl (by omega)) (fun x y => x + y) (fun a x y => ((a : ℚ) + x, 1, 0))
  obtain ⟨t1', c1', t3', e1', e2', _⟩ := C20_stages_succeed_functions lap' (by omega) (FVSolver.shapes lu' s' (n := 4) (by omega))
    (opt := ⟨false, false⟩) rfl hi' (Or.inl (by omega)) (fun x y => 2 * ((y - 5) / 3 + x / 3)) (fun a _ y => ((((a + 2) % 4 : ℕ) : ℚ) + (y - 5) / 3, 1, 0))
  have hp : MovedProblem (⟨.swap, 3, 0, 5⟩ : Move ℚ) 2 (fun _ _ => 2) exThreePde s' (fun x y => x + y) (fun x y => 2 * ((y - 5) / 3 + x / 3))
      (fun a x _ => (a : ℚ) + x) (fun a _ y => (((a + 2) % 4 : ℕ) : ℚ) + (y - 5) / 3) := by
    refine ⟨by norm_num, by norm_num, fun _ _ => by norm_num, ⟨?_, ?_, ?_⟩, ?_, ?_⟩
    · intro x y; simp only [s', Move.pt, exThreePde]; ring
    · intro x y; simp only [s', Move.pt, exThreePde]; ring
    · intro x y; simp only [s', Move.pt, exThreePde]; ring
    · intro x y; simp only [Move.pt]; ring
    · intro e he x y
      interval_cases e <;> simp [Move.pt, Turn.side]
  have hsh : (freshTree (K := ℚ) 4 (exThree.turn .swap) ⟨0, 3, 5, 8⟩).shape = ((freshTree (K := ℚ) 4 exThree unitSquare).turn .swap).shape := by
    rw [Tree.turn_shape]
    rfl
  have hq : (⟨.swap, 3, 0, 5⟩ : Move ℚ).rect unitSquare = ⟨0, 3, 5, 8⟩ := by norm_num [Move.rect, unitSquare]
  exact ⟨t1, c1, t3, t1', c1', t3', e1, e2, e1', e2', C102_damped lap lap' lu lu' (by omega) rfl rfl rfl rfl hi exThree_dominated hp
    (hq ▸ hi') hsh exPde_elliptic_unit.1 exThree_elliptic e1 e2 e1' e2'⟩

end EF
