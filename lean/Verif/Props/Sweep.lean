import Verif.Model.Sweep
import Verif.Proofs.Sharp
import Verif.Props.FishConverge
import Verif.Props.Report
import Mathlib.Analysis.SpecialFunctions.Log.Basic

/-!
# The patch solver program and the exact order of convergence (C82, C69)
-/

namespace EF

open Finset FV HPS

/-! ## What the program reports -/

section
variable {K : Type} [Field K]

/-- A loop over a pair whose components are set independently. -/
theorem forN_pair {σ τ : Type} {n : Nat} {b1 : Nat → σ → Res σ} {b2 : Nat → τ → Res τ} {body : Nat → σ × τ → Res (σ × τ)}
    (hb : ∀ i a b a' b', b1 i a = .ok a' → b2 i b = .ok b' → body i (a, b) = .ok (a', b')) {a r1 : σ} {b r2 : τ}
    (h1 : forN n b1 a = .ok r1) (h2 : forN n b2 b = .ok r2) : forN n body (a, b) = .ok (r1, r2) := by
  induction n generalizing r1 r2 with
  | zero =>
    rw [forN_zero] at h1 h2 ⊢
    rw [Res.ok_inj.mp h1, Res.ok_inj.mp h2]
  | succ n ih =>
    rw [forN_succ] at h1 h2 ⊢
    obtain ⟨s, e1, f1⟩ := Res.bind_eq_ok.mp h1
    obtain ⟨t, e2, f2⟩ := Res.bind_eq_ok.mp h2
    rw [ih e1 e2, Res.ok_bind, hb n s t r1 r2 f1 f2]

/-- The rectangle of a sweep. -/
def PatchSweep.rect (p : PatchSweep K) : Rect K := ⟨p.xl, p.xu, p.yl, p.yu⟩

/-- Values of a function at the midpoints of the cell sides on the boundary. -/
def midpointValues (R : Rect K) (n : Nat) (u : K → K → K) : Bdry K :=
  ⟨fun k => u R.xl (cy R n k), fun k => u R.xu (cy R n k), fun k => u (cx R n k) R.yl, fun k => u (cx R n k) R.yu⟩

/-- `e` is the largest distance, over the cells of the `n` by `n` grid, of the solution of the finite volume equations with the load and
the boundary values from the exact solution at the centre of the cell. -/
def PatchSweep.IsError [LinearOrder K] [IsStrictOrderedRing K] (p : PatchSweep K) (n : Nat) (e : K) : Prop :=
  ∃ U : Nat → Nat → K, Solves p.solver p.rect n n (midpointValues p.rect n p.uExact) (fun i j => p.fRHS (cx p.rect n i) (cy p.rect n j)) U ∧
    (∀ i, i < n → ∀ j, j < n → |U i j - p.uExact (cx p.rect n i) (cy p.rect n j)| ≤ e) ∧
    ∃ i, i < n ∧ ∃ j, j < n ∧ e = |U i j - p.uExact (cx p.rect n i) (cy p.rect n j)|

theorem PatchSweep.westEast_ok (p : PatchSweep K) (n : Nat) : p.westEast (p.grid n) =
    .ok (Vec.ofFn n (fun k => p.uExact p.xl ((p.grid n).y k)), Vec.ofFn n (fun k => p.uExact p.xu ((p.grid n).y k))) := by
  unfold PatchSweep.westEast
  have key : ∀ w : K, forN n (fun j (v : Vec K) => v.set j (p.uExact w ((p.grid n).y j))) (Vec.zeros n) =
      .ok (Vec.ofFn n (fun k => p.uExact w ((p.grid n).y k))) := by
    intro w
    rw [Vec.zeros_eq]
    refine Vec.forN_fill _ _ ?_
    intro i hi f
    rw [Vec.set_ofFn hi]
  refine forN_pair (n := n) ?_ (key p.xl) (key p.xu)
  intro i a b a' b' ha hb
  simp only [Grid.point, one_ne_zero, if_false, if_true, Res.pure_def, Res.ok_bind, ha, hb]

theorem PatchSweep.southNorth_ok (p : PatchSweep K) (n : Nat) : p.southNorth (p.grid n) =
    .ok (Vec.ofFn n (fun k => p.uExact ((p.grid n).x k) p.yl), Vec.ofFn n (fun k => p.uExact ((p.grid n).x k) p.yu)) := by
  unfold PatchSweep.southNorth
  have key : ∀ w : K, forN n (fun j (v : Vec K) => v.set j (p.uExact ((p.grid n).x j) w)) (Vec.zeros n) =
      .ok (Vec.ofFn n (fun k => p.uExact ((p.grid n).x k) w)) := by
    intro w
    rw [Vec.zeros_eq]
    refine Vec.forN_fill _ _ ?_
    intro i hi f
    rw [Vec.set_ofFn hi]
  refine forN_pair (n := n) ?_ (key p.yl) (key p.yu)
  intro i a b a' b' ha hb
  simp only [Grid.point, if_true, Res.pure_def, Res.ok_bind, ha, hb]

theorem PatchSweep.loadExact_ok (p : PatchSweep K) (n : Nat) {F U : Vec K} (h1 : sampleLoad p.fRHS (p.grid n) = .ok F)
    (h2 : sampleLoad p.uExact (p.grid n) = .ok U) : p.loadExact (p.grid n) = .ok (F, U) := by
  unfold PatchSweep.loadExact
  unfold sampleLoad at h1 h2
  refine forN_pair ?_ h1 h2
  intro i a b a' b' ha hb
  simp only [Grid.point, if_true, Res.pure_def, Res.ok_bind, one_ne_zero, if_false] at ha hb ⊢
  refine forN_pair ?_ ha hb
  intro j a b a' b' ha hb
  rw [ha, Res.ok_bind, hb, Res.ok_bind]

variable [LinearOrder K]

theorem PatchSweep.step_eq (p : PatchSweep K) (lu : PetscLU K) (n : Nat) :
    p.step lu n = patchError (p.solver.toPatchSolver lu) p.xl p.xu p.yl p.yu p.uExact p.fRHS n := by
  have hs : ∀ fn : Nat → K, sideValues n (fun k => .ok (fn k)) = .ok (Vec.ofFn n fn) := by
    intro fn
    unfold sideValues
    rw [Vec.zeros_eq]
    refine Vec.forN_fill _ _ ?_
    intro i hi f
    rw [Res.ok_bind, Vec.set_ofFn hi]
  have hc : ∀ fn : K → K → K, cellValues (p.grid n) fn = sampleLoad fn (p.grid n) := by
    intro fn
    unfold cellValues sampleLoad
    simp only [Grid.point, if_true, one_ne_zero, if_false, Res.pure_def, Res.ok_bind]
  obtain ⟨F, f1, _⟩ := C33_load_sampled p.fRHS (p.grid n)
  obtain ⟨X, x1, _⟩ := C33_load_sampled p.uExact (p.grid n)
  unfold PatchSweep.step patchError
  simp only [p.westEast_ok, p.southNorth_ok, Res.ok_bind, p.loadExact_ok n f1 x1, show (⟨n, n, p.xl, p.xu, p.yl, p.yu⟩ : Grid K) = p.grid n from rfl,
    hc, f1, x1, Grid.point, if_true, one_ne_zero, if_false, Res.pure_def, hs]
  rfl

/-- The errors of the program, whose loops fill two vectors at a time, are those of the study of C70, which fills them one after the
other. -/
theorem C82_same_as_study (p : PatchSweep K) (lu : PetscLU K) (ns : List Nat) :
    p.errors lu ns = patchStudy (p.solver.toPatchSolver lu) p.xl p.xu p.yl p.yu p.uExact p.fRHS ns := by
  unfold PatchSweep.errors patchStudy
  have key : ∀ (ns : List Nat) (es0 : List K), forL ns (fun n es => do
        let e ← p.step lu n
        pure (es ++ [e])) es0 = (ns.mapM (p.step lu) >>= fun es => .ok (es0 ++ es)) := by
    intro ns
    induction ns with
    | nil => intro es0; simp [Res.pure_def]
    | cons n ns ih =>
      intro es0
      rw [forL, List.mapM_cons]
      cases p.step lu n with
      | ok e =>
        simp only [Res.pure_def] at ih ⊢
        simp only [Res.ok_bind, ih]
        cases ns.mapM (p.step lu) <;> simp [Res.ok_bind, Res.throw_bind, Res.ub_bind]
      | throw e => rfl
      | ub => rfl
  rw [key, show p.step lu = _ from funext (p.step_eq lu)]
  cases ns.mapM (patchError (p.solver.toPatchSolver lu) p.xl p.xu p.yl p.yu p.uExact p.fRHS) <;> rfl

variable [IsStrictOrderedRing K]

theorem PatchSweep.step_ok (p : PatchSweep K) (lu : PetscLU K) (hR : Proper p.rect) (hE : EllipticOn p.solver p.rect) {n : Nat}
    (hn : 2 ≤ n) : (p.step lu n).Returns (p.IsError n) := by
  obtain ⟨F, f1, φ, f2, f3⟩ := C33_load_sampled p.fRHS (p.grid n)
  obtain ⟨X, x1, ξ, x2, x3⟩ := C33_load_sampled p.uExact (p.grid n)
  have hx : ∀ k, (p.grid n).x k = cx p.rect n k := by
    intro k
    simp only [Grid.x, Grid.dx, PatchSweep.grid, cx, FV.hx, PatchSweep.rect]
    ring
  have hy : ∀ k, (p.grid n).y k = cy p.rect n k := by
    intro k
    simp only [Grid.y, Grid.dy, PatchSweep.grid, cy, FV.hy, PatchSweep.rect]
    ring
  unfold PatchSweep.step
  simp only [p.westEast_ok, p.southNorth_ok, Res.ok_bind, p.loadExact_ok n f1 x1, hx, hy]
  have hc := Vec.concatenate_uniform 4 n (fun s i => if s = 0 then p.uExact p.xl (cy p.rect n i) else if s = 1 then p.uExact p.xu (cy p.rect n i)
    else if s = 2 then p.uExact (cx p.rect n i) p.yl else p.uExact (cx p.rect n i) p.yu)
  have hl : ∀ g : Nat → Vec K, listFn 4 g = [g 0, g 1, g 2, g 3] := fun g => rfl
  rw [hl] at hc
  simp only [if_true, one_ne_zero, if_false, show (2 : Nat) ≠ 0 by omega, show (2 : Nat) ≠ 1 by omega, show (3 : Nat) ≠ 0 by omega,
    show (3 : Nat) ≠ 1 by omega, show (3 : Nat) ≠ 2 by omega] at hc
  rw [hc, Res.ok_bind]
  have hg : SquareGrid n (p.grid n) := ⟨rfl, rfl, hR.1.ne, hR.2.ne⟩
  obtain ⟨u, e1, U, e2, e3⟩ := C30_leaf_solves lu p.solver hn hg (unique_of_elliptic (R := p.rect) hR hE n n) (Vec.has_ofFn (4 * n) _) f2
  rw [e1, Res.ok_bind]
  obtain ⟨r, r1, r2, r3, r4, _, _⟩ := C49_inf_norm x2 e2
  refine ⟨r, r1, fun i j => U (j + i * n), ?_, ?_, ?_⟩
  · refine e3.congr ?_ ?_ ?_ ?_ ?_ (fun _ _ _ _ => rfl)
    · intro k hk
      show (if k / n = 0 then _ else _) = _
      rw [Nat.div_eq_of_lt hk, if_pos rfl, Nat.mod_eq_of_lt hk]
      rfl
    · intro k hk
      have : (n + k) / n = 1 := by rw [Nat.add_div_left _ (by omega), Nat.div_eq_of_lt hk]
      show (if (n + k) / n = 0 then _ else if (n + k) / n = 1 then _ else _) = _
      rw [this, if_neg one_ne_zero, if_pos rfl, Nat.add_mod_left, Nat.mod_eq_of_lt hk]
      rfl
    · intro k hk
      have : (2 * n + k) / n = 2 := by rw [Nat.mul_comm, Nat.mul_add_div (by omega), Nat.div_eq_of_lt hk]
      have h' : (2 * n + k) % n = k := by rw [Nat.mul_comm, Nat.mul_add_mod, Nat.mod_eq_of_lt hk]
      show (if (2 * n + k) / n = 0 then _ else if (2 * n + k) / n = 1 then _ else if (2 * n + k) / n = 2 then _ else _) = _
      rw [this, if_neg (by omega), if_neg (by omega), if_pos rfl, h']
      rfl
    · intro k hk
      have : (3 * n + k) / n = 3 := by rw [Nat.mul_comm, Nat.mul_add_div (by omega), Nat.div_eq_of_lt hk]
      have h' : (3 * n + k) % n = k := by rw [Nat.mul_comm, Nat.mul_add_mod, Nat.mod_eq_of_lt hk]
      show (if (3 * n + k) / n = 0 then _ else if (3 * n + k) / n = 1 then _ else if (3 * n + k) / n = 2 then _ else _) = _
      rw [this, if_neg (by omega), if_neg (by omega), if_neg (by omega), h']
      rfl
    · intro i hi j hj
      exact f3 i hi j hj
  · intro i hi j hj
    have := r3 (j + i * n) (FVSolver.idx_lt hi hj)
    rw [abs_sub_comm, show ξ (j + i * n) = _ from x3 i hi j hj] at this
    exact this
  · rcases r4 with h | ⟨k, hk, h⟩
    · refine ⟨0, by omega, 0, by omega, ?_⟩
      have := r3 0 (by positivity)
      rw [abs_sub_comm, show ξ 0 = _ from by simpa using x3 0 (show 0 < n by omega) 0 (show 0 < n by omega)] at this
      refine le_antisymm ?_ ?_
      · rw [h]; exact abs_nonneg _
      · simpa using (show |U 0 - p.uExact (cx p.rect n 0) (cy p.rect n 0)| ≤ r from this)
    · have hk' : k < n * n := hk
      refine ⟨k / n, Nat.div_lt_of_lt_mul hk', k % n, Nat.mod_lt _ (by omega), ?_⟩
      have e : k % n + k / n * n = k := by rw [Nat.mul_comm]; exact Nat.mod_add_div k n
      have := x3 (k / n) (Nat.div_lt_of_lt_mul hk') (k % n) (Nat.mod_lt _ (by omega))
      rw [show (p.grid n).ny = n from rfl, e] at this
      show r = |U (k % n + k / n * n) - p.uExact (cx p.rect n (k / n)) (cy p.rect n (k % n))|
      rw [h, abs_sub_comm, this, e]
      rfl

/-- C82.  For every elliptic problem, every exact solution and load, and every list of sizes of at least two cells per side, the sweep
runs to its end and reports for every size, in order, the largest error over the cells of that size. -/
theorem C82_errors (p : PatchSweep K) (lu : PetscLU K) (hR : Proper p.rect) (hE : EllipticOn p.solver p.rect) {ns : List Nat}
    (hn : ∀ n ∈ ns, 2 ≤ n) :
    (p.errors lu ns).Returns (fun es => List.Forall₂ p.IsError ns es) := by
  unfold PatchSweep.errors
  have key : ∀ (ns : List Nat), (∀ n ∈ ns, 2 ≤ n) → ∀ es0 : List K,
      (forL ns (fun n es => do
        let e ← p.step lu n
        pure (es ++ [e])) es0).Returns (fun r => ∃ es, r = es0 ++ es ∧ List.Forall₂ p.IsError ns es) := by
    intro ns
    induction ns with
    | nil => exact fun _ es0 => ⟨es0, rfl, [], by simp, .nil⟩
    | cons n ns ih =>
      intro h es0
      obtain ⟨e, h1, h2⟩ := p.step_ok lu hR hE (h n (by simp))
      rw [forL, h1]
      simp only [Res.ok_bind, Res.pure_def]
      obtain ⟨r, r1, es, r2, r3⟩ := ih (fun m hm => h m (by simp [hm])) (es0 ++ [e])
      exact ⟨r, r1, e :: es, by rw [r2]; simp, .cons h2 r3⟩
  obtain ⟨r, h1, es, h2, h3⟩ := key ns hn []
  exact ⟨r, h1, by rw [h2]; exact h3⟩

/-- C82: the number reported is determined: two numbers with the meaning of the error are equal. -/
theorem C82_error_determined (p : PatchSweep K) (hR : Proper p.rect) (hE : EllipticOn p.solver p.rect) {n : Nat} {e e' : K}
    (h : p.IsError n e) (h' : p.IsError n e') : e = e' := by
  obtain ⟨U, s, a, i, hi, j, hj, b⟩ := h
  obtain ⟨U', s', a', i', hi', j', hj', b'⟩ := h'
  have hU := unique_of_elliptic hR hE n n _ _ _ _ s s'
  refine le_antisymm ?_ ?_
  · rw [b, hU i hi j hj]; exact a' i hi j hj
  · rw [b', ← hU i' hi' j' hj']; exact a i' hi' j' hj'

omit [Field K] [LinearOrder K] [IsStrictOrderedRing K] in
theorem forall₂_last_two {α : Type} {P : α → K → Prop} {ns : List α} {a b : α} {r : List K} (h : List.Forall₂ P (ns ++ [a, b]) r) :
    ∃ es e1 e2, r = es ++ [e1, e2] ∧ List.Forall₂ P ns es ∧ P a e1 ∧ P b e2 := by
  induction ns generalizing r with
  | nil =>
    cases h with
    | cons h1 h =>
      cases h with
      | cons h2 h =>
        cases h
        exact ⟨[], _, _, rfl, .nil, h1, h2⟩
  | cons n ns ih =>
    cases h with
    | cons h1 h =>
      obtain ⟨es, e1, e2, rfl, k1, k2, k3⟩ := ih h
      exact ⟨_ :: es, e1, e2, rfl, .cons h1 k1, k2, k3⟩

theorem fromEnd_two {α : Type} (l : List α) (a b : α) :
    PatchSweep.fromEnd (l ++ [a, b]) 2 = .ok a ∧ PatchSweep.fromEnd (l ++ [a, b]) 1 = .ok b := by
  simp [PatchSweep.fromEnd, rd]

/-- C82: the order that is reported is computed from the errors of the last two sizes of the sweep. -/
theorem C82_order_of_last_two (p : PatchSweep K) (lu : PetscLU K) (log : K → K) (hR : Proper p.rect) (hE : EllipticOn p.solver p.rect)
    {ns : List Nat} {n1 n2 : Nat} (hn : ∀ n ∈ ns, 2 ≤ n) (h1 : 2 ≤ n1) (h2 : 2 ≤ n2) :
    (p.main lu log (ns ++ [n1, n2])).Returns (fun r => ∃ es e1 e2, r = (es ++ [e1, e2], log (e2 / e1) / log ((n1 : K) / n2)) ∧
      List.Forall₂ p.IsError ns es ∧ p.IsError n1 e1 ∧ p.IsError n2 e2) := by
  obtain ⟨r, r1, r2⟩ := C82_errors p lu hR hE (ns := ns ++ [n1, n2]) (by
    intro n h
    rcases List.mem_append.mp h with h | h
    · exact hn n h
    · rcases List.mem_cons.mp h with rfl | h
      · exact h1
      · rw [List.mem_singleton.mp h]; exact h2)
  obtain ⟨es, e1, e2, rfl, k1, k2, k3⟩ := forall₂_last_two r2
  refine ⟨_, ?_, es, e1, e2, rfl, k1, k2, k3⟩
  unfold PatchSweep.main PatchSweep.order
  rw [r1, Res.ok_bind, (fromEnd_two es e1 e2).1, (fromEnd_two es e1 e2).2, (fromEnd_two ns n1 n2).1, (fromEnd_two ns n1 n2).2]
  rfl

/-- C82: with fewer than two sizes the errors are read outside the vector. -/
theorem C82_one_size_wrong (p : PatchSweep K) (lu : PetscLU K) (log : K → K) (hR : Proper p.rect) (hE : EllipticOn p.solver p.rect)
    {n : Nat} (hn : 2 ≤ n) : p.main lu log [n] = .ub ∧ p.main lu log [] = .ub := by
  constructor
  · obtain ⟨r, r1, r2⟩ := C82_errors p lu hR hE (ns := [n]) (by simpa using hn)
    cases r2 with
    | cons h h' =>
      cases h'
      unfold PatchSweep.main
      rw [r1]
      rfl
  · rfl

end

/-! ## The order of convergence -/

/-- The two derivatives across the West side, and the sizes, that keep the error from being smaller than second order. -/
structure PatchSweep.SecondOrder (p : PatchSweep ℝ) (Dx Dy Bx By : Nat → ℝ → ℝ → ℝ) : Prop where
  proper : Proper p.rect
  elliptic : EllipticOn p.solver p.rect
  beta : ∃ B, Derivs p.rect p.solver.beta Bx By B
  exact : ∃ M, Derivs p.rect p.uExact Dx Dy M
  equation : Classical p.solver p.rect p.uExact Dx Dy Bx By p.fRHS
  lambda : ∃ Λ, ∀ x y, Inside p.rect x y → |p.solver.lambda x y / p.solver.alpha x y| ≤ Λ
  curved : ∃ μ, 0 < μ ∧ ∀ y ∈ Set.Icc p.yl p.yu, μ ≤ |Dx 2 p.xl y|

/-- The reported error is of second order and of no higher order. -/
theorem PatchSweep.error_between {p : PatchSweep ℝ} {Dx Dy Bx By : Nat → ℝ → ℝ → ℝ} (h : p.SecondOrder Dx Dy Bx By) :
    ∃ c C : ℝ, 0 < c ∧ 0 < C ∧ (∀ n e, 2 ≤ n → p.IsError n e → e ≤ C / n ^ 2) ∧ ∃ n0 : Nat, ∀ n e, n0 ≤ n → p.IsError n e → c / n ^ 2 ≤ e := by
  obtain ⟨hR, hE, ⟨B, hβ⟩, ⟨M, hu⟩, hf, ⟨Λ, hΛ⟩, μ, μ0, hμ⟩ := h
  obtain ⟨b0, h0, hb⟩ := hβ.lower hR (fun x y h => (hE x y h).1)
  have B0 := hβ.nonneg hR
  have M0 := hu.nonneg hR
  have r1 := hR.1
  have r2 := hR.2
  obtain ⟨L, eL⟩ : ∃ L, L = (p.rect.xu - p.rect.xl) + (p.rect.yu - p.rect.yl) := ⟨_, rfl⟩
  have L0 : 0 < L := by linarith
  obtain ⟨C', eC⟩ : ∃ C', C' = (2 / b0 + (1 + L) ^ 3 * top p.rect b0 B / drop p.rect b0 B) * (B * M) := ⟨_, rfl⟩
  have hC' : 0 ≤ C' := by
    have : 0 ≤ top p.rect b0 B := by unfold top; positivity
    have := drop_pos hR h0 B0
    rw [eC]
    positivity
  obtain ⟨c, c0, n0, hc⟩ := error_below hR hE h0 hb hβ hu hf hΛ μ0 hμ
  refine ⟨c, C' * ((p.rect.xu - p.rect.xl) ^ 2 + (p.rect.yu - p.rect.yl) ^ 2) + 1, c0, by positivity, ?_, n0, ?_⟩
  · rintro n e hn ⟨U, hU, _, i, hi, j, hj, rfl⟩
    have := error_bound hR hE h0 hb hβ hu hf (L := L) (by linarith) (by linarith) hn
      (g := midpointValues p.rect n p.uExact) (fun k _ => ⟨rfl, rfl, rfl, rfl⟩) hU i hi j hj
    refine this.trans ?_
    rw [← eC, add_div]
    have : 0 ≤ 1 / (n : ℝ) ^ 2 := by positivity
    refine le_trans (le_of_eq ?_) (le_add_of_nonneg_right this)
    unfold hx hy
    ring
  · rintro n e hn ⟨U, hU, he, _⟩
    obtain ⟨i, hi, j, hj, h⟩ := hc n hn (midpointValues p.rect n p.uExact) (fun k _ => ⟨rfl, rfl, rfl, rfl⟩) U hU
    exact h.trans (he i hi j hj)

/-- C82, exact order: for a smooth problem whose solution is curved across the West side the reported errors lie between two positive
multiples of the inverse square of the number of cells per side. -/
theorem C82_errors_between {p : PatchSweep ℝ} {Dx Dy Bx By : Nat → ℝ → ℝ → ℝ} (h : p.SecondOrder Dx Dy Bx By) :
    ∃ c C : ℝ, 0 < c ∧ 0 < C ∧ ∃ n0 : Nat, ∀ lu : PetscLU ℝ, ∀ ns : List Nat, (∀ n ∈ ns, 2 ≤ n) →
      (p.errors lu ns).Returns (fun es => List.Forall₂ (fun (n : Nat) e => e ≤ C / n ^ 2 ∧ (n0 ≤ n → c / n ^ 2 ≤ e)) ns es) := by
  obtain ⟨c, C, c0, C0, hC, n0, hc⟩ := p.error_between h
  refine ⟨c, C, c0, C0, n0, fun lu ns hn => ?_⟩
  obtain ⟨es, e1, e2⟩ := C82_errors p lu h.proper h.elliptic hn
  refine ⟨es, e1, ?_⟩
  clear e1
  induction e2 with
  | nil => exact .nil
  | @cons n e ns es k1 _ ih =>
    exact .cons ⟨hC n e (hn n (by simp)) k1, fun h => hc n e h k1⟩ (ih (fun m hm => hn m (by simp [hm])))

/-- The order computed from two errors of second order. -/
theorem order_near {c C e1 e2 n1 n2 : ℝ} (c0 : 0 < c) (h0 : 0 < n1) (h12 : n1 < n2) (l1 : c / n1 ^ 2 ≤ e1) (u1 : e1 ≤ C / n1 ^ 2)
    (l2 : c / n2 ^ 2 ≤ e2) (u2 : e2 ≤ C / n2 ^ 2) :
    |Real.log (e2 / e1) / Real.log (n1 / n2) - 2| ≤ Real.log (C / c) / Real.log (n2 / n1) := by
  have n20 : 0 < n2 := by linarith
  have e10 : 0 < e1 := lt_of_lt_of_le (by positivity) l1
  have e20 : 0 < e2 := lt_of_lt_of_le (by positivity) l2
  have C0 : 0 < C := by
    by_contra hC
    have : C / n1 ^ 2 ≤ 0 := div_nonpos_of_nonpos_of_nonneg (by linarith) (by positivity)
    linarith
  obtain ⟨w, hw⟩ : ∃ w, w = Real.log (n2 / n1) := ⟨_, rfl⟩
  have w0 : 0 < w := by rw [hw]; exact Real.log_pos (by rw [lt_div_iff₀ h0]; linarith)
  have ew : Real.log (n1 / n2) = -w := by
    rw [hw, Real.log_div h0.ne' n20.ne', Real.log_div n20.ne' h0.ne']; ring
  have ew' : w = Real.log n2 - Real.log n1 := by rw [hw, Real.log_div n20.ne' h0.ne']
  have a1 := Real.log_le_log (by positivity) l1
  have a2 := Real.log_le_log e10 u1
  have a3 := Real.log_le_log (by positivity) l2
  have a4 := Real.log_le_log e20 u2
  rw [Real.log_div c0.ne' (by positivity), Real.log_pow] at a1 a3
  rw [Real.log_div C0.ne' (by positivity), Real.log_pow] at a2 a4
  push_cast at a1 a2 a3 a4
  rw [ew, ← hw, Real.log_div e20.ne' e10.ne', Real.log_div C0.ne' c0.ne', abs_le]
  have e : (Real.log e2 - Real.log e1) / -w - 2 = (Real.log e1 - Real.log e2 - 2 * w) / w := by field_simp; ring
  rw [e, ← neg_div, div_le_div_iff_of_pos_right w0, div_le_div_iff_of_pos_right w0]
  constructor <;> linarith

/-- C82, the reported order: from sizes on the order misses two by at most a constant divided by the logarithm of the ratio of the last two
sizes.  Missing for the full statement: that the order tends to two when the ratio stays fixed, as in the program, where every size is
twice the one before. -/
theorem C82_order_partial {p : PatchSweep ℝ} {Dx Dy Bx By : Nat → ℝ → ℝ → ℝ} (h : p.SecondOrder Dx Dy Bx By) :
    ∃ k : ℝ, ∃ n0 : Nat, ∀ lu : PetscLU ℝ, ∀ (ns : List Nat) (n1 n2 : Nat), (∀ n ∈ ns, 2 ≤ n) → 2 ≤ n1 → n0 ≤ n1 → n1 < n2 →
      (p.main lu Real.log (ns ++ [n1, n2])).Returns (fun r => |r.2 - 2| ≤ k / Real.log (n2 / n1)) := by
  obtain ⟨c, C, c0, C0, hC, n0, hc⟩ := p.error_between h
  refine ⟨Real.log (C / c), n0, fun lu ns n1 n2 hn h1 h0 h12 => ?_⟩
  obtain ⟨r, r1, es, e1, e2, rfl, _, k1, k2⟩ := C82_order_of_last_two p lu Real.log h.proper h.elliptic hn h1 (by omega : 2 ≤ n2)
  refine ⟨_, r1, ?_⟩
  exact order_near c0 (by positivity) (by exact_mod_cast h12) (hc n1 e1 h0 k1) (hC n1 e1 h1 k1) (hc n2 e2 (by omega) k2)
    (hC n2 e2 (by omega) k2)

/-! ### The program as shipped -/

/-- The program as shipped.  examples/patch-solver/main.cpp:29-42, 69-79, 91-94. -/
noncomputable def shippedSweep : PatchSweep ℝ :=
  ⟨⟨fun _ _ => 1, fun _ _ => 1, fun _ _ => 0⟩, -1, 1, -1, 1, sinSum, fun x y => -sinSum x y⟩

theorem constant_derivs (R : Rect ℝ) : Derivs R (fun _ _ => (1 : ℝ)) (fun k _ _ => if k = 0 then 1 else 0) (fun k _ _ => if k = 0 then 1 else 0) 1 := by
  refine ⟨rfl, rfl, fun y _ => ⟨fun k _ x _ => ?_, fun k _ x _ => ?_⟩, fun x _ => ⟨fun k _ y _ => ?_, fun k _ y _ => ?_⟩⟩
  · simpa using hasDerivWithinAt_const x _ (if k = 0 then (1 : ℝ) else 0)
  · dsimp only; split_ifs <;> norm_num
  · simpa using hasDerivWithinAt_const y _ (if k = 0 then (1 : ℝ) else 0)
  · dsimp only; split_ifs <;> norm_num

/-- C82 for the program as shipped: the hypotheses of `C82_errors_between` and `C82_order_partial` hold. -/
theorem C82_shipped : shippedSweep.SecondOrder sinD (fun k x y => sinD k y x) (fun k _ _ => if k = 0 then 1 else 0)
    (fun k _ _ => if k = 0 then 1 else 0) := by
  refine ⟨⟨?_, ?_⟩, ?_, ⟨1, constant_derivs _⟩, ⟨2, sinSum_derivs _⟩, ?_, ⟨0, ?_⟩, ⟨Real.sin 1, ?_, ?_⟩⟩
  · norm_num [shippedSweep, PatchSweep.rect]
  · norm_num [shippedSweep, PatchSweep.rect]
  · intro x y _
    norm_num [shippedSweep]
  · intro x y hxy
    have := sinSum_poisson shippedSweep.rect x y hxy
    simp only [shippedSweep] at this ⊢
    norm_num
    linarith
  · intro x y _
    simp [shippedSweep]
  · exact Real.sin_pos_of_pos_of_lt_pi one_pos (by linarith [Real.two_le_pi])
  · intro y _
    have : sinD 2 (-1) y = Real.sin 1 := by
      unfold sinD
      rw [show (-1 : ℝ) + ((2 : Nat) : ℝ) * (Real.pi / 2) = Real.pi - 1 by push_cast; ring, Real.sin_pi_sub]
      simp
    show Real.sin 1 ≤ |sinD 2 (-1) y|
    rw [this]
    exact le_abs_self _

/-- The sizes of the program as shipped meet the hypotheses of `C82_errors` and `C82_order_of_last_two`. -/
example (lu : PetscLU ℝ) : (shippedSweep.main lu Real.log [8, 16, 32, 64, 128]).Returns (fun r => r.1.length = 5) := by
  obtain ⟨r, h, es, e1, e2, rfl, k, _⟩ := C82_order_of_last_two shippedSweep lu Real.log C82_shipped.proper C82_shipped.elliptic
    (ns := [8, 16, 32]) (n1 := 64) (n2 := 128) (by simp) (by omega) (by omega)
  refine ⟨_, h, ?_⟩
  have := k.length_eq
  simp only [List.length_append, List.length_cons, List.length_nil] at this ⊢
  omega

/-! ## C69: no better than second order -/

/-- What holds for every cell of every leaf holds for every cell of the global grid. -/
theorem HPS.Placed.grid_of_leaf {K : Type} [Field K] [CharZero K] {N : Nat} (hN : 0 < N) {t : Tree (Patch K)} {R : Rect K} (ht : Placed N t R) {d : Nat} (hu : Uniform d t)
    (v : Patch K → Vec K) (P : K → K → K → Prop)
    (h : ∀ p ∈ t.leaves, ∀ i, i < N → ∀ j, j < N → P (cx (rect p.grid) N i) (cy (rect p.grid) N j) ((v p).data.getD (j + i * N) 0)) :
    ∀ i, i < N * 2 ^ d → ∀ j, j < N * 2 ^ d → P (cx R (N * 2 ^ d) i) (cy R (N * 2 ^ d) j) (gridFn N v t i j) := by
  induction ht generalizing d with
  | @leaf p R hx hy hR =>
    cases hu
    intro i hi j hj
    have := h p (by simp [Tree.leaves]) i (by simpa using hi) j (by simpa using hj)
    rw [rect_eq hR] at this
    simpa [gridFn] using this
  | @node p R c0 c1 c2 c3 h0 h1 h2 h3 i0 i1 i2 i3 =>
    cases hu with
    | @node d' _ _ _ _ _ u0 u1 u2 u3 =>
    have hn : 0 < N * 2 ^ d' := by positivity
    have e : N * 2 ^ (d' + 1) = 2 * (N * 2 ^ d') := by ring
    rw [e]
    have hc := cells_uniform (N := N) u0
    replace i0 := i0 u0 (fun p hp => h p (by simp [Tree.leaves, hp]))
    replace i1 := i1 u1 (fun p hp => h p (by simp [Tree.leaves, hp]))
    replace i2 := i2 u2 (fun p hp => h p (by simp [Tree.leaves, hp]))
    replace i3 := i3 u3 (fun p hp => h p (by simp [Tree.leaves, hp]))
    generalize N * 2 ^ d' = n at *
    intro i hi j hj
    rw [gridFn, hc]
    by_cases hi' : i < n <;> by_cases hj' : j < n
    · have := i0 i hi' j hj'
      rw [cx_quarter R hn, cy_quarter R hn (by omega)] at this
      simpa [hi', hj'] using this
    · obtain ⟨k, rfl⟩ : ∃ k, j = n + k := ⟨j - n, by omega⟩
      have := i2 i hi' k (by omega)
      rw [cx_quarter R hn, cy_quarter R hn (by omega)] at this
      simpa [hi', hj'] using this
    · obtain ⟨k, rfl⟩ : ∃ k, i = n + k := ⟨i - n, by omega⟩
      have := i1 k (by omega) j hj'
      rw [cx_quarter R hn, cy_quarter R hn (by omega)] at this
      simpa [hi', hj'] using this
    · obtain ⟨k, rfl⟩ : ∃ k, i = n + k := ⟨i - n, by omega⟩
      obtain ⟨l, rfl⟩ : ∃ l, j = n + l := ⟨j - n, by omega⟩
      have := i3 k (by omega) l (by omega)
      rw [cx_quarter R hn, cy_quarter R hn (by omega)] at this
      simpa [hi', hj'] using this

/-- C69, no better than second order: when the solution is curved across the West side, on every fine enough uniformly refined mesh some
cell of some leaf has an error of at least a positive constant divided by the square of the number of cells per side. -/
theorem C69_no_better {s : FVSolver ℝ} {R : Rect ℝ} (hR : Proper R) (hE : EllipticOn s R) {Bx By : Nat → ℝ → ℝ → ℝ} {B : ℝ}
    (hβ : Derivs R s.beta Bx By B) {u : ℝ → ℝ → ℝ} {Dx Dy : Nat → ℝ → ℝ → ℝ} {M : ℝ} (hu : Derivs R u Dx Dy M) {f : ℝ → ℝ → ℝ}
    (hf : Classical s R u Dx Dy Bx By f) {Λ μ : ℝ} (hΛ : ∀ x y, Inside R x y → |s.lambda x y / s.alpha x y| ≤ Λ) (hμ0 : 0 < μ)
    (hμ : ∀ y ∈ Set.Icc R.yl R.yu, μ ≤ |Dx 2 R.xl y|) :
    ∃ c, 0 < c ∧ ∃ m : Nat, ∀ (lap : Lapack ℝ) (lu : PetscLU ℝ) (N : Nat), 2 ≤ N → ∀ opt : HPSOptions, opt.cacheOperators = false →
      opt.homogeneousRhs = false → ∀ t : Tree (Patch ℝ), Init N t R → ∀ d, Uniform d t → m ≤ N * 2 ^ d →
      ∃ t1 c1 t3, buildStage lap (s.toPatchSolver lu) opt t none = .ok (t1, c1) ∧
        (Request.functions f (fun _ x y => (u x y, 1, 0))).run lap (s.toPatchSolver lu) opt t1 = .ok t3 ∧
        ∃ p ∈ t3.leaves, ∃ i, i < N ∧ ∃ j, j < N ∧
          c / (N * 2 ^ d) ^ 2 ≤ |p.u.data.getD (j + i * N) 0 - u (cx (rect p.grid) N i) (cy (rect p.grid) N j)| := by
  obtain ⟨b0, h0, hb⟩ := hβ.lower hR (fun x y h => (hE x y h).1)
  obtain ⟨c, c0, m, hc⟩ := error_below hR hE h0 hb hβ hu hf hΛ hμ0 hμ
  refine ⟨c, c0, m, ?_⟩
  intro lap lu N hN opt hca ho t ht d hd hm
  have hs := FVSolver.shapes lu s hN
  obtain ⟨t1, c1, t3, e1, e2, e3, _⟩ := C20_stages_succeed_functions lap (by omega) hs ho ht (Or.inr ⟨d, hd⟩) f (fun _ x y => (u x y, 1, 0))
  refine ⟨t1, c1, t3, e1, e2, ?_⟩
  have hU := C18_global_finite_volume_functions lap lu hN hca ho ht hd hR hE f (fun _ x y => u x y) e1 e2
  have pl := (C20_leaves_in_place lap (by omega) hs ho ht (Or.inr ⟨d, hd⟩) f _ e1 e2).1
  have hd3 : Uniform d t3 := uniform_shape.mp (e3 ▸ uniform_shape.mpr hd)
  obtain ⟨i, hi, j, hj, hij⟩ := hc (N * 2 ^ d) hm (dirichletAt R (N * 2 ^ d) (fun _ x y => u x y)) (fun k _ => ⟨rfl, rfl, rfl, rfl⟩) _ hU
  by_contra hno
  push Not at hno
  have := pl.grid_of_leaf (by omega) hd3 (·.u) (fun x y v => |v - u x y| < c / (N * 2 ^ d) ^ 2) hno i hi j hj
  push_cast at hij
  linarith

/-- The hypotheses of `C69_no_better` hold for `div(eˣ grad u) - u = f` with solution `eˣ⁺ʸ` on the unit square. -/
example : (∀ x y, Inside unitSquareR x y → |expPde.lambda x y / expPde.alpha x y| ≤ 1) ∧
    ∀ y ∈ Set.Icc unitSquareR.yl unitSquareR.yu, 1 ≤ |Real.exp (unitSquareR.xl + y)| := by
  refine ⟨fun x y _ => by norm_num [expPde], fun y hy => ?_⟩
  have h0 : (0 : ℝ) ≤ y := hy.1
  rw [abs_of_pos (Real.exp_pos _)]
  refine Real.one_le_exp ?_
  simpa [unitSquareR] using h0

end EF
