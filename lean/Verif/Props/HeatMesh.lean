import Verif.Spec.HeatMesh
import Verif.Props.Mixed
import Verif.Props.Thermal
import Verif.Props.Damped

/-!
# The time loop of the thermal example on adaptive meshes (C68)
-/

namespace EF

open Finset FV HPS Thermal

variable {K : Type} [Field K] [LinearOrder K] [IsStrictOrderedRing K] {N : Nat}

/-! ## Functions with given values at the cell centres -/

omit [LinearOrder K] [IsStrictOrderedRing K] in
theorem Pieces.Everywhere.mono {A B : Type} {P Q : A → B → Rect K → Prop} (h : ∀ a b R, P a b R → Q a b R) :
    ∀ {a : Pieces A} {b : Pieces B} {R : Rect K}, a.Everywhere P b R → a.Everywhere Q b R
  | .one _, .one _, _, hp => h _ _ _ hp
  | .four _ _ _ _, .four _ _ _ _, _, ⟨h0, h1, h2, h3⟩ => ⟨h0.mono h, h1.mono h, h2.mono h, h3.mono h⟩
  | .one _, .four _ _ _ _, _, hp => hp.elim
  | .four _ _ _ _, .one _, _, hp => hp.elim

omit [LinearOrder K] [IsStrictOrderedRing K] in
theorem Pieces.Everywhere.and {A B : Type} {P Q : A → B → Rect K → Prop} :
    ∀ {a : Pieces A} {b : Pieces B} {R : Rect K}, a.Everywhere P b R → a.Everywhere Q b R → a.Everywhere (fun u v R => P u v R ∧ Q u v R) b R
  | .one _, .one _, _, hp, hq => ⟨hp, hq⟩
  | .four _ _ _ _, .four _ _ _ _, _, ⟨h0, h1, h2, h3⟩, ⟨k0, k1, k2, k3⟩ => ⟨h0.and k0, h1.and k1, h2.and k2, h3.and k3⟩
  | .one _, .four _ _ _ _, _, hp, _ => hp.elim
  | .four _ _ _ _, .one _, _, hp, _ => hp.elim

theorem cx_between {R : Rect K} (hR : Proper R) {i : Nat} (hi : i < N) : R.xl < cx R N i ∧ cx R N i < R.xu := by
  have hN : (0 : K) < N := by exact_mod_cast (by omega : 0 < N)
  have h1 := hx_pos hR (nx := N) (by omega)
  have hi' : (i : K) + 1 ≤ N := by exact_mod_cast hi
  have e : R.xl + N * hx R N = R.xu := by unfold hx; field_simp; ring
  have hi0 : (0 : K) ≤ i := Nat.cast_nonneg i
  unfold cx
  constructor
  · nlinarith
  · rw [← e]; nlinarith

theorem cy_between {R : Rect K} (hR : Proper R) {i : Nat} (hi : i < N) : R.yl < cy R N i ∧ cy R N i < R.yu := by
  have hN : (0 : K) < N := by exact_mod_cast (by omega : 0 < N)
  have h1 := hy_pos hR (ny := N) (by omega)
  have hi' : (i : K) + 1 ≤ N := by exact_mod_cast hi
  have e : R.yl + N * hy R N = R.yu := by unfold hy; field_simp; ring
  have hi0 : (0 : K) ≤ i := Nat.cast_nonneg i
  unfold cy
  constructor
  · nlinarith
  · rw [← e]; nlinarith

theorem cx_inj {R : Rect K} (hR : Proper R) {i j : Nat} (hi : i < N) (h : cx R N i = cx R N j) : i = j := by
  have h1 := hx_pos hR (nx := N) (by omega)
  unfold cx at h
  have : (i : K) = j := by
    have := mul_right_cancel₀ h1.ne' (add_left_cancel h)
    linarith
  exact_mod_cast this

theorem cy_inj {R : Rect K} (hR : Proper R) {i j : Nat} (hi : i < N) (h : cy R N i = cy R N j) : i = j := by
  have h1 := hy_pos hR (ny := N) (by omega)
  unfold cy at h
  have : (i : K) = j := by
    have := mul_right_cancel₀ h1.ne' (add_left_cancel h)
    linarith
  exact_mod_cast this

/-- Any values at the cell centres of a mesh are those of a function. -/
theorem exists_fn {A B : Type} (F : A → B → Rect K → Nat → Nat → K) : ∀ {a : Pieces A} {b : Pieces B} {R : Rect K}, Proper R → a.Alike b →
    ∃ f : K → K → K, a.Everywhere (fun u v R => ∀ i, i < N → ∀ j, j < N → f (cx R N i) (cy R N j) = F u v R i j) b R ∧
      a.Everywhere (fun _ _ R' => R.xl ≤ R'.xl ∧ R'.xu ≤ R.xu ∧ R.yl ≤ R'.yl ∧ R'.yu ≤ R.yu ∧ Proper R') b R
  | .one u, .one v, R, hR, _ => by
    classical
    refine ⟨fun x y => if h : ∃ p : Nat × Nat, (p.1 < N ∧ p.2 < N) ∧ cx R N p.1 = x ∧ cy R N p.2 = y then F u v R h.choose.1 h.choose.2 else 0,
      fun i hi j hj => ?_, ⟨le_rfl, le_rfl, le_rfl, le_rfl, hR⟩⟩
    have h : ∃ p : Nat × Nat, (p.1 < N ∧ p.2 < N) ∧ cx R N p.1 = cx R N i ∧ cy R N p.2 = cy R N j := ⟨(i, j), ⟨hi, hj⟩, rfl, rfl⟩
    simp only [dif_pos h]
    rw [cx_inj hR h.choose_spec.1.1 h.choose_spec.2.1, cy_inj hR h.choose_spec.1.2 h.choose_spec.2.2]
  | .four a0 a1 a2 a3, .four b0 b1 b2 b3, R, hR, ⟨l0, l1, l2, l3⟩ => by
    obtain ⟨f0, e0, w0⟩ := exists_fn F (proper_quarter hR 0) l0
    obtain ⟨f1, e1, w1⟩ := exists_fn F (proper_quarter hR 1) l1
    obtain ⟨f2, e2, w2⟩ := exists_fn F (proper_quarter hR 2) l2
    obtain ⟨f3, e3, w3⟩ := exists_fn F (proper_quarter hR 3) l3
    obtain ⟨hx, hy⟩ := hR
    have mx1 : R.xl < (R.xl + R.xu) / 2 := by linarith
    have mx2 : (R.xl + R.xu) / 2 < R.xu := by linarith
    have my1 : R.yl < (R.yl + R.yu) / 2 := by linarith
    have my2 : (R.yl + R.yu) / 2 < R.yu := by linarith
    simp [Rect.quarter] at w0 w1 w2 w3
    refine ⟨fun x y => if x < (R.xl + R.xu) / 2 then if y < (R.yl + R.yu) / 2 then f0 x y else f2 x y
      else if y < (R.yl + R.yu) / 2 then f1 x y else f3 x y, ⟨?_, ?_, ?_, ?_⟩, ⟨?_, ?_, ?_, ?_⟩⟩
    · refine (e0.and w0).mono fun a b R' h i hi j hj => ?_
      obtain ⟨h, q1, q2, q3, q4, q5⟩ := h
      obtain ⟨c1, c2⟩ := cx_between q5 hi
      obtain ⟨d1, d2⟩ := cy_between q5 hj
      beta_reduce
      rw [if_pos (by linarith), if_pos (by linarith), h i hi j hj]
    · refine (e1.and w1).mono fun a b R' h i hi j hj => ?_
      obtain ⟨h, q1, q2, q3, q4, q5⟩ := h
      obtain ⟨c1, c2⟩ := cx_between q5 hi
      obtain ⟨d1, d2⟩ := cy_between q5 hj
      beta_reduce
      rw [if_neg (by linarith), if_pos (by linarith), h i hi j hj]
    · refine (e2.and w2).mono fun a b R' h i hi j hj => ?_
      obtain ⟨h, q1, q2, q3, q4, q5⟩ := h
      obtain ⟨c1, c2⟩ := cx_between q5 hi
      obtain ⟨d1, d2⟩ := cy_between q5 hj
      beta_reduce
      rw [if_pos (by linarith), if_neg (by linarith), h i hi j hj]
    · refine (e3.and w3).mono fun a b R' h i hi j hj => ?_
      obtain ⟨h, q1, q2, q3, q4, q5⟩ := h
      obtain ⟨c1, c2⟩ := cx_between q5 hi
      obtain ⟨d1, d2⟩ := cy_between q5 hj
      beta_reduce
      rw [if_neg (by linarith), if_neg (by linarith), h i hi j hj]
    · exact w0.mono fun a b R' ⟨q1, q2, q3, q4, q5⟩ => ⟨by linarith, by linarith, by linarith, by linarith, q5⟩
    · exact w1.mono fun a b R' ⟨q1, q2, q3, q4, q5⟩ => ⟨by linarith, by linarith, by linarith, by linarith, q5⟩
    · exact w2.mono fun a b R' ⟨q1, q2, q3, q4, q5⟩ => ⟨by linarith, by linarith, by linarith, by linarith, q5⟩
    · exact w3.mono fun a b R' ⟨q1, q2, q3, q4, q5⟩ => ⟨by linarith, by linarith, by linarith, by linarith, q5⟩
  | .one _, .four _ _ _ _, _, _, h => h.elim
  | .four _ _ _ _, .one _, _, _, h => h.elim

/-! ## Changing the zeroth order term -/

/-- Another zeroth order term with another load. -/
theorem Composite.shift {beta f f' : K → K → K} {l l' : K} {M : Pieces (Nat → Nat → K)} {R : Rect K} {m : Nat} {g q : Nat → Nat → K}
    (h : Composite ⟨fun _ _ => 1, beta, fun _ _ => l⟩ f N M R m g q)
    (hf : M.Everywhere (fun u _ R => ∀ i, i < N → ∀ j, j < N → f' (cx R N i) (cy R N j) = f (cx R N i) (cy R N j) + (l' - l) * u i j) M R) :
    Composite ⟨fun _ _ => 1, beta, fun _ _ => l'⟩ f' N M R m g q := by
  induction h with
  | one hu hq =>
    refine .one (fun i hi j hj => ?_) hq
    have := hu i hi j hj
    rw [balance_lambda] at this ⊢
    have hf := hf i hi j hj
    beta_reduce at this ⊢
    rw [hf, ← this]
    ring
  | four h0 h1 h2 h3 hn hE hQ hg hq i0 i1 i2 i3 =>
    obtain ⟨k0, k1, k2, k3⟩ := hf
    exact .four (i0 k0) (i1 k1) (i2 k2) (i3 k3) hn hE hQ hg hq

omit [LinearOrder K] [IsStrictOrderedRing K] in
theorem Pieces.Everywhere.second {A B : Type} {P : B → Rect K → Prop} :
    ∀ {a : Pieces A} {b : Pieces B} {R : Rect K}, a.Everywhere (fun _ v R => P v R) b R → b.Everywhere (fun v _ R => P v R) b R
  | .one _, .one _, _, hp => hp
  | .four _ _ _ _, .four _ _ _ _, _, ⟨h0, h1, h2, h3⟩ => ⟨h0.second, h1.second, h2.second, h3.second⟩
  | .one _, .four _ _ _ _, _, hp => hp.elim
  | .four _ _ _ _, .one _, _, hp => hp.elim

/-- An implicit Euler step is the discretised equation with zeroth order term `-1/dt` and the load made of the old values. -/
theorem heat_iff {beta : K → K → K} {R : Rect K} {dt : K} (hdt : dt ≠ 0) {source f f' : K → K → K} {old new : Pieces (Nat → Nat → K)} {m : Nat}
    {g q : Nat → Nat → K}
    (h : old.Everywhere (fun u _ R => ∀ i, i < N → ∀ j, j < N → f (cx R N i) (cy R N j) = -(1 / dt) * u i j - source (cx R N i) (cy R N j)) new R)
    (h' : ChangeIs N dt source f' old new R) :
    Composite ⟨fun _ _ => 1, beta, fun _ _ => -1 / dt⟩ f N new R m g q ↔ Composite ⟨fun _ _ => 1, beta, fun _ _ => 0⟩ f' N new R m g q := by
  have key : old.Everywhere (fun _ v R => ∀ i, i < N → ∀ j, j < N → f' (cx R N i) (cy R N j) = f (cx R N i) (cy R N j) + 1 / dt * v i j) new R :=
    (h.and h').mono fun u v R ⟨a, b⟩ i hi j hj => by rw [a i hi j hj, b i hi j hj]; field_simp; ring
  constructor
  · refine fun hC => hC.shift (key.second.mono fun u _ R a i hi j hj => ?_)
    rw [a i hi j hj]
    ring
  · refine fun hC => hC.shift (key.second.mono fun u _ R a i hi j hj => ?_)
    rw [a i hi j hj]
    ring

/-! ## A pass of the loop -/

/-- The cell values before pass `k`: zero before the first. -/
def Thermal.before (N k : Nat) (t : Tree (Patch K)) : Pieces (Nat → Nat → K) :=
  if k = 0 then (treeCells N t).const (fun _ _ => 0) else treeCells N t

/-- The sources that enter pass `k`: none in pass 0. -/
def Thermal.source (c : Thermal K) (k : Nat) (x y : K) : K := if k = 0 then 0 else c.sources x y (c.time k)

omit [LinearOrder K] [IsStrictOrderedRing K] in
theorem Thermal.before_node {k : Nat} {p : Patch K} {c0 c1 c2 c3 : Tree (Patch K)} :
    Thermal.before N k (.node p c0 c1 c2 c3) =
      .four (Thermal.before N k c0) (Thermal.before N k c1) (Thermal.before N k c2) (Thermal.before N k c3) := by
  unfold Thermal.before
  split <;> rfl

omit [LinearOrder K] [IsStrictOrderedRing K] in
theorem leaf_grid {p : Patch K} {R : Rect K} (hx : p.grid.nx = N) (hy : p.grid.ny = N) (hI : InRect p R) :
    p.grid = ⟨N, N, R.xl, R.xu, R.yl, R.yu⟩ := by
  obtain ⟨h1, h2, h3, h4⟩ := hI
  cases h : p.grid
  simp only [h] at *
  subst hx h1 h2 h3 h4
  rw [hy]

/-- The load of a pass at the cell centres. -/
theorem load_everywhere {c : Thermal K} {k : Nat} {φ : Grid K → Vec K} {f : K → K → K} {t : Tree (Patch K)} {R : Rect K} (h : Placed N t R)
    (hl : ∀ p ∈ t.leaves, p.grid.nx = N → p.grid.ny = N → ∀ i, i < N → ∀ j, j < N → (φ p.grid).data.getD (j + i * N) 0 =
      if k = 0 then 0 else -(1 / c.dt) * p.u.data.getD (j + i * N) 0 - c.sources (p.grid.x i) (p.grid.y j) (c.time k))
    (hf : t.cuts.Everywhere (fun _ _ R => ∀ i, i < N → ∀ j, j < N → f (cx R N i) (cy R N j) =
      (φ ⟨N, N, R.xl, R.xu, R.yl, R.yu⟩).data.getD (j + i * N) 0) t.cuts R) {A : Type} {new : Pieces A} (hn : new.Alike t.cuts) :
    (Thermal.before N k t).Everywhere (fun u _ R => ∀ i, i < N → ∀ j, j < N →
      f (cx R N i) (cy R N j) = -(1 / c.dt) * u i j - c.source k (cx R N i) (cy R N j)) new R := by
  induction h generalizing new with
  | @leaf p R hx hy hI =>
    cases new with
    | four => exact hn.elim
    | one a =>
      have key : ∀ i, i < N → ∀ j, j < N → f (cx R N i) (cy R N j) =
          if k = 0 then 0 else -(1 / c.dt) * p.u.data.getD (j + i * N) 0 - c.sources (cx R N i) (cy R N j) (c.time k) := by
        intro i hi j hj
        rw [hf i hi j hj, ← leaf_grid hx hy hI, hl p (by simp [Tree.leaves]) hx hy i hi j hj, FVSolver.x_eq, FVSolver.y_eq, hx, hy]
        have hr : rect p.grid = R := by rw [leaf_grid hx hy hI]; rfl
        rw [hr]
      unfold Thermal.before Thermal.source
      split
      · intro i hi j hj
        rw [key i hi j hj]
        simp_all
      · intro i hi j hj
        rw [key i hi j hj]
        simp_all
  | @node p R c0 c1 c2 c3 h0 h1 h2 h3 i0 i1 i2 i3 =>
    cases new with
    | one => exact hn.elim
    | four n0 n1 n2 n3 =>
      obtain ⟨k0, k1, k2, k3⟩ := hn
      obtain ⟨f0, f1, f2, f3⟩ := hf
      rw [Thermal.before_node]
      simp only [Tree.leaves, List.mem_append] at hl
      exact ⟨i0 (fun p hp => hl p (.inl (.inl (.inl hp)))) f0 k0, i1 (fun p hp => hl p (.inl (.inl (.inr hp)))) f1 k1,
        i2 (fun p hp => hl p (.inl (.inr hp))) f2 k2, i3 (fun p hp => hl p (.inr hp)) f3 k3⟩

/-- The function gives the loads when it is sampled. -/
theorem sample_everywhere {φ ψ : Grid K → Vec K} {f : K → K → K} (hψ : ∀ grid, sampleLoad f grid = .ok (ψ grid))
    (hφ : ∀ grid : Grid K, grid.nx = N → grid.ny = N → (φ grid).size = N * N ∧ (φ grid).WF) {t : Tree (Patch K)} {R : Rect K} (h : Placed N t R)
    (hf : t.cuts.Everywhere (fun _ _ R => ∀ i, i < N → ∀ j, j < N → f (cx R N i) (cy R N j) =
      (φ ⟨N, N, R.xl, R.xu, R.yl, R.yu⟩).data.getD (j + i * N) 0) t.cuts R) : ∀ p ∈ t.leaves, φ p.grid = ψ p.grid := by
  induction h with
  | @leaf p R hx hy hI =>
    intro q hq
    simp only [Tree.leaves, List.mem_singleton] at hq
    subst hq
    obtain ⟨F, h1, χ, h2, h3⟩ := C33_load_sampled f q.grid
    rw [hψ] at h1
    obtain rfl := Res.ok_inj.mp h1
    rw [hx, hy] at h2 h3
    obtain ⟨s1, s2⟩ := hφ q.grid hx hy
    obtain ⟨χ', e⟩ := s2.has
    rw [s1] at e
    have e' := e
    rw [Vec.has_iff] at h2 e
    rw [h2, e]
    refine Vec.ofFn_congr fun k hk => ?_
    have hN : 0 < N := by
      rcases Nat.eq_zero_or_pos N with h | h
      · subst h; simp at hk
      · exact h
    have hi : k / N < N := Nat.div_lt_of_lt_mul hk
    have hj : k % N < N := Nat.mod_lt _ hN
    have ek : k % N + k / N * N = k := Nat.mod_add_div' k N
    have h4 := h3 (k / N) hi (k % N) hj
    rw [ek] at h4
    have h5 := hf (k / N) hi (k % N) hj
    rw [← leaf_grid hx hy hI, ek, e] at h5
    have h6 : (Vec.ofFn (N * N) χ').data.getD k 0 = χ' k := getD_listFn hk 0
    rw [h6] at h5
    have hr : rect q.grid = R := by rw [leaf_grid hx hy hI]; rfl
    rw [h4, hr, h5]
  | @node p R c0 c1 c2 c3 h0 h1 h2 h3 i0 i1 i2 i3 =>
    obtain ⟨f0, f1, f2, f3⟩ := hf
    intro q hq
    simp only [Tree.leaves, List.mem_append] at hq
    rcases hq with ((hq | hq) | hq) | hq
    · exact i0 f0 q hq
    · exact i1 f1 q hq
    · exact i2 f2 q hq
    · exact i3 f3 q hq

omit [LinearOrder K] [IsStrictOrderedRing K] in
/-- Conditions may be multiplied by numbers that are not zero. -/
theorem holds_scale {bc bc' : BoundaryFn K} (h : ∀ a, a < 4 → ∀ x y, ∃ r, r ≠ 0 ∧ bc' a x y = (r * (bc a x y).1, r * (bc a x y).2.1, r * (bc a x y).2.2))
    {R : Rect K} {m : Nat} {g q : Nat → Nat → K} : BoundaryHolds bc' R m g q ↔ BoundaryHolds bc R m g q := by
  refine forall_congr' fun a => forall_congr' fun ha => forall_congr' fun i => forall_congr' fun _ => ?_
  unfold sideData
  obtain ⟨r, hr, e⟩ := h a ha (sidePoint R m a i).1 (sidePoint R m a i).2
  rw [e]
  constructor
  · intro h
    refine mul_left_cancel₀ hr ?_
    linear_combination h
  · intro h
    linear_combination r * h

/-- The conditions of the example, with the outward normal. -/
def Thermal.conditions (c : Thermal K) (k : Nat) : BoundaryFn K :=
  heatConditions (fun x y => c.uWest x y (c.time k)) (fun x y => c.uEast x y (c.time k)) (fun x y => -c.dudnSouth x y (c.time k))
    (fun x y => c.dudnNorth x y (c.time k))

omit [LinearOrder K] [IsStrictOrderedRing K] in
theorem Thermal.conditions_eq (c : Thermal K) (k : Nat) : ∀ a, a < 4 → ∀ x y, ∃ r : K, r ≠ 0 ∧
    c.boundary k a x y = (r * (c.conditions k a x y).1, r * (c.conditions k a x y).2.1, r * (c.conditions k a x y).2.2) := by
  intro a ha x y
  refine ⟨if a = 2 then -1 else 1, by split_ifs <;> simp, ?_⟩
  have h4 : a = 0 ∨ a = 1 ∨ a = 2 ∨ a = 3 := by omega
  rcases h4 with rfl | rfl | rfl | rfl <;> simp [boundary, Thermal.conditions, heatConditions]

theorem Thermal.conditions_proper (c : Thermal K) (k : Nat) : BoundaryProper (c.conditions k) := by
  intro a ha x y
  have h4 : a = 0 ∨ a = 1 ∨ a = 2 ∨ a = 3 := by omega
  rcases h4 with rfl | rfl | rfl | rfl <;> simp [Thermal.conditions, heatConditions]

omit [LinearOrder K] [IsStrictOrderedRing K] in
theorem BoundaryRigid.scale {s : FVSolver K} {p : Pieces Unit} {R : Rect K} {bc bc' : BoundaryFn K} (hb : BoundaryRigid s N p R bc)
    (h : ∀ a, a < 4 → ∀ x y, ∃ r, r ≠ 0 ∧ bc' a x y = (r * (bc a x y).1, r * (bc a x y).2.1, r * (bc a x y).2.2)) : BoundaryRigid s N p R bc' := by
  intro M hM m g q hC hB
  refine hb M hM m g q hC ((holds_scale fun a ha x y => ?_).mp hB)
  obtain ⟨r, hr, e⟩ := h a ha x y
  exact ⟨r, hr, by simp only [BoundaryFn.zero, e, mul_zero]⟩

omit [LinearOrder K] [IsStrictOrderedRing K] in
theorem Thermal.before_alike {k : Nat} (t : Tree (Patch K)) : (Thermal.before N k t).Alike t.cuts := by
  induction t with
  | leaf p =>
    unfold Thermal.before
    split <;> trivial
  | node p c0 c1 c2 c3 i0 i1 i2 i3 =>
    rw [Thermal.before_node]
    exact ⟨i0, i1, i2, i3⟩

omit [Field K] [LinearOrder K] [IsStrictOrderedRing K] in
theorem cuts_alike (t : Tree (Patch K)) : t.cuts.Alike t.cuts := by
  induction t with
  | leaf p => trivial
  | node p c0 c1 c2 c3 i0 i1 i2 i3 => exact ⟨i0, i1, i2, i3⟩

/-- One pass, when the root of the discretised problem is well posed. -/
theorem Thermal.step_mesh (lap : Lapack K) (lu : PetscLU K) (c : Thermal K) {beta : K → K → K} (hN : 2 ≤ N) {opt : HPSOptions}
    (hc : opt.cacheOperators = false) (ho : opt.homogeneousRhs = false) {t : Tree (Patch K)} {R : Rect K} (ht : Init N t R)
    (h3 : 3 ≤ N ∨ ∃ d, Uniform d t) (hR : Proper R) (hb : ∀ x y, Inside R x y → 0 < beta x y) (hdt : 0 < c.dt)
    {t1 : Tree (Patch K)} {c1 : Option (Mat K)} (h1 : buildStage lap ((c.solver beta).toPatchSolver lu) opt t none = .ok (t1, c1))
    (hX : Branches (fun p => NonsingularMat p.X) t1) {k : Nat} (hB : BoundaryRigid (c.solver beta) N t.cuts R (c.conditions k))
    {t' : Tree (Patch K)} (hg : Good N opt R t t1 k t') :
    ∃ t3, step lap ((c.solver beta).toPatchSolver lu) opt c k t' = .ok t3 ∧ Good N opt R t t1 (k + 1) t3 ∧
      HeatStepOn beta N R c.dt (fun x y => c.uWest x y (c.time k)) (fun x y => c.uEast x y (c.time k))
        (fun x y => -c.dudnSouth x y (c.time k)) (fun x y => c.dudnNorth x y (c.time k)) (c.source k) (Thermal.before N k t') (treeCells N t3) ∧
      ∀ M : Pieces (Nat → Nat → K), M.Alike t.cuts →
        HeatStepOn beta N R c.dt (fun x y => c.uWest x y (c.time k)) (fun x y => c.uEast x y (c.time k))
          (fun x y => -c.dudnSouth x y (c.time k)) (fun x y => c.dudnNorth x y (c.time k)) (c.source k) (Thermal.before N k t') M →
        M.Same N (treeCells N t3) := by
  have hE : EllipticOn (c.solver beta) R := heat_elliptic hb hdt
  obtain ⟨φ, t2, t3, f1, f2, e2, e3, e4, g3, w3⟩ := step_ok lap (by omega) (FVSolver.shapes lu _ hN) ho ht h3 hR h1 c hg
  have g1 := good_built lap (by omega) (FVSolver.shapes lu (c.solver beta) hN) ht h3 h1
  have ec : t'.cuts = t.cuts := by rw [← t'.cuts_shape, hg.shape, t.cuts_shape]
  have ec1 : t1.cuts = t.cuts := by rw [← t1.cuts_shape, g1.shape, t.cuts_shape]
  have ec3 : t3.cuts = t.cuts := by rw [← t3.cuts_shape, g3.shape, t.cuts_shape]
  obtain ⟨f, hf, _⟩ := exists_fn (N := N) (A := Unit) (B := Unit) (fun _ _ R i j => (φ ⟨N, N, R.xl, R.xu, R.yl, R.yu⟩).data.getD (j + i * N) 0)
    (a := t.cuts) (b := t.cuts) hR (cuts_alike t)
  obtain ⟨ψ, q1, _⟩ := sampleLoad_fn f
  have hs := sample_everywhere q1 f2 g1.placed (by rw [ec1]; exact hf)
  have hrun : (Request.functions f (c.boundary k)).run lap ((c.solver beta).toPatchSolver lu) opt t1 = .ok t3 := by
    show (upwardsStageAnalytic _ _ _ f t1 >>= fun t2 => solveStageAnalytic _ _ _ _ t2) = _
    rw [upwardsStageAnalytic_eq lap _ opt q1, ← upwardsStage_congr lap _ opt (rhs := fun p => .ok { p with f := φ p.grid }), e2, Res.ok_bind, e3]
    intro p hp
    rw [hs p hp]
  obtain ⟨⟨m, g, q, _, hC, hH⟩, hU⟩ := C100_mixed_partial lap lu hN hc ho ht h3 hR hE f (c.boundary k) h1 hrun hX (hB.scale (c.conditions_eq k))
  have hload : ∀ {A : Type} {new : Pieces A}, new.Alike t.cuts → (Thermal.before N k t').Everywhere (fun u _ R => ∀ i, i < N → ∀ j, j < N →
      f (cx R N i) (cy R N j) = -(1 / c.dt) * u i j - c.source k (cx R N i) (cy R N j)) new R := by
    intro A new hn
    refine load_everywhere hg.placed (fun p hp x y => ?_) (by rw [ec]; exact hf) (by rw [ec]; exact hn)
    obtain ⟨_, _, z⟩ := hg.cells p hp
    obtain ⟨F, a1, _, _, a4⟩ := loadOf_ok c k (p := p) (by rw [x, y]; exact z)
    rw [f1 p hp] at a1
    obtain rfl := Res.ok_inj.mp a1
    rw [x, y] at a4
    exact a4
  have hal : (Thermal.before N k t').Alike (treeCells N t3) := by
    rw [treeCells_cuts, ec3, ← ec]
    exact Thermal.before_alike t'
  refine ⟨t3, e4, g3, ?_, fun M hM => ?_⟩
  · obtain ⟨f', hch, _⟩ := exists_fn (N := N) (fun u v R i j => (v i j - u i j) / c.dt - c.source k (cx R N i) (cy R N j)) hR hal
    exact ⟨f', m, g, q, hch, (heat_iff hdt.ne' (hload (by rw [← ec3]; exact treeCells_self t3)) hch).mp hC, (holds_scale (c.conditions_eq k)).mp hH⟩
  · rintro ⟨f', m', g', q', hch, hC', hB'⟩
    exact hU M hM m' g' q' ((heat_iff hdt.ne' (hload hM) hch).mpr hC') ((holds_scale (c.conditions_eq k)).mpr hB')

/-- The steps are short enough for the mesh: with the diffusion across the finest cells, up to a factor for each level by which the leaves
differ; and if they differ by two levels or more, patches can be halved that often. -/
def HPS.ShortSteps (N : Nat) (beta : K → K → K) (dt : K) (R : Rect K) (t : Tree (Patch K)) : Prop :=
  (∃ B, (∀ x y, Inside R x y → beta x y ≤ B) ∧
    6 * B * (17 / 8) ^ (high t - low t) * (1 / hx R (N * 2 ^ high t) ^ 2 + 1 / hy R (N * 2 ^ high t) ^ 2) * dt < 1) ∧
    (high t ≤ low t + 1 ∨ 2 ^ (high t - low t) ∣ N)

theorem HPS.ShortSteps.dominated {c : Thermal K} (hdt : 0 < c.dt) {beta : K → K → K} {R : Rect K} {t : Tree (Patch K)} (h : ShortSteps N beta c.dt R t) :
    Dominated N (c.solver beta) R t := by
  obtain ⟨⟨B, h1, h2⟩, h3⟩ := h
  refine ⟨⟨B, 1 / c.dt, fun x y hxy => ⟨h1 x y hxy, ?_⟩, ?_⟩, h3⟩
  · simp only [Thermal.solver, div_one, neg_div, le_refl]
  · rw [lt_div_iff₀ hdt]
    exact h2

/-! ## C68 -/

/-- C68 on adaptive meshes, what every pass does when the steps are short: the values in the cells after it are the one and only outcome of
an implicit Euler step of the discretisation on the mesh, from zero without sources in pass 0, from the values of the pass before with the
sources of the time of the pass in later ones; with the boundary data of the time of the pass, except that the flux through the South side
has its sign changed. -/
theorem C68_adaptive_actual (lap : Lapack K) (lu : PetscLU K) (c : Thermal K) {beta : K → K → K} (hN : 3 ≤ N) {opt : HPSOptions}
    (hc : opt.cacheOperators = false) (ho : opt.homogeneousRhs = false) {t : Tree (Patch K)} {R : Rect K} (ht : Init N t R) (hR : Proper R)
    (hb : ∀ x y, Inside R x y → 0 < beta x y) (hdt : 0 < c.dt) (hd : ShortSteps N beta c.dt R t) {t1 : Tree (Patch K)} {c1 : Option (Mat K)}
    (h1 : buildStage lap ((c.solver beta).toPatchSolver lu) opt t none = .ok (t1, c1)) {k : Nat} {t3 : Tree (Patch K)}
    (h : steps lap ((c.solver beta).toPatchSolver lu) opt c (k + 1) t1 = .ok t3) :
    ∃ t', steps lap ((c.solver beta).toPatchSolver lu) opt c k t1 = .ok t' ∧ (treeCells N t3).Alike t.cuts ∧
      ∀ step : Pieces (Nat → Nat → K) → Prop,
        step = HeatStepOn beta N R c.dt (fun x y => c.uWest x y (c.time k)) (fun x y => c.uEast x y (c.time k))
          (fun x y => -c.dudnSouth x y (c.time k)) (fun x y => c.dudnNorth x y (c.time k))
          (fun x y => if k = 0 then 0 else c.sources x y (c.time k))
          (if k = 0 then (treeCells N t').const (fun _ _ => 0) else treeCells N t') →
        step (treeCells N t3) ∧ ∀ M, M.Alike t.cuts → step M → M.Same N (treeCells N t3) := by
  have hE : EllipticOn (c.solver beta) R := heat_elliptic hb hdt
  have hD := hd.dominated hdt
  obtain ⟨t', e, g⟩ := steps_ok lap (by omega) (FVSolver.shapes lu _ (by omega)) ho ht (Or.inl hN) hR h1 c k
  obtain ⟨t3', e', g3, hS, hU⟩ := step_mesh lap lu c (by omega) hc ho ht (Or.inl hN) hR hb hdt h1
    (C86_nonsingular lap lu hN hc ht hR hE hD h1) (boundaryRigid_damped lap lu hN hc ht hR hE hD (c.conditions_proper k) h1) g
  rw [steps, e, Res.ok_bind, e'] at h
  obtain rfl := Res.ok_inj.mp h
  refine ⟨t', e, ?_, ?_⟩
  · rw [← t.cuts_shape, ← g3.shape, t3'.cuts_shape]
    exact treeCells_self t3'
  · rintro _ rfl
    exact ⟨hS, hU⟩

/-- C68 on adaptive meshes where it holds: with short steps and no flux prescribed on the South side, every pass is an implicit Euler step of
the discretisation of the heat equation on the mesh, and nothing else is.

Missing: fluxes on the South side (see `C68_south_flux_wrong`) and longer steps on meshes that are not uniform. -/
theorem C68_adaptive_partial (lap : Lapack K) (lu : PetscLU K) (c : Thermal K) {beta : K → K → K} (hN : 3 ≤ N) {opt : HPSOptions}
    (hc : opt.cacheOperators = false) (ho : opt.homogeneousRhs = false) {t : Tree (Patch K)} {R : Rect K} (ht : Init N t R) (hR : Proper R)
    (hb : ∀ x y, Inside R x y → 0 < beta x y) (hdt : 0 < c.dt) (hd : ShortSteps N beta c.dt R t) (hS : ∀ x y τ, c.dudnSouth x y τ = 0)
    {t1 : Tree (Patch K)} {c1 : Option (Mat K)} (h1 : buildStage lap ((c.solver beta).toPatchSolver lu) opt t none = .ok (t1, c1)) {k : Nat}
    {t3 : Tree (Patch K)} (h : steps lap ((c.solver beta).toPatchSolver lu) opt c (k + 1) t1 = .ok t3) :
    ∃ t', steps lap ((c.solver beta).toPatchSolver lu) opt c k t1 = .ok t' ∧ (treeCells N t3).Alike t.cuts ∧
      ∀ step : Pieces (Nat → Nat → K) → Prop,
        step = HeatStepOn beta N R c.dt (fun x y => c.uWest x y (c.time k)) (fun x y => c.uEast x y (c.time k))
          (fun x y => c.dudnSouth x y (c.time k)) (fun x y => c.dudnNorth x y (c.time k))
          (fun x y => if k = 0 then 0 else c.sources x y (c.time k))
          (if k = 0 then (treeCells N t').const (fun _ _ => 0) else treeCells N t') →
        step (treeCells N t3) ∧ ∀ M, M.Alike t.cuts → step M → M.Same N (treeCells N t3) := by
  have := C68_adaptive_actual lap lu c hN hc ho ht hR hb hdt hd h1 h
  simp only [hS, neg_zero] at this ⊢
  exact this

/-! ## An example -/

/-- A heat problem with steps of 1/600000 and sources. -/
def exShort : Thermal ℚ := ⟨0, 1 / 600000, fun _ y τ => 40 * y + τ, fun _ _ _ => 20, fun _ _ _ => 0, fun x _ _ => x, fun x y _ => x * y⟩

theorem exShort_short : ShortSteps 4 (fun x _ => 1 + x) exShort.dt unitSquare (freshTree 4 exThree unitSquare) := by
  have e1 : high (freshTree (K := ℚ) 4 exThree unitSquare) = 3 := rfl
  have e2 : low (freshTree (K := ℚ) 4 exThree unitSquare) = 1 := rfl
  refine ⟨⟨2, ?_, ?_⟩, Or.inr ?_⟩
  · intro x y h
    have h1 : x ≤ (1 : ℚ) := h.2.1
    linarith
  · rw [e1, e2]
    norm_num [hx, hy, unitSquare, exShort]
  · rw [e1, e2]
    norm_num

/-- The hypotheses hold for it, on a mesh with leaves on the levels one, two and three, and the hundredth pass. -/
example (lap : Lapack ℚ) (lu : PetscLU ℚ) : ∃ t1 c1 t3,
    buildStage lap ((exShort.solver fun x _ => 1 + x).toPatchSolver lu) ⟨false, false⟩ (freshTree 4 exThree unitSquare) none = .ok (t1, c1) ∧
      steps lap ((exShort.solver fun x _ => 1 + x).toPatchSolver lu) ⟨false, false⟩ exShort 100 t1 = .ok t3 ∧
      (∀ x y, Inside unitSquare x y → 0 < 1 + x) ∧ 0 < exShort.dt ∧ (∀ x y τ, exShort.dudnSouth x y τ = 0) ∧
      (treeCells 4 t3).Alike (freshTree (K := ℚ) 4 exThree unitSquare).cuts := by
  obtain ⟨t1, c1, t3, h1, h2, _⟩ := C68_steps_return lap lu exShort (fun x _ => 1 + x) (N := 4) (by omega) (opt := ⟨false, false⟩) rfl
    (freshTree_init 4 exThree unitSquare) (Or.inl (by omega)) exPde_elliptic_unit.1 100
  have hb : ∀ x y, Inside unitSquare x y → (0 : ℚ) < 1 + x := by
    intro x y h
    have h1 : (0 : ℚ) ≤ x := h.1
    linarith
  have hdt : 0 < exShort.dt := by norm_num [exShort]
  obtain ⟨_, _, ha, _⟩ := C68_adaptive_partial lap lu exShort (by omega) rfl rfl (freshTree_init 4 exThree unitSquare) exPde_elliptic_unit.1 hb hdt
    exShort_short (fun _ _ _ => rfl) h1 h2
  exact ⟨t1, c1, t3, h1, h2, hb, hdt, fun _ _ _ => rfl, ha⟩

end EF
