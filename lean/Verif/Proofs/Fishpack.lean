import Verif.Model.Fishpack
import Verif.Proofs.FVOperator
import Verif.Proofs.FVMax
import Mathlib.Tactic.LinearCombination

/-!
# The `FISHPACK90` solver type
-/

namespace EF

open Finset FV

variable {K : Type} [Field K]

/-- Two nested loops that assign every entry they visit once. -/
theorem Vec.fill2 {nx ny m : Nat} {pos : Nat → Nat → Nat} {val : Nat → Nat → K}
    (hpos : ∀ i, i < nx → ∀ j, j < ny → pos i j < m)
    (hinj : ∀ i j i' j', i < nx → j < ny → i' < nx → j' < ny → pos i j = pos i' j' → i = i' ∧ j = j')
    {body : Nat → Nat → Vec K → Res (Vec K)} (hb : ∀ i, i < nx → ∀ j, j < ny → ∀ v, body i j v = v.set (pos i j) (val i j))
    (φ0 : Nat → K) :
    ∃ φ, forN nx (fun i v => forN ny (fun j v => body i j v) v) (Vec.ofFn m φ0) = .ok (Vec.ofFn m φ) ∧
      ∀ i, i < nx → ∀ j, j < ny → φ (pos i j) = val i j := by
  obtain ⟨v, h1, φ, rfl, h2⟩ := FVSolver.forN_progress (n := nx) (body := fun i v => forN ny (fun j v => body i j v) v)
    (fun i0 (F : Vec K) => ∃ φ, F = Vec.ofFn m φ ∧ ∀ i, i < i0 → i < nx → ∀ j, j < ny → φ (pos i j) = val i j)
    (s := Vec.ofFn m φ0) ⟨φ0, rfl, fun i hi => by omega⟩
    (by
      rintro i0 F hi0 ⟨φ, rfl, hφ⟩
      obtain ⟨v, h1, φ', rfl, h2, h3⟩ := FVSolver.forN_progress (n := ny) (body := fun j v => body i0 j v)
        (fun j0 (F : Vec K) => ∃ φ, F = Vec.ofFn m φ ∧ (∀ i, i < i0 → i < nx → ∀ j, j < ny → φ (pos i j) = val i j) ∧
          ∀ j, j < j0 → j < ny → φ (pos i0 j) = val i0 j) (s := Vec.ofFn m φ) ⟨φ, rfl, hφ, fun j hj => by omega⟩
        (by
          rintro j0 F hj0 ⟨φ, rfl, h1, h2⟩
          refine ⟨_, by rw [hb i0 hi0 j0 hj0, Vec.set_ofFn (hpos i0 hi0 j0 hj0)], _, rfl, ?_, ?_⟩
          · intro i hi hi' j hj
            rw [if_neg (fun h => by have := (hinj _ _ _ _ hi' hj hi0 hj0 h).1; omega)]
            exact h1 i hi hi' j hj
          · intro j hj hj'
            by_cases hjj : j = j0
            · subst hjj; rw [if_pos rfl]
            · rw [if_neg (fun h => hjj (hinj _ _ _ _ hi0 hj' hi0 hj0 h).2)]
              exact h2 j (by omega) hj')
      refine ⟨_, h1, φ', rfl, ?_⟩
      intro i hi hi' j hj
      by_cases hii : i = i0
      · subst hii; exact h3 j hj hj
      · exact h2 i (by omega) hi' j hj)
  exact ⟨φ, h1, fun i hi j hj => h2 i hi hi j hj⟩

/-- `u_xx + u_yy + l u`. -/
def FVSolver.helmholtz (l : K) : FVSolver K := ⟨fun _ _ => 1, fun _ _ => 1, fun _ _ => l⟩

/-- The equations of `hstcrt` are the finite volume equations with constant coefficients. -/
theorem helmholtz_iff {R : Rect K} {M N : Nat} {b : Bdry K} {l : K} {f u : Nat → Nat → K} :
    HelmholtzEq R.xl R.xu M b.W b.E R.yl R.yu N b.S b.N l f u ↔ Solves (FVSolver.helmholtz l) R M N b f u := by
  have e : ∀ i j, ((if i = 0 then 2 * b.W j - u i j else u (i - 1) j) - 2 * u i j +
        (if i + 1 = M then 2 * b.E j - u i j else u (i + 1) j)) / ((R.xu - R.xl) / M) ^ 2 +
      ((if j = 0 then 2 * b.S i - u i j else u i (j - 1)) - 2 * u i j +
        (if j + 1 = N then 2 * b.N i - u i j else u i (j + 1))) / ((R.yu - R.yl) / N) ^ 2 +
      l * u i j = balance (FVSolver.helmholtz l) R M N b u i j := by
    intro i j
    simp only [balance, FVSolver.helmholtz, west, east, south, north, FV.hx, FV.hy]
    congr 1
    rw [one_mul]
    congr 2 <;> ring
  unfold HelmholtzEq Solves
  simp only [e]

theorem helmholtz_congr {A B C D : K} {M N : Nat} {a a' b b' c c' d d' : Nat → K} {l : K} {f f' u u' : Nat → Nat → K}
    (ha : ∀ j, j < N → a j = a' j) (hb : ∀ j, j < N → b j = b' j) (hc : ∀ i, i < M → c i = c' i) (hd : ∀ i, i < M → d i = d' i)
    (hf : ∀ i, i < M → ∀ j, j < N → f i j = f' i j) (hu : ∀ i, i < M → ∀ j, j < N → u i j = u' i j)
    (h : HelmholtzEq A B M a b C D N c d l f u) : HelmholtzEq A B M a' b' C D N c' d' l f' u' := by
  have h1 : Solves (FVSolver.helmholtz l) ⟨A, B, C, D⟩ M N ⟨a, b, c, d⟩ f u := helmholtz_iff.mp h
  exact helmholtz_iff (R := ⟨A, B, C, D⟩) (b := ⟨a', b', c', d'⟩) |>.mpr (h1.congr ha hb hc hd hf hu)

theorem Vec.getD_ofFn {n : Nat} (φ : Nat → K) {k : Nat} (hk : k < n) : (Vec.ofFn n φ).data.getD k 0 = φ k := by
  have := (Vec.has_ofFn n φ).2.2 k hk
  unfold Vec.get rd at this
  rw [if_neg (by rw [(Vec.has_ofFn n φ).1]; omega)] at this
  rw [List.getD_eq_getElem?_getD]
  cases h : (Vec.ofFn n φ).data[k]? with
  | none => rw [h] at this; simp at this
  | some a => rw [h] at this; simpa using this

/-- The values the routine writes for a Dirichlet problem. -/
theorem Hstcrt.call_ok [LinearOrder K] (h : Hstcrt K) {A B C D l : K} {n : Nat} (a b c d F : Nat → K) :
    ∃ O, h.call A B n 1 (Vec.ofFn n a) (Vec.ofFn n b) C D n 1 (Vec.ofFn n c) (Vec.ofFn n d) l (Vec.ofFn (n * n) F) n
        = .ok (Vec.ofFn (n * n) O) ∧
      (A < B → C < D → 3 ≤ n → Unique (FVSolver.helmholtz l) ⟨A, B, C, D⟩ n n →
        Solves (FVSolver.helmholtz l) ⟨A, B, C, D⟩ n n ⟨a, b, c, d⟩ (fun i j => F (i + j * n)) (fun i j => O (i + j * n))) ∧
      (B ≤ A ∨ D ≤ C ∨ n ≤ 2 → ∀ k, k < n * n → O k = F k) := by
  have len : ∀ m (φ : Nat → K), (Vec.ofFn m φ).data.length = m := fun m φ => (Vec.has_ofFn m φ).2.1
  refine ⟨h.out A B n 1 (fun j => (Vec.ofFn n a).data.getD j 0) (fun j => (Vec.ofFn n b).data.getD j 0) C D n 1
    (fun j => (Vec.ofFn n c).data.getD j 0) (fun j => (Vec.ofFn n d).data.getD j 0) l
    (fun j => (Vec.ofFn (n * n) F).data.getD j 0) n, ?_, ?_, ?_⟩
  · unfold Hstcrt.call
    simp only [len]
    rw [if_neg (by omega)]
    rfl
  · intro h1 h2 h3 hq
    refine helmholtz_iff.mp (helmholtz_congr (fun j hj => Vec.getD_ofFn a hj) (fun j hj => Vec.getD_ofFn b hj)
      (fun j hj => Vec.getD_ofFn c hj) (fun j hj => Vec.getD_ofFn d hj)
      (fun i hi j hj => Vec.getD_ofFn F (FVSolver.idx_lt (i := j) (j := i) hj hi)) (fun _ _ _ _ => rfl)
      (h.solves A B n (fun j => (Vec.ofFn n a).data.getD j 0) (fun j => (Vec.ofFn n b).data.getD j 0) C D n
        (fun j => (Vec.ofFn n c).data.getD j 0) (fun j => (Vec.ofFn n d).data.getD j 0) l
        (fun j => (Vec.ofFn (n * n) F).data.getD j 0) n h1 h2 (by omega) (by omega) (le_refl n) ?_))
    intro z hz
    have hz' : Solves (FVSolver.helmholtz l) ⟨A, B, C, D⟩ n n ⟨fun _ => 0, fun _ => 0, fun _ => 0, fun _ => 0⟩
        (fun _ _ => 0) z := helmholtz_iff.mp hz
    exact fun i hi j hj => hq _ _ _ _ hz' (solves_zero _ _ _ _) i hi j hj
  · intro hbad k hk
    rw [h.untouched A B n _ _ C D n _ _ l _ n (by tauto) k, Vec.getD_ofFn F hk]

namespace FVSolver

/-- `solve` with `FISHPACK90` on a square grid. -/
theorem solveFish_ok [LinearOrder K] (hst : Hstcrt K) (s : FVSolver K) {grid : Grid K} {n : Nat} (hx : grid.nx = n)
    (hy : grid.ny = n) (g f : Nat → K) :
    ∃ U, s.solveFish hst grid (Vec.ofFn (4 * n) g) (Vec.ofFn (n * n) f) = .ok (Vec.ofFn (n * n) U) ∧
      (3 ≤ n → Proper (rect grid) → Unique (helmholtz (s.lambda 0 0)) (rect grid) n n →
        Solves (helmholtz (s.lambda 0 0)) (rect grid) n n (Bdry.ofFn n g) (fun i j => f (j + i * n)) (fun i j => U (j + i * n))) ∧
      (n ≤ 2 → ∀ k, k < n * n → U k = f k) := by
  unfold solveFish
  simp only [hx, hy]
  rw [sides_ok hx g, Res.ok_bind]
  have inj : ∀ i j i' j', i < n → j < n → i' < n → j' < n → i + j * n = i' + j' * n → i = i' ∧ j = j' :=
    fun i j i' j' hi hj hi' hj' h => (idx_inj hi hi' h).symm
  obtain ⟨ψ, e1, h1⟩ := Vec.fill2 (nx := n) (ny := n) (m := n * n) (pos := fun i j => i + j * n)
    (val := fun i j => f (j + i * n)) (fun i hi j hj => idx_lt hj hi) inj
    (body := fun i j v => do
      let a ← (Vec.ofFn (n * n) f).get (j + i * n)
      v.set (i + j * n) a)
    (by intro i hi j hj v; rw [Vec.get_ofFn (idx_lt hi hj), Res.ok_bind]) (fun _ => 0)
  rw [Vec.zeros_eq, e1, Res.ok_bind]
  simp only []
  obtain ⟨O, e2, h2, h2'⟩ := hst.call_ok (A := grid.xl) (B := grid.xu) (C := grid.yl) (D := grid.yu) (l := s.lambda 0 0)
    (n := n) (Bdry.ofFn n g).W (Bdry.ofFn n g).E (Bdry.ofFn n g).S (Bdry.ofFn n g).N ψ
  rw [e2, Res.ok_bind]
  obtain ⟨U, e3, h3⟩ := Vec.fill2 (nx := n) (ny := n) (m := n * n) (pos := fun i j => j + i * n)
    (val := fun i j => O (i + j * n)) (fun i hi j hj => idx_lt hi hj)
    (fun i j i' j' hi hj hi' hj' h => idx_inj hj hj' h)
    (body := fun i j v => do
      let a ← rd (Vec.ofFn (n * n) O).data (i + j * n)
      v.set (j + i * n) a)
    (by
      intro i hi j hj v
      have := Vec.get_ofFn (f := O) (idx_lt (i := j) (j := i) hj hi)
      unfold Vec.get at this
      have hlt := idx_lt (i := j) (j := i) hj hi
      rw [if_neg (by rw [(Vec.has_ofFn _ _).1]; omega)] at this
      rw [this, Res.ok_bind]) (fun _ => 0)
  refine ⟨U, e3, ?_, ?_⟩
  · intro hn hp hq
    exact (h2 hp.1 hp.2 hn hq).congr (fun _ _ => rfl) (fun _ _ => rfl) (fun _ _ => rfl) (fun _ _ => rfl)
      (fun i hi j hj => h1 i hi j hj) (fun i hi j hj => (h3 i hi j hj).symm)
  · intro hn k hk
    obtain ⟨a, b, c⟩ := cell_idx hk
    have e := h3 (k / n) a (k % n) b
    rw [c] at e
    rw [e, h2' (by tauto) _ (idx_lt b a), h1 _ a _ b]
    rw [c]

end FVSolver
end EF

namespace EF

open FV

variable {K : Type} [Field K] [LinearOrder K] [IsStrictOrderedRing K]

omit [IsStrictOrderedRing K] in
/-- A routine satisfying the assumptions about `hstcrt` exists. -/
theorem Hstcrt.nonempty : Nonempty (Hstcrt K) := by
  classical
  let Ok : K → K → Nat → K → K → Nat → Nat → Prop := fun A B M C D N ld => A < B ∧ C < D ∧ 2 < M ∧ 2 < N ∧ M ≤ ld
  have ex : ∀ A B M a b C D N c d l (f : Nat → Nat → K),
      (∀ z : Nat → Nat → K, HelmholtzEq A B M (fun _ => 0) (fun _ => 0) C D N (fun _ => 0) (fun _ => 0) l (fun _ _ => 0) z →
        ∀ i, i < M → ∀ j, j < N → z i j = 0) → ∃ u, HelmholtzEq A B M a b C D N c d l f u := by
    intro A B M a b C D N c d l f hz
    have hq : FV.Unique (FVSolver.helmholtz l) ⟨A, B, C, D⟩ M N := by
      intro b' f' u v hu hv i hi j hj
      have h1 := hu.lin 1 (-1) hv
      have h2 : Solves (FVSolver.helmholtz l) ⟨A, B, C, D⟩ M N ⟨fun _ => 0, fun _ => 0, fun _ => 0, fun _ => 0⟩ (fun _ _ => 0)
          (fun i j => 1 * u i j + -1 * v i j) := by
        refine h1.congr ?_ ?_ ?_ ?_ ?_ (fun _ _ _ _ => rfl) <;> intros <;> simp [Bdry.lin]
      have := hz _ (helmholtz_iff.mpr h2) i hi j hj
      linear_combination this
    obtain ⟨u, hu⟩ := exists_of_unique hq ⟨a, b, c, d⟩ f
    exact ⟨u, helmholtz_iff.mpr hu⟩
  refine ⟨⟨fun A B M _ a b C D N _ c d l F ld k =>
    if Ok A B M C D N ld then
      if h : ∃ u, HelmholtzEq A B M a b C D N c d l (fun i j => F (i + j * ld)) u then h.choose (k % ld) (k / ld) else F k
    else F k, ?_, ?_⟩⟩
  · intro A B M a b C D N c d l F ld h1 h2 h3 h4 h5 hz
    have h := ex A B M a b C D N c d l (fun i j => F (i + j * ld)) hz
    have hok : Ok A B M C D N ld := ⟨h1, h2, h3, h4, h5⟩
    simp only [if_pos hok, dif_pos h]
    refine helmholtz_congr (fun _ _ => rfl) (fun _ _ => rfl) (fun _ _ => rfl) (fun _ _ => rfl) (fun _ _ _ _ => rfl) ?_
      h.choose_spec
    intro i hi j hj
    have e1 : (i + j * ld) % ld = i := by rw [Nat.add_mul_mod_self_right, Nat.mod_eq_of_lt (by omega)]
    have e2 : (i + j * ld) / ld = j := by
      rw [Nat.add_mul_div_right _ _ (by omega), Nat.div_eq_of_lt (by omega), Nat.zero_add]
    rw [e1, e2]
  · intro A B M a b C D N c d l F ld hbad k
    have hno : ¬ Ok A B M C D N ld := by
      rintro ⟨h1, h2, h3, h4, h5⟩
      rcases hbad with h | h | h | h | h
      · exact absurd h1 (not_lt.mpr h)
      · exact absurd h2 (not_lt.mpr h)
      all_goals omega
    exact if_neg hno

/-- Constant coefficients with `alpha * beta = 1`. -/
def FVSolver.Plain (s : FVSolver K) : Prop :=
  (∀ x y x' y', s.alpha x y * s.beta x' y' = 1) ∧ ∀ x y, s.lambda x y = s.lambda 0 0

omit [LinearOrder K] [IsStrictOrderedRing K] in
theorem FVSolver.Plain.balance {s : FVSolver K} (h : s.Plain) (R : Rect K) (nx ny : Nat) (b : Bdry K) (u : Nat → Nat → K)
    (i j : Nat) : FV.balance s R nx ny b u i j = FV.balance (helmholtz (s.lambda 0 0)) R nx ny b u i j := by
  simp only [FV.balance, helmholtz, h.2 (cx R nx i) (cy R ny j), one_mul]
  congr 1
  have := fun x' y' => h.1 (cx R nx i) (cy R ny j) x' y'
  simp only [mul_add, mul_sub, mul_div_assoc', ← mul_assoc, this, one_mul]

omit [LinearOrder K] [IsStrictOrderedRing K] in
theorem FVSolver.Plain.solves {s : FVSolver K} (h : s.Plain) {R : Rect K} {nx ny : Nat} {b : Bdry K} {f u : Nat → Nat → K} :
    Solves s R nx ny b f u ↔ Solves (helmholtz (s.lambda 0 0)) R nx ny b f u := by
  unfold Solves
  simp only [h.balance]

omit [LinearOrder K] [IsStrictOrderedRing K] in
theorem FVSolver.Plain.unique {s : FVSolver K} (h : s.Plain) {R : Rect K} {nx ny : Nat} :
    FV.Unique s R nx ny ↔ FV.Unique (helmholtz (s.lambda 0 0)) R nx ny := by
  unfold FV.Unique
  simp only [h.solves]

theorem helmholtz_unique {R : Rect K} (hR : Proper R) {l : K} (hl : l ≤ 0) (nx ny : Nat) :
    FV.Unique (FVSolver.helmholtz l) R nx ny :=
  unique_of_elliptic hR (fun x y _ => ⟨one_pos, one_ne_zero, by simpa [FVSolver.helmholtz] using hl⟩) nx ny

end EF
