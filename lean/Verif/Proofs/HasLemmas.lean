import Verif.Spec.Linear
import Verif.Proofs.BlockLemmas
import Mathlib.LinearAlgebra.Matrix.NonsingularInverse
import Mathlib.LinearAlgebra.Matrix.ToLinearEquiv
import Mathlib.Data.Rat.Init
import Mathlib.Algebra.Field.Rat

/-!
# The observational predicates agree with the canonical forms; existence of a `Lapack` instance.
-/

namespace EF

open Finset

variable {α K : Type}

theorem Vec.has_iff {v : Vec α} {n : Nat} {f : Nat → α} : v.Has n f ↔ v = Vec.ofFn n f := by
  constructor
  · rintro ⟨h1, h2, h3⟩
    cases v with
    | mk s d =>
      simp only at h1 h2
      subst h1
      simp only [Vec.ofFn, Vec.mk.injEq, true_and]
      apply eq_listFn h2
      intro i hi
      have := h3 i hi
      simp only [Vec.get] at this
      rw [if_neg (by omega), rd_eq_ok (by omega), Res.ok_inj] at this
      rw [List.getElem?_eq_getElem (by omega), this]
  · rintro rfl
    exact ⟨rfl, by simp, fun i hi => Vec.get_ofFn hi⟩

theorem Vec.has_ofFn (n : Nat) (f : Nat → α) : (Vec.ofFn n f).Has n f := Vec.has_iff.mpr rfl

theorem Mat.has_iff {A : Mat α} {r c : Nat} {f : Nat → Nat → α} : A.Has r c f ↔ A = Mat.ofFn r c f := by
  constructor
  · rintro ⟨h1, h2, h3, h4⟩
    apply Mat.eq_ofFn h1 h2 h3
    intro i hi j hj
    have := h4 i hi j hj
    unfold Mat.get at this
    have hlt := Mat.idx_lt hi hj
    rw [Mat.flattenIndex_eq (by omega) (by omega), Res.ok_bind, h2, rd_eq_ok (by omega), Res.ok_inj] at this
    rw [List.getElem?_eq_getElem (by omega), this]
  · rintro rfl
    exact ⟨rfl, rfl, by simp [Mat.data_ofFn], fun i hi j hj => Mat.get_ofFn hi hj⟩

theorem Mat.has_ofFn (r c : Nat) (f : Nat → Nat → α) : (Mat.ofFn r c f).Has r c f := Mat.has_iff.mpr rfl

/-- Every well-formed vector has entries. -/
theorem Vec.WF.has [Zero α] {v : Vec α} (h : v.WF) : ∃ f, v.Has v.size f := by
  refine ⟨fun i => v.data.getD i 0, rfl, h, ?_⟩
  intro i hi
  unfold Vec.WF at h
  simp only [Vec.get]
  rw [if_neg (by omega), rd_eq_ok (by omega)]
  simp [List.getD_eq_getElem?_getD, List.getElem?_eq_getElem (show i < v.data.length by omega)]

theorem Mat.WF.has [Zero α] {A : Mat α} (h : A.WF) : ∃ f, A.Has A.nrows A.ncols f := by
  refine ⟨fun i j => A.data.getD (i * A.ncols + j) 0, rfl, rfl, h, ?_⟩
  intro i hi j hj
  unfold Mat.WF at h
  have := Mat.idx_lt hi hj
  simp only [Mat.get]
  rw [Mat.flattenIndex_eq hi hj, Res.ok_bind, rd_eq_ok (by omega)]
  simp [List.getD_eq_getElem?_getD, List.getElem?_eq_getElem (show i * A.ncols + j < A.data.length by omega)]

theorem Vec.Has.wf {v : Vec α} {n : Nat} {f : Nat → α} (h : v.Has n f) : v.WF := by
  rw [Vec.WF, h.1, h.2.1]

theorem Mat.Has.wf {A : Mat α} {r c : Nat} {f : Nat → Nat → α} (h : A.Has r c f) : A.WF := by
  rw [Mat.WF, h.1, h.2.1, h.2.2.1]

/-! ### Nonsingular systems -/

theorem nonsing_iff_det [Field K] {n : Nat} {f : Nat → Nat → K} :
    Nonsing n f ↔ (Matrix.of (fun i j : Fin n => f i j)).det ≠ 0 := by
  constructor
  · intro h hdet
    obtain ⟨v, hv, hMv⟩ := Matrix.exists_mulVec_eq_zero_iff.mpr hdet
    apply hv
    funext j
    have := h (fun k => if hk : k < n then v ⟨k, hk⟩ else 0) (by
      intro i hi
      have := congrFun hMv ⟨i, hi⟩
      simp only [Matrix.mulVec, dotProduct, Matrix.of_apply, Pi.zero_apply] at this
      rw [Finset.sum_range]
      rw [← this]
      apply sum_congr rfl
      intro j _
      simp) j j.2
    simpa using this
  · intro hdet v hv j hj
    by_contra hne
    apply hdet
    apply Matrix.exists_mulVec_eq_zero_iff.mp
    refine ⟨fun k => v k, ?_, ?_⟩
    · intro h0
      exact hne (congrFun h0 ⟨j, hj⟩)
    · funext i
      have := hv i i.2
      simp only [Matrix.mulVec, dotProduct, Matrix.of_apply, Pi.zero_apply]
      rw [Finset.sum_range] at this
      exact this

theorem Nonsing.exists_sol [Field K] {n : Nat} {f : Nat → Nat → K} (h : Nonsing n f) (b : Nat → K) :
    ∃ x : Nat → K, ∀ i, i < n → ∑ j ∈ range n, f i j * x j = b i := by
  have hdet := nonsing_iff_det.mp h
  set M := Matrix.of (fun i j : Fin n => f i j)
  have hu : IsUnit M.det := isUnit_iff_ne_zero.mpr hdet
  set x := M⁻¹.mulVec (fun i => b i) with hx
  refine ⟨fun k => if hk : k < n then x ⟨k, hk⟩ else 0, ?_⟩
  intro i hi
  have : M.mulVec x = fun i : Fin n => b i := by
    rw [hx, Matrix.mulVec_mulVec, Matrix.mul_nonsing_inv _ hu, Matrix.one_mulVec]
  have h2 := congrFun this ⟨i, hi⟩
  simp only [Matrix.mulVec, dotProduct] at h2
  rw [Finset.sum_range, ← h2]
  apply sum_congr rfl
  intro j _
  simp [M]

theorem Nonsing.unique [Field K] {n : Nat} {f : Nat → Nat → K} (h : Nonsing n f) {x y : Nat → K}
    (hxy : ∀ i, i < n → ∑ j ∈ range n, f i j * x j = ∑ j ∈ range n, f i j * y j) :
    ∀ j, j < n → x j = y j := by
  intro j hj
  have := h (fun j => x j - y j) (by
    intro i hi
    simp only [mul_sub, sum_sub_distrib]
    rw [hxy i hi, sub_self]) j hj
  exact sub_eq_zero.mp this

theorem Nonsing.congr [Field K] {n : Nat} {f g : Nat → Nat → K} (h : Nonsing n f)
    (hfg : ∀ i, i < n → ∀ j, j < n → f i j = g i j) : Nonsing n g := by
  intro v hv
  apply h v
  intro i hi
  rw [← hv i hi]
  exact sum_congr rfl (fun j hj => by rw [hfg i hi j (mem_range.mp hj)])

open Classical in
/-- A `dgesv` satisfying the contract exists over every field, so theorems taking a `Lapack K`
are not vacuous. -/
theorem Lapack.nonempty [Field K] : Nonempty (Lapack K) := by
  have hex : ∀ (N NRHS : Nat) (A : List K) (lda : Nat) (B : List K) (ldb : Nat),
      ∃ X : List K, X.length = B.length ∧
      (Nonsing N (fun i j => A.getD (i + j * lda) 0) → N ≤ lda → N ≤ ldb →
        N * lda ≤ A.length → NRHS * ldb ≤ B.length → ∀ c, c < NRHS → ∀ i, i < N →
        ∑ j ∈ range N, A.getD (i + j * lda) 0 * X.getD (j + c * ldb) 0 = B.getD (i + c * ldb) 0) ∧
      (¬ Nonsing N (fun i j => A.getD (i + j * lda) 0) → X = B) := by
    intro N NRHS A lda B ldb
    by_cases hN : Nonsing N (fun i j => A.getD (i + j * lda) 0)
    · choose x hx using fun c => hN.exists_sol (fun i => B.getD (i + c * ldb) 0)
      refine ⟨listFn B.length (fun k => x (k / ldb) (k % ldb)), by simp, ?_, fun h => absurd hN h⟩
      intro _ _ h2 _ h4 c hc i hi
      rw [← hx c i hi]
      apply sum_congr rfl
      intro j hj
      have hj' : j < ldb := lt_of_lt_of_le (mem_range.mp hj) h2
      have hlt : c * ldb + j < NRHS * ldb := Mat.idx_lt hc hj'
      rw [Nat.add_comm j (c * ldb), getD_listFn (by omega), Mat.idx_div hj', Mat.idx_mod hj']
    · exact ⟨B, rfl, fun h => absurd h hN, fun _ => rfl⟩
  choose X h1 h2 h3 using hex
  exact ⟨⟨X, h1, h2, h3⟩⟩

end EF
