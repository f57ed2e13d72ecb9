import Verif.Spec.Sqrt
import Verif.Props.Linear
import Mathlib.Algebra.Order.BigOperators.Ring.Finset
import Mathlib.Analysis.Real.Sqrt

/-!
# Property C06 (block permutations) and the Euclidean-norm part of C49
-/

namespace EF

open Finset

variable {α K : Type}

/-- `I` and `J` are inverse permutations of `0, …, n-1`. -/
structure InversePerms (n : Nat) (I J : Nat → Nat) : Prop where
  ltI : ∀ i, i < n → I i < n
  ltJ : ∀ i, i < n → J i < n
  JI : ∀ i, i < n → J (I i) = i
  IJ : ∀ i, i < n → I (J i) = i

theorem InversePerms.sum_eq {n : Nat} {I J : Nat → Nat} (h : InversePerms n I J) (S : Nat → Nat) :
    ∑ i ∈ range n, S (I i) = ∑ b ∈ range n, S b := by
  apply sum_nbij' I J
  · intro i hi; exact mem_range.mpr (h.ltI i (mem_range.mp hi))
  · intro i hi; exact mem_range.mpr (h.ltJ i (mem_range.mp hi))
  · intro i hi; exact h.JI i (mem_range.mp hi)
  · intro i hi; exact h.IJ i (mem_range.mp hi)
  · intros; rfl

theorem InversePerms.symm {n : Nat} {I J : Nat → Nat} (h : InversePerms n I J) : InversePerms n J I :=
  ⟨h.ltJ, h.ltI, h.IJ, h.JI⟩

/-- Entry-level form of a block permutation. -/
theorem blockPermute_perm [Zero α] {n N : Nat} {I J S : Nat → Nat}
    (h : InversePerms n I J) (hS : ∑ b ∈ range n, S b = N) :
    ∃ F : Nat → Nat, (∀ k, k < N → F k < N) ∧
      (∀ i, i < n → ∀ q, q < S (I i) →
        F (∑ i' ∈ range i, S (I i') + q) = ∑ b ∈ range (I i), S b + q) ∧
      (∀ f : Nat → α, (Vec.ofFn N f).blockPermute (Vec.ofFn n (fun i => (I i : Int)))
        (Vec.ofFn n (fun i => (S i : Int))) = .ok (Vec.ofFn N (fun k => f (F k)))) ∧
      (∀ f : Nat → Nat → α, (Mat.ofFn N N f).blockPermute (Vec.ofFn n (fun i => (I i : Int)))
        (Vec.ofFn n (fun i => (I i : Int))) (Vec.ofFn n (fun i => (S i : Int)))
        (Vec.ofFn n (fun i => (S i : Int))) = .ok (Mat.ofFn N N (fun i j => f (F i) (F j)))) := by
  obtain ⟨F, h1, h2, h3⟩ := Vec.flattenBlocks_cover h.ltI hS ((h.sum_eq S).trans hS)
  refine ⟨F, h2, h3, ?_, ?_⟩
  · intro f
    unfold Vec.blockPermute
    rw [Vec.size_ofFn, Vec.sumSizes_ofFn (le_refl n), Res.ok_bind, if_neg (by simp [hS]), Vec.size_ofFn, h1,
      Res.ok_bind, Vec.getFromIndexSet_ofFn (le_refl N) h2]
  · intro f
    unfold Mat.blockPermute
    rw [Vec.size_ofFn, Vec.sumSizes_ofFn (le_refl n), Res.ok_bind, if_neg (by simp [hS]), Res.ok_bind,
      if_neg (by simp [hS]), Mat.nrows_ofFn, Mat.ncols_ofFn, h1, Res.ok_bind, Res.ok_bind,
      Mat.getFromIndexSet_ofFn (le_refl N) (le_refl N) h2 h2]

theorem surj_sum [Field K] {N : Nat} {F : Nat → Nat} (hF : ∀ k, k < N → F k < N)
    (hs : ∀ k, k < N → ∃ l, l < N ∧ F l = k) (g : Nat → K) :
    ∑ k ∈ range N, g (F k) = ∑ k ∈ range N, g k := by
  have hinj : Set.InjOn F (range N : Set Nat) := by
    apply Finset.injOn_of_surjOn_of_card_le (s := range N) (t := range N) F
    · intro k hk; simpa using hF k (by simpa using hk)
    · intro k hk
      obtain ⟨l, h1, h2⟩ := hs k (by simpa using hk)
      exact ⟨l, by simpa using h1, h2⟩
    · exact le_refl _
  apply sum_nbij F
  · intro k hk; exact mem_range.mpr (hF k (mem_range.mp hk))
  · exact hinj
  · intro k hk
    obtain ⟨l, h1, h2⟩ := hs k (by simpa using hk)
    exact ⟨l, by simpa using h1, h2⟩
  · intros; rfl

section C06

/-- C06: the result has the size of `v`, and its `i`-th block (of size `S(π i)`) is block `π i` of
`v`; every position lies in some block, so this determines the result. -/
theorem C06_blocks [Zero α] {v : Vec α} {P Sz : Vec Int} {n N : Nat} {π ρ S : Nat → Nat} {f : Nat → α}
    (hv : v.Has N f) (hP : P.Has n (fun i => (π i : Int))) (hSz : Sz.Has n (fun i => (S i : Int)))
    (h : InversePerms n π ρ) (hS : ∑ b ∈ range n, S b = N) :
    ∃ g, (v.blockPermute P Sz).Returns (fun w => w.Has N g) ∧
      ∀ i, i < n → ∀ q, q < S (π i) →
        g (∑ i' ∈ range i, S (π i') + q) = f (∑ b ∈ range (π i), S b + q) := by
  rw [Vec.has_iff.mp hv, Vec.has_iff.mp hP, Vec.has_iff.mp hSz]
  obtain ⟨F, -, h2, h3, -⟩ := blockPermute_perm (α := α) h hS
  exact ⟨_, ⟨_, h3 f, Vec.has_ofFn _ _⟩, fun i hi q hq => by rw [h2 i hi q hq]⟩

/-- C06 for matrices, with independent permutations of the row blocks and of the column blocks: block `(i,j)` of the result
is block `(π i, σ j)` of `A`. -/
theorem C06_matrix_blocks [Zero α] {A : Mat α} {P Q R C : Vec Int} {m n M N : Nat} {π ρ σ τ S T : Nat → Nat}
    {a : Nat → Nat → α} (hA : A.Has M N a) (hP : P.Has m (fun i => (π i : Int))) (hQ : Q.Has n (fun i => (σ i : Int)))
    (hR : R.Has m (fun i => (S i : Int))) (hC : C.Has n (fun i => (T i : Int))) (h : InversePerms m π ρ)
    (h' : InversePerms n σ τ) (hS : ∑ b ∈ range m, S b = M) (hT : ∑ b ∈ range n, T b = N) :
    ∃ g, (A.blockPermute P Q R C).Returns (fun B => B.Has M N g) ∧
      ∀ i, i < m → ∀ q, q < S (π i) → ∀ j, j < n → ∀ s, s < T (σ j) →
        g (∑ i' ∈ range i, S (π i') + q) (∑ j' ∈ range j, T (σ j') + s)
          = a (∑ b ∈ range (π i), S b + q) (∑ b ∈ range (σ j), T b + s) := by
  rw [Mat.has_iff.mp hA, Vec.has_iff.mp hP, Vec.has_iff.mp hQ, Vec.has_iff.mp hR, Vec.has_iff.mp hC]
  obtain ⟨F, f1, f2, f3⟩ := Vec.flattenBlocks_cover h.ltI hS ((h.sum_eq S).trans hS)
  obtain ⟨G, g1, g2, g3⟩ := Vec.flattenBlocks_cover h'.ltI hT ((h'.sum_eq T).trans hT)
  refine ⟨fun i j => a (F i) (G j), ⟨_, ?_, Mat.has_ofFn _ _ _⟩, fun i hi q hq j hj s hs => ?_⟩
  · unfold Mat.blockPermute
    rw [Vec.size_ofFn, Vec.sumSizes_ofFn (le_refl m), Res.ok_bind, if_neg (by simp [hS]), Vec.size_ofFn,
      Vec.sumSizes_ofFn (le_refl n), Res.ok_bind, if_neg (by simp [hT]), Mat.nrows_ofFn, Mat.ncols_ofFn, f1, Res.ok_bind, g1,
      Res.ok_bind, Mat.getFromIndexSet_ofFn (le_refl M) (le_refl N) f2 g2]
  · beta_reduce
    rw [f3 i hi q hq, g3 j hj s hs]

/-- C06: permuting with the inverse permutation and the permuted sizes restores the vector (so no
entry is lost or duplicated). -/
theorem C06_inverse_restores [Zero α] {v : Vec α} {P Sz P' Sz' : Vec Int} {n : Nat} {π ρ S : Nat → Nat}
    (hv : v.WF) (hP : P.Has n (fun i => (π i : Int))) (hSz : Sz.Has n (fun i => (S i : Int)))
    (hP' : P'.Has n (fun i => (ρ i : Int))) (hSz' : Sz'.Has n (fun i => (S (π i) : Int)))
    (h : InversePerms n π ρ) (hS : ∑ b ∈ range n, S b = v.size) :
    (do let w ← v.blockPermute P Sz
        w.blockPermute P' Sz') = .ok v := by
  obtain ⟨f, hf⟩ := hv.has
  generalize v.size = N at *
  rw [Vec.has_iff.mp hf, Vec.has_iff.mp hP, Vec.has_iff.mp hSz, Vec.has_iff.mp hP', Vec.has_iff.mp hSz']
  obtain ⟨F, h1, h2, h3, -⟩ := blockPermute_perm (α := α) h hS
  have hS' : ∑ b ∈ range n, S (π b) = N := (h.sum_eq S).trans hS
  obtain ⟨G, k1, k2, k3, -⟩ := blockPermute_perm (α := α) (S := fun b => S (π b)) h.symm hS'
  rw [h3, Res.ok_bind, k3]
  congr 1
  apply Vec.ofFn_congr
  intro k hk
  congr 1
  rw [← hS] at hk
  obtain ⟨b, q, hb, hq, rfl⟩ := Vec.exists_block hk
  have e : ∑ i' ∈ range b, S i' = ∑ i' ∈ range b, S (π (ρ i')) := by
    apply sum_congr rfl
    intro i hi
    rw [h.IJ i (by have := mem_range.mp hi; omega)]
  rw [e, k2 b hb q (by rw [h.IJ b hb]; exact hq), h2 (ρ b) (h.ltJ b hb) q (by rw [h.IJ b hb]; exact hq),
    h.IJ b hb, ← e]

/-- C06: `(P A Pᵀ)(P x) = P (A x)`. -/
theorem C06_commutes [Field K] {A : Mat K} {x : Vec K} {P Sz : Vec Int} {n N : Nat} {π ρ S : Nat → Nat}
    {a : Nat → Nat → K} {f : Nat → K} (hA : A.Has N N a) (hx : x.Has N f)
    (hP : P.Has n (fun i => (π i : Int))) (hSz : Sz.Has n (fun i => (S i : Int)))
    (h : InversePerms n π ρ) (hS : ∑ b ∈ range n, S b = N) (h0 : 0 < N) :
    ∃ y, (do let A' ← A.blockPermute P P Sz Sz
             let x' ← x.blockPermute P Sz
             A'.mulVec x') = .ok y ∧
      (do let y' ← A.mulVec x
          y'.blockPermute P Sz) = .ok y := by
  rw [Mat.has_iff.mp hA, Vec.has_iff.mp hx, Vec.has_iff.mp hP, Vec.has_iff.mp hSz]
  obtain ⟨F, h1, h2, h3, h4⟩ := blockPermute_perm (α := K) h hS
  rw [h4, Res.ok_bind, h3, Res.ok_bind, Mat.mulVec_ofFn h0, Mat.mulVec_ofFn h0, Res.ok_bind, h3]
  refine ⟨_, rfl, ?_⟩
  congr 1
  apply Vec.ofFn_congr
  intro i _
  symm
  apply surj_sum h1 (g := fun k => a (F i) k * f k)
  intro k hk
  rw [← hS] at hk
  obtain ⟨b, q, hb, hq, rfl⟩ := Vec.exists_block hk
  refine ⟨∑ i' ∈ range (ρ b), S (π i') + q, ?_, ?_⟩
  · rw [← hS, ← h.sum_eq S]
    exact Vec.block_lt (S := fun i => S (π i)) (h.ltJ b hb) (by rw [h.IJ b hb]; exact hq)
  · rw [h2 (ρ b) (h.ltJ b hb) q (by rw [h.IJ b hb]; exact hq), h.IJ b hb]

/-- C06: block sizes that do not add up to the size of the vector are refused. -/
theorem C06_bad_sizes_throw [Zero α] {v : Vec α} {P Sz : Vec Int} {n N : Nat} {f : Nat → α}
    {S : Nat → Nat} (hv : v.Has N f) (hSz : Sz.Has n (fun i => (S i : Int)))
    (hS : ∑ b ∈ range n, S b ≠ N) : v.blockPermute P Sz = .throw .invalidArgument := by
  rw [Vec.has_iff.mp hv, Vec.has_iff.mp hSz]
  unfold Vec.blockPermute
  rw [Vec.size_ofFn, Vec.sumSizes_ofFn (le_refl n), Res.ok_bind, if_pos (by simpa using hS)]

/-- The permutation 0→2→1→0 with blocks of sizes 1, 2, 0. -/
def exPerm : Nat → Nat := fun i => if i = 0 then 2 else if i = 1 then 0 else 1
def exPermInv : Nat → Nat := fun i => if i = 0 then 1 else if i = 1 then 2 else 0
def exSizes : Nat → Nat := fun i => if i = 0 then 1 else if i = 1 then 2 else 0
theorem exPerm_inv : InversePerms 3 exPerm exPermInv := ⟨by decide, by decide, by decide, by decide⟩

/-- Rows permuted, columns kept in one block. -/
example := C06_matrix_blocks exA_has (m := 2) (n := 1) (P := Vec.ofFn 2 (fun i => ((1 - i : Nat) : Int)))
  (Q := Vec.ofFn 1 (fun i => (i : Int))) (R := Vec.ofFn 2 (fun _ => ((1 : Nat) : Int))) (C := Vec.ofFn 1 (fun _ => ((3 : Nat) : Int)))
  (Vec.has_ofFn _ _) (Vec.has_ofFn _ _) (Vec.has_ofFn _ _) (Vec.has_ofFn _ _) (ρ := fun i => 1 - i) (τ := id)
  ⟨by decide, by decide, by decide, by decide⟩ ⟨by decide, by decide, by decide, by decide⟩ (by decide) (by decide)
example := C06_blocks exx_has (Vec.has_ofFn 3 (fun i => (exPerm i : Int)))
  (Vec.has_ofFn 3 (fun i => (exSizes i : Int))) exPerm_inv (by decide)
example := C06_inverse_restores exx_has.wf (Vec.has_ofFn 3 (fun i => (exPerm i : Int)))
  (Vec.has_ofFn 3 (fun i => (exSizes i : Int))) (Vec.has_ofFn 3 (fun i => (exPermInv i : Int)))
  (Vec.has_ofFn 3 (fun i => (exSizes (exPerm i) : Int))) exPerm_inv (by decide)
example := C06_commutes (Mat.has_ofFn 3 3 (fun i j => (3 * i + j : ℚ))) exx_has
  (Vec.has_ofFn 3 (fun i => (exPerm i : Int)))
  (Vec.has_ofFn 3 (fun i => (exSizes i : Int))) exPerm_inv (by decide) (by omega)
example : (Vec.ofList [10, 20, 30, 40] : Vec ℚ).blockPermute (Vec.ofList [1, 0]) (Vec.ofList [1, 3])
    = .ok (Vec.ofList [20, 30, 40, 10]) := by decide +kernel

end C06

/-! ## C49, Euclidean norm -/

section C49
variable [Field K] [LinearOrder K] [IsStrictOrderedRing K]

/-- C49: `vectorL2Norm` is nonnegative, symmetric, zero exactly for equal vectors and bounds every
entry difference. -/
theorem C49_l2_norm {sqrt : K → K} (hq : IsSqrt sqrt) {v w : Vec K} {n : Nat} {f g : Nat → K}
    (hv : v.Has n f) (hw : w.Has n g) :
    ∃ r, Vec.l2Norm sqrt v w = .ok r ∧ 0 ≤ r ∧ r * r = ∑ i ∈ range n, (f i - g i) ^ 2 ∧
      (∀ i, i < n → |f i - g i| ≤ r) ∧ Vec.l2Norm sqrt w v = .ok r ∧ (r = 0 ↔ v = w) := by
  rw [Vec.has_iff.mp hv, Vec.has_iff.mp hw]
  unfold Vec.l2Norm
  rw [Vec.l2NormSq_ofFn, Vec.l2NormSq_ofFn]
  have e : ∑ i ∈ range n, (g i - f i) ^ 2 = ∑ i ∈ range n, (f i - g i) ^ 2 :=
    sum_congr rfl (fun i _ => by ring)
  have h0 : 0 ≤ ∑ i ∈ range n, (f i - g i) ^ 2 := sum_nonneg (fun i _ => sq_nonneg _)
  have hr0 := hq.nonneg _ h0
  have hrr := hq.sq _ h0
  have hle : ∀ i, i < n → |f i - g i| ≤ sqrt (∑ i ∈ range n, (f i - g i) ^ 2) := by
    intro i hi
    apply abs_le_of_sq_le_sq _ hr0
    rw [pow_two (sqrt _), hrr]
    exact single_le_sum (f := fun i => (f i - g i) ^ 2) (fun i _ => sq_nonneg _) (mem_range.mpr hi)
  refine ⟨_, rfl, hr0, hrr, hle, by rw [e]; rfl, ?_, ?_⟩
  · intro hz
    apply Vec.ofFn_congr
    intro i hi
    have := hle i hi
    rw [hz] at this
    exact sub_eq_zero.mp (abs_eq_zero.mp (le_antisymm this (abs_nonneg _)))
  · intro h
    have hs : ∑ i ∈ range n, (f i - g i) ^ 2 = 0 := by
      apply sum_eq_zero
      intro i hi
      rw [Vec.ofFn_inj h i (mem_range.mp hi)]; ring
    rw [hs] at hrr ⊢
    exact mul_self_eq_zero.mp hrr

/-- C49: triangle inequality for `vectorL2Norm`. -/
theorem C49_l2_norm_triangle {sqrt : K → K} (hq : IsSqrt sqrt) {u v w : Vec K} {n : Nat}
    {f g h : Nat → K} (hu : u.Has n f) (hv : v.Has n g) (hw : w.Has n h) {a b c : K}
    (ha : Vec.l2Norm sqrt u v = .ok a) (hb : Vec.l2Norm sqrt v w = .ok b)
    (hc : Vec.l2Norm sqrt u w = .ok c) : c ≤ a + b := by
  obtain ⟨a', a1, a2, a3, -⟩ := C49_l2_norm hq hu hv
  obtain ⟨b', b1, b2, b3, -⟩ := C49_l2_norm hq hv hw
  obtain ⟨c', c1, c2, c3, -⟩ := C49_l2_norm hq hu hw
  rw [ha, Res.ok_inj] at a1
  rw [hb, Res.ok_inj] at b1
  rw [hc, Res.ok_inj] at c1
  subst a1 b1 c1
  set p := fun i => f i - g i with hp
  set q := fun i => g i - h i with hq'
  have cs := sum_mul_sq_le_sq_mul_sq (range n) p q
  have e : ∑ i ∈ range n, (f i - h i) ^ 2
      = ∑ i ∈ range n, p i ^ 2 + ∑ i ∈ range n, q i ^ 2 + 2 * ∑ i ∈ range n, p i * q i := by
    rw [mul_sum, ← sum_add_distrib, ← sum_add_distrib]
    apply sum_congr rfl
    intro i _
    simp only [hp, hq']
    ring
  rw [← a3, ← b3] at cs
  have hpq : ∑ i ∈ range n, p i * q i ≤ a * b := by
    apply abs_le_of_sq_le_sq' _ (mul_nonneg a2 b2) |>.2
    calc _ ≤ _ := cs
      _ = (a * b) ^ 2 := by ring
  have : c * c ≤ (a + b) * (a + b) := by
    rw [c3, e, ← a3, ← b3]
    nlinarith
  nlinarith [add_nonneg a2 b2]

end C49

example := C49_l2_norm (K := ℝ) ⟨fun s _ => Real.sqrt_nonneg s, fun s h => Real.mul_self_sqrt h⟩
  (Vec.has_ofFn 3 (fun i => (i : ℝ))) (Vec.has_ofFn 3 (fun _ => (1 : ℝ)))

end EF
