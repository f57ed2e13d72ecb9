import Verif.Proofs.MatLemmas
import Mathlib.Algebra.Order.Ring.Rat
import Mathlib.Algebra.Order.Field.Basic

/-!
# Concatenation, block-diagonal matrices, norms.
-/

namespace EF

open Finset

theorem forL_listFn {α σ : Type} (m : Nat) (g : Nat → α) (body : α → σ → Res σ) (s : σ) :
    forL (listFn m g) body s = forN m (fun i s => body (g i) s) s := by
  have app : ∀ (l1 l2 : List α) (s : σ), forL (l1 ++ l2) body s = (forL l1 body s >>= forL l2 body) := by
    intro l1
    induction l1 with
    | nil => intro l2 s; rfl
    | cons x xs ih =>
      intro l2 s
      simp only [List.cons_append, forL_cons]
      cases body x s with
      | ok a => exact ih l2 a
      | throw e => rfl
      | ub => rfl
  induction m with
  | zero => rfl
  | succ m ih =>
    rw [listFn_succ, app, ih, forN_succ]
    congr 1
    funext s
    simp only [forL_cons]
    cases body (g m) s <;> rfl

/-- Offsets of consecutive blocks: membership in block `p`. -/
theorem off_mem_iff {S : Nat → Nat} {a p s : Nat} (hs : s < S a) :
    (∑ i ∈ range p, S i ≤ ∑ i ∈ range a, S i + s ∧
      ∑ i ∈ range a, S i + s < ∑ i ∈ range p, S i + S p) ↔ a = p := by
  constructor
  · rintro ⟨h1, h2⟩
    rcases Nat.lt_trichotomy a p with h | h | h
    · exfalso
      have : ∑ i ∈ range a, S i + S a ≤ ∑ i ∈ range p, S i := by
        rw [← sum_range_succ]; exact Finset.sum_le_sum_of_subset (range_mono h)
      omega
    · exact h
    · exfalso
      have : ∑ i ∈ range p, S i + S p ≤ ∑ i ∈ range a, S i := by
        rw [← sum_range_succ]; exact Finset.sum_le_sum_of_subset (range_mono h)
      omega
  · rintro rfl
    omega

theorem off_add_le {S : Nat → Nat} {a m : Nat} (h : a < m) :
    ∑ i ∈ range a, S i + S a ≤ ∑ i ∈ range m, S i := by
  rw [← sum_range_succ]; exact Finset.sum_le_sum_of_subset (range_mono h)

namespace Vec
variable {α K : Type}

theorem concatenate_listFn [Zero α] (m : Nat) (S : Nat → Nat) (g : Nat → Nat → α) :
    ∃ F, concatenate (listFn m (fun b => ofFn (S b) (g b))) = .ok (ofFn (∑ b ∈ Finset.range m, S b) F) ∧
      ∀ b, b < m → ∀ t, t < S b → F (∑ i ∈ Finset.range b, S i + t) = g b t := by
  unfold concatenate
  rw [forL_listFn, forN_sum0 S (by intro i hi s; simp), Res.ok_bind, forL_listFn]
  have key : ∀ p, p ≤ m → ∃ F, forN p (fun i (st : Vec α × Nat) =>
      (fun v (st : Vec α × Nat) => forN v.size (fun i (st : Vec α × Nat) => do
      let a ← v.get i
      let r ← st.1.set st.2 a
      pure (r, st.2 + 1)) st) (ofFn (S i) (g i)) st) (zeros (∑ b ∈ Finset.range m, S b), 0)
      = .ok (ofFn (∑ b ∈ Finset.range m, S b) F, ∑ b ∈ Finset.range p, S b) ∧
      ∀ b, b < p → ∀ t, t < S b → F (∑ i ∈ Finset.range b, S i + t) = g b t := by
    intro p hp
    induction p with
    | zero => exact ⟨fun _ => 0, by simp [zeros_eq], by simp⟩
    | succ p ih =>
      obtain ⟨F, h1, h2⟩ := ih (by omega)
      have hle := off_add_le (S := S) hp
      refine ⟨fun k => if ∑ b ∈ Finset.range p, S b ≤ k ∧ k < ∑ b ∈ Finset.range p, S b + S p then
        g p (k - ∑ b ∈ Finset.range p, S b) else F k, ?_, ?_⟩
      · rw [forN_succ, h1, Res.ok_bind]
        simp only [size_ofFn]
        rw [concat_inner _ _ hle, sum_range_succ]
      · intro b hb t ht
        beta_reduce
        by_cases hbp : b = p
        · subst hbp
          rw [if_pos ((off_mem_iff ht).mpr rfl), Nat.add_sub_cancel_left]
        · rw [if_neg (fun h => hbp ((off_mem_iff ht).mp h))]
          exact h2 b (by omega) t ht
  obtain ⟨F, h1, h2⟩ := key m (le_refl m)
  refine ⟨F, ?_, h2⟩
  rw [h1, Res.ok_bind, Res.pure_def]

/-- Concatenation of `m` blocks of the same length. -/
theorem concatenate_uniform [Zero α] (m n : Nat) (g : Nat → Nat → α) :
    concatenate (listFn m (fun b => ofFn n (g b))) = .ok (ofFn (m * n) (fun k => g (k / n) (k % n))) := by
  obtain ⟨F, h1, h2⟩ := concatenate_listFn m (fun _ => n) g
  rw [h1]
  have hs : ∑ b ∈ Finset.range m, n = m * n := by simp
  rw [hs]
  congr 1
  apply ofFn_congr
  intro k hk
  have hn := Mat.mod_lt' hk
  have := h2 (k / n) (Mat.div_lt' hk) (k % n) hn
  rw [← this]
  congr 1
  simp only [sum_const, card_range, nsmul_eq_mul, Nat.cast_id]
  rw [Nat.mul_comm]; exact (Nat.div_add_mod k n).symm

section norms
variable [Field K] [LinearOrder K]

omit [Field K] in
/-- Loop computing a running maximum. -/
theorem forN_max {n : Nat} {body : Nat → K → Res K} (d : Nat → K)
    (h : ∀ i, i < n → ∀ s, body i s = .ok (max s (d i))) (s : K) :
    ∃ r, forN n body s = .ok r ∧ s ≤ r ∧ (∀ i, i < n → d i ≤ r) ∧ (r = s ∨ ∃ i, i < n ∧ r = d i) := by
  induction n with
  | zero => exact ⟨s, rfl, le_refl _, by simp, Or.inl rfl⟩
  | succ n ih =>
    obtain ⟨r, h1, h2, h3, h4⟩ := ih (fun i hi => h i (by omega))
    refine ⟨max r (d n), ?_, le_trans h2 (le_max_left _ _), ?_, ?_⟩
    · rw [forN_succ, h1, Res.ok_bind, h n (by omega)]
    · intro i hi
      by_cases hin : i = n
      · subst hin; exact le_max_right _ _
      · exact le_trans (h3 i (by omega)) (le_max_left _ _)
    · rcases le_total r (d n) with h5 | h5
      · exact Or.inr ⟨n, by omega, max_eq_right h5⟩
      · rw [max_eq_left h5]
        rcases h4 with h4 | ⟨i, hi, h4⟩
        · exact Or.inl h4
        · exact Or.inr ⟨i, by omega, h4⟩

theorem infNorm_ofFn {n : Nat} {f g : Nat → K} :
    ∃ r, infNorm (ofFn n f) (ofFn n g) = .ok r ∧ 0 ≤ r ∧ (∀ i, i < n → |f i - g i| ≤ r) ∧
      (r = 0 ∨ ∃ i, i < n ∧ r = |f i - g i|) := by
  unfold infNorm
  rw [if_neg (by simp), size_ofFn]
  exact forN_max (fun i => |f i - g i|) (fun i hi s => by simp [get_ofFn hi]) 0

omit [LinearOrder K] in
theorem l2NormSq_ofFn {n : Nat} {f g : Nat → K} :
    l2NormSq (ofFn n f) (ofFn n g) = .ok (∑ i ∈ Finset.range n, (f i - g i) ^ 2) := by
  unfold l2NormSq
  rw [if_neg (by simp), size_ofFn]
  apply forN_sum0
  intro i hi s; simp [get_ofFn hi]

end norms
end Vec

namespace Mat
variable {α K : Type} [Field K]

theorem blockDiagonal_listFn (m : Nat) (R C : Nat → Nat) (D : Nat → Nat → Nat → K) :
    ∃ F, blockDiagonal (listFn m (fun b => ofFn (R b) (C b) (D b)))
        = .ok (ofFn (∑ b ∈ Finset.range m, R b) (∑ b ∈ Finset.range m, C b) F) ∧
      ∀ a, a < m → ∀ s, s < R a → ∀ b, b < m → ∀ t, t < C b →
        F (∑ i ∈ Finset.range a, R i + s) (∑ i ∈ Finset.range b, C i + t) = if a = b then D a s t else 0 := by
  unfold blockDiagonal
  have hsum : ∀ p, forN p (fun i (n : Nat × Nat) =>
      (fun d (n : Nat × Nat) => (pure (n.1 + d.nrows, n.2 + d.ncols) : Res (Nat × Nat))) (ofFn (R i) (C i) (D i)) n) (0, 0)
      = .ok (∑ b ∈ Finset.range p, R b, ∑ b ∈ Finset.range p, C b) := by
    intro p
    induction p with
    | zero => simp
    | succ p ih => rw [forN_succ, ih]; simp [sum_range_succ]
  rw [forL_listFn, hsum, Res.ok_bind, forL_listFn]
  simp only []
  have key : ∀ p, p ≤ m → ∃ F, forN p (fun i (st : Mat K × Nat × Nat) => do
      let m ← st.1.setBlock st.2.1 st.2.2 (ofFn (R i) (C i) (D i))
      pure (m, st.2.1 + (ofFn (R i) (C i) (D i)).nrows, st.2.2 + (ofFn (R i) (C i) (D i)).ncols))
        (zeros (∑ b ∈ Finset.range m, R b) (∑ b ∈ Finset.range m, C b), 0, 0)
      = .ok (ofFn (∑ b ∈ Finset.range m, R b) (∑ b ∈ Finset.range m, C b) F,
          ∑ b ∈ Finset.range p, R b, ∑ b ∈ Finset.range p, C b) ∧
      ∀ a, a < m → ∀ s, s < R a → ∀ b, b < m → ∀ t, t < C b →
        F (∑ i ∈ Finset.range a, R i + s) (∑ i ∈ Finset.range b, C i + t)
          = if a = b ∧ a < p then D a s t else 0 := by
    intro p hp
    induction p with
    | zero => exact ⟨fun _ _ => 0, by simp [zeros_eq], by simp⟩
    | succ p ih =>
      obtain ⟨F, h1, h2⟩ := ih (by omega)
      have hR := off_add_le (S := R) hp
      have hC := off_add_le (S := C) hp
      refine ⟨fun x y => if (∑ b ∈ Finset.range p, R b ≤ x ∧ x < ∑ b ∈ Finset.range p, R b + R p) ∧
          ∑ b ∈ Finset.range p, C b ≤ y ∧ y < ∑ b ∈ Finset.range p, C b + C p then
          D p (x - ∑ b ∈ Finset.range p, R b) (y - ∑ b ∈ Finset.range p, C b) else F x y, ?_, ?_⟩
      · rw [forN_succ, h1, Res.ok_bind, setBlock_ofFn hR hC, Res.ok_bind, nrows_ofFn, ncols_ofFn,
          ← sum_range_succ, ← sum_range_succ, Res.pure_def]
      · intro a ha s hs b hb t ht
        beta_reduce
        simp only [off_mem_iff hs, off_mem_iff ht, h2 a ha s hs b hb t ht]
        by_cases h : a = p ∧ b = p
        · obtain ⟨rfl, rfl⟩ := h
          rw [if_pos ⟨rfl, rfl⟩, if_pos ⟨rfl, by omega⟩, Nat.add_sub_cancel_left, Nat.add_sub_cancel_left]
        · rw [if_neg h]
          by_cases h' : a = b ∧ a < p
          · rw [if_pos h', if_pos ⟨h'.1, by omega⟩]
          · rw [if_neg h', if_neg (by omega)]
  obtain ⟨F, h1, h2⟩ := key m (le_refl m)
  refine ⟨F, ?_, ?_⟩
  · rw [h1, Res.ok_bind, Res.pure_def]
  · intro a ha s hs b hb t ht
    rw [h2 a ha s hs b hb t ht]
    by_cases h : a = b
    · rw [if_pos ⟨h, ha⟩, if_pos h]
    · rw [if_neg (fun h' => h h'.1), if_neg h]

/-- Block-diagonal matrix of `m` blocks of the same shape `r × c`. -/
theorem blockDiagonal_uniform (m r c : Nat) (D : Nat → Nat → Nat → K) :
    blockDiagonal (listFn m (fun b => ofFn r c (D b)))
      = .ok (ofFn (m * r) (m * c) (fun i j => if i / r = j / c then D (i / r) (i % r) (j % c) else 0)) := by
  obtain ⟨F, h1, h2⟩ := blockDiagonal_listFn m (fun _ => r) (fun _ => c) D
  rw [h1]
  have hs : ∀ n : Nat, ∑ b ∈ Finset.range m, n = m * n := by simp
  rw [hs, hs]
  congr 1
  apply ofFn_congr
  intro i hi j hj
  have := h2 (i / r) (div_lt' hi) (i % r) (mod_lt' hi) (j / c) (div_lt' hj) (j % c) (mod_lt' hj)
  simp only [sum_const, card_range, nsmul_eq_mul, Nat.cast_id] at this
  rw [← this, Nat.mul_comm (i / r), Nat.mul_comm (j / c), Nat.div_add_mod, Nat.div_add_mod]

theorem infNorm_ofFn [LinearOrder K] {r c : Nat} {f g : Nat → Nat → K} :
    ∃ x, infNorm (ofFn r c f) (ofFn r c g) = .ok x ∧ 0 ≤ x ∧
      (∀ i, i < r → ∀ j, j < c → |f i j - g i j| ≤ x) ∧
      (x = 0 ∨ ∃ i j, i < r ∧ j < c ∧ x = |f i j - g i j|) := by
  unfold infNorm loop2
  rw [if_neg (by simp), if_neg (by simp), nrows_ofFn, ncols_ofFn]
  have key : ∀ p, p ≤ r → ∃ x, forN p (fun i (s : K) => forN c (fun j (m : K) => do
      let a ← (ofFn r c f).get i j
      let b ← (ofFn r c g).get i j
      pure (max m |a - b|)) s) 0 = .ok x ∧ 0 ≤ x ∧
      (∀ i, i < p → ∀ j, j < c → |f i j - g i j| ≤ x) ∧
      (x = 0 ∨ ∃ i j, i < p ∧ j < c ∧ x = |f i j - g i j|) := by
    intro p hp
    induction p with
    | zero => exact ⟨0, rfl, le_refl _, by simp, Or.inl rfl⟩
    | succ p ih =>
      obtain ⟨x, h1, h2, h3, h4⟩ := ih (by omega)
      obtain ⟨y, k1, k2, k3, k4⟩ := Vec.forN_max (n := c) (body := fun j (m : K) => do
        let a ← (ofFn r c f).get p j
        let b ← (ofFn r c g).get p j
        pure (max m |a - b|)) (fun j => |f p j - g p j|)
        (fun j hj s => by rw [get_ofFn (by omega) hj, get_ofFn (by omega) hj]; simp) x
      refine ⟨y, ?_, le_trans h2 k2, ?_, ?_⟩
      · rw [forN_succ, h1, Res.ok_bind, k1]
      · intro i hi j hj
        by_cases hip : i = p
        · subst hip; exact k3 j hj
        · exact le_trans (h3 i (by omega) j hj) k2
      · rcases k4 with k4 | ⟨j, hj, k4⟩
        · rw [k4]
          rcases h4 with h4 | ⟨i, j, hi, hj, h4⟩
          · exact Or.inl h4
          · exact Or.inr ⟨i, j, by omega, hj, h4⟩
        · exact Or.inr ⟨p, j, by omega, hj, k4⟩
  exact key r (le_refl r)

end Mat
end EF
