import Verif.Model.SpecialMatrices
import Verif.Proofs.BlockLemmas
import Mathlib.Tactic.Linarith
import Mathlib.Tactic.FieldSimp
import Mathlib.Tactic.IntervalCases

/-!
# Rewriting lemmas for the special matrices
-/

namespace EF

open Finset

theorem forN_single {σ : Type} {n j0 : Nat} {body : Nat → σ → Res σ} (hj : j0 < n)
    (h : ∀ j, j < n → j ≠ j0 → ∀ s, body j s = .ok s) (s : σ) : forN n body s = body j0 s := by
  have before : ∀ m, m ≤ j0 → forN m body s = .ok s := by
    intro m
    induction m with
    | zero => intro _; rfl
    | succ m ih => intro hm; rw [forN_succ, ih (by omega), Res.ok_bind, h m (by omega) (by omega)]
  have after : ∀ d, j0 + 1 + d ≤ n → forN (j0 + 1 + d) body s = body j0 s := by
    intro d
    induction d with
    | zero => intro _; rw [Nat.add_zero, forN_succ, before j0 (le_refl _), Res.ok_bind]
    | succ d ih =>
      intro hd
      rw [← Nat.add_assoc, forN_succ, ih (by omega)]
      cases hb : body j0 s with
      | ok t => rw [Res.ok_bind, h _ (by omega) (by omega)]
      | throw e => rfl
      | ub => rfl
  have := after (n - (j0 + 1)) (by omega)
  rwa [show j0 + 1 + (n - (j0 + 1)) = n by omega] at this

theorem forN_id {σ : Type} {n : Nat} {body : Nat → σ → Res σ}
    (h : ∀ j, j < n → ∀ s, body j s = .ok s) (s : σ) : forN n body s = .ok s := by
  induction n with
  | zero => rfl
  | succ n ih => rw [forN_succ, ih (fun j hj => h j (by omega)), Res.ok_bind, h n (by omega)]

namespace Mat

variable {K : Type} [Field K]

theorem diagonal_ofFn {n : Nat} {d : Nat → K} :
    diagonal (Vec.ofFn n d) = .ok (ofFn n n (fun i j => if i = j then d i else 0)) := by
  unfold diagonal
  rw [Vec.size_ofFn, zeros_eq]
  have key := forN_ok (n := n) (body := fun i (A : Mat K) => do
      let x ← (Vec.ofFn n d).get i
      A.set i i x)
    (fun m => ofFn n n (fun i j => if i = j ∧ i < m then d i else 0)) (by
      intro m hm
      simp only [Vec.get_ofFn hm, Res.ok_bind, set_ofFn hm hm]
      congr 1
      apply ofFn_congr
      intro p _ q _
      by_cases h : p = m ∧ q = m
      · obtain ⟨rfl, rfl⟩ := h
        simp
      · rw [if_neg h]
        by_cases h2 : p = q ∧ p < m
        · rw [if_pos h2, if_pos (by omega)]
        · rw [if_neg h2, if_neg (by omega)])
  have h0 : ofFn n n (fun i j => if i = j ∧ i < 0 then d i else 0) = ofFn n n (fun _ _ => (0 : K)) := by
    apply ofFn_congr; intro p _ q _; rw [if_neg (by omega)]
  rw [h0] at key
  rw [key]
  congr 1
  apply ofFn_congr
  intro p hp q _
  by_cases h : p = q
  · rw [if_pos ⟨h, hp⟩, if_pos h]
  · rw [if_neg (by tauto), if_neg h]

theorem identity_eq {n : Nat} :
    (identity n : Res (Mat K)) = .ok (ofFn n n (fun i j => if i = j then 1 else 0)) := by
  unfold identity
  have := diagonal_ofFn (n := n) (d := fun _ => (1 : K))
  unfold diagonal at this
  rw [Vec.size_ofFn] at this
  rw [← this]
  apply forN_congr
  intro i hi s
  rw [Vec.get_ofFn hi, Res.ok_bind]

/-- The entries of the averaging matrix. -/
def f2cFn (i j : Nat) : K := if j / 2 = i then 1 / 2 else 0

theorem fine2coarse_eq (n : Nat) :
    (fine2coarse n : Res (Mat K)) = .ok (ofFn n (2 * n) f2cFn) := by
  unfold fine2coarse loop2
  rw [fill_eq]
  have key := forN_ok (n := n) (body := fun i (A : Mat K) => forN (2 * n) (fun j A =>
      if j = 2 * i then do
        let A ← A.set i j (1 / 2)
        A.set i (j + 1) (1 / 2)
      else pure A) A)
    (fun m => ofFn n (2 * n) (fun i j => if i < m then f2cFn i j else 0)) (by
      intro m hm
      rw [forN_single (j0 := 2 * m) (by omega) (by
        intro j _ hj s; rw [if_neg hj]; rfl)]
      rw [if_pos rfl, set_ofFn hm (by omega), Res.ok_bind, set_ofFn hm (by omega)]
      congr 1
      apply ofFn_congr
      intro p _ q _
      unfold f2cFn
      by_cases h1 : p = m ∧ q = 2 * m + 1
      · rw [if_pos h1, if_pos (by omega), if_pos (by omega)]
      · rw [if_neg h1]
        by_cases h2 : p = m ∧ q = 2 * m
        · rw [if_pos h2, if_pos (by omega), if_pos (by omega)]
        · rw [if_neg h2]
          by_cases h3 : p < m
          · rw [if_pos h3, if_pos (show p < m + 1 by omega)]
          · rw [if_neg h3]
            by_cases h4 : p < m + 1
            · rw [if_pos h4, if_neg (by omega)]
            · rw [if_neg h4])
  have h0 : ofFn n (2 * n) (fun i j => if i < 0 then f2cFn i j else 0) = ofFn n (2 * n) (fun _ _ => (0 : K)) := by
    apply ofFn_congr; intro p _ q _; rw [if_neg (by omega)]
  rw [h0] at key
  rw [key]
  congr 1
  apply ofFn_congr
  intro p hp q _
  rw [if_pos hp]

/-- The entries of the coarse-to-fine interpolation matrix with `m ≥ 3` coarse cells. -/
def c2fFn (m i j : Nat) : K :=
  if i = 0 then (if j = 0 then 45 / 32 else if j = 1 then -9 / 16 else if j = 2 then 5 / 32 else 0)
  else if i = 2 * m - 1 then
    (if j = m - 3 then 5 / 32 else if j = m - 2 then -9 / 16 else if j = m - 1 then 45 / 32 else 0)
  else if i % 2 = 1 then (if j = i / 2 then 3 / 4 else if j = i / 2 + 1 then 1 / 4 else 0)
  else (if j + 1 = i / 2 then 1 / 4 else if j = i / 2 then 3 / 4 else 0)

theorem coarse2fine_eq {m : Nat} (hm : 3 ≤ m) :
    (coarse2fine (2 * m) : Res (Mat K)) = .ok (ofFn (2 * m) m (c2fFn m)) := by
  unfold coarse2fine loop2
  have e1 : 2 * m / 2 = m := by omega
  have e2 : sizeSub m 3 = m - 3 := by unfold sizeSub; rw [if_pos hm]
  have e3 : sizeSub (2 * m) 1 = 2 * m - 1 := by unfold sizeSub; rw [if_pos (by omega)]
  simp only [e1, e2, e3]
  rw [fill_eq]
  have key := forN_ok (n := 2 * m) (body := fun i (A : Mat K) => forN m (fun j A =>
      if i = 0 ∧ j = 0 then do
        let A ← A.set i j (45 / 32)
        let A ← A.set i (j + 1) (-9 / 16)
        A.set i (j + 2) (5 / 32)
      else if i = 2 * m - 1 ∧ j = m - 3 then do
        let A ← A.set i j (5 / 32)
        let A ← A.set i (j + 1) (-9 / 16)
        A.set i (j + 2) (45 / 32)
      else if i = 2 * j + 1 ∧ i % 2 = 1 ∧ i ≠ 2 * m - 1 then do
        let A ← A.set i j (3 / 4)
        let A ← A.set i (j + 1) (1 / 4)
        let A ← A.set (i + 1) j (1 / 4)
        A.set (i + 1) (j + 1) (3 / 4)
      else pure A) A)
    (fun I => ofFn (2 * m) m (fun p q =>
      if p < I ∨ (p = I ∧ I % 2 = 0 ∧ 2 ≤ I) then c2fFn m p q else 0)) (by
      intro I hI
      by_cases c1 : I = 0
      · subst c1
        rw [forN_single (j0 := 0) (by omega) (by
          intro j _ hj s
          rw [if_neg (by omega), if_neg (by omega), if_neg (by omega)]; rfl)]
        rw [if_pos ⟨rfl, rfl⟩, set_ofFn (by omega) (by omega), Res.ok_bind, set_ofFn (by omega) (by omega),
          Res.ok_bind, set_ofFn (by omega) (by omega)]
        congr 1
        apply ofFn_congr
        intro p _ q _
        by_cases hp : p = 0
        · subst hp
          unfold c2fFn
          rcases Nat.lt_or_ge q 3 with hq | hq
          · interval_cases q <;> simp
          · simp [show q ≠ 0 by omega, show q ≠ 1 by omega, show q ≠ 2 by omega]
        · simp [hp]
      · by_cases c2 : I = 2 * m - 1
        · rw [forN_single (j0 := m - 3) (by omega) (by
            intro j _ hj s
            rw [if_neg (by omega), if_neg (by omega), if_neg (by omega)]; rfl)]
          rw [if_neg (by omega), if_pos ⟨c2, rfl⟩, set_ofFn (by omega) (by omega), Res.ok_bind,
            set_ofFn (by omega) (by omega), Res.ok_bind, set_ofFn (by omega) (by omega)]
          congr 1
          apply ofFn_congr
          intro p hp q hq
          by_cases hpI : p = I
          · subst hpI
            rw [if_pos (Or.inl (by omega) : p < p + 1 ∨ _)]
            unfold c2fFn
            rw [if_neg c1, if_pos c2]
            by_cases q1 : q = m - 1
            · rw [if_pos (by omega), if_neg (by omega), if_neg (by omega), if_pos q1]
            · rw [if_neg (by omega)]
              by_cases q2 : q = m - 2
              · rw [if_pos (by omega), if_neg (by omega), if_pos q2]
              · rw [if_neg (by omega)]
                by_cases q3 : q = m - 3
                · rw [if_pos (by omega), if_pos q3]
                · rw [if_neg (by omega), if_neg (by omega), if_neg q3, if_neg q2, if_neg q1]
          · rw [if_neg (by omega), if_neg (by omega), if_neg (by omega), if_pos (by omega), if_pos (by omega)]
        · by_cases c3 : I % 2 = 1
          · rw [forN_single (j0 := I / 2) (by omega) (by
              intro j _ hj s
              rw [if_neg (by omega), if_neg (by omega), if_neg (by omega)]; rfl)]
            rw [if_neg (by omega), if_neg (by omega), if_pos (by omega), set_ofFn (by omega) (by omega),
              Res.ok_bind, set_ofFn (by omega) (by omega), Res.ok_bind, set_ofFn (by omega) (by omega),
              Res.ok_bind, set_ofFn (by omega) (by omega)]
            congr 1
            apply ofFn_congr
            intro p hp q hq
            by_cases hp1 : p = I
            · subst hp1
              rw [if_neg (by omega), if_neg (by omega), if_pos (Or.inl (by omega) : p < p + 1 ∨ _)]
              unfold c2fFn
              rw [if_neg c1, if_neg c2, if_pos c3]
              by_cases q1 : q = p / 2 + 1
              · rw [if_pos (by omega), if_neg (by omega), if_pos q1]
              · rw [if_neg (by omega)]
                by_cases q2 : q = p / 2
                · rw [if_pos (by omega), if_pos q2]
                · rw [if_neg (by omega), if_neg (by omega), if_neg q2, if_neg q1]
            · by_cases hp2 : p = I + 1
              · rw [if_pos (show p < I + 1 ∨ (p = I + 1 ∧ (I + 1) % 2 = 0 ∧ 2 ≤ I + 1) by omega)]
                unfold c2fFn
                rw [if_neg (by omega : ¬ p = 0), if_neg (by omega : ¬ p = 2 * m - 1),
                  if_neg (by omega : ¬ p % 2 = 1)]
                by_cases q1 : q = I / 2 + 1
                · rw [if_pos (by omega), if_neg (by omega), if_pos (by omega)]
                · rw [if_neg (by omega)]
                  by_cases q2 : q = I / 2
                  · rw [if_pos (by omega), if_pos (by omega)]
                  · rw [if_neg (by omega), if_neg (by omega), if_neg (by omega), if_neg (by omega),
                      if_neg (by omega), if_neg (by omega)]
              · rw [if_neg (by omega), if_neg (by omega), if_neg (by omega), if_neg (by omega)]
                by_cases h4 : p < I
                · rw [if_pos (by omega), if_pos (by omega)]
                · rw [if_neg (by omega), if_neg (by omega)]
          · rw [forN_id (by
              intro j hj s
              rw [if_neg (by omega), if_neg (by omega), if_neg (by omega)]; rfl)]
            congr 1
            apply ofFn_congr
            intro p hp q hq
            by_cases h4 : p < I + 1
            · rw [if_pos (by omega), if_pos (by omega)]
            · rw [if_neg (by omega), if_neg (by omega)])
  have h0 : ofFn (2 * m) m (fun p q => if p < 0 ∨ (p = 0 ∧ 0 % 2 = 0 ∧ 2 ≤ 0) then c2fFn m p q else 0)
      = ofFn (2 * m) m (fun _ _ => (0 : K)) := by
    apply ofFn_congr; intro p _ q _; rw [if_neg (by omega)]
  rw [h0] at key
  rw [key]
  congr 1
  apply ofFn_congr
  intro p hp q _
  rw [if_pos (Or.inl hp)]

/-- Averaging a function: `Σ_j f2c i j * v j = (v(2i) + v(2i+1))/2`. -/
theorem sum_f2c {n i : Nat} (hi : i < n) (v : Nat → K) :
    ∑ j ∈ Finset.range (2 * n), f2cFn i j * v j = 1 / 2 * v (2 * i) + 1 / 2 * v (2 * i + 1) := by
  have hsub : ({2 * i, 2 * i + 1} : Finset Nat) ⊆ Finset.range (2 * n) := by
    intro j hj
    simp only [mem_insert, mem_singleton] at hj
    exact mem_range.mpr (by omega)
  rw [← sum_subset hsub]
  · rw [sum_insert (by simp), sum_singleton]
    unfold f2cFn
    rw [if_pos (by omega), if_pos (by omega)]
  · intro j _ hj
    simp only [mem_insert, mem_singleton, not_or] at hj
    unfold f2cFn
    rw [if_neg (by omega), zero_mul]

theorem sum_three {m a b c : Nat} (ha : a < m) (hb : b < m) (hc : c < m) (hab : a ≠ b) (hac : a ≠ c)
    (hbc : b ≠ c) (f : Nat → K) (h : ∀ j, j < m → j ≠ a → j ≠ b → j ≠ c → f j = 0) :
    ∑ j ∈ Finset.range m, f j = f a + f b + f c := by
  have hsub : ({a, b, c} : Finset Nat) ⊆ Finset.range m := by
    intro j hj
    simp only [mem_insert, mem_singleton] at hj
    rcases hj with rfl | rfl | rfl <;> exact mem_range.mpr (by omega)
  rw [← sum_subset hsub]
  · rw [sum_insert (by simp [hab, hac]), sum_insert (by simp [hbc]), sum_singleton, add_assoc]
  · intro j hj hj'
    simp only [mem_insert, mem_singleton, not_or] at hj'
    exact h j (mem_range.mp hj) hj'.1 hj'.2.1 hj'.2.2

theorem sum_two {m a b : Nat} (ha : a < m) (hb : b < m) (hab : a ≠ b) (f : Nat → K)
    (h : ∀ j, j < m → j ≠ a → j ≠ b → f j = 0) :
    ∑ j ∈ Finset.range m, f j = f a + f b := by
  have hsub : ({a, b} : Finset Nat) ⊆ Finset.range m := by
    intro j hj
    simp only [mem_insert, mem_singleton] at hj
    rcases hj with rfl | rfl <;> exact mem_range.mpr (by omega)
  rw [← sum_subset hsub]
  · rw [sum_insert (by simp [hab]), sum_singleton]
  · intro j hj hj'
    simp only [mem_insert, mem_singleton, not_or] at hj'
    exact h j (mem_range.mp hj) hj'.1 hj'.2

/-- The four kinds of rows of the interpolation. -/
theorem sum_c2f_first {m : Nat} (hm : 3 ≤ m) (v : Nat → K) :
    ∑ j ∈ Finset.range m, c2fFn m 0 j * v j = 45 / 32 * v 0 + -9 / 16 * v 1 + 5 / 32 * v 2 := by
  rw [sum_three (a := 0) (b := 1) (c := 2) (by omega) (by omega) (by omega) (by omega) (by omega) (by omega)]
  · simp [c2fFn]
  · intro j _ h0 h1 h2
    simp [c2fFn, h0, h1, h2]

theorem c2fFn_odd {m i j : Nat} (hi : i + 1 < m) :
    (c2fFn m (2 * i + 1) j : K) = if j = i then 3 / 4 else if j = i + 1 then 1 / 4 else 0 := by
  unfold c2fFn
  rw [if_neg (by omega), if_neg (by omega), if_pos (by omega), show (2 * i + 1) / 2 = i by omega]

theorem c2fFn_even {m i j : Nat} (hi : i + 1 < m) :
    (c2fFn m (2 * i + 2) j : K) = if j = i then 1 / 4 else if j = i + 1 then 3 / 4 else 0 := by
  unfold c2fFn
  rw [if_neg (by omega), if_neg (by omega), if_neg (by omega), show (2 * i + 2) / 2 = i + 1 by omega]
  simp only [Nat.add_right_cancel_iff]

theorem c2fFn_last {m j : Nat} (hm : 3 ≤ m) :
    (c2fFn m (2 * m - 1) j : K)
      = if j = m - 3 then 5 / 32 else if j = m - 2 then -9 / 16 else if j = m - 1 then 45 / 32 else 0 := by
  unfold c2fFn
  rw [if_neg (by omega), if_pos rfl]

theorem sum_c2f_last {m : Nat} (hm : 3 ≤ m) (v : Nat → K) :
    ∑ j ∈ Finset.range m, c2fFn m (2 * m - 1) j * v j
      = 5 / 32 * v (m - 3) + -9 / 16 * v (m - 2) + 45 / 32 * v (m - 1) := by
  rw [sum_three (a := m - 3) (b := m - 2) (c := m - 1) (by omega) (by omega) (by omega) (by omega) (by omega)
    (by omega)]
  · rw [c2fFn_last hm, c2fFn_last hm, c2fFn_last hm, if_pos rfl, if_neg (show m - 2 ≠ m - 3 by omega),
      if_pos rfl, if_neg (show m - 1 ≠ m - 3 by omega), if_neg (show m - 1 ≠ m - 2 by omega), if_pos rfl]
  · intro j _ h0 h1 h2
    rw [c2fFn_last hm, if_neg h0, if_neg h1, if_neg h2, zero_mul]

theorem sum_c2f_odd {m i : Nat} (hi : i + 1 < m) (v : Nat → K) :
    ∑ j ∈ Finset.range m, c2fFn m (2 * i + 1) j * v j = 3 / 4 * v i + 1 / 4 * v (i + 1) := by
  rw [sum_two (a := i) (b := i + 1) (by omega) (by omega) (by omega)]
  · simp [c2fFn_odd hi]
  · intro j _ h0 h1
    simp [c2fFn_odd hi, h0, h1]

theorem sum_c2f_even {m i : Nat} (hi : i + 1 < m) (v : Nat → K) :
    ∑ j ∈ Finset.range m, c2fFn m (2 * i + 2) j * v j = 1 / 4 * v i + 3 / 4 * v (i + 1) := by
  rw [sum_two (a := i) (b := i + 1) (by omega) (by omega) (by omega)]
  · simp [c2fFn_even hi]
  · intro j _ h0 h1
    simp [c2fFn_even hi, h0, h1]

end Mat
end EF
