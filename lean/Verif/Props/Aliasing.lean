import Verif.Props.Linear

/-!
# Property C51: in-place scalar operations whose argument is an entry of the same vector

`v *= v[k]`, `v /= v[k]`, `v -= v[k]`: the operators take the scalar by reference, so the loop
changes its own argument when it reaches entry `k`.
-/

namespace EF

open Finset

variable {K : Type} [Field K]

omit [Field K] in
/-- Loop that applies `op a s`, `s` being the current value of entry `k`. -/
theorem forN_own (op : K → K → K) {n k : Nat} (hk : k < n) (f : Nat → K) :
    forN n (fun i (res : Vec K) => res.updData i (fun a => do
      let s ← rd res.data k
      pure (op a s))) (Vec.ofFn n f)
    = .ok (Vec.ofFn n (fun i => if i ≤ k then op (f i) (f k) else op (f i) (op (f k) (f k)))) := by
  have key := forN_ok (n := n) (body := fun i (res : Vec K) => res.updData i (fun a => do
      let s ← rd res.data k
      pure (op a s)))
    (fun m => Vec.ofFn n (fun i => if i < m then (if i ≤ k then op (f i) (f k)
      else op (f i) (op (f k) (f k))) else f i)) (by
      intro m hm
      simp only [Vec.updData, Vec.data_ofFn, rd_listFn hm, rd_listFn hk, Res.ok_bind, Res.pure_def,
        wr_listFn hm, lt_irrefl, if_false]
      congr 1
      show Vec.ofFn n _ = Vec.ofFn n _
      apply Vec.ofFn_congr
      intro i hi
      by_cases h1 : i = m
      · subst h1
        rw [if_pos rfl, if_pos (show i < i + 1 by omega)]
        by_cases h2 : k < i
        · rw [if_pos h2, if_pos (le_refl k), if_neg (show ¬ i ≤ k by omega)]
        · rw [if_neg h2, if_pos (show i ≤ k by omega)]
      · rw [if_neg h1]
        by_cases h2 : i < m
        · rw [if_pos h2, if_pos (show i < m + 1 by omega)]
        · rw [if_neg h2, if_neg (show ¬ i < m + 1 by omega)])
  have h0 : Vec.ofFn n (fun i => if i < 0 then (if i ≤ k then op (f i) (f k)
      else op (f i) (op (f k) (f k))) else f i) = Vec.ofFn n f := by
    apply Vec.ofFn_congr; intro i _; rw [if_neg (by omega)]
  rw [h0] at key
  rw [key]
  congr 1
  apply Vec.ofFn_congr
  intro i hi
  rw [if_pos hi]

/-- C51, what actually happens for every vector and every `k`: entries up to `k` are combined with
the original value of entry `k`, the later ones with the already modified value. -/
theorem C51_own_entry_actual {v : Vec K} {n k : Nat} {f : Nat → K} (hv : v.Has n f) (hk : k < n) :
    (v.mulAssignOwnEntry k).Returns (·.Has n (fun i => if i ≤ k then f i * f k else f i * (f k * f k))) ∧
    (v.divAssignOwnEntry k).Returns (·.Has n (fun i => if i ≤ k then f i / f k else f i / (f k / f k))) ∧
    (v.subAssignOwnEntry k).Returns (·.Has n (fun i => if i ≤ k then f i - f k else f i - (f k - f k))) := by
  rw [Vec.has_iff.mp hv]
  refine ⟨⟨_, ?_, Vec.has_ofFn _ _⟩, ⟨_, ?_, Vec.has_ofFn _ _⟩, ⟨_, ?_, Vec.has_ofFn _ _⟩⟩
  · unfold Vec.mulAssignOwnEntry
    rw [Vec.get_ofFn hk, Res.ok_bind]; exact forN_own (fun a s => a * s) hk f
  · unfold Vec.divAssignOwnEntry
    rw [Vec.get_ofFn hk, Res.ok_bind]; exact forN_own (fun a s => a / s) hk f
  · unfold Vec.subAssignOwnEntry
    rw [Vec.get_ofFn hk, Res.ok_bind]; exact forN_own (fun a s => a - s) hk f

/-- C51, the part that holds: with the *last* entry as the argument the result is as expected. -/
theorem C51_own_last_entry_partial {v : Vec K} {n : Nat} {f : Nat → K} (hv : v.Has (n + 1) f) :
    (v.mulAssignOwnEntry n).Returns (·.Has (n + 1) (fun i => f i * f n)) ∧
    (v.divAssignOwnEntry n).Returns (·.Has (n + 1) (fun i => f i / f n)) ∧
    (v.subAssignOwnEntry n).Returns (·.Has (n + 1) (fun i => f i - f n)) := by
  obtain ⟨⟨a, a1, a2⟩, ⟨b, b1, b2⟩, ⟨c, c1, c2⟩⟩ := C51_own_entry_actual hv (Nat.lt_succ_self n)
  refine ⟨⟨a, a1, ?_⟩, ⟨b, b1, ?_⟩, ⟨c, c1, ?_⟩⟩
  all_goals
    apply Vec.has_iff.mpr
    first
      | rw [Vec.has_iff.mp a2]
      | rw [Vec.has_iff.mp b2]
      | rw [Vec.has_iff.mp c2]
    apply Vec.ofFn_congr
    intro i hi
    rw [if_pos (by omega)]

/-- C51 is false: normalising `(2,4)` by its first entry leaves the second entry unchanged. -/
theorem C51_own_entry_wrong :
    ¬ ∀ (v : Vec ℚ) (n k : Nat) (f : Nat → ℚ), v.Has n f → k < n →
      (v.divAssignOwnEntry k).Returns (·.Has n (fun i => f i / f k)) := by
  intro h
  obtain ⟨w, h1, -, -, h2⟩ := h (Vec.ofList [2, 4]) 2 0 (fun i => 2 * i + 2)
    ⟨rfl, rfl, by decide +kernel⟩ (by omega)
  have e : (Vec.ofList [2, 4] : Vec ℚ).divAssignOwnEntry 0 = .ok (Vec.ofList [1, 4]) := by decide +kernel
  rw [e, Res.ok_inj] at h1
  subst h1
  have := h2 1 (by omega)
  revert this
  decide +kernel

example := C51_own_entry_actual exx_has (k := 1) (by omega)
example := C51_own_last_entry_partial exx_has

end EF
