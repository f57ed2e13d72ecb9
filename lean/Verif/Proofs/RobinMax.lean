import Verif.Spec.Robin
import Verif.Proofs.FVMax

/-!
# The maximum principle for boundary conditions `a u + b du/dn = r`
-/

namespace EF
namespace FV

open Finset

variable {K : Type} [Field K]

/-- A property that neighbouring cells share holds in all cells or in none. -/
theorem grid_connected {m : Nat} {P : Nat → Nat → Prop} (hx : ∀ i j, i + 1 < m → j < m → (P i j ↔ P (i + 1) j))
    (hy : ∀ i j, i < m → j + 1 < m → (P i j ↔ P i (j + 1))) {i j i' j' : Nat} (hi : i < m) (hj : j < m) (hi' : i' < m) (hj' : j' < m)
    (h : P i j) : P i' j' := by
  have h1 : ∀ i, i < m → ∀ j, j < m → (P 0 j ↔ P i j) := by
    intro i
    induction i with
    | zero => intro _ j _; exact Iff.rfl
    | succ i ih => intro hi j hj; exact (ih (by omega) j hj).trans (hx i j hi hj)
  have h2 : ∀ j, j < m → (P 0 0 ↔ P 0 j) := by
    intro j
    induction j with
    | zero => intro _; exact Iff.rfl
    | succ j ih => intro hj; exact (ih (by omega)).trans (hy 0 j (by omega) hj)
  exact (h1 i' hi' j' hj').mp ((h2 j' hj').mp ((h2 j hj).mpr ((h1 i hi j hj).mpr h)))

variable [LinearOrder K] [IsStrictOrderedRing K]

/-- At a cell where a subsolution is largest all neighbours have the same value and the zeroth order term vanishes. -/
theorem max_cell {c : FVSolver K} {R : Rect K} (hR : Proper R) (hc : EllipticOn c R) {nx ny : Nat} {b : Bdry K}
    {u : Nat → Nat → K} {m : K} {i j : Nat} (hi : i < nx) (hj : j < ny) (huij : u i j = m)
    (hW : west b u i j ≤ m) (hE : east nx b u i j ≤ m) (hS : south b u i j ≤ m) (hN : north ny b u i j ≤ m)
    (hl : c.lambda (cx R nx i) (cy R ny j) / c.alpha (cx R nx i) (cy R ny j) * m ≤ 0)
    (h0 : 0 ≤ balance c R nx ny b u i j / c.alpha (cx R nx i) (cy R ny j)) :
    west b u i j = m ∧ east nx b u i j = m ∧ south b u i j = m ∧ north ny b u i j = m ∧
      c.lambda (cx R nx i) (cy R ny j) / c.alpha (cx R nx i) (cy R ny j) * m = 0 := by
  have hpx := hx_pos hR (Nat.lt_of_le_of_lt (Nat.zero_le i) hi)
  have hpy := hy_pos hR (Nat.lt_of_le_of_lt (Nat.zero_le j) hj)
  obtain ⟨fx1, fx2⟩ := cx_face hR hi
  obtain ⟨fy1, fy2⟩ := cy_face hR hj
  have iE : Inside R (cx R nx i + hx R nx / 2) (cy R ny j) := ⟨by linarith, fx2, by linarith, by linarith⟩
  have iW : Inside R (cx R nx i - hx R nx / 2) (cy R ny j) := ⟨fx1, by linarith, by linarith, by linarith⟩
  have iN : Inside R (cx R nx i) (cy R ny j + hy R ny / 2) := ⟨by linarith, by linarith, by linarith, fy2⟩
  have iS : Inside R (cx R nx i) (cy R ny j - hy R ny / 2) := ⟨by linarith, by linarith, fy1, by linarith⟩
  have iC : Inside R (cx R nx i) (cy R ny j) := ⟨by linarith, by linarith, by linarith, by linarith⟩
  have bE := (hc _ _ iE).1
  have bW := (hc _ _ iW).1
  have bN := (hc _ _ iN).1
  have bS := (hc _ _ iS).1
  obtain ⟨_, ha, _⟩ := hc _ _ iC
  have heq : balance c R nx ny b u i j / c.alpha (cx R nx i) (cy R ny j) =
      c.beta (cx R nx i + hx R nx / 2) (cy R ny j) * (east nx b u i j - u i j) / hx R nx ^ 2 +
        c.beta (cx R nx i - hx R nx / 2) (cy R ny j) * (west b u i j - u i j) / hx R nx ^ 2 +
        (c.beta (cx R nx i) (cy R ny j + hy R ny / 2) * (north ny b u i j - u i j) / hy R ny ^ 2 +
          c.beta (cx R nx i) (cy R ny j - hy R ny / 2) * (south b u i j - u i j) / hy R ny ^ 2) +
      c.lambda (cx R nx i) (cy R ny j) / c.alpha (cx R nx i) (cy R ny j) * u i j := by
    unfold balance
    field_simp
    ring
  rw [heq, huij] at h0
  have part : ∀ {β v h : K}, 0 < β → 0 < h → v ≤ m → β * (v - m) / h ^ 2 ≤ 0 ∧ (β * (v - m) / h ^ 2 = 0 → v = m) := by
    intro β v h hβ hh hv
    refine ⟨div_nonpos_of_nonpos_of_nonneg (mul_nonpos_of_nonneg_of_nonpos hβ.le (by linarith)) (by positivity), fun h0 => ?_⟩
    rcases div_eq_zero_iff.mp h0 with h1 | h1
    · rcases mul_eq_zero.mp h1 with h2 | h2
      · exact absurd h2 hβ.ne'
      · linarith
    · exact absurd h1 (by positivity)
  obtain ⟨a1, a2⟩ := part bE hpx hE
  obtain ⟨b1, b2⟩ := part bW hpx hW
  obtain ⟨c1, c2⟩ := part bN hpy hN
  obtain ⟨d1, d2⟩ := part bS hpy hS
  exact ⟨b2 (by linarith), a2 (by linarith), d2 (by linarith), c2 (by linarith), by linarith⟩

/-- A subsolution is at most `M` if no boundary value exceeds both `M` and the adjacent cell value, and some boundary value or
a zeroth order term does so strictly. -/
theorem robin_max {c : FVSolver K} {R : Rect K} (hR : Proper R) (hc : EllipticOn c R) {m : Nat} {g : Bdry K} {u : Nat → Nat → K}
    {M : K} (hM : 0 ≤ M) (hg : ∀ s, s < 4 → ∀ k, k < m → g.side s k ≤ max M (adjacent m u s k))
    (hu : ∀ i, i < m → ∀ j, j < m → 0 ≤ balance c R m m g u i j / c.alpha (cx R m i) (cy R m j))
    (hs : (∃ s, s < 4 ∧ ∃ k, k < m ∧ (M < adjacent m u s k → g.side s k < adjacent m u s k)) ∨
      ∃ i, i < m ∧ ∃ j, j < m ∧ c.lambda (cx R m i) (cy R m j) / c.alpha (cx R m i) (cy R m j) < 0) :
    ∀ i, i < m → ∀ j, j < m → u i j ≤ M := by
  intro i0 hi0 j0 hj0
  by_contra hcon
  push Not at hcon
  obtain ⟨p, hp, hmax⟩ := exists_max_image (range m ×ˢ range m) (fun p => u p.1 p.2)
    ⟨(i0, j0), by simp [hi0, hj0]⟩
  have hle : ∀ i, i < m → ∀ j, j < m → u i j ≤ u p.1 p.2 := fun i hi j hj => hmax (i, j) (by simp [hi, hj])
  have hm : M < u p.1 p.2 := lt_of_lt_of_le hcon (hle i0 hi0 j0 hj0)
  simp only [mem_product, mem_range] at hp
  generalize hmm : u p.1 p.2 = x at *
  have cell : ∀ i, i < m → ∀ j, j < m → u i j = x → west g u i j = x ∧ east m g u i j = x ∧ south g u i j = x ∧
      north m g u i j = x ∧ c.lambda (cx R m i) (cy R m j) / c.alpha (cx R m i) (cy R m j) * x = 0 := by
    intro i hi j hj hij
    have side : ∀ s, s < 4 → ∀ k, k < m → adjacent m u s k = x → 2 * g.side s k - x ≤ x := by
      intro s hs k hk ha
      have := hg s hs k hk
      rw [ha, max_eq_right hm.le] at this
      linarith
    obtain ⟨fx1, fx2⟩ := cx_face hR hi
    obtain ⟨fy1, fy2⟩ := cy_face hR hj
    have hpx := hx_pos hR (Nat.lt_of_le_of_lt (Nat.zero_le i) hi)
    have hpy := hy_pos hR (Nat.lt_of_le_of_lt (Nat.zero_le j) hj)
    have hl := (hc (cx R m i) (cy R m j) ⟨by linarith, by linarith, by linarith, by linarith⟩).2.2
    refine max_cell hR hc hi hj hij ?_ ?_ ?_ ?_ (mul_nonpos_of_nonpos_of_nonneg hl (by linarith)) (hu i hi j hj)
    · unfold west
      split_ifs with h
      · subst h
        rw [hij]
        exact side 0 (by omega) j hj hij
      · exact hle _ (by omega) _ hj
    · unfold east
      split_ifs with h
      · obtain rfl : i = m - 1 := by omega
        rw [hij]
        exact side 1 (by omega) j hj hij
      · exact hle _ (by omega) _ hj
    · unfold south
      split_ifs with h
      · subst h
        rw [hij]
        exact side 2 (by omega) i hi hij
      · exact hle _ hi _ (by omega)
    · unfold north
      split_ifs with h
      · obtain rfl : j = m - 1 := by omega
        rw [hij]
        exact side 3 (by omega) i hi hij
      · exact hle _ hi _ (by omega)
  have all : ∀ i, i < m → ∀ j, j < m → u i j = x := by
    intro i hi j hj
    refine grid_connected (P := fun i j => u i j = x) ?_ ?_ hp.1 hp.2 hi hj hmm
    · intro i j hi hj
      constructor
      · intro h
        have := (cell i (by omega) j hj h).2.1
        unfold east at this
        rwa [if_neg (by omega)] at this
      · intro h
        have := (cell (i + 1) hi j hj h).1
        unfold west at this
        rwa [if_neg (by omega)] at this
    · intro i j hi hj
      constructor
      · intro h
        have := (cell i hi j (by omega) h).2.2.2.1
        unfold north at this
        rwa [if_neg (by omega)] at this
      · intro h
        have := (cell i hi (j + 1) hj h).2.2.1
        unfold south at this
        rwa [if_neg (by omega)] at this
  rcases hs with ⟨s, hs, k, hk, h⟩ | ⟨i, hi, j, hj, h⟩
  · have h4 : s = 0 ∨ s = 1 ∨ s = 2 ∨ s = 3 := by omega
    have hm1 : m - 1 < m := by omega
    have h0 : 0 < m := by omega
    rcases h4 with rfl | rfl | rfl | rfl
    · have e := all 0 h0 k hk
      have := (cell 0 h0 k hk e).1
      unfold west at this
      rw [if_pos rfl, e] at this
      have := h (by simp only [adjacent]; rw [e]; exact hm)
      simp only [adjacent, Bdry.side] at this
      linarith
    · have e := all (m - 1) hm1 k hk
      have := (cell (m - 1) hm1 k hk e).2.1
      unfold east at this
      rw [if_pos (by omega), e] at this
      have := h (by simp only [adjacent]; rw [e]; exact hm)
      simp only [adjacent, Bdry.side] at this
      linarith
    · have e := all k hk 0 h0
      have := (cell k hk 0 h0 e).2.2.1
      unfold south at this
      rw [if_pos rfl, e] at this
      have := h (by simp only [adjacent]; rw [e]; exact hm)
      simp only [adjacent, Bdry.side] at this
      linarith
    · have e := all k hk (m - 1) hm1
      have := (cell k hk (m - 1) hm1 e).2.2.2.1
      unfold north at this
      rw [if_pos (by omega), e] at this
      have := h (by simp only [adjacent]; rw [e]; exact hm)
      simp only [adjacent, Bdry.side] at this
      linarith
  · have := (cell i hi j hj (all i hi j hj)).2.2.2.2
    rcases mul_eq_zero.mp this with h1 | h1
    · exact absurd h1 h.ne
    · linarith

/-- Half the cell width across a side. -/
def halfWidth (R : Rect K) (m s : Nat) : K := if s < 2 then hx R m / 2 else hy R m / 2

omit [LinearOrder K] [IsStrictOrderedRing K] in
theorem normalDeriv_eq (R : Rect K) (m : Nat) (g : Bdry K) (u : Nat → Nat → K) {s : Nat} (hs : s < 4) (k : Nat) :
    normalDeriv R m g u s k = (g.side s k - adjacent m u s k) / halfWidth R m s := by
  have h4 : s = 0 ∨ s = 1 ∨ s = 2 ∨ s = 3 := by omega
  rcases h4 with rfl | rfl | rfl | rfl <;> rfl

theorem halfWidth_pos {R : Rect K} (hR : Proper R) {m : Nat} (hm : 0 < m) (s : Nat) : 0 < halfWidth R m s := by
  unfold halfWidth
  have := hx_pos hR hm
  have := hy_pos hR hm
  split_ifs <;> linarith

/-- A function and a constant. -/
theorem balance_shift {c : FVSolver K} {R : Rect K} {m : Nat} (g : Bdry K) (u : Nat → Nat → K) (M : K) (i j : Nat) :
    balance c R m m ⟨fun k => g.W k - M, fun k => g.E k - M, fun k => g.S k - M, fun k => g.N k - M⟩ (fun i j => u i j - M) i j =
      balance c R m m g u i j - c.lambda (cx R m i) (cy R m j) * M := by
  have e1 : east m ⟨fun k => g.W k - M, fun k => g.E k - M, fun k => g.S k - M, fun k => g.N k - M⟩ (fun i j => u i j - M) i j =
      east m g u i j - M := by unfold east; split_ifs <;> ring
  have e2 : west ⟨fun k => g.W k - M, fun k => g.E k - M, fun k => g.S k - M, fun k => g.N k - M⟩ (fun i j => u i j - M) i j =
      west g u i j - M := by unfold west; split_ifs <;> ring
  have e3 : south ⟨fun k => g.W k - M, fun k => g.E k - M, fun k => g.S k - M, fun k => g.N k - M⟩ (fun i j => u i j - M) i j =
      south g u i j - M := by unfold south; split_ifs <;> ring
  have e4 : north m ⟨fun k => g.W k - M, fun k => g.E k - M, fun k => g.S k - M, fun k => g.N k - M⟩ (fun i j => u i j - M) i j =
      north m g u i j - M := by unfold north; split_ifs <;> ring
  unfold balance
  rw [e1, e2, e3, e4]
  ring

/-- Bound from above for a well-posed problem. -/
theorem robin_le {c : FVSolver K} {R : Rect K} (hR : Proper R) (hc : EllipticOn c R) {m : Nat} {a b r : Nat → Nat → K}
    (hw : WellPosed c R m a b) {f : Nat → Nat → K} {g : Bdry K} {u : Nat → Nat → K} (hu : RobinSolves c R m a b r f g u) {M : K}
    (hr : ∀ s, s < 4 → ∀ k, k < m → r s k ≤ a s k * M)
    (hf : ∀ i, i < m → ∀ j, j < m → 0 ≤ (f i j - c.lambda (cx R m i) (cy R m j) * M) / c.alpha (cx R m i) (cy R m j)) :
    ∀ i, i < m → ∀ j, j < m → u i j ≤ M := by
  intro i hi j hj
  have hm : 0 < m := by omega
  have key : ∀ s, s < 4 → ∀ k, k < m → (g.side s k - M) * (a s k + b s k / halfWidth R m s) ≤
      b s k / halfWidth R m s * (adjacent m u s k - M) := by
    intro s hs k hk
    have h1 := hu.2 s hs k hk
    rw [normalDeriv_eq R m g u hs] at h1
    have h2 := hr s hs k hk
    have h3 : b s k * ((g.side s k - adjacent m u s k) / halfWidth R m s) =
      b s k / halfWidth R m s * (g.side s k - adjacent m u s k) := by ring
    rw [h3] at h1
    linarith
  have pos : ∀ s, s < 4 → ∀ k, k < m → 0 < a s k + b s k / halfWidth R m s := by
    intro s hs k hk
    obtain ⟨h1, h2, h3⟩ := hw.1 s hs k hk
    have hp := halfWidth_pos hR hm s
    rcases h2.lt_or_eq with h | h
    · have := div_pos h hp
      linarith
    · rw [← h] at h3 ⊢
      simpa using h3
  have shift : ∀ s k, (⟨fun k => g.W k - M, fun k => g.E k - M, fun k => g.S k - M, fun k => g.N k - M⟩ : Bdry K).side s k =
      g.side s k - M ∧ adjacent m (fun i j => u i j - M) s k = adjacent m u s k - M := by
    intro s k
    unfold Bdry.side adjacent
    constructor <;> split <;> rfl
  have := robin_max hR hc (m := m) (g := ⟨fun k => g.W k - M, fun k => g.E k - M, fun k => g.S k - M, fun k => g.N k - M⟩)
    (u := fun i j => u i j - M) (M := 0) (le_refl _) (by
      intro s hs k hk
      rw [(shift s k).1, (shift s k).2]
      by_contra hcon
      rw [not_le, max_lt_iff] at hcon
      have k1 := key s hs k hk
      have k2 := pos s hs k hk
      obtain ⟨w1, w2, w3⟩ := hw.1 s hs k hk
      have hp := halfWidth_pos hR hm s
      have k3 : 0 ≤ b s k / halfWidth R m s := div_nonneg w2 hp.le
      have k4 := mul_le_mul_of_nonneg_left hcon.2.le k3
      have k5 : (g.side s k - M) * a s k ≤ 0 := by linarith
      rcases w1.lt_or_eq with h | h
      · have := mul_pos hcon.1 h; linarith
      · rw [← h] at w3 k1
        have hb : 0 < b s k / halfWidth R m s := div_pos (by linarith) hp
        have := mul_lt_mul_of_pos_left hcon.2 hb
        linarith) (by
      intro i hi j hj
      rw [balance_shift, hu.1 i hi j hj]
      exact hf i hi j hj) (by
      rcases hw.2 with ⟨s, hs, k, hk, h⟩ | h
      · refine Or.inl ⟨s, hs, k, hk, ?_⟩
        rw [(shift s k).1, (shift s k).2]
        intro h0
        by_contra hcon
        rw [not_lt] at hcon
        have k1 := key s hs k hk
        have hp := halfWidth_pos hR hm s
        have k3 : 0 ≤ b s k / halfWidth R m s := div_nonneg (hw.1 s hs k hk).2.1 hp.le
        have k4 := mul_le_mul_of_nonneg_left hcon k3
        have := mul_pos (lt_of_lt_of_le h0 hcon) h
        linarith
      · exact Or.inr h) i hi j hj
  linarith

/-- Changing sign. -/
theorem RobinSolves.neg {c : FVSolver K} {R : Rect K} {m : Nat} {a b r : Nat → Nat → K} {f : Nat → Nat → K} {g : Bdry K}
    {u : Nat → Nat → K} (hu : RobinSolves c R m a b r f g u) :
    RobinSolves c R m a b (fun s k => - r s k) (fun i j => - f i j) ⟨fun k => - g.W k, fun k => - g.E k, fun k => - g.S k, fun k => - g.N k⟩
      (fun i j => - u i j) := by
  refine ⟨?_, ?_⟩
  · intro i hi j hj
    have h := hu.1 i hi j hj
    have e : balance c R m m ⟨fun k => - g.W k, fun k => - g.E k, fun k => - g.S k, fun k => - g.N k⟩ (fun i j => - u i j) i j =
        - balance c R m m g u i j := by
      unfold balance west east south north
      split_ifs <;> ring
    rw [e, h]
  · intro s hs k hk
    have h := hu.2 s hs k hk
    show _ = - r s k
    rw [← h]
    have h4 : s = 0 ∨ s = 1 ∨ s = 2 ∨ s = 3 := by omega
    rcases h4 with rfl | rfl | rfl | rfl <;> simp only [Bdry.side, normalDeriv] <;> ring

/-- Bound from below for a well-posed problem. -/
theorem robin_ge {c : FVSolver K} {R : Rect K} (hR : Proper R) (hc : EllipticOn c R) {m : Nat} {a b r : Nat → Nat → K}
    (hw : WellPosed c R m a b) {f : Nat → Nat → K} {g : Bdry K} {u : Nat → Nat → K} (hu : RobinSolves c R m a b r f g u) {M : K}
    (hr : ∀ s, s < 4 → ∀ k, k < m → a s k * M ≤ r s k)
    (hf : ∀ i, i < m → ∀ j, j < m → (f i j - c.lambda (cx R m i) (cy R m j) * M) / c.alpha (cx R m i) (cy R m j) ≤ 0) :
    ∀ i, i < m → ∀ j, j < m → M ≤ u i j := by
  intro i hi j hj
  have := robin_le hR hc hw hu.neg (M := - M) (fun s hs k hk => by have := hr s hs k hk; linarith) (fun i hi j hj => by
    have := hf i hi j hj
    have e : (- f i j - c.lambda (cx R m i) (cy R m j) * - M) / c.alpha (cx R m i) (cy R m j) =
      - ((f i j - c.lambda (cx R m i) (cy R m j) * M) / c.alpha (cx R m i) (cy R m j)) := by ring
    rw [e]
    linarith) i hi j hj
  linarith

/-- A well-posed problem has at most one solution. -/
theorem WellPosed.unique {c : FVSolver K} {R : Rect K} (hR : Proper R) (hc : EllipticOn c R) {m : Nat} {a b : Nat → Nat → K}
    (hw : WellPosed c R m a b) : RobinUnique c R m a b := by
  intro g u hu
  have hz : ∀ i, i < m → ∀ j, j < m → u i j = 0 := by
    intro i hi j hj
    refine le_antisymm ?_ ?_
    · exact robin_le hR hc hw hu (M := 0) (fun _ _ _ _ => by simp) (fun _ _ _ _ => by simp) i hi j hj
    · exact robin_ge hR hc hw hu (M := 0) (fun _ _ _ _ => by simp) (fun _ _ _ _ => by simp) i hi j hj
  refine ⟨hz, fun s hs k hk => ?_⟩
  have hm : 0 < m := by omega
  have h := hu.2 s hs k hk
  have ha : adjacent m u s k = 0 := by
    have h4 : s = 0 ∨ s = 1 ∨ s = 2 ∨ s = 3 := by omega
    rcases h4 with rfl | rfl | rfl | rfl
    · exact hz 0 hm k hk
    · exact hz (m - 1) (by omega) k hk
    · exact hz k hk 0 hm
    · exact hz k hk (m - 1) (by omega)
  rw [normalDeriv_eq R m g u hs, ha, sub_zero] at h
  have hp := halfWidth_pos hR hm s
  obtain ⟨h1, h2, h3⟩ := hw.1 s hs k hk
  have e : (a s k + b s k / halfWidth R m s) * g.side s k = 0 := by refine Eq.trans ?_ h; ring
  rcases mul_eq_zero.mp e with h0 | h0
  · exfalso
    have h4 := div_nonneg h2 hp.le
    have h5 : a s k = 0 := by linarith
    have h6 : b s k / halfWidth R m s = 0 := by linarith
    rcases div_eq_zero_iff.mp h6 with h7 | h7
    · linarith
    · exact hp.ne' h7
  · exact h0

omit [LinearOrder K] [IsStrictOrderedRing K] in
/-- The conditions of a boundary cell may be scaled. -/
theorem RobinUnique.scale {c : FVSolver K} {R : Rect K} {m : Nat} {a b a' b' σ : Nat → Nat → K} (h : RobinUnique c R m a b)
    (h0 : ∀ s, s < 4 → ∀ k, k < m → σ s k ≠ 0) (ha : ∀ s, s < 4 → ∀ k, k < m → a' s k = σ s k * a s k)
    (hb : ∀ s, s < 4 → ∀ k, k < m → b' s k = σ s k * b s k) : RobinUnique c R m a' b' := by
  intro g u hu
  refine h g u ⟨hu.1, fun s hs k hk => ?_⟩
  have := hu.2 s hs k hk
  rw [ha s hs k hk, hb s hs k hk] at this
  have e : σ s k * (a s k * g.side s k + b s k * normalDeriv R m g u s k) = 0 := by refine Eq.trans ?_ this; ring
  exact (mul_eq_zero.mp e).resolve_left (h0 s hs k hk)

/-- The cell values and the other boundary values determine the boundary value of a West cell. -/
theorem west_determined {c : FVSolver K} {R : Rect K} (hR : Proper R) (hc : EllipticOn c R) {m : Nat} {g g' : Bdry K}
    {f u : Nat → Nat → K} (h : Solves c R m m g f u) (h' : Solves c R m m g' f u) (hE : ∀ k, k < m → g.E k = g'.E k)
    (hS : ∀ k, k < m → g.S k = g'.S k) (hN : ∀ k, k < m → g.N k = g'.N k) {k : Nat} (hk : k < m) : g.W k = g'.W k := by
  have hm : 0 < m := by omega
  have h1 := h 0 hm k hk
  have h2 := h' 0 hm k hk
  have e1 : east m g u 0 k = east m g' u 0 k := by unfold east; rw [hE k hk]
  have e2 : south g u 0 k = south g' u 0 k := by unfold south; rw [hS 0 hm]
  have e3 : north m g u 0 k = north m g' u 0 k := by unfold north; rw [hN 0 hm]
  rw [← h2] at h1
  have hpx := hx_pos hR hm
  have hpy := hy_pos hR hm
  obtain ⟨fx1, fx2⟩ := cx_face hR hm
  obtain ⟨fy1, fy2⟩ := cy_face hR hk
  have bW := (hc (cx R m 0 - hx R m / 2) (cy R m k) ⟨fx1, by linarith, by linarith, by linarith⟩).1
  obtain ⟨_, ha, _⟩ := hc (cx R m 0) (cy R m k) ⟨by linarith, by linarith, by linarith, by linarith⟩
  have key : balance c R m m g u 0 k - balance c R m m g' u 0 k = c.alpha (cx R m 0) (cy R m k) *
      c.beta (cx R m 0 - hx R m / 2) (cy R m k) / hx R m ^ 2 * (west g u 0 k - west g' u 0 k) := by
    unfold balance
    rw [e1, e2, e3]
    field_simp
    ring
  rw [h1, sub_self] at key
  rcases mul_eq_zero.mp key.symm with h0 | h0
  · rcases div_eq_zero_iff.mp h0 with h0 | h0
    · rcases mul_eq_zero.mp h0 with h0 | h0
      · exact absurd h0 ha
      · exact absurd h0 bW.ne'
    · exact absurd h0 (by positivity)
  · unfold west at h0
    rw [if_pos rfl, if_pos rfl] at h0
    linarith

end FV
end EF
