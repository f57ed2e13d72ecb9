import Verif.Model.D2NOptimize
import Verif.Proofs.FVOperator
import Verif.Proofs.BlockForm
import Mathlib.Tactic.IntervalCases
import Mathlib.Tactic.LinearCombination

/-!
# Symmetries of the leaf operator of a problem with constant coefficients on a square
-/

namespace EF
namespace FV

open Finset

variable {K : Type} [Field K]

/-- Constant coefficients. -/
def Const (c : FVSolver K) (a b l : K) : Prop :=
  (∀ x y, c.alpha x y = a) ∧ (∀ x y, c.beta x y = b) ∧ ∀ x y, c.lambda x y = l

/-- The balance of a problem with constant coefficients. -/
theorem Const.balance {c : FVSolver K} {a b l : K} (h : Const c a b l) (R : Rect K) (nx ny : Nat) (β : Bdry K)
    (u : Nat → Nat → K) (i j : Nat) : FV.balance c R nx ny β u i j =
      a * b * ((east nx β u i j - 2 * u i j + west β u i j) / hx R nx ^ 2 +
        (north ny β u i j - 2 * u i j + south β u i j) / hy R ny ^ 2) + l * u i j := by
  simp only [FV.balance, h.1, h.2.1, h.2.2]
  ring

/-- Mirror image in the vertical line through the middle. -/
def Bdry.mirX (n : Nat) (b : Bdry K) : Bdry K := ⟨b.E, b.W, fun i => b.S (n - 1 - i), fun i => b.N (n - 1 - i)⟩
/-- Mirror image in the horizontal line through the middle. -/
def Bdry.mirY (n : Nat) (b : Bdry K) : Bdry K := ⟨fun j => b.W (n - 1 - j), fun j => b.E (n - 1 - j), b.N, b.S⟩
/-- Mirror image in the diagonal. -/
def Bdry.tr (b : Bdry K) : Bdry K := ⟨b.S, b.N, b.W, b.E⟩

section
variable {c : FVSolver K} {a b l : K} {R : Rect K} {n : Nat} {β : Bdry K} {u : Nat → Nat → K}

theorem Solves.mirX (h : Const c a b l) (hu : Solves c R n n β (fun _ _ => 0) u) :
    Solves c R n n (β.mirX n) (fun _ _ => 0) (fun i j => u (n - 1 - i) j) := by
  intro i hi j hj
  have e := hu (n - 1 - i) (by omega) j hj
  rw [h.balance] at e ⊢
  have h1 : east n (β.mirX n) (fun i j => u (n - 1 - i) j) i j = west β u (n - 1 - i) j := by
    unfold east west Bdry.mirX
    by_cases hh : i + 1 = n
    · rw [if_pos hh, if_pos (by omega)]
    · rw [if_neg hh, if_neg (by omega)]
      beta_reduce
      rw [show n - 1 - (i + 1) = n - 1 - i - 1 by omega]
  have h2 : west (β.mirX n) (fun i j => u (n - 1 - i) j) i j = east n β u (n - 1 - i) j := by
    unfold east west Bdry.mirX
    by_cases hh : i = 0
    · rw [if_pos hh, if_pos (by omega)]
    · rw [if_neg hh, if_neg (by omega)]
      beta_reduce
      rw [show n - 1 - (i - 1) = n - 1 - i + 1 by omega]
  have h3 : north n (β.mirX n) (fun i j => u (n - 1 - i) j) i j = north n β u (n - 1 - i) j := rfl
  have h4 : south (β.mirX n) (fun i j => u (n - 1 - i) j) i j = south β u (n - 1 - i) j := rfl
  rw [h1, h2, h3, h4, ← e]
  ring

theorem Solves.mirY (h : Const c a b l) (hu : Solves c R n n β (fun _ _ => 0) u) :
    Solves c R n n (β.mirY n) (fun _ _ => 0) (fun i j => u i (n - 1 - j)) := by
  intro i hi j hj
  have e := hu i hi (n - 1 - j) (by omega)
  rw [h.balance] at e ⊢
  have h1 : north n (β.mirY n) (fun i j => u i (n - 1 - j)) i j = south β u i (n - 1 - j) := by
    unfold north south Bdry.mirY
    by_cases hh : j + 1 = n
    · rw [if_pos hh, if_pos (by omega)]
    · rw [if_neg hh, if_neg (by omega)]
      beta_reduce
      rw [show n - 1 - (j + 1) = n - 1 - j - 1 by omega]
  have h2 : south (β.mirY n) (fun i j => u i (n - 1 - j)) i j = north n β u i (n - 1 - j) := by
    unfold north south Bdry.mirY
    by_cases hh : j = 0
    · rw [if_pos hh, if_pos (by omega)]
    · rw [if_neg hh, if_neg (by omega)]
      beta_reduce
      rw [show n - 1 - (j - 1) = n - 1 - j + 1 by omega]
  have h3 : east n (β.mirY n) (fun i j => u i (n - 1 - j)) i j = east n β u i (n - 1 - j) := rfl
  have h4 : west (β.mirY n) (fun i j => u i (n - 1 - j)) i j = west β u i (n - 1 - j) := rfl
  rw [h1, h2, h3, h4, ← e]
  ring

theorem Solves.tr (h : Const c a b l) (hh : hx R n = hy R n) (hu : Solves c R n n β (fun _ _ => 0) u) :
    Solves c R n n β.tr (fun _ _ => 0) (fun i j => u j i) := by
  intro i hi j hj
  have e := hu j hj i hi
  rw [h.balance] at e ⊢
  have h1 : east n β.tr (fun i j => u j i) i j = north n β u j i := rfl
  have h2 : west β.tr (fun i j => u j i) i j = south β u j i := rfl
  have h3 : north n β.tr (fun i j => u j i) i j = east n β u j i := rfl
  have h4 : south β.tr (fun i j => u j i) i j = west β u j i := rfl
  rw [h1, h2, h3, h4, ← e, hh]
  ring

end

/-- Neighbours on a line of `n` cells with ghost values. -/
def nbr (n : Nat) (lo hi : K) (u : Nat → K) (i : Nat) : K :=
  (if i + 1 = n then 2 * hi - u i else u (i + 1)) - 2 * u i + (if i = 0 then 2 * lo - u i else u (i - 1))

/-- Summation by parts on a line. -/
theorem line_green {n : Nat} (hn : 0 < n) (lo hi lo' hi' : K) (u v : Nat → K) :
    ∑ i ∈ range n, (u i * nbr n lo' hi' v i - v i * nbr n lo hi u i) =
      2 * (u (n - 1) * hi' - v (n - 1) * hi) - 2 * (lo * v 0 - lo' * u 0) := by
  let Q : Nat → K := fun m => if m = 0 then 2 * (lo * v 0 - lo' * u 0) else if m = n then 2 * (u (n - 1) * hi' - v (n - 1) * hi)
    else u (m - 1) * v m - v (m - 1) * u m
  have e : ∀ i ∈ range n, u i * nbr n lo' hi' v i - v i * nbr n lo hi u i = Q (i + 1) - Q i := by
    intro i hi
    have hi := mem_range.mp hi
    simp only [Q, nbr, Nat.add_sub_cancel]
    rw [if_neg (Nat.succ_ne_zero i)]
    by_cases h0 : i = 0
    · subst h0
      simp only [if_true, Nat.zero_add]
      by_cases h1 : 1 = n
      · subst h1; simp only [if_true, Nat.sub_self]; ring
      · simp only [h1, if_false]; ring
    · have hin : i ≠ n := by omega
      simp only [h0, hin, if_false]
      by_cases h1 : i + 1 = n
      · have : n - 1 = i := by omega
        simp only [h1, if_true, this]; ring
      · simp only [h1, if_false]; ring
  rw [sum_congr rfl e, sum_range_sub]
  simp only [Q, if_true, (Nat.pos_iff_ne_zero.mp hn), if_false]

/-- Green's second identity for two solutions with zero load on a grid with square cells. -/
theorem green {c : FVSolver K} {a b l : K} (h : Const c a b l) (hab : a * b ≠ 0) {R : Rect K} {n : Nat} (hn : 0 < n)
    (hh : hx R n = hy R n) (h0 : hx R n ≠ 0) {β γ : Bdry K} {u v : Nat → Nat → K}
    (hu : Solves c R n n β (fun _ _ => 0) u) (hv : Solves c R n n γ (fun _ _ => 0) v) :
    (∑ j ∈ range n, (2 * (u (n - 1) j * γ.E j - v (n - 1) j * β.E j) - 2 * (β.W j * v 0 j - γ.W j * u 0 j))) +
      ∑ i ∈ range n, (2 * (u i (n - 1) * γ.N i - v i (n - 1) * β.N i) - 2 * (β.S i * v i 0 - γ.S i * u i 0)) = 0 := by
  have e1 : ∀ j ∈ range n, (2 * (u (n - 1) j * γ.E j - v (n - 1) j * β.E j) - 2 * (β.W j * v 0 j - γ.W j * u 0 j)) =
      ∑ i ∈ range n, (u i j * nbr n (γ.W j) (γ.E j) (fun i => v i j) i - v i j * nbr n (β.W j) (β.E j) (fun i => u i j) i) :=
    fun j _ => (line_green hn (β.W j) (β.E j) (γ.W j) (γ.E j) (fun i => u i j) (fun i => v i j)).symm
  have e2 : ∀ i ∈ range n, (2 * (u i (n - 1) * γ.N i - v i (n - 1) * β.N i) - 2 * (β.S i * v i 0 - γ.S i * u i 0)) =
      ∑ j ∈ range n, (u i j * nbr n (γ.S i) (γ.N i) (v i) j - v i j * nbr n (β.S i) (β.N i) (u i) j) :=
    fun i _ => (line_green hn (β.S i) (β.N i) (γ.S i) (γ.N i) (u i) (v i)).symm
  rw [sum_congr rfl e1, sum_congr rfl e2, sum_comm, ← sum_add_distrib]
  refine sum_eq_zero fun i hi => ?_
  rw [← sum_add_distrib]
  refine sum_eq_zero fun j hj => ?_
  have hi := mem_range.mp hi
  have hj := mem_range.mp hj
  have f1 := hu i hi j hj
  have f2 := hv i hi j hj
  rw [h.balance] at f1 f2
  rw [← hh] at f1 f2
  have g1 : a * b * ((nbr n (β.W j) (β.E j) (fun i => u i j) i + nbr n (β.S i) (β.N i) (u i) j) / hx R n ^ 2) + l * u i j = 0 := by
    rw [add_div]; exact f1
  have g2 : a * b * ((nbr n (γ.W j) (γ.E j) (fun i => v i j) i + nbr n (γ.S i) (γ.N i) (v i) j) / hx R n ^ 2) + l * v i j = 0 := by
    rw [add_div]; exact f2
  have h2 : hx R n ^ 2 ≠ 0 := pow_ne_zero 2 h0
  field_simp at g1 g2
  have : a * b * (u i j * nbr n (γ.W j) (γ.E j) (fun i => v i j) i - v i j * nbr n (β.W j) (β.E j) (fun i => u i j) i +
      (u i j * nbr n (γ.S i) (γ.N i) (v i) j - v i j * nbr n (β.S i) (β.N i) (u i) j)) = 0 := by
    linear_combination u i j * g2 - v i j * g1
  exact (mul_eq_zero.mp this).resolve_left hab

section
variable {c : FVSolver K} {a b l : K} {R : Rect K} {n : Nat} {V : Nat → Nat → Nat → K}

open FVSolver (unit)

theorem unit_E (h : Const c a b l) (hq : Unique c R n n)
    (hV : ∀ j, Solves c R n n (Bdry.ofFn n (unit j)) (fun _ _ => 0) (V j)) {q : Nat} (hqn : q < n) :
    ∀ i, i < n → ∀ j, j < n → V (n + q) i j = V q (n - 1 - i) j := by
  refine hq _ _ _ _ (hV (n + q)) (((hV q).mirX h).congr ?_ ?_ ?_ ?_ (fun _ _ _ _ => rfl) (fun _ _ _ _ => rfl))
  all_goals
    intro k hk
    simp only [Bdry.mirX, Bdry.ofFn, unit]
    congr 1
    refine propext ⟨fun h => ?_, fun h => ?_⟩ <;> omega

theorem unit_S (h : Const c a b l) (hh : hx R n = hy R n) (hq : Unique c R n n)
    (hV : ∀ j, Solves c R n n (Bdry.ofFn n (unit j)) (fun _ _ => 0) (V j)) {q : Nat} (hqn : q < n) :
    ∀ i, i < n → ∀ j, j < n → V (2 * n + q) i j = V q j i := by
  refine hq _ _ _ _ (hV (2 * n + q)) (((hV q).tr h hh).congr ?_ ?_ ?_ ?_ (fun _ _ _ _ => rfl) (fun _ _ _ _ => rfl))
  all_goals
    intro k hk
    simp only [Bdry.tr, Bdry.ofFn, unit]
    congr 1
    refine propext ⟨fun h => ?_, fun h => ?_⟩ <;> omega

theorem unit_N (h : Const c a b l) (hh : hx R n = hy R n) (hq : Unique c R n n)
    (hV : ∀ j, Solves c R n n (Bdry.ofFn n (unit j)) (fun _ _ => 0) (V j)) {q : Nat} (hqn : q < n) :
    ∀ i, i < n → ∀ j, j < n → V (3 * n + q) i j = V q (n - 1 - j) i := by
  refine hq _ _ _ _ (hV (3 * n + q)) ((((hV q).mirX h).tr h hh).congr ?_ ?_ ?_ ?_ (fun _ _ _ _ => rfl) (fun _ _ _ _ => rfl))
  all_goals
    intro k hk
    simp only [Bdry.mirX, Bdry.tr, Bdry.ofFn, unit]
    congr 1
    refine propext ⟨fun h => ?_, fun h => ?_⟩ <;> omega

theorem unit_mirY (h : Const c a b l) (hq : Unique c R n n)
    (hV : ∀ j, Solves c R n n (Bdry.ofFn n (unit j)) (fun _ _ => 0) (V j)) {q : Nat} (hqn : q < n) :
    ∀ i, i < n → ∀ j, j < n → V (n - 1 - q) i j = V q i (n - 1 - j) := by
  refine hq _ _ _ _ (hV (n - 1 - q)) (((hV q).mirY h).congr ?_ ?_ ?_ ?_ (fun _ _ _ _ => rfl) (fun _ _ _ _ => rfl))
  all_goals
    intro k hk
    simp only [Bdry.mirY, Bdry.ofFn, unit]
    congr 1
    refine propext ⟨fun h => ?_, fun h => ?_⟩ <;> omega

/-- Reciprocity: the response at the South side to the West side is symmetric. -/
theorem unit_recip [CharZero K] (h : Const c a b l) (hh : hx R n = hy R n) (h0 : hx R n ≠ 0) (hq : Unique c R n n)
    (hV : ∀ j, Solves c R n n (Bdry.ofFn n (unit j)) (fun _ _ => 0) (V j)) {p q : Nat} (hp : p < n) (hqn : q < n) :
    V q p 0 = V p q 0 := by
  have hn : 0 < n := by omega
  by_cases hab : a * b = 0
  · have hz : ∀ k i, i < n → ∀ j, j < n → V k i j = 0 := by
      intro k
      have : Solves c R n n (Bdry.ofFn n (unit k)) (fun _ _ => 0) (fun _ _ => 0) := by
        intro i hi j hj
        rw [h.balance, hab]; simp
      exact hq _ _ _ _ (hV k) this
    rw [hz q p hp 0 hn, hz p q hqn 0 hn]
  · have g := green h hab hn hh h0 (hV q) (hV (2 * n + p))
    have e1 : ∀ j ∈ range n, (2 * (V q (n - 1) j * (Bdry.ofFn n (unit (2 * n + p))).E j -
        V (2 * n + p) (n - 1) j * (Bdry.ofFn n (unit q)).E j) - 2 * ((Bdry.ofFn n (unit q)).W j * V (2 * n + p) 0 j -
        (Bdry.ofFn n (unit (2 * n + p))).W j * V q 0 j)) = if j = q then -(2 * V (2 * n + p) 0 q) else 0 := by
      intro j hj
      have hj := mem_range.mp hj
      simp only [Bdry.ofFn, unit]
      rw [if_neg (show ¬ n + j = 2 * n + p by omega), if_neg (show ¬ n + j = q by omega), if_neg (show ¬ j = 2 * n + p by omega)]
      split
      · next e => subst e; ring
      · ring
    have e2 : ∀ i ∈ range n, (2 * (V q i (n - 1) * (Bdry.ofFn n (unit (2 * n + p))).N i -
        V (2 * n + p) i (n - 1) * (Bdry.ofFn n (unit q)).N i) - 2 * ((Bdry.ofFn n (unit q)).S i * V (2 * n + p) i 0 -
        (Bdry.ofFn n (unit (2 * n + p))).S i * V q i 0)) = if i = p then 2 * V q p 0 else 0 := by
      intro i hi
      have hi := mem_range.mp hi
      simp only [Bdry.ofFn, unit]
      rw [if_neg (show ¬ 3 * n + i = 2 * n + p by omega), if_neg (show ¬ 3 * n + i = q by omega),
        if_neg (show ¬ 2 * n + i = q by omega)]
      by_cases e : i = p
      · subst e; simp
      · rw [if_neg (show ¬ 2 * n + i = 2 * n + p by omega), if_neg e]; ring
    rw [sum_congr rfl e1, sum_congr rfl e2, sum_ite_eq' (range n), sum_ite_eq' (range n), if_pos (mem_range.mpr hqn),
      if_pos (mem_range.mpr hp), unit_S h hh hq hV hp 0 hn q hqn] at g
    have : (2 : K) * (V q p 0 - V p q 0) = 0 := by linear_combination g
    exact sub_eq_zero.mp ((mul_eq_zero.mp this).resolve_left two_ne_zero)

end

end FV

namespace FVSolver

open Finset FV

variable {K : Type} [Field K]

theorem d2nBlock_ok {n : Nat} {entry : Nat → Nat → Res K} {F : Nat → Nat → K}
    (h : ∀ i, i < n → ∀ j, j < n → entry i j = .ok (F i j)) : d2nBlock n entry = .ok (bm n 1 1 (fun _ _ => F)) := by
  unfold d2nBlock
  rw [Mat.zeros_eq, Mat.loop2_fill F _ (by
    intro i hi j hj f
    rw [h i hi j hj, Res.ok_bind, Mat.set_ofFn hi hj])]
  congr 1
  have := ofFn_eq_bm n 1 1 F
  simp only [Nat.one_mul] at this
  rw [this]
  refine bm_congr fun p hp q hq i _ j _ => ?_
  have : p = 0 := by omega
  have : q = 0 := by omega
  subst_vars
  simp

/-- The blocks of the optimised operator in terms of its first block column. -/
def optBlocks (n : Nat) (D : Nat → Nat → Nat → K) (p q i j : Nat) : K :=
  match q, p with
  | 0, p => D p i j
  | 1, 0 => -D 1 i j
  | 1, 1 => -D 0 i j
  | 1, 2 => -D 3 j i
  | 1, _ => D 3 (n - 1 - i) j
  | 2, 0 => D 2 i j
  | 2, 1 => D 3 i j
  | 2, 2 => D 0 i j
  | 2, _ => D 1 i j
  | _, 0 => -D 3 j i
  | _, 1 => D 3 (n - 1 - i) j
  | _, 2 => -D 1 i j
  | _, _ => -D 0 i j

theorem buildD2NOpt_ok {solve : Grid K → Vec K → Vec K → Res (Vec K)} {grid : Grid K} {n : Nat} (hn0 : 0 < n)
    (hx : grid.nx = n) (hy : grid.ny = n) {U : Nat → Nat → K}
    (hU : ∀ j, solve grid (Vec.ofFn (4 * n) (unit j)) (Vec.ofFn (n * n) (fun _ => 0)) = .ok (Vec.ofFn (n * n) (U j))) :
    buildD2NOpt (mapD2NWith solve) grid = .ok (bm n 4 4 (optBlocks n (fun p i j =>
        deriv (rect grid) n n (Bdry.ofFn n (unit j)) (fun i' j' => U j (j' + i' * n)) p i))) := by
  obtain ⟨D, hD⟩ : ∃ D : Nat → Nat → Nat → K, D = fun p i j =>
    deriv (rect grid) n n (Bdry.ofFn n (unit j)) (fun i' j' => U j (j' + i' * n)) p i := ⟨_, rfl⟩
  rw [← hD]
  unfold buildD2NOpt
  simp only [hx]
  have := forN_ok (n := n) (body := fun j (st : Mat K × Vec K) => do
    let e ← st.2.set j 1
    let col ← mapD2NWith solve grid e (Vec.fill (n * n) 0)
    let T ← st.1.setColumn j col
    let e ← e.set j 0
    pure (T, e)) (fun m => (Mat.ofFn (4 * n) (4 * n) (fun k j => if j < m then D (k / n) (k % n) j else 0),
        Vec.ofFn (4 * n) (fun _ => 0)))
    (by
      intro m hm
      simp only []
      have hm' : m < 4 * n := by omega
      rw [Vec.set_ofFn hm', Res.ok_bind]
      have e1 : (Vec.ofFn (4 * n) (fun k => if k = m then (1 : K) else 0)) = Vec.ofFn (4 * n) (unit m) := rfl
      rw [e1, Vec.fill_eq, mapD2NWith_ok hn0 hx hy _ _ (hU m), Res.ok_bind, Mat.setColumn_ofFn hm', Res.ok_bind,
        Vec.set_ofFn hm', Res.ok_bind, Res.pure_def]
      congr 2
      · refine Mat.ofFn_congr fun p _ q _ => ?_
        by_cases hq : q = m
        · subst hq; simp [hD]
        · have : q < m ↔ q < m + 1 := by omega
          simp [hq, this]
      · refine Vec.ofFn_congr fun k _ => ?_
        unfold unit
        split_ifs <;> rfl)
  simp only [Nat.not_lt_zero, if_false] at this
  rw [Mat.zeros_eq, Vec.fill_eq (4 * n), this, Res.ok_bind]
  clear this
  simp only []
  have blk : ∀ p, p < 4 → (Mat.ofFn (4 * n) (4 * n) (fun k j => if j < n then D (k / n) (k % n) j else 0)).getBlock (p * n) (0 * n) n n
      = .ok (Mat.ofFn n n (fun i j => D p i j)) := by
    intro p hp
    have : (p + 1) * n ≤ 4 * n := Nat.mul_le_mul_right n hp
    rw [Nat.succ_mul] at this
    rw [Mat.getBlock_ofFn (by omega) (by omega)]
    congr 1
    refine Mat.ofFn_congr fun i hi j hj => ?_
    beta_reduce
    rw [Nat.zero_mul, Nat.zero_add, if_pos hj, Mat.idx_div hi, Mat.idx_mod hi]
  rw [blk 0 (by omega), Res.ok_bind, blk 1 (by omega), Res.ok_bind, blk 2 (by omega), Res.ok_bind, blk 3 (by omega), Res.ok_bind]
  have neg : ∀ p, d2nBlock n (fun i j => do let x ← (Mat.ofFn n n (fun i j => D p i j)).get i j; pure (-x)) =
      .ok (bm n 1 1 (fun _ _ i j => -D p i j)) := fun p => d2nBlock_ok (fun i hi j hj => by
    rw [Mat.get_ofFn hi hj]; rfl)
  have negT : ∀ p, d2nBlock n (fun i j => do let x ← (Mat.ofFn n n (fun i j => D p i j)).get j i; pure (-x)) =
      .ok (bm n 1 1 (fun _ _ i j => -D p j i)) := fun p => d2nBlock_ok (fun i hi j hj => by
    rw [Mat.get_ofFn hj hi]; rfl)
  have pos : ∀ p, d2nBlock n (fun i j => (Mat.ofFn n n (fun i j => D p i j)).get i j) =
      .ok (bm n 1 1 (fun _ _ i j => D p i j)) := fun p => d2nBlock_ok (fun i hi j hj => by
    rw [Mat.get_ofFn hi hj])
  have rev : d2nBlock n (fun i j => (Mat.ofFn n n (fun i j => D 3 i j)).get (n - 1 - i) j) =
      .ok (bm n 1 1 (fun _ _ i j => D 3 (n - 1 - i) j)) := d2nBlock_ok (fun i hi j hj => by
    rw [Mat.get_ofFn (by omega) hj])
  have same : d2nBlock n (fun i j => (bm n 1 1 (fun _ _ i j => D 3 (n - 1 - i) j)).get i j) =
      .ok (bm n 1 1 (fun _ _ i j => D 3 (n - 1 - i) j)) := d2nBlock_ok (fun i hi j hj => by
    have e : bm n 1 1 (fun _ _ i j => D 3 (n - 1 - i) j) = Mat.ofFn n n (fun i j => D 3 (n - 1 - i) j) := by
      unfold bm
      rw [Nat.one_mul]
      refine Mat.ofFn_congr fun i hi j hj => ?_
      beta_reduce
      rw [Nat.mod_eq_of_lt hi, Nat.mod_eq_of_lt hj]
    rw [e, Mat.get_ofFn hi hj])
  rw [neg 1, Res.ok_bind, neg 0, Res.ok_bind, negT 3, Res.ok_bind, rev, Res.ok_bind, pos 2, Res.ok_bind, pos 3, Res.ok_bind,
    pos 0, Res.ok_bind, pos 1, Res.ok_bind, Res.ok_bind, same, Res.ok_bind, Res.ok_bind, Res.ok_bind]
  rw [ofFn_eq_bm, setBlock_bm 0 1 rfl rfl (by omega) (by omega), Res.ok_bind,
    setBlock_bm 1 1 rfl rfl (by omega) (by omega), Res.ok_bind,
    setBlock_bm 2 1 rfl rfl (by omega) (by omega), Res.ok_bind,
    setBlock_bm 3 1 rfl rfl (by omega) (by omega), Res.ok_bind,
    setBlock_bm 0 2 rfl rfl (by omega) (by omega), Res.ok_bind,
    setBlock_bm 1 2 rfl rfl (by omega) (by omega), Res.ok_bind,
    setBlock_bm 2 2 rfl rfl (by omega) (by omega), Res.ok_bind,
    setBlock_bm 3 2 rfl rfl (by omega) (by omega), Res.ok_bind,
    setBlock_bm 0 3 rfl rfl (by omega) (by omega), Res.ok_bind,
    setBlock_bm 1 3 rfl rfl (by omega) (by omega), Res.ok_bind,
    setBlock_bm 2 3 rfl rfl (by omega) (by omega), Res.ok_bind,
    setBlock_bm 3 3 rfl rfl (by omega) (by omega)]
  congr 1
  refine bm_congr fun p hp q hq i hi j hj => ?_
  have d1 : (n + i) / n = 1 := by have := Mat.idx_div (i := 1) hi; rwa [Nat.one_mul] at this
  interval_cases q <;> interval_cases p <;>
    simp [optBlocks, hj, d1, Nat.add_mul_div_right, Nat.div_eq_of_lt hi, Nat.mod_eq_of_lt hi, Mat.idx_div hi, Mat.idx_mod hi]

/-- For constant coefficients on a square the optimised operator is the operator. -/
theorem optBlocks_eq [CharZero K] {c : FVSolver K} {a b l : K} {R : Rect K} {n : Nat} (h : Const c a b l)
    (hh : FV.hx R n = FV.hy R n) (h0 : FV.hx R n ≠ 0) (hq : Unique c R n n) {V : Nat → Nat → Nat → K}
    (hV : ∀ j, Solves c R n n (Bdry.ofFn n (unit j)) (fun _ _ => 0) (V j)) {p q i j : Nat} (hp : p < 4) (hq4 : q < 4)
    (hi : i < n) (hj : j < n) :
    optBlocks n (fun p i j => deriv R n n (Bdry.ofFn n (unit j)) (V j) p i) p q i j =
      deriv R n n (Bdry.ofFn n (unit (q * n + j))) (V (q * n + j)) p i := by
  have hn : 0 < n := by omega
  have key : V j (n - 1 - i) 0 = V i j (n - 1) := by
    rw [unit_recip h hh h0 hq hV (show n - 1 - i < n by omega) hj, unit_mirY h hq hV hi j hj 0 hn, Nat.sub_zero]
  have E := unit_E h hq hV hj
  have S := unit_S h hh hq hV hj
  have N := unit_N h hh hq hV hj
  have e1 : 1 * n = n := Nat.one_mul n
  have e2 : n - 1 - (n - 1) = 0 := by omega
  have e3 : n - 1 - 0 = n - 1 := by omega
  have hl : n - 1 < n := by omega
  have hb : ∀ q' k, unit (K := K) q' k = if k = q' then 1 else 0 := fun _ _ => rfl
  interval_cases q <;> interval_cases p <;>
    simp only [optBlocks, deriv, Bdry.ofFn, hb, e1, Nat.zero_mul, Nat.zero_add, E _ hn _ hi, E _ hl _ hi, E _ hi _ hn, E _ hi _ hl,
      S _ hn _ hi, S _ hl _ hi, S _ hi _ hn, S _ hi _ hl, N _ hn _ hi, N _ hl _ hi, N _ hi _ hn, N _ hi _ hl, e2, e3, key, hh] <;>
    split_ifs <;> first | (exfalso; omega) | ring

end FVSolver
end EF
