import Verif.Proofs.FluxLemmas
import Verif.Proofs.FVMax
import Verif.Proofs.FVOperator
import Verif.Proofs.StageLemmas

/-!
# Four finite volume problems on the quarters of a rectangle and the problem on the rectangle
-/

namespace EF
namespace HPS

open Finset FV

variable {K : Type} [Field K]

/-- Boundary values given side by side. -/
def ofB (b : Nat → Nat → K) : Bdry K := ⟨b 0, b 1, b 2, b 3⟩

/-- The part of a cell function on quarter `c`, `n` cells per side. -/
def sub (n c : Nat) (U : Nat → Nat → K) : Nat → Nat → K := fun i j => U (c % 2 * n + i) (c / 2 * n + j)

/-- A cell function from its parts on the four quarters. -/
def glue (n : Nat) (V : Nat → Nat → Nat → K) : Nat → Nat → K := fun i j => V (i / n + 2 * (j / n)) (i % n) (j % n)

/-- Averages at the four interfaces. -/
def avg (n : Nat) (U : Nat → Nat → K) (r i : Nat) : K :=
  match r with
  | 0 => (U i (n - 1) + U i n) / 2
  | 1 => (U (n + i) (n - 1) + U (n + i) n) / 2
  | 2 => (U (n - 1) i + U n i) / 2
  | _ => (U (n - 1) (n + i) + U n (n + i)) / 2

omit [Field K] in
theorem sub_glue {n c : Nat} (hc : c < 4) (V : Nat → Nat → Nat → K) {i j : Nat} (hi : i < n) (hj : j < n) :
    sub n c (glue n V) i j = V c i j := by
  unfold sub glue
  rw [Mat.idx_div hi, Mat.idx_mod hi, Mat.idx_div hj, Mat.idx_mod hj]
  congr 1
  omega

section
variable [CharZero K]

theorem hx_quarter (R : Rect K) (n : Nat) (c : Nat) : hx (R.quarter c) n = hx R (2 * n) := by
  unfold hx Rect.quarter
  simp only []
  push_cast
  rw [← div_div]
  congr 1
  split_ifs <;> field_simp <;> ring

theorem hy_quarter (R : Rect K) (n : Nat) (c : Nat) : hy (R.quarter c) n = hy R (2 * n) := by
  unfold hy Rect.quarter
  simp only []
  push_cast
  rw [← div_div]
  congr 1
  split_ifs <;> field_simp <;> ring

theorem cx_quarter (R : Rect K) {n : Nat} (hn : 0 < n) (c i : Nat) :
    cx (R.quarter c) n i = cx R (2 * n) (c % 2 * n + i) := by
  have h0 : (n : K) ≠ 0 := by exact_mod_cast hn.ne'
  unfold cx
  rw [hx_quarter]
  unfold hx Rect.quarter
  rcases Nat.mod_two_eq_zero_or_one c with h | h <;> simp only [h] <;> push_cast <;> simp <;> field_simp <;> ring

theorem cy_quarter (R : Rect K) {n : Nat} (hn : 0 < n) {c : Nat} (hc : c < 4) (j : Nat) :
    cy (R.quarter c) n j = cy R (2 * n) (c / 2 * n + j) := by
  have h0 : (n : K) ≠ 0 := by exact_mod_cast hn.ne'
  unfold cy
  rw [hy_quarter]
  unfold hy Rect.quarter
  have : c / 2 = 0 ∨ c / 2 = 1 := by omega
  rcases this with h | h <;> simp only [h] <;> push_cast <;> simp <;> field_simp <;> ring

theorem west_sub {n c : Nat} (hn : 0 < n) (hc : c < 4) (b U : Nat → Nat → K) {i j : Nat} (hi : i < n) (hj : j < n) :
    west (ofB (cd c (hlv n b) (avg n U))) (sub n c U) i j = west (ofB b) U (c % 2 * n + i) (c / 2 * n + j) := by
  unfold west ofB sub
  rcases Nat.eq_zero_or_pos i with rfl | h
  · interval_cases c <;> simp [cd, hlv, avg, hn.ne', add_comm] <;> field_simp <;> ring
  · have h1 : i ≠ 0 := h.ne'
    have h2 : c % 2 * n + i ≠ 0 := by omega
    rw [if_neg h1, if_neg h2]
    congr 1
    omega

theorem south_sub {n c : Nat} (hn : 0 < n) (hc : c < 4) (b U : Nat → Nat → K) {i j : Nat} (hi : i < n) (hj : j < n) :
    south (ofB (cd c (hlv n b) (avg n U))) (sub n c U) i j = south (ofB b) U (c % 2 * n + i) (c / 2 * n + j) := by
  unfold south ofB sub
  rcases Nat.eq_zero_or_pos j with rfl | h
  · interval_cases c <;> simp [cd, hlv, avg, hn.ne', add_comm] <;> field_simp <;> ring
  · have h1 : j ≠ 0 := h.ne'
    have h2 : c / 2 * n + j ≠ 0 := by omega
    rw [if_neg h1, if_neg h2]
    congr 1
    omega

theorem east_sub {n c : Nat} (hn : 0 < n) (hc : c < 4) (b U : Nat → Nat → K) {i j : Nat} (hi : i < n) (hj : j < n) :
    east n (ofB (cd c (hlv n b) (avg n U))) (sub n c U) i j = east (2 * n) (ofB b) U (c % 2 * n + i) (c / 2 * n + j) := by
  unfold east ofB sub
  by_cases h : i + 1 = n
  · have e1 : n - 1 = i := by omega
    have e2 : n + i + 1 = 2 * n := by omega
    have e3 : ¬ (i + 1 = 2 * n) := by omega
    rw [if_pos h]
    interval_cases c <;> simp [cd, hlv, avg, e1, e2, h] <;> (try rw [if_neg (by omega)]) <;> (try field_simp) <;> (try ring)
  · have h2 : ¬ (c % 2 * n + i + 1 = 2 * n) := by
      have : c % 2 = 0 ∨ c % 2 = 1 := by omega
      rcases this with e | e <;> rw [e] <;> omega
    rw [if_neg h, if_neg h2]
    rfl

theorem north_sub {n c : Nat} (hn : 0 < n) (hc : c < 4) (b U : Nat → Nat → K) {i j : Nat} (hi : i < n) (hj : j < n) :
    north n (ofB (cd c (hlv n b) (avg n U))) (sub n c U) i j = north (2 * n) (ofB b) U (c % 2 * n + i) (c / 2 * n + j) := by
  unfold north ofB sub
  by_cases h : j + 1 = n
  · have e1 : n - 1 = j := by omega
    have e2 : n + j + 1 = 2 * n := by omega
    have e3 : ¬ (j + 1 = 2 * n) := by omega
    rw [if_pos h]
    interval_cases c <;> simp [cd, hlv, avg, e1, e2, h] <;> (try rw [if_neg (by omega)]) <;> (try field_simp) <;> (try ring)
  · have h2 : ¬ (c / 2 * n + j + 1 = 2 * n) := by
      have : c / 2 = 0 ∨ c / 2 = 1 := by omega
      rcases this with e | e <;> rw [e] <;> omega
    rw [if_neg h, if_neg h2]
    rfl

/-- The equation in a cell of a quarter is the equation in that cell of the whole rectangle, when the interface values
are the averages of the adjacent cells. -/
theorem balance_sub (s : FVSolver K) (R : Rect K) {n c : Nat} (hn : 0 < n) (hc : c < 4) (b U : Nat → Nat → K) {i j : Nat}
    (hi : i < n) (hj : j < n) :
    balance s (R.quarter c) n n (ofB (cd c (hlv n b) (avg n U))) (sub n c U) i j
      = balance s R (2 * n) (2 * n) (ofB b) U (c % 2 * n + i) (c / 2 * n + j) := by
  unfold balance
  rw [hx_quarter, hy_quarter, cx_quarter R hn, cy_quarter R hn hc, west_sub hn hc b U hi hj, east_sub hn hc b U hi hj,
    south_sub hn hc b U hi hj, north_sub hn hc b U hi hj]
  rfl

/-- The derivative at the outer sides. -/
theorem deriv_ext (R : Rect K) {n p : Nat} (hn : 0 < n) (hp : p < 8) (b w U : Nat → Nat → K) (i : Nat) :
    deriv (R.quarter (ex p).1) n n (ofB (cd (ex p).1 (hlv n b) w)) (sub n (ex p).1 U) (ex p).2 i
      = deriv R (2 * n) (2 * n) (ofB b) U (p / 2) (p % 2 * n + i) := by
  have e : 2 * n - 1 = n + (n - 1) := by omega
  unfold deriv
  interval_cases p <;> simp [ex, cd, ofB, sub, hlv, hx_quarter, hy_quarter, e]

/-- The derivatives from the two sides of an interface agree exactly for the average. -/
theorem deriv_int (R : Rect K) {n r : Nat} (hn : 0 < n) (hr : r < 4) (hhx : hx R (2 * n) ≠ 0) (hhy : hy R (2 * n) ≠ 0)
    (G w U : Nat → Nat → K) (i : Nat) :
    deriv (R.quarter (jl r).1) n n (ofB (cd (jl r).1 G w)) (sub n (jl r).1 U) (jl r).2 i
      = deriv (R.quarter (jr r).1) n n (ofB (cd (jr r).1 G w)) (sub n (jr r).1 U) (jr r).2 i ↔ w r i = avg n U r i := by
  unfold deriv
  interval_cases r <;> simp [jl, jr, cd, ofB, sub, hx_quarter, hy_quarter, avg] <;> field_simp <;>
    constructor <;> intro h <;> linear_combination (exp := 1) (1 : K) * h

/-- The restriction of a solution solves the problem on each quarter. -/
theorem solves_sub {s : FVSolver K} {R : Rect K} {n : Nat} (hn : 0 < n) {b f U : Nat → Nat → K}
    (hU : Solves s R (2 * n) (2 * n) (ofB b) f U) {c : Nat} (hc : c < 4) :
    Solves s (R.quarter c) n n (ofB (cd c (hlv n b) (avg n U))) (sub n c f) (sub n c U) := by
  intro i hi j hj
  rw [balance_sub s R hn hc b U hi hj]
  have h1 : c % 2 * n ≤ n := by
    have : c % 2 = 0 ∨ c % 2 = 1 := by omega
    rcases this with e | e <;> rw [e] <;> omega
  have h2 : c / 2 * n ≤ n := by
    have : c / 2 = 0 ∨ c / 2 = 1 := by omega
    rcases this with e | e <;> rw [e] <;> omega
  exact hU _ (by omega) _ (by omega)

/-- A function whose restrictions solve the problems on the quarters, with the averages as interface values, solves the
problem on the rectangle. -/
theorem solves_glue {s : FVSolver K} {R : Rect K} {n : Nat} (hn : 0 < n) {b f U : Nat → Nat → K}
    (h : ∀ c, c < 4 → Solves s (R.quarter c) n n (ofB (cd c (hlv n b) (avg n U))) (sub n c f) (sub n c U)) :
    Solves s R (2 * n) (2 * n) (ofB b) f U := by
  intro i hi j hj
  have hi' := Nat.mod_lt i hn
  have hj' := Nat.mod_lt j hn
  have hin : i / n < 2 := Nat.div_lt_of_lt_mul (by rw [mul_comm]; exact hi)
  have hjn : j / n < 2 := Nat.div_lt_of_lt_mul (by rw [mul_comm]; exact hj)
  have hc : i / n + 2 * (j / n) < 4 := by omega
  have e1 : (i / n + 2 * (j / n)) % 2 = i / n := by
    generalize i / n = a at *
    generalize j / n = d at *
    omega
  have e2 : (i / n + 2 * (j / n)) / 2 = j / n := by
    generalize i / n = a at *
    generalize j / n = d at *
    omega
  have := h _ hc _ hi' _ hj'
  rw [balance_sub s R hn hc b U hi' hj', e1, e2] at this
  have f1 : i / n * n + i % n = i := Nat.div_add_mod' i n
  have f2 : j / n * n + j % n = j := Nat.div_add_mod' j n
  unfold sub at this
  rw [e1, e2, f1, f2] at this
  exact this

/-- The operator and flux of a square with `n` cells per side give the boundary derivatives of every solution for the
load `f`. -/
def TrueOp (s : FVSolver K) (R : Rect K) (n : Nat) (T : Blk K) (h f : Nat → Nat → K) : Prop :=
  ∀ b U, Solves s R n n (ofB b) f U → ∀ p, p < 4 → ∀ i, i < n → deriv R n n (ofB b) U p i = opFlux n T b h p i

omit [CharZero K] in
theorem cd_congr {n : Nat} {G u u' : Nat → Nat → K} (h : ∀ l, l < 4 → ∀ i, i < n → u l i = u' l i) (c q : Nat) {i : Nat}
    (hi : i < n) : cd c G u q i = cd c G u' q i := by
  unfold cd
  split <;> first | rfl | exact h _ (by decide) i hi

omit [CharZero K] in
theorem tfl_congr {n : Nat} {TT : Ops K} {hh : Nat → Nat → Nat → K} {G u u' : Nat → Nat → K}
    (h : ∀ l, l < 4 → ∀ i, i < n → u l i = u' l i) (kp : Nat × Nat) (i : Nat) :
    tfl n TT hh G u kp i = tfl n TT hh G u' kp i := by
  unfold tfl cfl fl
  congr 1
  apply sum_congr rfl; intro q _
  apply sum_congr rfl; intro j hj
  rw [cd_congr h _ _ (mem_range.mp hj)]

omit [CharZero K] in
theorem jl_lt : ∀ r, r < 4 → (jl r).1 < 4 ∧ (jl r).2 < 4 := by decide
omit [CharZero K] in
theorem jr_lt : ∀ r, r < 4 → (jr r).1 < 4 ∧ (jr r).2 < 4 := by decide
omit [CharZero K] in
theorem ex_lt : ∀ r, r < 8 → (ex r).1 < 4 ∧ (ex r).2 < 4 := by decide

/-- The interface system of four quarters is nonsingular. -/
theorem bnonsing_merge {s : FVSolver K} {R : Rect K} {n : Nat} (hn : 0 < n) (hhx : hx R (2 * n) ≠ 0)
    (hhy : hy R (2 * n) ≠ 0) (hq : ∀ c, c < 4 → Unique s (R.quarter c) n n) (hqR : Unique s R (2 * n) (2 * n)) {TT : Ops K}
    (hT : ∀ c, c < 4 → TrueOp s (R.quarter c) n (TT c) (fun _ _ => 0) (fun _ _ => 0)) : BNonsing n 4 (Xf TT) := by
  intro w hw
  have hV := fun c (hc : c < 4) => exists_of_unique (hq c hc) (ofB (cd c (fun _ _ => 0) w)) (fun _ _ => 0)
  choose! V hV using hV
  have hsub : ∀ c, c < 4 → Solves s (R.quarter c) n n (ofB (cd c (fun _ _ => 0) w)) (fun _ _ => 0) (sub n c (glue n V)) :=
    fun c hc => (hV c hc).congr (fun _ _ => rfl) (fun _ _ => rfl) (fun _ _ => rfl) (fun _ _ => rfl) (fun _ _ _ _ => rfl)
      (fun i hi j hj => (sub_glue hc V hi hj).symm)
  have havg : ∀ r, r < 4 → ∀ i, i < n → w r i = avg n (glue n V) r i := by
    intro r hr i hi
    refine (deriv_int R hn hr hhx hhy (fun _ _ => 0) w (glue n V) i).mp ?_
    rw [hT _ (jl_lt r hr).1 _ _ (hsub _ (jl_lt r hr).1) _ (jl_lt r hr).2 i hi,
      hT _ (jr_lt r hr).1 _ _ (hsub _ (jr_lt r hr).1) _ (jr_lt r hr).2 i hi]
    have h1 := jump_eq n TT (fun _ _ => 0) w r hr i
    rw [hw r hr i hi] at h1
    simp only [mul_zero, sum_const_zero, sub_zero] at h1
    unfold jump at h1
    unfold opFlux
    rw [add_zero, add_zero]
    exact sub_eq_zero.mp h1
  have hz : hlv n (fun _ _ => (0 : K)) = fun _ _ => 0 := rfl
  have hsol : Solves s R (2 * n) (2 * n) (ofB (fun _ _ => 0)) (fun _ _ => 0) (glue n V) := by
    refine solves_glue hn ?_
    intro c hc
    rw [hz]
    exact (hsub c hc).congr (fun j hj => cd_congr (G := fun _ _ => 0) havg c 0 hj) (fun j hj => cd_congr (G := fun _ _ => 0) havg c 1 hj)
      (fun j hj => cd_congr (G := fun _ _ => 0) havg c 2 hj) (fun j hj => cd_congr (G := fun _ _ => 0) havg c 3 hj) (fun _ _ _ _ => rfl) (fun _ _ _ _ => rfl)
  have hzero : Solves s R (2 * n) (2 * n) (ofB (fun _ _ => 0)) (fun _ _ => 0) (fun _ _ => 0) :=
    solves_zero s R (2 * n) (2 * n)
  have hU := hqR _ _ _ _ hsol hzero
  intro r hr i hi
  rw [havg r hr i hi]
  have hn1 : n - 1 < 2 * n := by omega
  have hn2 : n < 2 * n := by omega
  unfold avg
  split
  · rw [hU i (by omega) _ hn1, hU i (by omega) _ hn2]; simp
  · rw [hU (n + i) (by omega) _ hn1, hU (n + i) (by omega) _ hn2]; simp
  · rw [hU _ hn1 i (by omega), hU _ hn2 i (by omega)]; simp
  · rw [hU _ hn1 (n + i) (by omega), hU _ hn2 (n + i) (by omega)]; simp

/-- The interface values computed are the averages of any solution on the rectangle. -/
theorem interface_avg {s : FVSolver K} {R : Rect K} {n : Nat} (hn : 0 < n) (hhx : hx R (2 * n) ≠ 0)
    (hhy : hy R (2 * n) ≠ 0) {TT : Ops K} {hh : Nat → Nat → Nat → K} {f : Nat → Nat → K}
    (hT : ∀ c, c < 4 → TrueOp s (R.quarter c) n (TT c) (hh c) (sub n c f)) (hns : BNonsing n 4 (Xf TT)) {S : Blk K}
    (hS : SolCond n TT S) {w : Nat → Nat → K} (hw : WCond n TT hh w) {b U : Nat → Nat → K}
    (hU : Solves s R (2 * n) (2 * n) (ofB b) f U) :
    ∀ r, r < 4 → ∀ i, i < n → avg n U r i = app n 8 S (hlv n b) r i + w r i := by
  have hsub := fun c (hc : c < 4) => solves_sub hn hU hc
  have h1 : ∀ r, r < 4 → ∀ i, i < n → tfl n TT hh (hlv n b) (avg n U) (jl r) i = tfl n TT hh (hlv n b) (avg n U) (jr r) i := by
    intro r hr i hi
    have := (deriv_int R hn hr hhx hhy (hlv n b) (avg n U) U i).mpr rfl
    rw [hT _ (jl_lt r hr).1 _ _ (hsub _ (jl_lt r hr).1) _ (jl_lt r hr).2 i hi,
      hT _ (jr_lt r hr).1 _ _ (hsub _ (jr_lt r hr).1) _ (jr_lt r hr).2 i hi] at this
    exact this
  have h2 := fun r (hr : r < 4) i (hi : i < n) => total_jump (hS.1 hns) (hw.1 hns) (hlv n b) hr hi
  have := hns (fun l s => avg n U l s - (app n 8 S (hlv n b) l s + w l s)) (by
    intro r hr i hi
    have a1 := h1 r hr i hi
    have a2 := h2 r hr i hi
    have j1 := jump_eq n TT (hlv n b) (avg n U) r hr i
    have j2 := jump_eq n TT (hlv n b) (fun l s => app n 8 S (hlv n b) l s + w l s) r hr i
    unfold tfl at a1 a2
    unfold jump at j1 j2
    simp only [mul_sub, sum_sub_distrib]
    linear_combination (-1 : K) * j1 + j2 + a1 - a2)
  intro r hr i hi
  exact sub_eq_zero.mp (this r hr i hi)

/-- The merged operator and flux are those of the whole rectangle. -/
theorem trueOp_merge {s : FVSolver K} {R : Rect K} {n : Nat} (hn : 0 < n) (hhx : hx R (2 * n) ≠ 0)
    (hhy : hy R (2 * n) ≠ 0) {TT : Ops K} {hh : Nat → Nat → Nat → K} {f : Nat → Nat → K}
    (hT : ∀ c, c < 4 → TrueOp s (R.quarter c) n (TT c) (hh c) (sub n c f)) (hns : BNonsing n 4 (Xf TT)) {S : Blk K}
    (hS : SolCond n TT S) {w : Nat → Nat → K} (hw : WCond n TT hh w) :
    TrueOp s R (2 * n) (dbl n (Tp n TT S)) (dblv n (hp n TT hh w)) f := by
  intro b U hU p hp i hi
  have ha := interface_avg hn hhx hhy hT hns hS hw hU
  have hz : i / n < 2 := Nat.div_lt_of_lt_mul (by rw [mul_comm]; exact hi)
  have hp8 : p * 2 + i / n < 8 := by omega
  have hi' := Nat.mod_lt i hn
  unfold opFlux
  rw [app_dbl]
  unfold dblv
  rw [total_ext n TT S hh w (hlv n b) hp8, ← tfl_congr ha]
  have hex := ex_lt _ hp8
  have h1 := hT _ hex.1 _ _ (solves_sub hn hU hex.1) _ hex.2 _ hi'
  rw [deriv_ext R hn hp8] at h1
  have e1 : (p * 2 + i / n) / 2 = p := by
    generalize i / n = a at *
    omega
  have e2 : (p * 2 + i / n) % 2 = i / n := by
    generalize i / n = a at *
    omega
  rw [e1, e2, Nat.div_add_mod'] at h1
  exact h1

end

end HPS
end EF
