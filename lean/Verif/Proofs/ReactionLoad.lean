import Verif.Proofs.Reaction

/-!
# Bounds on the solution when the reaction term is large

The affine version of `Near`: the flux of operator and load is close to a diagonal one.  It gives bounds on the values in the leaves.
-/

namespace EF
namespace HPS

open Finset FV

variable {K : Type} [Field K] [LinearOrder K] [IsStrictOrderedRing K] {N : Nat}

/-- `Near` with a load: for boundary values up to `M`, if `M` is not too small. -/
def NearA (n : Nat) (T : Blk K) (h d : Nat → Nat → K) (e η : K) : Prop :=
  ∀ (g : Nat → Nat → K) (M D : K) (p : Nat), p < 4 → 0 ≤ D → 0 ≤ M → η ≤ (1 / 3 - e) * M → (∀ q, q < 4 → ∀ i, i < n → |g q i| ≤ M) →
    (∀ i, i + 2 < n → |g p i - 2 * g p (i + 1) + g p (i + 2)| ≤ D) →
    ∀ i, i < n → |app n 4 T g p i + h p i - sgn p * d p i * g p i| ≤ d p i * (e * M + D / 6 + η)

/-! ### Coarsening -/

theorem NearA.crs {m : Nat} (hm : 3 ≤ m) {T : Blk K} {h d : Nat → Nat → K} {e η : K} (hT : NearA (2 * m) T h d e η)
    (hd : ∀ p, p < 4 → ∀ i, i < m → d p (2 * i + 1) = d p (2 * i)) (h0 : ∀ p, p < 4 → ∀ i, i < 2 * m → 0 < d p i) :
    NearA m (crs m T) (rst m h) (fun p i => d p (2 * i)) (17 / 8 * e) η := by
  intro g M D p hp D0 M0 hη hM hD i hi
  have e1 := hT (pro m g) (17 / 8 * M) (D / 4) p hp (by positivity) (by positivity) (by linarith)
    (fun q hq j hj => pro_bound hm (hM q hq) hj) (fun j hj => pro_second hm hD hj)
  have a := e1 (2 * i) (by omega)
  have b := e1 (2 * i + 1) (by omega)
  rw [hd p hp i hi] at b
  have c := pro_mean hm hD hi
  have hd0 := h0 p hp (2 * i) (by omega)
  rw [app_crs]
  unfold rst
  rw [Mat.sum_f2c hi, Mat.sum_f2c hi]
  beta_reduce
  have hs : |(sgn p : K)| = 1 := by unfold sgn; split_ifs <;> simp
  generalize app (2 * m) 4 T (pro m g) p (2 * i) = x at *
  generalize app (2 * m) 4 T (pro m g) p (2 * i + 1) = y at *
  generalize h p (2 * i) = x' at *
  generalize h p (2 * i + 1) = y' at *
  generalize pro m g p (2 * i) = u at *
  generalize pro m g p (2 * i + 1) = v at *
  generalize d p (2 * i) = δ at *
  have key : 1 / 2 * x + 1 / 2 * y + (1 / 2 * x' + 1 / 2 * y') - sgn p * δ * g p i = 1 / 2 * (x + x' - sgn p * δ * u) +
      1 / 2 * (y + y' - sgn p * δ * v) + sgn p * δ * (1 / 2 * u + 1 / 2 * v - g p i) := by ring
  have z : |sgn p * δ * (1 / 2 * u + 1 / 2 * v - g p i)| ≤ δ * (D / 8) := by
    rw [abs_mul, abs_mul, hs, one_mul, abs_of_pos hd0]
    exact mul_le_mul_of_nonneg_left c hd0.le
  have w : δ * (17 / 8 * e * M + D / 6 + η) = 1 / 2 * (δ * (e * (17 / 8 * M) + D / 4 / 6 + η)) +
      1 / 2 * (δ * (e * (17 / 8 * M) + D / 4 / 6 + η)) + δ * (D / 8) := by ring
  rw [key, w]
  rw [abs_le] at a b z ⊢
  constructor <;> linarith

theorem NearA.crsN {T : Blk K} {h d : Nat → Nat → K} {e η : K} (k : Nat) {m : Nat} (hm : k = 0 ∨ 3 ≤ m) (hT : NearA (m * 2 ^ k) T h d e η)
    (hd : ∀ p, p < 4 → ∀ i j, i < m * 2 ^ k → j < m * 2 ^ k → i / 2 ^ k = j / 2 ^ k → d p i = d p j)
    (h0 : ∀ p, p < 4 → ∀ i, i < m * 2 ^ k → 0 < d p i) :
    NearA m (crsN k m T) (rstN k m h) (fun p i => d p (2 ^ k * i)) ((17 / 8) ^ k * e) η := by
  induction k generalizing m with
  | zero => simpa [HPS.crsN, rstN] using hT
  | succ k ih =>
    have hm := hm.resolve_left (by omega)
    have e1 : 2 * m * 2 ^ k = m * 2 ^ (k + 1) := by ring
    have p1 : 0 < 2 ^ k := by positivity
    have h' := ih (m := 2 * m) (Or.inr (by omega)) (by rw [e1]; exact hT) (by
      rw [e1]
      intro p hp i j hi hj hij
      refine hd p hp i j hi hj ?_
      rw [pow_succ, ← Nat.div_div_eq_div_mul, ← Nat.div_div_eq_div_mul, hij]) (by rw [e1]; exact h0)
    have hlt : ∀ i, i < 2 * m → 2 ^ k * i < m * 2 ^ (k + 1) := by
      intro i hi
      rw [← e1, mul_comm (2 * m)]
      exact Nat.mul_lt_mul_of_pos_left hi p1
    have := h'.crs hm (by
      intro p hp i hi
      refine hd p hp _ _ (hlt _ (by omega)) (hlt _ (by omega)) ?_
      rw [pow_succ, ← Nat.div_div_eq_div_mul, ← Nat.div_div_eq_div_mul, Nat.mul_div_cancel_left _ p1, Nat.mul_div_cancel_left _ p1]
      omega) (fun p hp i hi => h0 p hp _ (hlt i hi))
    rw [HPS.crsN, rstN]
    convert this using 1
    · funext p i
      rw [pow_succ, mul_assoc]
    · ring

theorem proN_bound {m : Nat} {g : Nat → Nat → K} {M : K} (k : Nat) (hm : k = 0 ∨ 3 ≤ m) (h : ∀ q, q < 4 → ∀ i, i < m → |g q i| ≤ M) :
    ∀ q, q < 4 → ∀ i, i < m * 2 ^ k → |proN k m g q i| ≤ (17 / 8) ^ k * M := by
  induction k with
  | zero => simpa [proN] using h
  | succ k ih =>
    have hm := hm.resolve_left (by omega)
    intro q hq i hi
    have h3 : 3 ≤ m * 2 ^ k := le_trans hm (Nat.le_mul_of_pos_right m (by positivity))
    rw [proN, pow_succ, mul_comm _ (17 / 8 : K), mul_assoc]
    exact pro_bound h3 (ih (Or.inr hm) q hq) (by rw [pow_succ, ← mul_assoc] at hi; omega)

/-! ### Merging -/

/-- Interface values that make the total fluxes continuous are not larger than the bound. -/
theorem interface_leA {n : Nat} {TT : Ops K} {hh d : Nat → Nat → Nat → K} {e η : K} (he : 3 * e < 1)
    (hT : ∀ c, c < 4 → NearA n (TT c) (hh c) (d c) e η) (hd : ∀ c, c < 4 → ∀ p, p < 4 → ∀ i, i < n → 0 < d c p i)
    {G u : Nat → Nat → K} {M : K} (M0 : 0 ≤ M) (hη : η ≤ (1 / 3 - e) * M) (hG : ∀ q, q < 8 → ∀ i, i < n → |G q i| ≤ M)
    (hj : ∀ r, r < 4 → ∀ i, i < n → tfl n TT hh G u (jl r) i = tfl n TT hh G u (jr r) i) : ∀ r, r < 4 → ∀ i, i < n → |u r i| ≤ M := by
  intro r0 hr0 i0 hi0
  by_contra hcon
  push Not at hcon
  obtain ⟨⟨r, i⟩, hp, hmax⟩ := exists_max_image (range 4 ×ˢ range n) (fun p => |u p.1 p.2|) ⟨(r0, i0), by simp [hr0, hi0]⟩
  simp only [mem_product, mem_range] at hp hmax
  obtain ⟨hr, hi⟩ := hp
  obtain ⟨U, eU⟩ : ∃ U, U = |u r i| := ⟨_, rfl⟩
  have hU : ∀ q, q < 4 → ∀ j, j < n → |u q j| ≤ U := fun q hq j hj => by rw [eU]; exact hmax (q, j) ⟨hq, hj⟩
  have hMU : M < U := lt_of_lt_of_le hcon (hU _ hr0 _ hi0)
  have U0 : 0 < U := lt_of_le_of_lt M0 hMU
  have he' : 0 < 1 / 3 - e := by linarith
  have hlt : (1 / 3 - e) * M < (1 / 3 - e) * U := mul_lt_mul_of_pos_left hMU he'
  have hηU : η ≤ (1 / 3 - e) * U := by linarith
  have hb : ∀ c q i, i < n → |cd c G u q i| ≤ U := fun c q i hi => cd_le U0.le (fun q hq i hi => (hG q hq i hi).trans hMU.le) hU c q hi
  have hl := jl_lt r hr
  have hr' := jr_lt r hr
  have a := hT _ hl.1 (cd (jl r).1 G u) U (4 * U) _ hl.2 (by positivity) U0.le hηU (fun q _ i hi => hb _ q i hi)
    (fun i hi => second_le (n := n) (fun i hi => hb _ _ i hi) hi) i hi
  have b := hT _ hr'.1 (cd (jr r).1 G u) U (4 * U) _ hr'.2 (by positivity) U0.le hηU (fun q _ i hi => hb _ q i hi)
    (fun i hi => second_le (n := n) (fun i hi => hb _ _ i hi) hi) i hi
  have dl := hd _ hl.1 _ hl.2 i hi
  have dr := hd _ hr'.1 _ hr'.2 i hi
  have sl : (sgn (jl r).2 : K) = 1 := by interval_cases r <;> simp [sgn, jl]
  have sr : (sgn (jr r).2 : K) = -1 := by interval_cases r <;> simp [sgn, jr]
  rw [cd_jl G u r hr, sl, one_mul] at a
  rw [cd_jr G u r hr, sr] at b
  have j0 : app n 4 (TT (jl r).1) (cd (jl r).1 G u) (jl r).2 i + hh (jl r).1 (jl r).2 i =
      app n 4 (TT (jr r).1) (cd (jr r).1 G u) (jr r).2 i + hh (jr r).1 (jr r).2 i := hj r hr i hi
  rw [j0] at a
  generalize app n 4 (TT (jr r).1) (cd (jr r).1 G u) (jr r).2 i + hh (jr r).1 (jr r).2 i = x at *
  generalize d (jl r).1 (jl r).2 i = α at *
  generalize d (jr r).1 (jr r).2 i = β at *
  have s1 : |(α + β) * u r i| ≤ (α + β) * (e * U + 4 * U / 6 + η) := by
    rw [abs_le] at a b ⊢
    constructor <;> nlinarith
  rw [abs_mul, abs_of_pos (add_pos dl dr), ← eU] at s1
  have s2 := le_of_mul_le_mul_left s1 (add_pos dl dr)
  linarith

theorem hlv_le {n : Nat} {g : Nat → Nat → K} {M : K} (hM : ∀ q, q < 4 → ∀ i, i < 2 * n → |g q i| ≤ M) :
    ∀ q, q < 8 → ∀ j, j < n → |hlv n g q j| ≤ M := by
  intro q hq j hj
  refine hM _ (by omega) _ ?_
  have : q % 2 = 0 ∨ q % 2 = 1 := by omega
  rcases this with h | h <;> rw [h] <;> omega

theorem NearA.merge {n : Nat} (hn : 0 < n) {TT : Ops K} {hh d : Nat → Nat → Nat → K} {e η : K} (he : 3 * e < 1)
    (hT : ∀ c, c < 4 → NearA n (TT c) (hh c) (d c) e η) (hd : ∀ c, c < 4 → ∀ p, p < 4 → ∀ i, i < n → 0 < d c p i) {S : Blk K}
    {w : Nat → Nat → K} (hns : BNonsing n 4 (Xf TT)) (hS : SolCond n TT S) (hW : WCond n TT hh w) :
    NearA (2 * n) (dbl n (Tp n TT S)) (dblv n (hp n TT hh w)) (dOf n d) e η := by
  intro g M D p hp D0 M0 hη hM hD i hi
  have hz : i / n < 2 := Nat.div_lt_of_lt_mul (by rw [mul_comm]; exact hi)
  have hi' := Nat.mod_lt i hn
  obtain ⟨z, ez⟩ : ∃ z, z = i / n := ⟨_, rfl⟩
  have ei : z * n + i % n = i := by rw [ez]; exact Nat.div_add_mod' i n
  rw [app_dbl]
  unfold dOf dblv
  rw [← ez] at hz ⊢
  have hp8 : p * 2 + z < 8 := by omega
  have hex := ex_lt _ hp8
  have hG := hlv_le hM
  have hu := interface_leA he hT hd M0 hη hG (fun r hr i hi => total_jump (hS.1 hns) (hW.1 hns) (hlv n g) hr hi)
  rw [total_ext n TT S hh w (hlv n g) hp8]
  have e1 : (p * 2 + z) / 2 = p := by omega
  have e2 : (p * 2 + z) % 2 = z := by omega
  have eg : ∀ j, hlv n g (p * 2 + z) j = g p (z * n + j) := by
    intro j
    unfold hlv
    rw [e1, e2]
  have key := hT _ hex.1 (cd (ex (p * 2 + z)).1 (hlv n g) (fun l s => app n 8 S (hlv n g) l s + w l s)) M D _ hex.2 D0 M0 hη
    (fun q _ j hj => cd_le M0 hG hu _ q hj) (by
      intro j hj
      rw [cd_ex _ _ _ hp8, eg, eg, eg]
      exact hD (z * n + j) (by
        have : z = 0 ∨ z = 1 := by omega
        rcases this with h | h <;> rw [h] <;> omega)) (i % n) hi'
  rw [cd_ex _ _ _ hp8, eg, ei] at key
  have es : (sgn (ex (p * 2 + z)).2 : K) = sgn p := by
    have : z = 0 ∨ z = 1 := by omega
    rcases this with h | h <;> rw [h] <;> interval_cases p <;> rfl
  rw [es] at key
  exact key

/-! ### Leaves -/

/-- The constant `e * M + η` is a supersolution. -/
theorem const_superA {s : FVSolver K} {R : Rect K} (hR : Proper R) (hE : EllipticOn s R) {B Λ e : K} (hD : Damped s R B Λ) {m : Nat} (hm : 2 ≤ m)
    (he : 0 ≤ e) (hl : 2 * B * (1 / hx R m ^ 2 + 1 / hy R m ^ 2) ≤ e * Λ) {M η : K} (M0 : 0 ≤ M) (η0 : 0 ≤ η) {i : Nat} (hi : i < m) {j : Nat}
    (hj : j < m) : balance s R m m ⟨fun _ => M, fun _ => M, fun _ => M, fun _ => M⟩ (fun _ _ => e * M + η) i j / s.alpha (cx R m i) (cy R m j) ≤
      -(Λ * η) := by
  have hx0 := hx_pos hR (by omega : 0 < m)
  have hy0 := hy_pos hR (by omega : 0 < m)
  obtain ⟨fx1, fx2⟩ := cx_face hR hi
  obtain ⟨fy1, fy2⟩ := cy_face hR hj
  have in0 : Inside R (cx R m i) (cy R m j) := ⟨by linarith, by linarith, by linarith, by linarith⟩
  have inE : Inside R (cx R m i + hx R m / 2) (cy R m j) := ⟨by linarith, by linarith, by linarith, by linarith⟩
  have inW : Inside R (cx R m i - hx R m / 2) (cy R m j) := ⟨by linarith, by linarith, by linarith, by linarith⟩
  have inN : Inside R (cx R m i) (cy R m j + hy R m / 2) := ⟨by linarith, by linarith, by linarith, by linarith⟩
  have inS : Inside R (cx R m i) (cy R m j - hy R m / 2) := ⟨by linarith, by linarith, by linarith, by linarith⟩
  obtain ⟨v, ev⟩ : ∃ v, v = e * M + η := ⟨_, rfl⟩
  have v0 : 0 ≤ v := by rw [ev]; positivity
  rw [← ev]
  have X := faces_le (P := i + 1 = m) (Q := i = 0) hx0 (hE _ _ inE).1 (hD _ _ inE).1 (hE _ _ inW).1 (hD _ _ inW).1 M0 v0 (by omega)
  have Y := faces_le (P := j + 1 = m) (Q := j = 0) hy0 (hE _ _ inN).1 (hD _ _ inN).1 (hE _ _ inS).1 (hD _ _ inS).1 M0 v0 (by omega)
  have ha := (hE _ _ in0).2.1
  have hla := (hD _ _ in0).2
  unfold balance east west north south
  dsimp only
  generalize (s.beta (cx R m i + hx R m / 2) (cy R m j) * ((if i + 1 = m then 2 * M - v else v) - v) -
    s.beta (cx R m i - hx R m / 2) (cy R m j) * (v - if i = 0 then 2 * M - v else v)) / hx R m ^ 2 = x at *
  generalize (s.beta (cx R m i) (cy R m j + hy R m / 2) * ((if j + 1 = m then 2 * M - v else v) - v) -
    s.beta (cx R m i) (cy R m j - hy R m / 2) * (v - if j = 0 then 2 * M - v else v)) / hy R m ^ 2 = y at *
  generalize s.alpha (cx R m i) (cy R m j) = a at *
  generalize s.lambda (cx R m i) (cy R m j) = l at *
  have e1 : (a * (x + y) + l * v) / a = x + y + l / a * v := by field_simp
  rw [e1]
  have e2 : l / a * v ≤ -Λ * v := mul_le_mul_of_nonneg_right hla v0
  have e3 : 2 * B * (1 / hx R m ^ 2 + 1 / hy R m ^ 2) * M ≤ e * Λ * M := mul_le_mul_of_nonneg_right hl M0
  rw [ev] at e2 ⊢
  linarith

theorem damped_leA {s : FVSolver K} {R : Rect K} (hR : Proper R) (hE : EllipticOn s R) {B Λ e : K} (hD : Damped s R B Λ) {m : Nat} (hm : 2 ≤ m)
    (he : 0 ≤ e) (hl : 2 * B * (1 / hx R m ^ 2 + 1 / hy R m ^ 2) ≤ e * Λ) {M η : K} (η0 : 0 ≤ η) {g U f : Nat → Nat → K}
    (hg : ∀ q, q < 4 → ∀ i, i < m → |g q i| ≤ M)
    (hf : ∀ i, i < m → ∀ j, j < m → |f i j / s.alpha (cx R m i) (cy R m j)| ≤ Λ * η) (hU : Solves s R m m (ofB g) f U) :
    ∀ i, i < m → ∀ j, j < m → |U i j| ≤ e * M + η := by
  have M0 : 0 ≤ M := (abs_nonneg _).trans (hg 0 (by omega) 0 (by omega))
  have key : ∀ σ : K, |σ| = 1 → ∀ i, i < m → ∀ j, j < m → σ * U i j + -1 * (e * M + η) ≤ 0 := by
    intro σ hσ
    have hb : ∀ q, q < 4 → ∀ k, k < m → σ * g q k + -1 * M ≤ 0 := by
      intro q hq k hk
      have : |σ * g q k| ≤ M := by rw [abs_mul, hσ, one_mul]; exact hg q hq k hk
      linarith [(abs_le.mp this).2]
    refine comparison hR hE (b := (ofB g).lin σ (-1) ⟨fun _ => M, fun _ => M, fun _ => M, fun _ => M⟩)
      (u := fun i j => σ * U i j + -1 * (e * M + η)) ⟨hb 0 (by omega), hb 1 (by omega), hb 2 (by omega), hb 3 (by omega)⟩ (Or.inl le_rfl) ?_
    intro i hi j hj
    have := balance_lin s R m m σ (-1) (ofB g) ⟨fun _ => M, fun _ => M, fun _ => M, fun _ => M⟩ U (fun _ _ => e * M + η) i j
    rw [this, hU i hi j hj]
    have c := const_superA hR hE hD hm he hl M0 η0 hi hj
    have b : |σ * (f i j / s.alpha (cx R m i) (cy R m j))| ≤ Λ * η := by rw [abs_mul, hσ, one_mul]; exact hf i hi j hj
    have b' := (abs_le.mp b).1
    rw [neg_one_mul, add_div, neg_div, mul_div_assoc]
    linarith
  intro i hi j hj
  have k1 := key 1 (by norm_num) i hi j hj
  have k2 := key (-1) (by norm_num) i hi j hj
  rw [abs_le]
  constructor <;> linarith

theorem TrueOp.nearA {s : FVSolver K} {R : Rect K} (hR : Proper R) (hE : EllipticOn s R) {B Λ e η : K} (hD : Damped s R B Λ) {m : Nat} (hm : 2 ≤ m)
    (he : 0 ≤ e) (η0 : 0 ≤ η) (hl : 2 * B * (1 / hx R m ^ 2 + 1 / hy R m ^ 2) ≤ e * Λ) {T : Blk K} {h f : Nat → Nat → K}
    (hf : ∀ i, i < m → ∀ j, j < m → |f i j / s.alpha (cx R m i) (cy R m j)| ≤ Λ * η) (hT : TrueOp s R m T h f) :
    NearA m T h (fun p _ => invHalf R m p) e η := by
  intro g M D p hp D0 M0 _ hM hD' i hi
  obtain ⟨U, hU⟩ := exists_of_unique (unique_of_elliptic hR hE m m) (ofB g) f
  have hb := damped_leA hR hE hD hm he hl η0 hM hf hU
  have h1 := hT g U hU p hp i hi
  unfold opFlux at h1
  have h2 := deriv_diag R m g U (by omega) hR hb hp hi
  rw [h1] at h2
  have h0 := invHalf_pos hR (by omega : 0 < m) p
  refine h2.trans (mul_le_mul_of_nonneg_left ?_ h0.le)
  linarith

theorem NearA.mono {n : Nat} {T : Blk K} {h d : Nat → Nat → K} {e e' η : K} (hT : NearA n T h d e η)
    (h0 : ∀ p, p < 4 → ∀ i, i < n → 0 < d p i) (he : e ≤ e') : NearA n T h d e' η := by
  intro g M D p hp D0 M0 hη hM hD i hi
  have := mul_le_mul_of_nonneg_right he M0
  refine (hT g M D p hp D0 M0 (by linarith) hM hD i hi).trans (mul_le_mul_of_nonneg_left ?_ (h0 p hp i hi).le)
  linarith

/-! ### Trees -/

omit [IsStrictOrderedRing K] in
theorem Near.congr {n : Nat} {T : Blk K} {d d' : Nat → Nat → K} {e : K} (h : Near n T d e)
    (hd : ∀ p, p < 4 → ∀ i, i < n → d p i = d' p i) : Near n T d' e := by
  intro g M D p hp D0 hM hD i hi
  rw [← hd p hp i hi]
  exact h g M D p hp D0 hM hD i hi

omit [IsStrictOrderedRing K] in
theorem NearA.congr {n : Nat} {T : Blk K} {h d d' : Nat → Nat → K} {e η : K} (hT : NearA n T h d e η)
    (hd : ∀ p, p < 4 → ∀ i, i < n → d p i = d' p i) : NearA n T h d' e η := by
  intro g M D p hp D0 M0 hη hM hD i hi
  rw [← hd p hp i hi]
  exact hT g M D p hp D0 M0 hη hM hD i hi

/-- What is known of a subtree: operator and flux are close to a diagonal one, which is constant on sides if the subtree is uniform. -/
def Close (R : Rect K) (n : Nat) (T : Blk K) (h : Nat → Nat → K) (e η : K) (a : Nat) (P : Prop) : Prop :=
  ∃ d, Near n T d e ∧ NearA n T h d e η ∧ (∀ p, p < 4 → ∀ i, i < n → 0 < d p i) ∧ OnBlocks d a ∧
    (P → ∀ p, p < 4 → ∀ i, i < n → d p i = invHalf R n p)

theorem close_child {R : Rect K} {n k E a : Nat} {T : Blk K} {h : Nat → Nat → K} {e η : K} {P : Prop} (hn : 3 ≤ n) (hk : k ≤ E)
    (hT : Close R (n * 2 ^ k) T h ((17 / 8) ^ (E - k) * e) η (a + k) P) :
    Close R n (crsN k n T) (rstN k n h) ((17 / 8) ^ E * e) η a (k = 0 ∧ P) := by
  obtain ⟨d, h1, h1', h2, h3, h4⟩ := hT
  have p1 : 0 < 2 ^ k := by positivity
  have hb : ∀ p, p < 4 → ∀ i j, i < n * 2 ^ k → j < n * 2 ^ k → i / 2 ^ k = j / 2 ^ k → d p i = d p j :=
    fun p _ i j _ _ hij => h3 p i j (by
      rw [add_comm a k, pow_add, ← Nat.div_div_eq_div_mul, ← Nat.div_div_eq_div_mul, hij])
  refine ⟨fun p i => d p (2 ^ k * i), ?_, ?_, ?_, ?_, ?_⟩
  · have := Near.crsN k (Or.inr hn) h1 hb h2
    rwa [← mul_assoc, ← pow_add, show k + (E - k) = E by omega] at this
  · have := NearA.crsN k (Or.inr hn) h1' hb h2
    rwa [← mul_assoc, ← pow_add, show k + (E - k) = E by omega] at this
  · intro p hp i hi
    exact h2 p hp _ (by rw [mul_comm]; exact Nat.mul_lt_mul_of_pos_right hi p1)
  · intro p i j hij
    refine h3 p _ _ ?_
    rw [add_comm a k, pow_add, Nat.mul_div_mul_left _ _ p1, Nat.mul_div_mul_left _ _ p1, hij]
  · rintro ⟨rfl, hP⟩ p hp i hi
    simpa using h4 hP p hp i (by simpa using hi)

theorem invHalf_quarter (R : Rect K) (n c p : Nat) : invHalf (R.quarter c) n p = invHalf R (2 * n) p := by
  unfold invHalf
  rw [hx_quarter, hy_quarter]

theorem ex_side {p z : Nat} (hp : p < 4) (hz : z < 2) : (ex (p * 2 + z)).2 = p := by
  interval_cases p <;> interval_cases z <;> rfl

/-- The load of a leaf is at most `F`. -/
def LoadLe (s : FVSolver K) (F : K) (N : Nat) (grid : Grid K) (f : Vec K) : Prop :=
  ∀ i, i < N → ∀ j, j < N → |f.data.getD (j + i * N) 0 / s.alpha (cx (rect grid) N i) (cy (rect grid) N j)| ≤ F

/-- All leaf values are at most `M`. -/
def LeavesLe (N : Nat) (M : K) (t : Tree (Patch K)) : Prop :=
  ∀ p ∈ t.leaves, ∀ i, i < N → ∀ j, j < N → |p.u.data.getD (j + i * N) 0| ≤ M

/-- Operators and values of a solved tree whose leaf levels differ by at most `E`. -/
theorem Slv.close (lu : PetscLU K) {s : FVSolver K} (hN : 3 ≤ N) {B Λ e η : K} (he : 0 ≤ e) (hB : 0 ≤ B) (η0 : 0 ≤ η) {t : Tree (Patch K)}
    {R : Rect K} {k m : Nat} {T : Blk K} {h g : Nat → Nat → K}
    {φ : Grid K → Vec K} (ht : Slv N (fun grid T => LPs N (s.toPatchSolver lu) grid T ∧ LoadLe s (Λ * η) N grid (φ grid))
      (fun grid f h => f = φ grid ∧ HPs N (s.toPatchSolver lu) grid f h) (UPs N (s.toPatchSolver lu)) t R k m T h g)
    (hR : Proper R) (hE : EllipticOn s R) (hD : Damped s R B Λ) {H : Nat}
    (hH : high t ≤ H) (hl : 2 * B * widths R (N * 2 ^ H) ≤ e * Λ) {E a : Nat} (hL : high t ≤ low t + E) (h3 : 3 * ((17 / 8) ^ E * e) < 1)
    (hdv : E ≤ 1 ∨ 2 ^ (a + E) ∣ N) (ha : a = 0 ∨ (∃ d, Uniform d t) ∨ 2 ^ (a + E) ∣ N) :
    Close R (m * 2 ^ k) T h ((17 / 8) ^ E * e) η a (∃ d, Uniform d t) ∧
      ∀ M, 0 ≤ M → η ≤ (1 / 3 - (17 / 8) ^ E * e) * M → (∀ q, q < 4 → ∀ i, i < m * 2 ^ k → |proN k m g q i| ≤ M) →
        LeavesLe N ((17 / 8) ^ E * e * M + η) t := by
  induction ht generalizing H E a with
  | @leaf p R T h g hk hx hy hR' hT hL' hh hg hu' =>
    have hrect := rect_eq hR'
    subst hrect
    have hq := unique_of_elliptic hR hE N N
    obtain ⟨hL', hload⟩ := hL'
    obtain ⟨hfφ, hh⟩ := hh
    rw [← hfφ] at hload
    have hpos : 0 < N := by omega
    have hle : N ≤ N * 2 ^ H := Nat.le_mul_of_pos_right N (by positivity)
    have hl' := le_trans (mul_le_mul_of_nonneg_left (widths_mono hR hpos hle) (by positivity)) hl
    have hd0 : ∀ q, q < 4 → ∀ i, i < N → 0 < (fun q (_ : Nat) => invHalf (rect p.grid) N q) q i := fun q _ _ _ => invHalf_pos hR hpos q
    have hee : e ≤ (17 / 8) ^ E * e := le_mul_of_one_le_left he (one_le_pow₀ (by norm_num))
    simp only [pow_zero, mul_one, proN]
    refine ⟨⟨_, ((leaf_trueOp0 lu s (by omega) hx hy hq hL').near hR hE hD (by omega) he hl').mono hd0 hee,
      ((leaf_trueOp lu s (by omega) hx hy hq hL' hh).nearA hR hE hD (by omega) he η0 hl' hload).mono hd0 hee, hd0, fun _ _ _ _ => rfl,
      fun _ _ _ _ _ => rfl⟩, ?_⟩
    intro M M0 _ hM p' hp' i hi j hj
    obtain rfl : p' = p := by simpa [Tree.leaves] using hp'
    obtain ⟨⟨f1, f2⟩, _⟩ := hh
    have hφ : p'.f = Vec.ofFn (N * N) _ := Vec.has_iff.mp (has_of_wf f1 f2)
    obtain ⟨V, v1, v2⟩ := FVSolver.solve_ok lu s (by omega) hx hy (fun k => g (k / N) (k % N)) (fun i => p'.f.data.getD i 0)
    have hu' : s.solve lu p'.grid (bv N 4 g) p'.f = .ok p'.u := hu'
    have e1 : bv N 4 g = Vec.ofFn (4 * N) (fun k => g (k / N) (k % N)) := rfl
    rw [e1, hφ] at hu'
    rw [v1] at hu'
    have eu := (Res.ok_inj.mp hu').symm
    obtain ⟨cW, cE, cS, cN⟩ := flat_ofB (n := N) hpos g
    have hV := (v2 hq).congr cW cE cS cN (fun _ _ _ _ => rfl) (fun _ _ _ _ => rfl)
    have hb := damped_leA hR hE hD (by omega) he hl' η0 hM hload hV i hi j hj
    have ev : p'.u.data.getD (j + i * N) 0 = V (j + i * N) := by
      rw [eu]
      exact getD_listFn (FVSolver.idx_lt hi hj) 0
    rw [ev]
    refine hb.trans ?_
    have := mul_le_mul_of_nonneg_right hee M0
    linarith
  | @node p R c0 c1 c2 c3 n k m k0 k1 k2 k3 T0 T1 T2 T3 S TT f0 f1 f2 f3 w g G u hh h0 h1 h2 h3' hTT hhh hz hn hm hN' h3m
      hk' hx hy hR' hX hSol hW hG hu' hg i0 i1 i2 i3 =>
    have hN0 : 0 < N := by omega
    have lv : ∀ {c : Tree (Patch K)} {kc : Nat}, res N c = n * 2 ^ kc → n * 2 ^ kc = N * 2 ^ low c := fun h => by rw [← h, res_low]
    obtain ⟨l, hl'⟩ : ∃ l, n = N * 2 ^ l := by
      rcases hz with rfl | rfl | rfl | rfl
      · exact ⟨_, by simpa using lv h0.res_eq⟩
      · exact ⟨_, by simpa using lv h1.res_eq⟩
      · exact ⟨_, by simpa using lv h2.res_eq⟩
      · exact ⟨_, by simpa using lv h3'.res_eq⟩
    have lw : ∀ {c : Tree (Patch K)} {kc : Nat}, n * 2 ^ kc = N * 2 ^ low c → low c = l + kc := by
      intro c kc h
      rw [hl', mul_assoc, ← pow_add] at h
      exact (Nat.pow_right_injective (le_refl 2) (Nat.eq_of_mul_eq_mul_left hN0 h)).symm
    have l0 := lw (lv h0.res_eq)
    have l1 := lw (lv h1.res_eq)
    have l2 := lw (lv h2.res_eq)
    have l3 := lw (lv h3'.res_eq)
    have hun : (∃ d, Uniform d (Tree.node p c0 c1 c2 c3)) → (k0 = 0 ∧ k1 = 0 ∧ k2 = 0 ∧ k3 = 0) ∧ (∃ d, Uniform d c0) ∧ (∃ d, Uniform d c1) ∧
        (∃ d, Uniform d c2) ∧ ∃ d, Uniform d c3 := by
      rintro ⟨d, hu⟩
      cases hu with
      | @node d' _ _ _ _ _ u0 u1 u2 u3 =>
        exact ⟨no_coarsening hn hz (h0.res_eq.symm.trans (res_uniform u0)) (h1.res_eq.symm.trans (res_uniform u1))
          (h2.res_eq.symm.trans (res_uniform u2)) (h3'.res_eq.symm.trans (res_uniform u3)), ⟨_, u0⟩, ⟨_, u1⟩, ⟨_, u2⟩, _, u3⟩
    simp only [low, high] at hL hH
    have g0 := low_le_high c0
    have g1 := low_le_high c1
    have g2 := low_le_high c2
    have g3 := low_le_high c3
    obtain ⟨H', rfl, m0, m1, m2, m3⟩ := levels_max hH
    obtain ⟨f0', f1', f2', f3'⟩ := levels_of hz l0 l1 l2 l3 hL
    have hw : ∀ q, 2 * B * widths (R.quarter q) (N * 2 ^ H') ≤ e * Λ := by
      intro q
      rw [widths_quarter, show 2 * (N * 2 ^ H') = N * 2 ^ (H' + 1) by ring]
      exact hl
    have hn3 : 3 ≤ n := by
      rw [hl']
      exact le_trans hN (Nat.le_mul_of_pos_right N (by positivity))
    have side : ∀ {c : Tree (Patch K)} {kc : Nat}, low c = l + kc → high c ≤ l + E → low c ≤ high c →
        ((∃ d, Uniform d (Tree.node p c0 c1 c2 c3)) → ∃ d, Uniform d c) →
        kc ≤ E ∧ high c ≤ low c + (E - kc) ∧ 3 * ((17 / 8 : K) ^ (E - kc) * e) < 1 ∧ (E - kc ≤ 1 ∨ 2 ^ (a + kc + (E - kc)) ∣ N) ∧
        (a + kc = 0 ∨ (∃ d, Uniform d c) ∨ 2 ^ (a + kc + (E - kc)) ∣ N) := by
      intro c kc h1 h2 h4 hcu
      have hk : kc ≤ E := by omega
      rw [show a + kc + (E - kc) = a + E by omega]
      refine ⟨hk, by omega, ?_, ?_, ?_⟩
      · have : (17 / 8 : K) ^ (E - kc) ≤ (17 / 8) ^ E := pow_le_pow_right₀ (by norm_num) (by omega)
        have := mul_le_mul_of_nonneg_right this he
        linarith
      · rcases hdv with h | h
        · exact Or.inl (by omega)
        · exact Or.inr h
      · rcases ha with h | h | h
        · rcases hdv with h5 | h5
          · rcases Nat.eq_zero_or_pos kc with h6 | h6
            · exact Or.inl (by omega)
            · exact Or.inr (Or.inl ⟨_, uniform_of_levels c (by omega)⟩)
          · exact Or.inr (Or.inr h5)
        · exact Or.inr (Or.inl (hcu h))
        · exact Or.inr (Or.inr h)
    have hP := fun q => proper_quarter hR q
    have hEq := fun q => elliptic_quarter hR hE q
    have hDq := fun q => hD.quarter hR q
    obtain ⟨q0, r0, s0, t0, w0⟩ := side l0 f0' g0 (fun h => (hun h).2.1)
    obtain ⟨q1, r1, s1, t1, w1⟩ := side l1 f1' g1 (fun h => (hun h).2.2.1)
    obtain ⟨q2, r2, s2, t2, w2⟩ := side l2 f2' g2 (fun h => (hun h).2.2.2.1)
    obtain ⟨q3, r3, s3, t3, w3⟩ := side l3 f3' g3 (fun h => (hun h).2.2.2.2)
    obtain ⟨z0, b0⟩ := i0 (hP 0) (hEq 0) (hDq 0) m0 (hw 0) r0 s0 t0 w0
    obtain ⟨z1, b1⟩ := i1 (hP 1) (hEq 1) (hDq 1) m1 (hw 1) r1 s1 t1 w1
    obtain ⟨z2, b2⟩ := i2 (hP 2) (hEq 2) (hDq 2) m2 (hw 2) r2 s2 t2 w2
    obtain ⟨z3, b3⟩ := i3 (hP 3) (hEq 3) (hDq 3) m3 (hw 3) r3 s3 t3 w3
    obtain ⟨d0, x0, v0, y0, o0, k0'⟩ := close_child hn3 q0 z0
    obtain ⟨d1, x1, v1, y1, o1, k1'⟩ := close_child hn3 q1 z1
    obtain ⟨d2, x2, v2, y2, o2, k2'⟩ := close_child hn3 q2 z2
    obtain ⟨d3, x3, v3, y3, o3, k3'⟩ := close_child hn3 q3 z3
    obtain ⟨d, ed⟩ : ∃ d : Nat → Nat → Nat → K, d = fun c => match c with | 0 => d0 | 1 => d1 | 2 => d2 | _ => d3 := ⟨_, rfl⟩
    have hTc : ∀ c, c < 4 → Near n (TT c) (d c) ((17 / 8) ^ E * e) := by
      intro c hc
      rw [hTT, ed]
      interval_cases c
      · exact x0
      · exact x1
      · exact x2
      · exact x3
    have hTA : ∀ c, c < 4 → NearA n (TT c) (hh c) (d c) ((17 / 8) ^ E * e) η := by
      intro c hc
      rw [hTT, hhh, ed]
      interval_cases c
      · exact v0
      · exact v1
      · exact v2
      · exact v3
    have hdc : ∀ c, c < 4 → ∀ p, p < 4 → ∀ i, i < n → 0 < d c p i := by
      intro c hc
      rw [ed]
      interval_cases c
      · exact y0
      · exact y1
      · exact y2
      · exact y3
    have hob : ∀ c, OnBlocks (d c) a := by
      intro c
      rw [ed]
      beta_reduce
      split
      · exact o0
      · exact o1
      · exact o2
      · exact o3
    have hns := Near.bnonsing h3 hTc hdc
    have hA := Near.merge hn h3 hTc hdc hSol
    have hAA := NearA.merge hn h3 hTA hdc hns hSol hW
    have hpos : ∀ p, p < 4 → ∀ i, i < 2 * n → 0 < dOf n d p i := by
      intro p hp i hi
      have hz : i / n < 2 := Nat.div_lt_of_lt_mul (by rw [mul_comm]; exact hi)
      unfold HPS.dOf
      generalize i / n = z at hz ⊢
      have hex := ex_lt (p * 2 + z) (by omega)
      exact hdc _ hex.1 _ hex.2 _ (Nat.mod_lt i hn)
    rw [hm]
    constructor
    · by_cases hu : ∃ d, Uniform d (Tree.node p c0 c1 c2 c3)
      · obtain ⟨⟨rfl, rfl, rfl, rfl⟩, u0, u1, u2, u3⟩ := hun hu
        have hdd : ∀ p, p < 4 → ∀ i, i < 2 * n → dOf n d p i = invHalf R (2 * n) p := by
          intro p hp i hi
          have hz : i / n < 2 := Nat.div_lt_of_lt_mul (by rw [mul_comm]; exact hi)
          have key : ∀ c, c < 4 → ∀ p, p < 4 → ∀ i, i < n → d c p i = invHalf (R.quarter c) n p := by
            intro c hc
            rw [ed]
            interval_cases c
            · exact k0' ⟨rfl, u0⟩
            · exact k1' ⟨rfl, u1⟩
            · exact k2' ⟨rfl, u2⟩
            · exact k3' ⟨rfl, u3⟩
          unfold HPS.dOf
          generalize i / n = z at hz ⊢
          have hex := ex_lt (p * 2 + z) (by omega)
          rw [key _ hex.1 _ hex.2 _ (Nat.mod_lt i hn), invHalf_quarter, ex_side hp hz]
        exact ⟨fun p _ => invHalf R (2 * n) p, hA.congr hdd, hAA.congr hdd, fun p hp i hi => by have := hpos p hp i hi; rwa [hdd p hp i hi] at this,
          fun _ _ _ _ => rfl, fun _ _ _ _ _ => rfl⟩
      · refine ⟨dOf n d, hA, hAA, hpos, OnBlocks.dOf hob ?_, fun h => absurd h hu⟩
        rcases ha with rfl | h | h
        · simp
        · exact absurd h hu
        · rw [hl']
          exact dvd_mul_of_dvd_left ((pow_dvd_pow 2 (by omega)).trans h) _
    · intro M M0 hη hM
      have hGM : ∀ q, q < 8 → ∀ j, j < n → |G q j| ≤ M := by rw [hG]; exact hlv_le hM
      have huM : ∀ r, r < 4 → ∀ i, i < n → |u r i| ≤ M := by
        refine interface_leA h3 hTA hdc M0 hη hGM ?_
        intro r hr i hi
        rw [hu']
        exact total_jump (hSol.1 hns) (hW.1 hns) G hr hi
      have child : ∀ {c kc : Nat} {tc : Tree (Patch K)}, kc ≤ E →
          (∀ M, 0 ≤ M → η ≤ (1 / 3 - (17 / 8) ^ (E - kc) * e) * M → (∀ q, q < 4 → ∀ i, i < n * 2 ^ kc → |proN kc n (cd c G u) q i| ≤ M) →
            LeavesLe N ((17 / 8) ^ (E - kc) * e * M + η) tc) → LeavesLe N ((17 / 8) ^ E * e * M + η) tc := by
        intro c kc tc hkc hb
        have h1 : (1 : K) ≤ (17 / 8) ^ kc := one_le_pow₀ (by norm_num)
        have e1 : (17 / 8 : K) ^ (E - kc) * e * ((17 / 8) ^ kc * M) = (17 / 8) ^ E * e * M := by
          calc (17 / 8 : K) ^ (E - kc) * e * ((17 / 8) ^ kc * M) = (17 / 8) ^ (E - kc + kc) * e * M := by rw [pow_add]; ring
            _ = _ := by rw [Nat.sub_add_cancel hkc]
        have h2 : M ≤ (17 / 8) ^ kc * M := le_mul_of_one_le_left M0 h1
        have := hb ((17 / 8) ^ kc * M) (M0.trans h2) (by
          rw [sub_mul] at hη ⊢
          rw [e1]
          linarith) (proN_bound kc (Or.inr hn3) (fun q _ i hi => cd_le M0 hGM huM c q hi))
        rwa [e1] at this
      intro p' hp'
      simp only [Tree.leaves, List.mem_append] at hp'
      rcases hp' with ((hp' | hp') | hp') | hp'
      · exact child q0 b0 p' hp'
      · exact child q1 b1 p' hp'
      · exact child q2 b2 p' hp'
      · exact child q3 b3 p' hp'

end HPS
end EF
