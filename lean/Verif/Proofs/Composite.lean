import Verif.Spec.Composite
import Verif.Proofs.Linear
import Verif.Props.Merge

/-!
# The stages and the discretised equation on adaptive meshes
-/

namespace EF

open Finset FV HPS

variable {K : Type} [Field K] {N : Nat}

/-! ## Interpolation -/

theorem sum_three {m a b c : Nat} (ha : a < m) (hb : b < m) (hc : c < m) (hab : a ≠ b) (hac : a ≠ c) (hbc : b ≠ c) (α β γ : K)
    (x : Nat → K) : ∑ t ∈ range m, (if t = a then α else if t = b then β else if t = c then γ else 0) * x t
      = α * x a + β * x b + γ * x c := by
  have h : ∀ t, (if t = a then α else if t = b then β else if t = c then γ else 0) * x t
      = (if t = a then α * x a else 0) + (if t = b then β * x b else 0) + (if t = c then γ * x c else 0) := by
    intro t
    by_cases h1 : t = a
    · subst h1; simp [hab, hac]
    · by_cases h2 : t = b
      · subst h2; simp [hbc, h1]
      · by_cases h3 : t = c
        · subst h3; simp [h1, h2]
        · simp [h1, h2, h3]
  simp only [h, sum_add_distrib, sum_ite_eq', mem_range, ha, hb, hc, if_true]

theorem sum_two {m a b : Nat} (ha : a < m) (hb : b < m) (hab : a ≠ b) (α β : K)
    (x : Nat → K) : ∑ t ∈ range m, (if t = a then α else if t = b then β else 0) * x t = α * x a + β * x b := by
  have h : ∀ t, (if t = a then α else if t = b then β else 0) * x t
      = (if t = a then α * x a else 0) + (if t = b then β * x b else 0) := by
    intro t
    by_cases h1 : t = a
    · subst h1; simp [hab]
    · by_cases h2 : t = b
      · subst h2; simp [h1]
      · simp [h1, h2]
  simp only [h, sum_add_distrib, sum_ite_eq', mem_range, ha, hb, if_true]

theorem pro_finer {m : Nat} (hm : 3 ≤ m) (g : Nat → Nat → K) (p : Nat) {i : Nat} (hi : i < 2 * m) : pro m g p i = finer m (g p) i := by
  unfold pro finer Mat.c2fFn
  by_cases h0 : i = 0
  · simp only [h0, if_true]
    rw [sum_three (by omega) (by omega) (by omega) (by omega) (by omega) (by omega)]
    ring
  by_cases h1 : i = 2 * m - 1
  · simp only [h0, h1, if_true, if_false, if_neg (show ¬ 2 * m - 1 = 0 by omega)]
    rw [sum_three (by omega) (by omega) (by omega) (by omega) (by omega) (by omega)]
    ring
  by_cases h2 : i % 2 = 1
  · simp only [h0, h1, h2, if_true, if_false]
    rw [sum_two (by omega) (by omega) (by omega)]
  · simp only [h0, h1, h2, if_false]
    have e : ∀ t, (t + 1 = i / 2) = (t = i / 2 - 1) := fun t => propext (by omega)
    simp only [e]
    rw [sum_two (by omega) (by omega) (by omega)]
    ring

theorem finer_congr {m : Nat} (hm : 3 ≤ m) {x y : Nat → K} (h : ∀ i, i < m → x i = y i) {i : Nat} (hi : i < 2 * m) :
    finer m x i = finer m y i := by
  unfold finer
  split_ifs
  · rw [h 0 (by omega), h 1 (by omega), h 2 (by omega)]
  · rw [h _ (by omega), h (m - 2) (by omega), h (m - 3) (by omega)]
  · rw [h _ (by omega), h (i / 2 + 1) (by omega)]
  · rw [h _ (by omega), h (i / 2 - 1) (by omega)]

theorem finest_congr {k m : Nat} (hm : k = 0 ∨ 3 ≤ m) {x y : Nat → K} (h : ∀ i, i < m → x i = y i) :
    ∀ i, i < m * 2 ^ k → finest k m x i = finest k m y i := by
  induction k with
  | zero => simpa [finest] using h
  | succ k ih =>
    have h3 : 3 ≤ m := by omega
    intro i hi
    rw [finest, finest]
    exact finer_congr (le_trans h3 (Nat.le_mul_of_pos_right m (by positivity))) (ih (Or.inr h3)) (by rw [pow_succ, ← mul_assoc] at hi; omega)

theorem proN_finest {k m : Nat} (hm : k = 0 ∨ 3 ≤ m) (g : Nat → Nat → K) (p : Nat) :
    ∀ i, i < m * 2 ^ k → proN k m g p i = finest k m (g p) i := by
  induction k with
  | zero => intros; rfl
  | succ k ih =>
    have h3 : 3 ≤ m := by omega
    intro i hi
    have h3' : 3 ≤ m * 2 ^ k := le_trans h3 (Nat.le_mul_of_pos_right m (by positivity))
    rw [pow_succ, ← mul_assoc] at hi
    rw [proN, finest, pro_finer h3' _ _ (by omega)]
    exact finer_congr h3' (ih (Or.inr h3)) (by omega)

/-! ## Edges -/

/-- The eight outer half sides. -/
def Edges.halves (E : Edges K) (p : Nat) : Nat → K :=
  match p with
  | 0 => E.V 0 0
  | 1 => E.V 0 1
  | 2 => E.V 2 0
  | 3 => E.V 2 1
  | 4 => E.H 0 0
  | 5 => E.H 1 0
  | 6 => E.H 0 2
  | _ => E.H 1 2

/-- The four interfaces. -/
def Edges.inner (E : Edges K) (r : Nat) : Nat → K :=
  match r with
  | 0 => E.H 0 1
  | 1 => E.H 1 1
  | 2 => E.V 1 0
  | _ => E.V 1 1

omit [Field K] in
theorem Edges.side_jump (Q : Edges K) {r : Nat} (hr : r < 4) : Q.side (jl r).1 (jl r).2 = Q.side (jr r).1 (jr r).2 := by
  interval_cases r <;> rfl

theorem Edges.side_cd (E : Edges K) {d a : Nat} (hd : d < 4) (ha : a < 4) : E.side d a = cd d E.halves E.inner a := by
  interval_cases d <;> interval_cases a <;> rfl

omit [Field K] in
theorem Edges.outer_halves (E : Edges K) {n : Nat} (hn : 0 < n) {p i : Nat} (hp : p < 8) (hi : i < n) :
    E.halves p i = E.outer n (p / 2) (p % 2 * n + i) := by
  have h0 : (0 * n + i) / n = 0 := Mat.idx_div hi
  have h1 : (1 * n + i) / n = 1 := Mat.idx_div hi
  have h2 : (0 * n + i) % n = i := Mat.idx_mod hi
  have h3 : (1 * n + i) % n = i := Mat.idx_mod hi
  interval_cases p <;> simp only [Edges.outer, Nat.reduceMod, Nat.reduceDiv, h0, h1, h2, h3] <;> rfl

omit [Field K] in
theorem Edges.outer_ex (E : Edges K) {n a i : Nat} (ha : a < 4) (hi : i < 2 * n) :
    E.outer n a i = E.side (ex (a * 2 + i / n)).1 (ex (a * 2 + i / n)).2 (i % n) := by
  have hz : i / n < 2 := Nat.div_lt_of_lt_mul (by rw [mul_comm]; exact hi)
  unfold Edges.outer
  generalize i / n = z at hz ⊢
  interval_cases a <;> interval_cases z <;> rfl

theorem side_mkE (G u : Nat → Nat → K) {d a : Nat} (hd : d < 4) (ha : a < 4) : (mkE G u).side d a = cd d G u a := by
  interval_cases d <;> interval_cases a <;> rfl

omit [Field K] in
theorem outer_mkE (G u : Nat → Nat → K) {n a i : Nat} (ha : a < 4) (hi : i < 2 * n) :
    (mkE G u).outer n a i = G (a * 2 + i / n) (i % n) := by
  have hz : i / n < 2 := Nat.div_lt_of_lt_mul (by rw [mul_comm]; exact hi)
  unfold Edges.outer
  generalize i / n = z at hz ⊢
  interval_cases a <;> interval_cases z <;> rfl

theorem cd_congr₂ {n : Nat} {G G' u u' : Nat → Nat → K} (hG : ∀ p, p < 8 → ∀ i, i < n → G p i = G' p i)
    (h : ∀ l, l < 4 → ∀ i, i < n → u l i = u' l i) (c q : Nat) {i : Nat} (hi : i < n) : cd c G u q i = cd c G' u' q i := by
  unfold cd
  split <;> first | rfl | exact h _ (by decide) i hi | exact hG _ (by decide) i hi

theorem tfl_congr₂ {n : Nat} {TT : Ops K} {hh : Nat → Nat → Nat → K} {G G' u u' : Nat → Nat → K}
    (hG : ∀ p, p < 8 → ∀ i, i < n → G p i = G' p i) (h : ∀ l, l < 4 → ∀ i, i < n → u l i = u' l i) (kp : Nat × Nat) (i : Nat) :
    tfl n TT hh G u kp i = tfl n TT hh G' u' kp i := by
  unfold tfl cfl fl
  congr 1
  apply sum_congr rfl; intro q _
  apply sum_congr rfl; intro j hj
  rw [cd_congr₂ hG h _ _ (mem_range.mp hj)]

variable {LP : Grid K → Blk K → Prop} {HP : Grid K → Vec K → (Nat → Nat → K) → Prop} {UP : Grid K → (Nat → Nat → K) → Vec K → Vec K → Prop}

omit [Field K] in
theorem pow_right {n a b : Nat} (hn : 0 < n) (h : n * 2 ^ a = n * 2 ^ b) : a = b :=
  Nat.pow_right_injective (le_refl 2) (Nat.eq_of_mul_eq_mul_left hn h)

theorem HPS.Slv.three {t : Tree (Patch K)} {R : Rect K} {k m : Nat} {T : Blk K} {h g : Nat → Nat → K} (ht : Slv N LP HP UP t R k m T h g) :
    k = 0 ∨ 3 ≤ m := by
  cases ht with
  | leaf => exact Or.inl rfl
  | node _ _ _ _ _ _ _ _ _ _ h3m => exact h3m

/-- Only the values on the boundary cells count. -/
theorem Composite.congr {s : FVSolver K} {f : K → K → K} {M : Pieces (Nat → Nat → K)} {R : Rect K} {m : Nat} {g q g' : Nat → Nat → K}
    (h : Composite s f N M R m g q) (hg : ∀ a, a < 4 → ∀ i, i < m → g a i = g' a i) : Composite s f N M R m g' q := by
  cases h with
  | @one u _ _ _ hu hq =>
    refine .one (hu.congr (hg 0 (by omega)) (hg 1 (by omega)) (hg 2 (by omega)) (hg 3 (by omega)) (fun _ _ _ _ => rfl)
      (fun _ _ _ _ => rfl)) fun a ha i hi => ?_
    rw [hq a ha i hi]
    exact deriv_congr (Nat.zero_lt_of_lt hi) (hg 0 (by omega)) (hg 1 (by omega)) (hg 2 (by omega)) (hg 3 (by omega)) (fun _ _ _ _ => rfl) hi
  | four h0 h1 h2 h3 hn hE hQ hG hq =>
    exact .four h0 h1 h2 h3 hn hE hQ (fun a ha i hi => by rw [← hg a ha i hi, hG a ha i hi]) hq

/-! ## The result solves the equation -/

theorem HPS.Slv.composite [CharZero K] {s : FVSolver K} {f : K → K → K}
    (hleaf : ∀ (p : Patch K) (T : Blk K) (h g : Nat → Nat → K), p.grid.nx = N → p.grid.ny = N → LP p.grid T → HP p.grid p.f h →
      p.g = bv N 4 g → UP p.grid g p.f p.u →
      Solves s (rect p.grid) N N (ofB g) (fun i j => f (cx (rect p.grid) N i) (cy (rect p.grid) N j)) (fun i j => p.u.data.getD (j + i * N) 0) ∧
        ∀ a, a < 4 → ∀ i, i < N → opFlux N T g h a i = deriv (rect p.grid) N N (ofB g) (fun i j => p.u.data.getD (j + i * N) 0) a i)
    {t : Tree (Patch K)} {R : Rect K} {k m : Nat} {T : Blk K} {h g : Nat → Nat → K}
    (ht : Slv N LP HP UP t R k m T h g) (hB : Branches (fun p => NonsingularMat p.X) t) :
    Composite s f N (treeCells N t) R (m * 2 ^ k) (proN k m g) (opFlux (m * 2 ^ k) T (proN k m g) h) := by
  induction ht with
  | @leaf p R T h g hk hx hy hR hT hL hh hg hu =>
    obtain rfl := rect_eq hR
    obtain ⟨a1, a2⟩ := hleaf p T h g hx hy hL hh hg hu
    simp only [pow_zero, mul_one, proN]
    exact .one a1 a2
  | @node p R c0 c1 c2 c3 n k m k0 k1 k2 k3 T0 T1 T2 T3 S TT f0 f1 f2 f3 w g G u hh h0 h1 h2 h3 hTT hhh hz hn hm hN h3m
      hk hx hy hR hX hSol hW hG hu hg i0 i1 i2 i3 =>
    obtain ⟨hp, b0, b1, b2, b3⟩ := hB
    have hns := bnonsing_of hX hp
    have t0 := h0.three
    have t1 := h1.three
    have t2 := h2.three
    have t3 := h3.three
    have hj := fun r (hr : r < 4) i (hi : i < n) => total_jump (hSol.1 hns) (hW.1 hns) G (r := r) hr (i := i) hi
    rw [← hu] at hj
    have hcf : ∀ d, d < 4 → ∀ a, a < 4 → ∀ i, i < n → meanOver (n * 2 ^ pick k0 k1 k2 k3 d / n)
        (opFlux (n * 2 ^ pick k0 k1 k2 k3 d) (pick T0 T1 T2 T3 d) (proN (pick k0 k1 k2 k3 d) n (cd d G u)) (pick f0 f1 f2 f3 d) a) i
        = tfl n TT hh G u (d, a) i := by
      intro d hd a ha i hi
      rw [coarse_flux hn (fun _ _ _ _ => rfl) ha hi, hTT, hhh]
      interval_cases d <;> rfl
    rw [hm]
    refine .four (n := n) (m := fun d => n * 2 ^ pick k0 k1 k2 k3 d) (gs := fun d => proN (pick k0 k1 k2 k3 d) n (cd d G u))
      (qs := fun d => opFlux (n * 2 ^ pick k0 k1 k2 k3 d) (pick T0 T1 T2 T3 d) (proN (pick k0 k1 k2 k3 d) n (cd d G u)) (pick f0 f1 f2 f3 d))
      (E := mkE G u) (Q := mkE (fun p => tfl n TT hh G u (ex p)) (fun r => tfl n TT hh G u (jl r)))
      (i0 b0) (i1 b1) (i2 b2) (i3 b3) (min_eq hz).symm ?_ ?_ ?_ ?_
    · intro d hd
      refine ⟨pick k0 k1 k2 k3 d, rfl, fun a ha i hi => ?_⟩
      rw [side_mkE _ _ hd ha]
      refine proN_finest ?_ _ _ i hi
      interval_cases d
      exacts [t0, t1, t2, t3]
    · intro d hd a ha i hi
      have j0 := hj 0 (by omega) i hi
      have j1 := hj 1 (by omega) i hi
      have j2 := hj 2 (by omega) i hi
      have j3 := hj 3 (by omega) i hi
      simp only [jl, jr, List.getD_cons_zero, List.getD_cons_succ] at j0 j1 j2 j3
      rw [side_mkE _ _ hd ha, hcf d hd a ha i hi]
      interval_cases d <;> interval_cases a <;> simp only [cd, ex, jl, List.getD_cons_zero, List.getD_cons_succ] <;>
        first | rfl | assumption
    · intro a ha i hi
      rw [outer_mkE _ _ ha hi, hG]
      have hz : i / n < 2 := Nat.div_lt_of_lt_mul (by rw [mul_comm]; exact hi)
      unfold hlv
      have q1 : ∀ z, z < 2 → (a * 2 + z) / 2 = a ∧ (a * 2 + z) % 2 = z := by omega
      rw [(q1 _ hz).1, (q1 _ hz).2, Nat.div_add_mod']
    · intro a ha i hi
      have hz : i / n < 2 := Nat.div_lt_of_lt_mul (by rw [mul_comm]; exact hi)
      rw [outer_mkE _ _ ha hi, opFlux, app_dbl, ← hG, dblv, hu, ← total_ext n TT S hh w G (by omega)]

/-! ## There is no other solution -/

theorem HPS.Slv.only [CharZero K] {s : FVSolver K} {f : K → K → K}
    (hflux : ∀ (p : Patch K) (T : Blk K) (h : Nat → Nat → K), p.grid.nx = N → p.grid.ny = N → LP p.grid T → HP p.grid p.f h →
      ∀ b U, Solves s (rect p.grid) N N (ofB b) (fun i j => f (cx (rect p.grid) N i) (cy (rect p.grid) N j)) U →
        ∀ a, a < 4 → ∀ i, i < N → deriv (rect p.grid) N N (ofB b) U a i = opFlux N T b h a i)
    (hval : ∀ (p : Patch K) (T : Blk K) (h g : Nat → Nat → K), p.grid.nx = N → p.grid.ny = N → LP p.grid T → HP p.grid p.f h →
      UP p.grid g p.f p.u → ∀ b U, (∀ a, a < 4 → ∀ i, i < N → b a i = g a i) →
        Solves s (rect p.grid) N N (ofB b) (fun i j => f (cx (rect p.grid) N i) (cy (rect p.grid) N j)) U →
        ∀ i, i < N → ∀ j, j < N → U i j = p.u.data.getD (j + i * N) 0)
    {t : Tree (Patch K)} {R : Rect K} {k m : Nat} {T : Blk K} {h g : Nat → Nat → K}
    (ht : Slv N LP HP UP t R k m T h g) (hB : Branches (fun p => NonsingularMat p.X) t)
    {M : Pieces (Nat → Nat → K)} (hM : M.Alike (treeCells N t)) {m' : Nat} {g' q' : Nat → Nat → K} (hC : Composite s f N M R m' g' q') :
    m' = m * 2 ^ k ∧ (∀ a, a < 4 → ∀ i, i < m' → q' a i = opFlux m' T g' h a i) ∧
      ((∀ a, a < 4 → ∀ i, i < m' → g' a i = proN k m g a i) → M.Same N (treeCells N t)) := by
  induction ht generalizing M m' g' q' with
  | @leaf p R T h g hk hx hy hR hT hL hh hg hu =>
    obtain rfl := rect_eq hR
    cases hC with
    | four => exact hM.elim
    | @one U _ _ _ hU hq =>
      refine ⟨by simp, fun a ha i hi => ?_, fun hb => ?_⟩
      · rw [hq a ha i hi]
        exact hflux p T h hx hy hL hh g' U hU a ha i hi
      · exact hval p T h g hx hy hL hh hu g' U hb hU
  | @node p R c0 c1 c2 c3 n k m k0 k1 k2 k3 T0 T1 T2 T3 S TT f0 f1 f2 f3 w g G u hh h0 h1 h2 h3 hTT hhh hz hn hm hN h3m
      hk hx hy hR hX hSol hW hG hu hg i0 i1 i2 i3 =>
    obtain ⟨hp, b0, b1, b2, b3⟩ := hB
    have hns := bnonsing_of hX hp
    cases hC with
    | one => exact hM.elim
    | @four d0 d1 d2 d3 _ n' ms gs qs E Q _ _ C0 C1 C2 C3 hn' hE hQ hg' hq' =>
      obtain ⟨M0, M1, M2, M3⟩ := hM
      obtain ⟨e0, x0, v0⟩ := i0 b0 M0 C0
      obtain ⟨e1, x1, v1⟩ := i1 b1 M1 C1
      obtain ⟨e2, x2, v2⟩ := i2 b2 M2 C2
      obtain ⟨e3, x3, v3⟩ := i3 b3 M3 C3
      have hnn : n' = n := by rw [hn', e0, e1, e2, e3, min_eq hz]
      subst hnn
      have hms : ∀ d, d < 4 → ms d = n' * 2 ^ pick k0 k1 k2 k3 d := by
        intro d hd
        interval_cases d <;> assumption
      have h3 : ∀ d, d < 4 → pick k0 k1 k2 k3 d = 0 ∨ 3 ≤ n' := by
        intro d hd
        interval_cases d
        exacts [h0.three, h1.three, h2.three, h3.three]
      have hE' : ∀ d, d < 4 → ∀ a, a < 4 → ∀ i, i < n' * 2 ^ pick k0 k1 k2 k3 d →
          gs d a i = finest (pick k0 k1 k2 k3 d) n' (E.side d a) i := by
        intro d hd a ha i hi
        obtain ⟨k', hk', he⟩ := hE d hd
        rw [hms d hd] at hk' he
        obtain rfl := pow_right hn hk'
        exact he a ha i hi
      have hx' : ∀ d, d < 4 → ∀ a, a < 4 → ∀ i, i < n' * 2 ^ pick k0 k1 k2 k3 d →
          qs d a i = opFlux (n' * 2 ^ pick k0 k1 k2 k3 d) (pick T0 T1 T2 T3 d) (proN (pick k0 k1 k2 k3 d) n' (E.side d)) (pick f0 f1 f2 f3 d) a i := by
        intro d hd a ha i hi
        have hq : qs d a i = opFlux (n' * 2 ^ pick k0 k1 k2 k3 d) (pick T0 T1 T2 T3 d) (gs d) (pick f0 f1 f2 f3 d) a i := by
          rw [← hms d hd] at hi ⊢
          interval_cases d
          exacts [x0 a ha i hi, x1 a ha i hi, x2 a ha i hi, x3 a ha i hi]
        rw [hq, opFlux, opFlux]
        congr 1
        refine app_congr (fun q hq j hj => ?_) a i
        rw [hE' d hd q hq j hj, proN_finest (h3 d hd) _ _ j hj]
      have hT : ∀ d, d < 4 → ∀ a, a < 4 → ∀ i, i < n' → Q.side d a i = tfl n' TT hh E.halves E.inner (d, a) i := by
        intro d hd a ha i hi
        rw [hQ d hd a ha i hi, hms d hd, coarse_flux hn (hx' d hd) ha hi, hTT, hhh]
        have : ∀ B : Blk K, fl n' B (E.side d) a i = fl n' B (cd d E.halves E.inner) a i := by
          intro B
          unfold fl
          refine sum_congr rfl fun q hq => ?_
          rw [Edges.side_cd E hd (mem_range.mp hq)]
        rw [this]
        interval_cases d <;> rfl
      have hjump : ∀ r, r < 4 → ∀ i, i < n' → E.inner r i = app n' 8 S E.halves r i + w r i := by
        have h2 := fun r (hr : r < 4) i (hi : i < n') => total_jump (hSol.1 hns) (hW.1 hns) E.halves hr hi
        have := hns (fun l s => E.inner l s - (app n' 8 S E.halves l s + w l s)) (by
          intro r hr i hi
          have a1 := hT (jl r).1 (jl_lt r hr).1 (jl r).2 (jl_lt r hr).2 i hi
          have a1' := hT (jr r).1 (jr_lt r hr).1 (jr r).2 (jr_lt r hr).2 i hi
          rw [← Edges.side_jump Q hr] at a1'
          have a2 := h2 r hr i hi
          have j1 := jump_eq n' TT E.halves E.inner r hr i
          have j2 := jump_eq n' TT E.halves (fun l s => app n' 8 S E.halves l s + w l s) r hr i
          unfold tfl at a1 a1' a2
          unfold jump at j1 j2
          simp only [mul_sub, sum_sub_distrib]
          simp only [Prod.mk.eta] at a1 a1'
          linear_combination (-1 : K) * j1 + j2 - a1 + a1' - a2)
        intro r hr i hi
        exact sub_eq_zero.mp (this r hr i hi)
      have hG' : ∀ p, p < 8 → ∀ i, i < n' → E.halves p i = hlv n' g' p i := by
        intro p hp i hi
        rw [Edges.outer_halves E hn hp hi, hlv, hg' _ (by omega) _ (by
          have : p % 2 < 2 := Nat.mod_lt _ (by omega)
          nlinarith)]
      refine ⟨hm.symm, ?_, ?_⟩
      · intro a ha i hi
        have hz : i / n' < 2 := Nat.div_lt_of_lt_mul (by rw [mul_comm]; exact hi)
        have hp8 : a * 2 + i / n' < 8 := by omega
        have hi' := Nat.mod_lt i hn
        rw [hq' a ha i hi, Edges.outer_ex Q ha hi, hT _ (ex_lt _ hp8).1 _ (ex_lt _ hp8).2 _ hi', opFlux, app_dbl, dblv,
          total_ext n' TT S hh w _ hp8]
        refine tfl_congr₂ hG' (fun r hr i hi => ?_) _ _
        rw [hjump r hr i hi, app_congr (fun q hq j hj => hG' q hq j hj)]
      · intro hgs
        have hGG : ∀ p, p < 8 → ∀ i, i < n' → E.halves p i = G p i := by
          intro p hp i hi
          rw [hG' p hp i hi, hG, hlv, hlv, hgs _ (by omega) _ (by
            have : p % 2 < 2 := Nat.mod_lt _ (by omega)
            nlinarith)]
        have hside : ∀ d, d < 4 → ∀ a, a < 4 → ∀ i, i < n' → E.side d a i = cd d G u a i := by
          intro d hd a ha i hi
          rw [Edges.side_cd E hd ha, hu]
          refine cd_congr₂ hGG (fun r hr i hi => ?_) _ _ hi
          rw [hjump r hr i hi, app_congr (fun q hq j hj => hGG q hq j hj)]
        have hgd : ∀ d, d < 4 → ∀ a, a < 4 → ∀ i, i < ms d → gs d a i = proN (pick k0 k1 k2 k3 d) n' (cd d G u) a i := by
          intro d hd a ha i hi
          rw [hms d hd] at hi
          rw [hE' d hd a ha i hi, proN_finest (h3 d hd) _ _ i hi]
          exact finest_congr (h3 d hd) (hside d hd a ha) i hi
        exact ⟨v0 (hgd 0 (by omega)), v1 (hgd 1 (by omega)), v2 (hgd 2 (by omega)), v3 (hgd 3 (by omega))⟩

end EF
