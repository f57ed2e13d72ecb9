import Verif.Proofs.MergeForm

/-!
# What `merge4to1`, `upwards4to1` and `split1to4` compute on patches of equal side length
-/

namespace EF

open Finset

variable {α K : Type}

/-- Pairs of blocks as blocks of twice the size. -/
theorem bm_double (n r c : Nat) (B : Nat → Nat → Nat → Nat → α) :
    bm n (r * 2) (c * 2) B
      = bm (2 * n) r c (fun p q i j => B (p * 2 + i / n) (q * 2 + j / n) (i % n) (j % n)) := by
  have hh : ∀ (r k : Nat), k < r * 2 * n → k / n = k / (2 * n) * 2 + k % (2 * n) / n ∧ k % n = k % (2 * n) % n := by
    intro r k hk
    have hn : 0 < n := by
      rcases Nat.eq_zero_or_pos n with h | h
      · subst h; simp at hk
      · exact h
    rw [Nat.mul_comm 2 n, Nat.mod_mul_right_div_self, Nat.mod_mul_right_mod, ← Nat.div_div_eq_div_mul]
    exact ⟨by omega, rfl⟩
  unfold bm
  rw [Nat.mul_assoc r, Nat.mul_assoc c]
  apply Mat.ofFn_congr
  intro i hi j hj
  obtain ⟨h1, h2⟩ := hh r i (by rw [Nat.mul_assoc]; exact hi)
  obtain ⟨h3, h4⟩ := hh c j (by rw [Nat.mul_assoc]; exact hj)
  beta_reduce
  rw [← h1, ← h2, ← h3, ← h4]

theorem bv_double (n r : Nat) (b : Nat → Nat → α) :
    bv n (r * 2) b = bv (2 * n) r (fun p i => b (p * 2 + i / n) (i % n)) := by
  unfold bv
  rw [Nat.mul_assoc r]
  apply Vec.ofFn_congr
  intro k hk
  have hn : 0 < n := by
    rcases Nat.eq_zero_or_pos n with h | h
    · subst h; simp at hk
    · exact h
  beta_reduce
  rw [Nat.mul_comm 2 n, Nat.mod_mul_right_div_self, Nat.mod_mul_right_mod, ← Nat.div_div_eq_div_mul]
  congr 1
  omega

theorem bv_halve (n r : Nat) (b : Nat → Nat → α) :
    bv (2 * n) r b = bv n (r * 2) (fun p i => b (p / 2) (p % 2 * n + i)) := by
  rw [bv_double]
  apply bv_congr
  intro p _ i hi
  have hn : 0 < n := by
    rcases Nat.eq_zero_or_pos n with h | h
    · subst h; simp at hi
    · exact h
  have h2 : i / n < 2 := Nat.div_lt_of_lt_mul (by rw [Nat.mul_comm]; exact hi)
  have e1 : ∀ z, z < 2 → (p * 2 + z) / 2 = p := by omega
  have e2 : ∀ z, z < 2 → (p * 2 + z) % 2 = z := by omega
  rw [e1 _ h2, e2 _ h2, Nat.div_add_mod']

namespace HPS

variable [Field K]

/-- The four children have block operators `TT` of side length `n`. -/
structure ChildT (n : Nat) (TT : Ops K) (F : Fam (Patch K)) : Prop where
  a : F.a.T = bm n 4 4 (TT 0)
  b : F.b.T = bm n 4 4 (TT 1)
  c : F.c.T = bm n 4 4 (TT 2)
  d : F.d.T = bm n 4 4 (TT 3)

/-- The four children have block fluxes `hh` of side length `n`. -/
structure ChildH (n : Nat) (hh : Nat → Nat → Nat → K) (F : Fam (Patch K)) : Prop where
  a : F.a.h = bv n 4 (hh 0)
  b : F.b.h = bv n 4 (hh 1)
  c : F.c.h = bv n 4 (hh 2)
  d : F.d.h = bv n 4 (hh 3)

/-- The four children have the same size. -/
def EqSize (n : Nat) (F : Fam (Patch K)) : Prop :=
  F.a.size = n ∧ F.b.size = n ∧ F.c.size = n ∧ F.d.size = n

omit [Field K] in
theorem EqSize.guard {n : Nat} {F : Fam (Patch K)} (h : EqSize n F) :
    F.a.size = F.b.size ∧ F.b.size = F.c.size ∧ F.c.size = F.d.size := by
  obtain ⟨h1, h2, h3, h4⟩ := h
  omega

/-- The operator of the parent in WESN order. -/
def Tp (n : Nat) (TT : Ops K) (S : Nat → Nat → Nat → Nat → K) (p q i j : Nat) : K :=
  Lf TT (piF p) (piF q) i j + ∑ l ∈ range 4, ∑ s ∈ range n, Hf TT (piF p) l i s * S l q s j

/-- The merge after coarsening. -/
def mergeEq (lap : Lapack K) (F : Fam (Patch K)) : Res (Fam (Patch K)) := do
  let I ← createIndexSets F
  let B ← createMatrixBlocks I F
  let X ← mergeX B
  let S ← mergeS lap B X
  let HT ← mergeT B S
  let ST ← reorderOperators (F.a.T.nrows / 4) S HT.2
  pure { F with tau := { F.tau with X := X, H := HT.1, S := ST.1, T := ST.2, grid := mergeGrid F } }

theorem merge4to1_eq (lap : Lapack K) (F : Fam (Patch K)) : merge4to1 lap F = (coarsen F >>= mergeEq lap) := rfl

/-- `S` solves the interface system for every parent boundary vector. -/
def SolvesX (n : Nat) (TT : Ops K) (S : Nat → Nat → Nat → Nat → K) : Prop :=
  ∀ r, r < 4 → ∀ q, q < 8 → ∀ i, i < n → ∀ j, j < n →
    ∑ l ∈ range 4, ∑ s ∈ range n, Xf TT r l i s * S l q s j = Rf TT r (piF q) i j

theorem mergeEq_ok (lap : Lapack K) {n : Nat} (hn : 0 < n) {TT : Ops K} {F : Fam (Patch K)}
    (hT : ChildT n TT F) (hs : EqSize n F) :
    ∃ S : Nat → Nat → Nat → Nat → K,
      mergeEq lap F = .ok { F with tau := { F.tau with
        X := bm n 4 4 (Xf TT), H := bm n 8 4 (Hf TT), S := bm n 4 8 S, T := bm n 8 8 (Tp n TT S),
        grid := mergeGrid F } } ∧
      (BNonsing n 4 (Xf TT) → SolvesX n TT S) ∧
      (¬ BNonsing n 4 (Xf TT) → S = fun p q => Rf TT p (piF q)) := by
  obtain ⟨S, h1, h2, h3⟩ := solveMat_bm lap (c := 8) (X := Xf TT) (R := Rf TT) hn (by omega : 0 < 4)
  refine ⟨fun p q => S p (piF q), ?_, ?_, ?_⟩
  · unfold mergeEq
    rw [createIndexSets_eq n F hs.guard (by rw [hT.a]; rfl), Res.ok_bind,
      createMatrixBlocks_eq n TT F hT.a hT.b hT.c hT.d, Res.ok_bind, mergeX_eq, Res.ok_bind, mergeS_eq, h1,
      Res.ok_bind, mergeT_eq n hn, Res.ok_bind]
    have : F.a.T.nrows / 4 = n := by rw [hT.a, nrows_bm]; omega
    simp only []
    rw [this, reorderOperators_eq, Res.ok_bind]
    rfl
  · intro hX r hr q hq i hi j hj
    exact h2 hX r hr (piF q) (piF_lt q hq) i hi j hj
  · intro hX
    rw [h3 hX]

/-- Solving the interface system makes the fluxes continuous. -/
theorem SolvesX.jump {n : Nat} {TT : Ops K} {S : Nat → Nat → Nat → Nat → K} (h : SolvesX n TT S)
    (G : Nat → Nat → K) {r : Nat} (hr : r < 4) {i : Nat} (hi : i < n) : jump n TT G (app n 8 S G) r i = 0 := by
  rw [jump_eq _ _ _ _ r hr]
  have := app_mul n 4 8 (Xf TT) S G r i
  simp only [app] at this ⊢
  rw [← this, sub_eq_zero]
  apply sum_congr rfl; intro q hq
  apply sum_congr rfl; intro j hj
  rw [h r hr q (mem_range.mp hq) i hi j (mem_range.mp hj)]

/-- The parent operator returns the exterior fluxes of the children. -/
theorem app_Tp (n : Nat) (TT : Ops K) (S : Nat → Nat → Nat → Nat → K) (G : Nat → Nat → K) {p : Nat} (hp : p < 8)
    (i : Nat) : app n 8 (Tp n TT S) G p i = cfl n TT G (app n 8 S G) (ex p) i := by
  rw [ext_eq _ _ _ _ p hp]
  have := app_mul n 4 8 (Hf TT) S G (piF p) i
  simp only [app] at this ⊢
  rw [← this, ← sum_add_distrib]
  apply sum_congr rfl; intro q _
  rw [← sum_add_distrib]
  apply sum_congr rfl; intro j _
  simp only [Tp]
  ring

/-! ### Upwards -/

/-- The upwards step after coarsening. -/
def upEq (lap : Lapack K) (F : Fam (Patch K)) : Res (Fam (Patch K)) := do
  let I ← createIndexSets F
  let B ← createMatrixBlocks I F
  let X ← mergeX B
  let w ← mergeW lap I F X
  let h ← mergeH I F w
  let h ← reorderUp F h
  pure { F with tau := { F.tau with X := X, w := w, h := h } }

theorem upwards4to1_eq (lap : Lapack K) (opt : HPSOptions) (F : Fam (Patch K)) (ho : opt.homogeneousRhs = false) :
    upwards4to1 lap opt F = (coarsenUp F >>= upEq lap) := by
  unfold upwards4to1
  rw [ho]
  rfl

/-- Jump of the inhomogeneous fluxes at an interface (second child minus first). -/
def hjump (hh : Nat → Nat → Nat → K) (r i : Nat) : K := hh (jr r).1 (jr r).2 i - hh (jl r).1 (jl r).2 i

/-- The inhomogeneous flux of the parent. -/
def hp (n : Nat) (TT : Ops K) (hh : Nat → Nat → Nat → K) (w : Nat → Nat → K) (p i : Nat) : K :=
  app n 4 (Hf TT) w (piF p) i + hh (ex p).1 (ex p).2 i

theorem callIndexSet_b1 {n a : Nat} {b : Nat → Nat → K} (ha : a < 4) :
    (bv n 4 b).callIndexSet (seg n 1 (fun _ => a)) = .ok (bv n 1 (fun _ => b a)) :=
  callIndexSet_bv (by omega) (fun _ _ => ha)

theorem callIndexSet_b2 {n a c : Nat} {b : Nat → Nat → K} (ha : a < 4) (hc : c < 4) :
    (bv n 4 b).callIndexSet (seg n 2 (pr a c)) = .ok (bv n 2 (fun p => b (pr a c p))) :=
  callIndexSet_bv (by omega) (fun _ _ => pr_lt ha hc)

theorem mergeW_eq (lap : Lapack K) (n : Nat) (hh : Nat → Nat → Nat → K) (F : Fam (Patch K)) (hH : ChildH n hh F)
    (X : Mat K) : mergeW lap (I0 n) F X = X.solveVec lap (bv n 4 (hjump hh)) := by
  unfold mergeW
  rw [hH.a, hH.b, hH.c, hH.d]
  simp only [I0]
  simp only [callIndexSet_b1, Res.ok_bind, sub_bv, show (0:Nat) < 4 by decide, show (1:Nat) < 4 by decide,
    show (2:Nat) < 4 by decide, show (3:Nat) < 4 by decide]
  have := concatenate4_bv n 1 (fun k (_ : Nat) i => hjump hh k i)
  have e : ∀ k, (bv n 1 fun _ i => hjump hh k i) = bv n 1 fun _ i => hjump hh k i := fun _ => rfl
  rw [show Vec.concatenate [bv n 1 fun _ i => hh 2 2 i - hh 0 3 i, bv n 1 fun _ i => hh 3 2 i - hh 1 3 i,
    bv n 1 fun _ i => hh 1 0 i - hh 0 1 i, bv n 1 fun _ i => hh 3 0 i - hh 2 1 i] = _ from this, Res.ok_bind]
  congr 1
  apply bv_congr
  intro p _ i _
  rw [Nat.div_one]

theorem mergeH_eq (n : Nat) (hn : 0 < n) (TT : Ops K) (hh : Nat → Nat → Nat → K) (F : Fam (Patch K))
    (hH : ChildH n hh F) (htau : F.tau.H = bm n 8 4 (Hf TT)) (w : Nat → Nat → K) :
    mergeH (I0 n) F (bv n 4 w) = .ok (bv n 8 (fun p i =>
      app n 4 (Hf TT) w p i + hh (p / 2) (pr (p / 2 % 2) (2 + p / 2 / 2) (p % 2)) i)) := by
  unfold mergeH
  rw [hH.a, hH.b, hH.c, hH.d, htau, mulVec_bm hn (by omega), Res.ok_bind]
  simp only [I0]
  simp only [callIndexSet_b2, Res.ok_bind, show (0:Nat) < 4 by decide, show (1:Nat) < 4 by decide,
    show (2:Nat) < 4 by decide, show (3:Nat) < 4 by decide]
  have := concatenate4_bv n 2 (fun k p => hh k (pr (k % 2) (2 + k / 2) p))
  rw [show Vec.concatenate [bv n 2 fun p => hh 0 (pr 0 2 p), bv n 2 fun p => hh 1 (pr 1 2 p),
    bv n 2 fun p => hh 2 (pr 0 3 p), bv n 2 fun p => hh 3 (pr 1 3 p)] = _ from this, Res.ok_bind]
  exact addAssign_bv

theorem ex_piF : ∀ p, p < 8 → ex p = (piF p / 2, pr (piF p / 2 % 2) (2 + piF p / 2 / 2) (piF p % 2)) := by
  decide

theorem upEq_ok (lap : Lapack K) {n : Nat} (hn : 0 < n) {TT : Ops K} {hh : Nat → Nat → Nat → K}
    {F : Fam (Patch K)} (hT : ChildT n TT F) (hH : ChildH n hh F) (hs : EqSize n F)
    (htau : F.tau.H = bm n 8 4 (Hf TT)) :
    ∃ w : Nat → Nat → K,
      upEq lap F = .ok { F with tau := { F.tau with
        X := bm n 4 4 (Xf TT), w := bv n 4 w, h := bv n 8 (hp n TT hh w) } } ∧
      (BNonsing n 4 (Xf TT) → ∀ r, r < 4 → ∀ i, i < n →
        ∑ l ∈ range 4, ∑ s ∈ range n, Xf TT r l i s * w l s = hjump hh r i) ∧
      (¬ BNonsing n 4 (Xf TT) → w = hjump hh) := by
  obtain ⟨w, h1, h2, h3⟩ := solveVec_bm lap (X := Xf TT) (b := hjump hh) hn (by omega : 0 < 4)
  refine ⟨w, ?_, h2, h3⟩
  unfold upEq
  rw [createIndexSets_eq n F hs.guard (by rw [hT.a]; rfl), Res.ok_bind,
    createMatrixBlocks_eq n TT F hT.a hT.b hT.c hT.d, Res.ok_bind, mergeX_eq, Res.ok_bind,
    mergeW_eq lap n hh F hH, h1, Res.ok_bind, mergeH_eq n hn TT hh F hH htau, Res.ok_bind]
  unfold reorderUp
  have : F.a.T.nrows / 4 = n := by rw [hT.a, nrows_bm]; omega
  rw [if_neg (not_not.mpr hs.guard)]
  simp only []
  rw [this, piWESN_eq, blockPermute_bv piF_lt, Res.ok_bind]
  rw [show (bv n 8 fun p i => app n 4 (Hf TT) w (piF p) i +
      hh (piF p / 2) (pr (piF p / 2 % 2) (2 + piF p / 2 / 2) (piF p % 2)) i) = bv n 8 (hp n TT hh w) from by
    apply bv_congr
    intro p hp' i _
    simp only [hp]
    rw [ex_piF p hp']]
  rfl

/-- Fluxes including the inhomogeneous part. -/
def tfl (n : Nat) (TT : Ops K) (hh : Nat → Nat → Nat → K) (G u : Nat → Nat → K) (kp : Nat × Nat) (i : Nat) : K :=
  cfl n TT G u kp i + hh kp.1 kp.2 i

omit [Field K] in
theorem cd_add [Field K] (k : Nat) (G u w : Nat → Nat → K) (q j : Nat) :
    cd k G (fun l s => u l s + w l s) q j = cd k G u q j + cd k (fun _ _ => 0) w q j := by
  unfold cd
  split <;> simp

theorem cfl_add (n : Nat) (TT : Ops K) (G u w : Nat → Nat → K) (kp : Nat × Nat) (i : Nat) :
    cfl n TT G (fun l s => u l s + w l s) kp i = cfl n TT G u kp i + cfl n TT (fun _ _ => 0) w kp i := by
  unfold cfl fl
  rw [← sum_add_distrib]
  apply sum_congr rfl; intro q _
  rw [← sum_add_distrib]
  apply sum_congr rfl; intro j _
  rw [cd_add, mul_add]

/-- The interface values of the whole problem make the total fluxes continuous. -/
theorem total_jump {n : Nat} {TT : Ops K} {S : Nat → Nat → Nat → Nat → K} (hS : SolvesX n TT S)
    {hh : Nat → Nat → Nat → K} {w : Nat → Nat → K}
    (hw : ∀ r, r < 4 → ∀ i, i < n → ∑ l ∈ range 4, ∑ s ∈ range n, Xf TT r l i s * w l s = hjump hh r i)
    (G : Nat → Nat → K) {r : Nat} (hr : r < 4) {i : Nat} (hi : i < n) :
    tfl n TT hh G (fun l s => app n 8 S G l s + w l s) (jl r) i
      = tfl n TT hh G (fun l s => app n 8 S G l s + w l s) (jr r) i := by
  unfold tfl
  rw [cfl_add, cfl_add]
  have h1 := hS.jump G hr hi
  have h2 := jump_eq n TT (fun _ _ => 0) w r hr i
  rw [hw r hr i hi] at h2
  simp only [mul_zero, sum_const_zero, sub_zero] at h2
  simp only [jump, hjump] at h1 h2
  linear_combination h1 + h2

/-- The flux of the parent is the exterior flux of the children. -/
theorem total_ext (n : Nat) (TT : Ops K) (S : Nat → Nat → Nat → Nat → K) (hh : Nat → Nat → Nat → K)
    (w G : Nat → Nat → K) {p : Nat} (hp' : p < 8) (i : Nat) :
    app n 8 (Tp n TT S) G p i + hp n TT hh w p i
      = tfl n TT hh G (fun l s => app n 8 S G l s + w l s) (ex p) i := by
  unfold tfl hp
  rw [cfl_add, app_Tp n TT S G hp', ext_eq n TT (fun _ _ => 0) w p hp']
  simp only [mul_zero, sum_const_zero, zero_add, app]
  ring

/-! ### Split -/

theorem concat4 (n : Nat) (b : Nat → Nat → K) {b0 b1 b2 b3 : Nat → Nat → K}
    (h0 : b0 = fun _ => b 0) (h1 : b1 = fun _ => b 1) (h2 : b2 = fun _ => b 2) (h3 : b3 = fun _ => b 3) :
    Vec.concatenate [bv n 1 b0, bv n 1 b1, bv n 1 b2, bv n 1 b3] = .ok (bv n 4 b) := by
  subst h0 h1 h2 h3
  rw [concatenate4_bv n 1 (fun k _ => b k)]
  congr 1
  apply bv_congr
  intro p _ i _
  rw [Nat.div_one]

theorem applyS_ok (opt : HPSOptions) {n : Nat} (hn : 0 < n) {F : Fam (Patch K)} (hs : F.a.size = n)
    {S : Nat → Nat → Nat → Nat → K} (hS : F.tau.S = bm n 4 8 S) {G : Nat → Nat → K} (hG : F.tau.g = bv n 8 G)
    {w : Nat → Nat → K} (hw : opt.homogeneousRhs = false → F.tau.w = bv n 4 w)
    {u : Nat → Nat → K}
    (hu : u = if opt.homogeneousRhs then app n 8 S G else fun l s => app n 8 S G l s + w l s) :
    applyS opt F = .ok ⟨F.tau, { F.a with g := bv n 4 (cd 0 G u) }, { F.b with g := bv n 4 (cd 1 G u) },
      { F.c with g := bv n 4 (cd 2 G u) }, { F.d with g := bv n 4 (cd 3 G u) }⟩ := by
  have h : interfaceU opt F.tau = .ok (bv n 4 u) := by
    unfold interfaceU
    rw [hS, hG, mulVec_bm hn (by omega), Res.ok_bind, hu]
    cases ho : opt.homogeneousRhs
    · rw [if_neg (by simp), hw ho, add_bv]; rfl
    · rw [if_pos rfl]; rfl
  unfold applyS
  rw [h, Res.ok_bind, hG, hs]
  simp only [Res.pure_def]
  rw [getSegment_bv 0 rfl (by omega), Res.ok_bind, getSegment_bv 1 rfl (by omega), Res.ok_bind,
    getSegment_bv 2 rfl (by omega), Res.ok_bind, getSegment_bv 3 rfl (by omega), Res.ok_bind,
    getSegment_bv 0 rfl (by omega), Res.ok_bind, getSegment_bv 1 rfl (by omega), Res.ok_bind,
    getSegment_bv 2 rfl (by omega), Res.ok_bind, getSegment_bv 3 rfl (by omega), Res.ok_bind,
    getSegment_bv 4 rfl (by omega), Res.ok_bind, getSegment_bv 5 rfl (by omega), Res.ok_bind,
    getSegment_bv 6 rfl (by omega), Res.ok_bind, getSegment_bv 7 rfl (by omega), Res.ok_bind,
    concat4 n (cd 0 G u), Res.ok_bind, concat4 n (cd 1 G u), Res.ok_bind, concat4 n (cd 2 G u), Res.ok_bind,
    concat4 n (cd 3 G u), Res.ok_bind]
  all_goals rfl

end HPS
end EF
