import Verif.Proofs.Composite
import Verif.Proofs.GlobalTree

/-!
# When the interface systems are nonsingular
-/

namespace EF

open Finset FV HPS

variable {K : Type} [Field K] {N : Nat} {LP : Grid K → Blk K → Prop}

theorem HPS.Built.three {t : Tree (Patch K)} {R : Rect K} {k m : Nat} {T : Blk K} (ht : Built N LP t R k m T) : k = 0 ∨ 3 ≤ m := by
  cases ht with
  | leaf => exact Or.inl rfl
  | node _ _ _ _ _ _ _ _ _ h3m => exact h3m

theorem coarse_flux0 [CharZero K] {n k : Nat} (hn : 0 < n) {T : Blk K} {g : Nat → Nat → K} {y : Nat → Nat → K}
    (hy : ∀ s, s < 4 → ∀ j, j < n * 2 ^ k → y s j = app (n * 2 ^ k) 4 T (proN k n g) s j) {s i : Nat} (hs : s < 4) (hi : i < n) :
    meanOver (n * 2 ^ k / n) (y s) i = fl n (crsN k n T) g s i := by
  rw [meanOver_rstN hn hi (hy s hs), ← app_crsN]
  rfl

theorem ops4_pick (n k0 k1 k2 k3 : Nat) (T0 T1 T2 T3 : Blk K) {d : Nat} (hd : d < 4) :
    ops4 n k0 k1 k2 k3 T0 T1 T2 T3 d = crsN (pick k0 k1 k2 k3 d) n (pick T0 T1 T2 T3 d) := by
  interval_cases d <;> rfl

/-- Values on the edges with matching fluxes come from four solutions that belong together. -/
theorem joined_of [CharZero K] {s : FVSolver K} {f : K → K → K} {R : Rect K} {n k0 k1 k2 k3 : Nat} {T0 T1 T2 T3 : Blk K} {TT : Ops K} (hn : 0 < n)
    (hTT : TT = ops4 n k0 k1 k2 k3 T0 T1 T2 T3) (hz : k0 = 0 ∨ k1 = 0 ∨ k2 = 0 ∨ k3 = 0)
    (h3 : ∀ d, d < 4 → pick k0 k1 k2 k3 d = 0 ∨ 3 ≤ n) {M : Nat → Pieces (Nat → Nat → K)} {G u : Nat → Nat → K}
    (hM : ∀ d, d < 4 → Composite s f N (M d) (R.quarter d) (n * 2 ^ pick k0 k1 k2 k3 d) (proN (pick k0 k1 k2 k3 d) n (cd d G u))
      (app (n * 2 ^ pick k0 k1 k2 k3 d) 4 (pick T0 T1 T2 T3 d) (proN (pick k0 k1 k2 k3 d) n (cd d G u))))
    (hj : ∀ r, r < 4 → ∀ i, i < n → jump n TT G u r i = 0) :
    Joined s f N M R n (mkE G u) (mkE (fun p => cfl n TT G u (ex p)) (fun r => cfl n TT G u (jl r))) := by
  refine ⟨fun d => n * 2 ^ pick k0 k1 k2 k3 d, fun d => proN (pick k0 k1 k2 k3 d) n (cd d G u), _, hM, (min_eq hz).symm, ?_, ?_⟩
  · intro d hd
    refine ⟨pick k0 k1 k2 k3 d, rfl, fun a ha i hi => ?_⟩
    rw [side_mkE _ _ hd ha]
    exact proN_finest (h3 d hd) _ _ i hi
  · intro d hd a ha i hi
    have j0 := sub_eq_zero.mp (hj 0 (by omega) i hi)
    have j1 := sub_eq_zero.mp (hj 1 (by omega) i hi)
    have j2 := sub_eq_zero.mp (hj 2 (by omega) i hi)
    have j3 := sub_eq_zero.mp (hj 3 (by omega) i hi)
    simp only [jl, jr, List.getD_cons_zero, List.getD_cons_succ] at j0 j1 j2 j3
    have hc : meanOver (n * 2 ^ pick k0 k1 k2 k3 d / n)
        (app (n * 2 ^ pick k0 k1 k2 k3 d) 4 (pick T0 T1 T2 T3 d) (proN (pick k0 k1 k2 k3 d) n (cd d G u)) a) i
        = cfl n TT G u (d, a) i := by
      rw [coarse_flux0 hn (fun _ _ _ _ => rfl) ha hi, ← ops4_pick _ _ _ _ _ _ _ _ _ hd, hTT]
      rfl
    rw [side_mkE _ _ hd ha, hc]
    interval_cases d <;> interval_cases a <;> simp only [cd, ex, jl, List.getD_cons_zero, List.getD_cons_succ] <;>
      first | rfl | assumption

/-- The other way round. -/
theorem Joined.flux [CharZero K] {s : FVSolver K} {f : K → K → K} {R : Rect K} {n n' k0 k1 k2 k3 : Nat} {T0 T1 T2 T3 : Blk K} {TT : Ops K} (hn : 0 < n)
    (hTT : TT = ops4 n k0 k1 k2 k3 T0 T1 T2 T3) (hz : k0 = 0 ∨ k1 = 0 ∨ k2 = 0 ∨ k3 = 0)
    (h3 : ∀ d, d < 4 → pick k0 k1 k2 k3 d = 0 ∨ 3 ≤ n) {M : Nat → Pieces (Nat → Nat → K)} {E Q : Edges K} (hJ : Joined s f N M R n' E Q)
    (hM : ∀ d, d < 4 → ∀ m g q, Composite s f N (M d) (R.quarter d) m g q → m = n * 2 ^ pick k0 k1 k2 k3 d ∧
      ∀ a, a < 4 → ∀ i, i < m → q a i = app m 4 (pick T0 T1 T2 T3 d) g a i) :
    n' = n ∧ (∀ d, d < 4 → ∀ a, a < 4 → ∀ i, i < n → Q.side d a i = cfl n TT E.halves E.inner (d, a) i) ∧
      ∀ r, r < 4 → ∀ i, i < n → jump n TT E.halves E.inner r i = 0 := by
  obtain ⟨ms, gs, qs, hC, hn', hE, hQ⟩ := hJ
  have hms : ∀ d, d < 4 → ms d = n * 2 ^ pick k0 k1 k2 k3 d := fun d hd => (hM d hd _ _ _ (hC d hd)).1
  have hnn : n' = n := by
    rw [hn', hms 0 (by omega), hms 1 (by omega), hms 2 (by omega), hms 3 (by omega)]
    exact min_eq hz
  subst hnn
  have hE' : ∀ d, d < 4 → ∀ a, a < 4 → ∀ i, i < n' * 2 ^ pick k0 k1 k2 k3 d →
      gs d a i = finest (pick k0 k1 k2 k3 d) n' (E.side d a) i := by
    intro d hd a ha i hi
    obtain ⟨k', hk', he⟩ := hE d hd
    rw [hms d hd] at hk' he
    obtain rfl := pow_right hn hk'
    exact he a ha i hi
  have hx' : ∀ d, d < 4 → ∀ a, a < 4 → ∀ i, i < n' * 2 ^ pick k0 k1 k2 k3 d →
      qs d a i = app (n' * 2 ^ pick k0 k1 k2 k3 d) 4 (pick T0 T1 T2 T3 d) (proN (pick k0 k1 k2 k3 d) n' (E.side d)) a i := by
    intro d hd a ha i hi
    obtain ⟨e, hq⟩ := hM d hd _ _ _ (hC d hd)
    rw [e] at hq
    rw [hq a ha i hi]
    refine app_congr (fun q hq j hj => ?_) a i
    rw [hE' d hd q hq j hj, proN_finest (h3 d hd) _ _ j hj]
  have hT : ∀ d, d < 4 → ∀ a, a < 4 → ∀ i, i < n' → Q.side d a i = cfl n' TT E.halves E.inner (d, a) i := by
    intro d hd a ha i hi
    rw [hQ d hd a ha i hi, hms d hd, coarse_flux0 hn (hx' d hd) ha hi, ← ops4_pick _ _ _ _ _ _ _ _ _ hd, ← hTT]
    unfold cfl fl
    refine sum_congr rfl fun q hq => ?_
    rw [Edges.side_cd E hd (mem_range.mp hq)]
  refine ⟨rfl, hT, fun r hr i hi => ?_⟩
  have a1 := hT (jl r).1 (jl_lt r hr).1 (jl r).2 (jl_lt r hr).2 i hi
  have a2 := hT (jr r).1 (jr_lt r hr).1 (jr r).2 (jr_lt r hr).2 i hi
  rw [← Edges.side_jump Q hr, a1] at a2
  exact sub_eq_zero.mpr a2

/-- Without load there is a solution for all boundary values, and its fluxes are those the operator gives. -/
theorem HPS.Built.solution [CharZero K] {s : FVSolver K}
    (hleaf : ∀ (p : Patch K) (T : Blk K), p.grid.nx = N → p.grid.ny = N → LP p.grid T → ∀ g, ∃ U,
      Solves s (rect p.grid) N N (ofB g) (fun _ _ => 0) U ∧
        ∀ a, a < 4 → ∀ i, i < N → app N 4 T g a i = deriv (rect p.grid) N N (ofB g) U a i)
    {t : Tree (Patch K)} {R : Rect K} {k m : Nat} {T : Blk K} (ht : Built N LP t R k m T) (hB : Branches (fun p => NonsingularMat p.X) t)
    (g : Nat → Nat → K) :
    ∃ M : Pieces (Nat → Nat → K), M.Alike t.cuts ∧ Composite s (fun _ _ => 0) N M R (m * 2 ^ k) g (app (m * 2 ^ k) 4 T g) := by
  induction ht generalizing g with
  | @leaf p R T hk hx hy hR hT hL =>
    obtain rfl := rect_eq hR
    obtain ⟨U, a1, a2⟩ := hleaf p T hx hy hL g
    refine ⟨.one U, trivial, ?_⟩
    simp only [pow_zero, mul_one]
    exact .one a1 a2
  | @node p R c0 c1 c2 c3 n k m k0 k1 k2 k3 T0 T1 T2 T3 S TT h0 h1 h2 h3 hTT hz hn hm hN h3m hk hx hy hR hX hH hS hSol hT i0 i1 i2 i3 =>
    obtain ⟨hp, b0, b1, b2, b3⟩ := hB
    have hns := bnonsing_of hX hp
    have t0 := h0.three
    have t1 := h1.three
    have t2 := h2.three
    have t3 := h3.three
    have hj := fun r (hr : r < 4) i (hi : i < n) => (hSol.1 hns).jump (hlv n g) hr hi
    obtain ⟨M0, m0, C0⟩ := i0 b0 (proN k0 n (cd 0 (hlv n g) (app n 8 S (hlv n g))))
    obtain ⟨M1, m1, C1⟩ := i1 b1 (proN k1 n (cd 1 (hlv n g) (app n 8 S (hlv n g))))
    obtain ⟨M2, m2, C2⟩ := i2 b2 (proN k2 n (cd 2 (hlv n g) (app n 8 S (hlv n g))))
    obtain ⟨M3, m3, C3⟩ := i3 b3 (proN k3 n (cd 3 (hlv n g) (app n 8 S (hlv n g))))
    obtain ⟨ms, gs, qs, hC, hn', hE, hQ⟩ := joined_of (s := s) (f := fun _ _ => 0) (R := R) (M := pick M0 M1 M2 M3) hn hTT hz
      (by intro d hd; interval_cases d; exacts [t0, t1, t2, t3]) (by intro d hd; interval_cases d; exacts [C0, C1, C2, C3]) hj
    refine ⟨.four M0 M1 M2 M3, ⟨m0, m1, m2, m3⟩, ?_⟩
    rw [hm]
    refine .four (hC 0 (by omega)) (hC 1 (by omega)) (hC 2 (by omega)) (hC 3 (by omega)) hn' hE hQ ?_ ?_
    · intro a ha i hi
      have hz : i / n < 2 := Nat.div_lt_of_lt_mul (by rw [mul_comm]; exact hi)
      rw [outer_mkE _ _ ha hi]
      unfold hlv
      have q1 : ∀ z, z < 2 → (a * 2 + z) / 2 = a ∧ (a * 2 + z) % 2 = z := by omega
      rw [(q1 _ hz).1, (q1 _ hz).2, Nat.div_add_mod']
    · intro a ha i hi
      have hz : i / n < 2 := Nat.div_lt_of_lt_mul (by rw [mul_comm]; exact hi)
      rw [outer_mkE _ _ ha hi, app_dbl, app_Tp n TT S _ (by omega)]

/-- Without load the operator gives the fluxes of every solution. -/
theorem HPS.Built.flux [CharZero K] {s : FVSolver K}
    (hflux : ∀ (p : Patch K) (T : Blk K), p.grid.nx = N → p.grid.ny = N → LP p.grid T → ∀ g U,
      Solves s (rect p.grid) N N (ofB g) (fun _ _ => 0) U → ∀ a, a < 4 → ∀ i, i < N → deriv (rect p.grid) N N (ofB g) U a i = app N 4 T g a i)
    {t : Tree (Patch K)} {R : Rect K} {k m : Nat} {T : Blk K} (ht : Built N LP t R k m T) (hB : Branches (fun p => NonsingularMat p.X) t)
    {M : Pieces (Nat → Nat → K)} (hM : M.Alike t.cuts) (m' : Nat) (g q : Nat → Nat → K) (hC : Composite s (fun _ _ => 0) N M R m' g q) :
    m' = m * 2 ^ k ∧ ∀ a, a < 4 → ∀ i, i < m' → q a i = app m' 4 T g a i := by
  induction ht generalizing M m' g q with
  | @leaf p R T hk hx hy hR hT hL =>
    obtain rfl := rect_eq hR
    cases hC with
    | four => exact hM.elim
    | @one U _ _ _ hU hq =>
      refine ⟨by simp, fun a ha i hi => ?_⟩
      rw [hq a ha i hi]
      exact hflux p T hx hy hL g U hU a ha i hi
  | @node p R c0 c1 c2 c3 n k m k0 k1 k2 k3 T0 T1 T2 T3 S TT h0 h1 h2 h3 hTT hz hn hm hN h3m hk hx hy hR hX hH hS hSol hT i0 i1 i2 i3 =>
    obtain ⟨hp, b0, b1, b2, b3⟩ := hB
    have hns := bnonsing_of hX hp
    have t0 := h0.three
    have t1 := h1.three
    have t2 := h2.three
    have t3 := h3.three
    cases hC with
    | one => exact hM.elim
    | @four d0 d1 d2 d3 _ n' ms gs qs E Q _ _ C0 C1 C2 C3 hn' hE hQ hg' hq' =>
      obtain ⟨M0, M1, M2, M3⟩ := hM
      have hJ : Joined s (fun _ _ => 0) N (pick d0 d1 d2 d3) R n' E Q :=
        ⟨ms, gs, qs, by intro d hd; interval_cases d; exacts [C0, C1, C2, C3], hn', hE, hQ⟩
      obtain ⟨rfl, hf, hj⟩ := hJ.flux (T0 := T0) (T1 := T1) (T2 := T2) (T3 := T3) hn hTT hz
        (by intro d hd; interval_cases d; exacts [t0, t1, t2, t3]) (by
          intro d hd m g q h
          interval_cases d
          exacts [i0 b0 M0 _ _ _ h, i1 b1 M1 _ _ _ h, i2 b2 M2 _ _ _ h, i3 b3 M3 _ _ _ h])
      have hG' : ∀ p, p < 8 → ∀ i, i < n' → E.halves p i = hlv n' g p i := by
        intro p hp i hi
        rw [Edges.outer_halves E hn hp hi, hlv, hg' _ (by omega) _ (by
          have : p % 2 < 2 := Nat.mod_lt _ (by omega)
          nlinarith)]
      have hin : ∀ r, r < 4 → ∀ i, i < n' → E.inner r i = app n' 8 S E.halves r i := by
        have := hns (fun l s => E.inner l s - app n' 8 S E.halves l s) (by
          intro r hr i hi
          have j1 := jump_eq n' TT E.halves E.inner r hr i
          have j2 := jump_eq n' TT E.halves (app n' 8 S E.halves) r hr i
          rw [hj r hr i hi] at j1
          rw [(hSol.1 hns).jump E.halves hr hi] at j2
          simp only [mul_sub, sum_sub_distrib]
          linear_combination j2 - j1)
        intro r hr i hi
        exact sub_eq_zero.mp (this r hr i hi)
      refine ⟨hm.symm, fun a ha i hi => ?_⟩
      have hz : i / n' < 2 := Nat.div_lt_of_lt_mul (by rw [mul_comm]; exact hi)
      have hp8 : a * 2 + i / n' < 8 := by omega
      have hi' := Nat.mod_lt i hn
      rw [hq' a ha i hi, Edges.outer_ex Q ha hi, hf _ (ex_lt _ hp8).1 _ (ex_lt _ hp8).2 _ hi', app_dbl, app_Tp n' TT S _ hp8]
      have := tfl_congr₂ (TT := TT) (hh := fun _ _ _ => 0) hG' (fun r hr i hi => (hin r hr i hi).trans (app_congr (fun q hq j hj => hG' q hq j hj) r i))
        (ex (a * 2 + i / n')) (i % n')
      simpa [tfl] using this

/-- The interface systems are nonsingular exactly if zero boundary values leave only zero values at the interfaces. -/
theorem HPS.Built.rigid [CharZero K] {s : FVSolver K}
    (hleaf : ∀ (p : Patch K) (T : Blk K), p.grid.nx = N → p.grid.ny = N → LP p.grid T → ∀ g, ∃ U,
      Solves s (rect p.grid) N N (ofB g) (fun _ _ => 0) U ∧
        ∀ a, a < 4 → ∀ i, i < N → app N 4 T g a i = deriv (rect p.grid) N N (ofB g) U a i)
    (hflux : ∀ (p : Patch K) (T : Blk K), p.grid.nx = N → p.grid.ny = N → LP p.grid T → ∀ g U,
      Solves s (rect p.grid) N N (ofB g) (fun _ _ => 0) U → ∀ a, a < 4 → ∀ i, i < N → deriv (rect p.grid) N N (ofB g) U a i = app N 4 T g a i)
    {t : Tree (Patch K)} {R : Rect K} {k m : Nat} {T : Blk K} (ht : Built N LP t R k m T) :
    Branches (fun p => NonsingularMat p.X) t ↔ Rigid s N t.cuts R := by
  induction ht with
  | leaf => exact Iff.rfl
  | @node p R c0 c1 c2 c3 n k m k0 k1 k2 k3 T0 T1 T2 T3 S TT h0 h1 h2 h3 hTT hz hn hm hN h3m hk hx hy hR hX hH hS hSol hT i0 i1 i2 i3 =>
    have t0 := h0.three
    have t1 := h1.three
    have t2 := h2.three
    have t3 := h3.three
    constructor
    · rintro ⟨hp, b0, b1, b2, b3⟩
      refine ⟨⟨i0.mp b0, i1.mp b1, i2.mp b2, i3.mp b3⟩, fun M hM n' E Q hJ ho d hd a ha i hi => ?_⟩
      have hns := bnonsing_of hX hp
      obtain ⟨rfl, _, hj⟩ := hJ.flux (T0 := T0) (T1 := T1) (T2 := T2) (T3 := T3) hn hTT hz
        (by intro d hd; interval_cases d; exacts [t0, t1, t2, t3]) (by
          intro d hd m g q h
          have hM := hM d hd
          interval_cases d
          exacts [h0.flux hflux b0 hM _ _ _ h, h1.flux hflux b1 hM _ _ _ h, h2.flux hflux b2 hM _ _ _ h, h3.flux hflux b3 hM _ _ _ h])
      have hG : ∀ p, p < 8 → ∀ i, i < n' → E.halves p i = 0 := by
        intro p hp i hi
        rw [Edges.outer_halves E hn hp hi, ho _ (by omega) _ (by
          have : p % 2 < 2 := Nat.mod_lt _ (by omega)
          nlinarith)]
      have hin := hns E.inner (by
        intro r hr i hi
        have j1 := jump_eq n' TT E.halves E.inner r hr i
        have hz : ∑ q ∈ range 8, ∑ j ∈ range n', Rf TT r (piF q) i j * E.halves q j = 0 :=
          sum_eq_zero fun q hq => sum_eq_zero fun j hj => by rw [hG q (mem_range.mp hq) j (mem_range.mp hj), mul_zero]
        rw [hj r hr i hi, hz, sub_zero] at j1
        exact j1.symm)
      rw [Edges.side_cd E hd ha, cd_congr₂ (G' := fun _ _ => 0) (u' := fun _ _ => 0) hG hin _ _ hi]
      unfold cd
      split <;> rfl
    · rintro ⟨⟨r0, r1, r2, r3⟩, hr⟩
      have b0 := i0.mpr r0
      have b1 := i1.mpr r1
      have b2 := i2.mpr r2
      have b3 := i3.mpr r3
      refine ⟨nonsingularMat_of hX fun x hx => ?_, b0, b1, b2, b3⟩
      obtain ⟨M0, m0, C0⟩ := h0.solution hleaf b0 (proN k0 n (cd 0 (fun _ _ => 0) x))
      obtain ⟨M1, m1, C1⟩ := h1.solution hleaf b1 (proN k1 n (cd 1 (fun _ _ => 0) x))
      obtain ⟨M2, m2, C2⟩ := h2.solution hleaf b2 (proN k2 n (cd 2 (fun _ _ => 0) x))
      obtain ⟨M3, m3, C3⟩ := h3.solution hleaf b3 (proN k3 n (cd 3 (fun _ _ => 0) x))
      have hJ := joined_of (s := s) (f := fun _ _ => 0) (R := R) (M := pick M0 M1 M2 M3) hn hTT hz
        (by intro d hd; interval_cases d; exacts [t0, t1, t2, t3]) (by intro d hd; interval_cases d; exacts [C0, C1, C2, C3])
        (G := fun _ _ => 0) (u := x) (fun r hr i hi => by
          rw [jump_eq _ _ _ _ r hr, hx r hr i hi]
          simp)
      have key := hr (pick M0 M1 M2 M3) (by intro d hd; interval_cases d; exacts [m0, m1, m2, m3]) n _ _ hJ
        (fun a ha i hi => by rw [outer_mkE _ _ ha hi])
      intro r hr i hi
      interval_cases r
      exacts [key 0 (by omega) 3 (by omega) i hi, key 1 (by omega) 3 (by omega) i hi, key 0 (by omega) 1 (by omega) i hi,
        key 2 (by omega) 1 (by omega) i hi]

end EF
