import Verif.Spec.Glue
import Verif.Proofs.Pipeline
import Verif.Proofs.HasLemmas
import Mathlib.Tactic.IntervalCases
import Mathlib.Tactic.Linarith

/-!
# C16, C17: one merge and one split
-/

namespace EF
namespace HPS

open Finset

variable {K : Type} [Field K]

/-! ### Edges and block data -/

/-- The edges made of the half sides `G` of the parent and the interfaces `u`. -/
def mkE (G u : Nat → Nat → K) : Edges K where
  V x y := match x with
    | 0 => G y
    | 1 => u (2 + y)
    | _ => G (2 + y)
  H x y := match y with
    | 0 => G (4 + x)
    | 1 => u x
    | _ => G (6 + x)

omit [Field K] in
theorem blk4 {n : Nat} {P : Nat → K → Prop} {f : Nat → K} (h : ∀ q, q < 4 → ∀ i, i < n → P (q * n + i) (f (q * n + i))) :
    ∀ k, k < 4 * n → P k (f k) := by
  intro k hk
  have := h (k / n) (Mat.div_lt' hk) (k % n) (Mat.mod_lt' hk)
  rwa [Nat.div_add_mod'] at this

omit [Field K] in
theorem child_blk (E : Edges K) (n c q i : Nat) (hi : i < n) :
    E.child n c (q * n + i) = match q with
      | 0 => E.V (c % 2) (c / 2) i
      | 1 => E.V (c % 2 + 1) (c / 2) i
      | 2 => E.H (c % 2) (c / 2) i
      | q + 3 => E.H (c % 2) (c / 2 + 1) (q * n + i) := by
  unfold Edges.child
  match q with
  | 0 => rw [if_pos (by omega)]; simp
  | 1 => rw [if_neg (by omega), if_pos (by omega), show 1 * n + i - n = i by omega]
  | 2 => rw [if_neg (by omega), if_neg (by omega), if_pos (by omega), show 2 * n + i - 2 * n = i by omega]
  | q + 3 =>
    have : (q + 3) * n = q * n + 3 * n := by ring
    rw [if_neg (by omega), if_neg (by omega), if_neg (by omega), show (q + 3) * n + i - 3 * n = q * n + i by omega]

theorem child_mkE (G u : Nat → Nat → K) {n c q i : Nat} (hc : c < 4) (hq : q < 4) (hi : i < n) :
    (mkE G u).child n c (q * n + i) = cd c G u q i := by
  rw [child_blk _ _ _ _ _ hi]
  interval_cases c <;> interval_cases q <;> simp [mkE, cd]

omit [Field K] in
theorem parent_mkE (G u : Nat → Nat → K) {n q i : Nat} (hq : q < 8) (hi : i < n) :
    (mkE G u).parent n (q * n + i) = G q i := by
  unfold Edges.parent
  interval_cases q
  · rw [if_pos (by omega)]; simp [mkE]
  · rw [if_neg (by omega), if_pos (by omega)]; simp [mkE]
  · rw [if_neg (by omega), if_neg (by omega), if_pos (by omega)]; simp [mkE]
  · rw [if_neg (by omega), if_neg (by omega), if_neg (by omega), if_pos (by omega)]; simp [mkE]
  · rw [if_neg (by omega), if_neg (by omega), if_neg (by omega), if_neg (by omega), if_pos (by omega)]; simp [mkE]
  · rw [if_neg (by omega), if_neg (by omega), if_neg (by omega), if_neg (by omega), if_neg (by omega), if_pos (by omega)]
    simp [mkE]
  · rw [if_neg (by omega), if_neg (by omega), if_neg (by omega), if_neg (by omega), if_neg (by omega), if_neg (by omega),
      if_pos (by omega)]
    simp [mkE]
  · rw [if_neg (by omega), if_neg (by omega), if_neg (by omega), if_neg (by omega), if_neg (by omega), if_neg (by omega),
      if_neg (by omega)]
    simp [mkE]

theorem sum_toBlk (n c : Nat) (a : Nat → K) (x : Nat → Nat → K) :
    ∑ q ∈ range c, ∑ j ∈ range n, a (q * n + j) * x q j = ∑ j ∈ range (c * n), a j * x (j / n) (j % n) := by
  rw [sum_range_mul]
  apply sum_congr rfl; intro q _
  apply sum_congr rfl; intro j hj
  rw [Mat.idx_div (mem_range.mp hj), Mat.idx_mod (mem_range.mp hj)]

/-- The values `u` at the interfaces give one flux per edge when the fluxes do not jump. -/
theorem fluxOf_mkE {n : Nat} {T : Nat → Nat → Nat → K} {h : Nat → Nat → K} {G u : Nat → Nat → K}
    (hj : ∀ r, r < 4 → ∀ i, i < n → tfl n (fun c => toBlk n (T c)) (fun c => toBv n (h c)) G u (jl r) i
      = tfl n (fun c => toBlk n (T c)) (fun c => toBv n (h c)) G u (jr r) i) :
    FluxOf n T h (mkE G u) (mkE (fun p => tfl n (fun c => toBlk n (T c)) (fun c => toBv n (h c)) G u (ex p))
      (fun r => tfl n (fun c => toBlk n (T c)) (fun c => toBv n (h c)) G u (jl r))) := by
  intro c hc
  apply blk4 (P := fun k x => x = ∑ j ∈ range (4 * n), T c k j * (mkE G u).child n c j + h c k)
  intro q hq i hi
  have e : ∑ j ∈ range (4 * n), T c (q * n + i) j * (mkE G u).child n c j + h c (q * n + i)
      = tfl n (fun c => toBlk n (T c)) (fun c => toBv n (h c)) G u (c, q) i := by
    unfold tfl cfl fl
    simp only [toBlk, toBv]
    congr 1
    rw [sum_range_mul]
    apply sum_congr rfl; intro p hp
    apply sum_congr rfl; intro j hj'
    rw [child_mkE _ _ hc (mem_range.mp hp) (mem_range.mp hj')]
  rw [e, child_mkE _ _ hc hq hi]
  have j0 := hj 0 (by omega) i hi
  have j1 := hj 1 (by omega) i hi
  have j2 := hj 2 (by omega) i hi
  have j3 := hj 3 (by omega) i hi
  simp only [jl, jr, List.getD_cons_zero, List.getD_cons_succ] at j0 j1 j2 j3
  interval_cases c <;> interval_cases q <;> simp only [cd, ex, jl, List.getD_cons_zero, List.getD_cons_succ] <;>
    first | rfl | assumption

theorem edges_eq (E : Edges K) {n c q i : Nat} (hc : c < 4) (hq : q < 4) (hi : i < n) :
    E.child n c (q * n + i) = cd c (fun p j => E.parent n (p * n + j))
      (fun r j => if r < 2 then E.H r 1 j else E.V 1 (r - 2) j) q i := by
  rw [child_blk _ _ _ _ _ hi]
  have hP : ∀ p, p < 8 → E.parent n (p * n + i) = (if p < 2 then E.V 0 p i else if p < 4 then E.V 2 (p - 2) i
      else if p < 6 then E.H (p - 4) 0 i else E.H (p - 6) 2 i) := by
    intro p hp
    have := parent_mkE (fun p i => if p < 2 then E.V 0 p i else if p < 4 then E.V 2 (p - 2) i
      else if p < 6 then E.H (p - 4) 0 i else E.H (p - 6) 2 i) (fun _ _ => (0 : K)) hp hi
    rw [← this]
    unfold Edges.parent
    simp [mkE]
  have h0 := hP 0 (by omega)
  have h1 := hP 1 (by omega)
  simp at h0 h1
  interval_cases c <;> interval_cases q <;> simp [cd, hP, h0, h1]

/-- Uniqueness for the interface problem is nonsingularity of the interface matrix. -/
theorem unisolvent_iff {n : Nat} {T : Nat → Nat → Nat → K} :
    Unisolvent n T ↔ BNonsing n 4 (Xf (fun c => toBlk n (T c))) := by
  constructor
  · intro h v hv
    have hj : ∀ r, r < 4 → ∀ i, i < n → tfl n (fun c => toBlk n (T c)) (fun c => toBv n (fun _ => 0)) (fun _ _ => 0) v (jl r) i
      = tfl n (fun c => toBlk n (T c)) (fun c => toBv n (fun _ => 0)) (fun _ _ => 0) v (jr r) i := by
      intro r hr i hi
      have := jump_eq n (fun c => toBlk n (T c)) (fun _ _ => 0) v r hr i
      rw [hv r hr i hi] at this
      simp only [mul_zero, sum_const_zero, sub_zero, jump] at this
      unfold tfl
      rw [sub_eq_zero.mp this]
      simp [toBv]
    have := h (mkE (fun _ _ => 0) v) _ ?_ (fluxOf_mkE (h := fun _ _ => 0) hj)
    · intro p hp i hi
      have hc : ∀ c q, c < 4 → q < 4 → cd c (fun _ _ => 0) v q i = 0 := by
        intro c q hc hq
        rw [← child_mkE _ _ hc hq hi]
        exact this c hc _ (Mat.idx_lt hq hi)
      interval_cases p
      · exact hc 0 3 (by omega) (by omega)
      · exact hc 1 3 (by omega) (by omega)
      · exact hc 0 1 (by omega) (by omega)
      · exact hc 2 1 (by omega) (by omega)
    · intro k hk
      have := parent_mkE (fun _ _ => 0) v (Mat.div_lt' hk) (Mat.mod_lt' hk)
      rwa [Nat.div_add_mod'] at this
  · intro h E Q hE hQ
    have hcd : ∀ c q i, c < 4 → q < 4 → i < n → E.child n c (q * n + i) = cd c (fun _ _ => 0)
      (fun r j => if r < 2 then E.H r 1 j else E.V 1 (r - 2) j) q i := by
      intro c q i hc hq hi
      rw [edges_eq E hc hq hi]
      have hz : ∀ p, p < 8 → E.parent n (p * n + i) = 0 := fun p hp => hE _ (Mat.idx_lt hp hi)
      have h0 := hz 0 (by omega)
      have h1 := hz 1 (by omega)
      simp at h0 h1
      interval_cases c <;> interval_cases q <;> simp [cd, hz, h0, h1]
    have hfl : ∀ c q i, c < 4 → q < 4 → i < n → Q.child n c (q * n + i) = cfl n (fun c => toBlk n (T c)) (fun _ _ => 0)
        (fun r j => if r < 2 then E.H r 1 j else E.V 1 (r - 2) j) (c, q) i := by
      intro c q i hc hq hi
      rw [hQ c hc _ (Mat.idx_lt hq hi), add_zero, sum_range_mul]
      unfold cfl fl
      apply sum_congr rfl; intro p hp
      apply sum_congr rfl; intro j hj
      rw [hcd c p j hc (mem_range.mp hp) (mem_range.mp hj)]
      rfl
    have hu := h (fun r j => if r < 2 then E.H r 1 j else E.V 1 (r - 2) j) (by
      intro r hr i hi
      have := jump_eq n (fun c => toBlk n (T c)) (fun _ _ => 0)
        (fun r j => if r < 2 then E.H r 1 j else E.V 1 (r - 2) j) r hr i
      simp only [mul_zero, sum_const_zero, sub_zero] at this
      rw [← this]
      unfold jump
      rw [← hfl _ _ _ (by interval_cases r <;> simp [jl]) (by interval_cases r <;> simp [jl]) hi,
        ← hfl _ _ _ (by interval_cases r <;> simp [jr]) (by interval_cases r <;> simp [jr]) hi, sub_eq_zero,
        child_blk _ _ _ _ _ hi, child_blk _ _ _ _ _ hi]
      interval_cases r <;> simp [jl, jr])
    intro c hc
    apply blk4 (P := fun _ x => x = 0)
    intro q hq i hi
    rw [hcd c q i hc hq hi]
    have u0 := hu 0 (by omega) i hi
    have u1 := hu 1 (by omega) i hi
    have u2 := hu 2 (by omega) i hi
    have u3 := hu 3 (by omega) i hi
    simp at u0 u1 u2 u3
    interval_cases c <;> interval_cases q <;> simp [cd, u0, u1, u2, u3]

end HPS

section C16_C17

open HPS Finset

variable {K : Type} [Field K]

/-- Child `c` of a family. -/
def Fam.child {P : Type} (F : Fam P) (c : Nat) : P :=
  match c with
  | 0 => F.a
  | 1 => F.b
  | 2 => F.c
  | _ => F.d

/-- A family of four patches of `n` cells per side, operators `T`. -/
def Siblings (n : Nat) (T : Nat → Nat → Nat → K) (F : Fam (Patch K)) : Prop :=
  ∀ c, c < 4 → (F.child c).nCoarsens = 0 ∧ (F.child c).grid.nx = n ∧ (F.child c).T.Has (4 * n) (4 * n) (T c)

theorem merge_siblings (lap : Lapack K) {n : Nat} (hn : 0 < n) {T : Nat → Nat → Nat → K} {F : Fam (Patch K)}
    (hF : Siblings n T F) :
    ∃ S : Blk K, merge4to1 lap F = .ok { F with tau := { F.tau with
        X := bm n 4 4 (Xf (fun c => toBlk n (T c))), H := bm n 8 4 (Hf (fun c => toBlk n (T c))), S := bm n 4 8 S,
        T := bm n 8 8 (Tp n (fun c => toBlk n (T c)) S), grid := mergeGrid F } } ∧
      SolCond n (fun c => toBlk n (T c)) S := by
  obtain ⟨a1, a2, a3⟩ := hF 0 (by omega)
  obtain ⟨b1, b2, b3⟩ := hF 1 (by omega)
  obtain ⟨c1, c2, c3⟩ := hF 2 (by omega)
  obtain ⟨d1, d2, d3⟩ := hF 3 (by omega)
  simp only [Fam.child] at a1 a2 a3 b1 b2 b3 c1 c2 c3 d1 d2 d3
  have sa : F.a.size = n := size_eq a1 (by simpa using a2)
  have sb : F.b.size = n := size_eq b1 (by simpa using b2)
  have sc : F.c.size = n := size_eq c1 (by simpa using c2)
  have sd : F.d.size = n := size_eq d1 (by simpa using d2)
  have hc : coarsen F = .ok F := by
    unfold coarsen tags
    simp only []
    rw [sa, sb, sc, sd]
    simp only [min_self]
    rw [if_neg (by omega), Res.ok_bind]
    simp only [Nat.sub_self]
    rw [coarsenPatch_zero, Res.ok_bind, coarsenPatch_zero, Res.ok_bind, coarsenPatch_zero, Res.ok_bind,
      coarsenPatch_zero, Res.ok_bind]
    rfl
  obtain ⟨S, h1, h2, h3⟩ := mergeEq_ok lap hn (TT := fun c => toBlk n (T c)) (F := F)
    ⟨has_bm a3, has_bm b3, has_bm c3, has_bm d3⟩ ⟨sa, sb, sc, sd⟩
  exact ⟨S, by rw [merge4to1_eq, hc, Res.ok_bind, h1], h2, h3⟩

/-- `F'` has the parent and the child operators of `F` and the children's inhomogeneous fluxes are `h`. -/
def WithFluxes (n : Nat) (h : Nat → Nat → K) (F F' : Fam (Patch K)) : Prop :=
  F'.tau = F.tau ∧ ∀ c, c < 4 → (F'.child c).nCoarsens = (F.child c).nCoarsens ∧ (F'.child c).grid = (F.child c).grid ∧
    (F'.child c).T = (F.child c).T ∧ (F'.child c).h.Has (4 * n) (h c)

theorem upwards_siblings (lap : Lapack K) (opt : HPSOptions) (ho : opt.homogeneousRhs = false) {n : Nat} (hn : 0 < n)
    {T : Nat → Nat → Nat → K} {F : Fam (Patch K)} (hF : Siblings n T F) {h : Nat → Nat → K}
    (hh : ∀ c, c < 4 → (F.child c).h.Has (4 * n) (h c)) (hH : F.tau.H = bm n 8 4 (Hf (fun c => toBlk n (T c)))) :
    ∃ w, upwards4to1 lap opt F = .ok { F with tau := { F.tau with
        X := bm n 4 4 (Xf (fun c => toBlk n (T c))), w := bv n 4 w,
        h := bv n 8 (hp n (fun c => toBlk n (T c)) (fun c => toBv n (h c)) w) } } ∧
      WCond n (fun c => toBlk n (T c)) (fun c => toBv n (h c)) w := by
  obtain ⟨a1, a2, a3⟩ := hF 0 (by omega)
  obtain ⟨b1, b2, b3⟩ := hF 1 (by omega)
  obtain ⟨c1, c2, c3⟩ := hF 2 (by omega)
  obtain ⟨d1, d2, d3⟩ := hF 3 (by omega)
  have ha := hh 0 (by omega)
  have hb := hh 1 (by omega)
  have hc := hh 2 (by omega)
  have hd := hh 3 (by omega)
  simp only [Fam.child] at a1 a2 a3 b1 b2 b3 c1 c2 c3 d1 d2 d3 ha hb hc hd
  have sa : F.a.size = n := size_eq a1 (by simpa using a2)
  have sb : F.b.size = n := size_eq b1 (by simpa using b2)
  have sc : F.c.size = n := size_eq c1 (by simpa using c2)
  have sd : F.d.size = n := size_eq d1 (by simpa using d2)
  obtain ⟨w, h1, h2, h3⟩ := upEq_ok lap hn (TT := fun c => toBlk n (T c)) (hh := fun c => toBv n (h c)) (F := F)
    ⟨has_bm a3, has_bm b3, has_bm c3, has_bm d3⟩ ⟨has_bv ha, has_bv hb, has_bv hc, has_bv hd⟩ ⟨sa, sb, sc, sd⟩ hH
  refine ⟨w, ?_, h2, h3⟩
  have hcu : ∀ p : Patch K, p.nCoarsens = 0 → coarsenUpPatch p = .ok p := by
    intro p hp
    unfold coarsenUpPatch
    rw [hp]; rfl
  rw [upwards4to1_eq lap opt _ ho]
  unfold coarsenUp
  rw [hcu _ a1, Res.ok_bind, hcu _ b1, Res.ok_bind, hcu _ c1, Res.ok_bind, hcu _ d1, Res.ok_bind, Res.pure_def,
    Res.ok_bind]
  exact h1

theorem split1to4_zero (opt : HPSOptions) {F : Fam (Patch K)} (h : F.tau.nCoarsens = 0) :
    split1to4 opt F = applyS opt F := by
  unfold split1to4 uncoarsen
  rw [h]
  rfl

/-- C16: after merging (build, then upwards) four patches with a nonsingular interface system, for
every parent Dirichlet vector `g` there are edge values extending `g` under which the two children at
every interface have the same flux `T g + h`, and the fluxes on the parent boundary are the parent's
`T g + h`. -/
theorem C16_merge_glues (lap : Lapack K) {n : Nat} (hn : 0 < n) {T : Nat → Nat → Nat → K} {F : Fam (Patch K)}
    (hF : Siblings n T F) (hU : Unisolvent n T) :
    ∃ F1 T', merge4to1 lap F = .ok F1 ∧ F1.tau.T.Has (8 * n) (8 * n) T' ∧
      ∀ opt : HPSOptions, opt.homogeneousRhs = false → ∀ h F1', WithFluxes n h F1 F1' →
        ∃ F2 h', upwards4to1 lap opt F1' = .ok F2 ∧ F2.tau.T = F1.tau.T ∧ F2.tau.h.Has (8 * n) h' ∧
          ∀ g : Nat → K, ∃ E Q : Edges K, (∀ k, k < 8 * n → E.parent n k = g k) ∧ FluxOf n T h E Q ∧
            ∀ k, k < 8 * n → Q.parent n k = ∑ j ∈ range (8 * n), T' k j * g j + h' k := by
  obtain ⟨S, hm, hS⟩ := merge_siblings lap hn hF
  refine ⟨_, _, hm, bm_has n 8 8 _, ?_⟩
  intro opt ho h F1' ⟨ht, hc⟩
  have hX := unisolvent_iff.mp hU
  have hF1 : Siblings n T F1' := by
    intro c hc'
    obtain ⟨e1, e2, e3, _⟩ := hc c hc'
    obtain ⟨k1, k2, k3⟩ := hF c hc'
    have : ∀ P : Patch K, Fam.child { F with tau := P } c = F.child c := by
      intro P; unfold Fam.child; split <;> rfl
    rw [this] at e1 e2 e3
    exact ⟨e1.trans k1, by rw [e2, k2], by rw [e3]; exact k3⟩
  obtain ⟨w, hu, hW⟩ := upwards_siblings lap opt ho hn hF1 (fun c h' => (hc c h').2.2.2) (by rw [ht])
  refine ⟨_, _, hu, by rw [ht], bv_has n 8 _, ?_⟩
  intro g
  have hj := fun r hr i hi => total_jump (hS.1 hX) (hW.1 hX) (toBv n g) (r := r) hr (i := i) hi
  refine ⟨_, _, ?_, fluxOf_mkE hj, ?_⟩
  · intro k hk
    have := parent_mkE (toBv n g) (fun l s => app n 8 S (toBv n g) l s + w l s) (Mat.div_lt' hk) (Mat.mod_lt' hk)
    rw [Nat.div_add_mod'] at this
    rw [this, toBv, Nat.div_add_mod']
  · intro k hk
    have := parent_mkE (fun p => tfl n (fun c => toBlk n (T c)) (fun c => toBv n (h c)) (toBv n g)
      (fun l s => app n 8 S (toBv n g) l s + w l s) (ex p))
      (fun r => tfl n (fun c => toBlk n (T c)) (fun c => toBv n (h c)) (toBv n g)
        (fun l s => app n 8 S (toBv n g) l s + w l s) (jl r)) (Mat.div_lt' hk) (Mat.mod_lt' hk)
    rw [Nat.div_add_mod'] at this
    rw [this, ← total_ext n _ S _ w (toBv n g) (Mat.div_lt' hk)]
    congr 1
    unfold app
    rw [sum_range_mul 8 n]
    apply sum_congr rfl; intro q _
    apply sum_congr rfl; intro j hj
    rw [Mat.idx_div (mem_range.mp hj), Mat.idx_mod (mem_range.mp hj)]
    rfl

/-- C16: the matrix the merge factors is nonsingular exactly if the interface problem is uniquely
solvable, so the hypothesis of `C16_merge_glues` is what the linear solve needs. -/
theorem C16_interface_matrix (lap : Lapack K) {n : Nat} (hn : 0 < n) {T : Nat → Nat → Nat → K} {F : Fam (Patch K)}
    (hF : Siblings n T F) :
    ∃ F1 x, merge4to1 lap F = .ok F1 ∧ F1.tau.X.Has (4 * n) (4 * n) x ∧ (Nonsing (4 * n) x ↔ Unisolvent n T) := by
  obtain ⟨S, hm, hS⟩ := merge_siblings lap hn hF
  exact ⟨_, _, hm, bm_has n 4 4 _, by rw [unisolvent_iff, ← bnonsing_iff]⟩

/-- C17: the solve step of a merged family.  The children's Dirichlet vectors are the restrictions of
one set of edge values (so siblings agree on their interface and the exterior sides hold the parent's
values), and with a nonsingular interface system these edge values have one flux per edge. -/
theorem C17_split (lap : Lapack K) {n : Nat} (hn : 0 < n) {T : Nat → Nat → Nat → K} {F : Fam (Patch K)}
    (hF : Siblings n T F) (htau : F.tau.nCoarsens = 0) :
    ∃ F1, merge4to1 lap F = .ok F1 ∧
      ∀ opt : HPSOptions, opt.homogeneousRhs = false → ∀ h F1', WithFluxes n h F1 F1' →
        ∃ F2, upwards4to1 lap opt F1' = .ok F2 ∧ ∀ (gv : Vec K) (g : Nat → K), gv.Has (8 * n) g →
          ∃ F3 E, split1to4 opt { F2 with tau := { F2.tau with g := gv } } = .ok F3 ∧
            (∀ k, k < 8 * n → E.parent n k = g k) ∧ (∀ c, c < 4 → (F3.child c).g.Has (4 * n) (E.child n c)) ∧
            F3.tau.g = gv ∧ (Unisolvent n T → ∃ Q, FluxOf n T h E Q) := by
  obtain ⟨S, hm, hS⟩ := merge_siblings lap hn hF
  refine ⟨_, hm, ?_⟩
  intro opt ho h F1' ⟨ht, hc⟩
  have hF1 : Siblings n T F1' := by
    intro c hc'
    obtain ⟨e1, e2, e3, _⟩ := hc c hc'
    obtain ⟨k1, k2, k3⟩ := hF c hc'
    have : ∀ P : Patch K, Fam.child { F with tau := P } c = F.child c := by
      intro P; unfold Fam.child; split <;> rfl
    rw [this] at e1 e2 e3
    exact ⟨e1.trans k1, by rw [e2, k2], by rw [e3]; exact k3⟩
  obtain ⟨w, hu, hW⟩ := upwards_siblings lap opt ho hn hF1 (fun c h' => (hc c h').2.2.2) (by rw [ht])
  refine ⟨_, hu, ?_⟩
  intro gv g hg
  have hsz : F1'.a.size = n := size_eq (hF1 0 (by omega)).1 (by
    have := (hF1 0 (by omega)).2.1
    simp only [Fam.child] at this
    simpa using this)
  have hspl := applyS_ok opt hn (F := { F1' with tau := { F1'.tau with
        X := bm n 4 4 (Xf (fun c => toBlk n (T c))), w := bv n 4 w,
        h := bv n 8 (hp n (fun c => toBlk n (T c)) (fun c => toBv n (h c)) w), g := gv } }) hsz (S := S) (by simp [ht])
    (G := toBv n g) (has_bv hg) (w := w) (fun _ => rfl)
    (u := fun l s => app n 8 S (toBv n g) l s + w l s) (by rw [ho]; rfl)
  refine ⟨_, mkE (toBv n g) (fun l s => app n 8 S (toBv n g) l s + w l s),
    (split1to4_zero opt (by simp [ht, htau])).trans hspl, ?_, ?_, ?_, ?_⟩
  · intro k hk
    have := parent_mkE (toBv n g) (fun l s => app n 8 S (toBv n g) l s + w l s) (Mat.div_lt' hk) (Mat.mod_lt' hk)
    rw [Nat.div_add_mod'] at this
    rw [this, toBv, Nat.div_add_mod']
  · intro c hc'
    have e : ∀ k, k < 4 * n → (mkE (toBv n g) (fun l s => app n 8 S (toBv n g) l s + w l s)).child n c k
        = cd c (toBv n g) (fun l s => app n 8 S (toBv n g) l s + w l s) (k / n) (k % n) := by
      intro k hk
      have := child_mkE (toBv n g) (fun l s => app n 8 S (toBv n g) l s + w l s) hc' (Mat.div_lt' hk) (Mat.mod_lt' hk)
      rwa [Nat.div_add_mod'] at this
    rw [Vec.has_iff, Vec.ofFn_congr e]
    unfold Fam.child
    interval_cases c <;> rfl
  · rfl
  · intro hx
    have hX := unisolvent_iff.mp hx
    exact ⟨_, fluxOf_mkE fun r hr i hi => total_jump (hS.1 hX) (hW.1 hX) (toBv n g) (r := r) hr (i := i) hi⟩

/-! The hypotheses are met by four one-cell patches of side 1 with the five-point operator. -/

/-- Operator of a one-cell patch: the cell value is the mean of the four boundary values. -/
def exT (_c k j : Nat) : ℚ :=
  if k % 2 = 0 then 2 * (1 / 4 - if k = j then 1 else 0) else 2 * ((if k = j then 1 else 0) - 1 / 4)

def exPatch : Patch ℚ :=
  { Patch.fresh ⟨1, 1, 0, 1, 0, 1⟩ with T := Mat.ofFn 4 4 (exT 0), h := Vec.ofFn 4 (fun k => (k : ℚ)) }

def exFam : Fam (Patch ℚ) := ⟨Patch.fresh ⟨1, 1, 0, 2, 0, 2⟩, exPatch, exPatch, exPatch, exPatch⟩

theorem exFam_siblings : Siblings 1 exT exFam := by
  intro c hc
  have : (exFam.child c) = exPatch := by unfold Fam.child; split <;> rfl
  rw [this]
  exact ⟨rfl, rfl, Mat.has_ofFn _ _ _⟩

theorem exT_unisolvent : Unisolvent 1 exT := by
  intro E Q hE hQ
  have p : ∀ k, k < 8 → E.parent 1 k = 0 := fun k hk => hE k (by omega)
  have p0 := p 0 (by omega); have p1 := p 1 (by omega); have p2 := p 2 (by omega); have p3 := p 3 (by omega)
  have p4 := p 4 (by omega); have p5 := p 5 (by omega); have p6 := p 6 (by omega); have p7 := p 7 (by omega)
  have q : ∀ c, c < 4 → ∀ k, k < 4 → Q.child 1 c k = ∑ j ∈ range 4, exT c k j * E.child 1 c j + 0 := hQ
  have q01 := q 0 (by omega) 1 (by omega)
  have q10 := q 1 (by omega) 0 (by omega)
  have q03 := q 0 (by omega) 3 (by omega)
  have q22 := q 2 (by omega) 2 (by omega)
  have q13 := q 1 (by omega) 3 (by omega)
  have q32 := q 3 (by omega) 2 (by omega)
  have q21 := q 2 (by omega) 1 (by omega)
  have q30 := q 3 (by omega) 0 (by omega)
  simp [Edges.parent] at p0 p1 p2 p3 p4 p5 p6 p7
  simp [Edges.child, exT, sum_range_succ, p0, p1, p2, p3, p4, p5, p6, p7] at q01 q10 q03 q22 q13 q32 q21 q30
  have a0 : E.V 1 0 0 = 0 := by linarith
  have a1 : E.V 1 1 0 = 0 := by linarith
  have a2 : E.H 0 1 0 = 0 := by linarith
  have a3 : E.H 1 1 0 = 0 := by linarith
  intro c hc k hk
  interval_cases c <;> interval_cases k <;> simp [Edges.child, *]

example (lap : Lapack ℚ) := C16_merge_glues lap (by omega) exFam_siblings exT_unisolvent
example (lap : Lapack ℚ) := C17_split lap (by omega) exFam_siblings rfl
example : WithFluxes 1 (fun _ k => (k : ℚ)) exFam exFam :=
  ⟨rfl, fun c _ => ⟨rfl, rfl, rfl, by
    have : (exFam.child c) = exPatch := by unfold Fam.child; split <;> rfl
    rw [this]; exact Vec.has_ofFn _ _⟩⟩

end C16_C17

end EF
