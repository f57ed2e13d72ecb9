import Verif.Spec.Turn
import Verif.Proofs.Composite

/-!
# Turned meshes
-/

namespace EF

open Finset FV HPS

variable {K : Type} [Field K] {N : Nat}

theorem Pieces.turn_four (τ : Turn) (N : Nat) (c0 c1 c2 c3 : Pieces (Nat → Nat → K)) :
    (Pieces.four c0 c1 c2 c3).turn τ N = .four ((pick c0 c1 c2 c3 (τ.quarter 0)).turn τ N) ((pick c0 c1 c2 c3 (τ.quarter 1)).turn τ N)
      ((pick c0 c1 c2 c3 (τ.quarter 2)).turn τ N) ((pick c0 c1 c2 c3 (τ.quarter 3)).turn τ N) := by
  cases τ <;> rfl

theorem Tree.turn_node {P : Type} (τ : Turn) (p : P) (c0 c1 c2 c3 : Tree P) :
    (Tree.node p c0 c1 c2 c3).turn τ = .node p ((pick c0 c1 c2 c3 (τ.quarter 0)).turn τ) ((pick c0 c1 c2 c3 (τ.quarter 1)).turn τ)
      ((pick c0 c1 c2 c3 (τ.quarter 2)).turn τ) ((pick c0 c1 c2 c3 (τ.quarter 3)).turn τ) := by
  cases τ <;> rfl

namespace Turn

theorem side_lt (τ : Turn) {a : Nat} (ha : a < 4) : τ.side a < 4 := by
  cases τ <;> interval_cases a <;> decide

theorem quarter_lt (τ : Turn) {d : Nat} (hd : d < 4) : τ.quarter d < 4 := by
  cases τ <;> interval_cases d <;> decide

theorem quarter_quarter (τ : Turn) {d : Nat} (hd : d < 4) : τ.quarter (τ.quarter d) = d := by
  cases τ <;> interval_cases d <;> rfl

theorem side_side (τ : Turn) {a : Nat} (ha : a < 4) : τ.side (τ.side a) = a := by
  cases τ <;> interval_cases a <;> rfl

theorem idx_lt (τ : Turn) {m a i : Nat} (hi : i < m) : τ.idx m a i < m := by
  cases τ <;> simp only [idx] <;> try exact hi
  split_ifs <;> omega

theorem idx_idx (τ : Turn) {m a i : Nat} (ha : a < 4) (hi : i < m) : τ.idx m (τ.side a) (τ.idx m a i) = i := by
  cases τ
  · rfl
  · interval_cases a <;> simp [idx, side]
    all_goals omega
  · rfl

theorem act_act (τ : Turn) {m a i : Nat} (g : Nat → Nat → K) (ha : a < 4) (hi : i < m) : τ.act m (τ.act m g) a i = g a i := by
  unfold act
  rw [side_side τ ha, idx_idx τ ha hi]

end Turn

/-! ## Reversed lines -/

theorem finer_rev {m : Nat} (hm : 3 ≤ m) (x : Nat → K) {i : Nat} (hi : i < 2 * m) :
    finer m (fun j => x (m - 1 - j)) i = finer m x (2 * m - 1 - i) := by
  unfold finer
  by_cases h0 : i = 0
  · subst h0
    rw [if_pos rfl, if_neg (by omega), if_pos (by omega)]
    rfl
  by_cases h1 : i = 2 * m - 1
  · subst h1
    rw [if_neg h0, if_pos rfl, if_pos (by omega)]
    simp only [show m - 1 - (m - 1) = 0 by omega, show m - 1 - (m - 2) = 1 by omega, show m - 1 - (m - 3) = 2 by omega]
  rw [if_neg h0, if_neg h1, if_neg (show ¬ 2 * m - 1 - i = 0 by omega), if_neg (show ¬ 2 * m - 1 - i = 2 * m - 1 by omega)]
  by_cases h2 : i % 2 = 1
  · rw [if_pos h2, if_neg (by omega)]
    simp only [show m - 1 - i / 2 = (2 * m - 1 - i) / 2 by omega, show m - 1 - (i / 2 + 1) = (2 * m - 1 - i) / 2 - 1 by omega]
  · rw [if_neg h2, if_pos (by omega)]
    simp only [show m - 1 - i / 2 = (2 * m - 1 - i) / 2 by omega, show m - 1 - (i / 2 - 1) = (2 * m - 1 - i) / 2 + 1 by omega]

theorem finest_rev {k m : Nat} (hm : k = 0 ∨ 3 ≤ m) (x : Nat → K) :
    ∀ i, i < m * 2 ^ k → finest k m (fun j => x (m - 1 - j)) i = finest k m x (m * 2 ^ k - 1 - i) := by
  induction k with
  | zero => simp [finest]
  | succ k ih =>
    have h3 : 3 ≤ m := by omega
    have h3' : 3 ≤ m * 2 ^ k := le_trans h3 (Nat.le_mul_of_pos_right m (by positivity))
    intro i hi
    have e : m * 2 ^ (k + 1) = 2 * (m * 2 ^ k) := by ring
    rw [e] at hi ⊢
    rw [finest, finest, ← finer_rev h3' _ hi]
    exact finer_congr h3' (ih (Or.inr h3)) hi

theorem meanOver_rev {n r : Nat} (y : Nat → K) {i : Nat} (hi : i < n) :
    meanOver r (fun j => y (n * r - 1 - j)) i = meanOver r y (n - 1 - i) := by
  unfold meanOver
  congr 1
  rw [← sum_range_reflect]
  refine sum_congr rfl fun j hj => ?_
  have hj := mem_range.mp hj
  obtain ⟨e, rfl⟩ : ∃ e, n = i + 1 + e := ⟨n - (i + 1), by omega⟩
  have h1 : (i + 1 + e) * r = i * r + r + e * r := by ring
  rw [show i + 1 + e - 1 - i = e by omega, h1]
  exact congrArg y (by omega)

namespace Turn

theorem finest_idx (τ : Turn) {k m : Nat} (hm : k = 0 ∨ 3 ≤ m) (x : Nat → K) (a : Nat) {i : Nat} (hi : i < m * 2 ^ k) :
    finest k m (fun j => x (τ.idx m a j)) i = finest k m x (τ.idx (m * 2 ^ k) a i) := by
  cases τ
  · rfl
  · simp only [idx]
    split_ifs
    · exact finest_rev hm x i hi
    · rfl
  · rfl

theorem meanOver_idx (τ : Turn) {n r : Nat} (y : Nat → K) (a : Nat) {i : Nat} (hi : i < n) :
    meanOver r (fun j => y (τ.idx (n * r) a j)) i = meanOver r y (τ.idx n a i) := by
  cases τ
  · rfl
  · simp only [idx]
    split_ifs
    · exact meanOver_rev y hi
    · rfl
  · rfl

end Turn

theorem meanOver_mul (r : Nat) (c : K) (y : Nat → K) (i : Nat) : meanOver r (fun j => c * y j) i = c * meanOver r y i := by
  unfold meanOver
  rw [← mul_sum, mul_div_assoc]

omit [Field K] in
theorem meanOver_congr [Field K] {n r : Nat} {x y : Nat → K} (h : ∀ j, j < n * r → x j = y j) {i : Nat} (hi : i < n) :
    meanOver r x i = meanOver r y i := by
  unfold meanOver
  congr 1
  refine sum_congr rfl fun j hj => h _ ?_
  have hj := mem_range.mp hj
  have : (i + 1) * r ≤ n * r := Nat.mul_le_mul_right r hi
  rw [add_mul, one_mul] at this
  omega

/-! ## Turned edges -/

/-- Turned edges of `n` cells. -/
def Edges.turn (τ : Turn) (n : Nat) (E : Edges K) : Edges K :=
  match τ with
  | .keep => E
  | .flip => ⟨fun x y i => E.V (2 - x) y i, fun x y i => E.H (1 - x) y (n - 1 - i)⟩
  | .swap => ⟨fun x y i => E.H y x i, fun x y i => E.V y x i⟩

/-- One factor for vertical, one for horizontal edges. -/
def Edges.scale (v h : K) (E : Edges K) : Edges K := ⟨fun x y i => v * E.V x y i, fun x y i => h * E.H x y i⟩

/-- The factor of a side. -/
def sideFactor (v h : K) (a : Nat) : K := if a < 2 then v else h

omit [Field K] in
theorem Edges.turn_side (τ : Turn) (n : Nat) (E : Edges K) {d a : Nat} (hd : d < 4) (ha : a < 4) (i : Nat) :
    (E.turn τ n).side d a i = E.side (τ.quarter d) (τ.side a) (τ.idx n a i) := by
  cases τ <;> interval_cases d <;> interval_cases a <;> rfl

omit [Field K] in
theorem Edges.turn_outer (τ : Turn) {n : Nat} (E : Edges K) {a i : Nat} (ha : a < 4) (hi : i < 2 * n) :
    (E.turn τ n).outer n a i = E.outer n (τ.side a) (τ.idx (2 * n) a i) := by
  cases τ
  · rfl
  · have hn : 0 < n := by omega
    have hz : i / n < 2 := Nat.div_lt_of_lt_mul (by rw [mul_comm]; exact hi)
    have hm := Nat.mod_lt i hn
    have key : 2 * n - 1 - i = (1 - i / n) * n + (n - 1 - i % n) := by
      have := Nat.div_add_mod' i n
      generalize i % n = j at *
      generalize i / n = z at *
      interval_cases z <;> simp at * <;> omega
    have hm' : n - 1 - i % n < n := by omega
    have k1 : (2 * n - 1 - i) / n = 1 - i / n := by rw [key, Mat.idx_div hm']
    have k2 : (2 * n - 1 - i) % n = n - 1 - i % n := by rw [key, Mat.idx_mod hm']
    interval_cases a <;> simp [Turn.idx, Turn.side, Edges.outer, Edges.turn, k1, k2]
  · interval_cases a <;> rfl

theorem Edges.scale_side (v h : K) (E : Edges K) {d a : Nat} (ha : a < 4) (i : Nat) :
    (E.scale v h).side d a i = sideFactor v h a * E.side d a i := by
  interval_cases a <;> simp [Edges.scale, Edges.side, sideFactor]

theorem Edges.scale_outer (v h : K) (E : Edges K) {n a : Nat} (ha : a < 4) (i : Nat) :
    (E.scale v h).outer n a i = sideFactor v h a * E.outer n a i := by
  interval_cases a <;> simp [Edges.scale, Edges.outer, sideFactor]

/-! ## Solutions -/

/-- What joins four parts, turned. -/
theorem turn_edges (τ : Turn) (v h : K) {n : Nat} (hn3 : 3 ≤ n) {m : Nat → Nat} {gs qs : Nat → Nat → Nat → K} {E Q : Edges K}
    (hn : n = min (min (m 0) (m 1)) (min (m 2) (m 3)))
    (hE : ∀ d, d < 4 → ∃ k, m d = n * 2 ^ k ∧ ∀ a, a < 4 → ∀ i, i < m d → gs d a i = finest k n (E.side d a) i)
    (hQ : ∀ d, d < 4 → ∀ a, a < 4 → ∀ i, i < n → Q.side d a i = meanOver (m d / n) (qs d a) i) :
    n = min (min (m (τ.quarter 0)) (m (τ.quarter 1))) (min (m (τ.quarter 2)) (m (τ.quarter 3))) ∧
    (∀ d, d < 4 → ∃ k, m (τ.quarter d) = n * 2 ^ k ∧ ∀ a, a < 4 → ∀ i, i < m (τ.quarter d) →
      τ.act (m (τ.quarter d)) (gs (τ.quarter d)) a i = finest k n ((E.turn τ n).side d a) i) ∧
    ∀ d, d < 4 → ∀ a, a < 4 → ∀ i, i < n → ((Q.turn τ n).scale v h).side d a i =
      meanOver (m (τ.quarter d) / n) (fun i => sideFactor v h a * τ.act (m (τ.quarter d)) (qs (τ.quarter d)) a i) i := by
  refine ⟨?_, ?_, ?_⟩
  · rw [hn]
    cases τ <;> simp only [Turn.quarter] <;> omega
  · intro d hd
    obtain ⟨k, hk, hE'⟩ := hE _ (τ.quarter_lt hd)
    refine ⟨k, hk, fun a ha i hi => ?_⟩
    unfold Turn.act
    rw [hE' _ (τ.side_lt ha) _ (τ.idx_lt hi)]
    rw [hk] at hi ⊢
    rw [← τ.finest_idx (Or.inr hn3) _ a hi]
    exact finest_congr (Or.inr hn3) (fun j hj => (Edges.turn_side τ n E hd ha j).symm) i hi
  · intro d hd a ha i hi
    obtain ⟨k, hk, _⟩ := hE _ (τ.quarter_lt hd)
    have hr : m (τ.quarter d) / n = 2 ^ k := by rw [hk, Nat.mul_div_cancel_left _ (by omega)]
    have hQ' := hQ _ (τ.quarter_lt hd) _ (τ.side_lt ha) _ (τ.idx_lt (a := a) hi)
    rw [Edges.scale_side v h _ ha, Edges.turn_side τ n Q hd ha, hQ']
    rw [meanOver_mul, hr, hk]
    congr 1
    exact (τ.meanOver_idx (r := 2 ^ k) _ a hi).symm

/-- Turned solutions of single patches are solutions of the turned problem. -/
def LeafTurn (s s' : FVSolver K) (f f' : K → K → K) (N : Nat) (τ : Turn) (v h : K) (ρ : Rect K → Rect K) : Prop :=
  ∀ (R : Rect K) (g u : Nat → Nat → K), Solves s R N N (ofB g) (fun i j => f (cx R N i) (cy R N j)) u →
    Solves s' (ρ R) N N (ofB (τ.act N g)) (fun i j => f' (cx (ρ R) N i) (cy (ρ R) N j)) (τ.cells N u) ∧
      ∀ a, a < 4 → ∀ i, i < N → deriv (ρ R) N N (ofB (τ.act N g)) (τ.cells N u) a i =
        sideFactor v h a * deriv R N N (ofB g) u (τ.side a) (τ.idx N a i)

/-- Turned solutions are solutions of the turned problem, if that is so on single patches. -/
theorem Composite.turn {s s' : FVSolver K} {f f' : K → K → K} (τ : Turn) {v h : K} (ρ : Rect K → Rect K)
    (hρ : ∀ R d, d < 4 → (ρ R).quarter d = ρ (R.quarter (τ.quarter d))) (hleaf : LeafTurn s s' f f' N τ v h ρ)
    (hN : 3 ≤ N) {M : Pieces (Nat → Nat → K)} {R : Rect K} {m : Nat} {g q : Nat → Nat → K} (hC : Composite s f N M R m g q) :
    Composite s' f' N (M.turn τ N) (ρ R) m (τ.act m g) (fun a i => sideFactor v h a * τ.act m q a i) ∧ N ≤ m := by
  induction hC with
  | @one u R g q hu hq =>
    obtain ⟨h1, h2⟩ := hleaf R g u hu
    refine ⟨.one h1 fun a ha i hi => ?_, le_rfl⟩
    refine Eq.trans ?_ (h2 a ha i hi).symm
    exact congrArg _ (hq _ (τ.side_lt ha) _ (τ.idx_lt hi))
  | @four c0 c1 c2 c3 R n m gs qs E Q g q h0 h1 h2 h3 hn hE hQ hg hq i0 i1 i2 i3 =>
    have hc : ∀ d, d < 4 → Composite s' f' N ((pick c0 c1 c2 c3 d).turn τ N) (ρ (R.quarter d)) (m d) (τ.act (m d) (gs d))
        (fun a i => sideFactor v h a * τ.act (m d) (qs d) a i) ∧ N ≤ m d := by
      intro d hd
      interval_cases d
      exacts [i0, i1, i2, i3]
    have hc' : ∀ d, d < 4 → Composite s' f' N ((pick c0 c1 c2 c3 (τ.quarter d)).turn τ N) ((ρ R).quarter d) (m (τ.quarter d))
        (τ.act (m (τ.quarter d)) (gs (τ.quarter d))) (fun a i => sideFactor v h a * τ.act (m (τ.quarter d)) (qs (τ.quarter d)) a i) := by
      intro d hd
      rw [hρ R d hd]
      exact (hc _ (τ.quarter_lt hd)).1
    have hn3 : N ≤ n := by
      rw [hn]
      exact le_min (le_min i0.2 i1.2) (le_min i2.2 i3.2)
    obtain ⟨e1, e2, e3⟩ := turn_edges τ v h (by omega) hn hE hQ
    rw [Pieces.turn_four]
    refine ⟨.four (m := fun d => m (τ.quarter d)) (gs := fun d => τ.act (m (τ.quarter d)) (gs (τ.quarter d)))
      (qs := fun d a i => sideFactor v h a * τ.act (m (τ.quarter d)) (qs (τ.quarter d)) a i)
      (hc' 0 (by omega)) (hc' 1 (by omega)) (hc' 2 (by omega)) (hc' 3 (by omega)) e1 e2 e3 ?_ ?_, by omega⟩
    · intro a ha i hi
      rw [Edges.turn_outer τ E ha hi]
      exact hg _ (τ.side_lt ha) _ (τ.idx_lt hi)
    · intro a ha i hi
      rw [Edges.scale_outer v h _ ha, Edges.turn_outer τ Q ha hi]
      congr 1
      exact hq _ (τ.side_lt ha) _ (τ.idx_lt hi)

theorem Joined.turn {s s' : FVSolver K} {f f' : K → K → K} (τ : Turn) {v h : K} (ρ : Rect K → Rect K)
    (hρ : ∀ R d, d < 4 → (ρ R).quarter d = ρ (R.quarter (τ.quarter d))) (hleaf : LeafTurn s s' f f' N τ v h ρ)
    (hN : 3 ≤ N) {M : Nat → Pieces (Nat → Nat → K)} {R : Rect K} {n : Nat} {E Q : Edges K} (hJ : Joined s f N M R n E Q) :
    Joined s' f' N (fun d => (M (τ.quarter d)).turn τ N) (ρ R) n (E.turn τ n) ((Q.turn τ n).scale v h) := by
  obtain ⟨m, gs, qs, hC, hn, hE, hQ⟩ := hJ
  have hc := fun d hd => (hC d hd).turn τ ρ hρ hleaf hN
  obtain ⟨e1, e2, e3⟩ := turn_edges τ v h (le_trans hN (by
    rw [hn]
    exact le_min (le_min (hc 0 (by omega)).2 (hc 1 (by omega)).2) (le_min (hc 2 (by omega)).2 (hc 3 (by omega)).2))) hn hE hQ
  refine ⟨_, _, _, fun d hd => ?_, e1, e2, e3⟩
  rw [hρ R d hd]
  exact (hc _ (τ.quarter_lt hd)).1

omit [Field K] in
theorem Pieces.turn_alike {P : Type} (τ : Turn) (N : Nat) (t : Tree P) (M : Pieces (Nat → Nat → K)) (h : M.Alike (t.turn τ).cuts) :
    (M.turn τ N).Alike t.cuts := by
  induction t generalizing M with
  | leaf p =>
    cases M with
    | one => trivial
    | four => exact h.elim
  | node p c0 c1 c2 c3 i0 i1 i2 i3 =>
    cases M with
    | one => cases τ <;> exact h.elim
    | four M0 M1 M2 M3 =>
      cases τ
      · exact ⟨i0 _ h.1, i1 _ h.2.1, i2 _ h.2.2.1, i3 _ h.2.2.2⟩
      · exact ⟨i0 _ h.2.1, i1 _ h.1, i2 _ h.2.2.2, i3 _ h.2.2.1⟩
      · exact ⟨i0 _ h.1, i1 _ h.2.2.1, i2 _ h.2.1, i3 _ h.2.2.2⟩

/-- Turned meshes are as rigid. -/
theorem Rigid.turn {P : Type} {s s' : FVSolver K} (τ : Turn) {v h : K} (ρ ρ' : Rect K → Rect K)
    (hρ : ∀ R d, d < 4 → (ρ R).quarter d = ρ (R.quarter (τ.quarter d)))
    (hρ' : ∀ R d, d < 4 → (ρ' R).quarter d = ρ' (R.quarter (τ.quarter d))) (hinv : ∀ R, ρ' (ρ R) = R)
    (hleaf : LeafTurn s' s (fun _ _ => 0) (fun _ _ => 0) N τ v h ρ')
    (hN : 3 ≤ N) {t : Tree P} {R : Rect K} (hR : Rigid s N t.cuts R) : Rigid s' N (t.turn τ).cuts (ρ R) := by
  induction t generalizing R with
  | leaf p => trivial
  | node p c0 c1 c2 c3 i0 i1 i2 i3 =>
    obtain ⟨⟨r0, r1, r2, r3⟩, hr⟩ := hR
    have hc : ∀ d, d < 4 → Rigid s' N ((pick c0 c1 c2 c3 (τ.quarter d)).turn τ).cuts ((ρ R).quarter d) := by
      intro d hd
      rw [hρ R d hd]
      have := τ.quarter_lt hd
      generalize τ.quarter d = e at *
      interval_cases e
      exacts [i0 r0, i1 r1, i2 r2, i3 r3]
    rw [Tree.turn_node]
    refine ⟨⟨hc 0 (by omega), hc 1 (by omega), hc 2 (by omega), hc 3 (by omega)⟩, fun M hM n E Q hJ ho d hd a ha i hi => ?_⟩
    have hJ' := hJ.turn τ ρ' hρ' hleaf hN
    rw [hinv] at hJ'
    have hM' : ∀ d, d < 4 → (M d).Alike ((pick c0 c1 c2 c3 (τ.quarter d)).turn τ).cuts := by
      intro d hd
      have := hM d hd
      interval_cases d <;> exact this
    have key := hr _ (fun d hd => by
      have := Pieces.turn_alike τ N _ _ (hM' _ (τ.quarter_lt hd))
      rw [τ.quarter_quarter hd] at this
      interval_cases d <;> exact this) n _ _ hJ' (fun a ha i hi => by
        rw [Edges.turn_outer τ E ha hi]
        exact ho _ (τ.side_lt ha) _ (τ.idx_lt hi)) (τ.quarter d) (τ.quarter_lt hd) (τ.side a) (τ.side_lt ha) (τ.idx n a i) (τ.idx_lt hi)
    rw [Edges.turn_side τ n E (τ.quarter_lt hd) (τ.side_lt ha), τ.quarter_quarter hd, τ.side_side ha, τ.idx_idx ha hi] at key
    exact key

end EF
