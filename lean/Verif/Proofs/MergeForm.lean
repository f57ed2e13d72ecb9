import Verif.Model.HPS
import Verif.Proofs.BlockForm
import Mathlib.Tactic.IntervalCases
import Mathlib.Tactic.Ring
import Mathlib.Tactic.LinearCombination

/-!
# Block form of the merge, upwards and split steps

A child operator is a `4 × 4` array of `n × n` blocks `T p q` (side `p` of the flux, side `q` of the
data, sides numbered West, East, South, North).
-/

namespace EF
namespace HPS

open Finset

variable {K : Type}

/-- The function with values `a`, `b`. -/
def pr (a b : Nat) : Nat → Nat := fun p => if p = 0 then a else b

/-- The order of the eight half sides: position `p` of the parent holds half side `piF p` of the children. -/
def piF : Nat → Nat := fun p => [0, 4, 2, 6, 1, 3, 5, 7].getD p 0

theorem piWESN_eq : piWESN = Vec.ofFn 8 (fun i => (piF i : Int)) := by decide
theorem piNoChange_eq : piNoChange = Vec.ofFn 4 (fun i => ((id i : Nat) : Int)) := by decide
theorem piF_lt : ∀ i, i < 8 → piF i < 8 := by decide

/-- The index sets of `createIndexSets_` for side length `n`. -/
def I0 (n : Nat) : IndexSets :=
  { ab := seg n 1 (fun _ => 1), ag := seg n 1 (fun _ => 3), at_ := seg n 2 (pr 0 2)
    ba := seg n 1 (fun _ => 0), bo := seg n 1 (fun _ => 3), bt := seg n 2 (pr 1 2)
    ga := seg n 1 (fun _ => 2), go := seg n 1 (fun _ => 1), gt := seg n 2 (pr 0 3)
    ob := seg n 1 (fun _ => 2), og := seg n 1 (fun _ => 0), ot := seg n 2 (pr 1 3) }

variable [Field K]

omit [Field K] in
theorem createIndexSets_eq (n : Nat) (F : Fam (Patch K))
    (hs : F.a.size = F.b.size ∧ F.b.size = F.c.size ∧ F.c.size = F.d.size) (hT : F.a.T.nrows = 4 * n) :
    createIndexSets F = .ok (I0 n) := by
  unfold createIndexSets
  rw [if_neg (not_not.mpr hs), hT]
  have e : 4 * n / 4 = n := by omega
  rw [e]
  simp only []
  rw [range_seg n 0 (by simp) (by simp), Res.ok_bind, range_seg n 1 (by simp) (by simp), Res.ok_bind,
    range_seg n 2 (by simp) (by norm_num), Res.ok_bind, range_seg n 3 (by simp) (by norm_num), Res.ok_bind]
  have c : ∀ a b, Vec.concatenate [seg n 1 (fun _ => a), seg n 1 (fun _ => b)] = .ok (seg n 2 (pr a b)) :=
    fun a b => concatenate2_seg n (pr a b)
  rw [c, Res.ok_bind, c, Res.ok_bind, c, Res.ok_bind, c, Res.ok_bind]
  rfl

/-- Operators of the four children: child, flux side, data side, row, column. -/
abbrev Ops (K : Type) := Nat → Nat → Nat → Nat → Nat → K

/-- The blocks of `createMatrixBlocks_`. -/
def blk (n : Nat) (TT : Ops K) : Blocks K where
  ag_ag := bm n 1 1 (fun _ _ => TT 0 3 3)
  ga_ga := bm n 1 1 (fun _ _ => TT 2 2 2)
  ag_ab := bm n 1 1 (fun _ _ => TT 0 3 1)
  ga_go := bm n 1 1 (fun _ _ i j => - TT 2 2 1 i j)
  bo_bo := bm n 1 1 (fun _ _ => TT 1 3 3)
  ob_ob := bm n 1 1 (fun _ _ => TT 3 2 2)
  bo_ba := bm n 1 1 (fun _ _ => TT 1 3 0)
  ob_og := bm n 1 1 (fun _ _ i j => - TT 3 2 0 i j)
  ab_ag := bm n 1 1 (fun _ _ => TT 0 1 3)
  ba_bo := bm n 1 1 (fun _ _ i j => - TT 1 0 3 i j)
  ab_ab := bm n 1 1 (fun _ _ => TT 0 1 1)
  ba_ba := bm n 1 1 (fun _ _ => TT 1 0 0)
  go_ga := bm n 1 1 (fun _ _ => TT 2 1 2)
  og_ob := bm n 1 1 (fun _ _ i j => - TT 3 0 2 i j)
  go_go := bm n 1 1 (fun _ _ => TT 2 1 1)
  og_og := bm n 1 1 (fun _ _ => TT 3 0 0)
  ag_at := bm n 1 2 (fun _ q i j => - TT 0 3 (pr 0 2 q) i j)
  ga_gt := bm n 1 2 (fun _ q => TT 2 2 (pr 0 3 q))
  bo_bt := bm n 1 2 (fun _ q i j => - TT 1 3 (pr 1 2 q) i j)
  ob_ot := bm n 1 2 (fun _ q => TT 3 2 (pr 1 3 q))
  ab_at := bm n 1 2 (fun _ q i j => - TT 0 1 (pr 0 2 q) i j)
  ba_bt := bm n 1 2 (fun _ q => TT 1 0 (pr 1 2 q))
  go_gt := bm n 1 2 (fun _ q i j => - TT 2 1 (pr 0 3 q) i j)
  og_ot := bm n 1 2 (fun _ q => TT 3 0 (pr 1 3 q))
  at_at := bm n 2 2 (fun p q => TT 0 (pr 0 2 p) (pr 0 2 q))
  bt_bt := bm n 2 2 (fun p q => TT 1 (pr 1 2 p) (pr 1 2 q))
  gt_gt := bm n 2 2 (fun p q => TT 2 (pr 0 3 p) (pr 0 3 q))
  ot_ot := bm n 2 2 (fun p q => TT 3 (pr 1 3 p) (pr 1 3 q))
  at_ag := bm n 2 1 (fun p _ => TT 0 (pr 0 2 p) 3)
  at_ab := bm n 2 1 (fun p _ => TT 0 (pr 0 2 p) 1)
  bt_bo := bm n 2 1 (fun p _ => TT 1 (pr 1 2 p) 3)
  bt_ba := bm n 2 1 (fun p _ => TT 1 (pr 1 2 p) 0)
  gt_ga := bm n 2 1 (fun p _ => TT 2 (pr 0 3 p) 2)
  gt_go := bm n 2 1 (fun p _ => TT 2 (pr 0 3 p) 1)
  ot_ob := bm n 2 1 (fun p _ => TT 3 (pr 1 3 p) 2)
  ot_og := bm n 2 1 (fun p _ => TT 3 (pr 1 3 p) 0)

theorem pr_lt {a b p m : Nat} (ha : a < m) (hb : b < m) : pr a b p < m := by
  unfold pr; split <;> assumption

theorem getFromIndexSet_b11 {n a b : Nat} {B : Nat → Nat → Nat → Nat → K} (ha : a < 4) (hb : b < 4) :
    (bm n 4 4 B).getFromIndexSet (seg n 1 (fun _ => a)) (seg n 1 (fun _ => b))
      = .ok (bm n 1 1 (fun _ _ => B a b)) :=
  getFromIndexSet_bm (by omega) (by omega) (fun _ _ => ha) (fun _ _ => hb)

theorem getFromIndexSet_b12 {n a b c : Nat} {B : Nat → Nat → Nat → Nat → K} (ha : a < 4) (hb : b < 4) (hc : c < 4) :
    (bm n 4 4 B).getFromIndexSet (seg n 1 (fun _ => a)) (seg n 2 (pr b c))
      = .ok (bm n 1 2 (fun _ q => B a (pr b c q))) :=
  getFromIndexSet_bm (by omega) (by omega) (fun _ _ => ha) (fun _ _ => pr_lt hb hc)

theorem getFromIndexSet_b21 {n a b c : Nat} {B : Nat → Nat → Nat → Nat → K} (ha : a < 4) (hb : b < 4) (hc : c < 4) :
    (bm n 4 4 B).getFromIndexSet (seg n 2 (pr b c)) (seg n 1 (fun _ => a))
      = .ok (bm n 2 1 (fun p _ => B (pr b c p) a)) :=
  getFromIndexSet_bm (by omega) (by omega) (fun _ _ => pr_lt hb hc) (fun _ _ => ha)

theorem getFromIndexSet_b22 {n b c : Nat} {B : Nat → Nat → Nat → Nat → K} (hb : b < 4) (hc : c < 4) :
    (bm n 4 4 B).getFromIndexSet (seg n 2 (pr b c)) (seg n 2 (pr b c))
      = .ok (bm n 2 2 (fun p q => B (pr b c p) (pr b c q))) :=
  getFromIndexSet_bm (by omega) (by omega) (fun _ _ => pr_lt hb hc) (fun _ _ => pr_lt hb hc)

theorem createMatrixBlocks_eq (n : Nat) (TT : Ops K) (F : Fam (Patch K))
    (ha : F.a.T = bm n 4 4 (TT 0)) (hb : F.b.T = bm n 4 4 (TT 1)) (hc : F.c.T = bm n 4 4 (TT 2))
    (hd : F.d.T = bm n 4 4 (TT 3)) :
    createMatrixBlocks (I0 n) F = .ok (blk n TT) := by
  unfold createMatrixBlocks
  simp only [ha, hb, hc, hd, I0]
  simp only [getFromIndexSet_b11, getFromIndexSet_b12, getFromIndexSet_b21, getFromIndexSet_b22,
    Res.ok_bind, neg_bm, show (0:Nat) < 4 by decide, show (1:Nat) < 4 by decide, show (2:Nat) < 4 by decide,
    show (3:Nat) < 4 by decide]
  rfl

/-- The interface system. -/
def Xf (TT : Ops K) (p q i j : Nat) : K :=
  match p, q with
  | 0, 0 => TT 0 3 3 i j - TT 2 2 2 i j
  | 0, 2 => TT 0 3 1 i j
  | 0, 3 => - TT 2 2 1 i j
  | 1, 1 => TT 1 3 3 i j - TT 3 2 2 i j
  | 1, 2 => TT 1 3 0 i j
  | 1, 3 => - TT 3 2 0 i j
  | 2, 0 => TT 0 1 3 i j
  | 2, 1 => - TT 1 0 3 i j
  | 2, 2 => TT 0 1 1 i j - TT 1 0 0 i j
  | 3, 0 => TT 2 1 2 i j
  | 3, 1 => - TT 3 0 2 i j
  | 3, 3 => TT 2 1 1 i j - TT 3 0 0 i j
  | _, _ => 0

/-- The right-hand side of the interface system. -/
def Rf (TT : Ops K) (p q i j : Nat) : K :=
  match p, q with
  | 0, 0 => - TT 0 3 0 i j
  | 0, 1 => - TT 0 3 2 i j
  | 0, 4 => TT 2 2 0 i j
  | 0, 5 => TT 2 2 3 i j
  | 1, 2 => - TT 1 3 1 i j
  | 1, 3 => - TT 1 3 2 i j
  | 1, 6 => TT 3 2 1 i j
  | 1, 7 => TT 3 2 3 i j
  | 2, 0 => - TT 0 1 0 i j
  | 2, 1 => - TT 0 1 2 i j
  | 2, 2 => TT 1 0 1 i j
  | 2, 3 => TT 1 0 2 i j
  | 3, 4 => - TT 2 1 0 i j
  | 3, 5 => - TT 2 1 3 i j
  | 3, 6 => TT 3 0 1 i j
  | 3, 7 => TT 3 0 3 i j
  | _, _ => 0

/-- The flux caused by interface data. -/
def Hf (TT : Ops K) (p q i j : Nat) : K :=
  match p, q with
  | 0, 0 => TT 0 0 3 i j
  | 1, 0 => TT 0 2 3 i j
  | 0, 2 => TT 0 0 1 i j
  | 1, 2 => TT 0 2 1 i j
  | 2, 1 => TT 1 1 3 i j
  | 3, 1 => TT 1 2 3 i j
  | 2, 2 => TT 1 1 0 i j
  | 3, 2 => TT 1 2 0 i j
  | 4, 0 => TT 2 0 2 i j
  | 5, 0 => TT 2 3 2 i j
  | 4, 3 => TT 2 0 1 i j
  | 5, 3 => TT 2 3 1 i j
  | 6, 1 => TT 3 1 2 i j
  | 7, 1 => TT 3 3 2 i j
  | 6, 3 => TT 3 1 0 i j
  | 7, 3 => TT 3 3 0 i j
  | _, _ => 0

/-- The flux caused by exterior data alone. -/
def Lf (TT : Ops K) (p q i j : Nat) : K :=
  if p / 2 = q / 2 then
    TT (p / 2) (pr (p / 2 % 2) (2 + p / 2 / 2) (p % 2)) (pr (p / 2 % 2) (2 + p / 2 / 2) (q % 2)) i j
  else 0

/-- The diagonal blocks of the interface system. -/
def Dx (TT : Ops K) (k : Nat) (_ _ i j : Nat) : K :=
  match k with
  | 0 => TT 0 3 3 i j - TT 2 2 2 i j
  | 1 => TT 1 3 3 i j - TT 3 2 2 i j
  | 2 => TT 0 1 1 i j - TT 1 0 0 i j
  | _ => TT 2 1 1 i j - TT 3 0 0 i j

theorem mergeX_eq (n : Nat) (TT : Ops K) : mergeX (blk n TT) = .ok (bm n 4 4 (Xf TT)) := by
  unfold mergeX blk
  simp only [sub_bm, Res.ok_bind, nrows_bm, ncols_bm]
  rw [blockDiagonal4_bm' n 1 1 (Dx TT), Res.ok_bind]
  · rw [setBlock_bm 0 2 (by omega) (by omega) (by omega) (by omega), Res.ok_bind,
      setBlock_bm 0 3 (by omega) (by omega) (by omega) (by omega), Res.ok_bind,
      setBlock_bm 1 2 (by omega) (by omega) (by omega) (by omega), Res.ok_bind,
      setBlock_bm 1 3 (by omega) (by omega) (by omega) (by omega), Res.ok_bind,
      setBlock_bm 2 0 (by omega) (by omega) (by omega) (by omega), Res.ok_bind,
      setBlock_bm 2 1 (by omega) (by omega) (by omega) (by omega), Res.ok_bind,
      setBlock_bm 3 0 (by omega) (by omega) (by omega) (by omega), Res.ok_bind,
      setBlock_bm 3 1 (by omega) (by omega) (by omega) (by omega)]
    congr 1
    apply bm_congr
    intro p hp q hq i _ j _
    interval_cases p <;> interval_cases q <;> rfl
  all_goals rfl

theorem mergeS_eq (lap : Lapack K) (n : Nat) (TT : Ops K) (X : Mat K) :
    mergeS lap (blk n TT) X = X.solveMat lap (bm n 4 8 (Rf TT)) := by
  unfold mergeS blk
  simp only [nrows_bm, ncols_bm]
  rw [fill_bm (n := n) (r := 4) (c := 8) 0 (by omega) (by omega),
    setBlock_bm 0 0 (by omega) (by omega) (by omega) (by omega), Res.ok_bind,
    setBlock_bm 0 4 (by omega) (by omega) (by omega) (by omega), Res.ok_bind,
    setBlock_bm 1 2 (by omega) (by omega) (by omega) (by omega), Res.ok_bind,
    setBlock_bm 1 6 (by omega) (by omega) (by omega) (by omega), Res.ok_bind,
    setBlock_bm 2 0 (by omega) (by omega) (by omega) (by omega), Res.ok_bind,
    setBlock_bm 2 2 (by omega) (by omega) (by omega) (by omega), Res.ok_bind,
    setBlock_bm 3 4 (by omega) (by omega) (by omega) (by omega), Res.ok_bind,
    setBlock_bm 3 6 (by omega) (by omega) (by omega) (by omega), Res.ok_bind]
  congr 1
  apply bm_congr
  intro p hp q hq i _ j _
  interval_cases p <;> interval_cases q <;> rfl

theorem mergeT_eq (n : Nat) (hn : 0 < n) (TT : Ops K) (S : Nat → Nat → Nat → Nat → K) :
    mergeT (blk n TT) (bm n 4 8 S) = .ok (bm n 8 4 (Hf TT), bm n 8 8 (fun p q i j =>
      Lf TT p q i j + ∑ l ∈ range 4, ∑ s ∈ range n, Hf TT p l i s * S l q s j)) := by
  unfold mergeT blk
  simp only [nrows_bm, ncols_bm]
  rw [blockDiagonal4_bm' n 2 2 (fun k p q => TT k (pr (k % 2) (2 + k / 2) p) (pr (k % 2) (2 + k / 2) q))
    rfl rfl rfl rfl]
  rw [Res.ok_bind, fill_bm (n := n) (r := 8) (c := 4) 0 (by omega) (by omega),
    setBlock_bm 0 0 (by omega) (by omega) (by omega) (by omega), Res.ok_bind,
    setBlock_bm 0 2 (by omega) (by omega) (by omega) (by omega), Res.ok_bind,
    setBlock_bm 2 1 (by omega) (by omega) (by omega) (by omega), Res.ok_bind,
    setBlock_bm 2 2 (by omega) (by omega) (by omega) (by omega), Res.ok_bind,
    setBlock_bm 4 0 (by omega) (by omega) (by omega) (by omega), Res.ok_bind,
    setBlock_bm 4 3 (by omega) (by omega) (by omega) (by omega), Res.ok_bind,
    setBlock_bm 6 1 (by omega) (by omega) (by omega) (by omega), Res.ok_bind,
    setBlock_bm 6 3 (by omega) (by omega) (by omega) (by omega), Res.ok_bind]
  have hH : ∀ B : Nat → Nat → Nat → Nat → K, (∀ p, p < 8 → ∀ q, q < 4 → ∀ i j, B p q i j = Hf TT p q i j) →
      bm n 8 4 B = bm n 8 4 (Hf TT) := fun B hB => bm_congr fun p hp q hq i _ j _ => hB p hp q hq i j
  rw [hH]
  · rw [mul_bm hn (by omega) (by omega) (by omega), Res.ok_bind, add_bm, Res.ok_bind]
    rfl
  · intro p hp q hq i j
    interval_cases p <;> interval_cases q <;> rfl

theorem reorderOperators_eq (n : Nat) (S T : Nat → Nat → Nat → Nat → K) :
    reorderOperators n (bm n 4 8 S) (bm n 8 8 T)
      = .ok (bm n 4 8 (fun p q => S p (piF q)), bm n 8 8 (fun p q => T (piF p) (piF q))) := by
  unfold reorderOperators
  rw [piWESN_eq, piNoChange_eq]
  simp only []
  rw [blockPermute_bm (π := id) (fun _ h => h) piF_lt, Res.ok_bind,
    blockPermute_bm piF_lt piF_lt, Res.ok_bind]
  rfl

/-! ### Meaning of the blocks -/

/-- Flux on side `p` of an operator given data on the four sides. -/
def fl (n : Nat) (T : Nat → Nat → Nat → Nat → K) (g : Nat → Nat → K) (p i : Nat) : K :=
  ∑ q ∈ range 4, ∑ j ∈ range n, T p q i j * g q j

/-- The data on the four sides of child `k`, given the eight half sides `G` of the parent boundary
(WESN order) and the four interfaces `u`. -/
def cd (k : Nat) (G u : Nat → Nat → K) (q : Nat) : Nat → K :=
  match k, q with
  | 0, 0 => G 0
  | 0, 1 => u 2
  | 0, 2 => G 4
  | 0, 3 => u 0
  | 1, 0 => u 2
  | 1, 1 => G 2
  | 1, 2 => G 5
  | 1, 3 => u 1
  | 2, 0 => G 1
  | 2, 1 => u 3
  | 2, 2 => u 0
  | 2, 3 => G 6
  | 3, 0 => u 3
  | 3, 1 => G 3
  | 3, 2 => u 1
  | 3, 3 => G 7
  | _, _ => 0

/-- The two children at interface `r` and the sides on which they meet: first child. -/
def jl (r : Nat) : Nat × Nat := [(0, 3), (1, 3), (0, 1), (2, 1)].getD r (0, 0)
/-- Second child at interface `r`. -/
def jr (r : Nat) : Nat × Nat := [(2, 2), (3, 2), (1, 0), (3, 0)].getD r (0, 0)
/-- The child and side which make up half side `p` of the parent. -/
def ex (p : Nat) : Nat × Nat := [(0, 0), (2, 0), (1, 1), (3, 1), (0, 2), (1, 2), (2, 3), (3, 3)].getD p (0, 0)

/-- Flux of child `k` on its side `p`. -/
def cfl (n : Nat) (TT : Ops K) (G u : Nat → Nat → K) (kp : Nat × Nat) (i : Nat) : K :=
  fl n (TT kp.1) (cd kp.1 G u) kp.2 i

/-- The jump of the flux at interface `r`. -/
def jump (n : Nat) (TT : Ops K) (G u : Nat → Nat → K) (r i : Nat) : K :=
  cfl n TT G u (jl r) i - cfl n TT G u (jr r) i

theorem jump_eq (n : Nat) (TT : Ops K) (G u : Nat → Nat → K) (r : Nat) (hr : r < 4) (i : Nat) :
    jump n TT G u r i = ∑ l ∈ range 4, ∑ s ∈ range n, Xf TT r l i s * u l s
      - ∑ q ∈ range 8, ∑ j ∈ range n, Rf TT r (piF q) i j * G q j := by
  interval_cases r <;>
  simp [jump, cfl, fl, jl, jr, cd, Xf, Rf, piF, sum_range_succ, sub_mul, sum_sub_distrib] <;> ring

theorem ext_eq (n : Nat) (TT : Ops K) (G u : Nat → Nat → K) (p : Nat) (hp : p < 8) (i : Nat) :
    cfl n TT G u (ex p) i = ∑ q ∈ range 8, ∑ j ∈ range n, Lf TT (piF p) (piF q) i j * G q j
      + ∑ l ∈ range 4, ∑ s ∈ range n, Hf TT (piF p) l i s * u l s := by
  interval_cases p <;>
  simp [cfl, fl, ex, cd, Hf, Lf, piF, pr, sum_range_succ] <;> ring

/-- Matrix-vector product of blocks, `c` block columns. -/
def app (n c : Nat) (B : Nat → Nat → Nat → Nat → K) (x : Nat → Nat → K) (p i : Nat) : K :=
  ∑ q ∈ range c, ∑ j ∈ range n, B p q i j * x q j

theorem app_mul (n k c : Nat) (A B : Nat → Nat → Nat → Nat → K) (x : Nat → Nat → K) (p i : Nat) :
    app n c (fun p q i j => ∑ l ∈ range k, ∑ s ∈ range n, A p l i s * B l q s j) x p i
      = app n k A (app n c B x) p i := by
  simp only [app, sum_mul, mul_sum]
  rw [sum_congr rfl fun q _ => sum_comm, sum_comm]
  apply sum_congr rfl
  intro l _
  rw [sum_congr rfl fun q _ => sum_congr rfl fun j _ => rfl]
  have : ∀ q ∈ range c, ∑ j ∈ range n, ∑ s ∈ range n, A p l i s * B l q s j * x q j
      = ∑ s ∈ range n, ∑ j ∈ range n, A p l i s * B l q s j * x q j := fun q _ => sum_comm
  rw [sum_congr rfl this, sum_comm]
  apply sum_congr rfl; intro s _
  apply sum_congr rfl; intro q _
  apply sum_congr rfl; intro j _
  ring

end HPS
end EF
