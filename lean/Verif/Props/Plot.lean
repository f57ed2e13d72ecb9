import Mathlib.Tactic.Linarith
import Mathlib.Tactic.IntervalCases
import Mathlib.Tactic.NormNum
import Mathlib.Data.Rat.Cast.Order
import Mathlib.Algebra.Order.Ring.Rat
import Verif.Model.Plot
import Verif.Proofs.FVAssemble
import Verif.Proofs.HasLemmas

/-!
# C107: the plot of a matrix shows where its entries are

False of the code: the picture has rows and columns exchanged.
-/

namespace EF

namespace Plot

variable {K : Type} [Field K] [LinearOrder K]

/-! ## Spec -/

/-- Entry `(i, j)` of an `r × c` matrix is there and larger than the tolerance. -/
def Large (r c : Nat) (f : Nat → Nat → K) (tol : K) (i j : Nat) : Prop := i < r ∧ j < c ∧ tol < |f i j|

/-- The marks are a picture of the matrix: columns from left to right, rows from top to bottom, on whatever scale, a mark for each large entry
and no others. -/
def Shows (r c : Nat) (f : Nat → Nat → K) (tol : K) (marks : List (K × K)) : Prop :=
  ∃ x y : Nat → K, StrictMono x ∧ StrictAnti y ∧ ∀ p, p ∈ marks ↔ ∃ i j, Large r c f tol i j ∧ p = (x j, y i)

/-! ## What the code does -/

/-- The large entries, column by column. -/
def cells (r : Nat) (f : Nat → Nat → K) (tol : K) (n : Nat) : List (Nat × Nat) :=
  (List.range n).flatMap fun j => ((List.range r).filter fun i => decide (tol < |f i j|)).map fun i => (i, j)

theorem cells_succ' (r : Nat) (f : Nat → Nat → K) (tol : K) (n : Nat) :
    cells r f tol (n + 1) = cells r f tol n ++ ((List.range r).filter fun i => decide (tol < |f i n|)).map fun i => (i, n) := by
  simp [cells, List.range_succ]

theorem mem_cells {r c : Nat} {f : Nat → Nat → K} {tol : K} {p : Nat × Nat} : p ∈ cells r f tol c ↔ Large r c f tol p.1 p.2 := by
  obtain ⟨i, j⟩ := p
  simp only [cells, List.mem_flatMap, List.mem_map, List.mem_filter, List.mem_range, decide_eq_true_eq, Prod.mk.injEq, Large]
  constructor
  · rintro ⟨j', h1, i', ⟨h2, h3⟩, rfl, rfl⟩
    exact ⟨h2, h1, h3⟩
  · rintro ⟨h1, h2, h3⟩
    exact ⟨j, h2, i, ⟨h1, h3⟩, rfl, rfl⟩

theorem cells_nodup (r c : Nat) (f : Nat → Nat → K) (tol : K) : (cells r f tol c).Nodup := by
  induction c with
  | zero => simp [cells]
  | succ n ih =>
    rw [cells_succ', List.nodup_append]
    refine ⟨ih, (List.nodup_range.filter _).map (fun a b h => (Prod.mk.inj h).1), ?_⟩
    rintro p hp q hq rfl
    obtain ⟨-, h, -⟩ := mem_cells.1 hp
    simp only [List.mem_map] at hq
    obtain ⟨i, -, rfl⟩ := hq
    exact absurd h (lt_irrefl _)

/-- The vectors that hold the marks of the given entries. -/
def Holds (A : Mat K) (L : List (Nat × Nat)) (m : Marks K) : Prop :=
  m.row = L.map (fun p => (p.1 : K)) ∧ m.col = L.map (fun p => (A.nrows : K) - (p.2 : K))

theorem loops_ok {A : Mat K} {r c : Nat} {f : Nat → Nat → K} (hA : A.Has r c f) (tol : K) :
    ∃ m, Mat.loop2 A.ncols A.nrows (visit A tol) ⟨[], [], []⟩ = .ok m ∧ Holds A (cells r f tol c) m := by
  obtain ⟨h1, h2, -, h4⟩ := hA
  rw [h1, h2]
  refine FVSolver.forN_progress (fun n m => Holds A (cells r f tol n) m) ⟨rfl, rfl⟩ ?_
  intro j m hj hm
  have := FVSolver.forN_progress (n := r) (body := fun i s => visit A tol j i s)
    (fun n m => Holds A (cells r f tol j ++ ((List.range n).filter fun i => decide (tol < |f i j|)).map fun i => (i, j)) m) (s := m)
    (by simpa using hm)
    (by
      rintro i m hi ⟨hm1, hm2⟩
      unfold visit
      rw [h4 i hi j hj, Res.ok_bind]
      by_cases ht : tol < |f i j|
      · rw [if_pos ht, Res.ok_bind]
        refine ⟨_, rfl, ?_, ?_⟩
        · simp [List.range_succ, ht, hm1]
        · simp [List.range_succ, ht, hm2]
      · rw [if_neg ht]
        refine ⟨_, rfl, ?_, ?_⟩
        · simp [List.range_succ, ht, hm1]
        · simp [List.range_succ, ht, hm2])
  obtain ⟨m', e1, e2⟩ := this
  exact ⟨m', e1, by rw [cells_succ']; exact e2⟩

/-- **C107 (what the code does)**: the call returns for every matrix and tolerance, and there is exactly one mark for every large entry: that of
row `i` and column `j` is at horizontal position `i` and height `r - j`. -/
theorem C107_actual {A : Mat K} {r c : Nat} {f : Nat → Nat → K} (hA : A.Has r c f) (tol : K) :
    ∃ L : List (Nat × Nat), L.Nodup ∧ (∀ i j, (i, j) ∈ L ↔ Large r c f tol i j) ∧
      matshow A tol = .ok (L.map fun p => ((p.1 : K), (r : K) - (p.2 : K))) := by
  refine ⟨cells r f tol c, cells_nodup _ _ _ _, fun i j => mem_cells, ?_⟩
  obtain ⟨m, e1, e2, e3⟩ := loops_ok hA tol
  unfold matshow
  have k1 : Vec.range 0 ((A.nrows : Int) - 1) = .ok _ := Vec.range_eq (by omega)
  have k2 : Vec.range 0 ((A.ncols : Int) - 1) = .ok _ := Vec.range_eq (by omega)
  rw [k1, Res.ok_bind, k2, Res.ok_bind, e1, Res.ok_bind, scatter, if_neg (by simp [e2, e3]), e2, e3, hA.1, ← List.zip_map']

variable [IsStrictOrderedRing K]

/-- **C107 is false**: with two large entries in some row and no two in any column, the marks are no picture of the matrix on any scale. -/
theorem C107_wrong {A : Mat K} {r c : Nat} {f : Nat → Nat → K} (hA : A.Has r c f) {tol : K} {i j j' : Nat}
    (h1 : Large r c f tol i j) (h2 : Large r c f tol i j') (hj : j ≠ j')
    (h : ∀ a a' b, Large r c f tol a b → Large r c f tol a' b → a = a') :
    ∃ marks, matshow A tol = .ok marks ∧ ¬ Shows r c f tol marks := by
  obtain ⟨L, -, k2, k3⟩ := C107_actual hA tol
  refine ⟨_, k3, ?_⟩
  rintro ⟨x, y, hx, hy, hm⟩
  obtain ⟨a, b, l1, e1⟩ := (hm _).1 (List.mem_map_of_mem ((k2 _ _).2 h1))
  obtain ⟨a', b', l2, e2⟩ := (hm _).1 (List.mem_map_of_mem ((k2 _ _).2 h2))
  rw [Prod.mk.injEq] at e1 e2
  have hb : b = b' := hx.injective (e1.1.symm.trans e2.1)
  subst hb
  have ha := h a a' b l1 l2
  subst ha
  exact hj (Nat.cast_injective (R := K) (sub_right_injective (e1.2.trans e2.2.symm)))

/-- The same with two large entries in some column and no two in any row. -/
theorem C107_column_wrong {A : Mat K} {r c : Nat} {f : Nat → Nat → K} (hA : A.Has r c f) {tol : K} {i i' j : Nat}
    (h1 : Large r c f tol i j) (h2 : Large r c f tol i' j) (hi : i ≠ i')
    (h : ∀ a b b', Large r c f tol a b → Large r c f tol a b' → b = b') :
    ∃ marks, matshow A tol = .ok marks ∧ ¬ Shows r c f tol marks := by
  obtain ⟨L, -, k2, k3⟩ := C107_actual hA tol
  refine ⟨_, k3, ?_⟩
  rintro ⟨x, y, hx, hy, hm⟩
  obtain ⟨a, b, l1, e1⟩ := (hm _).1 (List.mem_map_of_mem ((k2 _ _).2 h1))
  obtain ⟨a', b', l2, e2⟩ := (hm _).1 (List.mem_map_of_mem ((k2 _ _).2 h2))
  rw [Prod.mk.injEq] at e1 e2
  have ha : a = a' := hy.injective (e1.2.symm.trans e2.2)
  subst ha
  have hb := h a b b' l1 l2
  subst hb
  exact hi (Nat.cast_injective (R := K) (e1.1.trans e2.1.symm))

/-- **C107, partial**: the picture is right, one step per row and column, exactly if the large entries lie symmetrically to the diagonal. -/
theorem C107_symmetric_partial {A : Mat K} {r c : Nat} {f : Nat → Nat → K} (hA : A.Has r c f) (tol : K) :
    ∃ marks, matshow A tol = .ok marks ∧ marks.Nodup ∧
      ((∀ p, p ∈ marks ↔ ∃ i j, Large r c f tol i j ∧ p = ((j : K), (r : K) - (i : K))) ↔
        ∀ i j, Large r c f tol i j ↔ Large r c f tol j i) := by
  obtain ⟨L, h1, h2, h3⟩ := C107_actual hA tol
  have inj : ∀ a b c d : Nat, (((a : K), (r : K) - (b : K)) = ((c : K), (r : K) - (d : K))) ↔ a = c ∧ b = d := by
    intro a b c d
    rw [Prod.mk.injEq, sub_right_inj, Nat.cast_inj, Nat.cast_inj]
  have mem : ∀ i j : Nat, ((i : K), (r : K) - (j : K)) ∈ L.map (fun p => ((p.1 : K), (r : K) - (p.2 : K))) ↔ Large r c f tol i j := by
    intro i j
    rw [List.mem_map, ← h2]
    constructor
    · rintro ⟨⟨a, b⟩, hp, he⟩
      obtain ⟨rfl, rfl⟩ := (inj _ _ _ _).1 he
      exact hp
    · intro hp
      exact ⟨_, hp, rfl⟩
  refine ⟨_, h3, h1.map ?_, ?_⟩
  · rintro ⟨a, b⟩ ⟨c, d⟩ he
    obtain ⟨rfl, rfl⟩ := (inj _ _ _ _).1 he
    rfl
  · constructor
    · intro h i j
      rw [← mem, h]
      constructor
      · rintro ⟨a, b, hl, he⟩
        obtain ⟨rfl, rfl⟩ := (inj _ _ _ _).1 he
        exact hl
      · intro hl
        exact ⟨_, _, hl, rfl⟩
    · intro h p
      constructor
      · intro hp
        obtain ⟨⟨a, b⟩, hq, rfl⟩ := List.mem_map.1 hp
        exact ⟨b, a, (h _ _).1 ((h2 _ _).1 hq), rfl⟩
      · rintro ⟨i, j, hl, rfl⟩
        exact (mem _ _).2 ((h _ _).1 hl)

/-- Then the marks are a picture of the matrix. -/
theorem C107_shows_partial {A : Mat K} {r c : Nat} {f : Nat → Nat → K} (hA : A.Has r c f) (tol : K)
    (hs : ∀ i j, Large r c f tol i j ↔ Large r c f tol j i) : ∃ marks, matshow A tol = .ok marks ∧ Shows r c f tol marks := by
  obtain ⟨m, h1, -, h3⟩ := C107_symmetric_partial hA tol
  refine ⟨m, h1, fun j => (j : K), fun i => (r : K) - (i : K), Nat.strictMono_cast, ?_, h3.2 hs⟩
  intro a b hab
  have : (a : K) < (b : K) := Nat.cast_lt.2 hab
  show (r : K) - b < r - a
  linarith

/-- The row `1 1`, drawn as a column, and the row `1 0 1`, whose second mark is at height -1, below the axis. -/
example : matshow (⟨1, 2, [1, 1]⟩ : Mat ℚ) (1 / 10) = .ok [(0, 1), (0, 0)] := by decide +kernel

example : matshow (⟨1, 3, [1, 0, 1]⟩ : Mat ℚ) (1 / 10) = .ok [(0, 1), (0, -1)] := by decide +kernel

/-- `C107_wrong` for that row. -/
example : ∃ marks, matshow (⟨1, 2, [1, 1]⟩ : Mat ℚ) (1 / 10) = .ok marks ∧ ¬ Shows 1 2 (fun _ _ => (1 : ℚ)) (1 / 10) marks := by
  have hA : (⟨1, 2, [1, 1]⟩ : Mat ℚ).Has 1 2 (fun _ _ => 1) :=
    ⟨rfl, rfl, rfl, fun i hi j hj => by interval_cases i; interval_cases j <;> rfl⟩
  have hl : ∀ j, j < 2 → Large 1 2 (fun _ _ => (1 : ℚ)) (1 / 10) 0 j := fun j hj => ⟨by omega, hj, by norm_num⟩
  exact C107_wrong hA (hl 0 (by omega)) (hl 1 (by omega)) (by omega) fun a a' b h h' => by have := h.1; have := h'.1; omega

/-- `C107_shows_partial` for a matrix that is not symmetric, with large entries that lie symmetrically. -/
example : ∃ marks, matshow (⟨2, 2, [0, 3, 5, 7]⟩ : Mat ℚ) 1 = .ok marks ∧ marks = [(1, 2), (0, 1), (1, 1)] := ⟨_, by decide +kernel, rfl⟩

example : ∃ marks, matshow (⟨2, 2, [0, 3, 5, 7]⟩ : Mat ℚ) 1 = .ok marks ∧
    Shows 2 2 (fun i j => if i = 0 then if j = 0 then 0 else 3 else if j = 0 then 5 else (7 : ℚ)) 1 marks := by
  refine C107_shows_partial ⟨rfl, rfl, rfl, fun i hi j hj => by interval_cases i <;> interval_cases j <;> rfl⟩ 1 ?_
  intro i j
  constructor <;>
  · rintro ⟨h1, h2, h3⟩
    refine ⟨h2, h1, ?_⟩
    interval_cases i <;> interval_cases j <;> first | (exfalso; norm_num at h3; done) | norm_num

end Plot

end EF
