import Verif.Spec.FiniteVolume
import Verif.Spec.Linear
import Verif.Proofs.HasLemmas
import Mathlib.Tactic.Ring
import Mathlib.Tactic.Linarith

/-!
# The assembled matrix is the matrix of the finite volume equations
-/

namespace EF
namespace FVSolver

open Finset FV

variable {K : Type} [Field K]

/-- Zero boundary values. -/
def bz : Bdry K := ⟨fun _ => 0, fun _ => 0, fun _ => 0, fun _ => 0⟩

/-- What the boundary values contribute to the balance of a cell. -/
def bterm (nx ny : Nat) (c : Coef K) (b : Bdry K) (i j : Nat) : K :=
  (if i = 0 then 2 * (c.W * b.W j) else 0) + (if i + 1 = nx then 2 * (c.E * b.E j) else 0) +
    (if j = 0 then 2 * (c.S * b.S i) else 0) + (if j + 1 = ny then 2 * (c.N * b.N i) else 0)

theorem x_eq (grid : Grid K) (i : Nat) : grid.x i = cx (rect grid) grid.nx i := by
  unfold Grid.x cx Grid.dx hx rect; ring

theorem y_eq (grid : Grid K) (j : Nat) : grid.y j = cy (rect grid) grid.ny j := by
  unfold Grid.y cy Grid.dy hy rect; ring

/-- The balance in terms of the stencil coefficients. -/
theorem balance_eq (s : FVSolver K) (grid : Grid K) (b : Bdry K) (u : Nat → Nat → K) (i j : Nat) :
    balance s (rect grid) grid.nx grid.ny b u i j =
      (s.coef grid i j).W * west b u i j + (s.coef grid i j).E * east grid.nx b u i j +
        (s.coef grid i j).S * south b u i j + (s.coef grid i j).N * north grid.ny b u i j +
        (s.coef grid i j).C * u i j := by
  unfold balance coef
  simp only [x_eq, y_eq]
  have e1 : grid.dx = hx (rect grid) grid.nx := rfl
  have e2 : grid.dy = hy (rect grid) grid.ny := rfl
  rw [e1, e2]
  ring

theorem balance_split (s : FVSolver K) (grid : Grid K) (b : Bdry K) (u : Nat → Nat → K) (i j : Nat) :
    balance s (rect grid) grid.nx grid.ny b u i j =
      balance s (rect grid) grid.nx grid.ny bz u i j + bterm grid.nx grid.ny (s.coef grid i j) b i j := by
  rw [balance_eq, balance_eq]
  unfold bterm west east south north bz
  split_ifs <;> ring

/-- Setting the entries of one row: what happens to the product with a vector. -/
theorem matSetValues_ok {N : Nat} {row : Nat} (hr : row < N) (l : List (Nat × K)) (st : Asm K)
    (hl : ∀ p ∈ l, p.1 < N) (hd : (l.map Prod.fst).Nodup) :
    ∃ A', matSetValues N st row l = .ok { st with A := A' } ∧ (∀ r, r ≠ row → ∀ c, A' r c = st.A r c) ∧
      ∀ v : Nat → K, ∑ k ∈ range N, A' row k * v k =
        ∑ k ∈ range N, st.A row k * v k + (l.map (fun p => (p.2 - st.A row p.1) * v p.1)).sum := by
  induction l generalizing st with
  | nil => exact ⟨st.A, rfl, fun _ _ _ => rfl, fun v => by simp⟩
  | cons p l ih =>
    obtain ⟨c, x⟩ := p
    have hc : c < N := hl (c, x) (by simp)
    simp only [List.map_cons, List.nodup_cons] at hd
    obtain ⟨A', h1, h2, h3⟩ := ih { st with A := fun r c' => if r = row ∧ c' = c then x else st.A r c' }
      (fun p hp => hl p (List.mem_cons_of_mem _ hp)) hd.2
    refine ⟨A', ?_, ?_, ?_⟩
    · rw [matSetValues, if_pos ⟨hr, hc⟩, h1]
    · intro r hrr c'
      rw [h2 r hrr]
      exact if_neg (fun h => hrr h.1)
    · intro v
      refine (h3 v).trans ?_
      have e1 : ∑ k ∈ range N, (if row = row ∧ k = c then x else st.A row k) * v k =
          ∑ k ∈ range N, st.A row k * v k + (x - st.A row c) * v c := by
        have : ∀ k ∈ range N, (if row = row ∧ k = c then x else st.A row k) * v k =
            st.A row k * v k + (if k = c then (x - st.A row c) * v c else 0) := by
          intro k _
          by_cases hk : k = c
          · subst hk; simp; ring
          · simp [hk]
        rw [sum_congr rfl this, sum_add_distrib, sum_ite_eq' (range N) c, if_pos (mem_range.mpr hc)]
      have e2 : (l.map (fun p => (p.2 - (if row = row ∧ p.1 = c then x else st.A row p.1)) * v p.1)).sum =
          (l.map (fun p => (p.2 - st.A row p.1) * v p.1)).sum := by
        congr 1
        refine List.map_congr_left fun p hp => ?_
        have : p.1 ≠ c := fun h => hd.1 (List.mem_map.mpr ⟨p, hp, h⟩)
        simp [this]
      refine (congrArg₂ (· + ·) e1 e2).trans ?_
      rw [List.map_cons, List.sum_cons, add_assoc]

theorem idx_inj {ny i j i' j' : Nat} (hj : j < ny) (hj' : j' < ny) (h : j + i * ny = j' + i' * ny) :
    i = i' ∧ j = j' := by
  have h1 : (j + i * ny) / ny = i := by
    rw [Nat.add_mul_div_right _ _ (by omega), Nat.div_eq_of_lt hj, zero_add]
  have h2 : (j' + i' * ny) / ny = i' := by
    rw [Nat.add_mul_div_right _ _ (by omega), Nat.div_eq_of_lt hj', zero_add]
  have : i = i' := by rw [← h1, ← h2, h]
  subst this
  exact ⟨rfl, by omega⟩

theorem idx_lt {nx ny i j : Nat} (hi : i < nx) (hj : j < ny) : j + i * ny < nx * ny := by
  have : (i + 1) * ny ≤ nx * ny := Nat.mul_le_mul_right _ hi
  rw [Nat.add_mul] at this
  omega

/-- The sides hold the boundary values. -/
def SidesAre (nx ny : Nat) (gs : Sides K) (b : Bdry K) : Prop :=
  (∀ j, j < ny → gs.west.get j = .ok (b.W j)) ∧ (∀ j, j < ny → gs.east.get j = .ok (b.E j)) ∧
    (∀ i, i < nx → gs.south.get i = .ok (b.S i)) ∧ (∀ i, i < nx → gs.north.get i = .ok (b.N i))

/-- The row of a cell. -/
theorem cellRow_ok {s : FVSolver K} {grid : Grid K} {gs : Sides K} {b : Bdry K} (hx : 2 ≤ grid.nx) (hy : 2 ≤ grid.ny)
    (hg : SidesAre grid.nx grid.ny gs b) {i j : Nat} (hi : i < grid.nx) (hj : j < grid.ny) :
    ∃ ob l, cellRow grid.nx grid.ny (s.coef grid i j) gs i j = .ok (ob, l) ∧
      ob.getD 0 = - bterm grid.nx grid.ny (s.coef grid i j) b i j ∧
      (∀ p ∈ l, p.1 < grid.nx * grid.ny) ∧ (l.map Prod.fst).Nodup ∧
      ∀ v : Nat → K, (l.map (fun p => p.2 * v p.1)).sum =
        balance s (rect grid) grid.nx grid.ny bz (fun i j => v (j + i * grid.ny)) i j := by
  obtain ⟨g1, g2, g3, g4⟩ := hg
  have hW : i ≠ 0 → gridIndex2MatrixIndex (i - 1) j grid.nx grid.ny < grid.nx * grid.ny :=
    fun _ => idx_lt (by omega) hj
  have hE : i + 1 ≠ grid.nx → gridIndex2MatrixIndex (i + 1) j grid.nx grid.ny < grid.nx * grid.ny :=
    fun _ => idx_lt (by omega) hj
  have hS : j ≠ 0 → gridIndex2MatrixIndex i (j - 1) grid.nx grid.ny < grid.nx * grid.ny :=
    fun _ => idx_lt hi (by omega)
  have hN : j + 1 ≠ grid.ny → gridIndex2MatrixIndex i (j + 1) grid.nx grid.ny < grid.nx * grid.ny :=
    fun _ => idx_lt hi (by omega)
  have hC : gridIndex2MatrixIndex i j grid.nx grid.ny < grid.nx * grid.ny := idx_lt hi hj
  have ne : ∀ {i1 j1 i2 j2 : Nat}, j1 < grid.ny → j2 < grid.ny → (i1 ≠ i2 ∨ j1 ≠ j2) →
      gridIndex2MatrixIndex i1 j1 grid.nx grid.ny ≠ gridIndex2MatrixIndex i2 j2 grid.nx grid.ny := by
    intro i1 j1 i2 j2 h1 h2 h3 h
    obtain ⟨a, b⟩ := idx_inj h1 h2 h
    rcases h3 with h3 | h3 <;> contradiction
  simp only [balance_eq]
  unfold cellRow
  by_cases i0 : i = 0
  · have i1 : i + 1 ≠ grid.nx := by omega
    by_cases j0 : j = 0
    · have j1 : j + 1 ≠ grid.ny := by omega
      rw [if_pos ⟨i0, j0⟩, g1 j hj, Res.ok_bind, g3 i hi, Res.ok_bind]
      refine ⟨_, _, rfl, ?_, ?_, ?_, ?_⟩
      · simp only [Option.getD_some, bterm, if_pos i0, if_pos j0, if_neg i1, if_neg j1]; ring
      · intro p hp
        simp only [List.mem_cons, List.not_mem_nil, or_false] at hp
        rcases hp with rfl | rfl | rfl
        exacts [hE i1, hN j1, hC]
      · simp only [List.map_cons, List.map_nil, List.nodup_cons, List.mem_cons, List.not_mem_nil, or_false,
          not_or, List.nodup_nil, and_true, not_false_eq_true]
        exact ⟨⟨ne hj (by omega) (by omega), ne hj hj (by omega)⟩, ne (by omega) hj (by omega)⟩
      · intro v
        simp only [List.map_cons, List.map_nil, List.sum_cons, List.sum_nil, west, east, south, north, if_pos i0, if_pos j0,
          if_neg i1, if_neg j1, bz, gridIndex2MatrixIndex]
        ring
    · by_cases j1 : j + 1 = grid.ny
      · rw [if_neg (by omega), if_neg (by omega), if_pos ⟨i0, j1⟩, g1 j hj, Res.ok_bind, g4 i hi, Res.ok_bind]
        refine ⟨_, _, rfl, ?_, ?_, ?_, ?_⟩
        · simp only [Option.getD_some, bterm, if_pos i0, if_neg j0, if_neg i1, if_pos j1]; ring
        · intro p hp
          simp only [List.mem_cons, List.not_mem_nil, or_false] at hp
          rcases hp with rfl | rfl | rfl
          exacts [hE i1, hS j0, hC]
        · simp only [List.map_cons, List.map_nil, List.nodup_cons, List.mem_cons, List.not_mem_nil, or_false,
            not_or, List.nodup_nil, and_true, not_false_eq_true]
          exact ⟨⟨ne hj (by omega) (by omega), ne hj hj (by omega)⟩, ne (by omega) hj (by omega)⟩
        · intro v
          simp only [List.map_cons, List.map_nil, List.sum_cons, List.sum_nil, west, east, south, north, if_pos i0, if_neg j0,
            if_neg i1, if_pos j1, bz, gridIndex2MatrixIndex]
          ring
      · rw [if_neg (by omega), if_neg (by omega), if_neg (by omega), if_neg (by omega), if_pos i0, g1 j hj, Res.ok_bind]
        refine ⟨_, _, rfl, ?_, ?_, ?_, ?_⟩
        · simp only [Option.getD_some, bterm, if_pos i0, if_neg j0, if_neg i1, if_neg j1]; ring
        · intro p hp
          simp only [List.mem_cons, List.not_mem_nil, or_false] at hp
          rcases hp with rfl | rfl | rfl | rfl
          exacts [hE i1, hN j1, hS j0, hC]
        · simp only [List.map_cons, List.map_nil, List.nodup_cons, List.mem_cons, List.not_mem_nil, or_false,
            not_or, List.nodup_nil, and_true, not_false_eq_true]
          exact ⟨⟨ne hj (by omega) (by omega), ne hj (by omega) (by omega), ne hj hj (by omega)⟩,
            ⟨ne (by omega) (by omega) (by omega), ne (by omega) hj (by omega)⟩, ne (by omega) hj (by omega)⟩
        · intro v
          simp only [List.map_cons, List.map_nil, List.sum_cons, List.sum_nil, west, east, south, north, if_pos i0, if_neg j0,
            if_neg i1, if_neg j1, bz, gridIndex2MatrixIndex]
          ring
  · by_cases i1 : i + 1 = grid.nx
    · by_cases j0 : j = 0
      · have j1 : j + 1 ≠ grid.ny := by omega
        rw [if_neg (by omega), if_pos ⟨i1, j0⟩, g2 j hj, Res.ok_bind, g3 i hi, Res.ok_bind]
        refine ⟨_, _, rfl, ?_, ?_, ?_, ?_⟩
        · simp only [Option.getD_some, bterm, if_neg i0, if_pos j0, if_pos i1, if_neg j1]; ring
        · intro p hp
          simp only [List.mem_cons, List.not_mem_nil, or_false] at hp
          rcases hp with rfl | rfl | rfl
          exacts [hW i0, hN j1, hC]
        · simp only [List.map_cons, List.map_nil, List.nodup_cons, List.mem_cons, List.not_mem_nil, or_false,
            not_or, List.nodup_nil, and_true, not_false_eq_true]
          exact ⟨⟨ne hj (by omega) (by omega), ne hj hj (by omega)⟩, ne (by omega) hj (by omega)⟩
        · intro v
          simp only [List.map_cons, List.map_nil, List.sum_cons, List.sum_nil, west, east, south, north, if_neg i0, if_pos j0,
            if_pos i1, if_neg j1, bz, gridIndex2MatrixIndex]
          ring
      · by_cases j1 : j + 1 = grid.ny
        · rw [if_neg (by omega), if_neg (by omega), if_neg (by omega), if_pos ⟨i1, j1⟩, g2 j hj, Res.ok_bind, g4 i hi,
            Res.ok_bind]
          refine ⟨_, _, rfl, ?_, ?_, ?_, ?_⟩
          · simp only [Option.getD_some, bterm, if_neg i0, if_neg j0, if_pos i1, if_pos j1]; ring
          · intro p hp
            simp only [List.mem_cons, List.not_mem_nil, or_false] at hp
            rcases hp with rfl | rfl | rfl
            exacts [hW i0, hS j0, hC]
          · simp only [List.map_cons, List.map_nil, List.nodup_cons, List.mem_cons, List.not_mem_nil, or_false,
              not_or, List.nodup_nil, and_true, not_false_eq_true]
            exact ⟨⟨ne hj (by omega) (by omega), ne hj hj (by omega)⟩, ne (by omega) hj (by omega)⟩
          · intro v
            simp only [List.map_cons, List.map_nil, List.sum_cons, List.sum_nil, west, east, south, north, if_neg i0, if_neg j0,
              if_pos i1, if_pos j1, bz, gridIndex2MatrixIndex]
            ring
        · rw [if_neg (by omega), if_neg (by omega), if_neg (by omega), if_neg (by omega), if_neg i0, if_pos i1, g2 j hj,
            Res.ok_bind]
          refine ⟨_, _, rfl, ?_, ?_, ?_, ?_⟩
          · simp only [Option.getD_some, bterm, if_neg i0, if_neg j0, if_pos i1, if_neg j1]; ring
          · intro p hp
            simp only [List.mem_cons, List.not_mem_nil, or_false] at hp
            rcases hp with rfl | rfl | rfl | rfl
            exacts [hW i0, hN j1, hS j0, hC]
          · simp only [List.map_cons, List.map_nil, List.nodup_cons, List.mem_cons, List.not_mem_nil, or_false,
              not_or, List.nodup_nil, and_true, not_false_eq_true]
            exact ⟨⟨ne hj (by omega) (by omega), ne hj (by omega) (by omega), ne hj hj (by omega)⟩,
              ⟨ne (by omega) (by omega) (by omega), ne (by omega) hj (by omega)⟩, ne (by omega) hj (by omega)⟩
          · intro v
            simp only [List.map_cons, List.map_nil, List.sum_cons, List.sum_nil, west, east, south, north, if_neg i0, if_neg j0,
              if_pos i1, if_neg j1, bz, gridIndex2MatrixIndex]
            ring
    · by_cases j0 : j = 0
      · have j1 : j + 1 ≠ grid.ny := by omega
        rw [if_neg (by omega), if_neg (by omega), if_neg (by omega), if_neg (by omega), if_neg i0, if_neg i1, if_pos j0,
          g3 i hi, Res.ok_bind]
        refine ⟨_, _, rfl, ?_, ?_, ?_, ?_⟩
        · simp only [Option.getD_some, bterm, if_neg i0, if_pos j0, if_neg i1, if_neg j1]; ring
        · intro p hp
          simp only [List.mem_cons, List.not_mem_nil, or_false] at hp
          rcases hp with rfl | rfl | rfl | rfl
          exacts [hE i1, hW i0, hN j1, hC]
        · simp only [List.map_cons, List.map_nil, List.nodup_cons, List.mem_cons, List.not_mem_nil, or_false,
            not_or, List.nodup_nil, and_true, not_false_eq_true]
          exact ⟨⟨ne hj hj (by omega), ne hj (by omega) (by omega), ne hj hj (by omega)⟩,
            ⟨ne hj (by omega) (by omega), ne hj hj (by omega)⟩, ne (by omega) hj (by omega)⟩
        · intro v
          simp only [List.map_cons, List.map_nil, List.sum_cons, List.sum_nil, west, east, south, north, if_neg i0, if_pos j0,
            if_neg i1, if_neg j1, bz, gridIndex2MatrixIndex]
          ring
      · by_cases j1 : j + 1 = grid.ny
        · rw [if_neg (by omega), if_neg (by omega), if_neg (by omega), if_neg (by omega), if_neg i0, if_neg i1, if_neg j0,
            if_pos j1, g4 i hi, Res.ok_bind]
          refine ⟨_, _, rfl, ?_, ?_, ?_, ?_⟩
          · simp only [Option.getD_some, bterm, if_neg i0, if_neg j0, if_neg i1, if_pos j1]; ring
          · intro p hp
            simp only [List.mem_cons, List.not_mem_nil, or_false] at hp
            rcases hp with rfl | rfl | rfl | rfl
            exacts [hE i1, hW i0, hS j0, hC]
          · simp only [List.map_cons, List.map_nil, List.nodup_cons, List.mem_cons, List.not_mem_nil, or_false,
              not_or, List.nodup_nil, and_true, not_false_eq_true]
            exact ⟨⟨ne hj hj (by omega), ne hj (by omega) (by omega), ne hj hj (by omega)⟩,
              ⟨ne hj (by omega) (by omega), ne hj hj (by omega)⟩, ne (by omega) hj (by omega)⟩
          · intro v
            simp only [List.map_cons, List.map_nil, List.sum_cons, List.sum_nil, west, east, south, north, if_neg i0, if_neg j0,
              if_neg i1, if_pos j1, bz, gridIndex2MatrixIndex]
            ring
        · rw [if_neg (by omega), if_neg (by omega), if_neg (by omega), if_neg (by omega), if_neg i0, if_neg i1, if_neg j0,
            if_neg j1]
          refine ⟨_, _, rfl, ?_, ?_, ?_, ?_⟩
          · simp only [Option.getD_none, bterm, if_neg i0, if_neg j0, if_neg i1, if_neg j1]; ring
          · intro p hp
            simp only [List.mem_cons, List.not_mem_nil, or_false] at hp
            rcases hp with rfl | rfl | rfl | rfl | rfl
            exacts [hE i1, hW i0, hN j1, hS j0, hC]
          · simp only [List.map_cons, List.map_nil, List.nodup_cons, List.mem_cons, List.not_mem_nil, or_false,
              not_or, List.nodup_nil, and_true, not_false_eq_true]
            exact ⟨⟨ne hj hj (by omega), ne hj (by omega) (by omega), ne hj (by omega) (by omega), ne hj hj (by omega)⟩,
              ⟨ne hj (by omega) (by omega), ne hj (by omega) (by omega), ne hj hj (by omega)⟩,
              ⟨ne (by omega) (by omega) (by omega), ne (by omega) hj (by omega)⟩, ne (by omega) hj (by omega)⟩
          · intro v
            simp only [List.map_cons, List.map_nil, List.sum_cons, List.sum_nil, west, east, south, north, if_neg i0, if_neg j0,
              if_neg i1, if_neg j1, bz, gridIndex2MatrixIndex]
            ring

/-- Row and load of a finished cell. -/
def RowDone (s : FVSolver K) (grid : Grid K) (b : Bdry K) (f : Nat → K) (st : Asm K) (i j : Nat) : Prop :=
  (∀ v : Nat → K, ∑ k ∈ range (grid.nx * grid.ny), st.A (j + i * grid.ny) k * v k =
      balance s (rect grid) grid.nx grid.ny bz (fun i j => v (j + i * grid.ny)) i j) ∧
    st.f (j + i * grid.ny) = f (j + i * grid.ny) - bterm grid.nx grid.ny (s.coef grid i j) b i j

/-- State of the assembly with the cells in `D` done. -/
def Progress (s : FVSolver K) (grid : Grid K) (b : Bdry K) (f : Nat → K) (D : Nat → Nat → Prop) (st : Asm K) : Prop :=
  ∀ i, i < grid.nx → ∀ j, j < grid.ny → (D i j → RowDone s grid b f st i j) ∧
    (¬ D i j → ∀ k, st.A (j + i * grid.ny) k = 0)

theorem cellStep_ok {s : FVSolver K} {grid : Grid K} {gs : Sides K} {b : Bdry K} (hx : 2 ≤ grid.nx) (hy : 2 ≤ grid.ny)
    (hg : SidesAre grid.nx grid.ny gs b) {rhs : Vec K} {f : Nat → K} (hf : rhs.Has (grid.nx * grid.ny) f)
    {D D' : Nat → Nat → Prop} {st : Asm K} {i j : Nat} (hi : i < grid.nx) (hj : j < grid.ny)
    (hst : Progress s grid b f D st) (hn : ¬ D i j)
    (hD : ∀ i', i' < grid.nx → ∀ j', j' < grid.ny → (D' i' j' ↔ D i' j' ∨ (i' = i ∧ j' = j))) :
    ∃ st', cellStep s grid gs rhs j i st = .ok st' ∧ Progress s grid b f D' st' := by
  have hIC : gridIndex2MatrixIndex i j grid.nx grid.ny < grid.nx * grid.ny := idx_lt hi hj
  obtain ⟨ob, l, r1, r2, r3, r4, r5⟩ := cellRow_ok (s := s) hx hy hg hi hj
  obtain ⟨_, _, hfv⟩ := hf
  have hz := (hst i hi j hj).2 hn
  let f1 : Nat → K := fun r => if r = gridIndex2MatrixIndex i j grid.nx grid.ny then f (j + i * grid.ny) + ob.getD 0
    else st.f r
  obtain ⟨A', a1, a2, a3⟩ := matSetValues_ok hIC l { st with f := f1 } r3 r4
  refine ⟨{ st with f := f1, A := A' }, ?_, ?_⟩
  · unfold cellStep
    simp only []
    rw [hfv _ hIC, Res.ok_bind]
    unfold vecInsert
    rw [if_pos hIC, Res.pure_def, Res.ok_bind, r1, Res.ok_bind]
    cases ob with
    | none =>
      refine Eq.trans ?_ a1
      simp only [Res.pure_def, Res.ok_bind]
      congr 2
      funext r
      simp only [f1, Option.getD_none, add_zero]
      rfl
    | some x =>
      simp only [vecAdd, if_pos hIC, Res.pure_def, Res.ok_bind]
      refine Eq.trans ?_ a1
      congr 2
      funext r
      simp only [f1, Option.getD_some]
      split_ifs <;> rfl
  · intro i' hi' j' hj'
    by_cases he : i' = i ∧ j' = j
    · obtain ⟨rfl, rfl⟩ := he
      have hd : D' i' j' := (hD i' hi' j' hj').mpr (Or.inr ⟨rfl, rfl⟩)
      refine ⟨fun _ => ⟨?_, ?_⟩, fun h => absurd hd h⟩
      · intro v
        refine (a3 v).trans ?_
        have e1 : ∑ k ∈ range (grid.nx * grid.ny), st.A (gridIndex2MatrixIndex i' j' grid.nx grid.ny) k * v k = 0 :=
          sum_eq_zero fun k _ => by rw [show st.A (gridIndex2MatrixIndex i' j' grid.nx grid.ny) k = 0 from hz k, zero_mul]
        refine (congrArg (· + _) e1).trans ?_
        rw [zero_add, ← r5 v]
        congr 1
        refine List.map_congr_left fun p _ => ?_
        rw [show st.A (gridIndex2MatrixIndex i' j' grid.nx grid.ny) p.1 = 0 from hz p.1, sub_zero]
      · show (if j' + i' * grid.ny = gridIndex2MatrixIndex i' j' grid.nx grid.ny then _ else _) = _
        rw [if_pos (show j' + i' * grid.ny = gridIndex2MatrixIndex i' j' grid.nx grid.ny from rfl), r2]; ring
    · have hne : j' + i' * grid.ny ≠ gridIndex2MatrixIndex i j grid.nx grid.ny := by
        intro h
        exact he (idx_inj hj' hj h)
      have hA : ∀ k, A' (j' + i' * grid.ny) k = st.A (j' + i' * grid.ny) k := fun k => a2 _ hne k
      have hf1 : f1 (j' + i' * grid.ny) = st.f (j' + i' * grid.ny) := if_neg hne
      obtain ⟨p1, p2⟩ := hst i' hi' j' hj'
      have hdd : D' i' j' ↔ D i' j' := by rw [hD i' hi' j' hj']; tauto
      refine ⟨fun hd => ?_, fun hd k => ?_⟩
      · obtain ⟨q1, q2⟩ := p1 (hdd.mp hd)
        refine ⟨fun v => ?_, ?_⟩
        · simp only [hA]; exact q1 v
        · show f1 _ = _
          rw [hf1]; exact q2
      · refine (hA k).trans ?_; exact p2 (fun h => hd (hdd.mpr h)) k

theorem forN_progress {σ : Type} {n : Nat} {body : Nat → σ → Res σ} (P : Nat → σ → Prop) {s : σ} (h0 : P 0 s)
    (hs : ∀ i s, i < n → P i s → ∃ s', body i s = .ok s' ∧ P (i + 1) s') : ∃ s', forN n body s = .ok s' ∧ P n s' := by
  induction n with
  | zero => exact ⟨s, rfl, h0⟩
  | succ n ih =>
    obtain ⟨m, h1, h2⟩ := ih (fun i s hi => hs i s (by omega))
    obtain ⟨s', h3, h4⟩ := hs n m (by omega) h2
    exact ⟨s', by rw [forN_succ, h1, Res.ok_bind, h3], h4⟩

/-- The assembled system. -/
theorem assemble_ok {s : FVSolver K} {grid : Grid K} {gs : Sides K} {b : Bdry K} (hx : 2 ≤ grid.nx) (hy : 2 ≤ grid.ny)
    (hg : SidesAre grid.nx grid.ny gs b) {rhs : Vec K} {f : Nat → K} (hf : rhs.Has (grid.nx * grid.ny) f) :
    ∃ st, assemble s grid gs rhs = .ok st ∧ ∀ i, i < grid.nx → ∀ j, j < grid.ny → RowDone s grid b f st i j := by
  obtain ⟨st, h1, h2⟩ := forN_progress (n := grid.ny)
    (body := fun j st => forN grid.nx (fun i st => cellStep s grid gs rhs j i st) st)
    (fun j0 st => Progress s grid b f (fun _ j => j < j0) st) (s := ⟨fun _ _ => 0, fun _ => 0⟩)
    (fun i _ j _ => ⟨fun h => by omega, fun _ _ => rfl⟩)
    (by
      intro j0 st hj0 hst
      obtain ⟨st', h1, h2⟩ := forN_progress (n := grid.nx) (body := fun i st => cellStep s grid gs rhs j0 i st)
        (fun i0 st => Progress s grid b f (fun i j => j < j0 ∨ (j = j0 ∧ i < i0)) st) (s := st)
        (by
          intro i hi j hj
          obtain ⟨p1, p2⟩ := hst i hi j hj
          exact ⟨fun h => p1 (by omega), fun h => p2 (by omega)⟩)
        (by
          intro i0 st1 hi0 hst1
          exact cellStep_ok hx hy hg hf hi0 hj0 hst1 (by omega) (by intro i' _ j' _; omega))
      refine ⟨st', h1, ?_⟩
      intro i hi j hj
      obtain ⟨p1, p2⟩ := h2 i hi j hj
      exact ⟨fun h => p1 (by omega), fun h => p2 (by omega)⟩)
  exact ⟨st, h1, fun i hi j hj => (h2 i hi j hj).1 hj⟩

end FVSolver
end EF
