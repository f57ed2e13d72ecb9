import Verif.Model.Ints
import Verif.Spec.Ints
import Verif.Proofs.Mesh
import Verif.Proofs.Message

/-!
# Lemmas about 32-bit integers
-/

namespace EF

variable {K T τ α β : Type}

theorem checked_ok {x : Int} (h1 : -2147483648 ≤ x) (h2 : x ≤ 2147483647) : checked x = .ok x := by
  rw [checked, if_pos]
  unfold intMax
  omega

theorem checked_ub {x : Int} (h : x < -2147483648 ∨ 2147483647 < x) : checked x = .ub := by
  rw [checked, if_neg]
  unfold intMax
  omega

theorem narrow_of {n : Int} (h1 : -2147483648 ≤ n) (h2 : n ≤ 2147483647) : narrow n = n := by
  unfold narrow
  rw [Int.bmod_def]
  split <;> omega

/-! ## Mesh arrays -/

section mesh
variable [Field K]

/-- Within the range the same as with unbounded integers, else undefined. -/
theorem addCell32_eq {g : Grid K} {i j : Nat} (hi : i < 2147483647) (hj : j < 2147483647) {st : Int × MeshArrays K} (h0 : 0 ≤ st.1)
    (hp : 0 ≤ st.2.npoints) (hc : 0 ≤ st.2.ncells) :
    addCell32 g i j st = if (st.1 + 4) * 4 ≤ 2147483647 ∧ st.2.npoints + 4 ≤ 2147483647 ∧ st.2.ncells + 1 ≤ 2147483647
      then .ok (addCell g i j st) else .ub := by
  obtain ⟨k, A⟩ := st
  dsimp only at h0 hp hc ⊢
  unfold addCell32
  dsimp only
  rw [checked_ok (x := (i : Int) + 1) (by omega) (by omega), Res.ok_bind, checked_ok (x := (j : Int) + 1) (by omega) (by omega), Res.ok_bind]
  by_cases a : (k + 4) * 4 ≤ 2147483647
  · rw [checked_ok (x := k + 0) (by omega) (by omega), Res.ok_bind, checked_ok (x := k + 1) (by omega) (by omega), Res.ok_bind,
      checked_ok (x := k + 2) (by omega) (by omega), Res.ok_bind, checked_ok (x := k + 3) (by omega) (by omega), Res.ok_bind,
      checked_ok (x := k + 4) (by omega) (by omega), Res.ok_bind, checked_ok (x := (k + 1) * 4) (by omega) (by omega), Res.ok_bind,
      checked_ok (x := (k + 2) * 4) (by omega) (by omega), Res.ok_bind, checked_ok (x := (k + 3) * 4) (by omega) (by omega), Res.ok_bind,
      checked_ok (x := (k + 4) * 4) (by omega) (by omega), Res.ok_bind]
    by_cases b : A.npoints + 4 ≤ 2147483647
    · rw [checked_ok (x := A.npoints + 4) (by omega) (by omega), Res.ok_bind]
      by_cases c : A.ncells + 1 ≤ 2147483647
      · rw [checked_ok (x := A.ncells + 1) (by omega) (by omega), Res.ok_bind, if_pos ⟨a, b, c⟩, Res.pure_def]
        unfold addCell
        push_cast
        rfl
      · rw [checked_ub (x := A.ncells + 1) (by omega), if_neg (by omega)]
        rfl
    · rw [checked_ub (x := A.npoints + 4) (by omega), if_neg (by omega)]
      rfl
  · rw [if_neg (by omega)]
    have ub : ∀ {β : Type} (x : Int) (f : Int → Res β), (checked x >>= f) = .ub ∨ (checked x >>= f) = f x := by
      intro β x f
      by_cases h : -2147483648 ≤ x ∧ x ≤ 2147483647
      · rw [checked_ok h.1 h.2]
        exact .inr rfl
      · rw [checked_ub (by omega)]
        exact .inl rfl
    rcases ub (k + 0) _ with h | h <;> rw [h]
    rcases ub (k + 1) _ with h | h <;> rw [h]
    rcases ub (k + 2) _ with h | h <;> rw [h]
    rcases ub (k + 3) _ with h | h <;> rw [h]
    rcases ub (k + 4) _ with h | h <;> rw [h]
    rcases ub ((k + 1) * 4) _ with h | h <;> rw [h]
    rcases ub ((k + 2) * 4) _ with h | h <;> rw [h]
    rcases ub ((k + 3) * 4) _ with h | h <;> rw [h]
    rw [checked_ub (x := (k + 4) * 4) (by omega)]
    rfl

/-- What the counters of a mesh must leave room for: `n` more cells. -/
def RoomFor (n : Int) (st : Int × MeshArrays K) : Prop :=
  (st.1 + 4 * n) * 4 ≤ 2147483647 ∧ st.2.npoints + 4 * n ≤ 2147483647 ∧ st.2.ncells + n ≤ 2147483647

instance (n : Int) (st : Int × MeshArrays K) : Decidable (RoomFor n st) := inferInstanceAs (Decidable (_ ∧ _ ∧ _))

theorem fold32 (cs : List (Grid K × Nat × Nat)) (hcs : ∀ c ∈ cs, c.2.1 < 2147483647 ∧ c.2.2 < 2147483647) {st : Int × MeshArrays K}
    (h0 : 0 ≤ st.1) (hp : 0 ≤ st.2.npoints) (hc : 0 ≤ st.2.ncells) (hr : RoomFor 0 st) :
    cs.foldlM (fun st c => addCell32 c.1 c.2.1 c.2.2 st) st
      = if RoomFor cs.length st then .ok (cs.foldl (fun st c => addCell c.1 c.2.1 c.2.2 st) st) else .ub := by
  induction cs generalizing st with
  | nil => exact (if_pos hr).symm
  | cons c cs ih =>
    obtain ⟨a, b⟩ := hcs c (by simp)
    rw [List.foldlM_cons, List.foldl_cons, addCell32_eq a b h0 hp hc]
    unfold RoomFor at hr
    by_cases h : (st.1 + 4) * 4 ≤ 2147483647 ∧ st.2.npoints + 4 ≤ 2147483647 ∧ st.2.ncells + 1 ≤ 2147483647
    · have e1 : (addCell c.1 c.2.1 c.2.2 st).1 = st.1 + 4 := rfl
      have e2 : (addCell c.1 c.2.1 c.2.2 st).2.npoints = st.2.npoints + 4 := rfl
      have e3 : (addCell c.1 c.2.1 c.2.2 st).2.ncells = st.2.ncells + 1 := rfl
      rw [if_pos h, Res.ok_bind, ih (fun c hc => hcs c (by simp [hc])) (by omega) (by omega) (by omega)
        (by unfold RoomFor; omega)]
      refine if_congr ?_ rfl rfl
      unfold RoomFor
      rw [e1, e2, e3, List.length_cons]
      push_cast
      omega
    · rw [if_neg h, if_neg]
      · rfl
      · unfold RoomFor
        rw [List.length_cons]
        push_cast
        omega

/-- The cells of patches with the grids they belong to. -/
def cellList (L : List (Patch K)) : List (Grid K × Nat × Nat) := L.flatMap fun p => (cellIndices p.grid.nx p.grid.ny).map fun c => (p.grid, c)

theorem cellList_length (L : List (Patch K)) : (cellList L).length = (L.flatMap fun p => gridCells p.grid).length := by
  simp [cellList, gridCells, List.length_flatMap]

theorem addLeaves32 (L : List (Patch K)) (st : Int × MeshArrays K) :
    L.foldlM (fun st p => addLeaf32 p.grid st) st = (cellList L).foldlM (fun st c => addCell32 c.1 c.2.1 c.2.2 st) st := by
  unfold cellList
  induction L generalizing st with
  | nil => rfl
  | cons p L ih =>
    rw [List.foldlM_cons, List.flatMap_cons, List.foldlM_append, List.foldlM_map, addLeaf32, forN_cells]
    congr 1
    funext st
    exact ih st

theorem addLeaves' (L : List (Patch K)) (st : Int × MeshArrays K) :
    L.foldlM (fun st p => addLeaf p.grid st) st = .ok ((cellList L).foldl (fun st c => addCell c.1 c.2.1 c.2.2 st) st) := by
  unfold cellList
  induction L generalizing st with
  | nil => rfl
  | cons p L ih =>
    rw [List.foldlM_cons, List.flatMap_cons, List.foldl_append, List.foldl_map, addLeaf, forN_cells, foldlM_pure, Res.ok_bind]
    exact ih _

theorem mem_cellList {L : List (Patch K)} (hL : ∀ p ∈ L, p.grid.nx ≤ 2147483647 ∧ p.grid.ny ≤ 2147483647) :
    ∀ c ∈ cellList L, c.2.1 < 2147483647 ∧ c.2.2 < 2147483647 := by
  intro c hc
  simp only [cellList, List.mem_flatMap, List.mem_map, cellIndices, List.mem_range] at hc
  obtain ⟨p, hp, ⟨i, j⟩, ⟨i', hi, j', hj, e⟩, rfl⟩ := hc
  cases e
  have := hL p hp
  dsimp only
  omega

theorem cells_rects (L : List (Patch K)) (st : Int × MeshArrays K) :
    (cellList L).foldl (fun st c => addCell c.1 c.2.1 c.2.2 st) st
      = (L.flatMap fun p => gridCells p.grid).foldl (fun st R => addRect R st) st := by
  have h := addLeaves_eq L st
  rw [addLeaves', Res.ok_inj] at h
  exact h

/-- `setMeshFromQuadtree` with 32-bit integers: as with unbounded ones when there is room for the cells, undefined else. -/
theorem setMesh32_eq {M r : Nat} {F : Forest} (hM : F.depth ≤ M) (hF : F.Sorted) {t : Tree (Patch K)} {m : Mesh K}
    (h : Rep r F t [] m.quadtree.map) (hg : ∀ p ∈ leavesOf r F t, p.grid.nx ≤ 2147483647 ∧ p.grid.ny ≤ 2147483647)
    (hp : 0 ≤ m.arrays.npoints) (hc : 0 ≤ m.arrays.ncells) (hr : RoomFor 0 ((0 : Int), m.arrays)) :
    if RoomFor (meshCells r F t).length ((0 : Int), m.arrays) then
      ∃ q, m.setMeshFromQuadtree32 M r F = .ok { m with quadtree := q, arrays := m.arrays.append (freshArrays 0 (meshCells r F t)) } ∧
        Rep r F t [] q.map ∧ q.userPointer = .this
    else m.setMeshFromQuadtree32 M r F = .ub := by
  have f := fold32 (cellList (leavesOf r F t)) (mem_cellList hg) (st := ((0 : Int), m.arrays)) le_rfl hp hc hr
  rw [← addLeaves32, cellList_length, cells_rects, addRects_eq] at f
  change _ = if RoomFor (meshCells r F t).length ((0 : Int), m.arrays) then _ else _ at f
  have e := leafVisit_run (M := M) (fn := look fun p st => addLeaf32 p.grid st) F Addr.Valid.nil (by simpa using hM) hF
    (s := ((0 : Int), m.arrays)) h
  rw [leafPass_look F h, f] at e
  unfold Mesh.setMeshFromQuadtree32 Quadtree.traversePreOrder
  by_cases hn : RoomFor (meshCells r F t).length ((0 : Int), m.arrays)
  · rw [if_pos hn]
    rw [if_pos hn] at e
    obtain ⟨m', e1, e2, -⟩ := e
    refine ⟨⟨m', .this⟩, ?_, e2, rfl⟩
    have e3 : searchPre M r (searchVisit M r .this (leafVisit fun p st => do
        let st ← addLeaf32 p.grid st
        pure (p, st))) F .root (m.quadtree.map, ((0 : Int), m.arrays)) = _ := e1
    rw [e3]
    rfl
  · rw [if_neg hn]
    rw [if_neg hn] at e
    have e3 : searchPre M r (searchVisit M r .this (leafVisit fun p st => do
        let st ← addLeaf32 p.grid st
        pure (p, st))) F .root (m.quadtree.map, ((0 : Int), m.arrays)) = _ := e
    rw [e3]
    rfl

end mesh

/-! ## The solver -/

namespace FVSolver
variable [Field K]

theorem gridIndex32_ok {i j ny : Int} (nx : Int) (h1 : -2147483648 ≤ i * ny) (h2 : i * ny ≤ 2147483647) (h3 : -2147483648 ≤ j + i * ny)
    (h4 : j + i * ny ≤ 2147483647) : gridIndex2MatrixIndex32 i j nx ny = .ok (j + i * ny) := by
  rw [gridIndex2MatrixIndex32, checked_ok h1 h2, Res.ok_bind, checked_ok h3 h4]

/-- The indices computed for a cell of a grid that is not too large. -/
theorem cellIndices32_ok {N i j : Nat} (hN : N ≤ 46340) (hi : i < N) (hj : j < N) : cellIndices32 N N i j = .ok () := by
  have a : (i : Int) * N ≤ 46339 * 46340 := mul_le_mul (by omega) (by omega) (by omega) (by omega)
  have b : 0 ≤ (i : Int) * N := by positivity
  have c : ((i : Int) - 1) * N = i * N - N := by ring
  have d : ((i : Int) + 1) * N = i * N + N := by ring
  unfold cellIndices32
  rw [gridIndex32_ok _ (by omega) (by omega) (by omega) (by omega), Res.ok_bind,
    gridIndex32_ok _ (by rw [c]; omega) (by rw [c]; omega) (by rw [c]; omega) (by rw [c]; omega), Res.ok_bind,
    gridIndex32_ok _ (by rw [d]; omega) (by rw [d]; omega) (by rw [d]; omega) (by rw [d]; omega), Res.ok_bind,
    gridIndex32_ok _ (by omega) (by omega) (by omega) (by omega), Res.ok_bind,
    gridIndex32_ok _ (by omega) (by omega) (by omega) (by omega), Res.ok_bind]
  rfl

theorem forN_congr' {σ : Type} {n : Nat} {b₁ b₂ : Nat → σ → Res σ} {s : σ} (h : ∀ i, i < n → ∀ s, b₁ i s = b₂ i s) :
    forN n b₁ s = forN n b₂ s := forN_congr h

theorem assemble32_eq (s : FVSolver K) {grid : Grid K} (gs : Sides K) (rhs : Vec K) {N : Nat} (hx : grid.nx = N) (hy : grid.ny = N)
    (hN : N ≤ 46340) : s.assemble32 grid gs rhs = s.assemble grid gs rhs := by
  unfold assemble32 assemble
  rw [hx, hy]
  refine forN_congr fun j hj st => forN_congr fun i hi st => ?_
  rw [cellIndices32_ok hN hi hj]
  rfl

theorem sides32_eq {grid : Grid K} (g : Vec K) (h : grid.nx ≤ 715827882) : sides32 grid g = sides grid g := by
  unfold sides32 sides
  dsimp only
  rw [checked_ok (by omega) (by omega), Res.ok_bind, checked_ok (by omega) (by omega), checked_ok (by omega) (by omega),
    checked_ok (by omega) (by omega)]
  simp only [Res.ok_bind]
  rw [show (0 * (grid.nx : Int)).toNat = 0 * grid.nx by omega, show (1 * (grid.nx : Int)).toNat = 1 * grid.nx by omega,
    show (2 * (grid.nx : Int)).toNat = 2 * grid.nx by omega, show (3 * (grid.nx : Int)).toNat = 3 * grid.nx by omega]

theorem square_le {N : Nat} (hN : N ≤ 46340) : N * N ≤ 2147395600 := Nat.mul_le_mul hN hN

theorem solve32_eq (lu : PetscLU K) (s : FVSolver K) {grid : Grid K} (g rhs : Vec K) {N : Nat} (hx : grid.nx = N) (hy : grid.ny = N)
    (hN : N ≤ 46340) : s.solve32 lu grid g rhs = s.solve lu grid g rhs := by
  have h2 := square_le hN
  unfold solve32 solve
  rw [sides32_eq g (by omega)]
  congr 1
  funext gs
  rw [hx, hy, ← Nat.cast_mul, checked_ok (by omega) (by omega), Res.ok_bind, assemble32_eq s gs rhs hx hy hN, Int.toNat_natCast]

theorem edgeCells32_eq (u : Vec K) {N : Nat} (hN : N ≤ 46340) : edgeCells32 N u = edgeCells N u := by
  have h2 := square_le hN
  unfold edgeCells32 edgeCells
  congr 1
  · refine forN_congr fun j hj st => ?_
    have a : ((N : Int) - 1) * N = (((N - 1) * N : Nat) : Int) := by
      rw [Nat.cast_mul, Nat.cast_sub (by omega)]
      rfl
    have b : (N - 1) * N + N ≤ 2147395600 := by
      rw [← Nat.succ_mul, Nat.succ_eq_add_one, Nat.sub_add_cancel (by omega)]
      exact h2
    dsimp only
    rw [checked_ok (by omega) (by omega), Res.ok_bind, a, checked_ok (by omega) (by omega), Res.ok_bind, checked_ok (by omega) (by omega),
      Res.ok_bind, show ((((N - 1) * N : Nat) : Int) + j).toNat = (N - 1) * N + j by omega]
  · funext we
    congr 1
    refine forN_congr fun i hi st => ?_
    have b : (i + 1) * N ≤ 2147395600 := le_trans (Nat.mul_le_mul_right N (by omega : i + 1 ≤ N)) h2
    have c : i * N ≤ (i + 1) * N := Nat.mul_le_mul_right N (by omega)
    have d : ((i : Int) + 1) * N = (((i + 1) * N : Nat) : Int) := by push_cast; ring
    dsimp only
    rw [← Nat.cast_mul, checked_ok (by omega) (by omega), Res.ok_bind, checked_ok (by omega) (by omega), Res.ok_bind, d,
      checked_ok (by omega) (by omega), Res.ok_bind, checked_ok (by omega) (by omega), Res.ok_bind, Int.toNat_natCast,
      show ((((i + 1) * N : Nat) : Int) - 1).toNat = (i + 1) * N - 1 by omega]

theorem mapD2N32_eq (lu : PetscLU K) (s : FVSolver K) {grid : Grid K} (g rhs : Vec K) {N : Nat} (hx : grid.nx = N) (hy : grid.ny = N)
    (hN : N ≤ 46340) : s.mapD2N32 lu grid g rhs = s.mapD2N lu grid g rhs := by
  unfold mapD2N32 mapD2N mapD2NWith
  rw [sides32_eq g (by omega), solve32_eq lu s g rhs hx hy hN, hx]
  dsimp only
  rw [show checked (4 * (N : Int)) = .ok (4 * (N : Int)) from checked_ok (by omega) (by omega)]
  simp only [edgeCells32_eq _ hN, Res.ok_bind, show (4 * (N : Int)).toNat = 4 * N by omega]

theorem sides32_cases {grid : Grid K} {N : Nat} (hx : grid.nx = N) (f : Nat → K) :
    (∃ gs, sides32 grid (Vec.ofFn (4 * N) f) = .ok gs) ∨ sides32 grid (Vec.ofFn (4 * N) f) = .ub := by
  have h4 : ∀ x : Int, checked x = .ok x ∨ checked x = .ub := by
    intro x
    unfold checked
    split_ifs
    · exact Or.inl rfl
    · exact Or.inr rfl
  unfold sides32
  rw [hx]
  dsimp only
  rcases h4 (0 * (N : Int)) with h | h <;> rw [h]
  · rw [Res.ok_bind, Vec.getSegment_ofFn (by omega), Res.ok_bind]
    rcases h4 (1 * (N : Int)) with h | h <;> rw [h]
    · rw [Res.ok_bind, Vec.getSegment_ofFn (by omega), Res.ok_bind]
      rcases h4 (2 * (N : Int)) with h | h <;> rw [h]
      · rw [Res.ok_bind, Vec.getSegment_ofFn (by omega), Res.ok_bind]
        rcases h4 (3 * (N : Int)) with h | h <;> rw [h]
        · rw [Res.ok_bind, Vec.getSegment_ofFn (by omega)]
          exact .inl ⟨_, rfl⟩
        · exact .inr rfl
      · exact .inr rfl
    · exact .inr rfl
  · exact .inr rfl

/-- Above the bound the number of unknowns does not fit. -/
theorem solve32_ub (lu : PetscLU K) (s : FVSolver K) {grid : Grid K} (f : Nat → K) (rhs : Vec K) {N : Nat} (hx : grid.nx = N)
    (hy : grid.ny = N) (hN : 46340 < N) : s.solve32 lu grid (Vec.ofFn (4 * N) f) rhs = .ub := by
  have h2 : 46341 * 46341 ≤ N * N := Nat.mul_le_mul hN hN
  unfold solve32
  rcases sides32_cases hx f with ⟨gs, h⟩ | h <;> rw [h]
  · rw [Res.ok_bind, hx, hy, ← Nat.cast_mul, checked_ub (by omega)]
    rfl
  · rfl

theorem mapD2N32_ub (lu : PetscLU K) (s : FVSolver K) {grid : Grid K} (f : Nat → K) (rhs : Vec K) {N : Nat} (hx : grid.nx = N)
    (hy : grid.ny = N) (hN : 46340 < N) : s.mapD2N32 lu grid (Vec.ofFn (4 * N) f) rhs = .ub := by
  unfold mapD2N32
  rw [solve32_ub lu s f rhs hx hy hN]
  rcases sides32_cases hx f with ⟨gs, h⟩ | h <;> rw [h] <;> rfl

end FVSolver
end EF
