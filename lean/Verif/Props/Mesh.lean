import Verif.Proofs.Mesh
import Verif.Props.Quadtree

/-!
# Properties C42 and C43: mesh arrays
-/

namespace EF

variable {K τ : Type} [Field K]

/-! ## C42 -/

/-- C42, the part that holds: for a mesh without arrays so far, `setMeshFromQuadtree` makes arrays that describe the cells of
the rank's leaves (number of cells, corner points, connectivity, and the offset and type of every cell), and leaves the
patches as they are.  Missing: offsets and types have more entries than cells, see `C42_offsets_actual`. -/
theorem C42_arrays_partial {M r : Nat} {F : Forest} (hM : F.depth ≤ M) (hF : F.Sorted) {t : Tree (Patch K)}
    {q : Quadtree (Patch K)} (h : Rep r F t [] q.map) (fs : List (Vec K)) :
    ∃ m', Mesh.setMeshFromQuadtree M r F ⟨q, MeshArrays.new, fs⟩ = .ok m' ∧ m'.arrays.Describes (meshCells r F t) ∧
      m'.functions = fs ∧ Rep r F t [] m'.quadtree.map := by
  obtain ⟨q', h1, h2, -⟩ := setMesh_eq hM hF (m := ⟨q, MeshArrays.new, fs⟩) h
  refine ⟨_, h1, ?_, rfl, h2⟩
  have e : (MeshArrays.new : MeshArrays K).append (freshArrays 0 (meshCells r F t)) = freshArrays 0 (meshCells r F t) := by
    unfold MeshArrays.append MeshArrays.new freshArrays Vec.append Vec.empty
    simp [Vec.ofFn, Vec.ofList]
  dsimp only
  rw [e]
  exact describes_fresh _

/-- C42 for a mesh made from a p4est: its cells are the cells of the leaves of the rank, cut out of the root rectangle. -/
theorem C42_new_mesh_partial {M : Nat} (r : Nat) {F : Forest} (hM : F.depth ≤ M) (hF : F.Sorted) (p : Patch K)
    (saved : UserPointer) :
    ∃ m, Mesh.new M r p FVFactory.factory F saved = .ok m ∧ m.arrays.Describes (meshCells r F (startTree p F [])) ∧
      Rep r F (startTree p F []) [] m.quadtree.map := by
  obtain ⟨m0, h1, h2⟩ := construct_ok (M := M) r p hM hF
  obtain ⟨m', h3, h4, -, h5⟩ := C42_arrays_partial hM hF (q := ⟨m0, saved⟩) h2.rep []
  refine ⟨m', ?_, h4, h5⟩
  unfold Mesh.new Quadtree.new
  rw [h1, Res.ok_bind, Res.pure_def, Res.ok_bind, h3]

/-- C42: what the code does with offsets and types: four of each per cell. -/
theorem C42_offsets_actual {M r : Nat} {F : Forest} (hM : F.depth ≤ M) (hF : F.Sorted) {t : Tree (Patch K)}
    {q : Quadtree (Patch K)} (h : Rep r F t [] q.map) (fs : List (Vec K)) :
    ∃ m', Mesh.setMeshFromQuadtree M r F ⟨q, MeshArrays.new, fs⟩ = .ok m' ∧
      m'.arrays.offsets.size = 4 * (meshCells r F t).length ∧ m'.arrays.types.size = 4 * (meshCells r F t).length := by
  obtain ⟨q', h1, -, -⟩ := setMesh_eq hM hF (m := ⟨q, MeshArrays.new, fs⟩) h
  exact ⟨_, h1, by simp [MeshArrays.append, MeshArrays.new, freshArrays, Vec.append, Vec.empty],
    by simp [MeshArrays.append, MeshArrays.new, freshArrays, Vec.append, Vec.empty]⟩

/-- C42 is false as stated: already for a mesh of one cell there is more than one offset per cell. -/
theorem C42_offsets_wrong :
    ¬ ∀ (M r : Nat) (F : Forest), F.depth ≤ M → F.Sorted → ∀ p : Patch ℚ,
      ∃ m, Mesh.new M r p FVFactory.factory F .null = .ok m ∧ m.arrays.OnePerCell (meshCells r F (startTree p F [])) := by
  intro H
  obtain ⟨m, h1, h2, -⟩ := H 30 0 (.leaf 0) (by decide) (by unfold Forest.Sorted; decide) (Patch.fresh ⟨1, 1, 0, 1, 0, 1⟩)
  obtain ⟨m0, h3, h4⟩ := construct_ok (M := 30) 0 (Patch.fresh (⟨1, 1, 0, 1, 0, 1⟩ : Grid ℚ)) (F := .leaf 0) (by decide)
    (by unfold Forest.Sorted; decide)
  obtain ⟨m', h5, h6, -⟩ := C42_offsets_actual (by decide : (Forest.leaf 0).depth ≤ 30) (by unfold Forest.Sorted; decide)
    (q := ⟨m0, .null⟩) h4.rep []
  have e : Mesh.new 30 0 (Patch.fresh (⟨1, 1, 0, 1, 0, 1⟩ : Grid ℚ)) FVFactory.factory (.leaf 0) .null = .ok m' := by
    unfold Mesh.new Quadtree.new
    rw [h3, Res.ok_bind, Res.pure_def, Res.ok_bind, h5]
  rw [e, Res.ok_inj] at h1
  subst h1
  rw [h6] at h2
  revert h2
  decide

/-- C42: the number of cells is the total number of leaf cells. -/
theorem C42_count (r : Nat) (F : Forest) (t : Tree (Patch K)) :
    (meshCells r F t).length = ((leavesOf r F t).map fun p => p.grid.nx * p.grid.ny).sum := by
  exact cells_length _

/-- C42: cell `(i, j)` of a leaf has the number of cells of the earlier leaves plus `j + i ny`, the index of the cell in the
vectors of the patch. -/
theorem C42_cell_number {r : Nat} {F : Forest} {t : Tree (Patch K)} {L1 L2 : List (Patch K)} {p : Patch K}
    (h : leavesOf r F t = L1 ++ p :: L2) {i j : Nat} (hi : i < p.grid.nx) (hj : j < p.grid.ny) :
    (meshCells r F t)[(L1.map fun p => p.grid.nx * p.grid.ny).sum + (j + i * p.grid.ny)]?
      = some (cellRect p.grid.rect p.grid.nx p.grid.ny i j) := by
  have hlt : j + i * p.grid.ny < p.grid.nx * p.grid.ny := by
    have := Nat.mul_le_mul_right p.grid.ny (Nat.succ_le_of_lt hi)
    rw [Nat.succ_mul] at this
    omega
  unfold meshCells
  rw [h, List.flatMap_append, List.flatMap_cons, ← cells_length, List.getElem?_append_right (by omega), Nat.add_sub_cancel_left,
    List.getElem?_append_left (by rw [gridCells_length]; exact hlt), gridCells_get _ hi hj]

/-- C42, cell data: when `iteratePatches` appends a vector of every leaf (one entry per cell) to a vector, the entry for cell
`(i, j)` of a leaf has the number of that cell. -/
theorem C42_appended_data {M r : Nat} {F : Forest} (hM : F.depth ≤ M) (hF : F.Sorted) {t : Tree (Patch K)} {m : Mesh K}
    (h : Rep r F t [] m.quadtree.map) (field : Patch K → Vec K)
    (hw : ∀ p ∈ leavesOf r F t, (field p).WF ∧ (field p).size = p.grid.nx * p.grid.ny) :
    ∃ m' v, m.iteratePatches M r F (fun p v => pure (p, v.append (field p))) Vec.empty = .ok (m', v) ∧
      v.size = (meshCells r F t).length ∧ Rep r F t [] m'.quadtree.map ∧
      ∀ L1 p L2, leavesOf r F t = L1 ++ p :: L2 → ∀ i j, i < p.grid.nx → j < p.grid.ny →
        v.get ((L1.map fun p => p.grid.nx * p.grid.ny).sum + (j + i * p.grid.ny)) = (field p).get (j + i * p.grid.ny) := by
  have e := iteratePatches_eq hM hF h (look fun p (v : Vec K) => pure (v.append (field p))) Vec.empty
  have e0 : ∀ L : List (Patch K), ∀ v : Vec K, L.foldlM (fun v p => (pure (v.append (field p)) : Res (Vec K))) v
      = .ok (v.append ⟨(L.map fun p => (field p).size).sum, L.flatMap fun p => (field p).data⟩) := by
    intro L
    induction L with
    | nil => intro v; simp [Vec.append]
    | cons p L ih =>
      intro v
      rw [List.foldlM_cons, Res.pure_def, Res.ok_bind, ih, Vec.append_assoc]
      rfl
  rw [leafPass_look F h, e0] at e
  obtain ⟨q, e1, e2, -⟩ := e
  refine ⟨_, _, e1, ?_, e2, ?_⟩
  · rw [C42_count]
    simp only [Vec.append, Vec.empty, Nat.zero_add]
    congr 1
    exact List.map_congr_left fun p hp => (hw p hp).2
  · intro L1 p L2 hL i j hi hj
    have hlt : j + i * p.grid.ny < p.grid.nx * p.grid.ny := by
      have := Nat.mul_le_mul_right p.grid.ny (Nat.succ_le_of_lt hi)
      rw [Nat.succ_mul] at this
      omega
    have hp := hw p (by rw [hL]; simp)
    have h1 : (L1.flatMap fun p => (field p).data).length = (L1.map fun p => p.grid.nx * p.grid.ny).sum := by
      rw [List.length_flatMap]
      congr 1
      refine List.map_congr_left fun p' hp' => ?_
      have := hw p' (by rw [hL]; simp [hp'])
      exact this.1.trans this.2
    unfold Vec.get
    dsimp only [Vec.append, Vec.empty]
    have hs : ¬ (L1.map fun p => p.grid.nx * p.grid.ny).sum + (j + i * p.grid.ny) > 0 + ((leavesOf r F t).map fun p => (field p).size).sum := by
      rw [List.map_congr_left (g := fun p : Patch K => p.grid.nx * p.grid.ny) fun p hp => (hw p hp).2, hL, List.map_append,
        List.map_cons, List.sum_append, List.sum_cons]
      omega
    refine (if_neg hs).trans ?_
    rw [if_neg (by rw [hp.2]; omega)]
    unfold rd
    rw [List.nil_append, hL, List.flatMap_append, List.flatMap_cons, List.getElem?_append_right (by omega), h1,
      Nat.add_sub_cancel_left, List.getElem?_append_left (by rw [hp.1, hp.2]; exact hlt)]

/-- C42: `iterateCells` hands the centre of every cell to the callback, in the order of the cells. -/
theorem C42_iterate_cells [NeZero (2 : K)] {M r : Nat} {F : Forest} (hM : F.depth ≤ M) (hF : F.Sorted) {t : Tree (Patch K)}
    {m : Mesh K} (h : Rep r F t [] m.quadtree.map) (log : List (K × K)) :
    ∃ m', m.iterateCells M r F (fun x y log => pure (log ++ [(x, y)])) log
        = .ok (m', log ++ (meshCells r F t).map Rect.centre) ∧ Rep r F t [] m'.quadtree.map := by
  have e := iterateCells_eq hM hF h (fun x y log => pure (log ++ [(x, y)])) log
  have e0 : ∀ C : List (Rect K), ∀ log, C.foldlM (fun log R => (pure (log ++ [(R.centre.1, R.centre.2)]) : Res (List (K × K)))) log
      = .ok (log ++ C.map Rect.centre) := by
    intro C
    induction C with
    | nil => intro log; simp
    | cons R C ih => intro log; rw [List.foldlM_cons, Res.pure_def, Res.ok_bind, ih]; simp
  rw [e0] at e
  obtain ⟨q, e1, e2, -⟩ := e
  exact ⟨_, e1, e2⟩

/-- C42: the `k`-th entry of a mesh function added as a function is its value at the centre of the `k`-th cell. -/
theorem C42_mesh_function [NeZero (2 : K)] {M r : Nat} {F : Forest} (hM : F.depth ≤ M) (hF : F.Sorted) {t : Tree (Patch K)}
    {m : Mesh K} (h : Rep r F t [] m.quadtree.map) (fn : K → K → K) :
    ∃ m' v, m.addMeshFunction M r F fn = .ok m' ∧ m'.functions = m.functions ++ [v] ∧ m'.arrays = m.arrays ∧
      Rep r F t [] m'.quadtree.map ∧ v.size = (meshCells r F t).length ∧
      ∀ (k : Nat) (hk : k < (meshCells r F t).length), v.get k
        = .ok (fn (meshCells r F t)[k].centre.1 (meshCells r F t)[k].centre.2) := by
  obtain ⟨q, h1, h2, -⟩ := addMeshFunction_eq hM hF h fn
  refine ⟨_, _, h1, rfl, rfl, h2, by simp [Vec.ofList], ?_⟩
  intro k hk
  unfold Vec.get Vec.ofList rd
  dsimp only
  rw [if_neg (by rw [List.length_map]; omega), List.getElem?_map, List.getElem?_eq_getElem hk]
  rfl

/-! ## C43 -/

/-- C43: what the code does: the arrays for the current tree are appended to the arrays that were there, with the numbering
of the points starting again at zero. -/
theorem C43_rebuild_actual {M r : Nat} {F : Forest} (hM : F.depth ≤ M) (hF : F.Sorted) {t : Tree (Patch K)} {m : Mesh K}
    (h : Rep r F t [] m.quadtree.map) :
    ∃ (m' : Mesh K) (B : MeshArrays K), m.setMeshFromQuadtree M r F = .ok m' ∧ B.Describes (meshCells r F t) ∧
      m'.arrays.ncells = m.arrays.ncells + B.ncells ∧ m'.arrays.npoints = m.arrays.npoints + B.npoints ∧
      m'.arrays.points = m.arrays.points.append B.points ∧
      m'.arrays.connectivity = m.arrays.connectivity.append B.connectivity ∧
      m'.arrays.offsets = m.arrays.offsets.append B.offsets ∧ m'.arrays.types = m.arrays.types.append B.types := by
  obtain ⟨q, h1, -, -⟩ := setMesh_eq hM hF h
  exact ⟨_, _, h1, describes_fresh _, rfl, rfl, rfl, rfl, rfl, rfl⟩

/-- C43 is false: calling `setMeshFromQuadtree` on a mesh made from a p4est (which has already called it) gives arrays that do
not describe the cells of the tree. -/
theorem C43_rebuild_wrong :
    ¬ ∀ (M r : Nat) (F : Forest), F.depth ≤ M → F.Sorted → ∀ p : Patch ℚ,
      ∃ m m', Mesh.new M r p FVFactory.factory F .null = .ok m ∧ m.setMeshFromQuadtree M r F = .ok m' ∧
        m'.arrays.Describes (meshCells r F (startTree p F [])) := by
  intro H
  have hF : (Forest.leaf 0).Sorted := by unfold Forest.Sorted; decide
  obtain ⟨m, m', h1, h2, h3⟩ := H 30 0 (.leaf 0) (by decide) hF (Patch.fresh ⟨1, 1, 0, 1, 0, 1⟩)
  obtain ⟨m1, k1, k2, k3⟩ := C42_new_mesh_partial 0 (by decide : (Forest.leaf 0).depth ≤ 30) hF
    (Patch.fresh (⟨1, 1, 0, 1, 0, 1⟩ : Grid ℚ)) .null
  rw [h1, Res.ok_inj] at k1
  subst k1
  obtain ⟨m2, B, b1, b2, b3, -⟩ := C43_rebuild_actual (by decide : (Forest.leaf 0).depth ≤ 30) hF k3
  rw [h2, Res.ok_inj] at b1
  subst b1
  have e := h3.ncells
  rw [b3, k2.ncells, b2.ncells] at e
  revert e
  decide

/-- C43, the part that holds: refining a mesh without arrays gives arrays for the new tree only.  Missing: a second
refinement, see `C43_refine_again_wrong`. -/
theorem C43_first_refinement_partial {M r : Nat} {F : Forest} (hM : F.depth ≤ M) (hF : F.Sorted) (p : Patch K)
    (q : Quadtree (Patch K)) (fs : List (Vec K)) :
    ∃ m', Mesh.refineByFunction M r F p FVFactory.factory ⟨q, MeshArrays.new, fs⟩ = .ok m' ∧
      m'.arrays.Describes (meshCells r F (startTree p F [])) ∧ Rep r F (startTree p F []) [] m'.quadtree.map := by
  obtain ⟨m0, h1, h2⟩ := construct_ok (M := M) r p hM hF
  obtain ⟨m', h3, h4, -, h5⟩ := C42_arrays_partial hM hF (q := ⟨m0, .other⟩) h2.rep fs
  refine ⟨m', ?_, h4, h5⟩
  unfold Mesh.refineByFunction Quadtree.new
  rw [h1, Res.ok_bind, Res.pure_def, Res.ok_bind, h3]

/-- C43 is false for refinement as well: refining twice leaves the cells of the first tree in the arrays. -/
theorem C43_refine_again_wrong :
    ¬ ∀ (M r : Nat) (F F' : Forest), F.depth ≤ M → F.Sorted → F'.depth ≤ M → F'.Sorted →
      ∀ (p : Patch ℚ) (q : Quadtree (Patch ℚ)), ∃ m m',
        Mesh.refineByFunction M r F p FVFactory.factory ⟨q, MeshArrays.new, []⟩ = .ok m ∧
        Mesh.refineByFunction M r F' p FVFactory.factory m = .ok m' ∧
        m'.arrays.Describes (meshCells r F' (startTree p F' [])) := by
  intro H
  have hF : (Forest.leaf 0).Sorted := by unfold Forest.Sorted; decide
  have hF' : (Forest.node (.leaf 0) (.leaf 0) (.leaf 0) (.leaf 0)).Sorted := by unfold Forest.Sorted; decide
  obtain ⟨m, m', h1, h2, h3⟩ := H 30 0 _ (.leaf 0) (by decide) hF' (by decide) hF (Patch.fresh ⟨1, 1, 0, 1, 0, 1⟩)
    ⟨fun _ => none, .null⟩
  obtain ⟨m1, k1, k2, k3⟩ := C43_first_refinement_partial (r := 0)
    (by decide : (Forest.node (.leaf 0) (.leaf 0) (.leaf 0) (.leaf 0)).depth ≤ 30) hF'
    (Patch.fresh (⟨1, 1, 0, 1, 0, 1⟩ : Grid ℚ)) ⟨fun _ => none, .null⟩ []
  rw [h1, Res.ok_inj] at k1
  subst k1
  obtain ⟨m0, c1, c2⟩ := construct_ok (M := 30) 0 (Patch.fresh (⟨1, 1, 0, 1, 0, 1⟩ : Grid ℚ)) (F := .leaf 0) (by decide) hF
  obtain ⟨m2, B, b1, b2, b3, -⟩ := C43_rebuild_actual (by decide : (Forest.leaf 0).depth ≤ 30) hF
    (m := { m with quadtree := ⟨m0, .other⟩ }) c2.rep
  unfold Mesh.refineByFunction Quadtree.new at h2
  rw [c1, Res.ok_bind, Res.pure_def, Res.ok_bind, b1, Res.ok_inj] at h2
  subst h2
  have e := h3.ncells
  rw [b3, b2.ncells] at e
  dsimp only at e
  rw [k2.ncells] at e
  revert e
  decide

/-! ## A concrete mesh -/

example (r : Nat) : ∃ m m' v, Mesh.new 30 r exRoot FVFactory.factory exForest .null = .ok m ∧
    m.arrays.Describes (meshCells r exForest (startTree exRoot exForest [])) ∧
    m.addMeshFunction 30 r exForest (fun x y => x + 2 * y) = .ok m' ∧ m'.functions = m.functions ++ [v] ∧
    v.size = (meshCells r exForest (startTree exRoot exForest [])).length := by
  obtain ⟨m, h1, h2, h3⟩ := C42_new_mesh_partial r exForest_depth exForest_sorted exRoot .null
  obtain ⟨m', v, k1, k2, -, -, k3, -⟩ := C42_mesh_function exForest_depth exForest_sorted h3 (fun x y => x + 2 * y)
  exact ⟨m, m', v, h1, h2, k1, k2, k3⟩

/-- Rank 1 of that forest has three leaves of sixteen cells. -/
example : (meshCells 1 exForest (startTree exRoot exForest [])).length = 48 := by decide +kernel

/-- The hypothesis on appended vectors: the load vector of a fresh patch has no entries, a constant one has the right size. -/
example : ∃ m m' v, Mesh.new 30 1 exRoot FVFactory.factory exForest .null = .ok m ∧
    m.iteratePatches 30 1 exForest (fun p v => pure (p, v.append (Vec.fill (p.grid.nx * p.grid.ny) p.grid.xl))) Vec.empty
      = .ok (m', v) ∧ v.size = (meshCells 1 exForest (startTree exRoot exForest [])).length := by
  obtain ⟨m, h1, h2, h3⟩ := C42_new_mesh_partial 1 exForest_depth exForest_sorted exRoot .null
  obtain ⟨m', v, k1, k2, -⟩ := C42_appended_data exForest_depth exForest_sorted h3
    (fun p => Vec.fill (p.grid.nx * p.grid.ny) p.grid.xl) (fun p _ => ⟨by simp [Vec.WF, Vec.fill], rfl⟩)
  exact ⟨m, m', v, h1, k1, k2⟩

end EF
