import Verif.Proofs.MeshPointers
import Verif.Props.Output

/-!
# C77: mesh functions are references

Stated on sequences of calls: which functions a file shows, and with which values, is read off the calls (`Spec/MeshUse.lean`).
-/

namespace EF

open MeshUse MeshCall

/-- C77: a file shows the functions added since the last `clear`, in that order.  A function given as a vector has the entries the
vector has when the file is written, whatever they were when it was added; a function of x and y has its values at the centres of
the cells.  Nothing requires the vectors to have one entry per cell: the file has as many numbers as the vector. -/
theorem C77_shows {P : Place} (hM : P.forest.depth ≤ P.M) (hF : P.forest.Sorted) {t : Tree (Patch ℚ)} {st0 : MeshUse}
    (hr : Rep P.rank P.forest t [] st0.mesh.quadtree.map) (hv : st0.vars = []) (hf : st0.mesh.functions = [])
    (hA : st0.mesh.arrays.Describes (meshCells P.rank P.forest t)) (hC : meshCells P.rank P.forest t ≠ []) {stack : Nat} (hs : 5 ≤ stack)
    {cs : List MeshCall} {st : MeshUse} (hc : calls P stack cs st0 = .ok st) {L : List (Text × List ℚ)}
    (hL : shown (meshCells P.rank P.forest t) cs = some L) (hn : (L.map Prod.fst).Nodup) (hp : ∀ p ∈ L, Plain p.1 ∧ p.2 ≠ [])
    {base : Text} (hb : '%' ∉ base) (number : Option Nat) (hbp : Plain (meshName base number)) (hl : (meshName base number).length ≤ 240)
    (hrk : P.rank < 10 ^ 10) (hz : P.size ≤ 10 ^ 10) :
    ∃ st' files doc, calls P stack (cs ++ [.write base number]) st0 = .ok st' ∧ st'.files = st.files ++ [files] ∧
      FilesOf (meshName base number) P.rank P.size files doc ∧ ShowsCells doc (meshCells P.rank P.forest t) ∧
      fieldNames doc = L.map (fun p => some p.1) ∧
      ∀ p ∈ L, numbersOf doc "CellData".toList p.1 = some (p.2.map fun x => readNumber (decimalText x)) := by
  have hI : Inv P.rank P.forest t st0.mesh.arrays st0.vecs.live ([] ++ cs) st := inv_calls hM hF cs (inv_start hr hv hf) hc
  rw [List.nil_append] at hI
  rcases hI.followed with ⟨k1, -⟩ | ⟨W, k1, k2⟩
  · rw [hL] at k1
    exact absurd k1 (by simp)
  · rw [hL] at k1
    obtain rfl := Option.some.inj k1
    have e1 : W.map Prod.fst = (W.map fun p => (p.1, p.2.data)).map Prod.fst := by
      rw [List.map_map]
      rfl
    obtain ⟨h', files, doc, f1, f2, f3, f4, f5⟩ := mesh_files (m := ⟨st.mesh.quadtree, st.mesh.arrays, W.map Prod.snd⟩)
      (names := W.map Prod.fst) hA hC hI.arrays (by simp) (by rw [e1]; exact hn)
      (by
        intro n hn
        obtain ⟨p, hp1, rfl⟩ := List.mem_map.mp hn
        exact (hp (p.1, p.2.data) (List.mem_map.mpr ⟨p, hp1, rfl⟩)).1)
      (by
        intro v hv
        obtain ⟨p, hp1, rfl⟩ := List.mem_map.mp hv
        exact (hp (p.1, p.2.data) (List.mem_map.mpr ⟨p, hp1, rfl⟩)).2)
      P hs hb number hbp hl hrk hz st.heap
    refine ⟨{ st with heap := h', files := st.files ++ [files] }, files, doc, ?_, rfl, f2, f3, ?_, ?_⟩
    · unfold calls at hc ⊢
      rw [List.foldlM_append, hc, Res.ok_bind, List.foldlM_cons]
      have e2 : st.call P stack (.write base number) = .ok { st with heap := h', files := st.files ++ [files] } := by
        show (st.mesh.toVTK st.vecs P stack base number st.heap >>= _) = _
        rw [toVTK_pointer k2, f1]
        rfl
      rw [e2]
      rfl
    · rw [f4, List.map_map, List.map_map]
      rfl
    · intro p hp
      obtain ⟨q, hq, rfl⟩ := List.mem_map.mp hp
      refine f5 q ?_
      rw [List.zip_map']
      exact List.mem_map.mpr ⟨q, hq, rfl⟩

/-- C77: when one of the functions added since the last `clear` is a vector whose life has ended, writing is undefined. -/
theorem C77_ended_actual {P : Place} (hM : P.forest.depth ≤ P.M) (hF : P.forest.Sorted) {t : Tree (Patch ℚ)} {st0 : MeshUse}
    (hr : Rep P.rank P.forest t [] st0.mesh.quadtree.map) (hv : st0.vars = []) (hf : st0.mesh.functions = []) {stack : Nat}
    {cs : List MeshCall} {st : MeshUse} (hc : calls P stack cs st0 = .ok st) (hL : shown (meshCells P.rank P.forest t) cs = none)
    (base : Text) (number : Option Nat) : calls P stack (cs ++ [.write base number]) st0 = .ub := by
  have hI : Inv P.rank P.forest t st0.mesh.arrays st0.vecs.live ([] ++ cs) st := inv_calls hM hF cs (inv_start hr hv hf) hc
  rw [List.nil_append] at hI
  rcases hI.followed with ⟨-, k2⟩ | ⟨W, k1, -⟩
  · unfold calls at hc ⊢
    rw [List.foldlM_append, hc, Res.ok_bind, List.foldlM_cons]
    have e2 : st.call P stack (.write base number) = .ub := by
      show (st.mesh.toVTK st.vecs P stack base number st.heap >>= _) = _
      unfold PMesh.toVTK
      rw [k2]
      rfl
    rw [e2]
    rfl
  · rw [hL] at k1
    exact absurd k1 (by simp)

/-- C77: it is enough that the vectors added since the last `clear` exist when the file is written; others may have ended. -/
theorem C77_enough (C : List (Rect ℚ)) (cs : List MeshCall)
    (h : ∀ i, Source.vector i ∈ sources cs → ∃ x, (objects cs)[i]? = some (some x)) :
    ∃ L, shown C cs = some L ∧ L.length = (sources cs).length := by
  unfold shown
  generalize sources cs = ss at h ⊢
  induction ss with
  | nil => exact ⟨[], rfl, rfl⟩
  | cons s ss ih =>
    obtain ⟨L, h1, h2⟩ := ih fun i hi => h i (List.mem_cons_of_mem _ hi)
    have hx : ∃ x, Source.shows (objects cs) C s = some x := by
      cases s with
      | vector i =>
        obtain ⟨x, hx⟩ := h i List.mem_cons_self
        refine ⟨x, ?_⟩
        show (objects cs)[i]?.join = _
        rw [hx]
        rfl
      | function fn name => exact ⟨_, rfl⟩
    obtain ⟨x, hx⟩ := hx
    refine ⟨x :: L, ?_, by simp [h2]⟩
    rw [List.mapM_cons, hx, h1]
    rfl

/-- C77, memory: besides the vectors of the program, one vector for every call that adds a function of x and y is in memory, whether
or not the functions were cleared since. -/
theorem C77_memory_actual {P : Place} (hM : P.forest.depth ≤ P.M) (hF : P.forest.Sorted) {t : Tree (Patch ℚ)} {st0 : MeshUse}
    (hr : Rep P.rank P.forest t [] st0.mesh.quadtree.map) (hv : st0.vars = []) (hf : st0.mesh.functions = []) {stack : Nat}
    {cs : List MeshCall} {st : MeshUse} (hc : calls P stack cs st0 = .ok st) :
    st.vecs.live = st0.vecs.live + (objects cs).countP (fun x => x.isSome) + sampled cs := by
  have hI : Inv P.rank P.forest t st0.mesh.arrays st0.vecs.live ([] ++ cs) st := inv_calls hM hF cs (inv_start hr hv hf) hc
  rw [List.nil_append] at hI
  exact hI.live

/-- C77: the file of the example program, with its vectors in memory, is the one of `C73`. -/
theorem C77_example (P : Place) (lap : Lapack ℚ) (ps : PatchSolver ℚ) (s : FVSolver ℚ) (opt : HPSOptions) (root : Patch ℚ)
    (f : ℚ → ℚ → ℚ) (bc : HPS.BoundaryFn ℚ) (exact : ℚ → ℚ → ℚ) (n stack : Nat) (V : Vectors) (h : Heap) :
    (examplePointers P lap ps s opt root f bc exact n stack V h >>= fun x => pure x.2) =
      exampleFiles P lap ps s opt root f bc exact n stack h :=
  (example_agree P lap ps s opt root f bc exact n stack V h).eq_map

/-- C77: so are the files of the time loop the ones of `C74`, although the mesh keeps pointers to vectors that have ended from one
output to the next. -/
theorem C77_time_loop (P : Place) (lap : Lapack ℚ) (ps : PatchSolver ℚ) (s : FVSolver ℚ) (opt : HPSOptions) (root : Patch ℚ) (c : Thermal ℚ)
    (nt : Nat) (vtk : Bool) (nVtk : Int) (stack : Nat) (V : Vectors) (h : Heap) :
    (Thermal.mainPointers P lap ps s opt root c nt vtk nVtk stack V h >>= fun x => pure x.2) =
      Thermal.main P lap ps s opt root c nt vtk nVtk stack h :=
  ((Thermal.main_agree P lap ps s opt root c nt vtk nVtk stack V h).mono fun _ _ h => h.1).eq_map

theorem Along.only {T α β : Type} {R : α → β → Prop} {Q : β → Prop} (hRQ : ∀ a b, R a b → Q b) {p : Prog T α} {q : Prog T β}
    (h : Along R p q) : Only Q q := by
  induction h with
  | ok h => exact .ok (hRQ _ _ h)
  | throw e => exact .throw
  | ub => exact .ub
  | allMax _ ih => exact .allMax ih
  | bcast _ ih => exact .bcast ih

/-- C77, memory of the time loop: a rank that comes to its end has three vectors more than at the start for every output. -/
theorem C77_time_loop_memory_actual {P : Place} {lap : Lapack ℚ} {ps : PatchSolver ℚ} {s : FVSolver ℚ} {opt : HPSOptions} {root : Patch ℚ}
    {c : Thermal ℚ} {nt : Nat} {vtk : Bool} {nVtk : Int} {stack : Nat} {V : Vectors} {h : Heap} {r k : Nat}
    {d e : Config (Patch ℚ) (Vectors × List (List (Text × Text)))}
    (hd : d r = Thermal.mainPointers P lap ps s opt root c nt vtk nVtk stack V h) (hrun : Run k d e)
    {x : Vectors × List (List (Text × Text))} (hx : e r = .fin (.ok x)) : x.1.live = V.live + 3 * x.2.length := by
  have h1 : Only (fun x : Vectors × List (List (Text × Text)) => x.1.live = V.live + 3 * x.2.length) (d r) := by
    rw [hd]
    exact Along.only (fun a b h => h.2) (Thermal.main_agree P lap ps s opt root c nt vtk nVtk stack V h)
  have h2 := h1.run hrun
  rw [hx] at h2
  exact h2.value

/-! ### A concrete mesh -/

/-- One leaf with two cells per side, nothing added yet. -/
theorem start_use : ∃ st : MeshUse, Rep 0 (.leaf 0) (startTree (Patch.fresh (⟨2, 2, 0, 1, 0, 1⟩ : Grid ℚ)) (.leaf 0) []) [] st.mesh.quadtree.map ∧
    st.vars = [] ∧ st.mesh.functions = [] ∧ st.vecs.live = 0 ∧
    st.mesh.arrays.Describes (meshCells 0 (.leaf 0) (startTree (Patch.fresh (⟨2, 2, 0, 1, 0, 1⟩ : Grid ℚ)) (.leaf 0) [])) := by
  obtain ⟨m, -, h2, h3, -⟩ := refine_first (M := 30) (F := .leaf 0) (by decide) (by unfold Forest.Sorted; decide)
    (Patch.fresh (⟨2, 2, 0, 1, 0, 1⟩ : Grid ℚ)) 0
  exact ⟨⟨⟨m.quadtree, m.arrays, []⟩, ⟨fun _ => none, 0⟩, [], ⟨fun _ => none, 0⟩, []⟩, h3, rfl, rfl, rfl, h2⟩

/-- C77 is false where it speaks of memory: after adding a function of x and y and clearing the functions, with no vector of the
program left, there is a vector in memory that was not there before. -/
theorem C77_memory_wrong : ¬ ∀ (P : Place) (t : Tree (Patch ℚ)) (st0 : MeshUse), P.forest.depth ≤ P.M → P.forest.Sorted →
    Rep P.rank P.forest t [] st0.mesh.quadtree.map → st0.vars = [] → st0.mesh.functions = [] → ∀ (cs : List MeshCall) (st : MeshUse),
    calls P 5 (cs ++ [.clear]) st0 = .ok st → (∀ x ∈ objects cs, x = none) → st.vecs.live = st0.vecs.live := by
  intro H
  obtain ⟨st0, h1, h2, h3, h4, -⟩ := start_use
  let P : Place := ⟨30, 1, 0, .leaf 0⟩
  have hM : P.forest.depth ≤ P.M := by decide
  have hF : P.forest.Sorted := by show Forest.Sorted (.leaf 0); unfold Forest.Sorted; decide
  obtain ⟨q, k1, k2, -⟩ := addMeshFunction_eq (M := 30) (r := 0) (F := .leaf 0) hM hF (m := st0.mesh.bare) h1 (fun _ _ => 0)
  have e2 := addMeshFunction_value 30 0 (.leaf 0) (fun _ _ => 0) st0.mesh.quadtree st0.mesh.arrays []
  rw [show (⟨st0.mesh.quadtree, st0.mesh.arrays, []⟩ : Mesh ℚ) = st0.mesh.bare from rfl, k1] at e2
  obtain ⟨y, y1, -⟩ := Res.bind_eq_ok.mp e2.symm
  have e3 := addMeshFunction_pointer 30 0 (.leaf 0) (fun _ _ => 0) "g".toList st0.mesh.quadtree st0.mesh.arrays st0.mesh.functions st0.vecs
  rw [y1, Res.ok_bind] at e3
  have hc : ∃ st, calls P 5 ([.addFunction (fun _ _ => 0) "g".toList] ++ [.clear]) st0 = .ok st := by
    refine ⟨{ st0 with mesh := ⟨y.1, st0.mesh.arrays, []⟩, vecs := (st0.vecs.alloc ("g".toList, y.2)).1 }, ?_⟩
    have e4 : st0.call P 5 (.addFunction (fun _ _ => 0) "g".toList) = .ok { st0 with
        mesh := ⟨y.1, st0.mesh.arrays, st0.mesh.functions ++ [st0.vecs.next]⟩
        vecs := (st0.vecs.alloc ("g".toList, y.2)).1 } :=
      (congrArg (fun z => z >>= fun x : PMesh × Vectors => (pure { st0 with mesh := x.1, vecs := x.2 } : Res MeshUse)) e3).trans rfl
    unfold calls
    rw [List.singleton_append, List.foldlM_cons, e4]
    rfl
  obtain ⟨st, hc⟩ := hc
  have a1 := H P _ st0 hM hF h1 h2 h3 _ st hc (by intro x hx; simp [objects] at hx)
  have a2 := C77_memory_actual hM hF h1 h2 h3 hc
  rw [a1] at a2
  simp [objects, sampled] at a2

/-- The entries at the time of writing are shown, in the order of the additions, and a vector that was not added may end. -/
example (C : List (Rect ℚ)) : shown C [.declare "v".toList (Vec.ofList [1, 2, 3, 4]), .declare "w".toList (Vec.ofList [9]), .addVector 1,
    .clear, .addFunction (fun x y => x + y) "g".toList, .addVector 0, .destroy 1, .change 0 (Vec.ofList [5, 6, 7, 8])] =
    some [("g".toList, C.map fun R => R.centre.1 + R.centre.2), ("v".toList, [5, 6, 7, 8])] := rfl

/-- A vector that was added ends before the file is written. -/
example (C : List (Rect ℚ)) : shown C [.declare "v".toList (Vec.ofList [1, 2, 3, 4]), .addVector 0, .destroy 0] = none := rfl

end EF
