import Mathlib.Algebra.Field.Rat
import Verif.Proofs.IntMessages
import Verif.Props.Mesh
import Verif.Props.Message

/-!
# 32-bit integers

The other files compute with unbounded integers.  Here: up to which sizes that is right, and what happens beyond.
-/

namespace EF

open MPI

variable {K α : Type} {D : Dialect}

/-! ## Mesh arrays -/

/-- A mesh whose rank has less than 2^27 cells gets the arrays of C42.  Missing: `C78_mesh_wrong`. -/
theorem C78_mesh_partial [Field K] {M r : Nat} {F : Forest} (hM : F.depth ≤ M) (hF : F.Sorted) {t : Tree (Patch K)} {q : Quadtree (Patch K)}
    (h : Rep r F t [] q.map) (hg : ∀ p ∈ leavesOf r F t, p.grid.nx ≤ 2147483647 ∧ p.grid.ny ≤ 2147483647) (fs : List (Vec K))
    (hn : (meshCells r F t).length < 2 ^ 27) :
    ∃ m', Mesh.setMeshFromQuadtree32 M r F ⟨q, MeshArrays.new, fs⟩ = .ok m' ∧ m'.arrays.Describes (meshCells r F t) ∧
      m'.functions = fs ∧ Rep r F t [] m'.quadtree.map := by
  have e := setMesh32_eq hM hF (m := ⟨q, MeshArrays.new, fs⟩) h hg le_rfl le_rfl (by unfold RoomFor MeshArrays.new; dsimp only; omega)
  rw [if_pos (by unfold RoomFor MeshArrays.new; dsimp only; omega)] at e
  obtain ⟨q', h1, h2, -⟩ := e
  refine ⟨_, h1, ?_, rfl, h2⟩
  have e : (MeshArrays.new : MeshArrays K).append (freshArrays 0 (meshCells r F t)) = freshArrays 0 (meshCells r F t) := by
    unfold MeshArrays.append MeshArrays.new freshArrays Vec.append Vec.empty
    simp [Vec.ofFn, Vec.ofList]
  dsimp only
  rw [e]
  exact describes_fresh _

/-- With 2^27 cells or more on a rank the signed integers overflow, always. -/
theorem C78_mesh_wrong [Field K] {M r : Nat} {F : Forest} (hM : F.depth ≤ M) (hF : F.Sorted) {t : Tree (Patch K)} {q : Quadtree (Patch K)}
    (h : Rep r F t [] q.map) (hg : ∀ p ∈ leavesOf r F t, p.grid.nx ≤ 2147483647 ∧ p.grid.ny ≤ 2147483647) (fs : List (Vec K))
    (hn : 2 ^ 27 ≤ (meshCells r F t).length) :
    Mesh.setMeshFromQuadtree32 M r F ⟨q, MeshArrays.new, fs⟩ = .ub := by
  have e := setMesh32_eq hM hF (m := ⟨q, MeshArrays.new, fs⟩) h hg le_rfl le_rfl (by unfold RoomFor MeshArrays.new; dsimp only; omega)
  rw [if_neg (by unfold RoomFor MeshArrays.new; dsimp only; omega)] at e
  exact e

/-! ## The leaf solver -/

/-- On grids of at most 46340 by 46340 cells the leaf solver and its flux map do the same as with unbounded integers.
Missing: `C78_leaf_wrong`. -/
theorem C78_leaf_partial [Field K] (lu : PetscLU K) (s : FVSolver K) {grid : Grid K} {N : Nat} (hx : grid.nx = N) (hy : grid.ny = N)
    (hN : N ≤ 46340) (g rhs : Vec K) :
    s.solve32 lu grid g rhs = s.solve lu grid g rhs ∧ s.mapD2N32 lu grid g rhs = s.mapD2N lu grid g rhs :=
  ⟨FVSolver.solve32_eq lu s g rhs hx hy hN, FVSolver.mapD2N32_eq lu s g rhs hx hy hN⟩

/-- On larger square grids the number of unknowns overflows, whatever the data. -/
theorem C78_leaf_wrong [Field K] (lu : PetscLU K) (s : FVSolver K) {grid : Grid K} {N : Nat} (hx : grid.nx = N) (hy : grid.ny = N)
    (hN : 46340 < N) (g : Nat → K) (rhs : Vec K) :
    s.solve32 lu grid (Vec.ofFn (4 * N) g) rhs = .ub ∧ s.mapD2N32 lu grid (Vec.ofFn (4 * N) g) rhs = .ub :=
  ⟨FVSolver.solve32_ub lu s g rhs hx hy hN, FVSolver.mapD2N32_ub lu s g rhs hx hy hN⟩

/-! ## Messages -/

/-- C39 with 32-bit integers: values whose sizes fit arrive as sent.  Missing: `C78_long_vector_wrong`,
`C78_truncated_vector_wrong`. -/
theorem C78_receive_as_sent_partial [Zero K] {vs olds : List (Value K × Int)}
    (h : List.Forall₂ (fun v o => v.2 = o.2 ∧ v.1.SameType o.1 ∧ v.1.Sound ∧ (D.emptyFront = true ∨ v.1.NoEmpty)) vs olds)
    (hs : ∀ v ∈ vs, v.1.Small) :
    ∃ N, ∀ k c, LinkRun k ⟨(sendAll D vs).on32, [], (receiveAll D olds).on32⟩ c →
      k ≤ N ∧ (c = ⟨.fin (.ok ()), [], .fin (.ok (vs.map Prod.fst))⟩ ∨ ∃ c', Sure c c') := by
  have hg : ∃ L, Emits (sendAll D vs) L ∧ Fits (receiveAll D olds) L (vs.map Prod.fst) ∧ ∀ m ∈ L, SmallBuf m.2.kind m.2.data := by
    induction h with
    | nil => exact ⟨[], Emits.nil, Fits.nil, by simp⟩
    | @cons v o vs olds hv _ ih =>
      obtain ⟨L, h1, h2, h3⟩ := ih fun v hv => hs v (by simp [hv])
      obtain ⟨v, t⟩ := v
      obtain ⟨o, t'⟩ := o
      obtain ⟨e, e1, e2, e3⟩ := hv
      dsimp only at e e1 e2 e3
      subst e
      refine ⟨wire v t ++ L, Emits.bind (emits e3 t) h1, ?_, ?_⟩
      · exact Fits.bind (fits e1 e2 e3 t) (Fits.map (f := fun vs => v :: vs) h2)
      · rw [List.forall_mem_append]
        exact ⟨wire_small (hs (v, t) (by simp)) t, h3⟩
  obtain ⟨L, h1, h2, h3⟩ := hg
  have good : Good ⟨(sendAll D vs).on32, [], (receiveAll D olds).on32⟩ (2 * L.length) (vs.map Prod.fst) :=
    ⟨L, h1.on32 h3, h2.on32 h3, by simp⟩
  refine ⟨2 * L.length, fun k c hr => ?_⟩
  obtain ⟨n', e, g⟩ := good.run hr
  exact ⟨by omega, g.progress⟩

/-- C40 with 32-bit integers: a value whose sizes fit is replicated, whatever the other ranks held. -/
theorem C78_broadcast_partial [Zero K] {n root : Nat} (hr : root < n) {v : Value K} {old : Nat → Value K} (h0 : old root = v)
    (ht : ∀ r, r < n → v.SameType (old r)) (hs : v.Sound) (hv : D.emptyFront = true ∨ v.NoEmpty)
    (hm : ∀ r, r < n → D.behind.isSome = true ∨ v.Room (old r)) (hi : v.Small) :
    ∃ (N : Nat) (e : Nat → Caster K (Value K)), (∀ r, r < n → e r = .fin (.ok v)) ∧
      ∀ k c, CastRun n k (fun r => (cast D r root (old r)).on32) c → k ≤ N ∧ CastRun n (N - k) c e :=
  ((repl_value hr h0 ht hs hv hm).on32 hr (h0.symm ▸ own_value root hv hi)).all (by omega)

/-- The same for nodes of patches: this is the step `Step.bcast` of the model of parallel traversals. -/
theorem C78_broadcast_node_partial [Zero K] {n root : Nat} (hr : root < n) {nd : Nat → Node (Patch K)}
    (hs : SoundPatch (nd root).data) (hf : D.emptyFront = true ∨ FullPatch (nd root).data)
    (hp : ∀ r, r < n → D.behind.isSome = true ∨ (nd root).path.length ≤ (nd r).path.length + 1)
    (hi : SmallPatch (nd root).data) (hpath : SmallCount (nd root).path.length) (hl : (nd root).level.natAbs < 2 ^ 31)
    (h1 : SmallCount (nd root).pfirst) (h2 : SmallCount (nd root).plast) :
    ∃ (N : Nat) (e : Nat → Caster K (Node (Patch K))), (∀ r, r < n → e r = .fin (.ok { nd root with comm := (nd r).comm })) ∧
      ∀ k c, CastRun n k (fun r => (castNode D (castPatch D r root) r root (nd r)).on32) c → k ≤ N ∧ CastRun n (N - k) c e :=
  ((repl_node (castData := fun r => castPatch D r root) hr (repl_patch hr (p := fun r => (nd r).data) hs hf) hp).on32 hr
    (own_node root (own_patch root hf hi) hpath (show (-2147483648 : Int) ≤ (nd root).level ∧ (nd root).level ≤ 2147483647 by omega) h1 h2)).all
    (by omega)

/-- A vector of 2^31 to 2^32 - 1 elements: the count is negative; every run of the sender ends there. -/
theorem C78_long_vector_wrong {k : Kind} {l : List (k.Carrier K)} (h1 : 2 ^ 31 ≤ l.length) (h2 : l.length < 2 ^ 32) (tag : Int)
    (R : Receiver K α) :
    ∃ j c, LinkRun j ⟨(send D (.std k l) tag).on32, [], R⟩ c ∧ c.sender = .fin .ub ∧
      ∀ i d, LinkRun i ⟨(send D (.std k l) tag).on32, [], R⟩ d → ∀ r, d.sender = .fin r → r = .ub := by
  have es : send D (.std k l) tag = sendStd D k l tag := rfl
  have ho : (send D (.std k l) tag).on32.outcome = .ub := by
    rw [es]
    exact std_negative (by omega) (by omega) tag
  obtain ⟨j, ch, h⟩ := run_sender (send D (.std k l) tag).on32 [] R
  rw [ho] at h
  refine ⟨j, _, h, rfl, fun i d hd r hr => ?_⟩
  have := hd.outcome
  rw [hr] at this
  dsimp only at this
  rw [ho] at this
  exact this

/-- A vector of 2^32 + c elements: only the first c arrive, and no error shows on either side. -/
theorem C78_truncated_vector_wrong [Zero K] {k : Kind} {l : List (k.Carrier K)} {c : Nat} (h0 : 0 < c) (hc : c < 2 ^ 31)
    (hl : l.length = 2 ^ 32 + c) (hk : ∀ x ∈ l, k.InRange x) (tag : Int) (old : List (k.Carrier K)) :
    ∃ N, ∀ j d, LinkRun j ⟨(send D (.std k l) tag).on32, [], (receive D (.std k old) tag).on32⟩ d →
      j ≤ N ∧ (d = ⟨.fin (.ok ()), [], .fin (.ok (.std k (l.take c)))⟩ ∨ ∃ d', Sure d d') := by
  have h1 : (l.take c).length = c := by
    rw [List.length_take]
    omega
  have hn : l.take c ≠ [] := by
    intro e
    rw [e] at h1
    simp at h1
    omega
  have hs : (Value.std k (l.take c)).Small := by
    refine ⟨by unfold SmallCount; omega, fun x hx => hk x (List.mem_of_mem_take hx)⟩
  have good : Good ⟨(send D (.std k l) tag).on32, [], (receive D (.std k old) tag).on32⟩ (2 * 2) (.std k (l.take c)) := by
    have es : send D (.std k l) tag = sendStd D k l tag := rfl
    have em := emits_wrap (D := D) h0 (by omega) (by omega) hk tag
    have ew : wire (.std k (l.take c)) tag = [(tag, ⟨.int, [((l.take c).length : Int)]⟩), (tag, ⟨k, l.take c⟩)] := by rw [wire]
    rw [← ew] at em
    rw [es]
    refine ⟨wire (.std k (l.take c)) tag, ?_, ?_, by simp [wire]⟩
    · dsimp only
      exact em
    dsimp only
    rw [List.nil_append]
    exact (fits (v := .std k (l.take c)) (old := .std k old) rfl trivial (.inr hn) tag).on32 (wire_small hs tag)
  refine ⟨2 * 2, fun k c hr => ?_⟩
  obtain ⟨n', e, g⟩ := good.run hr
  exact ⟨by omega, g.progress⟩

/-! ## Concrete cases -/

/-- A rank with two leaves of 3 by 2 cells. -/
example : ∃ (m0 : NodeMap (Patch Rat)) (t : Tree (Patch Rat)), Rep 1 (.node (.leaf 0) (.leaf 0) (.leaf 1) (.leaf 1)) t [] m0 ∧
    (meshCells 1 (.node (.leaf 0) (.leaf 0) (.leaf 1) (.leaf 1)) t).length < 2 ^ 27 ∧ 0 < (meshCells 1 (.node (.leaf 0) (.leaf 0) (.leaf 1) (.leaf 1)) t).length := by
  obtain ⟨m0, -, h⟩ := construct_ok (M := 30) 1 (Patch.fresh (⟨3, 2, 0, 1, 0, 1⟩ : Grid Rat)) (F := .node (.leaf 0) (.leaf 0) (.leaf 1) (.leaf 1))
    (by decide) (by unfold Forest.Sorted; decide)
  exact ⟨m0, _, h.rep, by rw [C42_count]; decide, by rw [C42_count]; decide⟩

/-- One leaf of 16384 by 16384 cells. -/
example : ∃ m0 : NodeMap (Patch Rat), Mesh.setMeshFromQuadtree32 30 0 (.leaf 0) ⟨⟨m0, .null⟩, MeshArrays.new, []⟩ = .ub := by
  obtain ⟨m0, -, h⟩ := construct_ok (M := 30) 0 (Patch.fresh (⟨16384, 16384, 0, 1, 0, 1⟩ : Grid Rat)) (F := .leaf 0) (by decide)
    (by unfold Forest.Sorted; decide)
  refine ⟨m0, C78_mesh_wrong (by decide) (by unfold Forest.Sorted; decide) h.rep ?_ [] ?_⟩
  · intro p hp
    simp only [startTree, leavesOf, if_true, List.mem_singleton] at hp
    subst hp
    exact ⟨by decide, by decide⟩
  · rw [C42_count]
    decide

example (lu : PetscLU Rat) (s : FVSolver Rat) (g rhs : Vec Rat) :=
  C78_leaf_partial lu s (grid := ⟨16, 16, 0, 1, 0, 1⟩) (N := 16) rfl rfl (by omega) g rhs

example (lu : PetscLU Rat) (s : FVSolver Rat) (rhs : Vec Rat) :=
  C78_leaf_wrong lu s (grid := ⟨50000, 50000, 0, 1, 0, 1⟩) (N := 50000) rfl rfl (by omega) (fun _ => 1) rhs

example := C78_receive_as_sent_partial (D := strict) (vs := exSent) (olds := exOld) (by
  refine .cons ⟨rfl, rfl, rfl, by simp [Value.NoEmpty]⟩ (.cons ⟨rfl, trivial, trivial, .inr trivial⟩ (.cons ⟨rfl, rfl, rfl, ?_⟩ .nil))
  simp [Value.NoEmpty]) (by
  simp [exSent, Value.Small, SmallCount, Kind.InRange])

example := C78_broadcast_partial (K := Rat) (D := strict) (n := 3) (root := 1) (v := .node (.vec .real ⟨2, [1, 2]⟩) "012".toList 2 0 2 false)
  (old := fun r => if r = 1 then .node (.vec .real ⟨2, [1, 2]⟩) "012".toList 2 0 2 false else .node (.vec .real ⟨0, []⟩) "00".toList 1 0 0 true)
  (by omega) rfl (fun r _ => by split <;> rfl) rfl (by simp [Value.NoEmpty]) (fun r _ => by split <;> simp [Value.Room])
  (by simp [Value.Small, SmallCount, Kind.InRange])

example := C78_broadcast_node_partial (D := strict) (n := 2) (root := 0)
  (nd := fun r => if r = 0 then ⟨exFull, "03".toList, 1, 0, 1, false, none⟩ else ⟨exFull, "03".toList, 1, 0, 1, true, some (0, 1)⟩)
  (by omega) exFull_ok.1 (.inr exFull_ok.2) (fun r _ => by by_cases h : r = 0 <;> simp [h])
  (by constructor <;> simp [exFull, SmallMat, SmallCount]) (by simp [SmallCount]) (by simp) (by simp [SmallCount]) (by simp [SmallCount])

example (R : Receiver Rat Unit) := C78_long_vector_wrong (D := strict) (k := .real) (l := List.replicate (2 ^ 31) (1 : Rat))
  (by rw [List.length_replicate]) (by rw [List.length_replicate]; omega) 5 R

/-- Of 2^32 + 3 numbers three arrive. -/
example := C78_truncated_vector_wrong (K := Rat) (D := strict) (k := .real) (l := List.replicate (2 ^ 32 + 3) (1 : Rat)) (c := 3)
  (by omega) (by omega) (by rw [List.length_replicate]) (fun _ _ => trivial) 5 []

end EF
