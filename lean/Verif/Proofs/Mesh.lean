import Verif.Proofs.QuadSerial
import Verif.Proofs.HasLemmas
import Verif.Spec.Mesh

/-!
# Traversals of the mesh and its arrays
-/

namespace EF

variable {K T τ : Type}

/-- A computation on maps that ends the way a computation on trees ends. -/
def EndsR (x : Res (Tree T × τ)) (p : Res (NodeMap T × τ)) (Q : Tree T → NodeMap T → Prop) : Prop :=
  match x with
  | .ok y => ∃ m, p = .ok (m, y.2) ∧ Q y.1 m
  | .throw e => p = .throw e
  | .ub => p = .ub

theorem EndsR.bind {x : Res (Tree T × τ)} {p : Res (NodeMap T × τ)} {Q Q' : Tree T → NodeMap T → Prop}
    {f : Tree T × τ → Res (Tree T × τ)} {g : NodeMap T × τ → Res (NodeMap T × τ)} (h : EndsR x p Q)
    (hf : ∀ t s m, Q t m → EndsR (f (t, s)) (g (m, s)) Q') : EndsR (x >>= f) (p >>= g) Q' := by
  cases x with
  | ok y =>
    obtain ⟨m, rfl, hq⟩ := h
    exact hf y.1 y.2 m hq
  | throw e => exact congrArg (fun (p : Res (NodeMap T × τ)) => p >>= g) h
  | ub => exact congrArg (fun (p : Res (NodeMap T × τ)) => p >>= g) h

theorem leafPass_skip {r : Nat} {fn : T → τ → Res (T × τ)} (F : Forest) {t : Tree T} {a : Addr} {m : NodeMap T}
    (h : Rep r F t a m) (hr : r ∉ F.ranks) (s : τ) : leafPass r fn F t s = .ok (t, s) := by
  induction F generalizing t a s with
  | leaf k =>
    cases t with
    | node => exact absurd h id
    | leaf d =>
      have : ¬ k = r := fun e => hr (by simp [Forest.ranks, e])
      simp only [leafPass]
      rw [if_neg this]
      rfl
  | node c0 c1 c2 c3 h0 h1 h2 h3 =>
    cases t with
    | leaf => exact absurd h id
    | node d t0 t1 t2 t3 =>
      obtain ⟨-, r0, r1, r2, r3⟩ := h
      simp only [Forest.ranks, List.mem_append, not_or] at hr
      simp only [leafPass]
      rw [h0 r0 hr.1.1.1, Res.ok_bind, h1 r1 hr.1.1.2, Res.ok_bind, h2 r2 hr.1.2, Res.ok_bind, h3 r3 hr.2, Res.ok_bind]
      rfl

theorem searchVisit_entry {M r : Nat} {fn : Node T → τ → Res ((Node T × τ) × Bool)} {G : Forest} {a : Addr} (ha : a.Valid)
    (hl : a.length ≤ M) {d : T} {m : NodeMap T} (h : Entry r G d a m) (hs : G.Spans r) (b : Bool) (s : τ) :
    searchVisit M r .this fn (a.quad M) b (m, s)
      = (do let x ← fn (nodeOf d a G) s; pure ((m.set a.text (some x.1.1), x.1.2), x.2)) := by
  unfold Entry at h
  rw [if_pos hs] at h
  have hm := get_eq_some.mp h
  unfold searchVisit
  rw [if_pos rfl, (Addr.quad_spec ha hl).2.2]
  dsimp only
  rw [show m.get a.text = (some (nodeOf d a G), m) by unfold NodeMap.get; rw [hm]]
  dsimp only
  rw [if_pos (show (nodeOf d a G).pfirst ≤ r ∧ r ≤ (nodeOf d a G).plast from hs)]

/-- The traversals of `Mesh` hand every leaf of the rank to the function, in z-order. -/
theorem leafVisit_run {M r : Nat} {fn : T → τ → Res (T × τ)} (F : Forest) {a : Addr} (ha : a.Valid)
    (hl : a.length + F.depth ≤ M) (hF : F.Sorted) {t : Tree T} {m : NodeMap T} {s : τ} (h : Rep r F t a m) :
    EndsR (leafPass r fn F t s) (searchPre M r (searchVisit M r .this (leafVisit fn)) F (a.quad M) (m, s))
      (fun t' m' => Rep r F t' a m' ∧ ∀ p, ¬ Below a p → (m'.get p).1 = (m.get p).1) := by
  induction F generalizing t a m s with
  | leaf k =>
    cases t with
    | node => exact absurd h id
    | leaf d =>
      simp only [searchPre, leafPass]
      by_cases hk : k = r
      · have hs : (Forest.leaf k).Spans r := ⟨hk.le, hk.ge⟩
        rw [if_pos hk, if_pos hk, searchVisit_entry ha (by omega) h hs]
        unfold leafVisit
        rw [if_pos (show (nodeOf d a (.leaf k)).leaf = true from rfl), show (nodeOf d a (.leaf k)).data = d from rfl]
        cases fn d s with
        | ok x =>
          refine ⟨m.set a.text (some (nodeOf x.1 a (.leaf k))), rfl, ?_, ?_⟩
          · show Entry r (.leaf k) x.1 a _
            unfold Entry
            rw [get_set, if_pos hs]
          · intro p hp
            exact get_congr (set_other (fun e => hp (by rw [e]; exact below_self a)) _)
        | throw e => exact rfl
        | ub => exact rfl
      · rw [if_neg hk, if_neg hk]
        exact ⟨m, rfl, h, fun p _ => rfl⟩
  | node c0 c1 c2 c3 h0 h1 h2 h3 =>
    by_cases hr : r ∈ (Forest.node c0 c1 c2 c3).ranks
    · cases t with
      | leaf => exact absurd h id
      | node d t0 t1 t2 t3 =>
        have hs := hF.spans_of_mem hr
        obtain ⟨he, r0, r1, r2, r3⟩ := h
        obtain ⟨o0, o1, o2, o3⟩ := hF.kids
        simp only [Forest.depth] at hl
        simp only [searchPre, leafPass, ← Addr.quad_snoc]
        rw [if_pos hr, searchVisit_entry ha (by omega) he hs]
        unfold leafVisit
        rw [if_neg (show ¬ (nodeOf d a (.node c0 c1 c2 c3)).leaf = true from Bool.false_ne_true)]
        simp only [pure_bind, if_true]
        set m0 := m.set a.text (some (nodeOf d a (.node c0 c1 c2 c3))) with hm0
        have hf : ∀ p, (m0.get p).1 = (m.get p).1 := by
          intro p
          by_cases hp : p = a.text
          · rw [hp, hm0, get_set]
            unfold Entry at he
            rw [he, if_pos hs]
          · exact get_congr (set_other hp _)
        have k0 := r0.congr (fun p _ => hf p)
        have k1 := r1.congr (fun p _ => hf p)
        have k2 := r2.congr (fun p _ => hf p)
        have k3 := r3.congr (fun p _ => hf p)
        refine (h0 (ha.snoc (by omega)) (by simp; omega) o0 k0).bind ?_
        rintro t0' s1 m1 ⟨q0, f0⟩
        refine (h1 (ha.snoc (by omega)) (by simp; omega) o1 (k1.congr fun p hp =>
          f0 p (not_below_sib ha (by omega) (by omega) (by omega) hp))).bind ?_
        rintro t1' s2 m2 ⟨q1, f1⟩
        refine (h2 (ha.snoc (by omega)) (by simp; omega) o2 ((k2.congr fun p hp =>
          f0 p (not_below_sib ha (by omega) (by omega) (by omega) hp)).congr fun p hp =>
          f1 p (not_below_sib ha (by omega) (by omega) (by omega) hp))).bind ?_
        rintro t2' s3 m3 ⟨q2, f2⟩
        rw [← bind_pure (searchPre M r _ c3 _ _)]
        refine (h3 (ha.snoc (by omega)) (by simp; omega) o3 (((k3.congr fun p hp =>
          f0 p (not_below_sib ha (by omega) (by omega) (by omega) hp)).congr fun p hp =>
          f1 p (not_below_sib ha (by omega) (by omega) (by omega) hp)).congr fun p hp =>
          f2 p (not_below_sib ha (by omega) (by omega) (by omega) hp))).bind ?_
        rintro t3' s4 m4 ⟨q3, f3⟩
        obtain ⟨e4, f4⟩ := frame_kids f0 f1 f2 f3
        refine ⟨m4, rfl, ⟨he.congr (e4.trans (hf _)), ?_, ?_, ?_, q3⟩, fun p hp => (f4 p hp).trans (hf p)⟩
        · exact ((q0.congr fun p hp => f1 p (not_below_sib ha (by omega) (by omega) (by omega) hp)).congr fun p hp =>
            f2 p (not_below_sib ha (by omega) (by omega) (by omega) hp)).congr fun p hp =>
            f3 p (not_below_sib ha (by omega) (by omega) (by omega) hp)
        · exact (q1.congr fun p hp => f2 p (not_below_sib ha (by omega) (by omega) (by omega) hp)).congr fun p hp =>
            f3 p (not_below_sib ha (by omega) (by omega) (by omega) hp)
        · exact q2.congr fun p hp => f3 p (not_below_sib ha (by omega) (by omega) (by omega) hp)
    · rw [leafPass_skip _ h hr]
      refine ⟨m, ?_, h, fun p _ => rfl⟩
      simp only [searchPre]
      rw [if_neg hr]
      rfl

/-- A function that only looks at the leaves. -/
def look (g : T → τ → Res τ) (d : T) (s : τ) : Res (T × τ) := do
  let s ← g d s
  pure (d, s)

theorem leafPass_look {r : Nat} {g : T → τ → Res τ} (F : Forest) {t : Tree T} {a : Addr} {m : NodeMap T} (h : Rep r F t a m)
    (s : τ) : leafPass r (look g) F t s = (do let s ← (leavesOf r F t).foldlM (fun s d => g d s) s; pure (t, s)) := by
  induction F generalizing t a s with
  | leaf k =>
    cases t with
    | node => exact absurd h id
    | leaf d =>
      simp only [leafPass, leavesOf]
      split
      · simp only [look, List.foldlM_cons, List.foldlM_nil, bind_assoc, pure_bind, bind_pure]
      · simp
  | node c0 c1 c2 c3 h0 h1 h2 h3 =>
    cases t with
    | leaf => exact absurd h id
    | node d t0 t1 t2 t3 =>
      obtain ⟨-, r0, r1, r2, r3⟩ := h
      simp only [leafPass, leavesOf, List.foldlM_append]
      simp only [h0 r0, h1 r1, h2 r2, h3 r3, bind_assoc, pure_bind]

theorem forN_pure {σ : Type} (f : Nat → σ → σ) (n : Nat) (s : σ) :
    forN n (fun i s => .ok (f i s)) s = .ok ((List.range n).foldl (fun s i => f i s) s) := by
  induction n with
  | zero => rfl
  | succ n ih => rw [forN, ih, Res.ok_bind, List.range_succ, List.foldl_append]; rfl

theorem foldlM_pure {α σ : Type} (f : σ → α → σ) (l : List α) (s : σ) :
    l.foldlM (fun s a => (Res.ok (f s a) : Res σ)) s = .ok (l.foldl f s) := by
  induction l generalizing s with
  | nil => rfl
  | cons a l ih => rw [List.foldlM_cons, Res.ok_bind, ih]; rfl

theorem forN_foldlM {σ : Type} (f : Nat → σ → Res σ) (n : Nat) (s : σ) :
    forN n f s = (List.range n).foldlM (fun s i => f i s) s := by
  induction n with
  | zero => rfl
  | succ n ih => rw [forN, ih, List.range_succ, List.foldlM_append]; simp only [List.foldlM_cons, List.foldlM_nil, bind_pure]

theorem foldlM_flatMap {α β σ : Type} (f : σ → β → Res σ) (g : α → List β) (l : List α) (s : σ) :
    (l.flatMap g).foldlM f s = l.foldlM (fun s a => (g a).foldlM f s) s := by
  induction l generalizing s with
  | nil => rfl
  | cons a l ih =>
    rw [List.flatMap_cons, List.foldlM_append, List.foldlM_cons]
    congr 1
    funext s
    exact ih s

/-- A double loop over cells. -/
theorem forN_cells {σ : Type} (f : Nat → Nat → σ → Res σ) (nx ny : Nat) (s : σ) :
    forN nx (fun i s => forN ny (fun j s => f i j s) s) s = (cellIndices nx ny).foldlM (fun s c => f c.1 c.2 s) s := by
  rw [forN_foldlM]
  unfold cellIndices
  generalize List.range nx = l
  induction l generalizing s with
  | nil => rfl
  | cons i l ih =>
    rw [List.foldlM_cons, List.flatMap_cons, List.foldlM_append, List.foldlM_map, forN_foldlM]
    congr 1
    funext s
    exact ih s

section
variable [Field K]

theorem Vec.append_assoc {α : Type} (u v w : Vec α) : (u.append v).append w = u.append (v.append w) := by
  simp [Vec.append, Nat.add_assoc]

theorem Vec.append_four {α : Type} {n : Nat} {f : Nat → α} {a b c d : α} (ha : a = f (4 * n)) (hb : b = f (4 * n + 1))
    (hc : c = f (4 * n + 2)) (hd : d = f (4 * n + 3)) :
    (Vec.ofFn (4 * n) f).append (Vec.ofList [a, b, c, d]) = Vec.ofFn (4 * (n + 1)) f := by
  subst ha hb hc hd
  unfold Vec.append Vec.ofFn Vec.ofList
  rw [show 4 * (n + 1) = 4 * n + 1 + 1 + 1 + 1 by ring, listFn_succ, listFn_succ, listFn_succ, listFn_succ]
  simp

/-- Append one cell. -/
def addRect (R : Rect K) (st : Int × MeshArrays K) : Int × MeshArrays K :=
  (st.1 + 4,
    { npoints := st.2.npoints + 4
      ncells := st.2.ncells + 1
      points := st.2.points.append (Vec.ofList [R.xl, R.yl, 0, R.xu, R.yl, 0, R.xu, R.yu, 0, R.xl, R.yu, 0])
      connectivity := st.2.connectivity.append (Vec.ofList [st.1 + 0, st.1 + 1, st.1 + 2, st.1 + 3])
      offsets := st.2.offsets.append (Vec.ofList [(st.1 + 1) * 4, (st.1 + 2) * 4, (st.1 + 3) * 4, (st.1 + 4) * 4])
      types := st.2.types.append (Vec.ofList [9, 9, 9, 9]) })

theorem addCell_eq (g : Grid K) (i j : Nat) (st : Int × MeshArrays K) :
    addCell g i j st = addRect (cellRect g.rect g.nx g.ny i j) st := by
  unfold addCell addRect cellRect Grid.rect Grid.dx Grid.dy
  push_cast
  rfl

theorem addLeaf_eq (g : Grid K) (st : Int × MeshArrays K) :
    addLeaf g st = .ok ((gridCells g).foldl (fun st R => addRect R st) st) := by
  unfold addLeaf
  rw [forN_cells, foldlM_pure]
  unfold gridCells
  rw [List.foldl_map]
  simp only [addCell_eq]

theorem addLeaves_eq (L : List (Patch K)) (st : Int × MeshArrays K) :
    L.foldlM (fun st p => addLeaf p.grid st) st
      = .ok ((L.flatMap fun p => gridCells p.grid).foldl (fun st R => addRect R st) st) := by
  simp only [addLeaf_eq]
  rw [foldlM_pure, List.foldl_flatMap]

/-- What is appended for a list of cells, when the local index starts at `k`. -/
def freshArrays (k : Int) (C : List (Rect K)) : MeshArrays K where
  npoints := 4 * C.length
  ncells := C.length
  points := Vec.ofList (C.flatMap fun R => [R.xl, R.yl, 0, R.xu, R.yl, 0, R.xu, R.yu, 0, R.xl, R.yu, 0])
  connectivity := Vec.ofFn (4 * C.length) (fun i => k + i)
  offsets := Vec.ofFn (4 * C.length) (fun i => (k + i + 1) * 4)
  types := Vec.ofFn (4 * C.length) (fun _ => 9)

/-- Array by array concatenation. -/
def MeshArrays.append (A B : MeshArrays K) : MeshArrays K :=
  ⟨A.npoints + B.npoints, A.ncells + B.ncells, A.points.append B.points, A.connectivity.append B.connectivity,
    A.offsets.append B.offsets, A.types.append B.types⟩

theorem addRects_eq (C : List (Rect K)) (k : Int) (A : MeshArrays K) :
    C.foldl (fun st R => addRect R st) (k, A) = (k + 4 * C.length, A.append (freshArrays k C)) := by
  induction C using List.reverseRecOn generalizing k A with
  | nil => simp [MeshArrays.append, freshArrays, Vec.append, Vec.ofFn, Vec.ofList, listFn]
  | append_singleton C R ih =>
    rw [List.foldl_append, ih]
    simp only [List.foldl_cons, List.foldl_nil, addRect, MeshArrays.append, freshArrays, List.length_append, List.length_singleton]
    rw [Vec.append_assoc, Vec.append_assoc, Vec.append_assoc, Vec.append_assoc,
      Vec.append_four (by push_cast; ring) (by push_cast; ring) (by push_cast; ring) (by push_cast; ring),
      Vec.append_four (by push_cast; ring) (by push_cast; ring) (by push_cast; ring) (by push_cast; ring),
      Vec.append_four rfl rfl rfl rfl]
    simp only [Vec.append, Vec.ofList, List.flatMap_append, List.flatMap_singleton, List.length_append]
    push_cast
    refine Prod.ext ?_ ?_
    · ring
    · congr 1 <;> ring_nf

theorem flatMap_chunk {α β : Type} {f : α → List β} {n : Nat} (hf : ∀ a, (f a).length = n) (C : List α) {k q : Nat}
    (hk : k < C.length) (hq : q < n) : (C.flatMap f)[n * k + q]? = (f C[k])[q]? := by
  induction C generalizing k with
  | nil => exact absurd hk (Nat.not_lt_zero _)
  | cons a C ih =>
    rw [List.flatMap_cons]
    cases k with
    | zero =>
      rw [List.getElem?_append_left (by rw [hf]; omega)]
      simp
    | succ k =>
      rw [List.getElem?_append_right (by rw [hf, Nat.mul_succ]; omega), hf,
        show n * (k + 1) + q - n = n * k + q by rw [Nat.mul_succ]; omega, ih (by simpa using hk)]
      rfl

theorem flatMap_length {α β : Type} {f : α → List β} {n : Nat} (hf : ∀ a, (f a).length = n) (C : List α) :
    (C.flatMap f).length = n * C.length := by
  induction C with
  | nil => rfl
  | cons a C ih => rw [List.flatMap_cons, List.length_append, hf, ih, List.length_cons, Nat.mul_succ, Nat.add_comm]

theorem describes_fresh (C : List (Rect K)) : (freshArrays 0 C).Describes C := by
  have hlen := flatMap_length (f := fun R : Rect K => [R.xl, R.yl, 0, R.xu, R.yl, 0, R.xu, R.yu, 0, R.xl, R.yu, 0]) (n := 12)
    (fun _ => rfl) C
  have hget : ∀ k (hk : k < C.length) q, q < 12 → ∀ x,
      [C[k].xl, C[k].yl, 0, C[k].xu, C[k].yl, 0, C[k].xu, C[k].yu, 0, C[k].xl, C[k].yu, 0][q]? = some x →
      (freshArrays 0 C).points.get (12 * k + q) = .ok x := by
    intro k hk q hq x hx
    unfold Vec.get freshArrays Vec.ofList
    dsimp only
    rw [if_neg (by rw [hlen]; omega)]
    unfold rd
    rw [flatMap_chunk (n := 12) (f := fun R : Rect K => [R.xl, R.yl, 0, R.xu, R.yl, 0, R.xu, R.yu, 0, R.xl, R.yu, 0])
      (fun _ => rfl) C hk hq, hx]
  refine ⟨rfl, rfl, hlen, rfl, ?_, ?_, ?_, ?_⟩
  · intro k hk q hq
    rcases (by omega : q = 0 ∨ q = 1 ∨ q = 2 ∨ q = 3) with rfl | rfl | rfl | rfl
    · exact ⟨hget k hk 0 (by omega) _ rfl, hget k hk 1 (by omega) _ rfl, hget k hk 2 (by omega) _ rfl⟩
    · exact ⟨hget k hk 3 (by omega) _ rfl, hget k hk 4 (by omega) _ rfl, hget k hk 5 (by omega) _ rfl⟩
    · exact ⟨hget k hk 6 (by omega) _ rfl, hget k hk 7 (by omega) _ rfl, hget k hk 8 (by omega) _ rfl⟩
    · exact ⟨hget k hk 9 (by omega) _ rfl, hget k hk 10 (by omega) _ rfl, hget k hk 11 (by omega) _ rfl⟩
  · have := Vec.has_ofFn (4 * C.length) (fun i => (i : Int))
    simpa [freshArrays] using this
  · intro k hk
    unfold freshArrays
    dsimp only
    rw [Vec.get_ofFn (by omega)]
    congr 1
    ring
  · intro k hk
    unfold freshArrays
    dsimp only
    rw [Vec.get_ofFn (by omega)]

/-- `setMeshFromQuadtree` appends what describes the cells of the rank. -/
theorem setMesh_eq {M r : Nat} {F : Forest} (hM : F.depth ≤ M) (hF : F.Sorted) {t : Tree (Patch K)} {m : Mesh K}
    (h : Rep r F t [] m.quadtree.map) :
    ∃ q, m.setMeshFromQuadtree M r F = .ok { m with quadtree := q, arrays := m.arrays.append (freshArrays 0 (meshCells r F t)) } ∧
      Rep r F t [] q.map ∧ q.userPointer = .this := by
  have e := leafVisit_run (M := M) (fn := look fun p st => addLeaf p.grid st) F Addr.Valid.nil (by simpa using hM) hF
    (s := ((0 : Int), m.arrays)) h
  rw [leafPass_look F h, addLeaves_eq] at e
  obtain ⟨m', e1, e2, -⟩ := e
  refine ⟨⟨m', .this⟩, ?_, e2, rfl⟩
  unfold Mesh.setMeshFromQuadtree Quadtree.traversePreOrder
  have e3 : searchPre M r (searchVisit M r .this (leafVisit fun p st => do
      let st ← addLeaf p.grid st
      pure (p, st))) F .root (m.quadtree.map, ((0 : Int), m.arrays)) = _ := e1
  rw [e3, addRects_eq]
  rfl

theorem iteratePatches_eq {M r : Nat} {F : Forest} (hM : F.depth ≤ M) (hF : F.Sorted) {t : Tree (Patch K)} {m : Mesh K}
    (h : Rep r F t [] m.quadtree.map) (fn : Patch K → τ → Res (Patch K × τ)) (s : τ) :
    match leafPass r fn F t s with
    | .ok x => ∃ q, m.iteratePatches M r F fn s = .ok ({ m with quadtree := q }, x.2) ∧ Rep r F x.1 [] q.map ∧
        q.userPointer = .this
    | .throw e => m.iteratePatches M r F fn s = .throw e
    | .ub => m.iteratePatches M r F fn s = .ub := by
  have e := leafVisit_run (M := M) (fn := fn) F Addr.Valid.nil (by simpa using hM) hF (s := s) h
  unfold Mesh.iteratePatches Quadtree.traversePreOrder
  cases hx : leafPass r fn F t s with
  | ok x =>
    rw [hx] at e
    obtain ⟨m', e1, e2, -⟩ := e
    refine ⟨⟨m', .this⟩, ?_, e2, rfl⟩
    rw [show searchPre M r (searchVisit M r .this (leafVisit fn)) F .root (m.quadtree.map, s) = _ from e1]
    rfl
  | throw e' =>
    rw [hx] at e
    dsimp only
    rw [show searchPre M r (searchVisit M r .this (leafVisit fn)) F .root (m.quadtree.map, s) = _ from e]
    rfl
  | ub =>
    rw [hx] at e
    dsimp only
    rw [show searchPre M r (searchVisit M r .this (leafVisit fn)) F .root (m.quadtree.map, s) = _ from e]
    rfl

variable [NeZero (2 : K)]

theorem centre_cell (g : Grid K) (i j : Nat) :
    (cellRect g.rect g.nx g.ny i j).centre = (g.x i, g.y j) := by
  have h2 : (2 : K) ≠ 0 := NeZero.ne _
  unfold Rect.centre cellRect Grid.rect Grid.x Grid.y Grid.dx Grid.dy
  dsimp only
  generalize (g.xu - g.xl) / (g.nx : K) = a
  generalize (g.yu - g.yl) / (g.ny : K) = b
  refine Prod.ext ?_ ?_ <;> (field_simp; ring)

/-- `iterateCells` hands the centres of the cells to the function, in order. -/
theorem iterateCells_eq {M r : Nat} {F : Forest} (hM : F.depth ≤ M) (hF : F.Sorted) {t : Tree (Patch K)} {m : Mesh K}
    (h : Rep r F t [] m.quadtree.map) (fn : K → K → τ → Res τ) (s : τ) :
    match (meshCells r F t).foldlM (fun s R => fn R.centre.1 R.centre.2 s) s with
    | .ok x => ∃ q, m.iterateCells M r F fn s = .ok ({ m with quadtree := q }, x) ∧ Rep r F t [] q.map ∧
        q.userPointer = .this
    | .throw e => m.iterateCells M r F fn s = .throw e
    | .ub => m.iterateCells M r F fn s = .ub := by
  set g : Patch K → τ → Res τ := fun p s => forN p.grid.nx (fun i s => do
        let xc ← p.grid.point 0 i
        forN p.grid.ny (fun j s => do
          let yc ← p.grid.point 1 j
          fn xc yc s) s) s with hg
  have hgc : ∀ p s, g p s = (gridCells p.grid).foldlM (fun s R => fn R.centre.1 R.centre.2 s) s := by
    intro p s
    rw [hg]
    unfold gridCells
    rw [List.foldlM_map]
    simp only [centre_cell]
    rw [← forN_cells (fun i j s => fn (p.grid.x i) (p.grid.y j) s)]
    rfl
  have e := iteratePatches_eq hM hF h (look g) s
  rw [leafPass_look F h] at e
  have e2 : (leavesOf r F t).foldlM (fun s d => g d s) s
      = (meshCells r F t).foldlM (fun s R => fn R.centre.1 R.centre.2 s) s := by
    simp only [hgc]
    unfold meshCells
    rw [foldlM_flatMap]
  rw [e2] at e
  have e3 : m.iterateCells M r F fn s = m.iteratePatches M r F (look g) s := rfl
  rw [e3]
  cases hx : (meshCells r F t).foldlM (fun s R => fn R.centre.1 R.centre.2 s) s with
  | ok x => rw [hx] at e; exact e
  | throw e' => rw [hx] at e; exact e
  | ub => rw [hx] at e; exact e

omit [NeZero (2 : K)] in
theorem gridCells_length (g : Grid K) : (gridCells g).length = g.nx * g.ny := by
  unfold gridCells cellIndices
  rw [List.length_map, flatMap_length (n := g.ny) (fun _ => by simp), List.length_range, Nat.mul_comm]

omit [NeZero (2 : K)] in
theorem cells_length (L : List (Patch K)) :
    (L.flatMap fun p => gridCells p.grid).length = (L.map fun p => p.grid.nx * p.grid.ny).sum := by
  induction L with
  | nil => rfl
  | cons p L ih => rw [List.flatMap_cons, List.length_append, gridCells_length, ih]; rfl

omit [NeZero (2 : K)] in
theorem gridCells_get (g : Grid K) {i j : Nat} (hi : i < g.nx) (hj : j < g.ny) :
    (gridCells g)[j + i * g.ny]? = some (cellRect g.rect g.nx g.ny i j) := by
  unfold gridCells cellIndices
  rw [List.getElem?_map, show j + i * g.ny = g.ny * i + j by ring,
    flatMap_chunk (n := g.ny) (fun _ => by simp) (List.range g.nx) (by simpa using hi) hj]
  simp [hj]

omit [NeZero (2 : K)] in
theorem count_cells (L : List (Patch K)) (n : Nat) :
    L.foldlM (fun n p => (pure (n + p.grid.nx * p.grid.ny) : Res Nat)) n = .ok (n + (L.flatMap fun p => gridCells p.grid).length) := by
  rw [show (fun (n : Nat) (p : Patch K) => (pure (n + p.grid.nx * p.grid.ny) : Res Nat))
    = fun n p => .ok (n + p.grid.nx * p.grid.ny) from rfl, foldlM_pure]
  congr 1
  induction L generalizing n with
  | nil => rfl
  | cons p L ih =>
    rw [List.foldl_cons, ih, List.flatMap_cons, List.length_append, gridCells_length, Nat.add_assoc]

omit [NeZero (2 : K)] in
theorem fill_cells {α : Type} (f : α → K) (C : List α) (P : List K) :
    C.foldlM (fun (s : Vec K × Nat) R => (do
      let v ← s.1.set s.2 (f R)
      pure (v, s.2 + 1) : Res (Vec K × Nat))) (⟨P.length + C.length, P ++ List.replicate C.length 0⟩, P.length)
      = .ok (⟨P.length + C.length, P ++ C.map f⟩, P.length + C.length) := by
  induction C generalizing P with
  | nil => rfl
  | cons R C ih =>
    rw [List.foldlM_cons]
    have e : (⟨P.length + (R :: C).length, P ++ List.replicate (R :: C).length 0⟩ : Vec K).set P.length (f R)
        = .ok ⟨(P ++ [f R]).length + C.length, (P ++ [f R]) ++ List.replicate C.length 0⟩ := by
      unfold Vec.set wr
      dsimp only
      rw [if_neg (by omega), if_pos (by simp), Res.ok_bind, Res.pure_def]
      simp [List.replicate_succ]
      omega
    rw [e, Res.ok_bind, Res.pure_def, Res.ok_bind]
    have := ih (P ++ [f R])
    rw [List.length_append, List.length_singleton] at this ⊢
    rw [this]
    simp
    omega

/-- `addMeshFunction` stores the values at the centres of the cells. -/
theorem addMeshFunction_eq {M r : Nat} {F : Forest} (hM : F.depth ≤ M) (hF : F.Sorted) {t : Tree (Patch K)} {m : Mesh K}
    (h : Rep r F t [] m.quadtree.map) (fn : K → K → K) :
    ∃ q, m.addMeshFunction M r F fn = .ok { m with
        quadtree := q
        functions := m.functions ++ [Vec.ofList ((meshCells r F t).map fun R => fn R.centre.1 R.centre.2)] } ∧
      Rep r F t [] q.map ∧ q.userPointer = .this := by
  have e1 := iteratePatches_eq hM hF h (look fun (p : Patch K) (n : Nat) => pure (n + p.grid.nx * p.grid.ny)) 0
  rw [leafPass_look F h, count_cells, Nat.zero_add] at e1
  obtain ⟨q1, e1, r1, -⟩ := e1
  have e2 := iterateCells_eq (m := { m with quadtree := q1 }) hM hF r1 (fun xc yc (s : Vec K × Nat) => do
    let v ← s.1.set s.2 (fn xc yc)
    pure (v, s.2 + 1)) (Vec.zeros (meshCells r F t).length, 0)
  have e3 := fill_cells (fun R : Rect K => fn R.centre.1 R.centre.2) (meshCells r F t) []
  simp only [List.length_nil, Nat.zero_add, List.nil_append] at e3
  rw [show (Vec.zeros (meshCells r F t).length : Vec K) = ⟨_, List.replicate (meshCells r F t).length 0⟩ from rfl, e3] at e2
  obtain ⟨q2, e2, r2, u2⟩ := e2
  refine ⟨q2, ?_, r2, u2⟩
  unfold Mesh.addMeshFunction
  have e4 : m.iteratePatches M r F (fun p (n : Nat) => pure (p, n + p.grid.nx * p.grid.ny)) 0 = _ := e1
  rw [e4, Res.ok_bind]
  have e5 : Mesh.iterateCells M r F (fun xc yc (s : Vec K × Nat) => do
    let v ← s.1.set s.2 (fn xc yc)
    pure (v, s.2 + 1)) { m with quadtree := q1 } (Vec.zeros (meshCells r F t).length, 0) = _ := e2
  dsimp only
  rw [show ((leavesOf r F t).flatMap fun p => gridCells p.grid).length = (meshCells r F t).length from rfl, e5, Res.ok_bind]
  simp [Vec.ofList]

end

end EF
