import Verif.Proofs.QuadTile

/-!
# Properties of the quadtree

`M` is `P4EST_MAXLEVEL`; `r` is the calling rank; `F` is the refinement tree of the p4est with the owner of every leaf.
-/

namespace EF

variable {K T τ : Type}

/-! ## C34: children tile their parent -/

section tiling

variable [Field K] [LinearOrder K] [IsStrictOrderedRing K]

/-- The four children of any node: half the width and height each, in the order lower left, lower right, upper left, upper
right; a point of the parent lies in exactly one of them, and no child has a point outside.  Rebuilding the parent from the
children gives back domain, cell counts, path and level. -/
theorem C34_children_tile (nd : Node (Patch K)) (pf pl : Nat) :
    ∃ c : Nat → Node (Patch K), (∀ i < 4, FVFactory.createChildNode nd i pf pl = .ok (c i)) ∧
      (∀ i < 4, let g := (c i).data.grid
        let G := nd.data.grid
        g.nx = G.nx ∧ g.ny = G.ny ∧
        g.xl = G.xl + (if i = 1 ∨ i = 3 then (G.xu - G.xl) / 2 else 0) ∧ g.xu - g.xl = (G.xu - G.xl) / 2 ∧
        g.yl = G.yl + (if i = 2 ∨ i = 3 then (G.yu - G.yl) / 2 else 0) ∧ g.yu - g.yl = (G.yu - G.yl) / 2 ∧
        (c i).level = nd.level + 1) ∧
      (∀ x y, nd.data.grid.rect.Has x y → ∃ i < 4, (c i).data.grid.rect.Has x y ∧
        ∀ j < 4, (c j).data.grid.rect.Has x y → j = i) ∧
      (∀ i < 4, ∀ x y, (c i).data.grid.rect.Has x y → nd.data.grid.rect.Has x y) ∧
      ∃ p, FVFactory.createParentNode [c 0, c 1, c 2, c 3] nd.pfirst nd.plast = .ok p ∧
        p.data.grid = nd.data.grid ∧ p.path = nd.path ∧ p.level = nd.level ∧ p.pfirst = nd.pfirst ∧ p.plast = nd.plast := by
  let gr : Nat → Grid K := fun i => ⟨nd.data.grid.nx, nd.data.grid.ny, (nd.data.grid.rect.quarter i).xl,
    (nd.data.grid.rect.quarter i).xu, (nd.data.grid.rect.quarter i).yl, (nd.data.grid.rect.quarter i).yu⟩
  refine ⟨fun i => ⟨Patch.fresh (gr i), nd.path ++ natText i, nd.level + 1, pf, pl, false, none⟩, ?_, ?_, ?_, ?_, ?_⟩
  · intro i hi
    interval_cases i <;> rfl
  · intro i hi
    interval_cases i <;> norm_num [gr, Patch.fresh, Rect.quarter, Grid.rect] <;> (try constructor) <;> (try constructor) <;>
      (try constructor) <;> ring
  · intro x y h
    exact nd.data.grid.rect.quarter_unique h
  · intro i hi x y h
    exact nd.data.grid.rect.quarter_sub hi h
  · refine ⟨_, rfl, rfl, ?_, ?_, rfl, rfl⟩
    · show (nd.path ++ natText 0).dropLast = nd.path
      rw [Quadrant.natText_small (by omega)]
      simp
    · show nd.level + 1 - 1 = nd.level
      omega

/-- Merging the operators of a family gives the parent the rectangle the family came from. -/
theorem C34_merge_restores_domain (G : Fam (Patch K)) (R : Rect K) (ha : G.a.grid.rect = R.quarter 0)
    (hb : G.b.grid.rect = R.quarter 1) (hc : G.c.grid.rect = R.quarter 2) : (HPS.mergeGrid G).rect = R := by
  have a1 := congrArg Rect.xl ha
  have a2 := congrArg Rect.yl ha
  have b1 := congrArg Rect.xu hb
  have c1 := congrArg Rect.yu hc
  simp only [Grid.rect] at a1 a2 b1 c1
  cases R
  simp only [Grid.rect, HPS.mergeGrid, a1, a2, b1, c1]
  norm_num [Rect.quarter]

/-- The leaf patches of all ranks of a new quadtree tile the root domain: a point of the domain lies in the patch of
exactly one leaf path, whatever the refinement and the distribution. -/
theorem C34_leaves_tile {M : Nat} (p : Patch K) {F : Forest} (hM : F.depth ≤ M) (hs : F.Sorted) :
    ∃ m : Nat → NodeMap (Patch K), (∀ r, construct M r p FVFactory.factory F = .ok (m r)) ∧
      (∀ x y, p.grid.rect.Has x y → ∃! t : Text, ∃ r n, m r t = some (some n) ∧ n.leaf = true ∧ n.data.grid.rect.Has x y) ∧
      ∀ r t n x y, m r t = some (some n) → n.data.grid.rect.Has x y → p.grid.rect.Has x y := by
  choose m hm he using fun r => construct_ok (M := M) r p hM hs
  refine ⟨m, hm, ?_, ?_⟩
  · intro x y h
    obtain ⟨b, k, e1, e2, e3⟩ := F.leaf_unique p.grid.rect h
    refine ⟨b.text, ⟨k, nodeAt p b (.leaf k), (he k).here b _ e1 ⟨le_refl _, le_refl _⟩, rfl, ?_⟩, ?_⟩
    · rw [nodeAt_grid]
      exact e2
    · rintro t ⟨r, n, h1, h2, h3⟩
      rcases (he r).only t n h1 with h' | ⟨b', G, f1, f2, rfl⟩
      · cases h'
      · rw [(he r).here b' G f1 f2] at h1
        cases h1
        cases G with
        | node => exact absurd h2 (by simp [nodeAt, Forest.isLeaf])
        | leaf k' =>
          rw [nodeAt_grid] at h3
          rw [List.nil_append] at h3 ⊢
          rw [e3 b' k' f1 h3]
  · intro r t n x y h1 h3
    rcases (he r).only t n h1 with h' | ⟨b', G, f1, f2, rfl⟩
    · cases h'
    · rw [(he r).here b' G f1 f2] at h1
      cases h1
      rw [nodeAt_grid] at h3
      exact Addr.rect_sub p.grid.rect (Forest.sub_valid f1) h3

end tiling

/-! ## C35: paths identify nodes -/

/-- Different quadrants have different paths. -/
theorem C35_path_injective {M : Nat} {q q' : Quadrant} (hq : q.OnGrid M) (hq' : q'.OnGrid M) (h : q.path M = q'.path M) : q = q' := by
  have hm := hq.level
  have hm' := hq'.level
  obtain ⟨a, ha, hl, rfl⟩ := hq.addr
  obtain ⟨a', ha', hl', rfl⟩ := hq'.addr
  rw [← hl] at hm
  rw [← hl'] at hm'
  rw [(Addr.quad_spec ha hm).2.2, (Addr.quad_spec ha' hm').2.2] at h
  rw [Addr.text_inj ha ha' h]

/-- A child's path is the parent's path followed by the child number; a path has one character more than the level. -/
theorem C35_path_child {M : Nat} {q : Quadrant} (hq : q.OnGrid M) (hl : q.level < M) {i : Nat} (hi : i < 4) :
    (q.child M i).OnGrid M ∧ (q.child M i).path M = q.path M ++ natText i ∧
      (q.child M i).path M = q.path M ++ [Nat.digitChar i] ∧ ((q.path M).length : Int) - 1 = q.level :=
  ⟨hq.child hl hi, Quadrant.path_child hq hl hi, by rw [Quadrant.path_child hq hl hi, Quadrant.natText_small hi], by
    rw [Quadrant.path_length]; push_cast; omega⟩

/-- One square contains another exactly when its path is a prefix of the other path. -/
theorem C35_prefix_iff_contains {M : Nat} {q q' : Quadrant} (hq : q.OnGrid M) (hq' : q'.OnGrid M) :
    q.path M <+: q'.path M ↔ q.Contains M q' := by
  have hm := hq.level
  have hm' := hq'.level
  obtain ⟨a, ha, hl, rfl⟩ := hq.addr
  obtain ⟨a', ha', hl', rfl⟩ := hq'.addr
  rw [← hl] at hm
  rw [← hl'] at hm'
  rw [(Addr.quad_spec ha hm).2.2, (Addr.quad_spec ha' hm').2.2, Addr.text_prefix ha ha']
  exact ⟨Addr.contains_of_prefix ha' hm', Addr.prefix_of_contains ha ha' hm hm'⟩

/-! ## C36: the node map -/

/-- After construction rank `r` has, for every node whose owner range contains `r`, a node under the path of that node with
the right level, leaf flag, domain, cell counts and owner range; no other path maps to a node.  For a rank that owns a leaf
the nodes whose owner range contains it are those with a leaf of its own below. -/
theorem C36_node_map [Field K] {M : Nat} (r : Nat) (p : Patch K) {F : Forest} (hM : F.depth ≤ M) (hs : F.Sorted) :
    ∃ m, construct M r p FVFactory.factory F = .ok m ∧
      (∀ b G, F.sub b = some G → G.Spans r → ∃ n, m b.text = some (some n) ∧ n.path = (b.quad M).path M ∧ n.level = b.length ∧
        n.leaf = G.isLeaf ∧ n.pfirst = G.first ∧ n.plast = G.last ∧ n.data.grid.nx = p.grid.nx ∧ n.data.grid.ny = p.grid.ny ∧
        n.data.grid.rect = Addr.rect p.grid.rect b) ∧
      (∀ t n, m t = some (some n) → ∃ b G, F.sub b = some G ∧ G.Spans r ∧ t = b.text) ∧
      (r ∈ F.ranks → ∀ b G, F.sub b = some G → (G.Spans r ↔ r ∈ G.ranks)) := by
  obtain ⟨m, hm, he⟩ := construct_ok (M := M) r p hM hs
  refine ⟨m, hm, ?_, ?_, ?_⟩
  · intro b G hb hsp
    have hd := Forest.sub_depth hb
    refine ⟨_, he.here b G hb hsp, ?_, rfl, rfl, rfl, rfl, ?_, ?_, ?_⟩
    · rw [(Addr.quad_spec (Forest.sub_valid hb) (by omega)).2.2]
      rfl
    · rw [nodeAt_grid]; rfl
    · rw [nodeAt_grid]; rfl
    · rw [nodeAt_grid]; rfl
  · intro t n ht
    rcases he.only t n ht with h' | ⟨b, G, h1, h2, h3⟩
    · cases h'
    · exact ⟨b, G, h1, h2, h3⟩
  · intro hr b G hb
    exact ⟨Forest.mem_of_spans hb hs hr, (Forest.sub_sorted hb hs).spans_of_mem⟩

/-! ## C37: traversals -/

/-- Pre-order traversal with a node callback: the callback runs once for each node of the rank, parents before their
children and siblings in order, on the node as it then is; the p4est points at the quadtree afterwards. -/
theorem C37_preorder {M r : Nat} {F : Forest} (hM : F.depth ≤ M) (hs : F.Sorted) {t : Tree T} {Q : Quadtree T}
    (hQ : Rep r F t [] Q.map) {fn : Node T → τ → Res ((Node T × τ) × Bool)}
    (hfn : ∀ n s, ∃ x : Res (Node T × τ), fn n s = (fun y => (y, true)) <$> x) (s : τ) :
    ∃ L, VisitOrder F r Addr.PreLt L ∧
      Q.traversePreOrder M r F fn s = (do
        let x ← L.foldlM (fun s a => visitBody fn a s) (Q.map, s)
        pure (⟨x.1, .this⟩, x.2)) := by
  have vo := preOrder_exists F r
  refine ⟨_, vo, ?_⟩
  have hv : ∀ e ∈ F.preEv r [], Addr.Valid e.1 ∧ e.1.length ≤ M ∧ Ready r Q.map e.1 := by
    intro e he
    obtain ⟨b, G, h1, h2, rfl⟩ := Forest.mem_preEv.mp he
    have := Forest.sub_depth h1
    exact ⟨Forest.sub_valid h1, by simp; omega, hQ.ready hs h1 h2⟩
  unfold Quadtree.traversePreOrder
  rw [show Quadrant.root = Addr.quad M [] from rfl, searchPre_eq,
    visits_eq _ (fun e he => ⟨(hv e he).1, (hv e he).2.1⟩) ((F.preEv_sorted r []).imp (fun h => h.ne)) _ (fun e he => (hv e he).2.2)]
  intro q l x
  unfold searchVisit
  rw [if_pos rfl]
  dsimp only
  split
  · rename_i node m _
    split
    · obtain ⟨y, hy⟩ := hfn node x.2
      refine ⟨do let z ← y; pure (m.set (q.path M) (some z.1), z.2), ?_⟩
      rw [hy]
      cases y <;> rfl
    · exact ⟨.ok (m, x.2), rfl⟩
  · exact ⟨.ok (_, x.2), rfl⟩

/-- Post-order traversal with a node callback: the same with parents after their children. -/
theorem C37_postorder {M r : Nat} {F : Forest} (hM : F.depth ≤ M) (hs : F.Sorted) {t : Tree T} {Q : Quadtree T}
    (hQ : Rep r F t [] Q.map) (hp : Q.userPointer = .this) (fn : Node T → τ → Res ((Node T × τ) × Bool)) (s : τ) :
    ∃ L, VisitOrder F r Addr.PostLt L ∧
      Q.traversePostOrder M r F fn s = (do
        let x ← L.foldlM (fun s a => visitBody fn a s) (Q.map, s)
        pure (⟨x.1, .this⟩, x.2)) := by
  have vo := postOrder_exists F r
  refine ⟨_, vo, ?_⟩
  have hv : ∀ e ∈ F.postEv r [], Addr.Valid e.1 ∧ e.1.length ≤ M ∧ Ready r Q.map e.1 := by
    intro e he
    obtain ⟨b, G, h1, h2, rfl⟩ := Forest.mem_preEv.mp ((F.postEv_perm r []).mem_iff.mp he)
    have := Forest.sub_depth h1
    exact ⟨Forest.sub_valid h1, by simp; omega, hQ.ready hs h1 h2⟩
  unfold Quadtree.traversePostOrder
  rw [show Quadrant.root = Addr.quad M [] from rfl, searchPost_eq, hp,
    visits_eq _ (fun e he => ⟨(hv e he).1, (hv e he).2.1⟩) ((F.postEv_sorted r []).imp (fun h => h.ne)) _ (fun e he => (hv e he).2.2)]

/-- The traversals with a callback on the data are the traversals with that callback on the data of the node. -/
theorem C37_data_traversals {M r : Nat} {F : Forest} {Q : Quadtree T} (hp : Q.userPointer = .this) (fn : T → τ → Res (T × τ)) (s : τ) :
    Q.traversePreOrderData M r F fn s = Q.traversePreOrder M r F (onData fn) s ∧
      Q.traversePostOrderData M r F fn s = Q.traversePostOrder M r F (onData fn) s := by
  constructor
  · unfold Quadtree.traversePreOrderData Quadtree.traversePreOrder searchVisitData
    rw [hp]
    rfl
  · rfl

/-- The order seen from outside: noting the path of each visited node gives the paths of the nodes of the rank in order. -/
theorem C37_preorder_paths {M r : Nat} {F : Forest} (hM : F.depth ≤ M) (hs : F.Sorted) {t : Tree T} {Q : Quadtree T}
    (hQ : Rep r F t [] Q.map) :
    ∃ L, VisitOrder F r Addr.PreLt L ∧ Q.traversePreOrder M r F notePath [] = .ok (⟨Q.map, .this⟩, L.map Addr.text) := by
  obtain ⟨L, hL, h⟩ := C37_preorder hM hs hQ (fn := notePath) (fun n s => ⟨.ok (n, s ++ [n.path]), rfl⟩) []
  refine ⟨L, hL, ?_⟩
  obtain ⟨m, e, rfl⟩ := notes_eq L (Q.map, []) (fun a ha => by
    obtain ⟨G, g1, g2⟩ := (hL.2 a).mp ha
    exact hQ.path hs g1 g2)
  rw [h, e]
  rfl

theorem C37_postorder_paths {M r : Nat} {F : Forest} (hM : F.depth ≤ M) (hs : F.Sorted) {t : Tree T} {Q : Quadtree T}
    (hQ : Rep r F t [] Q.map) (hp : Q.userPointer = .this) :
    ∃ L, VisitOrder F r Addr.PostLt L ∧ Q.traversePostOrder M r F notePath [] = .ok (⟨Q.map, .this⟩, L.map Addr.text) := by
  obtain ⟨L, hL, h⟩ := C37_postorder hM hs hQ hp notePath []
  refine ⟨L, hL, ?_⟩
  obtain ⟨m, e, rfl⟩ := notes_eq L (Q.map, []) (fun a ha => by
    obtain ⟨G, g1, g2⟩ := (hL.2 a).mp ha
    exact hQ.path hs g1 g2)
  rw [h, e]
  rfl

/-- On one rank, merge runs the leaf callback at leaves and the family callback at a node after everything below it
(`Tree.mergeSt`), and ends exactly as that recursion does, including exceptions. -/
theorem C37_merge_order [Inhabited T] {M r : Nat} {F : Forest} (hM : F.depth ≤ M) (hr : ∀ k ∈ F.ranks, k = r) (pol : Policy)
    (lf : T → τ → Res (T × τ)) (ff : Fam T → Res (Fam T)) {t : Tree T} {Q : Quadtree T} (hQ : Rep r F t [] Q.map)
    (hp : Q.userPointer = .this) (s : τ) :
    match t.mergeSt lf ff s with
    | .ok y => ∃ Q' : Quadtree T, Q.merge M r F pol (onData lf) (onFamily ff) s = .fin (.ok (Q', y.2)) ∧ Rep r F y.1 [] Q'.map ∧
        Q'.userPointer = .this
    | .throw e => Q.merge M r F pol (onData lf) (onFamily ff) s = .fin (.throw e)
    | .ub => Q.merge M r F pol (onData lf) (onFamily ff) s = .fin .ub := by
  have h := merge_one (M := M) (pol := pol) (lf := lf) (ff := ff) (s := s) F Addr.Valid.nil (by simpa using hM) hr hQ
  unfold Quadtree.merge
  rw [hp, show Quadrant.root = Addr.quad M [] from rfl]
  cases ht : t.mergeSt lf ff s with
  | ok y =>
    rw [ht] at h
    obtain ⟨m, e, h1, _⟩ := h
    rw [e]
    exact ⟨⟨m, .this⟩, rfl, h1, rfl⟩
  | throw e =>
    rw [ht] at h
    rw [show searchPost M r _ F _ _ = _ from h]
    rfl
  | ub =>
    rw [ht] at h
    rw [show searchPost M r _ F _ _ = _ from h]
    rfl

/-- On one rank, split runs the family callback at a node before everything below it (`Tree.splitFrom`). -/
theorem C37_split_order [Inhabited T] {M r : Nat} {F : Forest} (hM : F.depth ≤ M) (hr : ∀ k ∈ F.ranks, k = r) (pol : Policy)
    (lf : T → Res T) (ff : Fam T → Res (Fam T)) {t : Tree T} {Q : Quadtree T} (hQ : Rep r F t [] Q.map)
    (hp : Q.userPointer = .this) (s : τ) :
    match t.split lf ff with
    | .ok t' => ∃ Q' : Quadtree T, Q.split M r F pol (onData (stateless lf)) (onFamily ff) s = .fin (.ok (Q', s)) ∧
        Rep r F t' [] Q'.map ∧ Q'.userPointer = .this
    | .throw e => Q.split M r F pol (onData (stateless lf)) (onFamily ff) s = .fin (.throw e)
    | .ub => Q.split M r F pol (onData (stateless lf)) (onFamily ff) s = .fin .ub := by
  have h := split_one (M := M) (pol := pol) (lf := lf) (ff := ff) (s := s) F Addr.Valid.nil (by simpa using hM) hr hQ
  unfold Quadtree.split Tree.split
  rw [hp, show Quadrant.root = Addr.quad M [] from rfl]
  cases ht : t.splitFrom lf ff t.val with
  | ok t' =>
    rw [ht] at h
    obtain ⟨m, e, h1, _⟩ := h
    rw [e]
    exact ⟨⟨m, .this⟩, rfl, h1, rfl⟩
  | throw e =>
    rw [ht] at h
    rw [show searchPre M r _ F _ _ = _ from h]
    rfl
  | ub =>
    rw [ht] at h
    rw [show searchPre M r _ F _ _ = _ from h]
    rfl

/-- A quadtree used right after construction: the constructor restores the user pointer of the p4est, and only the
pre-order traversal with a node callback sets it, so any other traversal reads through a stale pointer. -/
theorem C37_first_use_wrong [Field K] {M r : Nat} {F : Forest} (hr : r ∈ F.ranks) (p : Patch K) {saved : UserPointer}
    (hsv : saved ≠ .this) {Q : Quadtree (Patch K)} (hQ : Quadtree.new M r p FVFactory.factory F saved = .ok Q) (pol : Policy)
    (fn : Node (Patch K) → τ → Res ((Node (Patch K) × τ) × Bool)) (dfn : Patch K → τ → Res (Patch K × τ))
    (ff : Fam (Node (Patch K)) → τ → Res ((Fam (Node (Patch K)) × τ) × Bool)) (s : τ) :
    Q.traversePreOrderData M r F dfn s = .ub ∧ Q.traversePostOrder M r F fn s = .ub ∧
      Q.traversePostOrderData M r F dfn s = .ub ∧ Q.merge M r F pol fn ff s = .fin .ub ∧ Q.split M r F pol fn ff s = .fin .ub := by
  have hp : Q.userPointer = saved := by
    unfold Quadtree.new at hQ
    obtain ⟨m, _, h⟩ := Res.bind_eq_ok.mp hQ
    rw [Res.pure_def, Res.ok_inj] at h
    rw [← h]
  have pre : ∀ {m : Type → Type} [Monad m] [LawfulMonad m] {σ : Type} (bad : ∀ {β : Type}, m β)
      (hbad : ∀ {β γ : Type} (f : β → m γ), (bad >>= f) = bad) (cb : Quadrant → Bool → σ → m (σ × Bool))
      (hcb : ∀ q l s, cb q l s = bad) (s : σ), searchPre M r cb F .root s = bad ∧ searchPost M r cb F .root s = bad := by
    intro m _ _ σ bad hbad cb hcb s
    constructor
    · cases F with
      | leaf k =>
        simp only [searchPre]
        rw [if_pos (by simp only [Forest.ranks, List.mem_singleton] at hr; exact hr.symm), hcb, hbad]
      | node c0 c1 c2 c3 =>
        simp only [searchPre]
        rw [if_pos hr, hcb, hbad]
    · rw [show Quadrant.root = Addr.quad M [] from rfl, searchPost_eq]
      have hne : F.postEv r [] ≠ [] := by
        intro h
        have := ((postOrder_exists F r).2 []).mpr ⟨F, by simp [Forest.sub], hr⟩
        rw [h] at this
        simp at this
      cases hL : F.postEv r [] with
      | nil => exact absurd hL hne
      | cons e L =>
        rw [List.foldlM_cons, hcb, map_eq_pure_bind, hbad, hbad]
  have k1 : ∀ (f : Node (Patch K) → τ → Res ((Node (Patch K) × τ) × Bool)) q l s, searchVisit M r saved f q l s = .ub := by
    intro f q l s
    unfold searchVisit
    rw [if_neg hsv]
  have k2 : ∀ q l s, mergeSplit M r saved pol fn ff q l s = .fin .ub := by
    intro q l s
    unfold mergeSplit
    rw [if_pos hsv]
  unfold Quadtree.traversePreOrderData Quadtree.traversePostOrder Quadtree.traversePostOrderData Quadtree.merge Quadtree.split
    searchVisitData
  rw [hp]
  rw [(pre (m := Res) .ub (fun f => rfl) _ (k1 _) _).1, (pre (m := Res) .ub (fun f => rfl) _ (k1 fn) _).2,
    (pre (m := Res) .ub (fun f => rfl) _ (k1 _) _).2, (pre (m := Prog (Patch K)) (.fin .ub) (fun f => rfl) _ k2 _).1,
    (pre (m := Prog (Patch K)) (.fin .ub) (fun f => rfl) _ k2 _).2]
  exact ⟨rfl, rfl, rfl, rfl, rfl⟩


/-! ## Concrete cases -/

/-- Two levels on three ranks. -/
def exForest : Forest := .node (.node (.leaf 0) (.leaf 0) (.leaf 1) (.leaf 1)) (.leaf 1) (.leaf 2) (.leaf 2)

theorem exForest_sorted : exForest.Sorted := by unfold Forest.Sorted; decide

theorem exForest_depth : exForest.depth ≤ 30 := by decide

/-- The unit square with four by four cells. -/
def exRoot : Patch ℚ := Patch.fresh ⟨4, 4, 0, 1, 0, 1⟩

example : exRoot.grid.rect.Has (1 / 3) (3 / 4) := by
  simp only [exRoot, Patch.fresh, Grid.rect, Rect.Has]
  norm_num

example := C34_leaves_tile exRoot exForest_depth exForest_sorted

/-- A quadrant of level three and its ancestor of level one. -/
example : (⟨2 ^ 29 + 2 ^ 27, 2 ^ 29, 3⟩ : Quadrant).OnGrid 30 ∧ (⟨2 ^ 29, 2 ^ 29, 1⟩ : Quadrant).OnGrid 30 ∧
    (⟨2 ^ 29 + 2 ^ 27, 2 ^ 29, 3⟩ : Quadrant).path 30 = "0301".toList ∧ (⟨2 ^ 29, 2 ^ 29, 1⟩ : Quadrant).path 30 = "03".toList := by
  refine ⟨⟨?_, ?_, ?_, ?_, ?_⟩, ⟨?_, ?_, ?_, ?_, ?_⟩, ?_, ?_⟩ <;> decide +kernel

example (r : Nat) := C36_node_map r exRoot exForest_depth exForest_sorted

/-- Rank 1 has a node above leaves of its own and of rank 0. -/
example : exForest.sub [0] = some (.node (.leaf 0) (.leaf 0) (.leaf 1) (.leaf 1)) ∧
    (Forest.node (.leaf 0) (.leaf 0) (.leaf 1) (.leaf 1)).Spans 1 := by decide

/-- The traversals of a new quadtree. -/
example (r : Nat) : ∃ Q Q' : Quadtree (Patch ℚ), Quadtree.new 30 r exRoot FVFactory.factory exForest .null = .ok Q ∧
    ∃ L, VisitOrder exForest r Addr.PreLt L ∧ Q.traversePreOrder 30 r exForest notePath [] = .ok (Q', L.map Addr.text) ∧
    ∃ L', VisitOrder exForest r Addr.PostLt L' ∧ Q'.traversePostOrder 30 r exForest notePath [] = .ok (Q', L'.map Addr.text) := by
  obtain ⟨m, hm, he⟩ := construct_ok (M := 30) r exRoot exForest_depth exForest_sorted
  obtain ⟨L, h1, h2⟩ := C37_preorder_paths (Q := ⟨m, .null⟩) exForest_depth exForest_sorted he.rep
  obtain ⟨L', h3, h4⟩ := C37_postorder_paths (Q := ⟨m, .this⟩) exForest_depth exForest_sorted he.rep rfl
  exact ⟨⟨m, .null⟩, ⟨m, .this⟩, by unfold Quadtree.new; rw [hm]; rfl, L, h1, h2, L', h3, h4⟩

example : VisitOrder exForest 1 Addr.PreLt [[], [0], [0, 2], [0, 3], [1]] := preOrder_exists exForest 1

example : VisitOrder exForest 1 Addr.PostLt [[0, 2], [0, 3], [0], [1], []] := postOrder_exists exForest 1

/-- Merge and split on one rank. -/
example (lf : Patch ℚ → Res (Patch ℚ)) (ff : Fam (Patch ℚ) → Res (Fam (Patch ℚ))) : ∃ m : NodeMap (Patch ℚ),
    construct 30 0 exRoot FVFactory.factory (.node (.leaf 0) (.leaf 0) (.leaf 0) (.leaf 0)) = .ok m ∧
    Rep 0 (.node (.leaf 0) (.leaf 0) (.leaf 0) (.leaf 0)) (startTree exRoot (.node (.leaf 0) (.leaf 0) (.leaf 0) (.leaf 0)) []) [] m := by
  obtain ⟨m, hm, he⟩ := construct_ok (M := 30) (F := .node (.leaf 0) (.leaf 0) (.leaf 0) (.leaf 0)) 0 exRoot (by decide)
    (by unfold Forest.Sorted; decide)
  exact ⟨m, hm, he.rep⟩

end EF
