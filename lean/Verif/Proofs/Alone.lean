import Verif.Proofs.Shares

/-!
# A run on one rank broadcasts nothing
-/

namespace EF

open MPI

variable {K T τ α β : Type} {P : Node T → Prop}

/-- Every node of the map satisfies `P`. -/
def MapNodes (P : Node T → Prop) (m : NodeMap T) : Prop := ∀ p n, m p = some (some n) → P n

theorem MapNodes.set {m : NodeMap T} (h : MapNodes P m) {p : Text} {n : Node T} (hn : P n) : MapNodes P (m.set p (some n)) := by
  intro q x hx
  unfold NodeMap.set at hx
  split at hx
  · cases hx; exact hn
  · exact h q x hx

theorem MapNodes.setNone {m : NodeMap T} (h : MapNodes P m) (p : Text) : MapNodes P (m.set p none) := by
  intro q x hx
  unfold NodeMap.set at hx
  split at hx
  · cases hx
  · exact h q x hx

theorem MapNodes.getMap {m : NodeMap T} (h : MapNodes P m) (p : Text) : MapNodes P (m.get p).2 := by
  unfold NodeMap.get
  split
  · exact h
  · exact h.setNone p

theorem MapNodes.get {m : NodeMap T} (h : MapNodes P m) {p : Text} {n : Node T} (hn : (m.get p).1 = some n) : P n := by
  unfold NodeMap.get at hn
  split at hn
  · rename_i x e
    exact h p n (e.trans (congrArg some hn))
  · cases hn

theorem MapNodes.store {m : NodeMap T} (h : MapNodes P m) {p : Text} {n : Node T} (hn : P n) : MapNodes P (m.store p n) := by
  unfold NodeMap.store
  split
  · exact h.set hn
  · exact h

theorem MapNodes.need {m : NodeMap T} (h : MapNodes P m) {p : Text} {n : Node T} (hn : m.need p = .ok n) : P n := by
  unfold NodeMap.need at hn
  split at hn
  · rename_i x e
    rw [← Res.ok_inj.mp hn]
    exact h.get e
  · cases hn

/-- A program that broadcasts nothing, and a fact about its result. -/
inductive Prog.Silent (Q : α → Prop) : Prog T α → Prop
  | ok {a : α} (h : Q a) : Silent Q (.fin (.ok a))
  | throw (e : Exn) : Silent Q (.fin (.throw e))
  | ub : Silent Q (.fin .ub)
  | allMax {lo hi : Nat} {name : Text} {v : Nat} {k : Nat → Prog T α} (h : ∀ n, Silent Q (k n)) : Silent Q (.allMax lo hi name v k)

namespace Prog.Silent

variable {Q : α → Prop} {R : β → Prop}

theorem bind {p : Prog T α} {f : α → Prog T β} (h : Silent Q p) (hf : ∀ a, Q a → Silent R (f a)) : Silent R (p >>= f) := by
  change Silent R (p.bind f)
  induction h with
  | ok h => exact hf _ h
  | throw e => exact .throw e
  | ub => exact .ub
  | allMax _ ih => exact .allMax ih

theorem res {x : Res α} (h : ∀ a, x = .ok a → Q a) : Silent Q (Prog.fin x : Prog T α) := by
  cases x with
  | ok a => exact .ok (h a rfl)
  | throw e => exact .throw e
  | ub => exact .ub

theorem step {c c' : Config T α} (hs : Step c c') (h : ∀ r, Silent Q (c r)) (r : Nat) : Silent Q (c' r) := by
  cases hs with
  | allMax lo hi name v k hle arr lv oth =>
    by_cases hh : lo ≤ r ∧ r ≤ hi
    · have := h r
      rw [arr r hh.1 hh.2] at this
      cases this with
      | allMax h => rw [lv r hh.1 hh.2]; exact h _
    · rw [oth r hh]; exact h r
  | bcast lo hi name root v k hle arr lv oth =>
    have := h (lo + root)
    rw [arr _ (by omega) hle] at this
    cases this

end Prog.Silent

theorem Run.calls_silent [Zero K] {D : Dialect} {n : Nat} {c c' : Config (Patch K) α} (hr : Run n c c')
    (h : ∀ r, (c r).Silent (fun _ => True)) : CallRun n (fun r => Calls.of D r (c r)) (fun r => Calls.of D r (c' r)) := by
  induction hr with
  | refl => exact .refl _
  | step hs _ ih =>
    refine .step ?_ (ih (Prog.Silent.step hs h))
    cases hs with
    | allMax lo hi name v k hle arr lv oth =>
      refine .allMax lo hi name v (fun r n => Calls.of D r (k r n)) hle ?_ ?_ ?_
      · intro r h1 h2
        simp only [arr r h1 h2]
        rfl
      · intro r h1 h2
        simp only [lv r h1 h2]
      · intro r hr
        simp only [oth r hr]
    | bcast lo hi name root v k hle arr lv oth =>
      have := h (lo + root)
      rw [arr _ (by omega) hle] at this
      cases this

theorem AlwaysEnds.calls_silent [Zero K] {D : Dialect} {c : Config (Patch K) α} {z : Nat → α} (hz : AlwaysEnds c z)
    (h : ∀ r, (c r).Silent (fun _ => True)) : CallsEnd (fun r => Calls.of D r (c r)) z := by
  obtain ⟨n, hn⟩ := hz
  exact ⟨n, fun k c' hk => ((hn 0 c (.refl c)).2.calls_silent h).all (fun r => ⟨_, rfl⟩) hk⟩

/-! ## Traversals -/

/-- The node has one owner. -/
def Node.OneOwner (n : Node T) : Prop := n.pfirst = n.plast

theorem mergeSplit_silent [Inhabited T] {M r : Nat} {ptr : UserPointer} {pol : Policy} (lf : T → τ → Res (T × τ))
    (ff : Fam T → Res (Fam T)) (q : Quadrant) (b : Bool) {s : NodeMap T × τ} (hs : MapNodes Node.OneOwner s.1) :
    (mergeSplit M r ptr pol (onData lf) (onFamily ff) q b s).Silent (fun x => MapNodes Node.OneOwner x.1.1) := by
  unfold mergeSplit
  split
  · exact .ub
  dsimp only
  split
  · exact .ub
  · rename_i node hn
    have hnode := hs.get hn
    split
    · exact .ub
    · split
      · split
        · refine .bind (Q := fun x => x.1.1.OneOwner) (.res fun x hx => ?_) fun x hx => .ok (hs.set hx)
          unfold onData at hx
          simp only [Res.bind_eq_ok, Res.pure_def, Res.ok_inj] at hx
          obtain ⟨y, -, rfl⟩ := hx
          exact hnode
        · exact .ok hs
      · rw [if_pos (show node.pfirst = node.plast from hnode)]
        split
        · refine .bind (Q := Node.OneOwner) (.res fun x hx => hs.need hx) fun a ha => ?_
          refine .bind (Q := Node.OneOwner) (.res fun x hx => hs.need hx) fun b hb => ?_
          refine .bind (Q := Node.OneOwner) (.res fun x hx => hs.need hx) fun c hc => ?_
          refine .bind (Q := Node.OneOwner) (.res fun x hx => hs.need hx) fun d hd => ?_
          refine .bind (Q := fun x => x.1.1.tau.OneOwner ∧ x.1.1.a.OneOwner ∧ x.1.1.b.OneOwner ∧ x.1.1.c.OneOwner ∧ x.1.1.d.OneOwner)
            (.res fun x hx => ?_) fun x hx => .ok ?_
          · unfold onFamily at hx
            simp only [Res.bind_eq_ok, Res.pure_def, Res.ok_inj] at hx
            obtain ⟨y, -, rfl⟩ := hx
            exact ⟨hnode, ha, hb, hc, hd⟩
          · exact ((((hs.set hx.1).store hx.2.1).store hx.2.2.1).store hx.2.2.2.1).store hx.2.2.2.2
        · exact .ok hs

theorem searchPost_silent {σ : Type} {Q : σ → Prop} {M r : Nat} {cb : Quadrant → Bool → σ → Prog T (σ × Bool)}
    (hc : ∀ q b s, Q s → (cb q b s).Silent (fun x => Q x.1)) (F : Forest) (q : Quadrant) {s : σ} (hs : Q s) :
    (searchPost M r cb F q s).Silent Q := by
  induction F generalizing q s with
  | leaf k =>
    unfold searchPost
    split
    · exact .bind (hc _ _ _ hs) fun x hx => .ok hx
    · exact .ok hs
  | node c0 c1 c2 c3 ih0 ih1 ih2 ih3 =>
    unfold searchPost
    split
    · exact .bind (ih0 _ hs) fun _ h => .bind (ih1 _ h) fun _ h => .bind (ih2 _ h) fun _ h => .bind (ih3 _ h) fun _ h =>
        .bind (hc _ _ _ h) fun x hx => .ok hx
    · exact .ok hs

theorem searchPre_silent {σ : Type} {Q : σ → Prop} {M r : Nat} {cb : Quadrant → Bool → σ → Prog T (σ × Bool)}
    (hc : ∀ q b s, Q s → (cb q b s).Silent (fun x => Q x.1)) (F : Forest) (q : Quadrant) {s : σ} (hs : Q s) :
    (searchPre M r cb F q s).Silent Q := by
  induction F generalizing q s with
  | leaf k =>
    unfold searchPre
    split
    · exact .bind (hc _ _ _ hs) fun x hx => .ok hx
    · exact .ok hs
  | node c0 c1 c2 c3 ih0 ih1 ih2 ih3 =>
    unfold searchPre
    split
    · refine .bind (hc _ _ _ hs) fun x hx => ?_
      split
      · exact .bind (ih0 _ hx) fun _ h => .bind (ih1 _ h) fun _ h => .bind (ih2 _ h) fun _ h => ih3 _ h
      · exact .ok hx
    · exact .ok hs

theorem merge_silent [Inhabited T] {M r : Nat} (F : Forest) {pol : Policy} (lf : T → τ → Res (T × τ)) (ff : Fam T → Res (Fam T))
    {Q : Quadtree T} (hQ : MapNodes Node.OneOwner Q.map) (t : τ) :
    (Q.merge M r F pol (onData lf) (onFamily ff) t).Silent (fun x => MapNodes Node.OneOwner x.1.map) :=
  .bind (searchPost_silent (Q := fun s => MapNodes Node.OneOwner s.1) (fun _ _ _ hs => mergeSplit_silent lf ff _ _ hs) F _ hQ)
    fun _ h => .ok h

theorem split_silent [Inhabited T] {M r : Nat} (F : Forest) {pol : Policy} (lf : T → τ → Res (T × τ)) (ff : Fam T → Res (Fam T))
    {Q : Quadtree T} (hQ : MapNodes Node.OneOwner Q.map) (t : τ) :
    (Q.split M r F pol (onData lf) (onFamily ff) t).Silent (fun x => MapNodes Node.OneOwner x.1.map) :=
  .bind (searchPre_silent (Q := fun s => MapNodes Node.OneOwner s.1) (fun _ _ _ hs => mergeSplit_silent lf ff _ _ hs) F _ hQ)
    fun _ h => .ok h

/-! ## The stages -/

namespace HPSRank

variable [Field K]

/-- Every node of the quadtree of the rank has one owner. -/
def Alone (A : HPSRank K) : Prop := MapNodes Node.OneOwner A.mesh.quadtree.map

theorem barrier_silent (n : Nat) : (barrier n : Prog (Patch K) Unit).Silent (fun _ => True) := .allMax fun _ => .ok trivial

theorem build_silent {A : HPSRank K} (h : A.Alone) (S : Place) (lap : Lapack K) (ps : PatchSolver K) (opt : HPSOptions) :
    (A.buildStage S lap ps opt).Silent Alone :=
  .bind (barrier_silent _) fun _ _ => .bind (merge_silent _ _ _ h _) fun _ hx => .ok hx

theorem upwardsAnalytic_silent {A : HPSRank K} (h : A.Alone) (S : Place) (lap : Lapack K) (ps : PatchSolver K) (opt : HPSOptions)
    (f : K → K → K) : (A.upwardsStageAnalytic S lap ps opt f).Silent Alone :=
  .bind (barrier_silent _) fun _ _ => .bind (merge_silent _ _ _ h _) fun _ hx => .ok hx

theorem onRoot_alone {fn : Patch K → Res (Patch K)} {q q' : Quadtree (Patch K)} (hq : MapNodes Node.OneOwner q.map)
    (h : onRoot fn q = .ok q') : MapNodes Node.OneOwner q'.map := by
  unfold onRoot at h
  split at h
  · rename_i n e
    simp only [Res.bind_eq_ok, Res.pure_def, Res.ok_inj] at h
    obtain ⟨d, -, rfl⟩ := h
    have hn := hq.get e
    exact hq.set (n := { n with data := d }) hn
  · cases h

theorem solveAnalytic_silent {A : HPSRank K} (h : A.Alone) (S : Place) (lap : Lapack K) (ps : PatchSolver K) (opt : HPSOptions)
    (bc : HPS.BoundaryFn K) : (A.solveStageAnalytic S lap ps opt bc).Silent Alone :=
  .bind (barrier_silent _) fun _ _ => .bind (Q := fun q => MapNodes Node.OneOwner q.map) (.res fun _ hq => onRoot_alone h hq)
    fun q (hq : MapNodes Node.OneOwner q.map) => .bind (split_silent (Q := q) _ _ _ hq _) fun _ hx => .ok hx

theorem solves_silent (S : Place) (lap : Lapack K) (ps : PatchSolver K) (opt : HPSOptions) (f : K → K → K) (bc : HPS.BoundaryFn K)
    (n : Nat) {A : HPSRank K} (h : A.Alone) : (A.solves S lap ps opt f bc n).Silent Alone := by
  induction n generalizing A with
  | zero => exact .ok h
  | succ n ih =>
    exact .bind (upwardsAnalytic_silent h S lap ps opt f) fun _ h => .bind (solveAnalytic_silent h S lap ps opt bc) fun _ h => ih h

end HPSRank

/-! ## The example program -/

theorem searchAll_one {M r : Nat} {k : Nat} {F : Forest} (hF : ∀ i ∈ F.ranks, i = k) (q : Quadrant) :
    ∀ v ∈ searchAll M r F q, v.pfirst = v.plast := by
  induction F generalizing q with
  | leaf i =>
    intro v hv
    rw [searchAll, List.mem_singleton] at hv
    rw [hv]
  | node c0 c1 c2 c3 ih0 ih1 ih2 ih3 =>
    have h0 : ∀ i ∈ c0.ranks, i = k := fun i hi => hF i (by simp only [Forest.ranks, List.mem_append]; tauto)
    have h1 : ∀ i ∈ c1.ranks, i = k := fun i hi => hF i (by simp only [Forest.ranks, List.mem_append]; tauto)
    have h2 : ∀ i ∈ c2.ranks, i = k := fun i hi => hF i (by simp only [Forest.ranks, List.mem_append]; tauto)
    have h3 : ∀ i ∈ c3.ranks, i = k := fun i hi => hF i (by simp only [Forest.ranks, List.mem_append]; tauto)
    intro v hv
    rw [searchAll, List.mem_cons] at hv
    rcases hv with rfl | hv
    · show c0.first = c3.last
      rw [h0 _ (Forest.first_mem c0), h3 _ (Forest.last_mem c3)]
    · split at hv
      · cases hv
      · simp only [List.mem_append] at hv
        rcases hv with ((hv | hv) | hv) | hv
        · exact ih0 h0 _ v hv
        · exact ih1 h1 _ v hv
        · exact ih2 h2 _ v hv
        · exact ih3 h3 _ v hv

section field

variable [Field K]

theorem ctorVisit_alone {M r : Nat} {root : Patch K} {m m' : NodeMap (Patch K)} {v : Visit} (hv : v.pfirst = v.plast)
    (hm : MapNodes Node.OneOwner m) (h : ctorVisit M r root FVFactory.factory m v = .ok m') : MapNodes Node.OneOwner m' := by
  unfold ctorVisit at h
  dsimp only at h
  by_cases hc : v.pfirst ≤ r ∧ r ≤ v.plast
  · rw [if_pos hc] at h
    by_cases hl : v.quadrant.level = 0
    · rw [if_pos hl] at h
      rw [← Res.ok_inj.mp h]
      exact hm.set hv
    · rw [if_neg hl] at h
      cases hp : (m.get (v.quadrant.path M).dropLast).1 with
      | none =>
        rw [hp] at h
        cases h
      | some parent =>
        rw [hp] at h
        simp only [Res.bind_eq_ok, Res.pure_def, Res.ok_inj] at h
        obtain ⟨n, h1, rfl⟩ := h
        change FVFactory.createChildNode _ _ _ _ = _ at h1
        unfold FVFactory.createChildNode at h1
        simp only [Res.bind_eq_ok, Res.pure_def, Res.ok_inj] at h1
        obtain ⟨g, _, rfl⟩ := h1
        exact hm.set hv
  · rw [if_neg hc] at h
    rw [← Res.ok_inj.mp h]
    exact hm.setNone _

theorem construct_alone {M r k : Nat} {root : Patch K} {F : Forest} (hF : ∀ i ∈ F.ranks, i = k) {m : NodeMap (Patch K)}
    (h : construct M r root FVFactory.factory F = .ok m) : MapNodes Node.OneOwner m := by
  unfold construct at h
  have aux : ∀ (l : List Visit) (m m' : NodeMap (Patch K)), (∀ v ∈ l, v.pfirst = v.plast) → MapNodes Node.OneOwner m →
      l.foldlM (ctorVisit M r root FVFactory.factory) m = .ok m' → MapNodes Node.OneOwner m' := by
    intro l
    induction l with
    | nil =>
      intro m m' _ hm h
      rw [← Res.ok_inj.mp h]
      exact hm
    | cons v l ih =>
      intro m m' hl hm h
      rw [List.foldlM_cons] at h
      simp only [Res.bind_eq_ok] at h
      obtain ⟨m1, h1, h2⟩ := h
      exact ih _ _ (fun v hv => hl v (List.mem_cons_of_mem _ hv)) (ctorVisit_alone (hl v List.mem_cons_self) hm h1) h2
  exact aux _ _ _ (searchAll_one hF _) (by intro p n h; cases h) h

theorem searchVisit_alone {M r : Nat} {ptr : UserPointer} {fn : Node T → τ → Res ((Node T × τ) × Bool)}
    (hf : ∀ n s x, n.OneOwner → fn n s = .ok x → x.1.1.OneOwner) (q : Quadrant) (b : Bool) (s : NodeMap T × τ)
    (x : (NodeMap T × τ) × Bool) (hs : MapNodes Node.OneOwner s.1) (h : searchVisit M r ptr fn q b s = .ok x) :
    MapNodes Node.OneOwner x.1.1 := by
  unfold searchVisit at h
  dsimp only at h
  have hm := hs.getMap (q.path M)
  have hg := fun n => hs.get (p := q.path M) (n := n)
  split at h
  · split at h
    · rename_i n m e
      rw [e] at hm hg
      by_cases hc : n.pfirst ≤ r ∧ r ≤ n.plast
      · rw [if_pos hc] at h
        simp only [Res.bind_eq_ok, Res.pure_def, Res.ok_inj] at h
        obtain ⟨y, h1, rfl⟩ := h
        exact hm.set (hf _ _ _ (hg n rfl) h1)
      · rw [if_neg hc] at h
        rw [← Res.ok_inj.mp h]
        exact hm
    · rename_i m e
      rw [e] at hm
      rw [← Res.ok_inj.mp h]
      exact hm
  · cases h

theorem leafVisit_alone {fn : T → τ → Res (T × τ)} (n : Node T) (s : τ) (x : (Node T × τ) × Bool) (hn : n.OneOwner)
    (hx : leafVisit fn n s = .ok x) : x.1.1.OneOwner := by
  unfold leafVisit at hx
  split at hx
  · simp only [Res.bind_eq_ok, Res.pure_def, Res.ok_inj] at hx
    obtain ⟨y, -, rfl⟩ := hx
    exact hn
  · rw [← Res.ok_inj.mp hx]
    exact hn

theorem refine_alone {M r k : Nat} {root : Patch K} {F : Forest} (hF : ∀ i ∈ F.ranks, i = k) {m m' : Mesh K}
    (h : Mesh.refineByFunction M r F root FVFactory.factory m = .ok m') : MapNodes Node.OneOwner m'.quadtree.map := by
  unfold Mesh.refineByFunction Quadtree.new at h
  simp only [Res.bind_eq_ok, Res.pure_def, Res.ok_inj] at h
  obtain ⟨q, ⟨m1, h1, rfl⟩, h2⟩ := h
  unfold Mesh.setMeshFromQuadtree Quadtree.traversePreOrder at h2
  simp only [Res.bind_eq_ok, Res.pure_def, Res.ok_inj] at h2
  obtain ⟨_, ⟨s, h3, rfl⟩, rfl⟩ := h2
  exact searchPre_res (Q := fun s => MapNodes Node.OneOwner s.1) (searchVisit_alone leafVisit_alone) F _ (construct_alone hF h1) h3

theorem example_silent {S : Place} {k : Nat} (hF : ∀ i ∈ S.forest.ranks, i = k) (lap : Lapack K) (ps : PatchSolver K) (opt : HPSOptions)
    (root : Patch K) (f : K → K → K) (bc : HPS.BoundaryFn K) (n : Nat) :
    (exampleMain S lap ps opt root f bc n).Silent (fun _ => True) := by
  refine .bind (Q := fun m => MapNodes Node.OneOwner m.quadtree.map) (.res fun m hm => refine_alone hF hm) fun m hm => ?_
  refine .bind (Q := HPSRank.Alone) (.bind (HPSRank.barrier_silent _) fun _ _ => .ok hm) fun A hA =>
    .bind (HPSRank.build_silent hA S lap ps opt) fun A hA => .bind (HPSRank.solves_silent S lap ps opt f bc n hA) fun A _ =>
      .bind (Q := fun _ => True) (.res fun _ _ => trivial) fun _ _ => .ok trivial

end field

end EF
