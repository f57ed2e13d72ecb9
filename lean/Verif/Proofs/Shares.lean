import Verif.Proofs.Sound

/-!
# What the stages broadcast
-/

namespace EF

open MPI

variable {K T τ α : Type} {P : T → Prop}

/-! ## The node map -/

/-- The data of every node of the map satisfies `P`. -/
def MapAll (P : T → Prop) (m : NodeMap T) : Prop := ∀ p n, m p = some (some n) → P n.data

theorem MapAll.set {m : NodeMap T} (h : MapAll P m) {p : Text} {n : Node T} (hn : P n.data) : MapAll P (m.set p (some n)) := by
  intro q x hx
  unfold NodeMap.set at hx
  split at hx
  · cases hx; exact hn
  · exact h q x hx

theorem MapAll.setNone {m : NodeMap T} (h : MapAll P m) (p : Text) : MapAll P (m.set p none) := by
  intro q x hx
  unfold NodeMap.set at hx
  split at hx
  · cases hx
  · exact h q x hx

theorem MapAll.getMap {m : NodeMap T} (h : MapAll P m) (p : Text) : MapAll P (m.get p).2 := by
  unfold NodeMap.get
  split
  · exact h
  · exact h.setNone p

theorem MapAll.get {m : NodeMap T} (h : MapAll P m) {p : Text} {n : Node T} (hn : (m.get p).1 = some n) : P n.data := by
  unfold NodeMap.get at hn
  split at hn
  · rename_i x e
    exact h p n (e.trans (congrArg some hn))
  · cases hn

theorem MapAll.store {m : NodeMap T} (h : MapAll P m) {p : Text} {n : Node T} (hn : P n.data) : MapAll P (m.store p n) := by
  unfold NodeMap.store
  split
  · exact h.set hn
  · exact h

theorem MapAll.need {m : NodeMap T} (h : MapAll P m) {p : Text} {n : Node T} (hn : m.need p = .ok n) : P n.data := by
  unfold NodeMap.need at hn
  split at hn
  · rename_i x e
    rw [← Res.ok_inj.mp hn]
    exact h.get e
  · cases hn

theorem MapAll.stores {m : NodeMap T} (h : MapAll P m) {p p0 p1 p2 p3 : Text} {F : Fam (Node T)} (ht : P F.tau.data) (ha : P F.a.data)
    (hb : P F.b.data) (hc : P F.c.data) (hd : P F.d.data) :
    MapAll P (((((m.set p (some F.tau)).store p0 F.a).store p1 F.b).store p2 F.c).store p3 F.d) :=
  ((((h.set ht).store ha).store hb).store hc).store hd

/-! ## Traversals -/

/-- A leaf callback that keeps `P`. -/
def LeafKeeps (P : T → Prop) (leafFn : Node T → τ → Res ((Node T × τ) × Bool)) : Prop :=
  ∀ n s x, P n.data → leafFn n s = .ok x → P x.1.1.data

/-- A family callback that keeps `P`. -/
def FamKeeps (P : T → Prop) (famFn : Fam (Node T) → τ → Res ((Fam (Node T) × τ) × Bool)) : Prop :=
  ∀ F s x, P F.tau.data → P F.a.data → P F.b.data → P F.c.data → P F.d.data → famFn F s = .ok x →
    P x.1.1.tau.data ∧ P x.1.1.a.data ∧ P x.1.1.b.data ∧ P x.1.1.c.data ∧ P x.1.1.d.data

theorem shareChild_shares [Inhabited T] (h0 : P default) (r lo hi : Nat) (path : Text) (i : Nat) {m : NodeMap T} (hm : MapAll P m) :
    (shareChild r lo hi path i m).Shares P (fun x => P x.1.data ∧ MapAll P x.2) := by
  have hmine : P ((m.get (path ++ natText i)).1.getD Node.blank).data := by
    cases hg : (m.get (path ++ natText i)).1 with
    | none => exact h0
    | some n => exact hm.get hg
  refine .allMax fun n => .bcast hmine fun x hx => .ok ⟨hx, ?_⟩
  have hmap := hm.getMap (path ++ natText i)
  change MapAll P (if (m.get (path ++ natText i)).1.isSome then (m.get (path ++ natText i)).2.set (path ++ natText i) (some x)
    else (m.get (path ++ natText i)).2)
  by_cases hi : (m.get (path ++ natText i)).1.isSome = true
  · rw [if_pos hi]
    exact hmap.set hx
  · rw [if_neg hi]
    exact hmap

theorem mergeSplit_shares [Inhabited T] (h0 : P default) {M r : Nat} {ptr : UserPointer} {pol : Policy}
    {leafFn : Node T → τ → Res ((Node T × τ) × Bool)} {famFn : Fam (Node T) → τ → Res ((Fam (Node T) × τ) × Bool)}
    (hl : LeafKeeps P leafFn) (hf : FamKeeps P famFn) (q : Quadrant) (b : Bool) {s : NodeMap T × τ} (hs : MapAll P s.1) :
    (mergeSplit M r ptr pol leafFn famFn q b s).Shares P (fun x => MapAll P x.1.1) := by
  unfold mergeSplit
  split
  · exact .ub
  dsimp only
  split
  · exact .ub
  · rename_i node hn
    have hnode := hs.get hn
    split
    · exact .ub
    · split
      · split
        · exact .bind (Q := fun x => P x.1.1.data) (.res fun x hx => hl _ _ _ hnode hx) fun x hx => .ok (hs.set hx)
        · exact .ok hs
      · split
        · split
          · refine .bind (Q := fun n => P n.data) (.res fun x hx => hs.need hx) fun a ha => ?_
            refine .bind (Q := fun n => P n.data) (.res fun x hx => hs.need hx) fun b hb => ?_
            refine .bind (Q := fun n => P n.data) (.res fun x hx => hs.need hx) fun c hc => ?_
            refine .bind (Q := fun n => P n.data) (.res fun x hx => hs.need hx) fun d hd => ?_
            refine .bind (.res fun x hx => hf _ _ _ hnode ha hb hc hd hx) fun x hx => .ok ?_
            exact hs.stores hx.1 hx.2.1 hx.2.2.1 hx.2.2.2.1 hx.2.2.2.2
          · exact .ok hs
        · split
          · split
            · exact .throw _
            · refine .bind (shareChild_shares h0 _ _ _ _ _ hs) fun a ha => ?_
              refine .bind (shareChild_shares h0 _ _ _ _ _ ha.2) fun b hb => ?_
              refine .bind (shareChild_shares h0 _ _ _ _ _ hb.2) fun c hc => ?_
              refine .bind (shareChild_shares h0 _ _ _ _ _ hc.2) fun d hd => ?_
              refine .bind (.res fun x hx => hf _ _ _ hnode ha.1 hb.1 hc.1 hd.1 hx) fun x hx => .ok ?_
              exact hd.2.stores hx.1 hx.2.1 hx.2.2.1 hx.2.2.2.1 hx.2.2.2.2
          · exact .ok hs

theorem searchPost_shares {σ : Type} {Q : σ → Prop} {M r : Nat} {cb : Quadrant → Bool → σ → Prog T (σ × Bool)}
    (hc : ∀ q b s, Q s → (cb q b s).Shares P (fun x => Q x.1)) (F : Forest) (q : Quadrant) {s : σ} (hs : Q s) :
    (searchPost M r cb F q s).Shares P Q := by
  induction F generalizing q s with
  | leaf k =>
    unfold searchPost
    split
    · exact .bind (hc _ _ _ hs) fun x hx => .ok hx
    · exact .ok hs
  | node c0 c1 c2 c3 ih0 ih1 ih2 ih3 =>
    unfold searchPost
    split
    · exact .bind (ih0 _ hs) fun _ h => .bind (ih1 _ h) fun _ h => .bind (ih2 _ h) fun _ h => .bind (ih3 _ h) fun _ h =>
        .bind (hc _ _ _ h) fun x hx => .ok hx
    · exact .ok hs

theorem searchPre_shares {σ : Type} {Q : σ → Prop} {M r : Nat} {cb : Quadrant → Bool → σ → Prog T (σ × Bool)}
    (hc : ∀ q b s, Q s → (cb q b s).Shares P (fun x => Q x.1)) (F : Forest) (q : Quadrant) {s : σ} (hs : Q s) :
    (searchPre M r cb F q s).Shares P Q := by
  induction F generalizing q s with
  | leaf k =>
    unfold searchPre
    split
    · exact .bind (hc _ _ _ hs) fun x hx => .ok hx
    · exact .ok hs
  | node c0 c1 c2 c3 ih0 ih1 ih2 ih3 =>
    unfold searchPre
    split
    · refine .bind (hc _ _ _ hs) fun x hx => ?_
      split
      · exact .bind (ih0 _ hx) fun _ h => .bind (ih1 _ h) fun _ h => .bind (ih2 _ h) fun _ h => ih3 _ h
      · exact .ok hx
    · exact .ok hs

theorem merge_shares [Inhabited T] (h0 : P default) {M r : Nat} (F : Forest) {pol : Policy}
    {leafFn : Node T → τ → Res ((Node T × τ) × Bool)} {famFn : Fam (Node T) → τ → Res ((Fam (Node T) × τ) × Bool)}
    (hl : LeafKeeps P leafFn) (hf : FamKeeps P famFn) {Q : Quadtree T} (hQ : MapAll P Q.map) (t : τ) :
    (Q.merge M r F pol leafFn famFn t).Shares P (fun x => MapAll P x.1.map) :=
  .bind (searchPost_shares (Q := fun s => MapAll P s.1) (fun _ _ _ hs => mergeSplit_shares h0 hl hf _ _ hs) F _ hQ) fun _ h => .ok h

theorem split_shares [Inhabited T] (h0 : P default) {M r : Nat} (F : Forest) {pol : Policy}
    {leafFn : Node T → τ → Res ((Node T × τ) × Bool)} {famFn : Fam (Node T) → τ → Res ((Fam (Node T) × τ) × Bool)}
    (hl : LeafKeeps P leafFn) (hf : FamKeeps P famFn) {Q : Quadtree T} (hQ : MapAll P Q.map) (t : τ) :
    (Q.split M r F pol leafFn famFn t).Shares P (fun x => MapAll P x.1.map) :=
  .bind (searchPre_shares (Q := fun s => MapAll P s.1) (fun _ _ _ hs => mergeSplit_shares h0 hl hf _ _ hs) F _ hQ) fun _ h => .ok h

/-! ## The stages -/

theorem onData_keeps {lf : T → τ → Res (T × τ)} (h : ∀ d s x, P d → lf d s = .ok x → P x.1) : LeafKeeps P (onData lf) := by
  intro n s x hn hx
  unfold onData at hx
  simp only [Res.bind_eq_ok, Res.pure_def, Res.ok_inj] at hx
  obtain ⟨y, h1, rfl⟩ := hx
  exact h _ _ _ hn h1

theorem stateless_keeps {lf : T → Res T} (h : ∀ d e, P d → lf d = .ok e → P e) : LeafKeeps P (onData (stateless (τ := τ) lf)) := by
  refine onData_keeps fun d s x hd hx => ?_
  unfold stateless at hx
  simp only [Res.bind_eq_ok, Res.pure_def, Res.ok_inj] at hx
  obtain ⟨y, h1, rfl⟩ := hx
  exact h _ _ hd h1

theorem onFamily_keeps {ff : Fam T → Res (Fam T)}
    (h : ∀ F G, P F.tau → P F.a → P F.b → P F.c → P F.d → ff F = .ok G → P G.tau ∧ P G.a ∧ P G.b ∧ P G.c ∧ P G.d) :
    FamKeeps P (onFamily (τ := τ) ff) := by
  intro F s x h0 h1 h2 h3 h4 hx
  unfold onFamily at hx
  simp only [Res.bind_eq_ok, Res.pure_def, Res.ok_inj] at hx
  obtain ⟨y, hy, rfl⟩ := hx
  exact h ⟨F.tau.data, F.a.data, F.b.data, F.c.data, F.d.data⟩ y h0 h1 h2 h3 h4 hy

/-- `P` is kept wherever `PatchKeeps` holds. -/
def Stable [Field K] (P : Patch K → Prop) : Prop := (∀ p q, PatchKeeps p q → P p → P q) ∧ ∀ g, P (Patch.fresh g)

theorem KeepsFam.apply [Field K] {P : Patch K → Prop} (hP : Stable P) {F G : Fam (Patch K)} (h : KeepsFam F G) (h0 : P F.tau) (h1 : P F.a)
    (h2 : P F.b) (h3 : P F.c) (h4 : P F.d) : P G.tau ∧ P G.a ∧ P G.b ∧ P G.c ∧ P G.d :=
  ⟨hP.1 _ _ h.1 h0, hP.1 _ _ h.2.1 h1, hP.1 _ _ h.2.2.1 h2, hP.1 _ _ h.2.2.2.1 h3, hP.1 _ _ h.2.2.2.2 h4⟩

namespace HPSRank

variable [Field K] {P : Patch K → Prop}

/-- The quadtree of a rank holds only patches that satisfy `P`. -/
def All (P : Patch K → Prop) (A : HPSRank K) : Prop := MapAll P A.mesh.quadtree.map

theorem barrier_shares (n : Nat) : (barrier n : Prog (Patch K) Unit).Shares P (fun _ => True) := .allMax fun _ => .ok trivial

theorem setup_shares {A : HPSRank K} (h : A.All P) (S : Place) : (A.setupStage S).Shares P (All P) :=
  .bind (barrier_shares _) fun _ _ => .ok h

theorem build_shares (hP : Stable P) {A : HPSRank K} (h : A.All P) (S : Place) (lap : Lapack K) (ps : PatchSolver K) (opt : HPSOptions) :
    (A.buildStage S lap ps opt).Shares P (All P) := by
  refine .bind (barrier_shares _) fun _ _ => .bind (merge_shares (hP.2 _) _ ?_ ?_ h _) fun x hx => .ok hx
  · exact onData_keeps fun d s x hd hx => hP.1 _ _ (HPS.buildLeaf_keeps hx) hd
  · exact onFamily_keeps fun F G h0 h1 h2 h3 h4 hx => (HPS.merge4to1_keeps hx).apply hP h0 h1 h2 h3 h4

theorem upwardsAnalytic_shares (hP : Stable P) {A : HPSRank K} (h : A.All P) (S : Place) (lap : Lapack K) {ps : PatchSolver K}
    (hps : SoundSolver ps) (opt : HPSOptions) (f : K → K → K) : (A.upwardsStageAnalytic S lap ps opt f).Shares P (All P) := by
  refine .bind (barrier_shares _) fun _ _ => .bind (merge_shares (hP.2 _) _ ?_ ?_ h _) fun x hx => .ok hx
  · exact stateless_keeps fun d e hd hx => hP.1 _ _ (HPS.upwardsLeafAnalytic_keeps hps hx) hd
  · exact onFamily_keeps fun F G h0 h1 h2 h3 h4 hx => (HPS.upwards4to1_keeps hx).apply hP h0 h1 h2 h3 h4

theorem upwards_shares (hP : Stable P) {A : HPSRank K} (h : A.All P) (S : Place) (lap : Lapack K) {ps : PatchSolver K}
    (hps : SoundSolver ps) (opt : HPSOptions) {rhs : Patch K → Res (Patch K)} (hr : ∀ p q, rhs p = .ok q → PatchKeeps p q) :
    (A.upwardsStage S lap ps opt rhs).Shares P (All P) := by
  refine .bind (barrier_shares _) fun _ _ => .bind (merge_shares (hP.2 _) _ ?_ ?_ h _) fun x hx => .ok hx
  · exact stateless_keeps fun d e hd hx => hP.1 _ _ (HPS.upwardsLeaf_keeps hps hr hx) hd
  · exact onFamily_keeps fun F G h0 h1 h2 h3 h4 hx => (HPS.upwards4to1_keeps hx).apply hP h0 h1 h2 h3 h4

theorem onRoot_all {fn : Patch K → Res (Patch K)} (hf : ∀ p q, P p → fn p = .ok q → P q) {q q' : Quadtree (Patch K)}
    (hq : MapAll P q.map) (h : onRoot fn q = .ok q') : MapAll P q'.map := by
  unfold onRoot at h
  split at h
  · rename_i n e
    simp only [Res.bind_eq_ok, Res.pure_def, Res.ok_inj] at h
    obtain ⟨d, h1, rfl⟩ := h
    exact hq.set (hf _ _ (hq.get e) h1)
  · cases h

theorem splitDown_shares (hP : Stable P) {A : HPSRank K} (h : A.All P) (S : Place) {ps : PatchSolver K} (hps : SoundSolver ps)
    (opt : HPSOptions) : (A.splitDown S ps opt).Shares P (All P) := by
  refine .bind (split_shares (hP.2 _) _ ?_ ?_ h _) fun x hx => .ok hx
  · exact stateless_keeps fun d e hd hx => hP.1 _ _ (HPS.leafSolve_keeps hps hx) hd
  · exact onFamily_keeps fun F G h0 h1 h2 h3 h4 hx => (HPS.split1to4_keeps hx).apply hP h0 h1 h2 h3 h4

theorem solve_shares (hP : Stable P) {A : HPSRank K} (h : A.All P) (S : Place) {ps : PatchSolver K} (hps : SoundSolver ps)
    (opt : HPSOptions) {bdry : Patch K → Res (Patch K)} (hb : ∀ p q, bdry p = .ok q → PatchKeeps p q) :
    (A.solveStage S ps opt bdry).Shares P (All P) :=
  .bind (Q := fun q => MapAll P q.map) (.res fun q hq => onRoot_all (fun p q hp he => hP.1 _ _ (hb _ _ he) hp) h hq)
    fun q (hq : MapAll P q.map) => splitDown_shares (A := A.withTree q) hP hq S hps opt

theorem solveAnalytic_shares (hP : Stable P) {A : HPSRank K} (h : A.All P) (S : Place) (lap : Lapack K) {ps : PatchSolver K}
    (hps : SoundSolver ps) (opt : HPSOptions) (bc : HPS.BoundaryFn K) : (A.solveStageAnalytic S lap ps opt bc).Shares P (All P) := by
  refine .bind (barrier_shares _) fun _ _ => .bind (Q := fun q => MapAll P q.map) (.res fun q hq => onRoot_all ?_ h hq)
    fun q (hq : MapAll P q.map) => splitDown_shares (A := A.withTree q) hP hq S hps opt
  intro p q hp he
  simp only [Res.bind_eq_ok, Res.pure_def, Res.ok_inj] at he
  obtain ⟨g, hg, rfl⟩ := he
  exact hP.1 _ _ (PatchKeeps.of (.inl rfl) (.inr (HPS.rootDirichlet_wf hg)) rfl (.inl rfl) (.inl rfl) (.inl rfl) : PatchKeeps p { p with g := g }) hp

theorem solves_shares (hP : Stable P) (S : Place) (lap : Lapack K) {ps : PatchSolver K} (hps : SoundSolver ps) (opt : HPSOptions)
    (f : K → K → K) (bc : HPS.BoundaryFn K) (n : Nat) {A : HPSRank K} (h : A.All P) : (A.solves S lap ps opt f bc n).Shares P (All P) := by
  induction n generalizing A with
  | zero => exact .ok h
  | succ n ih =>
    exact .bind (upwardsAnalytic_shares hP h S lap hps opt f) fun _ h => .bind (solveAnalytic_shares hP h S lap hps opt bc) fun _ h => ih h

end HPSRank

/-! ## The example program -/

theorem searchPre_res {σ : Type} {Q : σ → Prop} {M r : Nat} {cb : Quadrant → Bool → σ → Res (σ × Bool)}
    (hc : ∀ q b s x, Q s → cb q b s = .ok x → Q x.1) (F : Forest) (q : Quadrant) {s s' : σ} (hs : Q s)
    (h : searchPre M r cb F q s = .ok s') : Q s' := by
  induction F generalizing q s s' with
  | leaf k =>
    unfold searchPre at h
    split at h
    · simp only [Res.bind_eq_ok, Res.pure_def, Res.ok_inj] at h
      obtain ⟨x, h1, rfl⟩ := h
      exact hc _ _ _ _ hs h1
    · rw [← Res.ok_inj.mp h]
      exact hs
  | node c0 c1 c2 c3 ih0 ih1 ih2 ih3 =>
    unfold searchPre at h
    split at h
    · simp only [Res.bind_eq_ok] at h
      obtain ⟨x, h1, h2⟩ := h
      have hx := hc _ _ _ _ hs h1
      split at h2
      · simp only [Res.bind_eq_ok] at h2
        obtain ⟨s0, e0, s1, e1, s2, e2, e3⟩ := h2
        exact ih3 _ (ih2 _ (ih1 _ (ih0 _ hx e0) e1) e2) e3
      · rw [← Res.ok_inj.mp h2]
        exact hx
    · rw [← Res.ok_inj.mp h]
      exact hs

theorem searchVisit_all {M r : Nat} {ptr : UserPointer} {fn : Node T → τ → Res ((Node T × τ) × Bool)}
    (hf : ∀ n s x, P n.data → fn n s = .ok x → P x.1.1.data) (q : Quadrant) (b : Bool) (s : NodeMap T × τ) (x : (NodeMap T × τ) × Bool)
    (hs : MapAll P s.1) (h : searchVisit M r ptr fn q b s = .ok x) : MapAll P x.1.1 := by
  unfold searchVisit at h
  dsimp only at h
  have hm := hs.getMap (q.path M)
  have hg := fun n => hs.get (p := q.path M) (n := n)
  split at h
  · split at h
    · rename_i n m e
      rw [e] at hm hg
      by_cases hc : n.pfirst ≤ r ∧ r ≤ n.plast
      · rw [if_pos hc] at h
        simp only [Res.bind_eq_ok, Res.pure_def, Res.ok_inj] at h
        obtain ⟨y, h1, rfl⟩ := h
        exact hm.set (hf _ _ _ (hg n rfl) h1)
      · rw [if_neg hc] at h
        rw [← Res.ok_inj.mp h]
        exact hm
    · rename_i m e
      rw [e] at hm
      rw [← Res.ok_inj.mp h]
      exact hm
  · cases h

theorem leafVisit_keeps {fn : T → τ → Res (T × τ)} (hf : ∀ d s x, P d → fn d s = .ok x → P x.1) (n : Node T) (s : τ)
    (x : (Node T × τ) × Bool) (hn : P n.data) (hx : leafVisit fn n s = .ok x) : P x.1.1.data := by
  unfold leafVisit at hx
  split at hx
  · simp only [Res.bind_eq_ok, Res.pure_def, Res.ok_inj] at hx
    obtain ⟨y, h1, rfl⟩ := hx
    exact hf _ _ _ hn h1
  · rw [← Res.ok_inj.mp hx]
    exact hn

section field

variable [Field K] {P : Patch K → Prop}

theorem ctorVisit_all (hP : Stable P) {M r : Nat} {root : Patch K} (hr : P root) {m m' : NodeMap (Patch K)} {v : Visit} (hm : MapAll P m)
    (h : ctorVisit M r root FVFactory.factory m v = .ok m') : MapAll P m' := by
  unfold ctorVisit at h
  dsimp only at h
  by_cases hc : v.pfirst ≤ r ∧ r ≤ v.plast
  · rw [if_pos hc] at h
    by_cases hl : v.quadrant.level = 0
    · rw [if_pos hl] at h
      rw [← Res.ok_inj.mp h]
      exact hm.set hr
    · rw [if_neg hl] at h
      cases hp : (m.get (v.quadrant.path M).dropLast).1 with
      | none =>
        rw [hp] at h
        cases h
      | some parent =>
        rw [hp] at h
        simp only [Res.bind_eq_ok, Res.pure_def, Res.ok_inj] at h
        obtain ⟨n, h1, rfl⟩ := h
        refine hm.set ?_
        show P n.data
        change FVFactory.createChildNode _ _ _ _ = _ at h1
        unfold FVFactory.createChildNode at h1
        simp only [Res.bind_eq_ok, Res.pure_def, Res.ok_inj] at h1
        obtain ⟨g, _, rfl⟩ := h1
        exact hP.2 g
  · rw [if_neg hc] at h
    rw [← Res.ok_inj.mp h]
    exact hm.setNone _

theorem construct_all (hP : Stable P) {M r : Nat} {root : Patch K} (hr : P root) {F : Forest} {m : NodeMap (Patch K)}
    (h : construct M r root FVFactory.factory F = .ok m) : MapAll P m := by
  unfold construct at h
  have aux : ∀ (l : List Visit) (m m' : NodeMap (Patch K)), MapAll P m → l.foldlM (ctorVisit M r root FVFactory.factory) m = .ok m' → MapAll P m' := by
    intro l
    induction l with
    | nil =>
      intro m m' hm h
      rw [← Res.ok_inj.mp h]
      exact hm
    | cons v l ih =>
      intro m m' hm h
      rw [List.foldlM_cons] at h
      simp only [Res.bind_eq_ok] at h
      obtain ⟨m1, h1, h2⟩ := h
      exact ih _ _ (ctorVisit_all hP hr hm h1) h2
  exact aux _ _ _ (by intro p n h; cases h) h

theorem refine_all (hP : Stable P) {M r : Nat} {root : Patch K} (hr : P root) {F : Forest} {m m' : Mesh K}
    (h : Mesh.refineByFunction M r F root FVFactory.factory m = .ok m') : MapAll P m'.quadtree.map := by
  unfold Mesh.refineByFunction Quadtree.new at h
  simp only [Res.bind_eq_ok, Res.pure_def, Res.ok_inj] at h
  obtain ⟨q, ⟨m1, h1, rfl⟩, h2⟩ := h
  unfold Mesh.setMeshFromQuadtree Quadtree.traversePreOrder at h2
  simp only [Res.bind_eq_ok, Res.pure_def, Res.ok_inj] at h2
  obtain ⟨_, ⟨s, h3, rfl⟩, rfl⟩ := h2
  refine searchPre_res (Q := fun s => MapAll P s.1) (searchVisit_all (leafVisit_keeps ?_)) F _ (construct_all hP hr h1) h3
  intro d s x hd hx
  simp only [Res.bind_eq_ok, Res.ok_inj] at hx
  obtain ⟨_, _, rfl⟩ := hx
  exact hd

theorem example_shares (hP : Stable P) (S : Place) (lap : Lapack K) {ps : PatchSolver K} (hps : SoundSolver ps) (opt : HPSOptions)
    {root : Patch K} (hr : P root) (f : K → K → K) (bc : HPS.BoundaryFn K) (n : Nat) :
    (exampleMain S lap ps opt root f bc n).Shares P (fun _ => True) := by
  refine .bind (Q := fun m => MapAll P m.quadtree.map) (.res fun m hm => refine_all hP hr hm) fun m hm => ?_
  refine .bind (HPSRank.setup_shares (A := ⟨m, none⟩) hm S) fun A hA => .bind (HPSRank.build_shares hP hA S lap ps opt) fun A hA =>
    .bind (HPSRank.solves_shares hP S lap hps opt f bc n hA) fun A hA => .bind (Q := fun _ => True) (.res fun _ _ => trivial) fun _ _ =>
      .ok trivial

theorem stable_sound : Stable (K := K) SoundPatch := ⟨fun _ _ h => h.1, fun _ => ⟨rfl, rfl, rfl, rfl, rfl, rfl⟩⟩

/-- The vector `v` of a patch is never filled. -/
theorem stable_noV : Stable (K := K) (fun p => SoundPatch p ∧ p.v = Vec.empty) :=
  ⟨fun _ _ h hp => ⟨h.1 hp.1, h.2.trans hp.2⟩, fun _ => ⟨⟨rfl, rfl, rfl, rfl, rfl, rfl⟩, rfl⟩⟩

end field

end EF
