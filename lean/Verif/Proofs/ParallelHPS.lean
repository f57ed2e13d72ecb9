import Verif.Model.ParallelHPS
import Verif.Spec.ParallelHPS
import Verif.Proofs.QuadParallel
import Verif.Proofs.Mesh

/-!
# The stages on all ranks
-/

namespace EF

variable {K T α β : Type}

/-- When the ranks of `S` come to values and all others have ended, every run ends there. -/
theorem Runs.ends {S : Nat → Prop} [DecidablePred S] {p : Nat → Prog T β} {v : Nat → β} (h : Runs S p v) (idle : β) :
    AlwaysEnds (fun r => if S r then p r else .fin (.ok idle)) (fun r => if S r then v r else idle) := by
  obtain ⟨n, c, r1, r2, r3⟩ := h β (fun _ b => Pure.pure b) (fun r => if S r then p r else .fin (.ok idle))
    (fun r hr => by beta_reduce; rw [if_pos hr, bind_pure])
  have hc : c = fun r => .fin (.ok (if S r then v r else idle)) := by
    funext r
    by_cases hr : S r
    · rw [r2 r hr, if_pos hr]; rfl
    · rw [r3 r hr, if_neg hr, if_neg hr]
  refine ⟨n, fun k c' hk => ?_⟩
  have := Run.all r1 (by rw [hc]; exact fun r => ⟨_, rfl⟩) hk
  rwa [hc] at this

theorem barrier_runs {size : Nat} (h : 0 < size) : Runs (T := T) (fun r => r < size) (fun _ => barrier size) (fun _ => ()) := by
  have e : (fun r => r < size) = fun r => 0 ≤ r ∧ r ≤ size - 1 := by funext r; simp; omega
  rw [e]
  have h1 := Runs.allMax (T := T) (Nat.zero_le (size - 1)) [] (fun _ => 0)
  have h2 := Runs.bind h1 (q := fun _ _ => (pure () : Prog T Unit)) (w := fun _ => ()) (Runs.pure fun _ _ => rfl)
  exact h2.congr (fun _ _ => rfl) (fun _ _ => rfl)

theorem EveryRank.spans {F : Forest} {size : Nat} (h : EveryRank F size) (hs : F.Sorted) : (fun r => r < size) = F.Spans := by
  funext r
  refine propext ⟨fun hr => hs.spans_of_mem ((h r).mp hr), fun hr => ?_⟩
  exact lt_of_le_of_lt hr.2 ((h F.last).mpr (Forest.last_mem F))

theorem EveryRank.full {F : Forest} {size : Nat} (h : EveryRank F size) (hs : F.Sorted) : F.Full := by
  intro r hr
  refine (h r).mp ?_
  have := congrFun (h.spans hs) r
  exact this ▸ hr

theorem EveryRank.pos {F : Forest} {size : Nat} (h : EveryRank F size) : 0 < size :=
  lt_of_le_of_lt (Nat.zero_le _) ((h F.first).mpr (Forest.first_mem F))

section
variable {τ : Type} [Inhabited T] {M size : Nat} {F : Forest}

theorem merge_stage (hM : F.depth ≤ M) (hs : F.Sorted) (hr : EveryRank F size) {lf : T → τ → Res (T × τ)}
    {ff : Fam T → Res (Fam T)} {t t' : Tree T} {s s' : Nat → τ} (ht : Tree.mergeBy lf ff F t s = .ok (t', s'))
    {Q : Nat → Quadtree T} (hQ : HoldsOn size F t Q) :
    ∃ Q' : Nat → Quadtree T, HoldsOn size F t' Q' ∧ Runs (fun r => r < size)
      (fun r => (Q r).merge M r F .broadcast (onData lf) (onFamily ff) (s r)) (fun r => (Q' r, s' r)) := by
  have e := hr.spans hs
  have e' : ∀ r, r < size ↔ F.Spans r := fun r => by rw [← e]
  obtain ⟨m', h1, h2⟩ := mergeBy_runs (M := M) (m := fun r => (Q r).map) F (a := []) Addr.Valid.nil
    (by simpa using hM) hs (hr.full hs) ht (fun r h => (hQ r ((e' r).mpr h)).1)
  refine ⟨fun r => ⟨m' r, .this⟩, fun r h => ⟨(h2 r ((e' r).mp h)).1, rfl⟩, ?_⟩
  rw [← e] at h1
  refine (Runs.bind h1 (q := fun r x => (pure (⟨x.1, (Q r).userPointer⟩, x.2) : Prog T (Quadtree T × τ)))
    (Runs.pure fun r h => rfl)).congr (fun r h => ?_) (fun r h => ?_)
  · unfold Quadtree.merge
    rw [(hQ r h).2]
    rfl
  · rw [(hQ r h).2]

theorem split_stage (hM : F.depth ≤ M) (hs : F.Sorted) (hr : EveryRank F size) {lf : T → Res T}
    {ff : Fam T → Res (Fam T)} {t t' : Tree T} (ht : t.splitFrom lf ff t.val = .ok t') (s : τ)
    {Q : Nat → Quadtree T} (hQ : HoldsOn size F t Q) :
    ∃ Q' : Nat → Quadtree T, HoldsOn size F t' Q' ∧ Runs (fun r => r < size)
      (fun r => (Q r).split M r F .broadcast (onData (stateless lf)) (onFamily ff) s) (fun r => (Q' r, s)) := by
  have e := hr.spans hs
  have e' : ∀ r, r < size ↔ F.Spans r := fun r => by rw [← e]
  obtain ⟨m', h1, h2⟩ := split_runs (M := M) (m := fun r => (Q r).map) (s := fun _ => s) F (a := []) Addr.Valid.nil
    (by simpa using hM) hs (hr.full hs) ht (fun r h => (hQ r ((e' r).mpr h)).1)
  refine ⟨fun r => ⟨m' r, .this⟩, fun r h => ⟨(h2 r ((e' r).mp h)).1, rfl⟩, ?_⟩
  rw [← e] at h1
  refine (Runs.bind h1 (q := fun r x => (pure (⟨x.1, (Q r).userPointer⟩, x.2) : Prog T (Quadtree T × τ)))
    (Runs.pure fun r h => rfl)).congr (fun r h => ?_) (fun r h => ?_)
  · unfold Quadtree.split
    rw [(hQ r h).2]
    rfl
  · rw [(hQ r h).2]

end

section
variable [Field K] {M size : Nat} {F : Forest}

/-- The solver objects of the ranks hold the tree, and the rest of their meshes is as before. -/
def Follows (size : Nat) (F : Forest) (t : Tree (Patch K)) (A A' : Nat → HPSRank K) : Prop :=
  ∀ r, r < size → Rep r F t [] (A' r).mesh.quadtree.map ∧ (A' r).mesh.quadtree.userPointer = .this ∧
    (A' r).mesh.arrays = (A r).mesh.arrays ∧ (A' r).mesh.functions = (A r).mesh.functions

theorem Follows.holds {t : Tree (Patch K)} {A A' : Nat → HPSRank K} (h : Follows size F t A A') :
    HoldsOn size F t (fun r => (A' r).mesh.quadtree) := fun r hr => ⟨(h r hr).1, (h r hr).2.1⟩

theorem Follows.trans {t t' : Tree (Patch K)} {A A' A'' : Nat → HPSRank K} (h : Follows size F t A A')
    (h' : Follows size F t' A' A'') : Follows size F t' A A'' := fun r hr =>
  ⟨(h' r hr).1, (h' r hr).2.1, (h' r hr).2.2.1.trans (h r hr).2.2.1, (h' r hr).2.2.2.trans (h r hr).2.2.2⟩

theorem setup_runs (hs : EveryRank F size) (A : Nat → HPSRank K) :
    Runs (fun r => r < size) (fun r => (A r).setupStage ⟨M, size, r, F⟩) A := by
  refine (Runs.bind (barrier_runs hs.pos) (q := fun r _ => (pure (A r) : Prog (Patch K) (HPSRank K))) (w := A)
    (Runs.pure fun r h => rfl)).congr (fun r h => rfl) (fun r h => rfl)

theorem build_runs (hM : F.depth ≤ M) (hs : F.Sorted) (hr : EveryRank F size) (lap : Lapack K) (ps : PatchSolver K)
    (opt : HPSOptions) {t t' : Tree (Patch K)} {A : Nat → HPSRank K} (hA : HoldsOn size F t (fun r => (A r).mesh.quadtree))
    {s' : Nat → Option (Mat K)}
    (ht : Tree.mergeBy (HPS.buildLeaf ps opt) (HPS.merge4to1 lap) F t (fun r => (A r).cache) = .ok (t', s')) :
    ∃ A' : Nat → HPSRank K, Follows size F t' A A' ∧ (∀ r, (A' r).cache = s' r) ∧
      Runs (fun r => r < size) (fun r => (A r).buildStage ⟨M, size, r, F⟩ lap ps opt) A' := by
  obtain ⟨Q', h1, h2⟩ := merge_stage hM hs hr ht hA
  refine ⟨fun r => { (A r).withTree (Q' r) with cache := s' r }, fun r h => ⟨(h1 r h).1, (h1 r h).2, rfl, rfl⟩, fun r => rfl, ?_⟩
  exact (Runs.bind (barrier_runs hr.pos) (Runs.bind h2
    (q := fun r x => (pure { (A r).withTree x.1 with cache := x.2 } : Prog (Patch K) (HPSRank K)))
    (Runs.pure fun r h => rfl))).congr (fun r h => rfl) (fun r h => rfl)

theorem upwards_runs (hM : F.depth ≤ M) (hs : F.Sorted) (hr : EveryRank F size) (lap : Lapack K) (ps : PatchSolver K)
    (opt : HPSOptions) (rhs : Patch K → Res (Patch K)) {t t' : Tree (Patch K)} {A : Nat → HPSRank K}
    (hA : HoldsOn size F t (fun r => (A r).mesh.quadtree)) (ht : HPS.upwardsStage lap ps opt rhs t = .ok t') :
    ∃ A' : Nat → HPSRank K, Follows size F t' A A' ∧
      Runs (fun r => r < size) (fun r => (A r).upwardsStage ⟨M, size, r, F⟩ lap ps opt rhs) A' := by
  have ht' : Tree.mergeBy (stateless (HPS.upwardsLeaf ps rhs)) (HPS.upwards4to1 lap opt) F t (fun _ => ()) = .ok (t', fun _ => ()) := by
    rw [Tree.mergeBy_stateless (hA 0 hr.pos).1]
    unfold HPS.upwardsStage at ht
    rw [ht]; rfl
  obtain ⟨Q', h1, h2⟩ := merge_stage hM hs hr ht' hA
  refine ⟨fun r => (A r).withTree (Q' r), fun r h => ⟨(h1 r h).1, (h1 r h).2, rfl, rfl⟩, ?_⟩
  exact (Runs.bind (barrier_runs hr.pos) (Runs.bind h2
    (q := fun r x => (pure ((A r).withTree x.1) : Prog (Patch K) (HPSRank K)))
    (Runs.pure fun r h => rfl))).congr (fun r h => rfl) (fun r h => rfl)

theorem upwardsAnalytic_runs (hM : F.depth ≤ M) (hs : F.Sorted) (hr : EveryRank F size) (lap : Lapack K) (ps : PatchSolver K)
    (opt : HPSOptions) (f : K → K → K) {t t' : Tree (Patch K)} {A : Nat → HPSRank K}
    (hA : HoldsOn size F t (fun r => (A r).mesh.quadtree)) (ht : HPS.upwardsStageAnalytic lap ps opt f t = .ok t') :
    ∃ A' : Nat → HPSRank K, Follows size F t' A A' ∧
      Runs (fun r => r < size) (fun r => (A r).upwardsStageAnalytic ⟨M, size, r, F⟩ lap ps opt f) A' := by
  have ht' : Tree.mergeBy (stateless (HPS.upwardsLeafAnalytic ps f)) (HPS.upwards4to1 lap opt) F t (fun _ => ())
      = .ok (t', fun _ => ()) := by
    rw [Tree.mergeBy_stateless (hA 0 hr.pos).1]
    unfold HPS.upwardsStageAnalytic at ht
    rw [ht]; rfl
  obtain ⟨Q', h1, h2⟩ := merge_stage hM hs hr ht' hA
  refine ⟨fun r => (A r).withTree (Q' r), fun r h => ⟨(h1 r h).1, (h1 r h).2, rfl, rfl⟩, ?_⟩
  exact (Runs.bind (barrier_runs hr.pos) (Runs.bind h2
    (q := fun r x => (pure ((A r).withTree x.1) : Prog (Patch K) (HPSRank K)))
    (Runs.pure fun r h => rfl))).congr (fun r h => rfl) (fun r h => rfl)

theorem Rep.root {r : Nat} {t : Tree T} {m : NodeMap T} (h : Rep r F t [] m) : Entry r F t.val [] m := h.entry

/-- The callback on the root, on one rank. -/
theorem onRoot_eq {r : Nat} (hr : F.Spans r) {t : Tree T} {q : Quadtree T} (h : Rep r F t [] q.map)
    (hp : q.userPointer = .this) {fn : T → Res T} {d : T} (hd : fn t.val = .ok d) :
    ∃ q', HPSRank.onRoot fn q = .ok q' ∧ Rep r F (t.setVal d) [] q'.map ∧ q'.userPointer = .this := by
  have he := h.entry
  unfold Entry at he
  rw [if_pos hr] at he
  refine ⟨{ q with map := q.map.set ['0'] (some (nodeOf d [] F)) }, ?_, ?_, hp⟩
  · unfold HPSRank.onRoot
    rw [show (['0'] : Text) = Addr.text [] from rfl, he]
    dsimp only
    rw [show (nodeOf t.val [] F).data = t.val from rfl, hd]
    rfl
  · refine h.setVal ?_ (fun p _ hp => get_congr (set_other hp _))
    unfold Entry
    rw [show (['0'] : Text) = Addr.text [] from rfl, get_set, if_pos hr]

theorem splitFrom_setVal {lf : T → Res T} {ff : Fam T → Res (Fam T)} (t : Tree T) (d e : T) :
    (t.setVal d).splitFrom lf ff e = t.splitFrom lf ff e := by cases t <;> rfl

theorem val_setVal (t : Tree T) (d : T) : (t.setVal d).val = d := by cases t <;> rfl

theorem splitDown_runs (hM : F.depth ≤ M) (hs : F.Sorted) (hr : EveryRank F size) (ps : PatchSolver K) (opt : HPSOptions)
    {t t' : Tree (Patch K)} {d : Patch K} {A : Nat → HPSRank K} (hA : HoldsOn size F t (fun r => (A r).mesh.quadtree))
    {fn : Patch K → Res (Patch K)} (hd : fn t.val = .ok d)
    (ht : t.splitFrom (HPS.leafSolve ps opt) (HPS.split1to4 opt) d = .ok t') :
    ∃ A' : Nat → HPSRank K, Follows size F t' A A' ∧
      Runs (fun r => r < size) (fun r => Prog.fin (HPSRank.onRoot fn (A r).mesh.quadtree) >>= fun q =>
        HPSRank.splitDown ⟨M, size, r, F⟩ ps opt ((A r).withTree q)) A' := by
  have e' : ∀ r, r < size → F.Spans r := fun r h => (congrFun (hr.spans hs) r) ▸ h
  have hq : ∀ r, ∃ q', r < size → HPSRank.onRoot fn (A r).mesh.quadtree = .ok q' ∧ Rep r F (t.setVal d) [] q'.map ∧
      q'.userPointer = .this := by
    intro r
    by_cases h : r < size
    · obtain ⟨q', k⟩ := onRoot_eq (e' r h) (hA r h).1 (hA r h).2 hd
      exact ⟨q', fun _ => k⟩
    · exact ⟨(A r).mesh.quadtree, fun h' => absurd h' h⟩
  choose q hq using hq
  have ht' : (t.setVal d).splitFrom (HPS.leafSolve ps opt) (HPS.split1to4 opt) (t.setVal d).val = .ok t' := by
    rw [splitFrom_setVal, val_setVal, ht]
  obtain ⟨Q', h1, h2⟩ := split_stage (Q := q) hM hs hr ht' () (fun r h => (hq r h).2)
  refine ⟨fun r => (A r).withTree (Q' r), fun r h => ⟨(h1 r h).1, (h1 r h).2, rfl, rfl⟩, ?_⟩
  have h3 : Runs (T := Patch K) (fun r => r < size) (fun r => Prog.fin (HPSRank.onRoot fn (A r).mesh.quadtree)) q :=
    Runs.pure fun r h => by rw [(hq r h).1]; rfl
  refine Runs.bind (v := q) h3 (q := fun r q => HPSRank.splitDown ⟨M, size, r, F⟩ ps opt ((A r).withTree q)) ?_
  exact (Runs.bind h2 (q := fun r x => (pure ((A r).withTree x.1) : Prog (Patch K) (HPSRank K)))
    (Runs.pure fun r h => rfl)).congr (fun r h => rfl) (fun r h => rfl)

theorem solve_runs (hM : F.depth ≤ M) (hs : F.Sorted) (hr : EveryRank F size) (ps : PatchSolver K) (opt : HPSOptions)
    (bdry : Patch K → Res (Patch K)) {t t' : Tree (Patch K)} {A : Nat → HPSRank K}
    (hA : HoldsOn size F t (fun r => (A r).mesh.quadtree)) (ht : HPS.solveStage ps opt bdry t = .ok t') :
    ∃ A' : Nat → HPSRank K, Follows size F t' A A' ∧
      Runs (fun r => r < size) (fun r => (A r).solveStage ⟨M, size, r, F⟩ ps opt bdry) A' := by
  unfold HPS.solveStage at ht
  obtain ⟨d, h1, h2⟩ := Res.bind_eq_ok.mp ht
  exact splitDown_runs hM hs hr ps opt hA h1 h2

theorem solveAnalytic_runs (hM : F.depth ≤ M) (hs : F.Sorted) (hr : EveryRank F size) (lap : Lapack K) (ps : PatchSolver K)
    (opt : HPSOptions) (bc : HPS.BoundaryFn K) {t t' : Tree (Patch K)} {A : Nat → HPSRank K}
    (hA : HoldsOn size F t (fun r => (A r).mesh.quadtree)) (ht : HPS.solveStageAnalytic lap ps opt bc t = .ok t') :
    ∃ A' : Nat → HPSRank K, Follows size F t' A A' ∧
      Runs (fun r => r < size) (fun r => (A r).solveStageAnalytic ⟨M, size, r, F⟩ lap ps opt bc) A' := by
  unfold HPS.solveStageAnalytic at ht
  obtain ⟨g, h1, h2⟩ := Res.bind_eq_ok.mp ht
  obtain ⟨A', h3, h4⟩ := splitDown_runs (M := M) hM hs hr ps opt (d := { t.val with g := g }) (fn := fun root => do
    let g ← HPS.rootDirichlet lap bc root
    pure { root with g := g }) hA (by beta_reduce; rw [h1]; rfl) h2
  exact ⟨A', h3, (Runs.bind (barrier_runs hr.pos) h4).congr (fun r h => rfl) (fun r h => rfl)⟩

end

end EF
