import Verif.Proofs.Pass
import Verif.Props.ParallelHPS
import Verif.Props.Parallel
import Verif.Props.Report

/-!
# The same result, bit for bit, on any number of ranks

C71.  The theorems are about any type of data and any callbacks, so nothing is assumed about arithmetic: with the callbacks of the
compiled program, which round, they speak about all bits of the result.
-/

namespace EF

open HPS

variable {K T τ : Type}

/-- The ranks below `size` run the passes one after the other; other ranks have nothing to do. -/
def passesOn [Inhabited T] (M size : Nat) (F : Forest) (ps : List (Pass T)) (Q : Nat → Quadtree T) : Config T (Quadtree T) :=
  fun r => if r < size then Pass.allOnRank ⟨M, size, r, F⟩ ps (Q r) else .fin (.ok (Q r))

/-- What a rank gets when it lists the data of its leaves. -/
def leafList (M r : Nat) (F : Forest) (q : Quadtree T) : Res (List T) := do
  let x ← q.traversePreOrder M r F (leafVisit fun d (s : List T) => pure (d, s ++ [d])) []
  pure x.2

theorem leafList_eq {M r : Nat} {F : Forest} (hM : F.depth ≤ M) (hs : F.Sorted) {t : Tree T} {q : Quadtree T}
    (h : Rep r F t [] q.map) : leafList M r F q = .ok (leavesOf r F t) := by
  have e := leafVisit_run (M := M) (fn := look fun d (s : List T) => pure (s ++ [d])) F Addr.Valid.nil (by simpa using hM) hs (s := []) h
  have e0 : ∀ L s : List T, L.foldlM (fun s d => (pure (s ++ [d]) : Res (List T))) s = .ok (s ++ L) := by
    intro L
    induction L with
    | nil => intro s; simp
    | cons d L ih => intro s; rw [List.foldlM_cons, Res.pure_def, Res.ok_bind, ih]; simp
  rw [leafPass_look F h, e0] at e
  obtain ⟨m', e1, -, -⟩ := e
  unfold leafList Quadtree.traversePreOrder
  have e2 : searchPre M r (searchVisit M r .this (leafVisit fun d (s : List T) => pure (d, s ++ [d]))) F .root (q.map, []) = _ := e1
  rw [e2]
  rfl

/-- Passes on ranks are passes on a tree in one piece: if they succeed there, every run ends, whatever the order of events, with the
parts of the result on the ranks; if they fail there, one of the ranks is bound to fail in the same way.  The data may be of any
type and the callbacks any functions.  Missing: ranks without leaves (false, C38_empty_rank_wrong and C65_no_leaf_actual); callbacks
with a state per rank, as with the operator cache (false, C65_cache_depends_on_ranks_wrong). -/
theorem C71_one_piece_partial [Inhabited T] {M size : Nat} {F : Forest} (hM : F.depth ≤ M) (hs : F.Sorted) (hr : EveryRank F size)
    (ps : List (Pass T)) {t : Tree T} {Q : Nat → Quadtree T} (hQ : HoldsOn size F t Q) :
    match Pass.allOnTree ps t with
    | .ok t' => ∃ Z, AlwaysEnds (passesOn M size F ps Q) Z ∧ HoldsOn size F t' Z
    | .throw e => AlwaysFails size (passesOn M size F ps Q) (some e)
    | .ub => AlwaysFails size (passesOn M size F ps Q) none := by
  have hp : ∀ r, r < size → passesOn M size F ps Q r = Pass.allOnRank ⟨M, size, r, F⟩ ps (Q r) := fun r h => by
    unfold passesOn; rw [if_pos h]
  cases ht : Pass.allOnTree ps t with
  | ok t' =>
    obtain ⟨Z, h1, h2⟩ := Pass.all_runs hM hs hr ps hQ ht
    refine ⟨fun r => if r < size then Z r else Q r, ?_, fun r h => by beta_reduce; rw [if_pos h]; exact h1 r h⟩
    obtain ⟨n, c, r1, r2, r3⟩ := h2 _ (fun _ b => Pure.pure b) (passesOn M size F ps Q) (fun r h => by rw [hp r h, bind_pure])
    have hc : c = fun r => .fin (.ok (if r < size then Z r else Q r)) := by
      funext r
      by_cases h : r < size
      · rw [r2 r h, if_pos h]; rfl
      · rw [r3 r h, if_neg h]; unfold passesOn; rw [if_neg h]
    refine ⟨n, fun k c' hk => ?_⟩
    have := Run.all r1 (by rw [hc]; exact fun r => ⟨_, rfl⟩) hk
    rwa [hc] at this
  | throw e => exact (Pass.all_breaks hM hs hr ps hQ (e := some e) ht).always hp
  | ub => exact (Pass.all_breaks hM hs hr ps hQ (e := none) ht).always hp

/-- C71: two runs of the same passes on the same mesh and data, one with the leaves dealt to the ranks as in `F`, the other as in
`F'`, in particular with different numbers of ranks.  Either both end, whatever the order of events, and the lists of leaf data
of the ranks, put one after the other, are the same list in both; or both are bound to fail in the same way.  The data may be of any
type and the callbacks any functions.  Missing: as in `C71_one_piece_partial`. -/
theorem C71_any_ranks_partial [Inhabited T] {M size size' : Nat} {F F' : Forest} (hM : F.depth ≤ M) (hM' : F'.depth ≤ M)
    (hs : F.Sorted) (hs' : F'.Sorted) (hr : EveryRank F size) (hr' : EveryRank F' size') (ps : List (Pass T)) {t : Tree T}
    {Q Q' : Nat → Quadtree T} (hQ : HoldsOn size F t Q) (hQ' : HoldsOn size' F' t Q') :
    (∃ (Z Z' : Nat → Quadtree T) (L L' : Nat → List T),
      AlwaysEnds (passesOn M size F ps Q) Z ∧ AlwaysEnds (passesOn M size' F' ps Q') Z' ∧
      (∀ r, r < size → leafList M r F (Z r) = .ok (L r)) ∧ (∀ r, r < size' → leafList M r F' (Z' r) = .ok (L' r)) ∧
      (List.range size).flatMap L = (List.range size').flatMap L') ∨
    ∃ e, AlwaysFails size (passesOn M size F ps Q) e ∧ AlwaysFails size' (passesOn M size' F' ps Q') e := by
  have h1 := C71_one_piece_partial hM hs hr ps hQ
  have h2 := C71_one_piece_partial hM' hs' hr' ps hQ'
  cases ht : Pass.allOnTree ps t with
  | ok t' =>
    rw [ht] at h1 h2
    obtain ⟨Z, e1, e2⟩ := h1
    obtain ⟨Z', e1', e2'⟩ := h2
    refine .inl ⟨Z, Z', fun r => leavesOf r F t', fun r => leavesOf r F' t', e1, e1', fun r h => leafList_eq hM hs (e2 r h).1,
      fun r h => leafList_eq hM' hs' (e2' r h).1, ?_⟩
    exact (leavesOf_flat (e2 0 hr.pos).1 hs fun k hk => (hr k).mpr hk).trans
      (leavesOf_flat (e2' 0 hr'.pos).1 hs' fun k hk => (hr' k).mpr hk).symm
  | throw e =>
    rw [ht] at h1 h2
    exact .inr ⟨some e, h1, h2⟩
  | ub =>
    rw [ht] at h1 h2
    exact .inr ⟨none, h1, h2⟩

/-- The two cases exclude each other: a rank that is bound to fail keeps a run from ending well. -/
theorem C71_not_both {α : Type} {size : Nat} {c : Config T α} {e : Option Exn} (h : AlwaysFails size c e) (z : Nat → α) :
    ¬ AlwaysEnds c z := by
  rintro ⟨n, hn⟩
  obtain ⟨r, -, hr⟩ := h
  obtain ⟨k, c', h1, h2⟩ := hr _ _ (hn 0 c (.refl c)).2
  have := h1.ended (r := r) rfl
  rw [this] at h2
  exact Res.ok_ne_fail (Prog.fin.inj h2)

/-- C38 when the serial run fails: a parallel merge fails in the same way, whatever the order of events.  Missing: ranks without
leaves. -/
theorem C38_merge_fails_partial [Inhabited T] {M size : Nat} {F : Forest} (hM : F.depth ≤ M) (hs : F.Sorted) (hr : EveryRank F size)
    {lf : T → Res T} {ff : Fam T → Res (Fam T)} {t : Tree T} {e : Option Exn} (ht : t.merge lf ff = Res.fail e)
    {Q : Nat → Quadtree T} (hQ : Holds F t Q) (s : τ) : AlwaysFails size (mergeConfig M F lf ff Q s) e :=
  (merge_fails (s := fun _ => s) hM hs hr (by rw [Tree.mergeBy_stateless (hQ 0).1, ht, Res.fail_bind]) (fun r _ => hQ r)).always
    fun _ _ => rfl

/-- C38 when the serial run fails: a parallel split fails in the same way. -/
theorem C38_split_fails_partial [Inhabited T] {M size : Nat} {F : Forest} (hM : F.depth ≤ M) (hs : F.Sorted) (hr : EveryRank F size)
    {lf : T → Res T} {ff : Fam T → Res (Fam T)} {t : Tree T} {e : Option Exn} (ht : t.split lf ff = Res.fail e)
    {Q : Nat → Quadtree T} (hQ : Holds F t Q) (s : τ) : AlwaysFails size (splitConfig M F lf ff Q s) e :=
  (split_fails hM hs hr ht s (fun r _ => hQ r)).always fun _ _ => rfl

/-! ## The stages are passes -/

section
variable [Field K]

/-- The passes of the build stage without operator cache. -/
def buildPasses (lap : Lapack K) (ps : PatchSolver K) : List (Pass (Patch K)) :=
  [.wait, .up (plainLeaf ps) (merge4to1 lap)]

/-- The passes of the two upwards stages, `leaf` being the leaf callback. -/
def upwardsPasses (lap : Lapack K) (opt : HPSOptions) (leaf : Patch K → Res (Patch K)) : List (Pass (Patch K)) :=
  [.wait, .up leaf (upwards4to1 lap opt)]

/-- The passes of the solve stage with a callback. -/
def solvePasses (ps : PatchSolver K) (opt : HPSOptions) (bdry : Patch K → Res (Patch K)) : List (Pass (Patch K)) :=
  [.root bdry, .down (leafSolve ps opt) (split1to4 opt)]

/-- A stage of a rank is a list of passes over its quadtree. -/
def RankStage (P : Place) (passes : List (Pass (Patch K))) (A : HPSRank K) (stage : Prog (Patch K) (HPSRank K)) : Prop :=
  stage = do
    let q ← Pass.allOnRank P passes A.mesh.quadtree
    pure (A.withTree q)

/-- The stages of the solver are passes, on every rank and in one piece: build (without operator cache), upwards with a callback
or a function, solve with a callback or a function. -/
theorem C71_stages_are_passes (P : Place) (lap : Lapack K) (ps : PatchSolver K) {opt : HPSOptions} (A : HPSRank K)
    (rhs bdry : Patch K → Res (Patch K)) (f : K → K → K) (bc : BoundaryFn K) (t : Tree (Patch K)) :
    (opt.cacheOperators = false → RankStage P (buildPasses lap ps) A (A.buildStage P lap ps opt) ∧
      ∀ c, buildStage lap ps opt t c = (do let t' ← Pass.allOnTree (buildPasses lap ps) t; pure (t', c))) ∧
    RankStage P (upwardsPasses lap opt (upwardsLeaf ps rhs)) A (A.upwardsStage P lap ps opt rhs) ∧
    upwardsStage lap ps opt rhs t = Pass.allOnTree (upwardsPasses lap opt (upwardsLeaf ps rhs)) t ∧
    RankStage P (upwardsPasses lap opt (upwardsLeafAnalytic ps f)) A (A.upwardsStageAnalytic P lap ps opt f) ∧
    upwardsStageAnalytic lap ps opt f t = Pass.allOnTree (upwardsPasses lap opt (upwardsLeafAnalytic ps f)) t ∧
    RankStage P (solvePasses ps opt bdry) A (A.solveStage P ps opt bdry) ∧
    solveStage ps opt bdry t = Pass.allOnTree (solvePasses ps opt bdry) t ∧
    RankStage P (.wait :: solvePasses ps opt (fun root => do
      let g ← rootDirichlet lap bc root
      pure { root with g := g })) A (A.solveStageAnalytic P lap ps opt bc) ∧
    solveStageAnalytic lap ps opt bc t = Pass.allOnTree (.wait :: solvePasses ps opt (fun root => do
      let g ← rootDirichlet lap bc root
      pure { root with g := g })) t := by
  refine ⟨fun h => ⟨?_, fun c => ?_⟩, ?_, ?_, ?_, ?_, ?_, ?_, ?_, ?_⟩
  · unfold RankStage HPSRank.buildStage buildPasses
    simp only [Pass.allOnRank, Pass.onRank, bind_assoc, pure_bind, bind_pure, buildLeaf_plain ps h, merge_stateless _ _ _ _ _ _ _ A.cache]
    rfl
  · unfold buildStage buildPasses
    rw [buildLeaf_plain ps h, Tree.mergeSt_stateless]
    simp only [Pass.allOnTree, Pass.onTree, bind_assoc, pure_bind, bind_pure]
  · unfold RankStage HPSRank.upwardsStage upwardsPasses
    simp only [Pass.allOnRank, Pass.onRank, bind_assoc, pure_bind, bind_pure]
  · unfold upwardsStage upwardsPasses
    simp only [Pass.allOnTree, Pass.onTree, bind_assoc, pure_bind, bind_pure]
  · unfold RankStage HPSRank.upwardsStageAnalytic upwardsPasses
    simp only [Pass.allOnRank, Pass.onRank, bind_assoc, pure_bind, bind_pure]
  · unfold upwardsStageAnalytic upwardsPasses
    simp only [Pass.allOnTree, Pass.onTree, bind_assoc, pure_bind, bind_pure]
  · unfold RankStage HPSRank.solveStage solvePasses HPSRank.splitDown
    simp only [Pass.allOnRank, Pass.onRank, bind_assoc, pure_bind, bind_pure]
    rfl
  · unfold solveStage solvePasses
    simp only [Pass.allOnTree, Pass.onTree, bind_assoc, pure_bind, bind_pure, Tree.split, splitFrom_setVal, val_setVal]
  · unfold RankStage HPSRank.solveStageAnalytic solvePasses HPSRank.splitDown
    simp only [Pass.allOnRank, Pass.onRank, bind_assoc, pure_bind, bind_pure]
    rfl
  · unfold solveStageAnalytic solvePasses
    simp only [Pass.allOnTree, Pass.onTree, bind_assoc, pure_bind, bind_pure, Tree.split, splitFrom_setVal, val_setVal]

end

/-! ## A concrete case with rounding -/

/-- Numbers of the machine, which round: the sum of four depends on how they are grouped. -/
def exSum (X : Fam Float) : Res (Fam Float) := .ok { X with tau := ((X.a + X.b) + X.c) + X.d }

def exSpread (X : Fam Float) : Res (Fam Float) := .ok ⟨X.tau, X.a / X.tau, X.b / X.tau, X.c / X.tau, X.d / X.tau⟩

/-- A tree with one refined quarter. -/
def exFloats : Tree Float := .node 0.0 (.node 0.0 (.leaf 0.1) (.leaf 0.2) (.leaf 0.3) (.leaf 0.4)) (.leaf 0.5) (.leaf 0.6) (.leaf 0.7)

/-- Passes with `double`s on one and on two ranks give the same bits. -/
example : ∃ (Q Q' Z Z' : Nat → Quadtree Float) (L L' : Nat → List Float),
    HoldsOn 1 exOneRank exFloats Q ∧ HoldsOn 2 exTwoRanks exFloats Q' ∧
    AlwaysEnds (passesOn 30 1 exOneRank [.up (fun x => .ok (x * 0.1)) exSum, .root (fun x => .ok (x + 1.0)),
      .down (fun x => .ok (x + x)) exSpread] Q) Z ∧
    AlwaysEnds (passesOn 30 2 exTwoRanks [.up (fun x => .ok (x * 0.1)) exSum, .root (fun x => .ok (x + 1.0)),
      .down (fun x => .ok (x + x)) exSpread] Q') Z' ∧
    leafList 30 0 exOneRank (Z 0) = .ok (L 0) ∧ leafList 30 0 exTwoRanks (Z' 0) = .ok (L' 0) ∧
    leafList 30 1 exTwoRanks (Z' 1) = .ok (L' 1) ∧ L 0 = L' 0 ++ L' 1 := by
  obtain ⟨Q, hQ⟩ := holds_exists 1 exOneRank (t := exFloats) ⟨⟨trivial, trivial, trivial, trivial⟩, trivial, trivial, trivial⟩
  obtain ⟨Q', hQ'⟩ := holds_exists 2 exTwoRanks (t := exFloats) ⟨⟨trivial, trivial, trivial, trivial⟩, trivial, trivial, trivial⟩
  have hF1 : exOneRank.Sorted := by unfold Forest.Sorted; decide
  have hF2 : exTwoRanks.Sorted := by unfold Forest.Sorted; decide
  have hR1 : EveryRank exOneRank 1 := by
    intro r
    simp [exOneRank, Forest.ranks]
  have hR2 : EveryRank exTwoRanks 2 := by
    intro r
    simp [exTwoRanks, Forest.ranks]
    omega
  rcases C71_any_ranks_partial (M := 30) (by decide) (by decide) hF1 hF2 hR1 hR2 [.up (fun x => .ok (x * 0.1)) exSum,
    .root (fun x => .ok (x + 1.0)), .down (fun x => .ok (x + x)) exSpread] hQ hQ' with ⟨Z, Z', L, L', h1, h2, h3, h4, h5⟩ | ⟨e, h, -⟩
  · exact ⟨Q, Q', Z, Z', L, L', hQ, hQ', h1, h2, h3 0 (by omega), h4 0 (by omega), h4 1 (by omega),
      by simpa [List.range_succ] using h5⟩
  · obtain ⟨Z, h2, -⟩ := C71_one_piece_partial (M := 30) (by decide) hF1 hR1 [.up (fun x => .ok (x * 0.1)) exSum,
      .root (fun x => .ok (x + 1.0)), .down (fun x => .ok (x + x)) exSpread] hQ
    exact absurd h2 (C71_not_both h Z)

/-- A family callback that throws: both runs are bound to fail with its exception. -/
example : ∃ (Q Q' : Nat → Quadtree Float), HoldsOn 1 exOneRank exFloats Q ∧ HoldsOn 2 exTwoRanks exFloats Q' ∧
    AlwaysFails 1 (passesOn 30 1 exOneRank [.up (fun x => .ok x) fun _ => .throw .runtimeError] Q) (some .runtimeError) ∧
    AlwaysFails 2 (passesOn 30 2 exTwoRanks [.up (fun x => .ok x) fun _ => .throw .runtimeError] Q') (some .runtimeError) := by
  obtain ⟨Q, hQ⟩ := holds_exists 1 exOneRank (t := exFloats) ⟨⟨trivial, trivial, trivial, trivial⟩, trivial, trivial, trivial⟩
  obtain ⟨Q', hQ'⟩ := holds_exists 2 exTwoRanks (t := exFloats) ⟨⟨trivial, trivial, trivial, trivial⟩, trivial, trivial, trivial⟩
  have hF1 : exOneRank.Sorted := by unfold Forest.Sorted; decide
  have hF2 : exTwoRanks.Sorted := by unfold Forest.Sorted; decide
  have hR1 : EveryRank exOneRank 1 := by
    intro r
    simp [exOneRank, Forest.ranks]
  have hR2 : EveryRank exTwoRanks 2 := by
    intro r
    simp [exTwoRanks, Forest.ranks]
    omega
  exact ⟨Q, Q', hQ, hQ', C71_one_piece_partial (M := 30) (by decide) hF1 hR1 [.up (fun x => .ok x) fun _ => .throw .runtimeError] hQ,
    C71_one_piece_partial (M := 30) (by decide) hF2 hR2 [.up (fun x => .ok x) fun _ => .throw .runtimeError] hQ'⟩

end EF
