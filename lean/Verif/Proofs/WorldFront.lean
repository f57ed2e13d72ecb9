import Verif.Proofs.WorldCache

/-!
# A build with the operator cache on any partition

A rank comes to its first leaf before any family, so with the cache all its calls come first.
-/

namespace EF

open HPS Prog

variable {K T τ α β : Type}

theorem Prog.Gives.congr {Q : α → Prop} {p : Prog T α} {f g : α → Prog T β} (h : p.Gives Q) (e : ∀ a, Q a → f a = g a) :
    (p >>= f) = p >>= g := by
  change p.bind f = p.bind g
  induction p with
  | fin x =>
    cases x with
    | ok a => exact e a h
    | throw e => rfl
    | ub => rfl
  | allMax lo hi name v k ih =>
    show Prog.allMax _ _ _ _ _ = Prog.allMax _ _ _ _ _
    congr 1
    funext m
    exact ih m (h m)
  | bcast lo hi name root v k ih =>
    show Prog.bcast _ _ _ _ _ _ = Prog.bcast _ _ _ _ _ _
    congr 1
    funext m
    exact ih m (h m)

section search
variable [Inhabited T] {size M r : Nat} {pol : Policy} {calls : τ → Nat} {lf : T → τ → Res (T × τ)} {ff : Fam T → Res (Fam T)}

theorem family_gives (q : Quadrant) (s : NodeMap T × τ) (h0 : calls s.2 = 0) :
    (mergeSplit M r .this pol (onData lf) (onFamily ff) q false s >>= fun y => (pure y.1 : Prog T (NodeMap T × τ))).Gives
      fun x => calls x.2 = 0 :=
  .bind (mergeSplit_keeps q s) fun a ha => by
    show calls a.1.2 = 0
    rw [ha, h0]

/-- When no calls are left to make, the traversal is the one without them. -/
theorem searchPost_quiet (hz : ∀ d s y, lf d s = .ok y → calls y.2 = 0) (F : Forest) (q : Quadrant) (s : NodeMap T × τ)
    (h0 : calls s.2 = 0) :
    searchPost M r (withIndexSets size calls (mergeSplit M r .this pol (onData lf) (onFamily ff))) F q s =
      searchPost M r (mergeSplit M r .this pol (onData lf) (onFamily ff)) F q s ∧
    (searchPost M r (mergeSplit M r .this pol (onData lf) (onFamily ff)) F q s).Gives fun x => calls x.2 = 0 := by
  induction F generalizing q s with
  | leaf k =>
    unfold searchPost
    by_cases hk : k = r
    · rw [if_pos hk, if_pos hk]
      refine ⟨?_, .bind (mergeSplit_spent hz q s h0) fun a ha => ha⟩
      unfold withIndexSets
      rw [if_pos rfl, h0]
      rfl
    · rw [if_neg hk, if_neg hk]
      exact ⟨rfl, h0⟩
  | node c0 c1 c2 c3 ih0 ih1 ih2 ih3 =>
    unfold searchPost
    by_cases hm : r ∈ (Forest.node c0 c1 c2 c3).ranks
    · rw [if_pos hm, if_pos hm]
      refine ⟨?_, .bind (ih0 _ s h0).2 fun a ha => .bind (ih1 _ a ha).2 fun a ha => .bind (ih2 _ a ha).2 fun a ha =>
        .bind (ih3 _ a ha).2 fun a ha => family_gives _ a ha⟩
      rw [(ih0 _ s h0).1]
      refine Prog.Gives.congr (ih0 _ s h0).2 fun a ha => ?_
      rw [(ih1 _ a ha).1]
      refine Prog.Gives.congr (ih1 _ a ha).2 fun a ha => ?_
      rw [(ih2 _ a ha).1]
      refine Prog.Gives.congr (ih2 _ a ha).2 fun a ha => ?_
      rw [(ih3 _ a ha).1]
      refine Prog.Gives.congr (ih3 _ a ha).2 fun a ha => ?_
      rw [withIndexSets_family]
    · rw [if_neg hm, if_neg hm]
      exact ⟨rfl, h0⟩

/-- The calls of the first leaf come first, and there are no others. -/
theorem searchPost_front (hz : ∀ d s y, lf d s = .ok y → calls y.2 = 0) (F : Forest) {a : Addr} (ha : a.Valid)
    (hl : a.length + F.depth ≤ M) (hr : r ∈ F.ranks) {t : Tree T} {m : NodeMap T} {s : τ} (hR : Rep r F t a m) :
    searchPost M r (withIndexSets size calls (mergeSplit M r .this pol (onData lf) (onFamily ff))) F (a.quad M) (m, s) =
      (indexSets size (calls s) >>= fun _ => searchPost M r (mergeSplit M r .this pol (onData lf) (onFamily ff)) F (a.quad M) (m, s)) ∧
    (searchPost M r (mergeSplit M r .this pol (onData lf) (onFamily ff)) F (a.quad M) (m, s)).Gives fun x => calls x.2 = 0 := by
  induction F generalizing a t with
  | leaf k =>
    have hk : k = r := by simpa [Forest.ranks, eq_comm] using hr
    cases t with
    | node => exact absurd hR id
    | leaf d =>
      unfold searchPost
      rw [if_pos hk, if_pos hk]
      refine ⟨?_, ?_⟩
      · unfold withIndexSets
        rw [if_pos rfl, bind_assoc]
      · rw [mergeSplit_leaf ha (by omega) hk hR, bind_assoc]
        exact .bind (Q := fun y => calls y.2 = 0) (.res fun y hy => hz _ _ _ hy) fun y (hy : calls y.2 = 0) => show calls y.2 = 0 from hy
  | node c0 c1 c2 c3 ih0 ih1 ih2 ih3 =>
    cases t with
    | leaf => exact absurd hR id
    | node d t0 t1 t2 t3 =>
      obtain ⟨-, r0, r1, r2, r3⟩ := hR
      simp only [Forest.depth] at hl
      have n := fun G q s h => searchPost_quiet (size := size) (M := M) (r := r) (pol := pol) (ff := ff) hz G q s h
      unfold searchPost
      rw [if_pos hr, if_pos hr]
      simp only [← Addr.quad_snoc, withIndexSets_family]
      by_cases k0 : r ∈ c0.ranks
      · obtain ⟨e, g⟩ := ih0 (ha.snoc (by omega)) (by simp; omega) k0 r0
        refine ⟨?_, .bind g fun a ha => .bind (n c1 _ a ha).2 fun a ha => .bind (n c2 _ a ha).2 fun a ha => .bind (n c3 _ a ha).2
          fun a ha => family_gives _ a ha⟩
        rw [e, bind_assoc]
        congr 1
        funext _
        refine Prog.Gives.congr g fun a ha => ?_
        rw [(n c1 _ a ha).1]
        refine Prog.Gives.congr (n c1 _ a ha).2 fun a ha => ?_
        rw [(n c2 _ a ha).1]
        refine Prog.Gives.congr (n c2 _ a ha).2 fun a ha => ?_
        rw [(n c3 _ a ha).1]
      simp only [searchPost_zero _ (List.count_eq_zero.2 k0), pure_bind]
      by_cases k1 : r ∈ c1.ranks
      · obtain ⟨e, g⟩ := ih1 (ha.snoc (by omega)) (by simp; omega) k1 r1
        refine ⟨?_, .bind g fun a ha => .bind (n c2 _ a ha).2 fun a ha => .bind (n c3 _ a ha).2 fun a ha => family_gives _ a ha⟩
        rw [e, bind_assoc]
        congr 1
        funext _
        refine Prog.Gives.congr g fun a ha => ?_
        rw [(n c2 _ a ha).1]
        refine Prog.Gives.congr (n c2 _ a ha).2 fun a ha => ?_
        rw [(n c3 _ a ha).1]
      simp only [searchPost_zero _ (List.count_eq_zero.2 k1), pure_bind]
      by_cases k2 : r ∈ c2.ranks
      · obtain ⟨e, g⟩ := ih2 (ha.snoc (by omega)) (by simp; omega) k2 r2
        refine ⟨?_, .bind g fun a ha => .bind (n c3 _ a ha).2 fun a ha => family_gives _ a ha⟩
        rw [e, bind_assoc]
        congr 1
        funext _
        refine Prog.Gives.congr g fun a ha => ?_
        rw [(n c3 _ a ha).1]
      simp only [searchPost_zero _ (List.count_eq_zero.2 k2), pure_bind]
      have k3 : r ∈ c3.ranks := by
        simp only [Forest.ranks, List.mem_append] at hr
        tauto
      obtain ⟨e, g⟩ := ih3 (ha.snoc (by omega)) (by simp; omega) k3 r3
      refine ⟨?_, .bind g fun a ha => family_gives _ a ha⟩
      rw [e, bind_assoc]

end search

/-- A build with the cache that ends without the calls ends with them. -/
theorem HPSRank.build_front [Field K] {N M size : Nat} {F : Forest} (hr : EveryRank F size) (hM : F.depth ≤ M) (lap : Lapack K)
    (ps : PatchSolver K) {opt : HPSOptions} (ho : opt.cacheOperators = true) {t : Tree (Patch K)} {A A' : Nat → HPSRank K}
    (hn : ∀ r, (A r).cache = none) (hA : HoldsOn size F t (fun r => (A r).mesh.quadtree))
    (h : Runs (fun r => r < size) (fun r => (A r).buildStage ⟨M, size, r, F⟩ lap ps opt) A') :
    Runs (fun r => r < size) (fun r => (A r).buildStageWorld N ⟨M, size, r, F⟩ lap ps opt) A' := by
  refine (Runs.afterBarrier hr.pos (2 * (4 * N)) h).congr (fun r hlt => ?_) (fun r _ => rfl)
  have e : buildCalls N opt (A r).cache = 2 * (4 * N) := by
    unfold buildCalls
    rw [hn r, if_neg (by simp)]
  have e1 := (searchPost_front (size := size) (M := M) (pol := .broadcast) (ff := HPS.merge4to1 lap) (s := (A r).cache)
    (buildLeaf_spent (N := N) (ps := ps) ho) F (a := []) Addr.Valid.nil (by simpa using hM) ((hr r).mp hlt) (hA r hlt).1).1
  rw [e] at e1
  unfold buildStageWorld Quadtree.mergeWorld
  dsimp only
  rw [(hA r hlt).2]
  rw [show Quadrant.root = Addr.quad M [] from rfl, e1]
  simp only [Quadtree.merge, bind_assoc, pure_bind, (hA r hlt).2]
  rfl

end EF
