import Verif.Proofs.WorldWhole

/-!
# Counting the calls of a build with the operator cache

A rank comes to its first leaf with the quadtree the build began with; after it the cache has an operator and no calls are made.
-/

namespace EF

open HPS Prog

variable {K T τ α β : Type}

theorem Prog.Makes.and {Q R : α → Prop} {size n : Nat} {p : Prog T α} (h : Makes size Q n p) (hR : p.Gives R) :
    Makes size (fun x => Q x ∧ R x) n p := by
  induction h with
  | ok h => exact .ok ⟨h, hR⟩
  | throw n e => exact .throw _ e
  | ub n => exact .ub _
  | world _ ih => exact .world fun m => ih m (hR m)
  | allMax hn _ ih => exact .allMax hn fun m => ih m (hR m)
  | bcast hv _ ih => exact .bcast hv fun x hx => ih x hx (hR x)

section search
variable [Inhabited T] {size M r : Nat} {pol : Policy} {calls : τ → Nat} {lf : T → τ → Res (T × τ)} {ff : Fam T → Res (Fam T)}

theorem spent_makes (hz : ∀ d s y, lf d s = .ok y → calls y.2 = 0) (q : Quadrant) (b : Bool) (s : NodeMap T × τ)
    (hs : MapNodes Node.Clean s.1 ∧ calls s.2 = 0) :
    (withIndexSets size calls (mergeSplit M r .this pol (onData lf) (onFamily ff)) q b s).Makes size
      (fun x => (MapNodes Node.Clean x.1.1 ∧ calls x.1.2 = 0) ∧ x.2 = true) (if b then 0 else 0) := by
  have h0 : (if b then calls s.2 else 0) = 0 := by rw [hs.2]; split <;> rfl
  have h1 : (if b then 0 else 0 : Nat) = 0 := by split <;> rfl
  unfold withIndexSets
  rw [h0, h1]
  refine .bind0 (Q := fun _ => True) (.ok trivial) fun _ _ => ?_
  refine (Makes.and (R := fun x => calls x.1.2 = 0) (mergeSplit_makes lf ff q b hs.1) ?_).mono fun x hx => ⟨⟨hx.1.1, hx.2⟩, hx.1.2⟩
  cases b with
  | true => exact mergeSplit_spent hz q s hs.2
  | false =>
    have := mergeSplit_keeps (M := M) (r := r) (pol := pol) (lf := lf) (ff := ff) q s
    have h2 : ∀ p : Prog T ((NodeMap T × τ) × Bool), (p.Gives fun x => x.1.2 = s.2) → p.Gives fun x => calls x.1.2 = 0 := by
      intro p hp
      have := Prog.Gives.bind (f := fun x => (pure x : Prog T _)) (R := fun x => calls x.1.2 = 0) hp fun a ha => by
        show calls a.1.2 = 0
        rw [ha, hs.2]
      rwa [bind_pure] at this
    exact h2 _ this

theorem searchPost_makesOnce (hz : ∀ d s y, lf d s = .ok y → calls y.2 = 0) (F : Forest) {a : Addr} (ha : a.Valid)
    (hl : a.length + F.depth ≤ M) (hr : r ∈ F.ranks) {t : Tree T} {m : NodeMap T} {s : τ} (hm : MapNodes Node.Clean m) (hR : Rep r F t a m) :
    (searchPost M r (withIndexSets size calls (mergeSplit M r .this pol (onData lf) (onFamily ff))) F (a.quad M) (m, s)).Makes size
      (fun x => MapNodes Node.Clean x.1 ∧ calls x.2 = 0) (calls s) := by
  induction F generalizing a t with
  | leaf k =>
    have hk : k = r := by simpa [Forest.ranks, eq_comm] using hr
    cases t with
    | node => exact absurd hR id
    | leaf d =>
      unfold searchPost
      rw [if_pos hk]
      unfold withIndexSets
      rw [if_pos rfl, bind_assoc]
      refine .bind (m := 0) (indexSets_makes size _) fun _ _ => ?_
      have h1 := mergeSplit_makes (size := size) (M := M) (r := r) (ptr := .this) (pol := pol) lf ff (a.quad M) true (s := (m, s)) hm
      have h2 : (mergeSplit M r .this pol (onData lf) (onFamily ff) (a.quad M) true (m, s)).Gives fun x => calls x.1.2 = 0 := by
        rw [mergeSplit_leaf ha (by omega) hk hR]
        exact .bind (Q := fun y => calls y.2 = 0) (.res fun y hy => hz _ _ _ hy) fun y (hy : calls y.2 = 0) => show calls y.2 = 0 from hy
      exact .bind0 (h1.and h2) fun x hx => .ok ⟨hx.1.1, hx.2⟩
  | node c0 c1 c2 c3 ih0 ih1 ih2 ih3 =>
    cases t with
    | leaf => exact absurd hR id
    | node d t0 t1 t2 t3 =>
      obtain ⟨-, r0, r1, r2, r3⟩ := hR
      simp only [Forest.depth] at hl
      have rest : ∀ (G : Forest) (q : Quadrant) (x : NodeMap T × τ), MapNodes Node.Clean x.1 ∧ calls x.2 = 0 →
          (searchPost M r (withIndexSets size calls (mergeSplit M r .this pol (onData lf) (onFamily ff))) G q x).Makes size
            (fun x => MapNodes Node.Clean x.1 ∧ calls x.2 = 0) 0 := fun G q x hx => by
        have := searchPost_makes (M := M) (r := r) (c := 0) (spent_makes (size := size) (M := M) (r := r) (pol := pol) (ff := ff) hz) G q hx
        rwa [Nat.zero_mul] at this
      have fam : ∀ (q : Quadrant) (x : NodeMap T × τ), MapNodes Node.Clean x.1 ∧ calls x.2 = 0 →
          (withIndexSets size calls (mergeSplit M r .this pol (onData lf) (onFamily ff)) q false x >>= fun y =>
            (pure y.1 : Prog T (NodeMap T × τ))).Makes size (fun x => MapNodes Node.Clean x.1 ∧ calls x.2 = 0) 0 := fun q x hx =>
        .bind0 (spent_makes hz q false x hx) fun y hy => .ok hy.1
      unfold searchPost
      rw [if_pos hr]
      simp only [← Addr.quad_snoc]
      by_cases k0 : r ∈ c0.ranks
      · exact .bind (m := 0) (ih0 (ha.snoc (by omega)) (by simp; omega) k0 r0) fun x hx => .bind0 (rest _ _ _ hx) fun x hx =>
          .bind0 (rest _ _ _ hx) fun x hx => .bind0 (rest _ _ _ hx) fun x hx => fam _ _ hx
      rw [searchPost_zero _ (List.count_eq_zero.2 k0), pure_bind]
      by_cases k1 : r ∈ c1.ranks
      · exact .bind (m := 0) (ih1 (ha.snoc (by omega)) (by simp; omega) k1 r1) fun x hx =>
          .bind0 (rest _ _ _ hx) fun x hx => .bind0 (rest _ _ _ hx) fun x hx => fam _ _ hx
      rw [searchPost_zero _ (List.count_eq_zero.2 k1), pure_bind]
      by_cases k2 : r ∈ c2.ranks
      · exact .bind (m := 0) (ih2 (ha.snoc (by omega)) (by simp; omega) k2 r2) fun x hx =>
          .bind0 (rest _ _ _ hx) fun x hx => fam _ _ hx
      rw [searchPost_zero _ (List.count_eq_zero.2 k2), pure_bind]
      have k3 : r ∈ c3.ranks := by
        simp only [Forest.ranks, List.mem_append] at hr
        tauto
      exact .bind (m := 0) (ih3 (ha.snoc (by omega)) (by simp; omega) k3 r3) fun x hx => fam _ _ hx

end search

theorem buildLeaf_spent [Field K] {N : Nat} {ps : PatchSolver K} {opt : HPSOptions} (ho : opt.cacheOperators = true) (d : Patch K)
    (s : Option (Mat K)) (y : Patch K × Option (Mat K)) (hy : HPS.buildLeaf ps opt d s = .ok y) : HPSRank.buildCalls N opt y.2 = 0 := by
  unfold HPS.buildLeaf at hy
  rw [if_pos ho] at hy
  have : y.2.isSome = true := by
    cases s with
    | some T => cases hy; rfl
    | none =>
      simp only [Res.bind_eq_ok, Res.pure_def, Res.ok_inj] at hy
      obtain ⟨T, -, rfl⟩ := hy
      rfl
  unfold HPSRank.buildCalls
  rw [if_pos ⟨ho, this⟩]

/-- A build with the cache makes the calls for one operator on every rank with a leaf. -/
theorem HPSRank.build_makesOnce [Field K] {A : HPSRank K} (h : A.Clean) (N : Nat) (P : Place) (lap : Lapack K) (ps : PatchSolver K)
    {opt : HPSOptions} (ho : opt.cacheOperators = true) (hn : A.cache = none) (hM : P.forest.depth ≤ P.M) {t : Tree (Patch K)}
    (hR : Rep P.rank P.forest t [] A.mesh.quadtree.map) (hu : A.mesh.quadtree.userPointer = .this) :
    (A.buildStageWorld N P lap ps opt).Makes P.size Clean (if P.rank ∈ P.forest.ranks then 8 * N else 0) := by
  refine .bind0 (barrier_makes _ _) fun _ _ => ?_
  unfold Quadtree.mergeWorld
  rw [hu, bind_assoc]
  by_cases hr : P.rank ∈ P.forest.ranks
  · rw [if_pos hr]
    have e : buildCalls N opt A.cache = 8 * N := by
      unfold buildCalls
      rw [hn, if_neg (by simp)]
      ring
    have := searchPost_makesOnce (size := P.size) (M := P.M) (pol := .broadcast) (ff := HPS.merge4to1 lap) (s := A.cache)
      (buildLeaf_spent (N := N) (ps := ps) ho) P.forest (a := []) Addr.Valid.nil (by simpa using hM) hr h hR
    rw [e] at this
    exact .bind (m := 0) this fun x hx => .ok hx.1
  · rw [if_neg hr, searchPost_zero _ (List.count_eq_zero.2 hr)]
    exact .ok h

end EF
