import Verif.Proofs.WorldRuns
import Verif.Proofs.Failure
import Verif.Spec.WorldOrder

/-!
# A quadrant for every rank

If the leaves of a rank are those of one quadrant, it comes to all of them before the first family it shares with other ranks.
-/

namespace EF

open HPS

variable {K T τ α β : Type}

theorem Prog.bind_ok {p : Prog T α} {f : α → Prog T β} {x : β} (h : (p >>= f) = .fin (.ok x)) :
    ∃ a, p = .fin (.ok a) ∧ f a = .fin (.ok x) := by
  change p.bind f = _ at h
  cases p with
  | fin y =>
    cases y with
    | ok a => exact ⟨a, rfl, h⟩
    | throw e => cases h
    | ub => cases h
  | allMax => cases h
  | bcast => cases h

theorem indexSets_add (size a b : Nat) : (indexSets size (a + b) : Prog T Unit) = indexSets size a >>= fun _ => indexSets size b := by
  induction a with
  | zero => rw [Nat.zero_add]; rfl
  | succ a ih =>
    rw [Nat.succ_add]
    show Prog.allMax _ _ _ _ _ = Prog.allMax _ _ _ _ _
    congr 1
    funext _
    exact ih

theorem Forest.sub_count {F G : Forest} {b : Addr} (h : F.sub b = some G) (r : Nat) : G.ranks.count r ≤ F.ranks.count r := by
  induction F generalizing b with
  | leaf k =>
    cases b with
    | nil => cases h; exact le_rfl
    | cons i b => cases h
  | node c0 c1 c2 c3 h0 h1 h2 h3 =>
    simp only [Forest.ranks, List.count_append]
    rcases b with _ | ⟨_ | _ | _ | _ | i, b⟩
    · cases h
      simp [Forest.ranks]
      omega
    · have := h0 h; omega
    · have := h1 h; omega
    · have := h2 h; omega
    · have := h3 h; omega
    · cases h

section search
variable {size M r c : Nat} {calls : τ → Nat}

/-- A traversal that ends at once makes all its calls before. -/
theorem searchPost_ok (hc : ∀ t, calls t = c) {cb : Quadrant → Bool → NodeMap T × τ → Prog T ((NodeMap T × τ) × Bool)} (F : Forest)
    (q : Quadrant) {s x : NodeMap T × τ} (h : searchPost M r cb F q s = .fin (.ok x)) :
    searchPost M r (withIndexSets size calls cb) F q s = indexSets size (c * F.ranks.count r) >>= fun _ => .fin (.ok x) := by
  induction F generalizing q s x with
  | leaf k =>
    unfold searchPost at h ⊢
    by_cases hk : k = r
    · rw [if_pos hk] at h ⊢
      have e : c * (Forest.leaf k).ranks.count r = c := by simp [Forest.ranks, hk]
      unfold withIndexSets
      rw [hc, if_pos rfl, e, bind_assoc, h]
    · rw [if_neg hk] at h ⊢
      have e : c * (Forest.leaf k).ranks.count r = 0 := by simp [Forest.ranks, hk]
      rw [e]
      exact h
  | node c0 c1 c2 c3 ih0 ih1 ih2 ih3 =>
    unfold searchPost at h ⊢
    by_cases hm : r ∈ (Forest.node c0 c1 c2 c3).ranks
    · rw [if_pos hm] at h ⊢
      obtain ⟨s0, e0, h⟩ := Prog.bind_ok h
      obtain ⟨s1, e1, h⟩ := Prog.bind_ok h
      obtain ⟨s2, e2, h⟩ := Prog.bind_ok h
      obtain ⟨s3, e3, h⟩ := Prog.bind_ok h
      have key : c * (Forest.node c0 c1 c2 c3).ranks.count r =
          c * c0.ranks.count r + (c * c1.ranks.count r + (c * c2.ranks.count r + c * c3.ranks.count r)) := by
        simp only [Forest.ranks, List.count_append]
        ring
      have pb : ∀ {γ δ : Type} (y : γ) (g : γ → Prog T δ), ((Prog.fin (.ok y) : Prog T γ) >>= g) = g y := fun _ _ => rfl
      rw [key, indexSets_add, indexSets_add, indexSets_add, ih0 _ e0]
      simp only [bind_assoc, pb, ih1 _ e1, ih2 _ e2, ih3 _ e3, withIndexSets_family, h]
    · rw [if_neg hm] at h ⊢
      rw [List.count_eq_zero_of_not_mem hm, Nat.mul_zero]
      exact h

variable [Inhabited T] {pol : Policy} {lf : T → τ → Res (T × τ)} {ff : Fam T → Res (Fam T)}

theorem mergeSplit_keeps (q : Quadrant) (s : NodeMap T × τ) :
    (mergeSplit M r .this pol (onData lf) (onFamily ff) q false s).Gives fun x => x.1.2 = s.2 := by
  have fam : ∀ (F : Fam (Node T)) (g : Fam (Node T) → NodeMap T),
      (do
        let res ← Prog.fin (onFamily ff F s.2)
        pure ((g res.1.1, res.1.2), res.2) : Prog T ((NodeMap T × τ) × Bool)).Gives (fun x => x.1.2 = s.2) := by
    intro F g
    refine .bind (Q := fun x => x.1.2 = s.2) (.res fun x hx => ?_) fun x (hx : x.1.2 = s.2) => show x.1.2 = s.2 from hx
    unfold onFamily at hx
    simp only [Res.bind_eq_ok, Res.pure_def, Res.ok_inj] at hx
    obtain ⟨y, -, rfl⟩ := hx
    rfl
  unfold mergeSplit
  split
  · trivial
  dsimp only
  split
  · trivial
  · rename_i node hn
    split
    · trivial
    · rw [if_neg (by simp)]
      split
      · split
        · refine .bind (.any _) fun a _ => .bind (.any _) fun b _ => .bind (.any _) fun c _ => .bind (.any _) fun d _ => ?_
          exact fam ⟨node, a, b, c, d⟩ (fun y => ((((s.1.set (q.path M) (some y.tau)).store (node.path ++ natText 0) y.a).store
            (node.path ++ natText 1) y.b).store (node.path ++ natText 2) y.c).store (node.path ++ natText 3) y.d)
        · rfl
      · split
        · split
          · trivial
          · refine .bind (.any _) fun a _ => .bind (.any _) fun b _ => .bind (.any _) fun c _ => .bind (.any _) fun d _ => ?_
            exact fam ⟨node, a.1, b.1, c.1, d.1⟩ (fun y => ((((d.2.set (q.path M) (some y.tau)).store (node.path ++ natText 0) y.a).store
              (node.path ++ natText 1) y.b).store (node.path ++ natText 2) y.c).store (node.path ++ natText 3) y.d)
        · rfl

theorem mergeSplit_spent (hz : ∀ d s y, lf d s = .ok y → calls y.2 = 0) (q : Quadrant) (s : NodeMap T × τ) (h0 : calls s.2 = 0) :
    (mergeSplit M r .this pol (onData lf) (onFamily ff) q true s).Gives fun x => calls x.1.2 = 0 := by
  unfold mergeSplit
  split
  · trivial
  dsimp only
  split
  · trivial
  · rename_i node hn
    split
    · trivial
    · rw [if_pos rfl]
      split
      · refine .bind (Q := fun x => calls x.1.2 = 0) (.res fun x hx => ?_) fun x (hx : calls x.1.2 = 0) => show calls x.1.2 = 0 from hx
        unfold onData at hx
        simp only [Res.bind_eq_ok, Res.pure_def, Res.ok_inj] at hx
        obtain ⟨y, hy, rfl⟩ := hx
        exact hz _ _ _ hy
      · exact h0

/-- Once no calls are made any more, none are made. -/
theorem searchPost_spent (hz : ∀ d s y, lf d s = .ok y → calls y.2 = 0) (F : Forest) (q : Quadrant) {s x : NodeMap T × τ} (h0 : calls s.2 = 0)
    (h : searchPost M r (mergeSplit M r .this pol (onData lf) (onFamily ff)) F q s = .fin (.ok x)) :
    searchPost M r (withIndexSets size calls (mergeSplit M r .this pol (onData lf) (onFamily ff))) F q s = .fin (.ok x) ∧ calls x.2 = 0 := by
  induction F generalizing q s x with
  | leaf k =>
    unfold searchPost at h ⊢
    by_cases hk : k = r
    · rw [if_pos hk] at h ⊢
      obtain ⟨y, e, h⟩ := Prog.bind_ok h
      have hy := mergeSplit_spent (M := M) (r := r) (pol := pol) (ff := ff) hz q s h0
      unfold withIndexSets
      rw [if_pos rfl, h0]
      rw [e] at hy ⊢
      cases h
      exact ⟨rfl, hy⟩
    · rw [if_neg hk] at h ⊢
      cases h
      exact ⟨rfl, h0⟩
  | node c0 c1 c2 c3 ih0 ih1 ih2 ih3 =>
    unfold searchPost at h ⊢
    by_cases hm : r ∈ (Forest.node c0 c1 c2 c3).ranks
    · rw [if_pos hm] at h ⊢
      obtain ⟨s0, e0, h⟩ := Prog.bind_ok h
      obtain ⟨s1, e1, h⟩ := Prog.bind_ok h
      obtain ⟨s2, e2, h⟩ := Prog.bind_ok h
      obtain ⟨s3, e3, h⟩ := Prog.bind_ok h
      obtain ⟨y, e, h⟩ := Prog.bind_ok h
      obtain ⟨f0, z0⟩ := ih0 _ h0 e0
      obtain ⟨f1, z1⟩ := ih1 _ z0 e1
      obtain ⟨f2, z2⟩ := ih2 _ z1 e2
      obtain ⟨f3, z3⟩ := ih3 _ z2 e3
      have hy := mergeSplit_keeps (M := M) (r := r) (pol := pol) (lf := lf) (ff := ff) q s3
      rw [e] at hy
      have pb : ∀ {γ δ : Type} (y : γ) (g : γ → Prog T δ), ((Prog.fin (.ok y) : Prog T γ) >>= g) = g y := fun _ _ => rfl
      refine ⟨?_, ?_⟩
      · simp only [f0, f1, f2, f3, pb, withIndexSets_family, e]
        exact h
      · cases h
        rw [show y.1.2 = s3.2 from hy]
        exact z3
    · rw [if_neg hm] at h ⊢
      cases h
      exact ⟨rfl, h0⟩

/-- If a leaf leaves nothing to do for the later ones, the calls are those of the first leaf. -/
theorem searchPost_once (hz : ∀ d s y, lf d s = .ok y → calls y.2 = 0) (F : Forest) (hF : F.AllOn r) {a : Addr} (ha : a.Valid)
    (hl : a.length + F.depth ≤ M) {t : Tree T} {m : NodeMap T} {s : τ} (hR : Rep r F t a m) {x : NodeMap T × τ}
    (h : searchPost M r (mergeSplit M r .this pol (onData lf) (onFamily ff)) F (a.quad M) (m, s) = .fin (.ok x)) :
    searchPost M r (withIndexSets size calls (mergeSplit M r .this pol (onData lf) (onFamily ff))) F (a.quad M) (m, s) =
      (indexSets size (calls s) >>= fun _ => .fin (.ok x)) ∧ calls x.2 = 0 := by
  induction F generalizing a t x with
  | leaf k =>
    have hk : k = r := hF k (by simp [Forest.ranks])
    cases t with
    | node => exact absurd hR id
    | leaf d =>
      unfold searchPost at h ⊢
      rw [if_pos hk] at h ⊢
      unfold withIndexSets
      rw [if_pos rfl, bind_assoc, h]
      refine ⟨rfl, ?_⟩
      rw [mergeSplit_leaf ha (by omega) hk hR] at h
      cases e : lf d s with
      | ok y =>
        rw [e] at h
        cases h
        exact hz _ _ _ e
      | throw => rw [e] at h; cases h
      | ub => rw [e] at h; cases h
  | node c0 c1 c2 c3 ih0 _ _ _ =>
    cases t with
    | leaf => exact absurd hR id
    | node d t0 t1 t2 t3 =>
      simp only [Forest.depth] at hl
      unfold searchPost at h ⊢
      rw [if_pos hF.mem] at h ⊢
      simp only [← Addr.quad_snoc] at h ⊢
      obtain ⟨s0, e0, h⟩ := Prog.bind_ok h
      obtain ⟨s1, e1, h⟩ := Prog.bind_ok h
      obtain ⟨s2, e2, h⟩ := Prog.bind_ok h
      obtain ⟨s3, e3, h⟩ := Prog.bind_ok h
      obtain ⟨y, e, h⟩ := Prog.bind_ok h
      obtain ⟨f0, z0⟩ := ih0 hF.kids.1 (ha.snoc (by omega)) (by simp; omega) hR.2.1 e0
      obtain ⟨f1, z1⟩ := searchPost_spent (size := size) hz _ _ z0 e1
      obtain ⟨f2, z2⟩ := searchPost_spent (size := size) hz _ _ z1 e2
      obtain ⟨f3, z3⟩ := searchPost_spent (size := size) hz _ _ z2 e3
      have hy := mergeSplit_keeps (M := M) (r := r) (pol := pol) (lf := lf) (ff := ff) (a.quad M) s3
      rw [e] at hy
      have pb : ∀ {γ δ : Type} (y : γ) (g : γ → Prog T δ), ((Prog.fin (.ok y) : Prog T γ) >>= g) = g y := fun _ _ => rfl
      refine ⟨?_, ?_⟩
      · rw [f0]
        simp only [bind_assoc, f1, f2, f3, pb, withIndexSets_family, e]
        rw [h]
      · cases h
        rw [show y.1.2 = s3.2 from hy]
        exact z3

/-- The calls come first, or the program fails. -/
theorem searchPost_whole (cost : Nat → Nat) {m : NodeMap T} {s : τ} (hok : ∀ G : Forest, G.AllOn r → ∀ {a : Addr}, a.Valid →
    a.length + G.depth ≤ M → ∀ {t : Tree T}, Rep r G t a m → ∀ {x}, searchPost M r (mergeSplit M r .this pol (onData lf) (onFamily ff)) G
      (a.quad M) (m, s) = .fin (.ok x) → searchPost M r (withIndexSets size calls (mergeSplit M r .this pol (onData lf) (onFamily ff))) G
        (a.quad M) (m, s) = indexSets size (cost (G.ranks.count r)) >>= fun _ => .fin (.ok x)) (F : Forest) {G : Forest} {b : Addr} (hb : F.sub b = some G) (hG : G.AllOn r)
    (hn : G.ranks.count r = F.ranks.count r) {a : Addr} (ha : a.Valid) (hl : a.length + F.depth ≤ M) {t : Tree T}
    (h : Rep r F t a m) :
    (∃ x, searchPost M r (mergeSplit M r .this pol (onData lf) (onFamily ff)) F (a.quad M) (m, s) = .fin x ∧ ∀ y, x ≠ .ok y) ∨
      searchPost M r (withIndexSets size calls (mergeSplit M r .this pol (onData lf) (onFamily ff))) F (a.quad M) (m, s) =
        indexSets size (cost (F.ranks.count r)) >>= fun _ =>
          searchPost M r (mergeSplit M r .this pol (onData lf) (onFamily ff)) F (a.quad M) (m, s) := by
  have here : ∀ F : Forest, F.AllOn r → ∀ {a : Addr}, a.Valid → a.length + F.depth ≤ M → ∀ {t : Tree T}, Rep r F t a m →
      (∃ x, searchPost M r (mergeSplit M r .this pol (onData lf) (onFamily ff)) F (a.quad M) (m, s) = .fin x ∧ ∀ y, x ≠ .ok y) ∨
      searchPost M r (withIndexSets size calls (mergeSplit M r .this pol (onData lf) (onFamily ff))) F (a.quad M) (m, s) =
        indexSets size (cost (F.ranks.count r)) >>= fun _ =>
          searchPost M r (mergeSplit M r .this pol (onData lf) (onFamily ff)) F (a.quad M) (m, s) := by
    intro F hF a ha hl t h
    have he := merge_one (pol := pol) (lf := lf) (ff := ff) (s := s) F ha hl hF h
    unfold Ends at he
    split at he
    · obtain ⟨m', e, -⟩ := he
      right
      rw [e]
      exact hok F hF ha hl h e
    · exact .inl ⟨_, he, fun y hy => by cases hy⟩
    · exact .inl ⟨_, he, fun y hy => by cases hy⟩
  induction F generalizing b t a with
  | leaf k =>
    cases b with
    | nil => cases hb; exact here _ hG ha hl h
    | cons i b => cases hb
  | node c0 c1 c2 c3 ih0 ih1 ih2 ih3 =>
    cases b with
    | nil => cases hb; exact here _ hG ha hl h
    | cons i b =>
      cases t with
      | leaf => exact absurd h id
      | node d t0 t1 t2 t3 =>
        obtain ⟨-, r0, r1, r2, r3⟩ := h
        simp only [Forest.depth] at hl
        have hpos : 0 < G.ranks.count r := List.count_pos_iff.2 hG.mem
        have hm : r ∈ (Forest.node c0 c1 c2 c3).ranks := List.count_pos_iff.1 (by omega)
        have hsum : (Forest.node c0 c1 c2 c3).ranks.count r =
            c0.ranks.count r + c1.ranks.count r + c2.ranks.count r + c3.ranks.count r := by
          simp only [Forest.ranks, List.count_append]
        have pf : ∀ {γ δ : Type} (y : Res γ) (g : γ → Prog T δ), (∀ z, y ≠ .ok z) →
            ∃ x, ((Prog.fin y : Prog T γ) >>= g) = .fin x ∧ ∀ z, x ≠ .ok z := by
          intro γ δ y g hy
          cases y with
          | ok z => exact absurd rfl (hy z)
          | throw e => exact ⟨.throw e, rfl, fun z hz => by cases hz⟩
          | ub => exact ⟨.ub, rfl, fun z hz => by cases hz⟩
        unfold searchPost
        rw [if_pos hm, if_pos hm]
        simp only [← Addr.quad_snoc]
        rcases i with _ | _ | _ | _ | i
        · have k := Forest.sub_count (F := c0) hb r
          have z1 : c1.ranks.count r = 0 := by omega
          have z2 : c2.ranks.count r = 0 := by omega
          have z3 : c3.ranks.count r = 0 := by omega
          have e : (Forest.node c0 c1 c2 c3).ranks.count r = c0.ranks.count r := by omega
          simp only [searchPost_zero _ z1, searchPost_zero _ z2, searchPost_zero _ z3, pure_bind, withIndexSets_family]
          rcases ih0 hb (by omega) (ha.snoc (by omega)) (by simp; omega) r0 with ⟨x, e1, e2⟩ | e1
          · left
            rw [e1]
            exact pf x _ e2
          · right
            rw [e1, e, bind_assoc]
        · have k := Forest.sub_count (F := c1) hb r
          have z0 : c0.ranks.count r = 0 := by omega
          have z2 : c2.ranks.count r = 0 := by omega
          have z3 : c3.ranks.count r = 0 := by omega
          have e : (Forest.node c0 c1 c2 c3).ranks.count r = c1.ranks.count r := by omega
          simp only [searchPost_zero _ z0, searchPost_zero _ z2, searchPost_zero _ z3, pure_bind, withIndexSets_family]
          rcases ih1 hb (by omega) (ha.snoc (by omega)) (by simp; omega) r1 with ⟨x, e1, e2⟩ | e1
          · left
            rw [e1]
            exact pf x _ e2
          · right
            rw [e1, e, bind_assoc]
        · have k := Forest.sub_count (F := c2) hb r
          have z0 : c0.ranks.count r = 0 := by omega
          have z1 : c1.ranks.count r = 0 := by omega
          have z3 : c3.ranks.count r = 0 := by omega
          have e : (Forest.node c0 c1 c2 c3).ranks.count r = c2.ranks.count r := by omega
          simp only [searchPost_zero _ z0, searchPost_zero _ z1, searchPost_zero _ z3, pure_bind, withIndexSets_family]
          rcases ih2 hb (by omega) (ha.snoc (by omega)) (by simp; omega) r2 with ⟨x, e1, e2⟩ | e1
          · left
            rw [e1]
            exact pf x _ e2
          · right
            rw [e1, e, bind_assoc]
        · have k := Forest.sub_count (F := c3) hb r
          have z0 : c0.ranks.count r = 0 := by omega
          have z1 : c1.ranks.count r = 0 := by omega
          have z2 : c2.ranks.count r = 0 := by omega
          have e : (Forest.node c0 c1 c2 c3).ranks.count r = c3.ranks.count r := by omega
          simp only [searchPost_zero _ z0, searchPost_zero _ z1, searchPost_zero _ z2, pure_bind, withIndexSets_family]
          rcases ih3 hb (by omega) (ha.snoc (by omega)) (by simp; omega) r3 with ⟨x, e1, e2⟩ | e1
          · left
            rw [e1]
            exact pf x _ e2
          · right
            rw [e1, e, bind_assoc]
        · cases hb

end search

/-- A stage that ends on all ranks does not fail on one of them behind the barrier. -/
theorem Runs.notFails {size : Nat} (hpos : 0 < size) {p : Nat → Prog T β} {v : Nat → β}
    (hr : Runs (fun r => r < size) (fun r => barrier size >>= fun _ => p r) v) {r : Nat} (h : r < size) {x : Res β}
    (hp : p r = .fin x) : ∃ y, x = .ok y := by
  obtain ⟨j, z, r1, r2, r3⟩ := hr β (fun _ b => Pure.pure b)
    (fun r => if r < size then barrier size >>= fun _ => p r else .fin (.ok (v r))) (fun r h => by beta_reduce; rw [if_pos h, bind_pure])
  have hz : z = fun r => .fin (.ok (v r)) := by
    funext r
    by_cases h : r < size
    · exact r2 r h
    · rw [r3 r h, if_neg h]
  subst hz
  obtain ⟨i, c, s1, s2, s3⟩ := barrier_runs (T := T) hpos β (fun r _ => p r)
    (fun r => if r < size then barrier size >>= fun _ => p r else .fin (.ok (v r))) (fun r h => if_pos h)
  have hc : Run (j - i) c (fun r => .fin (.ok (v r))) := (r1.all (fun r => ⟨_, rfl⟩) s1).2
  have := hc.ended (r := r) ((s2 r h).trans hp)
  injection this with this
  exact ⟨_, this.symm⟩

namespace HPSRank

variable [Field K] {N M size k : Nat} {F : Forest}

theorem build_whole (hpos : 0 < size) (hM : F.depth ≤ M) (hq : QuadrantEach size k F) (lap : Lapack K) (ps : PatchSolver K)
    (opt : HPSOptions) {t : Tree (Patch K)} {A A' : Nat → HPSRank K} (hn : ∀ r, (A r).cache = none)
    (hA : HoldsOn size F t (fun r => (A r).mesh.quadtree))
    (h : Runs (fun r => r < size) (fun r => (A r).buildStage ⟨M, size, r, F⟩ lap ps opt) A') :
    Runs (fun r => r < size) (fun r => (A r).buildStageWorld N ⟨M, size, r, F⟩ lap ps opt) A' := by
  let cost : Nat → Nat := fun n => if opt.cacheOperators then 2 * (4 * N) else 2 * (4 * N) * n
  refine (Runs.afterBarrier hpos (cost k) h).congr (fun r hr => ?_) (fun r _ => rfl)
  obtain ⟨b, G, b1, b2, b3, b4⟩ := hq r hr
  rcases searchPost_whole (size := size) (M := M) (r := r) (calls := buildCalls N opt) (pol := .broadcast) (lf := HPS.buildLeaf ps opt)
      (ff := HPS.merge4to1 lap) (m := (A r).mesh.quadtree.map) (s := (A r).cache) cost (by
    intro G hG a ha hl t hR x hx
    by_cases ho : opt.cacheOperators = true
    · have := (searchPost_once (size := size) (calls := buildCalls N opt) (by
        intro d s y hy
        unfold HPS.buildLeaf at hy
        rw [if_pos ho] at hy
        have : y.2.isSome = true := by
          cases s with
          | some T => cases hy; rfl
          | none =>
            simp only [Res.bind_eq_ok, Res.pure_def, Res.ok_inj] at hy
            obtain ⟨T, -, rfl⟩ := hy
            rfl
        unfold buildCalls
        rw [if_pos ⟨ho, this⟩]) G hG ha hl hR hx).1
      rw [this, show cost (G.ranks.count r) = 2 * (4 * N) from if_pos ho]
      unfold buildCalls
      rw [hn r, if_neg (by simp)]
    · rw [show cost (G.ranks.count r) = 2 * (4 * N) * G.ranks.count r from if_neg ho]
      refine searchPost_ok (fun x => ?_) G _ hx
      unfold buildCalls
      rw [if_neg (by simp [ho])]) F b1 b2 (b3.trans b4.symm) Addr.Valid.nil (by simpa using hM) (hA r hr).1 with ⟨x, e1, e2⟩ | e1
  · exfalso
    obtain ⟨y, hy⟩ := Runs.notFails hpos h hr (x := x.bind fun s => .ok { (A r).withTree ⟨s.1, .this⟩ with cache := s.2 }) (by
      dsimp only
      unfold Quadtree.merge
      rw [(hA r hr).2]
      rw [show Quadrant.root = Addr.quad M [] from rfl, e1]
      cases x <;> rfl)
    cases x with
    | ok y => exact e2 y rfl
    | throw e => cases hy
    | ub => cases hy
  · unfold buildStageWorld Quadtree.mergeWorld
    dsimp only
    rw [(hA r hr).2]
    rw [show Quadrant.root = Addr.quad M [] from rfl, e1, b4]
    simp only [Quadtree.merge, bind_assoc, pure_bind, (hA r hr).2]
    rfl

theorem upwards_whole (hpos : 0 < size) (hM : F.depth ≤ M) (hq : QuadrantEach size k F) (lap : Lapack K) (ps : PatchSolver K)
    (opt : HPSOptions) (f : K → K → K) {t : Tree (Patch K)} {A A' : Nat → HPSRank K}
    (hA : HoldsOn size F t (fun r => (A r).mesh.quadtree))
    (h : Runs (fun r => r < size) (fun r => (A r).upwardsStageAnalytic ⟨M, size, r, F⟩ lap ps opt f) A') :
    Runs (fun r => r < size) (fun r => (A r).upwardsStageWorld ⟨M, size, r, F⟩ lap ps opt f) A' := by
  refine (Runs.afterBarrier hpos (2 * k) h).congr (fun r hr => ?_) (fun r _ => rfl)
  obtain ⟨b, G, b1, b2, b3, b4⟩ := hq r hr
  rcases searchPost_whole (size := size) (M := M) (pol := .broadcast) (lf := stateless (HPS.upwardsLeafAnalytic ps f))
      (ff := HPS.upwards4to1 lap opt) (s := ()) (calls := fun _ => 2) (fun n => 2 * n)
      (fun G _ _ _ _ _ _ _ hx => searchPost_ok (fun _ => rfl) G _ hx) F b1 b2 (b3.trans b4.symm) Addr.Valid.nil
      (by simpa using hM) (hA r hr).1 with ⟨x, e1, e2⟩ | e1
  · exfalso
    obtain ⟨y, hy⟩ := Runs.notFails hpos h hr (x := x.bind fun s => .ok ((A r).withTree ⟨s.1, .this⟩)) (by
      dsimp only
      unfold Quadtree.merge
      rw [(hA r hr).2]
      rw [show Quadrant.root = Addr.quad M [] from rfl, e1]
      cases x <;> rfl)
    cases x with
    | ok y => exact e2 y rfl
    | throw e => cases hy
    | ub => cases hy
  · unfold upwardsStageWorld Quadtree.mergeWorld
    dsimp only
    rw [(hA r hr).2]
    rw [show Quadrant.root = Addr.quad M [] from rfl, e1, b4]
    simp only [Quadtree.merge, bind_assoc, pure_bind, (hA r hr).2]
    rfl

end HPSRank

end EF
