import Verif.Proofs.WorldCalls
import Verif.Proofs.ParallelRun

/-!
# One leaf on every rank

If every rank has one leaf, the collective calls of the leaf solver come first in a merge and last in a split, on all ranks, and the programs
end as they do without the calls.
-/

namespace EF

open HPS

variable {K T τ α β : Type}

/-! ## Calls in front and at the end -/

theorem indexSets_runs {size : Nat} (h : 0 < size) (n : Nat) :
    Runs (T := T) (fun r => r < size) (fun _ => indexSets size n) (fun _ => ()) := by
  induction n with
  | zero => exact Runs.pure fun r _ => rfl
  | succ n ih =>
    have e : (fun r => r < size) = fun r => 0 ≤ r ∧ r ≤ size - 1 := by funext r; simp; omega
    have h1 := Runs.allMax (T := T) (Nat.zero_le (size - 1)) indexSetName (fun _ => 0)
    rw [← e] at h1
    exact (Runs.bind h1 (q := fun _ _ => (indexSets size n : Prog T Unit)) (w := fun _ => ()) ih).congr (fun _ _ => rfl) (fun _ _ => rfl)

/-- The first program is the second with `n` calls at its end. -/
inductive Prog.Late (size n : Nat) : Prog T α → Prog T α → Prop
  | ends (x : Res α) : Late size n (indexSets size n >>= fun _ => .fin x) (.fin x)
  | fails {x : Res α} (h : ∀ a, x ≠ .ok a) : Late size n (.fin x) (.fin x)
  | allMax {lo hi v : Nat} {name : Text} {k k' : Nat → Prog T α} (h : ∀ m, Late size n (k m) (k' m)) :
      Late size n (.allMax lo hi name v k) (.allMax lo hi name v k')
  | bcast {lo hi root : Nat} {name : Text} {v : Node T} {k k' : Node T → Prog T α} (h : ∀ x, Late size n (k x) (k' x)) :
      Late size n (.bcast lo hi name root v k) (.bcast lo hi name root v k')

/-- What the program returns, if it does, has the property. -/
def Prog.Gives (Q : α → Prop) : Prog T α → Prop
  | .fin (.ok a) => Q a
  | .fin _ => True
  | .allMax _ _ _ _ k => ∀ m, Gives Q (k m)
  | .bcast _ _ _ _ _ k => ∀ x, Gives Q (k x)

namespace Prog.Gives

theorem bind {Q : α → Prop} {R : β → Prop} {p : Prog T α} {f : α → Prog T β} (h : Gives Q p) (hf : ∀ a, Q a → Gives R (f a)) :
    Gives R (p >>= f) := by
  change Gives R (p.bind f)
  induction p with
  | fin x =>
    cases x with
    | ok a => exact hf a h
    | throw e => trivial
    | ub => trivial
  | allMax lo hi name v k ih => exact fun m => ih m (h m)
  | bcast lo hi name root v k ih => exact fun m => ih m (h m)

theorem any (p : Prog T α) : Gives (fun _ => True) p := by
  induction p with
  | fin x => cases x <;> trivial
  | allMax lo hi name v k ih => exact ih
  | bcast lo hi name root v k ih => exact ih

theorem res {Q : α → Prop} {x : Res α} (h : ∀ a, x = .ok a → Q a) : Gives Q (.fin x : Prog T α) := by
  cases x with
  | ok a => exact h a rfl
  | throw e => trivial
  | ub => trivial

end Prog.Gives

namespace Prog.Late

variable {size n : Nat}

theorem bind {Q : α → Prop} {p : Prog T α} {f f' : α → Prog T β} (h : Gives Q p) (hf : ∀ a, Q a → Late size n (f a) (f' a)) :
    Late size n (p >>= f) (p >>= f') := by
  change Late size n (p.bind f) (p.bind f')
  induction p with
  | fin x =>
    cases x with
    | ok a => exact hf a h
    | throw e => exact .fails (by intro a h; cases h)
    | ub => exact .fails (by intro a h; cases h)
  | allMax lo hi name v k ih => exact .allMax fun m => ih m (h m)
  | bcast lo hi name root v k ih => exact .bcast fun m => ih m (h m)

theorem map {p p' : Prog T α} (h : Late size n p p') (g : α → β) :
    Late size n (p >>= fun a => Pure.pure (g a)) (p' >>= fun a => Pure.pure (g a)) := by
  induction h with
  | ends x =>
    rw [bind_assoc]
    cases x with
    | ok a => exact .ends (.ok (g a))
    | throw e => exact .ends (.throw e)
    | ub => exact .ends .ub
  | @fails x h =>
    cases x with
    | ok a => exact absurd rfl (h a)
    | throw e => exact .fails (by intro a h; cases h)
    | ub => exact .fails (by intro a h; cases h)
  | allMax _ ih => exact .allMax ih
  | bcast _ ih => exact .bcast ih

theorem refl (p : Prog T α) : Late size 0 p p := by
  induction p with
  | fin x => exact .ends x
  | allMax lo hi name v k ih => exact .allMax ih
  | bcast lo hi name root v k ih => exact .bcast ih

theorem sim (hpos : 0 < size) {v : Nat → β} {κ : Nat → β → Prog T α} {j : Nat} {c z : Config T β} (hr : Run j c z)
    (hz : ∀ r, r < size → z r = .fin (.ok (v r))) (hc : ∀ r, ¬ r < size → ∃ x, c r = .fin x) {d : Config T α}
    (hd : ∀ r, r < size → ∃ q, Late size n q (c r) ∧ d r = q >>= κ r) :
    ∃ i d', Run i d d' ∧ (∀ r, r < size → d' r = κ r (v r)) ∧ ∀ r, ¬ r < size → d' r = d r := by
  induction hr generalizing d with
  | refl c =>
    refine indexSets_runs (T := T) hpos n α (fun r _ => κ r (v r)) d fun r h => ?_
    obtain ⟨q, h1, h2⟩ := hd r h
    rw [hz r h] at h1
    rw [h2]
    cases h1 with
    | ends => rw [bind_assoc]; rfl
    | fails h => exact absurd rfl (h _)
  | @step n' c c1 c2 hs rest ih =>
    cases hs with
    | allMax lo hi name w k hle arr lv oth =>
      have hhi : hi < size := by
        by_contra h
        obtain ⟨x, hx⟩ := hc hi h
        rw [arr hi hle le_rfl] at hx
        cases hx
      have key : ∀ r, ∃ k1 : Nat → Prog T β, lo ≤ r → r ≤ hi →
          d r = .allMax lo hi name (w r) (fun m => k1 m >>= κ r) ∧ ∀ m, Late size n (k1 m) (k r m) := by
        intro r
        by_cases h : lo ≤ r ∧ r ≤ hi
        · obtain ⟨q, h1, h2⟩ := hd r (by omega)
          rw [arr r h.1 h.2] at h1
          cases h1 with
          | @allMax _ _ _ _ k1 _ h3 => exact ⟨k1, fun _ _ => ⟨h2, h3⟩⟩
        · exact ⟨fun _ => .fin .ub, fun a b => absurd ⟨a, b⟩ h⟩
      choose k1 hk using key
      obtain ⟨i, d', e1, e2, e3⟩ := ih hz (fun r h => by rw [oth r (by omega)]; exact hc r h)
        (d := fun r => if lo ≤ r ∧ r ≤ hi then k1 r ((Finset.Icc lo hi).sup w) >>= κ r else d r) (fun r h => by
          by_cases h' : lo ≤ r ∧ r ≤ hi
          · refine ⟨_, ?_, if_pos h'⟩
            rw [lv r h'.1 h'.2]
            exact (hk r h'.1 h'.2).2 _
          · obtain ⟨q, h1, h2⟩ := hd r h
            exact ⟨q, by rw [oth r h']; exact h1, (if_neg h').trans h2⟩)
      refine ⟨i + 1, d', .step (.allMax lo hi name w (fun r m => k1 r m >>= κ r) hle (fun r a b => (hk r a b).1)
        (fun r a b => if_pos ⟨a, b⟩) (fun r h => if_neg h)) e1, e2, fun r h => ?_⟩
      exact (e3 r h).trans (if_neg (by omega))
    | bcast lo hi name root w k hle arr lv oth =>
      have hhi : hi < size := by
        by_contra h
        obtain ⟨x, hx⟩ := hc hi h
        rw [arr hi (by omega) le_rfl] at hx
        cases hx
      have key : ∀ r, ∃ k1 : Node T → Prog T β, lo ≤ r → r ≤ hi →
          d r = .bcast lo hi name root (w r) (fun m => k1 m >>= κ r) ∧ ∀ m, Late size n (k1 m) (k r m) := by
        intro r
        by_cases h : lo ≤ r ∧ r ≤ hi
        · obtain ⟨q, h1, h2⟩ := hd r (by omega)
          rw [arr r h.1 h.2] at h1
          cases h1 with
          | @bcast _ _ _ _ _ k1 _ h3 => exact ⟨k1, fun _ _ => ⟨h2, h3⟩⟩
        · exact ⟨fun _ => .fin .ub, fun a b => absurd ⟨a, b⟩ h⟩
      choose k1 hk using key
      obtain ⟨i, d', e1, e2, e3⟩ := ih hz (fun r h => by rw [oth r (by omega)]; exact hc r h)
        (d := fun r => if lo ≤ r ∧ r ≤ hi then k1 r { w (lo + root) with comm := (w r).comm } >>= κ r else d r) (fun r h => by
          by_cases h' : lo ≤ r ∧ r ≤ hi
          · refine ⟨_, ?_, if_pos h'⟩
            rw [lv r h'.1 h'.2]
            exact (hk r h'.1 h'.2).2 _
          · obtain ⟨q, h1, h2⟩ := hd r h
            exact ⟨q, by rw [oth r h']; exact h1, (if_neg h').trans h2⟩)
      refine ⟨i + 1, d', .step (.bcast lo hi name root w (fun r m => k1 r m >>= κ r) hle (fun r a b => (hk r a b).1)
        (fun r a b => if_pos ⟨a, b⟩) (fun r h => if_neg h)) e1, e2, fun r h => ?_⟩
      exact (e3 r h).trans (if_neg (by omega))

theorem runs (hpos : 0 < size) {p p' : Nat → Prog T β} {v : Nat → β} (h : ∀ r, r < size → Late size n (p r) (p' r))
    (hr : Runs (fun r => r < size) p' v) : Runs (fun r => r < size) p v := by
  intro α κ d hd
  obtain ⟨j, z, r1, r2, r3⟩ := hr β (fun _ b => Pure.pure b) (fun r => if r < size then p' r else .fin (.ok (v r)))
    (fun r h => by beta_reduce; rw [if_pos h, bind_pure])
  refine sim (n := n) hpos r1 r2 (fun r h => ⟨_, if_neg h⟩) fun r hr => ⟨p r, ?_, hd r hr⟩
  beta_reduce
  rw [if_pos hr]
  exact h r hr

end Prog.Late

/-- A stage begins with a barrier; calls may come after it. -/
theorem Runs.afterBarrier {size : Nat} (hpos : 0 < size) (n : Nat) {p : Nat → Prog T β} {v : Nat → β}
    (hr : Runs (fun r => r < size) (fun r => barrier size >>= fun _ => p r) v) :
    Runs (fun r => r < size) (fun r => barrier size >>= fun _ => indexSets size n >>= fun _ => p r) v := by
  obtain ⟨j, z, r1, r2, r3⟩ := hr β (fun _ b => Pure.pure b)
    (fun r => if r < size then barrier size >>= fun _ => p r else .fin (.ok (v r))) (fun r h => by beta_reduce; rw [if_pos h, bind_pure])
  have hz : z = fun r => .fin (.ok (v r)) := by
    funext r
    by_cases h : r < size
    · exact r2 r h
    · rw [r3 r h, if_neg h]
  subst hz
  obtain ⟨i, c, s1, s2, s3⟩ := barrier_runs (T := T) hpos β (fun r _ => p r)
    (fun r => if r < size then barrier size >>= fun _ => p r else .fin (.ok (v r))) (fun r h => if_pos h)
  have hc : Run (j - i) c (fun r => .fin (.ok (v r))) := (r1.all (fun r => ⟨_, rfl⟩) s1).2
  have hp : Runs (fun r => r < size) p v := by
    intro α κ d hd
    refine Prog.Late.sim (n := 0) hpos hc (fun r _ => rfl) (fun r h => ⟨.ok (v r), by rw [s3 r h, if_neg h]⟩) fun r h => ⟨p r, ?_, hd r h⟩
    rw [s2 r h]
    exact .refl _
  exact Runs.bind (barrier_runs hpos) (Runs.bind (indexSets_runs hpos n) hp)

/-! ## Traversals of a rank with one leaf -/

section search
variable {σ : Type} {size M r n : Nat}

theorem searchPost_zero (cb : Quadrant → Bool → σ → Prog T (σ × Bool)) {F : Forest} (h : F.ranks.count r = 0) (q : Quadrant) (s : σ) :
    searchPost M r cb F q s = pure s := by
  have h' := List.count_eq_zero.1 h
  cases F with
  | leaf k =>
    unfold searchPost
    exact if_neg (by simpa [Forest.ranks, eq_comm] using h')
  | node => unfold searchPost; exact if_neg h'

theorem searchPre_zero (cb : Quadrant → Bool → σ → Prog T (σ × Bool)) {F : Forest} (h : F.ranks.count r = 0) (q : Quadrant) (s : σ) :
    searchPre M r cb F q s = pure s := by
  have h' := List.count_eq_zero.1 h
  cases F with
  | leaf k =>
    unfold searchPre
    exact if_neg (by simpa [Forest.ranks, eq_comm] using h')
  | node => unfold searchPre; exact if_neg h'

theorem withIndexSets_family (calls : τ → Nat) (cb : Quadrant → Bool → NodeMap T × τ → Prog T ((NodeMap T × τ) × Bool)) (q : Quadrant)
    (s : NodeMap T × τ) : withIndexSets size calls cb q false s = cb q false s := by
  unfold withIndexSets
  exact pure_bind _ _

theorem one_child {a b c d : Nat} (h : a + b + c + d = 1) : (a = 1 ∧ b = 0 ∧ c = 0 ∧ d = 0) ∨ (a = 0 ∧ b = 1 ∧ c = 0 ∧ d = 0) ∨
    (a = 0 ∧ b = 0 ∧ c = 1 ∧ d = 0) ∨ (a = 0 ∧ b = 0 ∧ c = 0 ∧ d = 1) := by omega

theorem searchPost_first (calls : τ → Nat) (cb : Quadrant → Bool → NodeMap T × τ → Prog T ((NodeMap T × τ) × Bool)) {F : Forest}
    (h : F.ranks.count r = 1) (q : Quadrant) (s : NodeMap T × τ) :
    searchPost M r (withIndexSets size calls cb) F q s = indexSets size (calls s.2) >>= fun _ => searchPost M r cb F q s := by
  induction F generalizing q with
  | leaf k =>
    have hk : k = r := by
      by_contra hne
      simp [Forest.ranks, hne] at h
    unfold searchPost
    rw [if_pos hk, if_pos hk]
    unfold withIndexSets
    rw [bind_assoc]
    rfl
  | node c0 c1 c2 c3 ih0 ih1 ih2 ih3 =>
    have hm : r ∈ (Forest.node c0 c1 c2 c3).ranks := List.count_pos_iff.1 (by omega)
    have hs : c0.ranks.count r + c1.ranks.count r + c2.ranks.count r + c3.ranks.count r = 1 := by
      simpa [Forest.ranks, List.count_append, Nat.add_assoc] using h
    conv_lhs => unfold searchPost
    conv_rhs => unfold searchPost
    rw [if_pos hm]
    simp only [if_pos hm, withIndexSets_family]
    rcases one_child hs with ⟨a, b, c, d⟩ | ⟨a, b, c, d⟩ | ⟨a, b, c, d⟩ | ⟨a, b, c, d⟩
    · simp only [ih0 a, searchPost_zero _ b, searchPost_zero _ c, searchPost_zero _ d, pure_bind, bind_assoc]
    · simp only [searchPost_zero _ a, ih1 b, searchPost_zero _ c, searchPost_zero _ d, pure_bind, bind_assoc]
    · simp only [searchPost_zero _ a, searchPost_zero _ b, ih2 c, searchPost_zero _ d, pure_bind, bind_assoc]
    · simp only [searchPost_zero _ a, searchPost_zero _ b, searchPost_zero _ c, ih3 d, pure_bind, bind_assoc]

theorem searchPre_last {calls : τ → Nat} (hn : ∀ t, calls t = n) {cb : Quadrant → Bool → NodeMap T × τ → Prog T ((NodeMap T × τ) × Bool)}
    (hl : ∀ q s, ∃ x, cb q true s = .fin x) (hf : ∀ q s, (cb q false s).Gives fun x => x.2 = true) {F : Forest}
    (h : F.ranks.count r = 1) (q : Quadrant) (s : NodeMap T × τ) :
    Prog.Late size n (searchPre M r (withIndexSets size calls cb) F q s) (searchPre M r cb F q s) := by
  induction F generalizing q s with
  | leaf k =>
    have hk : k = r := by
      by_contra hne
      simp [Forest.ranks, hne] at h
    unfold searchPre
    rw [if_pos hk, if_pos hk]
    unfold withIndexSets
    rw [if_pos rfl, hn]
    obtain ⟨x, hx⟩ := hl q s
    rw [hx]
    exact (Prog.Late.ends x).map _
  | node c0 c1 c2 c3 ih0 ih1 ih2 ih3 =>
    have hm : r ∈ (Forest.node c0 c1 c2 c3).ranks := List.count_pos_iff.1 (by omega)
    have hs : c0.ranks.count r + c1.ranks.count r + c2.ranks.count r + c3.ranks.count r = 1 := by
      simpa [Forest.ranks, List.count_append, Nat.add_assoc] using h
    conv in (searchPre _ _ (withIndexSets _ _ _) _ _ _) => unfold searchPre
    conv in (searchPre _ _ cb _ _ _) => unfold searchPre
    rw [if_pos hm, if_pos hm, withIndexSets_family]
    refine .bind (hf q s) fun x hx => ?_
    rw [if_pos hx, if_pos hx]
    rcases one_child hs with ⟨a, b, c, d⟩ | ⟨a, b, c, d⟩ | ⟨a, b, c, d⟩ | ⟨a, b, c, d⟩
    · simp only [searchPre_zero _ b, searchPre_zero _ c, searchPre_zero _ d, pure_bind, bind_pure]
      exact ih0 a _ _
    · simp only [searchPre_zero _ a, searchPre_zero _ c, searchPre_zero _ d, pure_bind, bind_pure]
      exact ih1 b _ _
    · simp only [searchPre_zero _ a, searchPre_zero _ b, searchPre_zero _ d, pure_bind, bind_pure]
      exact ih2 c _ _
    · simp only [searchPre_zero _ a, searchPre_zero _ b, searchPre_zero _ c, pure_bind]
      exact ih3 d _ _

theorem mergeSplit_local [Inhabited T] (ptr : UserPointer) (pol : Policy) (lf : T → τ → Res (T × τ)) (ff : Fam T → Res (Fam T))
    (q : Quadrant) (s : NodeMap T × τ) : ∃ x, mergeSplit M r ptr pol (onData lf) (onFamily ff) q true s = .fin x := by
  unfold mergeSplit
  split
  · exact ⟨_, rfl⟩
  dsimp only
  split
  · exact ⟨_, rfl⟩
  · split
    · exact ⟨_, rfl⟩
    · rw [if_pos rfl]
      split
      · rename_i node _ _ _ _ _ _
        cases onData lf node s.2 <;> exact ⟨_, rfl⟩
      · exact ⟨_, rfl⟩

theorem mergeSplit_goesOn [Inhabited T] (ptr : UserPointer) (pol : Policy) (lf : T → τ → Res (T × τ)) (ff : Fam T → Res (Fam T))
    (q : Quadrant) (s : NodeMap T × τ) :
    (mergeSplit M r ptr pol (onData lf) (onFamily ff) q false s).Gives fun x => x.2 = true := by
  have fam : ∀ (F : Fam (Node T)) (g : Fam (Node T) × τ → NodeMap T × τ),
      (do
        let res ← Prog.fin (onFamily ff F s.2)
        pure (g res.1, res.2) : Prog T ((NodeMap T × τ) × Bool)).Gives (fun x => x.2 = true) := by
    intro F g
    refine .bind (Q := fun x => x.2 = true) (.res fun x hx => ?_) fun x (hx : x.2 = true) => show x.2 = true from hx
    unfold onFamily at hx
    simp only [Res.bind_eq_ok, Res.pure_def, Res.ok_inj] at hx
    obtain ⟨y, -, rfl⟩ := hx
    rfl
  unfold mergeSplit
  split
  · trivial
  dsimp only
  split
  · trivial
  · rename_i node hn
    split
    · trivial
    · rw [if_neg (by simp)]
      split
      · split
        · refine .bind (.any _) fun a _ => .bind (.any _) fun b _ => .bind (.any _) fun c _ => .bind (.any _) fun d _ => ?_
          exact fam ⟨node, a, b, c, d⟩ (fun y => (((((s.1.set (q.path M) (some y.1.tau)).store (node.path ++ natText 0) y.1.a).store
            (node.path ++ natText 1) y.1.b).store (node.path ++ natText 2) y.1.c).store (node.path ++ natText 3) y.1.d, y.2))
        · rfl
      · split
        · split
          · trivial
          · refine .bind (.any _) fun a _ => .bind (.any _) fun b _ => .bind (.any _) fun c _ => .bind (.any _) fun d _ => ?_
            exact fam ⟨node, a.1, b.1, c.1, d.1⟩ (fun y => (((((d.2.set (q.path M) (some y.1.tau)).store (node.path ++ natText 0) y.1.a).store
              (node.path ++ natText 1) y.1.b).store (node.path ++ natText 2) y.1.c).store (node.path ++ natText 3) y.1.d, y.2))
        · rfl

end search

/-! ## The stages -/

namespace HPSRank

variable [Field K] {N M size : Nat} {F : Forest}

theorem build_world (hpos : 0 < size) (h1 : ∀ r, r < size → F.ranks.count r = 1) (lap : Lapack K) (ps : PatchSolver K) (opt : HPSOptions)
    {A A' : Nat → HPSRank K} (hc : ∀ r, (A r).cache = none)
    (h : Runs (fun r => r < size) (fun r => (A r).buildStage ⟨M, size, r, F⟩ lap ps opt) A') :
    Runs (fun r => r < size) (fun r => (A r).buildStageWorld N ⟨M, size, r, F⟩ lap ps opt) A' := by
  refine (Runs.afterBarrier hpos (2 * (4 * N)) h).congr (fun r hr => ?_) (fun r _ => rfl)
  have e : buildCalls N opt (A r).cache = 2 * (4 * N) := by
    unfold buildCalls
    rw [hc r, if_neg (by simp)]
  unfold buildStageWorld Quadtree.mergeWorld
  dsimp only
  rw [searchPost_first _ _ (h1 r hr), e]
  simp only [Quadtree.merge, bind_assoc, pure_bind]

theorem upwards_world (hpos : 0 < size) (h1 : ∀ r, r < size → F.ranks.count r = 1) (lap : Lapack K) (ps : PatchSolver K) (opt : HPSOptions)
    (f : K → K → K) {A A' : Nat → HPSRank K}
    (h : Runs (fun r => r < size) (fun r => (A r).upwardsStageAnalytic ⟨M, size, r, F⟩ lap ps opt f) A') :
    Runs (fun r => r < size) (fun r => (A r).upwardsStageWorld ⟨M, size, r, F⟩ lap ps opt f) A' := by
  refine (Runs.afterBarrier hpos 2 h).congr (fun r hr => ?_) (fun r _ => rfl)
  unfold upwardsStageWorld Quadtree.mergeWorld
  dsimp only
  rw [searchPost_first _ _ (h1 r hr)]
  simp only [Quadtree.merge, bind_assoc, pure_bind]

theorem solve_world (hpos : 0 < size) (h1 : ∀ r, r < size → F.ranks.count r = 1) (lap : Lapack K) (ps : PatchSolver K) (opt : HPSOptions)
    (bc : BoundaryFn K) {A A' : Nat → HPSRank K}
    (h : Runs (fun r => r < size) (fun r => (A r).solveStageAnalytic ⟨M, size, r, F⟩ lap ps opt bc) A') :
    Runs (fun r => r < size) (fun r => (A r).solveStageWorld ⟨M, size, r, F⟩ lap ps opt bc) A' := by
  refine Prog.Late.runs (n := 2) hpos (fun r hr => ?_) h
  refine .bind (.any _) fun _ _ => .bind (.any _) fun q _ => ?_
  exact ((searchPre_last (fun _ => rfl) (mergeSplit_local _ _ _ _) (mergeSplit_goesOn _ _ _ _) (h1 r hr) _ _).map _).map _

end HPSRank

end EF
