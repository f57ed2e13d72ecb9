import Verif.Model.WorldCalls
import Verif.Proofs.Alone
import Verif.Proofs.Parallel
import Verif.Proofs.Number

/-!
# Counting the collective calls of the leaf solver
-/

namespace EF

variable {K T τ α β : Type}

/-- The path of the node is not taken for the name of the calls. -/
def Node.Clean (n : Node T) : Prop := 'I' ∉ n.path

/-- A program that makes exactly `n` of the calls unless it fails, whatever it is handed, and a fact about its result. -/
inductive Prog.Makes (size : Nat) (Q : α → Prop) : Nat → Prog T α → Prop
  | ok {a : α} (h : Q a) : Makes size Q 0 (.fin (.ok a))
  | throw (n : Nat) (e : Exn) : Makes size Q n (.fin (.throw e))
  | ub (n : Nat) : Makes size Q n (.fin .ub)
  | world {n v : Nat} {k : Nat → Prog T α} (h : ∀ m, Makes size Q n (k m)) : Makes size Q (n + 1) (.allMax 0 (size - 1) indexSetName v k)
  | allMax {n lo hi v : Nat} {name : Text} {k : Nat → Prog T α} (hn : name ≠ indexSetName) (h : ∀ m, Makes size Q n (k m)) :
      Makes size Q n (.allMax lo hi name v k)
  | bcast {n lo hi root : Nat} {name : Text} {v : Node T} {k : Node T → Prog T α} (hv : v.Clean)
      (h : ∀ x : Node T, x.Clean → Makes size Q n (k x)) : Makes size Q n (.bcast lo hi name root v k)

namespace Prog.Makes

variable {Q : α → Prop} {R : β → Prop} {size n m : Nat}

theorem bind {p : Prog T α} {f : α → Prog T β} (h : Makes size Q n p) (hf : ∀ a, Q a → Makes size R m (f a)) :
    Makes size R (n + m) (p >>= f) := by
  change Makes size R (n + m) (p.bind f)
  induction h with
  | ok h => rw [Nat.zero_add]; exact hf _ h
  | throw n e => exact .throw _ e
  | ub n => exact .ub _
  | world _ ih => rw [Nat.add_right_comm]; exact .world ih
  | allMax hn _ ih => exact .allMax hn ih
  | bcast hv _ ih => exact .bcast hv ih

theorem bind0 {p : Prog T α} {f : α → Prog T β} (h : Makes size Q 0 p) (hf : ∀ a, Q a → Makes size R m (f a)) :
    Makes size R m (p >>= f) := by
  have := h.bind hf
  rwa [Nat.zero_add] at this

theorem res {x : Res α} (h : ∀ a, x = .ok a → Q a) : Makes size Q 0 (Prog.fin x : Prog T α) := by
  cases x with
  | ok a => exact .ok (h a rfl)
  | throw e => exact .throw _ e
  | ub => exact .ub _

theorem mono {Q' : α → Prop} {p : Prog T α} (h : Makes size Q n p) (hQ : ∀ a, Q a → Q' a) : Makes size Q' n p := by
  induction h with
  | ok h => exact .ok (hQ _ h)
  | throw n e => exact .throw _ e
  | ub n => exact .ub _
  | world _ ih => exact .world ih
  | allMax hn _ ih => exact .allMax hn ih
  | bcast hv _ ih => exact .bcast hv ih

/-- One collective: the count stays on all ranks, or goes down by one on all ranks of the communicator. -/
theorem step {c c' : Config T α} (hs : Step c c') {n : Nat → Nat} (h : ∀ r, Makes size Q (n r) (c r)) :
    (∀ r, Makes size Q (n r) (c' r)) ∨
      ∃ n' : Nat → Nat, (∀ r, Makes size Q (n' r) (c' r)) ∧ ∀ r, r ≤ size - 1 → n r = n' r + 1 := by
  cases hs with
  | allMax lo hi name v k hle arr lv oth =>
    by_cases hn : name = indexSetName
    · right
      have key : ∀ r, lo ≤ r → r ≤ hi → lo = 0 ∧ hi = size - 1 ∧ ∃ n', n r = n' + 1 ∧ ∀ x, Makes size Q n' (k r x) := by
        intro r h1 h2
        have := h r
        rw [arr r h1 h2] at this
        generalize n r = m at this
        cases this with
        | world h => exact ⟨rfl, rfl, _, rfl, h⟩
        | allMax hn' h => exact absurd hn hn'
      obtain ⟨rfl, rfl, -⟩ := key lo le_rfl hle
      refine ⟨fun r => if r ≤ size - 1 then n r - 1 else n r, fun r => ?_, fun r hr => ?_⟩ <;> beta_reduce
      · by_cases hr : r ≤ size - 1
        · obtain ⟨-, -, n', e, hk⟩ := key r (Nat.zero_le r) hr
          rw [lv r (Nat.zero_le r) hr, if_pos hr, e]
          exact hk _
        · rw [oth r (fun hh => hr hh.2), if_neg hr]
          exact h r
      · obtain ⟨-, -, n', e, -⟩ := key r (Nat.zero_le r) hr
        rw [if_pos hr]
        omega
    · left
      intro r
      by_cases hh : lo ≤ r ∧ r ≤ hi
      · have := h r
        rw [arr r hh.1 hh.2] at this
        generalize n r = m at this ⊢
        cases this with
        | world h => exact absurd rfl hn
        | allMax hn' h => rw [lv r hh.1 hh.2]; exact h _
      · rw [oth r hh]; exact h r
  | bcast lo hi name root v k hle arr lv oth =>
    left
    intro r
    have hclean : (v (lo + root)).Clean := by
      have := h (lo + root)
      rw [arr _ (by omega) hle] at this
      generalize n (lo + root) = m at this
      cases this with
      | bcast hv h => exact hv
    by_cases hh : lo ≤ r ∧ r ≤ hi
    · have := h r
      rw [arr r hh.1 hh.2] at this
      generalize n r = m at this ⊢
      cases this with
      | bcast hv h => rw [lv r hh.1 hh.2]; exact h _ hclean
    · rw [oth r hh]; exact h r

theorem run {j : Nat} {c c' : Config T α} (hr : Run j c c') {n : Nat → Nat} (h : ∀ r, Makes size Q (n r) (c r)) :
    ∃ (i : Nat) (n' : Nat → Nat), (∀ r, Makes size Q (n' r) (c' r)) ∧ ∀ r, r ≤ size - 1 → n r = n' r + i := by
  induction hr generalizing n with
  | refl => exact ⟨0, n, h, fun _ _ => rfl⟩
  | step hs _ ih =>
    rcases step hs h with h' | ⟨n1, h', e⟩
    · exact ih h'
    · obtain ⟨i, n2, h2, e2⟩ := ih h'
      exact ⟨i + 1, n2, h2, fun r hr => by rw [e r hr, e2 r hr]; omega⟩

/-- If two ranks make different numbers of the calls, they do not both come to an end. -/
theorem never {j : Nat} {c c' : Config T α} (hr : Run j c c') {n : Nat → Nat} (h : ∀ r, Makes size Q (n r) (c r)) {p q : Nat}
    (hp : p < size) (hq : q < size) (hne : n p ≠ n q) : ¬ ((∃ x, c' p = .fin (.ok x)) ∧ ∃ x, c' q = .fin (.ok x)) := by
  rintro ⟨⟨x, hx⟩, y, hy⟩
  obtain ⟨i, n', h', e⟩ := run hr h
  have h1 := h' p
  have h2 := h' q
  rw [hx] at h1
  rw [hy] at h2
  have e1 : n' p = 0 := by generalize n' p = m at h1; cases h1; rfl
  have e2 : n' q = 0 := by generalize n' q = m at h2; cases h2; rfl
  have := e p (by omega)
  have := e q (by omega)
  omega

end Prog.Makes

open Prog

theorem indexSets_makes (size n : Nat) : (indexSets size n : Prog T Unit).Makes size (fun _ => True) n := by
  induction n with
  | zero => exact .ok trivial
  | succ n ih => exact .world fun _ => ih

theorem clean_name {n : Node T} (h : n.Clean) : n.path ≠ indexSetName := fun e => by
  unfold Node.Clean at h
  rw [e] at h
  exact h (by decide)

theorem blank_clean [Inhabited T] : (Node.blank : Node T).Clean := by
  unfold Node.Clean Node.blank
  simp

theorem shareChild_makes [Inhabited T] {size r lo hi : Nat} {node : Node T} (hn : node.Clean) (i : Nat) {m : NodeMap T}
    (hm : MapNodes Node.Clean m) :
    (shareChild r lo hi node.path i m).Makes size (fun x => x.1.Clean ∧ MapNodes Node.Clean x.2) 0 := by
  unfold shareChild
  dsimp only
  have h1 := hm.getMap (node.path ++ natText i)
  have h2 : (((m.get (node.path ++ natText i)).1).getD Node.blank).Clean := by
    cases e : (m.get (node.path ++ natText i)).1 with
    | none => exact blank_clean
    | some n => exact hm.get e
  refine .bind0 (Q := fun _ => True) (.allMax (clean_name hn) fun _ => .ok trivial) fun p _ => ?_
  refine .bind0 (Q := Node.Clean) (.bcast h2 fun x hx => .ok hx) fun x hx => .ok ⟨hx, ?_⟩
  split
  · exact h1.set hx
  · exact h1

theorem mergeSplit_makes [Inhabited T] {size M r : Nat} {ptr : UserPointer} {pol : Policy} (lf : T → τ → Res (T × τ))
    (ff : Fam T → Res (Fam T)) (q : Quadrant) (b : Bool) {s : NodeMap T × τ} (hs : MapNodes Node.Clean s.1) :
    (mergeSplit M r ptr pol (onData lf) (onFamily ff) q b s).Makes size (fun x => MapNodes Node.Clean x.1.1 ∧ x.2 = true) 0 := by
  unfold mergeSplit
  split
  · exact .ub _
  dsimp only
  split
  · exact .ub _
  · rename_i node hn
    have hnode := hs.get hn
    have fam : ∀ (m : NodeMap T), MapNodes Node.Clean m → ∀ a b c d : Node T, a.Clean → b.Clean → c.Clean → d.Clean →
        (do
          let res ← Prog.fin (onFamily ff ⟨node, a, b, c, d⟩ s.2)
          pure (((((((m.set (q.path M) (some res.1.1.tau)).store (node.path ++ natText 0) res.1.1.a).store
            (node.path ++ natText 1) res.1.1.b).store (node.path ++ natText 2) res.1.1.c).store
            (node.path ++ natText 3) res.1.1.d), res.1.2), res.2) : Prog T ((NodeMap T × τ) × Bool)).Makes size
          (fun x => MapNodes Node.Clean x.1.1 ∧ x.2 = true) 0 := by
      intro m hm a b c d ha hb hc hd
      refine .bind0 (Q := fun x => (x.1.1.tau.Clean ∧ x.1.1.a.Clean ∧ x.1.1.b.Clean ∧ x.1.1.c.Clean ∧ x.1.1.d.Clean) ∧ x.2 = true)
        (.res fun x hx => ?_) fun x hx => .ok ⟨?_, hx.2⟩
      · unfold onFamily at hx
        simp only [Res.bind_eq_ok, Res.pure_def, Res.ok_inj] at hx
        obtain ⟨y, -, rfl⟩ := hx
        exact ⟨⟨hnode, ha, hb, hc, hd⟩, rfl⟩
      · exact ((((hm.set hx.1.1).store hx.1.2.1).store hx.1.2.2.1).store hx.1.2.2.2.1).store hx.1.2.2.2.2
    split
    · exact .ub _
    · split
      · split
        · refine .bind0 (Q := fun x => x.1.1.Clean ∧ x.2 = true) (.res fun x hx => ?_) fun x hx => .ok ⟨hs.set hx.1, hx.2⟩
          unfold onData at hx
          simp only [Res.bind_eq_ok, Res.pure_def, Res.ok_inj] at hx
          obtain ⟨y, -, rfl⟩ := hx
          exact ⟨hnode, rfl⟩
        · exact .ok ⟨hs, rfl⟩
      · split
        · split
          · refine .bind0 (Q := Node.Clean) (.res fun x hx => hs.need hx) fun a ha => ?_
            refine .bind0 (Q := Node.Clean) (.res fun x hx => hs.need hx) fun b hb => ?_
            refine .bind0 (Q := Node.Clean) (.res fun x hx => hs.need hx) fun c hc => ?_
            refine .bind0 (Q := Node.Clean) (.res fun x hx => hs.need hx) fun d hd => ?_
            exact fam _ hs a b c d ha hb hc hd
          · exact .ok ⟨hs, rfl⟩
        · split
          · split
            · exact .throw _ _
            · refine .bind0 (shareChild_makes hnode 0 hs) fun a ha => ?_
              refine .bind0 (shareChild_makes hnode 1 ha.2) fun b hb => ?_
              refine .bind0 (shareChild_makes hnode 2 hb.2) fun c hc => ?_
              refine .bind0 (shareChild_makes hnode 3 hc.2) fun d hd => ?_
              exact fam _ hd.2 a.1 b.1 c.1 d.1 ha.1 hb.1 hc.1 hd.1
          · exact .ok ⟨hs, rfl⟩

theorem withIndexSets_makes [Inhabited T] {size M r c : Nat} {ptr : UserPointer} {pol : Policy} (lf : T → τ → Res (T × τ))
    (ff : Fam T → Res (Fam T)) {calls : τ → Nat} (hc : ∀ t, calls t = c) (q : Quadrant) (b : Bool) {s : NodeMap T × τ}
    (hs : MapNodes Node.Clean s.1) :
    (withIndexSets size calls (mergeSplit M r ptr pol (onData lf) (onFamily ff)) q b s).Makes size
      (fun x => MapNodes Node.Clean x.1.1 ∧ x.2 = true) (if b then c else 0) := by
  unfold withIndexSets
  rw [hc]
  exact (indexSets_makes size _).bind (m := 0) fun _ _ => mergeSplit_makes lf ff q b hs

section search
variable {σ : Type} {Q : σ → Prop} {size M r c : Nat} {cb : Quadrant → Bool → σ → Prog T (σ × Bool)}

theorem searchPost_makes (hc : ∀ q b s, Q s → (cb q b s).Makes size (fun x => Q x.1 ∧ x.2 = true) (if b then c else 0)) (F : Forest)
    (q : Quadrant) {s : σ} (hs : Q s) : (searchPost M r cb F q s).Makes size Q (c * F.ranks.count r) := by
  induction F generalizing q s with
  | leaf k =>
    unfold searchPost
    split
    · rename_i h
      subst h
      have := (hc q true s hs).bind (R := Q) (m := 0) (f := fun s => pure s.1) fun x hx => .ok hx.1
      simpa [Forest.ranks] using this
    · rename_i h
      have e : c * (Forest.leaf k).ranks.count r = 0 := by simp [Forest.ranks, h]
      rw [e]
      exact .ok hs
  | node c0 c1 c2 c3 ih0 ih1 ih2 ih3 =>
    unfold searchPost
    split
    · have key : c * (Forest.node c0 c1 c2 c3).ranks.count r =
          c * c0.ranks.count r + (c * c1.ranks.count r + (c * c2.ranks.count r + (c * c3.ranks.count r + 0))) := by
        simp only [Forest.ranks, List.count_append]
        ring
      rw [key]
      exact .bind (ih0 _ hs) fun _ h => .bind (ih1 _ h) fun _ h => .bind (ih2 _ h) fun _ h => .bind (ih3 _ h) fun _ h =>
        .bind0 (hc _ false _ h) fun x hx => .ok hx.1
    · rename_i h
      rw [List.count_eq_zero_of_not_mem h, Nat.mul_zero]
      exact .ok hs

theorem searchPre_makes (hc : ∀ q b s, Q s → (cb q b s).Makes size (fun x => Q x.1 ∧ x.2 = true) (if b then c else 0)) (F : Forest)
    (q : Quadrant) {s : σ} (hs : Q s) : (searchPre M r cb F q s).Makes size Q (c * F.ranks.count r) := by
  induction F generalizing q s with
  | leaf k =>
    unfold searchPre
    split
    · rename_i h
      subst h
      have := (hc q true s hs).bind (R := Q) (m := 0) (f := fun s => pure s.1) fun x hx => .ok hx.1
      simpa [Forest.ranks] using this
    · rename_i h
      have e : c * (Forest.leaf k).ranks.count r = 0 := by simp [Forest.ranks, h]
      rw [e]
      exact .ok hs
  | node c0 c1 c2 c3 ih0 ih1 ih2 ih3 =>
    unfold searchPre
    split
    · have key : c * (Forest.node c0 c1 c2 c3).ranks.count r =
          c * c0.ranks.count r + (c * c1.ranks.count r + (c * c2.ranks.count r + c * c3.ranks.count r)) := by
        simp only [Forest.ranks, List.count_append]
        ring
      rw [key]
      refine .bind0 (hc _ false _ hs) fun x hx => ?_
      rw [if_pos hx.2]
      exact .bind (ih0 _ hx.1) fun _ h => .bind (ih1 _ h) fun _ h => .bind (ih2 _ h) fun _ h => ih3 _ h
    · rename_i h
      rw [List.count_eq_zero_of_not_mem h, Nat.mul_zero]
      exact .ok hs

end search

section trees
variable [Inhabited T] {size M r c : Nat} {F : Forest} {pol : Policy} {calls : τ → Nat}

theorem mergeWorld_makes (lf : T → τ → Res (T × τ)) (ff : Fam T → Res (Fam T)) (hc : ∀ t, calls t = c) {Q : Quadtree T}
    (hQ : MapNodes Node.Clean Q.map) (t : τ) :
    (Q.mergeWorld size calls M r F pol (onData lf) (onFamily ff) t).Makes size (fun x => MapNodes Node.Clean x.1.map)
      (c * F.ranks.count r) :=
  .bind (m := 0) (searchPost_makes (Q := fun s => MapNodes Node.Clean s.1) (fun q b _ hs => withIndexSets_makes lf ff hc q b hs) F _ hQ)
    fun _ h => .ok h

theorem splitWorld_makes (lf : T → τ → Res (T × τ)) (ff : Fam T → Res (Fam T)) (hc : ∀ t, calls t = c) {Q : Quadtree T}
    (hQ : MapNodes Node.Clean Q.map) (t : τ) :
    (Q.splitWorld size calls M r F pol (onData lf) (onFamily ff) t).Makes size (fun x => MapNodes Node.Clean x.1.map)
      (c * F.ranks.count r) :=
  .bind (m := 0) (searchPre_makes (Q := fun s => MapNodes Node.Clean s.1) (fun q b _ hs => withIndexSets_makes lf ff hc q b hs) F _ hQ)
    fun _ h => .ok h

end trees

/-! ## The stages -/

namespace HPSRank

variable [Field K]

/-- No node of the quadtree has a path that is taken for the name of the calls. -/
def Clean (A : HPSRank K) : Prop := MapNodes Node.Clean A.mesh.quadtree.map

theorem barrier_makes (size n : Nat) : (barrier n : Prog (Patch K) Unit).Makes size (fun _ => True) 0 :=
  .allMax (by decide) fun _ => .ok trivial

theorem build_makes {A : HPSRank K} (h : A.Clean) (N : Nat) (P : Place) (lap : Lapack K) (ps : PatchSolver K) {opt : HPSOptions}
    (ho : opt.cacheOperators = false) :
    (A.buildStageWorld N P lap ps opt).Makes P.size Clean (8 * N * P.forest.ranks.count P.rank) :=
  .bind0 (barrier_makes _ _) fun _ _ => .bind (m := 0) (mergeWorld_makes (c := 8 * N) _ _ (fun t => by
    unfold buildCalls
    rw [if_neg (by simp [ho])]
    ring) h _) fun _ hx => .ok hx

theorem upwards_makes {A : HPSRank K} (h : A.Clean) (P : Place) (lap : Lapack K) (ps : PatchSolver K) (opt : HPSOptions)
    (f : K → K → K) : (A.upwardsStageWorld P lap ps opt f).Makes P.size Clean (2 * P.forest.ranks.count P.rank) :=
  .bind0 (barrier_makes _ _) fun _ _ => .bind (m := 0) (mergeWorld_makes _ _ (fun _ => rfl) h _) fun _ hx => .ok hx

theorem onRoot_clean {fn : Patch K → Res (Patch K)} {q q' : Quadtree (Patch K)} (hq : MapNodes Node.Clean q.map)
    (h : onRoot fn q = .ok q') : MapNodes Node.Clean q'.map := by
  unfold onRoot at h
  split at h
  · rename_i n e
    simp only [Res.bind_eq_ok, Res.pure_def, Res.ok_inj] at h
    obtain ⟨d, -, rfl⟩ := h
    have hn := hq.get e
    exact hq.set (n := { n with data := d }) hn
  · cases h

theorem solve_makes {A : HPSRank K} (h : A.Clean) (P : Place) (lap : Lapack K) (ps : PatchSolver K) (opt : HPSOptions)
    (bc : HPS.BoundaryFn K) : (A.solveStageWorld P lap ps opt bc).Makes P.size Clean (2 * P.forest.ranks.count P.rank) :=
  .bind0 (barrier_makes _ _) fun _ _ => .bind0 (Q := fun q => MapNodes Node.Clean q.map) (.res fun _ hq => onRoot_clean h hq)
    fun q (hq : MapNodes Node.Clean q.map) => .bind (m := 0) (splitWorld_makes (Q := q) _ _ (fun _ => rfl) hq _) fun _ hx => .ok hx

theorem solves_makes (P : Place) (lap : Lapack K) (ps : PatchSolver K) (opt : HPSOptions) (f : K → K → K) (bc : HPS.BoundaryFn K)
    (n : Nat) {A : HPSRank K} (h : A.Clean) :
    (A.solvesWorld P lap ps opt f bc n).Makes P.size Clean (4 * n * P.forest.ranks.count P.rank) := by
  induction n generalizing A with
  | zero =>
    rw [Nat.mul_zero, Nat.zero_mul]
    exact .ok h
  | succ n ih =>
    have e : 4 * (n + 1) * P.forest.ranks.count P.rank = 2 * P.forest.ranks.count P.rank + (2 * P.forest.ranks.count P.rank +
      4 * n * P.forest.ranks.count P.rank) := by ring
    rw [e]
    exact .bind (upwards_makes h P lap ps opt f) fun _ h => .bind (solve_makes h P lap ps opt bc) fun _ h => ih h

end HPSRank

/-! ## The example program -/

theorem natText_clean (n : Nat) : 'I' ∉ natText n := fun hc => by
  have := List.all_eq_true.1 (natText_digits n) _ hc
  revert this
  decide

theorem path_clean (M : Nat) (q : Quadrant) : 'I' ∉ q.path M := by
  unfold Quadrant.path
  have : ∀ (l : List Nat) (a : Text), 'I' ∉ a → 'I' ∉ l.foldl (fun s k => s ++ natText (q.ancestorId M (q.level - k))) a := by
    intro l
    induction l with
    | nil => exact fun a h => h
    | cons k l ih =>
      intro a h
      refine ih _ ?_
      rw [List.mem_append, not_or]
      exact ⟨h, natText_clean _⟩
  have h := this (List.range q.level) [] (by simp)
  simp only [List.mem_cons, List.mem_reverse, not_or]
  exact ⟨by decide, h⟩

section field

variable [Field K]

theorem ctorVisit_clean {M r : Nat} {root : Patch K} {m m' : NodeMap (Patch K)} {v : Visit}
    (hm : MapNodes Node.Clean m) (h : ctorVisit M r root FVFactory.factory m v = .ok m') : MapNodes Node.Clean m' := by
  unfold ctorVisit at h
  dsimp only at h
  by_cases hc : v.pfirst ≤ r ∧ r ≤ v.plast
  · rw [if_pos hc] at h
    by_cases hl : v.quadrant.level = 0
    · rw [if_pos hl] at h
      rw [← Res.ok_inj.mp h]
      exact hm.set (path_clean M v.quadrant)
    · rw [if_neg hl] at h
      cases hp : (m.get (v.quadrant.path M).dropLast).1 with
      | none =>
        rw [hp] at h
        cases h
      | some parent =>
        rw [hp] at h
        simp only [Res.bind_eq_ok, Res.pure_def, Res.ok_inj] at h
        obtain ⟨n, h1, rfl⟩ := h
        change FVFactory.createChildNode _ _ _ _ = _ at h1
        unfold FVFactory.createChildNode at h1
        simp only [Res.bind_eq_ok, Res.pure_def, Res.ok_inj] at h1
        obtain ⟨g, _, rfl⟩ := h1
        refine hm.set ?_
        have := hm.get hp
        unfold Node.Clean at this ⊢
        rw [List.mem_append, not_or]
        exact ⟨this, natText_clean _⟩
  · rw [if_neg hc] at h
    rw [← Res.ok_inj.mp h]
    exact hm.setNone _

theorem construct_clean {M r : Nat} {root : Patch K} {F : Forest} {m : NodeMap (Patch K)}
    (h : construct M r root FVFactory.factory F = .ok m) : MapNodes Node.Clean m := by
  unfold construct at h
  have aux : ∀ (l : List Visit) (m m' : NodeMap (Patch K)), MapNodes Node.Clean m →
      l.foldlM (ctorVisit M r root FVFactory.factory) m = .ok m' → MapNodes Node.Clean m' := by
    intro l
    induction l with
    | nil =>
      intro m m' hm h
      rw [← Res.ok_inj.mp h]
      exact hm
    | cons v l ih =>
      intro m m' hm h
      rw [List.foldlM_cons] at h
      simp only [Res.bind_eq_ok] at h
      obtain ⟨m1, h1, h2⟩ := h
      exact ih _ _ (ctorVisit_clean hm h1) h2
  exact aux _ _ _ (by intro p n h; cases h) h

theorem searchVisit_clean {M r : Nat} {ptr : UserPointer} {fn : Node T → τ → Res ((Node T × τ) × Bool)}
    (hf : ∀ n s x, n.Clean → fn n s = .ok x → x.1.1.Clean) (q : Quadrant) (b : Bool) (s : NodeMap T × τ)
    (x : (NodeMap T × τ) × Bool) (hs : MapNodes Node.Clean s.1) (h : searchVisit M r ptr fn q b s = .ok x) :
    MapNodes Node.Clean x.1.1 := by
  unfold searchVisit at h
  dsimp only at h
  have hm := hs.getMap (q.path M)
  have hg := fun n => hs.get (p := q.path M) (n := n)
  split at h
  · split at h
    · rename_i n m e
      rw [e] at hm hg
      by_cases hc : n.pfirst ≤ r ∧ r ≤ n.plast
      · rw [if_pos hc] at h
        simp only [Res.bind_eq_ok, Res.pure_def, Res.ok_inj] at h
        obtain ⟨y, h1, rfl⟩ := h
        exact hm.set (hf _ _ _ (hg n rfl) h1)
      · rw [if_neg hc] at h
        rw [← Res.ok_inj.mp h]
        exact hm
    · rename_i m e
      rw [e] at hm
      rw [← Res.ok_inj.mp h]
      exact hm
  · cases h

theorem leafVisit_clean {fn : T → τ → Res (T × τ)} (n : Node T) (s : τ) (x : (Node T × τ) × Bool) (hn : n.Clean)
    (hx : leafVisit fn n s = .ok x) : x.1.1.Clean := by
  unfold leafVisit at hx
  split at hx
  · simp only [Res.bind_eq_ok, Res.pure_def, Res.ok_inj] at hx
    obtain ⟨y, -, rfl⟩ := hx
    exact hn
  · rw [← Res.ok_inj.mp hx]
    exact hn

theorem refine_clean {M r : Nat} {root : Patch K} {F : Forest} {m m' : Mesh K}
    (h : Mesh.refineByFunction M r F root FVFactory.factory m = .ok m') : MapNodes Node.Clean m'.quadtree.map := by
  unfold Mesh.refineByFunction Quadtree.new at h
  simp only [Res.bind_eq_ok, Res.pure_def, Res.ok_inj] at h
  obtain ⟨q, ⟨m1, h1, rfl⟩, h2⟩ := h
  unfold Mesh.setMeshFromQuadtree Quadtree.traversePreOrder at h2
  simp only [Res.bind_eq_ok, Res.pure_def, Res.ok_inj] at h2
  obtain ⟨_, ⟨s, h3, rfl⟩, rfl⟩ := h2
  exact searchPre_res (Q := fun s => MapNodes Node.Clean s.1) (searchVisit_clean leafVisit_clean) F _ (construct_clean h1) h3

theorem example_makes (N : Nat) (P : Place) (lap : Lapack K) (ps : PatchSolver K) {opt : HPSOptions} (ho : opt.cacheOperators = false)
    (root : Patch K) (f : K → K → K) (bc : HPS.BoundaryFn K) (n : Nat) :
    (exampleMainWorld N P lap ps opt root f bc n).Makes P.size (fun _ => True)
      (8 * N * P.forest.ranks.count P.rank + 4 * n * P.forest.ranks.count P.rank) := by
  refine .bind0 (Q := fun m => MapNodes Node.Clean m.quadtree.map) (.res fun m hm => refine_clean hm) fun m hm => ?_
  refine .bind0 (Q := HPSRank.Clean) (.bind0 (HPSRank.barrier_makes _ _) fun _ _ => .ok hm) fun A hA =>
    .bind (HPSRank.build_makes hA N P lap ps ho) fun A hA => .bind (m := 0) (HPSRank.solves_makes P lap ps opt f bc n hA) fun A _ =>
      .bind0 (Q := fun _ => True) (.res fun _ _ => trivial) fun _ _ => .ok trivial

end field

/-! ## One rank -/

/-- The second program is the first without the calls, for one rank. -/
inductive Prog.Erases : Prog T α → Prog T α → Prop
  | fin (x : Res α) : Erases (.fin x) (.fin x)
  | allMax {lo hi v : Nat} {name : Text} {k k' : Nat → Prog T α} (h : ∀ m, Erases (k m) (k' m)) :
      Erases (.allMax lo hi name v k) (.allMax lo hi name v k')
  | bcast {lo hi root : Nat} {name : Text} {v : Node T} {k k' : Node T → Prog T α} (h : ∀ x, Erases (k x) (k' x)) :
      Erases (.bcast lo hi name root v k) (.bcast lo hi name root v k')
  | skip {v : Nat} {k : Nat → Prog T α} {p : Prog T α} (h : ∀ m, Erases (k m) p) : Erases (.allMax 0 0 indexSetName v k) p

namespace Prog.Erases

theorem refl (p : Prog T α) : Erases p p := by
  induction p with
  | fin a => exact .fin a
  | allMax lo hi name v k ih => exact .allMax ih
  | bcast lo hi name root v k ih => exact .bcast ih

theorem bind {p p' : Prog T α} {f f' : α → Prog T β} (h : Erases p p') (hf : ∀ a, Erases (f a) (f' a)) :
    Erases (p >>= f) (p' >>= f') := by
  change Erases (p.bind f) (p'.bind f')
  induction h with
  | fin x =>
    cases x with
    | ok a => exact hf a
    | throw e => exact .fin _
    | ub => exact .fin _
  | allMax _ ih => exact .allMax ih
  | bcast _ ih => exact .bcast ih
  | skip _ ih => exact .skip ih

theorem sets (n : Nat) {p p' : Prog T α} (h : Erases p p') : Erases ((indexSets 1 n : Prog T Unit) >>= fun _ => p) p' := by
  induction n with
  | zero => exact h
  | succ n ih => exact .skip fun _ => ih

theorem run {j : Nat} {c z : Config T α} (hr : Run j c z) (hz : z.Done) (hc : ∀ r, r ≠ 0 → ∃ x, c r = .fin x) {d : Config T α}
    (h0 : Erases (d 0) (c 0)) (hd : ∀ r, r ≠ 0 → d r = c r) : ∃ i, Run i d z := by
  -- the calls at the front
  have front : ∀ {p p' : Prog T α}, Erases p p' → ∀ d : Config T α, d 0 = p → ∃ i q, Run i d (fun r => if r = 0 then q else d r) ∧
      ((∃ x, q = .fin x ∧ p' = .fin x) ∨
        (∃ lo hi name v k k', q = .allMax lo hi name v k ∧ p' = .allMax lo hi name v k' ∧ ∀ m, Erases (k m) (k' m)) ∨
        ∃ lo hi name root v k k', q = .bcast lo hi name root v k ∧ p' = .bcast lo hi name root v k' ∧ ∀ x, Erases (k x) (k' x)) := by
    intro p p' h
    induction h with
    | fin x =>
      intro d hd
      refine ⟨0, d 0, ?_, .inl ⟨x, hd, rfl⟩⟩
      have : (fun r => if r = 0 then d 0 else d r) = d := by funext r; split <;> simp_all
      rw [this]
      exact .refl d
    | allMax h ih =>
      intro d hd
      refine ⟨0, d 0, ?_, .inr (.inl ⟨_, _, _, _, _, _, hd, rfl, h⟩)⟩
      have : (fun r => if r = 0 then d 0 else d r) = d := by funext r; split <;> simp_all
      rw [this]
      exact .refl d
    | bcast h ih =>
      intro d hd
      refine ⟨0, d 0, ?_, .inr (.inr ⟨_, _, _, _, _, _, _, hd, rfl, h⟩)⟩
      have : (fun r => if r = 0 then d 0 else d r) = d := by funext r; split <;> simp_all
      rw [this]
      exact .refl d
    | @skip v k p h ih =>
      intro d hd
      have e : (Finset.Icc (0 : Nat) 0).sup (fun _ => v) = v := by simp
      obtain ⟨i, q, h1, h2⟩ := ih v (fun r => if r = 0 then k v else d r) rfl
      refine ⟨i + 1, q, .step (c' := fun r => if r = 0 then k v else d r)
        (.allMax 0 0 indexSetName (fun _ => v) (fun _ => k) le_rfl ?_ ?_ ?_) ?_, h2⟩
      · intro r _ hr
        rw [Nat.le_zero.1 hr, hd]
      · intro r _ hr
        rw [Nat.le_zero.1 hr, e]
        rfl
      · intro r hr
        exact if_neg (by omega)
      · have : (fun r => if r = 0 then q else (fun r => if r = 0 then k v else d r) r) = fun r => if r = 0 then q else d r := by
          funext r
          by_cases h : r = 0 <;> simp [h]
        rwa [this] at h1
  induction hr generalizing d with
  | refl c =>
    obtain ⟨i, q, h1, h2⟩ := front h0 d rfl
    refine ⟨i, ?_⟩
    obtain ⟨x, hx⟩ := hz 0
    have hq : q = .fin x := by
      rcases h2 with ⟨y, rfl, e⟩ | ⟨_, _, _, _, _, _, _, e, _⟩ | ⟨_, _, _, _, _, _, _, _, e, _⟩
      · rw [← e, hx]
      · rw [hx] at e; cases e
      · rw [hx] at e; cases e
    have : (fun r => if r = 0 then q else d r) = c := by
      funext r
      by_cases h : r = 0
      · rw [if_pos h, hq, h, hx]
      · rw [if_neg h, hd r h]
    rwa [this] at h1
  | @step n c c1 c2 hs rest ih =>
    obtain ⟨i, q, h1, h2⟩ := front h0 d rfl
    cases hs with
    | allMax lo hi name v k hle arr lv oth =>
      have e0 : lo = 0 := by
        by_contra h
        obtain ⟨x, hx⟩ := hc lo h
        rw [arr lo le_rfl hle] at hx
        cases hx
      subst e0
      have e1 : hi = 0 := by
        by_contra h
        obtain ⟨x, hx⟩ := hc hi h
        rw [arr hi hle le_rfl] at hx
        cases hx
      subst e1
      have a0 := arr 0 le_rfl le_rfl
      rcases h2 with ⟨y, rfl, e⟩ | ⟨lo, hi, name', v', k1, k2, rfl, e, hk⟩ | ⟨_, _, _, _, _, _, _, _, e, _⟩
      · rw [a0] at e; cases e
      · rw [a0] at e
        cases e
        obtain ⟨i', hi'⟩ := ih hz (fun r hr => by rw [oth r (by omega)]; exact hc r hr)
          (d := fun r => if r = 0 then k1 ((Finset.Icc 0 0).sup v) else d r)
          (by
            show Erases (k1 ((Finset.Icc 0 0).sup v)) (c1 0)
            rw [lv 0 le_rfl le_rfl]
            exact hk _)
          (fun r hr => (if_neg hr).trans ((hd r hr).trans (oth r (by omega)).symm))
        refine ⟨_, h1.trans (.step (.allMax 0 0 name v (fun _ => k1) le_rfl ?_ ?_ ?_) hi')⟩
        · intro r _ hr
          rw [Nat.le_zero.1 hr]
          rfl
        · intro r _ hr
          rw [Nat.le_zero.1 hr]
          rfl
        · intro r hr
          have : r ≠ 0 := by omega
          simp only [if_neg this]
      · rw [a0] at e; cases e
    | bcast lo hi name root v k hle arr lv oth =>
      have e0 : lo = 0 := by
        by_contra h
        obtain ⟨x, hx⟩ := hc lo h
        rw [arr lo le_rfl (by omega)] at hx
        cases hx
      subst e0
      have e1 : hi = 0 := by
        by_contra h
        obtain ⟨x, hx⟩ := hc hi h
        rw [arr hi (by omega) le_rfl] at hx
        cases hx
      subst e1
      have a0 := arr 0 le_rfl le_rfl
      rcases h2 with ⟨y, rfl, e⟩ | ⟨_, _, _, _, _, _, _, e, _⟩ | ⟨lo, hi, name', root', v', k1, k2, rfl, e, hk⟩
      · rw [a0] at e; cases e
      · rw [a0] at e; cases e
      · rw [a0] at e
        cases e
        obtain ⟨i', hi'⟩ := ih hz (fun r hr => by rw [oth r (by omega)]; exact hc r hr)
          (d := fun r => if r = 0 then k1 { v (0 + root) with comm := (v 0).comm } else d r)
          (by
            show Erases (k1 { v (0 + root) with comm := (v 0).comm }) (c1 0)
            rw [lv 0 le_rfl le_rfl]
            exact hk _)
          (fun r hr => (if_neg hr).trans ((hd r hr).trans (oth r (by omega)).symm))
        refine ⟨_, h1.trans (.step (.bcast 0 0 name root v (fun _ => k1) hle ?_ ?_ ?_) hi')⟩
        · intro r _ hr
          rw [Nat.le_zero.1 hr]
          rfl
        · intro r _ hr
          rw [Nat.le_zero.1 hr]
          rfl
        · intro r hr
          have : r ≠ 0 := by omega
          simp only [if_neg this]

end Prog.Erases

section erase
variable {σ : Type} {M r : Nat} {cb cb' : Quadrant → Bool → σ → Prog T (σ × Bool)}

theorem searchPost_erases (h : ∀ q b s, (cb q b s).Erases (cb' q b s)) (F : Forest) (q : Quadrant) (s : σ) :
    (searchPost M r cb F q s).Erases (searchPost M r cb' F q s) := by
  induction F generalizing q s with
  | leaf k =>
    unfold searchPost
    split
    · exact .bind (h _ _ _) fun _ => .refl _
    · exact .refl _
  | node c0 c1 c2 c3 ih0 ih1 ih2 ih3 =>
    unfold searchPost
    split
    · exact .bind (ih0 _ _) fun _ => .bind (ih1 _ _) fun _ => .bind (ih2 _ _) fun _ => .bind (ih3 _ _) fun _ => .bind (h _ _ _) fun _ => .refl _
    · exact .refl _

theorem searchPre_erases (h : ∀ q b s, (cb q b s).Erases (cb' q b s)) (F : Forest) (q : Quadrant) (s : σ) :
    (searchPre M r cb F q s).Erases (searchPre M r cb' F q s) := by
  induction F generalizing q s with
  | leaf k =>
    unfold searchPre
    split
    · exact .bind (h _ _ _) fun _ => .refl _
    · exact .refl _
  | node c0 c1 c2 c3 ih0 ih1 ih2 ih3 =>
    unfold searchPre
    split
    · refine .bind (h _ _ _) fun x => ?_
      split
      · exact .bind (ih0 _ _) fun _ => .bind (ih1 _ _) fun _ => .bind (ih2 _ _) fun _ => ih3 _ _
      · exact .refl _
    · exact .refl _

end erase

theorem example_erases [Field K] (N M : Nat) (F : Forest) (lap : Lapack K) (ps : PatchSolver K) (opt : HPSOptions) (root : Patch K)
    (f : K → K → K) (bc : HPS.BoundaryFn K) (n : Nat) :
    (exampleMainWorld N ⟨M, 1, 0, F⟩ lap ps opt root f bc n).Erases (exampleMain ⟨M, 1, 0, F⟩ lap ps opt root f bc n) := by
  have hsolves : ∀ n (A : HPSRank K), (A.solvesWorld ⟨M, 1, 0, F⟩ lap ps opt f bc n).Erases (A.solves ⟨M, 1, 0, F⟩ lap ps opt f bc n) := by
    intro n
    induction n with
    | zero => exact fun A => .refl _
    | succ n ih =>
      intro A
      refine .bind (.bind (.refl _) fun _ => .bind (.bind (searchPost_erases (fun q b s => .sets _ (.refl _)) _ _ _) fun _ => .refl _)
        fun _ => .refl _) fun A => .bind ?_ fun A => ih A
      exact .bind (.refl _) fun _ => .bind (.refl _) fun _ => .bind (.bind (searchPre_erases (fun q b s => .sets _ (.refl _)) _ _ _)
        fun _ => .refl _) fun _ => .refl _
  exact .bind (.refl _) fun _ => .bind (.refl _) fun _ => .bind (.bind (.refl _) fun _ =>
    .bind (.bind (searchPost_erases (fun q b s => .sets _ (.refl _)) _ _ _) fun _ => .refl _) fun _ => .refl _) fun A =>
      .bind (hsolves n A) fun _ => .refl _

end EF
