import Verif.Spec.WorldOrder
import Verif.Proofs.WorldCalls
import Verif.Proofs.QuadParallel

/-!
# The order of the collective operations of a merge
-/

namespace EF

variable {K T τ α β : Type}

/-- A program whose collective operations are, one after the other, those of the list, unless it fails; then it ends with a result of which
`Q` holds, or, if `R` allows it, does something else. -/
inductive Prog.Begins (R : Prop) (Q : α → Prop) : List Op → Prog T α → Prop
  | ok {a : α} (h : Q a) : Begins R Q [] (.fin (.ok a))
  | throw (l : List Op) (e : Exn) : Begins R Q l (.fin (.throw e))
  | ub (l : List Op) : Begins R Q l (.fin .ub)
  | rest (h : R) (p : Prog T α) : Begins R Q [] p
  | allMax {l : List Op} {lo hi v : Nat} {name : Text} {k : Nat → Prog T α} (h : ∀ m, Begins R Q l (k m)) :
      Begins R Q ((lo, hi, name) :: l) (.allMax lo hi name v k)
  | bcast {l : List Op} {lo hi root : Nat} {name : Text} {v : Node T} {k : Node T → Prog T α} (h : ∀ x, Begins R Q l (k x)) :
      Begins R Q ((lo, hi, name) :: l) (.bcast lo hi name root v k)

namespace Prog.Begins

variable {R : Prop} {Q : α → Prop} {Q' : β → Prop} {l l' : List Op}

theorem bind {p : Prog T α} {f : α → Prog T β} (h : Begins False Q l p) (hf : ∀ a, Q a → Begins R Q' l' (f a)) :
    Begins R Q' (l ++ l') (p >>= f) := by
  change Begins R Q' (l ++ l') (p.bind f)
  induction h with
  | ok h => exact hf _ h
  | throw l e => exact .throw _ e
  | ub l => exact .ub _
  | rest h p => exact h.elim
  | allMax _ ih => exact .allMax ih
  | bcast _ ih => exact .bcast ih

theorem bind0 {p : Prog T α} {f : α → Prog T β} (h : Begins False Q [] p) (hf : ∀ a, Q a → Begins R Q' l' (f a)) :
    Begins R Q' l' (p >>= f) := h.bind hf

theorem end0 {p : Prog T α} {f : α → Prog T β} (h : Begins False Q l p) (hf : ∀ a, Q a → Begins R Q' [] (f a)) :
    Begins R Q' l (p >>= f) := by
  have := h.bind hf
  rwa [List.append_nil] at this

theorem res {x : Res α} (h : ∀ a, x = .ok a → Q a) : Begins R Q [] (.fin x : Prog T α) := by
  cases x with
  | ok a => exact .ok (h a rfl)
  | throw e => exact .throw _ e
  | ub => exact .ub _

/-- One collective: it is the next one of all ranks that take part. -/
theorem step {c c' : Config T α} (hs : Step c c') :
    ∃ o : Op, (∀ r l, o.1 ≤ r ∧ r ≤ o.2.1 → Begins R Q l (c r) → (R ∧ l = []) ∨ ∃ l', l = o :: l' ∧ Begins R Q l' (c' r)) ∧
      ∀ r, ¬ (o.1 ≤ r ∧ r ≤ o.2.1) → c' r = c r := by
  cases hs with
  | allMax lo hi name v k hle arr lv oth =>
    refine ⟨(lo, hi, name), fun r l hr h => ?_, oth⟩
    rw [arr r hr.1 hr.2] at h
    rw [lv r hr.1 hr.2]
    cases h with
    | rest h => exact .inl ⟨h, rfl⟩
    | allMax h => exact .inr ⟨_, rfl, h _⟩
  | bcast lo hi name root v k hle arr lv oth =>
    refine ⟨(lo, hi, name), fun r l hr h => ?_, oth⟩
    rw [arr r hr.1 hr.2] at h
    rw [lv r hr.1 hr.2]
    cases h with
    | rest h => exact .inl ⟨h, rfl⟩
    | bcast h => exact .inr ⟨_, rfl, h _⟩

/-- If two ranks end, they went through their common operations in the same order. -/
theorem run {j : Nat} {c c' : Config T α} (hr : Run j c c') {p q : Nat} {lp lq : List Op} (hp : Begins R Q lp (c p))
    (hq : Begins R Q lq (c q)) (ep : ∃ x, c' p = .fin (.ok x)) (eq : ∃ x, c' q = .fin (.ok x)) :
    lp.filter (Op.both p q) = lq.filter (Op.both p q) ∨
      (R ∧ (lp.filter (Op.both p q) <+: lq.filter (Op.both p q) ∨ lq.filter (Op.both p q) <+: lp.filter (Op.both p q))) := by
  induction hr generalizing lp lq with
  | refl c =>
    obtain ⟨x, hx⟩ := ep
    obtain ⟨y, hy⟩ := eq
    rw [hx] at hp
    rw [hy] at hq
    have h1 : lp = [] := by cases hp <;> rfl
    have h2 : lq = [] := by cases hq <;> rfl
    left
    rw [h1, h2]
  | step hs _ ih =>
    obtain ⟨o, h1, h2⟩ := step (R := R) (Q := Q) hs
    by_cases bp : o.1 ≤ p ∧ p ≤ o.2.1
    · rcases h1 p lp bp hp with ⟨hR, rfl⟩ | ⟨lp', rfl, hp'⟩
      · exact .inr ⟨hR, .inl (List.nil_prefix)⟩
      · by_cases bq : o.1 ≤ q ∧ q ≤ o.2.1
        · rcases h1 q lq bq hq with ⟨hR, rfl⟩ | ⟨lq', rfl, hq'⟩
          · exact .inr ⟨hR, .inr (List.nil_prefix)⟩
          · have hb : Op.both p q o = true := by simp [Op.both, bp, bq]
            rw [List.filter_cons_of_pos hb, List.filter_cons_of_pos hb]
            simpa using ih hp' hq' ep eq
        · have hb : ¬ Op.both p q o = true := by
            simp only [Op.both, decide_eq_true_eq, not_and_or]
            tauto
          rw [List.filter_cons_of_neg hb]
          exact ih hp' (h2 q bq ▸ hq) ep eq
    · by_cases bq : o.1 ≤ q ∧ q ≤ o.2.1
      · rcases h1 q lq bq hq with ⟨hR, rfl⟩ | ⟨lq', rfl, hq'⟩
        · exact .inr ⟨hR, .inr (List.nil_prefix)⟩
        · have hb : ¬ Op.both p q o = true := by
            simp only [Op.both, decide_eq_true_eq, not_and_or]
            tauto
          rw [List.filter_cons_of_neg hb]
          exact ih (h2 p bp ▸ hp) hq' ep eq
      · exact ih (h2 p bp ▸ hp) (h2 q bq ▸ hq) ep eq

end Prog.Begins

open Prog

theorem indexSets_begins (size n : Nat) :
    (indexSets size n : Prog T Unit).Begins False (fun _ => True) (List.replicate n (0, size - 1, indexSetName)) := by
  induction n with
  | zero => exact .ok trivial
  | succ n ih => exact .allMax fun _ => ih

theorem get_getMap (m : NodeMap T) (k p : Text) : ((m.get k).2.get p).1 = (m.get p).1 := by
  cases h : m k with
  | some x => simp only [NodeMap.get, h]
  | none =>
    by_cases hp : p = k
    · subst hp
      simp [NodeMap.get, h, NodeMap.set]
    · refine get_congr ?_
      simp only [NodeMap.get, h]
      exact set_other hp _

theorem shareChild_begins [Inhabited T] {r lo hi : Nat} {path : Text} (i : Nat) (m : NodeMap T) :
    (shareChild r lo hi path i m).Begins False (fun x => ∀ p, p ≠ path ++ natText i → (x.2.get p).1 = (m.get p).1)
      (List.replicate 2 (lo, hi, path)) := by
  unfold shareChild
  dsimp only
  refine .bind (l := [(lo, hi, path)]) (l' := [(lo, hi, path)]) (Q := fun _ => True) (.allMax fun _ => .ok trivial) fun x _ => ?_
  refine .end0 (Q := fun _ => True) (.bcast fun _ => .ok trivial) fun y _ => .ok fun p hp => ?_
  split
  · rw [get_congr (set_other hp _)]
    exact get_getMap m _ p
  · exact get_getMap m _ p

section merge
variable [Inhabited T] {size M r c : Nat} {pol : Policy} {lf : T → τ → Res (T × τ)} {ff : Fam T → Res (Fam T)} {calls : τ → Nat}

theorem leaf_begins (hc : ∀ t, calls t = c) {a : Addr} (ha : a.Valid) (hl : a.length ≤ M) {d : T} {m : NodeMap T} {s : τ}
    (h : Entry r (.leaf r) d a m) :
    (withIndexSets size calls (mergeSplit M r .this pol (onData lf) (onFamily ff)) (a.quad M) true (m, s)).Begins False
      (fun x => ∀ p, ¬ Below a p → (x.1.1.get p).1 = (m.get p).1) (List.replicate c (0, size - 1, indexSetName)) := by
  unfold withIndexSets
  rw [hc, if_pos rfl]
  refine .end0 (indexSets_begins size c) fun _ _ => ?_
  rw [mergeSplit_leaf ha hl rfl h]
  refine .bind0 (Q := fun _ => True) (.res fun _ _ => trivial) fun x _ => .ok fun p hp => ?_
  exact get_congr (set_other (fun e => hp (by rw [e]; exact below_self a)) _)

theorem family_begins {a : Addr} (ha : a.Valid) (hl : a.length ≤ M) {c0 c1 c2 c3 : Forest}
    (hs : (Forest.node c0 c1 c2 c3).Spans r) {d : T} {m : NodeMap T} {s : τ} (h : Entry r (.node c0 c1 c2 c3) d a m) :
    (withIndexSets size calls (mergeSplit M r .this pol (onData lf) (onFamily ff)) (a.quad M) false (m, s)).Begins False
      (fun x => ∀ p, ¬ Below a p → (x.1.1.get p).1 = (m.get p).1)
      (if c0.first = c3.last then [] else List.replicate 8 (c0.first, c3.last, a.text)) := by
  unfold withIndexSets
  rw [if_neg (show ¬ false = true by simp)]
  refine .bind0 (indexSets_begins size 0) fun _ _ => ?_
  unfold Entry at h
  rw [if_pos hs] at h
  have hfam : ∀ (m' : NodeMap T), (∀ p, ¬ Below a p → (m'.get p).1 = (m.get p).1) → ∀ x0 x1 x2 x3 : Node T, (do
      let res ← Prog.fin (onFamily ff ⟨nodeOf d a (.node c0 c1 c2 c3), x0, x1, x2, x3⟩ s)
      pure ((stored m' a res.1.1, res.1.2), res.2) : Prog T ((NodeMap T × τ) × Bool)).Begins False
      (fun x => ∀ p, ¬ Below a p → (x.1.1.get p).1 = (m.get p).1) [] := by
    intro m' hm' x0 x1 x2 x3
    refine .bind0 (Q := fun _ => True) (.res fun _ _ => trivial) fun x _ => .ok fun p hp => ?_
    rw [← hm' p hp]
    unfold stored
    have hk : ∀ i, i < 4 → p ≠ a.text ++ natText i := fun i hi e => hp (by
      rw [e, kid_text a hi]
      exact below_kid hi (below_self _))
    refine get_congr ?_
    dsimp only
    rw [store_other _ (hk 3 (by omega)), store_other _ (hk 2 (by omega)), store_other _ (hk 1 (by omega)),
      store_other _ (hk 0 (by omega)), set_other (fun e => hp (by rw [e]; exact below_self a))]
  have hk : ∀ i, i < 4 → ∀ p, ¬ Below a p → p ≠ a.text ++ natText i := fun i hi p hp e => hp (by
    rw [e, kid_text a hi]
    exact below_kid hi (below_self _))
  unfold mergeSplit
  rw [if_neg (show ¬ UserPointer.this ≠ UserPointer.this from fun hh => hh rfl)]
  dsimp only
  rw [(Addr.quad_spec ha hl).2.2, h]
  dsimp only
  rw [nodeOf_comm]
  dsimp only
  rw [if_neg (show ¬ false = true by simp)]
  by_cases e : c0.first = c3.last
  · rw [if_pos e, if_pos (show (nodeOf d a (.node c0 c1 c2 c3)).pfirst = (nodeOf d a (.node c0 c1 c2 c3)).plast from e),
      if_pos (show (nodeOf d a (.node c0 c1 c2 c3)).pfirst ≤ r ∧ r ≤ (nodeOf d a (.node c0 c1 c2 c3)).plast from hs)]
    refine .bind0 (Q := fun _ => True) (.res fun _ _ => trivial) fun x0 _ => ?_
    refine .bind0 (Q := fun _ => True) (.res fun _ _ => trivial) fun x1 _ => ?_
    refine .bind0 (Q := fun _ => True) (.res fun _ _ => trivial) fun x2 _ => ?_
    refine .bind0 (Q := fun _ => True) (.res fun _ _ => trivial) fun x3 _ => ?_
    exact hfam m (fun _ _ => rfl) x0 x1 x2 x3
  · rw [if_neg e, if_neg (show ¬ (nodeOf d a (.node c0 c1 c2 c3)).pfirst = (nodeOf d a (.node c0 c1 c2 c3)).plast from e),
      if_pos (show (nodeOf d a (.node c0 c1 c2 c3)).pfirst ≤ r ∧ r ≤ (nodeOf d a (.node c0 c1 c2 c3)).plast from hs)]
    cases pol with
    | stripe => exact .throw _ _
    | broadcast =>
      have e8 : List.replicate 8 ((c0.first, c3.last, a.text) : Op) = List.replicate 2 (c0.first, c3.last, a.text) ++
        (List.replicate 2 (c0.first, c3.last, a.text) ++ (List.replicate 2 (c0.first, c3.last, a.text) ++
          List.replicate 2 (c0.first, c3.last, a.text))) := rfl
      rw [e8]
      refine .bind (shareChild_begins 0 m) fun x0 h0 => ?_
      refine .bind (shareChild_begins 1 x0.2) fun x1 h1 => ?_
      refine .bind (shareChild_begins 2 x1.2) fun x2 h2 => ?_
      refine .end0 (shareChild_begins 3 x2.2) fun x3 h3 => ?_
      refine hfam x3.2 (fun p hp => ?_) x0.1 x1.1 x2.1 x3.1
      rw [h3 p (hk 3 (by omega) p hp), h2 p (hk 2 (by omega) p hp), h1 p (hk 1 (by omega) p hp), h0 p (hk 0 (by omega) p hp)]

/-- The operations of a merge, in order. -/
theorem merge_begins (hc : ∀ t, calls t = c) (F : Forest) {a : Addr} (ha : a.Valid) (hl : a.length + F.depth ≤ M) (hs : F.Sorted)
    {t : Tree T} {m : NodeMap T} {s : τ} (h : Rep r F t a m) :
    (searchPost M r (withIndexSets size calls (mergeSplit M r .this pol (onData lf) (onFamily ff))) F (a.quad M) (m, s)).Begins False
      (fun x => ∀ p, ¬ Below a p → (x.1.get p).1 = (m.get p).1) (mergeOps size c r F a) := by
  induction F generalizing t a m s with
  | leaf k =>
    cases t with
    | node => exact absurd h id
    | leaf d =>
      unfold searchPost mergeOps
      by_cases hk : k = r
      · subst hk
        rw [if_pos rfl, if_pos rfl]
        exact .end0 (leaf_begins hc ha (by omega) h) fun x hx => .ok hx
      · rw [if_neg hk, if_neg hk]
        exact .ok fun _ _ => rfl
  | node c0 c1 c2 c3 ih0 ih1 ih2 ih3 =>
    cases t with
    | leaf => exact absurd h id
    | node d t0 t1 t2 t3 =>
      obtain ⟨he, r0, r1, r2, r3⟩ := h
      obtain ⟨s0, s1, s2, s3⟩ := hs.kids
      simp only [Forest.depth] at hl
      unfold searchPost mergeOps
      by_cases hr : r ∈ (Forest.node c0 c1 c2 c3).ranks
      · rw [if_pos hr, if_pos hr]
        simp only [← Addr.quad_snoc]
        have sib : ∀ {i j : Nat}, i < 4 → j < 4 → i ≠ j → ∀ {m1 m2 : NodeMap T},
            (∀ p, ¬ Below (a ++ [i]) p → (m2.get p).1 = (m1.get p).1) → ∀ p, Below (a ++ [j]) p → (m2.get p).1 = (m1.get p).1 :=
          fun hi hj hne _ _ hf p hp => hf p fun hb => not_below_sib ha hi hj hne hb hp
        refine .bind (ih0 (ha.snoc (by omega)) (by simp; omega) s0 r0) fun x0 f0 => ?_
        have r1 := r1.congr (sib (by omega) (by omega) (by omega) f0)
        have r2 := r2.congr (sib (by omega) (by omega) (by omega) f0)
        have r3 := r3.congr (sib (by omega) (by omega) (by omega) f0)
        refine .bind (ih1 (ha.snoc (by omega)) (by simp; omega) s1 r1) fun x1 f1 => ?_
        have r2 := r2.congr (sib (by omega) (by omega) (by omega) f1)
        have r3 := r3.congr (sib (by omega) (by omega) (by omega) f1)
        refine .bind (ih2 (ha.snoc (by omega)) (by simp; omega) s2 r2) fun x2 f2 => ?_
        have r3 := r3.congr (sib (by omega) (by omega) (by omega) f2)
        refine .bind (ih3 (ha.snoc (by omega)) (by simp; omega) s3 r3) fun x3 f3 => ?_
        obtain ⟨g1, g2⟩ := frame_kids f0 f1 f2 f3
        refine .end0 (family_begins ha (by omega) ⟨hs.first_le hr, hs.le_last hr⟩ (he.congr g1)) fun y hy => .ok fun p hp => ?_
        rw [hy p hp, g2 p hp]
      · rw [if_neg hr, if_neg hr]
        exact .ok fun _ _ => rfl

theorem mergeWorld_begins (hc : ∀ t, calls t = c) {F : Forest} (hM : F.depth ≤ M) (hs : F.Sorted) {Q : Quadtree T}
    (hQ : Q.userPointer = .this) {t : Tree T} (h : Rep r F t [] Q.map) (s : τ) :
    (Q.mergeWorld size calls M r F pol (onData lf) (onFamily ff) s).Begins False (fun _ => True) (mergeOps size c r F []) := by
  unfold Quadtree.mergeWorld
  rw [hQ]
  exact .end0 (merge_begins hc F Addr.Valid.nil (by simpa using hM) hs h) fun _ _ => .ok trivial

end merge

end EF
