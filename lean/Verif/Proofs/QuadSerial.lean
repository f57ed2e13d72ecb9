import Verif.Proofs.QuadRep

/-!
# Merge and split on one rank
-/

namespace EF

variable {T τ : Type} [Inhabited T]

/-- A program that ends the way a computation on trees ends. -/
def Ends (x : Res (Tree T × τ)) (p : Prog T (NodeMap T × τ)) (Q : Tree T → NodeMap T → Prop) : Prop :=
  match x with
  | .ok y => ∃ m, p = .fin (.ok (m, y.2)) ∧ Q y.1 m
  | .throw e => p = .fin (.throw e)
  | .ub => p = .fin .ub

theorem ends_throw {p : Prog T (NodeMap T × τ)} {Q : Tree T → NodeMap T → Prop} {e : Exn} (h : p = .fin (.throw e)) :
    Ends (.throw e) p Q := h

theorem ends_ub {p : Prog T (NodeMap T × τ)} {Q : Tree T → NodeMap T → Prop} (h : p = .fin .ub) : Ends .ub p Q := h

theorem Ends.bind {x : Res (Tree T × τ)} {p : Prog T (NodeMap T × τ)} {Q Q' : Tree T → NodeMap T → Prop}
    {f : Tree T × τ → Res (Tree T × τ)} {g : NodeMap T × τ → Prog T (NodeMap T × τ)} (h : Ends x p Q)
    (hf : ∀ t s m, Q t m → Ends (f (t, s)) (g (m, s)) Q') : Ends (x >>= f) (p >>= g) Q' := by
  cases x with
  | ok y =>
    obtain ⟨m, rfl, hq⟩ := h
    exact hf y.1 y.2 m hq
  | throw e => exact congrArg (fun (p : Prog T (NodeMap T × τ)) => p >>= g) h
  | ub => exact congrArg (fun (p : Prog T (NodeMap T × τ)) => p >>= g) h

theorem Prog.fin_bind {α β : Type} (x : Res α) (f : α → Prog T β) :
    ((Prog.fin x : Prog T α) >>= f) = match x with | .ok a => f a | .throw e => .fin (.throw e) | .ub => .fin .ub := by
  cases x <;> rfl

/-- Everything below an address belongs to one rank. -/
def Forest.AllOn (r : Nat) (F : Forest) : Prop := ∀ k ∈ F.ranks, k = r

theorem Forest.AllOn.kids {r : Nat} {c0 c1 c2 c3 : Forest} (h : (Forest.node c0 c1 c2 c3).AllOn r) :
    c0.AllOn r ∧ c1.AllOn r ∧ c2.AllOn r ∧ c3.AllOn r := by
  simp only [Forest.AllOn, Forest.ranks, List.mem_append] at h ⊢
  exact ⟨fun k hk => h k (by tauto), fun k hk => h k (by tauto), fun k hk => h k (by tauto), fun k hk => h k (by tauto)⟩

theorem Forest.AllOn.first {r : Nat} {F : Forest} (h : F.AllOn r) : F.first = r := h _ (Forest.first_mem F)
theorem Forest.AllOn.last {r : Nat} {F : Forest} (h : F.AllOn r) : F.last = r := h _ (Forest.last_mem F)
theorem Forest.AllOn.spans {r : Nat} {F : Forest} (h : F.AllOn r) : F.Spans r := ⟨h.first.le, h.last.ge⟩
theorem Forest.AllOn.mem {r : Nat} {F : Forest} (h : F.AllOn r) : r ∈ F.ranks := by
  have := Forest.first_mem F
  rwa [h.first] at this

theorem nodeOf_comm (d : T) (a : Addr) (G : Forest) : (nodeOf d a G).comm = some (G.first, G.last) := rfl
theorem nodeOf_path (d : T) (a : Addr) (G : Forest) : (nodeOf d a G).path = a.text := rfl

/-- The leaf case of the callback. -/
theorem mergeSplit_leaf {M r k : Nat} {pol : Policy} {lf : T → τ → Res (T × τ)} {ff : Fam T → Res (Fam T)} {a : Addr}
    (ha : a.Valid) (hl : a.length ≤ M) (hk : k = r) {d : T} {m : NodeMap T} {s : τ} (h : Entry r (.leaf k) d a m) :
    mergeSplit M r .this pol (onData lf) (onFamily ff) (a.quad M) true (m, s)
      = (Prog.fin (lf d s) >>= fun x => pure ((m.set a.text (some (nodeOf x.1 a (.leaf k))), x.2), true)) := by
  subst hk
  unfold Entry at h
  have hs : (Forest.leaf k).Spans k := ⟨le_refl _, le_refl _⟩
  rw [if_pos hs] at h
  unfold mergeSplit
  rw [if_neg (by simp), (Addr.quad_spec ha hl).2.2]
  dsimp only
  rw [h]
  dsimp only
  rw [nodeOf_comm]
  dsimp only
  rw [if_pos rfl, if_pos (show (nodeOf d a (.leaf k)).pfirst ≤ k ∧ k ≤ (nodeOf d a (.leaf k)).plast from hs)]
  unfold onData
  rw [show (nodeOf d a (.leaf k)).data = d from rfl]
  cases lf d s <;> rfl

/-- The family case of the callback when one rank owns the node. -/
theorem mergeSplit_one {M r : Nat} {pol : Policy} {lf : T → τ → Res (T × τ)} {ff : Fam T → Res (Fam T)} {a : Addr}
    (ha : a.Valid) (hl : a.length ≤ M) {c0 c1 c2 c3 : Forest} (hr : (Forest.node c0 c1 c2 c3).AllOn r) {F : Fam T}
    {m : NodeMap T} {s : τ} (h : FamRep r c0 c1 c2 c3 F a m) :
    mergeSplit M r .this pol (onData lf) (onFamily ff) (a.quad M) false (m, s)
      = (Prog.fin (ff F) >>= fun F' => pure ((stored m a (famNodes c0 c1 c2 c3 F' a), s), true)) := by
  obtain ⟨o0, o1, o2, o3⟩ := hr.kids
  obtain ⟨ht, h0, h1, h2, h3⟩ := h
  unfold Entry at ht h0 h1 h2 h3
  rw [if_pos hr.spans] at ht
  rw [if_pos o0.spans] at h0
  rw [if_pos o1.spans] at h1
  rw [if_pos o2.spans] at h2
  rw [if_pos o3.spans] at h3
  unfold mergeSplit
  rw [if_neg (by simp), (Addr.quad_spec ha hl).2.2]
  dsimp only
  rw [ht]
  dsimp only
  rw [nodeOf_comm]
  dsimp only
  rw [if_neg (by simp), if_pos (show (nodeOf F.tau a (.node c0 c1 c2 c3)).pfirst = (nodeOf F.tau a (.node c0 c1 c2 c3)).plast from
    hr.first.trans hr.last.symm), if_pos (show (nodeOf F.tau a (.node c0 c1 c2 c3)).pfirst ≤ r ∧
      r ≤ (nodeOf F.tau a (.node c0 c1 c2 c3)).plast from hr.spans), nodeOf_path]
  simp only [kid_text a (show 0 < 4 by omega), kid_text a (show 1 < 4 by omega), kid_text a (show 2 < 4 by omega),
    kid_text a (show 3 < 4 by omega)]
  rw [need_eq h0, need_eq h1, need_eq h2, need_eq h3]
  simp only [Prog.fin_bind]
  unfold onFamily stored
  simp only [nodeOf, famNodes, kid_text a (show 0 < 4 by omega), kid_text a (show 1 < 4 by omega),
    kid_text a (show 2 < 4 by omega), kid_text a (show 3 < 4 by omega)]
  rw [show (⟨F.tau, F.a, F.b, F.c, F.d⟩ : Fam T) = F from rfl]
  cases ff F <;> rfl

omit [Inhabited T] in
/-- The frame of a step on a subtree. -/
theorem frame_kids {a : Addr} {m m1 m2 m3 m4 : NodeMap T}
    (f0 : ∀ p, ¬ Below (a ++ [0]) p → (m1.get p).1 = (m.get p).1) (f1 : ∀ p, ¬ Below (a ++ [1]) p → (m2.get p).1 = (m1.get p).1)
    (f2 : ∀ p, ¬ Below (a ++ [2]) p → (m3.get p).1 = (m2.get p).1) (f3 : ∀ p, ¬ Below (a ++ [3]) p → (m4.get p).1 = (m3.get p).1) :
    (m4.get a.text).1 = (m.get a.text).1 ∧ ∀ p, ¬ Below a p → (m4.get p).1 = (m.get p).1 := by
  have main : ∀ p, (∀ i < 4, ¬ Below (a ++ [i]) p) → (m4.get p).1 = (m.get p).1 := by
    intro p hp
    rw [f3 p (hp 3 (by omega)), f2 p (hp 2 (by omega)), f1 p (hp 1 (by omega)), f0 p (hp 0 (by omega))]
  exact ⟨main _ (fun i _ => not_below_self), fun p hp => main p (fun i hi h => hp (below_kid hi h))⟩

/-- Merging on one rank is merging the tree. -/
theorem merge_one {M r : Nat} {pol : Policy} {lf : T → τ → Res (T × τ)} {ff : Fam T → Res (Fam T)} (F : Forest) {a : Addr}
    (ha : a.Valid) (hl : a.length + F.depth ≤ M) (hr : F.AllOn r) {t : Tree T} {m : NodeMap T} {s : τ} (h : Rep r F t a m) :
    Ends (t.mergeSt lf ff s) (searchPost M r (mergeSplit M r .this pol (onData lf) (onFamily ff)) F (a.quad M) (m, s))
      (fun t' m' => Rep r F t' a m' ∧ ∀ p, ¬ Below a p → (m'.get p).1 = (m.get p).1) := by
  induction F generalizing t a m s with
  | leaf k =>
    cases t with
    | node => exact absurd h id
    | leaf d =>
      have hk : k = r := hr k (by simp [Forest.ranks])
      simp only [searchPost, Tree.mergeSt]
      rw [if_pos hk, mergeSplit_leaf ha (by omega) hk h]
      cases lf d s with
      | ok x =>
        refine ⟨_, rfl, ?_, ?_⟩
        · show Entry r (.leaf k) x.1 a _
          unfold Entry
          rw [get_set, if_pos hr.spans]
        · intro p hp
          exact get_congr (set_other (fun e => hp (by rw [e]; exact below_self a)) _)
      | throw e => rfl
      | ub => rfl
  | node c0 c1 c2 c3 h0 h1 h2 h3 =>
    cases t with
    | leaf => exact absurd h id
    | node d t0 t1 t2 t3 =>
      obtain ⟨he, r0, r1, r2, r3⟩ := h
      obtain ⟨o0, o1, o2, o3⟩ := hr.kids
      simp only [Forest.depth] at hl
      simp only [searchPost, Tree.mergeSt, ← Addr.quad_snoc]
      rw [if_pos hr.mem]
      refine (h0 (ha.snoc (by omega)) (by simp; omega) o0 r0).bind ?_
      rintro t0' s1 m1 ⟨q0, f0⟩
      refine (h1 (ha.snoc (by omega)) (by simp; omega) o1 (r1.congr fun p hp =>
        f0 p (not_below_sib ha (by omega) (by omega) (by omega) hp))).bind ?_
      rintro t1' s2 m2 ⟨q1, f1⟩
      refine (h2 (ha.snoc (by omega)) (by simp; omega) o2 ((r2.congr fun p hp =>
        f0 p (not_below_sib ha (by omega) (by omega) (by omega) hp)).congr fun p hp =>
        f1 p (not_below_sib ha (by omega) (by omega) (by omega) hp))).bind ?_
      rintro t2' s3 m3 ⟨q2, f2⟩
      refine (h3 (ha.snoc (by omega)) (by simp; omega) o3 (((r3.congr fun p hp =>
        f0 p (not_below_sib ha (by omega) (by omega) (by omega) hp)).congr fun p hp =>
        f1 p (not_below_sib ha (by omega) (by omega) (by omega) hp)).congr fun p hp =>
        f2 p (not_below_sib ha (by omega) (by omega) (by omega) hp))).bind ?_
      rintro t3' s4 m4 ⟨q3, f3⟩
      obtain ⟨e4, f4⟩ := frame_kids f0 f1 f2 f3
      have R : Rep r (.node c0 c1 c2 c3) (.node d t0' t1' t2' t3') a m4 := by
        refine ⟨he.congr e4, ?_, ?_, ?_, q3⟩
        · exact ((q0.congr fun p hp => f1 p (not_below_sib ha (by omega) (by omega) (by omega) hp)).congr fun p hp =>
            f2 p (not_below_sib ha (by omega) (by omega) (by omega) hp)).congr fun p hp =>
            f3 p (not_below_sib ha (by omega) (by omega) (by omega) hp)
        · exact (q1.congr fun p hp => f2 p (not_below_sib ha (by omega) (by omega) (by omega) hp)).congr fun p hp =>
            f3 p (not_below_sib ha (by omega) (by omega) (by omega) hp)
        · exact q2.congr fun p hp => f3 p (not_below_sib ha (by omega) (by omega) (by omega) hp)
      have R' := R
      obtain ⟨z, z0, z1, z2, z3⟩ := R'
      have fr : FamRep r c0 c1 c2 c3 ⟨d, t0'.val, t1'.val, t2'.val, t3'.val⟩ a m4 :=
        ⟨z, z0.entry, z1.entry, z2.entry, z3.entry⟩
      rw [mergeSplit_one ha (by omega) hr fr]
      dsimp only
      cases ff ⟨d, t0'.val, t1'.val, t2'.val, t3'.val⟩ with
      | throw e => rfl
      | ub => rfl
      | ok F' =>
        obtain ⟨g1, g2⟩ := stored_rep ha fr hr.spans (N := famNodes c0 c1 c2 c3 F' a) (F' := F') rfl (.inl rfl) (.inl rfl)
          (.inl rfl) (.inl rfl)
        obtain ⟨g3, g4⟩ := stored_frame (F := ⟨d, t0'.val, t1'.val, t2'.val, t3'.val⟩) ha g2 g1 R
        exact ⟨_, rfl, g3, fun p hp => (g4 p hp).trans (f4 p hp)⟩


theorem Tree.splitFrom_setVal (lf : T → Res T) (ff : Fam T → Res (Fam T)) (t : Tree T) (d : T) :
    (t.setVal d).splitFrom lf ff (t.setVal d).val = t.splitFrom lf ff d := by
  cases t <;> rfl

/-- Splitting on one rank is splitting the tree. -/
theorem split_one {M r : Nat} {pol : Policy} {lf : T → Res T} {ff : Fam T → Res (Fam T)} (F : Forest) {a : Addr}
    (ha : a.Valid) (hl : a.length + F.depth ≤ M) (hr : F.AllOn r) {t : Tree T} {m : NodeMap T} {s : τ} (h : Rep r F t a m) :
    Ends (do let t' ← t.splitFrom lf ff t.val; pure (t', s))
      (searchPre M r (mergeSplit M r .this pol (onData (stateless lf)) (onFamily ff)) F (a.quad M) (m, s))
      (fun t' m' => Rep r F t' a m' ∧ ∀ p, ¬ Below a p → (m'.get p).1 = (m.get p).1) := by
  induction F generalizing t a m s with
  | leaf k =>
    cases t with
    | node => exact absurd h id
    | leaf d =>
      have hk : k = r := hr k (by simp [Forest.ranks])
      simp only [searchPre, Tree.splitFrom, Tree.val]
      rw [if_pos hk, mergeSplit_leaf ha (by omega) hk h]
      unfold stateless
      cases lf d with
      | ok x =>
        refine ⟨m.set a.text (some (nodeOf x a (.leaf k))), rfl, ?_, ?_⟩
        · show Entry r (.leaf k) x a _
          unfold Entry
          rw [get_set, if_pos hr.spans]
        · intro p hp
          exact get_congr (set_other (fun e => hp (by rw [e]; exact below_self a)) _)
      | throw e => rfl
      | ub => rfl
  | node c0 c1 c2 c3 h0 h1 h2 h3 =>
    cases t with
    | leaf => exact absurd h id
    | node d t0 t1 t2 t3 =>
      have R := h
      obtain ⟨z, z0, z1, z2, z3⟩ := h
      have fr : FamRep r c0 c1 c2 c3 ⟨d, t0.val, t1.val, t2.val, t3.val⟩ a m :=
        ⟨z, z0.entry, z1.entry, z2.entry, z3.entry⟩
      obtain ⟨o0, o1, o2, o3⟩ := hr.kids
      simp only [Forest.depth] at hl
      simp only [searchPre, Tree.splitFrom, ← Addr.quad_snoc]
      rw [show (Tree.node d t0 t1 t2 t3).val = d from rfl, if_pos hr.mem, mergeSplit_one ha (by omega) hr fr]
      cases ff ⟨d, t0.val, t1.val, t2.val, t3.val⟩ with
      | throw e => exact ends_throw rfl
      | ub => exact ends_ub rfl
      | ok F' =>
        obtain ⟨g1, g2⟩ := stored_rep ha fr hr.spans (N := famNodes c0 c1 c2 c3 F' a) (F' := F') rfl (.inl rfl) (.inl rfl)
          (.inl rfl) (.inl rfl)
        obtain ⟨g3, g4⟩ := stored_frame (F := ⟨d, t0.val, t1.val, t2.val, t3.val⟩) ha g2 g1 R
        obtain ⟨he, r0, r1, r2, r3⟩ := g3
        simp only [Res.ok_bind, Prog.fin_bind, pure_bind, if_true]
        have e : (do
            let t0 ← Tree.splitFrom lf ff t0 F'.a
            let t1 ← Tree.splitFrom lf ff t1 F'.b
            let t2 ← Tree.splitFrom lf ff t2 F'.c
            let t3 ← Tree.splitFrom lf ff t3 F'.d
            pure (Tree.node F'.tau t0 t1 t2 t3, s) : Res (Tree T × τ))
            = ((do let t' ← Tree.splitFrom lf ff t0 F'.a; pure (t', s)) >>= fun x0 =>
              (do let t' ← Tree.splitFrom lf ff t1 F'.b; pure (t', x0.2)) >>= fun x1 =>
              (do let t' ← Tree.splitFrom lf ff t2 F'.c; pure (t', x1.2)) >>= fun x2 =>
              (do let t' ← Tree.splitFrom lf ff t3 F'.d; pure (t', x2.2)) >>= fun x3 =>
              pure (Tree.node F'.tau x0.1 x1.1 x2.1 x3.1, x3.2)) := by
          simp only [bind_assoc, pure_bind]
        simp only [bind_assoc, pure_bind]
        rw [e]
        have k0 := h0 (s := s) (ha.snoc (by omega)) (by simp; omega) o0 r0
        rw [Tree.splitFrom_setVal] at k0
        refine k0.bind ?_
        rintro t0' s1 m1 ⟨q0, f0⟩
        have k1 := h1 (s := s1) (ha.snoc (by omega)) (by simp; omega) o1 (r1.congr fun p hp =>
          f0 p (not_below_sib ha (by omega) (by omega) (by omega) hp))
        rw [Tree.splitFrom_setVal] at k1
        refine k1.bind ?_
        rintro t1' s2 m2 ⟨q1, f1⟩
        have k2 := h2 (s := s2) (ha.snoc (by omega)) (by simp; omega) o2 ((r2.congr fun p hp =>
          f0 p (not_below_sib ha (by omega) (by omega) (by omega) hp)).congr fun p hp =>
          f1 p (not_below_sib ha (by omega) (by omega) (by omega) hp))
        rw [Tree.splitFrom_setVal] at k2
        refine k2.bind ?_
        rintro t2' s3 m3 ⟨q2, f2⟩
        have k3 := h3 (s := s3) (ha.snoc (by omega)) (by simp; omega) o3 (((r3.congr fun p hp =>
          f0 p (not_below_sib ha (by omega) (by omega) (by omega) hp)).congr fun p hp =>
          f1 p (not_below_sib ha (by omega) (by omega) (by omega) hp)).congr fun p hp =>
          f2 p (not_below_sib ha (by omega) (by omega) (by omega) hp))
        rw [Tree.splitFrom_setVal] at k3
        rw [← bind_pure (searchPre M r _ c3 _ _)]
        refine k3.bind ?_
        rintro t3' s4 m4 ⟨q3, f3⟩
        obtain ⟨e4, f4⟩ := frame_kids f0 f1 f2 f3
        refine ⟨m4, rfl, ⟨he.congr e4, ?_, ?_, ?_, q3⟩, fun p hp => (f4 p hp).trans (g4 p hp)⟩
        · exact ((q0.congr fun p hp => f1 p (not_below_sib ha (by omega) (by omega) (by omega) hp)).congr fun p hp =>
            f2 p (not_below_sib ha (by omega) (by omega) (by omega) hp)).congr fun p hp =>
            f3 p (not_below_sib ha (by omega) (by omega) (by omega) hp)
        · exact (q1.congr fun p hp => f2 p (not_below_sib ha (by omega) (by omega) (by omega) hp)).congr fun p hp =>
            f3 p (not_below_sib ha (by omega) (by omega) (by omega) hp)
        · exact q2.congr fun p hp => f3 p (not_below_sib ha (by omega) (by omega) (by omega) hp)

end EF
