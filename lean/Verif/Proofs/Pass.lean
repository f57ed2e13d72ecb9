import Verif.Model.Pass
import Verif.Proofs.ParallelHPS
import Verif.Proofs.Failure

/-!
# Passes on all ranks
-/

namespace EF

variable {T : Type}

section
variable [Inhabited T] {M size : Nat} {F : Forest}

theorem Pass.runs (hM : F.depth ≤ M) (hs : F.Sorted) (hr : EveryRank F size) (p : Pass T) {t t' : Tree T} {Q : Nat → Quadtree T}
    (hQ : HoldsOn size F t Q) (ht : p.onTree t = .ok t') :
    ∃ Q' : Nat → Quadtree T, HoldsOn size F t' Q' ∧ Runs (fun r => r < size) (fun r => p.onRank ⟨M, size, r, F⟩ (Q r)) Q' := by
  cases p with
  | up lf ff =>
    have ht' : Tree.mergeBy (stateless lf) ff F t (fun _ => ()) = .ok (t', fun _ => ()) := by
      rw [Tree.mergeBy_stateless (hQ 0 hr.pos).1]
      rw [show t.merge lf ff = .ok t' from ht]; rfl
    obtain ⟨Q', h1, h2⟩ := merge_stage hM hs hr ht' hQ
    exact ⟨Q', h1, (Runs.bind h2 (q := fun r x => (pure x.1 : Prog T (Quadtree T))) (w := Q')
      (Runs.pure fun r h => rfl)).congr (fun r h => rfl) (fun r h => rfl)⟩
  | root fn =>
    obtain ⟨d, h1, h2⟩ := Res.bind_eq_ok.mp ht
    rw [Res.pure_def, Res.ok_inj] at h2
    subst h2
    have e' : ∀ r, r < size → F.Spans r := fun r h => (congrFun (hr.spans hs) r) ▸ h
    have hq : ∀ r, ∃ q', r < size → HPSRank.onRoot fn (Q r) = .ok q' ∧ Rep r F (t.setVal d) [] q'.map ∧
        q'.userPointer = .this := by
      intro r
      by_cases h : r < size
      · obtain ⟨q', k⟩ := onRoot_eq (e' r h) (hQ r h).1 (hQ r h).2 h1
        exact ⟨q', fun _ => k⟩
      · exact ⟨Q r, fun h' => absurd h' h⟩
    choose q hq using hq
    exact ⟨q, fun r h => (hq r h).2, Runs.pure fun r h => congrArg Prog.fin (hq r h).1⟩
  | down lf ff =>
    obtain ⟨Q', h1, h2⟩ := split_stage hM hs hr ht () hQ
    exact ⟨Q', h1, (Runs.bind h2 (q := fun r x => (pure x.1 : Prog T (Quadtree T))) (w := Q')
      (Runs.pure fun r h => rfl)).congr (fun r h => rfl) (fun r h => rfl)⟩
  | wait =>
    rw [Pass.onTree, Res.pure_def, Res.ok_inj] at ht
    subst ht
    exact ⟨Q, hQ, (Runs.bind (barrier_runs hr.pos) (q := fun r _ => (pure (Q r) : Prog T (Quadtree T))) (w := Q)
      (Runs.pure fun r h => rfl)).congr (fun r h => rfl) (fun r h => rfl)⟩

theorem Pass.all_runs (hM : F.depth ≤ M) (hs : F.Sorted) (hr : EveryRank F size) (ps : List (Pass T)) {t t' : Tree T}
    {Q : Nat → Quadtree T} (hQ : HoldsOn size F t Q) (ht : Pass.allOnTree ps t = .ok t') :
    ∃ Q' : Nat → Quadtree T, HoldsOn size F t' Q' ∧
      Runs (fun r => r < size) (fun r => Pass.allOnRank ⟨M, size, r, F⟩ ps (Q r)) Q' := by
  induction ps generalizing t Q with
  | nil =>
    rw [Pass.allOnTree, Res.pure_def, Res.ok_inj] at ht
    subst ht
    exact ⟨Q, hQ, Runs.pure fun r _ => rfl⟩
  | cons p ps ih =>
    rw [Pass.allOnTree] at ht
    obtain ⟨t1, h1, h2⟩ := Res.bind_eq_ok.mp ht
    obtain ⟨Q1, k1, k2⟩ := p.runs hM hs hr hQ h1
    obtain ⟨Q2, k3, k4⟩ := ih k1 h2
    exact ⟨Q2, k3, (Runs.bind k2 (q := fun r q => Pass.allOnRank ⟨M, size, r, F⟩ ps q) (w := Q2) k4).congr
      (fun r _ => rfl) (fun r _ => rfl)⟩

theorem Pass.breaks (hM : F.depth ≤ M) (hs : F.Sorted) (hr : EveryRank F size) (p : Pass T) {t : Tree T} {Q : Nat → Quadtree T}
    (hQ : HoldsOn size F t Q) {e : Option Exn} (ht : p.onTree t = Res.fail e) :
    Breaks (fun r => r < size) (fun r => p.onRank ⟨M, size, r, F⟩ (Q r)) e := by
  cases p with
  | up lf ff =>
    have ht' : Tree.mergeBy (stateless lf) ff F t (fun _ => ()) = Res.fail e := by
      rw [Tree.mergeBy_stateless (hQ 0 hr.pos).1]
      rw [show t.merge lf ff = Res.fail e from ht, Res.fail_bind]
    exact ((merge_fails hM hs hr ht' hQ).left (fun _ x => (pure x.1 : Prog T (Quadtree T)))).congr (fun r h => rfl)
  | root fn =>
    rcases Res.bind_eq_fail.mp ht with h1 | ⟨d, -, h2⟩
    · refine Breaks.now hr.pos ?_
      have h0 : F.Spans 0 := (congrFun (hr.spans hs) 0) ▸ hr.pos
      have he := (hQ 0 hr.pos).1.entry
      unfold Entry at he
      rw [if_pos h0] at he
      refine congrArg Prog.fin ?_
      unfold HPSRank.onRoot
      rw [show (['0'] : Text) = Addr.text [] from rfl, he]
      dsimp only
      rw [show (nodeOf t.val [] F).data = t.val from rfl, h1, Res.fail_bind]
    · exact absurd h2 Res.ok_ne_fail
  | down lf ff =>
    exact ((split_fails hM hs hr ht () hQ).left (fun _ x => (pure x.1 : Prog T (Quadtree T)))).congr (fun r h => rfl)
  | wait => exact absurd ht Res.ok_ne_fail

theorem Pass.all_breaks (hM : F.depth ≤ M) (hs : F.Sorted) (hr : EveryRank F size) (ps : List (Pass T)) {t : Tree T}
    {Q : Nat → Quadtree T} (hQ : HoldsOn size F t Q) {e : Option Exn} (ht : Pass.allOnTree ps t = Res.fail e) :
    Breaks (fun r => r < size) (fun r => Pass.allOnRank ⟨M, size, r, F⟩ ps (Q r)) e := by
  induction ps generalizing t Q with
  | nil => exact absurd ht Res.ok_ne_fail
  | cons p ps ih =>
    rw [Pass.allOnTree] at ht
    rcases Res.bind_eq_fail.mp ht with h1 | ⟨t1, h1, h2⟩
    · exact ((p.breaks hM hs hr hQ h1).left (fun r q => Pass.allOnRank ⟨M, size, r, F⟩ ps q)).congr (fun r _ => rfl)
    · obtain ⟨Q1, k1, k2⟩ := p.runs hM hs hr hQ h1
      exact (Runs.breaks k2 (q := fun r q => Pass.allOnRank ⟨M, size, r, F⟩ ps q) (ih k1 h2)).congr (fun r _ => rfl)

end

/-! ## Leaves in the order of ranks -/

theorem Rep.zip {r : Nat} {F : Forest} {t : Tree T} {a : Addr} {m : NodeMap T} (h : Rep r F t a m) :
    F.ranks.length = t.leaves.length ∧
      ∀ k, leavesOf k F t = ((F.ranks.zip t.leaves).filter fun x => x.1 = k).map Prod.snd := by
  induction F generalizing t a with
  | leaf j =>
    cases t with
    | node => exact absurd h id
    | leaf d =>
      refine ⟨rfl, fun k => ?_⟩
      by_cases hk : j = k <;> simp [leavesOf, Forest.ranks, Tree.leaves, hk]
  | node c0 c1 c2 c3 h0 h1 h2 h3 =>
    cases t with
    | leaf => exact absurd h id
    | node d t0 t1 t2 t3 =>
      obtain ⟨-, r0, r1, r2, r3⟩ := h
      obtain ⟨l0, e0⟩ := h0 r0
      obtain ⟨l1, e1⟩ := h1 r1
      obtain ⟨l2, e2⟩ := h2 r2
      obtain ⟨l3, e3⟩ := h3 r3
      refine ⟨by simp [Forest.ranks, Tree.leaves, l0, l1, l2, l3], fun k => ?_⟩
      simp only [leavesOf, Forest.ranks, Tree.leaves]
      rw [List.zip_append (by simp [l0, l1, l2]), List.zip_append (by simp [l0, l1]), List.zip_append l0]
      simp only [List.filter_append, List.map_append, e0, e1, e2, e3]

/-- A list ordered by keys is the concatenation of its parts with one key. -/
theorem flatMap_filter_sorted {L : List (Nat × T)} (hs : (L.map Prod.fst).Pairwise (· ≤ ·)) :
    ∀ n, (List.range n).flatMap (fun k => L.filter fun x => x.1 = k) = L.filter fun x => x.1 < n := by
  intro n
  induction n with
  | zero => simp
  | succ n ih =>
    rw [List.range_succ, List.flatMap_append, ih]
    simp only [List.flatMap_cons, List.flatMap_nil, List.append_nil]
    clear ih
    induction L with
    | nil => rfl
    | cons x L ihL =>
      simp only [List.map_cons, List.pairwise_cons, List.mem_map, forall_exists_index, and_imp] at hs
      have ih := ihL hs.2
      rcases lt_trichotomy x.1 n with h | h | h
      · have h1 : ¬ x.1 = n := by omega
        have h2 : x.1 < n + 1 := by omega
        simp only [List.filter_cons, h, h1, h2, decide_true, decide_false, if_true, Bool.false_eq_true, if_false, List.cons_append, ih]
      · have h0 : L.filter (fun y => y.1 < n) = [] := by
          rw [List.filter_eq_nil_iff]
          intro y hy
          have := hs.1 y.1 y hy rfl
          simp only [decide_eq_true_eq]
          omega
        rw [h0, List.nil_append] at ih
        have h1 : ¬ x.1 < n := by omega
        have h2 : x.1 < n + 1 := by omega
        simp only [List.filter_cons, h, h1, h2, decide_true, decide_false, if_true, Bool.false_eq_true, if_false, h0, List.nil_append, ih]
        simp [h]
      · have h1 : ¬ x.1 = n := by omega
        have h2 : ¬ x.1 < n + 1 := by omega
        have h3 : ¬ x.1 < n := by omega
        simp only [List.filter_cons, h1, h2, h3, decide_false, Bool.false_eq_true, if_false, ih]

/-- The leaves of all ranks, rank after rank, are the leaves of the tree in z-order. -/
theorem leavesOf_flat {r : Nat} {F : Forest} {t : Tree T} {a : Addr} {m : NodeMap T} (h : Rep r F t a m) (hs : F.Sorted) {size : Nat}
    (hr : ∀ k ∈ F.ranks, k < size) : (List.range size).flatMap (fun k => leavesOf k F t) = t.leaves := by
  obtain ⟨hl, he⟩ := h.zip
  have h1 := flatMap_filter_sorted (L := F.ranks.zip t.leaves) (by rw [List.map_fst_zip (by omega)]; exact hs) size
  have h2 : (F.ranks.zip t.leaves).filter (fun x => x.1 < size) = F.ranks.zip t.leaves := by
    rw [List.filter_eq_self]
    intro x hx
    simpa using hr x.1 (List.of_mem_zip hx).1
  have h3 := congrArg (List.map Prod.snd) (h1.trans h2)
  rw [List.map_snd_zip (by omega), List.map_flatMap] at h3
  rw [← h3]
  exact congrArg (fun f => (List.range size).flatMap f) (funext he)

/-! ## Callbacks without state of their own -/

section
variable [Inhabited T] {τ : Type}

theorem mergeSplit_stateless (M r : Nat) (ptr : UserPointer) (pol : Policy) (lf : T → Res T) (ff : Fam T → Res (Fam T)) (q : Quadrant)
    (isLeaf : Bool) (m : NodeMap T) (s : τ) :
    mergeSplit M r ptr pol (onData (stateless lf)) (onFamily ff) q isLeaf (m, s) =
      (do let x ← mergeSplit M r ptr pol (onData (stateless lf)) (onFamily ff) q isLeaf (m, ()); pure ((x.1.1, s), x.2)) := by
  unfold mergeSplit
  by_cases h1 : ptr ≠ .this
  · rw [if_pos h1, if_pos h1]; rfl
  rw [if_neg h1, if_neg h1]
  dsimp only
  cases (m.get (q.path M)).1 with
  | none => rfl
  | some node =>
    dsimp only
    cases node.comm with
    | none => rfl
    | some lh =>
      have e1 : (Prog.fin (onData (stateless lf) node s) : Prog T ((Node T × τ) × Bool)) =
          (do let x ← Prog.fin (onData (stateless lf) node ()); pure ((x.1.1, s), x.2)) := by
        unfold onData stateless
        cases lf node.data <;> rfl
      have e2 : ∀ X : Fam (Node T), (Prog.fin (onFamily ff X s) : Prog T ((Fam (Node T) × τ) × Bool)) =
          (do let x ← Prog.fin (onFamily ff X ()); pure ((x.1.1, s), x.2)) := by
        intro X
        unfold onFamily
        cases ff ⟨X.tau.data, X.a.data, X.b.data, X.c.data, X.d.data⟩ <;> rfl
      dsimp only
      by_cases h2 : isLeaf = true
      · rw [if_pos h2, if_pos h2]
        by_cases h3 : node.pfirst ≤ r ∧ r ≤ node.plast
        · rw [if_pos h3, if_pos h3, e1]
          simp only [bind_assoc, pure_bind]
        · rw [if_neg h3, if_neg h3, pure_bind]
      rw [if_neg h2, if_neg h2]
      by_cases h4 : node.pfirst = node.plast
      · rw [if_pos h4, if_pos h4]
        by_cases h3 : node.pfirst ≤ r ∧ r ≤ node.plast
        · rw [if_pos h3, if_pos h3]
          simp only [e2, bind_assoc, pure_bind]
        · rw [if_neg h3, if_neg h3, pure_bind]
      rw [if_neg h4, if_neg h4]
      by_cases h3 : node.pfirst ≤ r ∧ r ≤ node.plast
      · rw [if_pos h3, if_pos h3]
        cases pol with
        | stripe => rfl
        | broadcast => simp only [e2, bind_assoc, pure_bind]
      · rw [if_neg h3, if_neg h3, pure_bind]

theorem searchPost_natural {σ ρ : Type} {M r : Nat} {cb : Quadrant → Bool → σ → Prog T (σ × Bool)}
    {cb' : Quadrant → Bool → ρ → Prog T (ρ × Bool)} (g : ρ → σ)
    (h : ∀ q l x, cb q l (g x) = (do let y ← cb' q l x; pure (g y.1, y.2))) (F : Forest) (q : Quadrant) (x : ρ) :
    searchPost M r cb F q (g x) = (do let y ← searchPost M r cb' F q x; pure (g y)) := by
  induction F generalizing q x with
  | leaf k =>
    simp only [searchPost]
    split
    · simp only [h, bind_assoc, pure_bind]
    · rw [pure_bind]
  | node c0 c1 c2 c3 h0 h1 h2 h3 =>
    simp only [searchPost]
    split
    · simp only [h, h0, h1, h2, h3, bind_assoc, pure_bind]
    · rw [pure_bind]

/-- A state that callbacks do not touch comes out as it went in. -/
theorem merge_stateless (M r : Nat) (F : Forest) (pol : Policy) (lf : T → Res T) (ff : Fam T → Res (Fam T)) (q : Quadtree T) (s : τ) :
    q.merge M r F pol (onData (stateless lf)) (onFamily ff) s =
      (do let x ← q.merge M r F pol (onData (stateless lf)) (onFamily ff) (); pure (x.1, s)) := by
  unfold Quadtree.merge
  have := searchPost_natural (M := M) (r := r) (g := fun x : NodeMap T × Unit => (x.1, s))
    (fun c l x => mergeSplit_stateless M r q.userPointer pol lf ff c l x.1 s) F .root (q.map, ())
  rw [this]
  simp only [bind_assoc, pure_bind]

end

/-! ## Ranks that hold a given tree -/

/-- The tree has the shape of the forest. -/
def Tree.Fits : Forest → Tree T → Prop
  | .leaf _, .leaf _ => True
  | .node c0 c1 c2 c3, .node _ t0 t1 t2 t3 => t0.Fits c0 ∧ t1.Fits c1 ∧ t2.Fits c2 ∧ t3.Fits c3
  | _, _ => False

open Classical in
theorem rep_exists (r : Nat) (F : Forest) {t : Tree T} (h : t.Fits F) {a : Addr} (ha : a.Valid) : ∃ m : NodeMap T, Rep r F t a m := by
  have entry : ∀ (G : Forest) (d : T) (m : NodeMap T),
      Entry r G d a (m.set a.text (if G.Spans r then some (nodeOf d a G) else none)) := by
    intro G d m
    unfold Entry NodeMap.get NodeMap.set
    simp
  induction F generalizing t a with
  | leaf k =>
    cases t with
    | node => exact absurd h id
    | leaf d => exact ⟨_, entry (.leaf k) d fun _ => none⟩
  | node c0 c1 c2 c3 h0 h1 h2 h3 =>
    cases t with
    | leaf => exact absurd h id
    | node d t0 t1 t2 t3 =>
      obtain ⟨k0, k1, k2, k3⟩ := h
      have e : ∀ (b : Addr) (G : Forest) (d : T) (m : NodeMap T),
          Entry r G d b (m.set b.text (if G.Spans r then some (nodeOf d b G) else none)) := by
        intro b G d m
        unfold Entry NodeMap.get NodeMap.set
        simp
      obtain ⟨m0, r0⟩ := h0 k0 (ha.snoc (i := 0) (by omega)) (e _)
      obtain ⟨m1, r1⟩ := h1 k1 (ha.snoc (i := 1) (by omega)) (e _)
      obtain ⟨m2, r2⟩ := h2 k2 (ha.snoc (i := 2) (by omega)) (e _)
      obtain ⟨m3, r3⟩ := h3 k3 (ha.snoc (i := 3) (by omega)) (e _)
      let g : NodeMap T := fun p => if Below (a ++ [0]) p then m0 p else if Below (a ++ [1]) p then m1 p else
        if Below (a ++ [2]) p then m2 p else m3 p
      have sib : ∀ {i j : Nat}, i < 4 → j < 4 → i ≠ j → ∀ {p}, Below (a ++ [i]) p → ¬ Below (a ++ [j]) p :=
        fun hi hj hij _ hp => not_below_sib ha hi hj hij hp
      have off : ∀ {i : Nat} {x : Option (Node T)} {p : Text}, Below (a ++ [i]) p → (g.set a.text x) p = g p := fun hp =>
        set_other (fun e => not_below_self (e ▸ hp)) _
      refine ⟨g.set a.text (if (Forest.node c0 c1 c2 c3).Spans r then some (nodeOf d a (.node c0 c1 c2 c3)) else none),
        entry (.node c0 c1 c2 c3) d g, r0.congr fun p hp => get_congr ?_, r1.congr fun p hp => get_congr ?_,
        r2.congr fun p hp => get_congr ?_, r3.congr fun p hp => get_congr ?_⟩
      · rw [off hp]; exact if_pos hp
      · rw [off hp]
        exact (if_neg (sib (by omega) (by omega) (by omega) hp)).trans (if_pos hp)
      · rw [off hp]
        exact (if_neg (sib (by omega) (by omega) (by omega) hp)).trans
          ((if_neg (sib (by omega) (by omega) (by omega) hp)).trans (if_pos hp))
      · rw [off hp]
        exact (if_neg (sib (by omega) (by omega) (by omega) hp)).trans
          ((if_neg (sib (by omega) (by omega) (by omega) hp)).trans (if_neg (sib (by omega) (by omega) (by omega) hp)))

theorem holds_exists (size : Nat) (F : Forest) {t : Tree T} (h : t.Fits F) : ∃ Q : Nat → Quadtree T, HoldsOn size F t Q := by
  choose m hm using fun r => rep_exists r F h (a := []) Addr.Valid.nil
  exact ⟨fun r => ⟨m r, .this⟩, fun r _ => ⟨hm r, rfl⟩⟩

end EF
