import Verif.Proofs.Comm
import Verif.Props.Quadtree

/-!
# Properties C60 and C61: communicators and node objects of a quadtree
-/

namespace EF

variable {K T : Type} [Field K]

/-! ## C60: the constructor and MPI -/

/-- All ranks construct a quadtree; `u r` is what rank `r` has allocated before. -/
def buildConfig (M size : Nat) (nullName : Res Unit) (p : Patch K) (F : Forest) (u : Nat → Usage) :
    Nat → CommProg (NodeMap (Patch K) × Usage) :=
  fun r => constructComm M size r nullName p FVFactory.factory F (u r)

/-- When the leaves belong to two or more ranks, no rank ever comes to a proper end of the constructor: whatever order the
communicators are created in, a rank that ends has given a name to `MPI_COMM_NULL`, which the MPI standard does not allow. -/
theorem C60_several_ranks_wrong {M size : Nat} (p : Patch K) {F : Forest} (hM : F.depth ≤ M) (hs : F.Sorted) (hlt : F.last < size)
    {a b : Nat} (ha : a ∈ F.ranks) (hb : b ∈ F.ranks) (hab : a ≠ b) (u : Nat → Usage) {k : Nat}
    {c : Nat → CommProg (NodeMap (Patch K) × Usage)} (hrun : CommRun k (buildConfig M size .ub p F u) c) (r : Nat)
    {x : Res (NodeMap (Patch K) × Usage)} (hx : c r = .fin x) : x = .ub := by
  obtain ⟨m, hm, -⟩ := construct_ok (M := M) r p hM hs
  have h1 := hrun.result r
  rw [hx] at h1
  have h2 := fold_strict (M := M) (size := size) (r := r) (d := p) (nf := FVFactory.factory) (L := searchAll M r F .root)
    (fun v hv => ⟨(searchAll_ranges hs _ v hv).2.1, lt_of_le_of_lt (searchAll_ranges hs _ v hv).2.2 hlt⟩) (u r) hm
  rw [if_neg] at h2
  · exact h1.trans h2
  · intro hall
    have := (all_owned_iff hs _).mp hall
    exact hab ((this a ha).trans (this b hb).symm)

/-- One rank owns all leaves, as in a run with one process: that rank constructs the tree, with the map of C36 (`construct`),
in every run, and no run can keep it from doing so. -/
theorem C60_one_rank_partial {M size : Nat} (p : Patch K) {F : Forest} (hM : F.depth ≤ M) (hs : F.Sorted) {r : Nat}
    (hall : ∀ k ∈ F.ranks, k = r) (hlt : r < size) (u : Nat → Usage) :
    ∃ m n z, construct M r p FVFactory.factory F = .ok m ∧
      z r = .fin (.ok (m, ⟨(u r).nodes + F.spanned r, (u r).comms + F.spanned r⟩)) ∧
      ∀ k c, CommRun k (buildConfig M size .ub p F u) c → k ≤ n ∧ CommRun (n - k) c z := by
  obtain ⟨m, hm, -⟩ := construct_ok (M := M) r p hM hs
  have hown := (all_owned_iff (M := M) hs .root).mpr hall
  have hrange := fun r v hv => searchAll_ranges (M := M) (r := r) hs .root v hv
  have hlast : F.last = r := hall _ (Forest.last_mem F)
  have hfirst : F.first = r := hall _ (Forest.first_mem F)
  have meets := ctor_meets (M := M) (size := size) (d := p) (nf := FVFactory.factory) F hs (by omega) .root (S := fun q => q = r)
    (fun q hq => by have := hq.1; have := hq.2; omega) (m := fun _ _ => none) (m' := fun _ => m) u (fun q hq => by subst hq; exact hm)
  obtain ⟨n, z, h1, h2, h3⟩ := meets _ (fun _ x => .fin (.ok x)) (buildConfig M size .ub p F u) (fun q hq => by
    subst hq
    show constructComm M size q .ub p FVFactory.factory F (u q) = _
    unfold constructComm
    rw [fold_owned _ _ hown]
    exact (CommProg.bind_pure' _).symm)
  refine ⟨m, n, z, hm, h2 r rfl, fun k c hk => CommRun.all h1 (fun q => ?_) hk⟩
  by_cases hq : q = r
  · exact ⟨_, h2 q hq⟩
  · -- every other rank ends at once
    rw [h3 q hq]
    show ∃ x, constructComm M size q .ub p FVFactory.factory F (u q) = .fin x
    unfold constructComm
    have hne : ∃ v L, searchAll M q F .root = v :: L ∧ v.pfirst = r ∧ v.plast = r := by
      cases F with
      | leaf k => exact ⟨_, _, rfl, hfirst, hlast⟩
      | node c0 c1 c2 c3 => exact ⟨_, _, rfl, hfirst, hlast⟩
    obtain ⟨v, L, e, e1, e2⟩ := hne
    rw [e, List.foldlM_cons]
    refine ⟨.ub, ?_⟩
    unfold ctorVisitComm communicatorSubsetRange
    rw [if_pos (by omega), if_neg (by omega)]
    rfl

/-- With an MPI that ignores the naming of `MPI_COMM_NULL`: there is a number of communicators such that every run, whatever
order the ranks arrive in, can be continued to the same end after that many; there every rank has the map of C36 and one node
object and one communicator per quadrant whose owners include it. -/
theorem C60_lenient_partial {M size : Nat} (p : Patch K) {F : Forest} (hM : F.depth ≤ M) (hs : F.Sorted) (hlt : F.last < size)
    (u : Nat → Usage) :
    ∃ (n : Nat) (m : Nat → NodeMap (Patch K)), (∀ r, construct M r p FVFactory.factory F = .ok (m r)) ∧
      ∀ k c, CommRun k (buildConfig M size (.ok ()) p F u) c → k ≤ n ∧
        CommRun (n - k) c (fun r => .fin (.ok (m r, ⟨(u r).nodes + F.spanned r, (u r).comms + F.spanned r⟩))) := by
  choose m hm _ using fun r => construct_ok (M := M) r p hM hs
  have meets := ctor_meets (M := M) (size := size) (d := p) (nf := FVFactory.factory) F hs hlt .root (S := fun _ => True)
    (fun _ _ => trivial) (m := fun _ _ => none) (m' := m) u (fun r _ => hm r)
  obtain ⟨n, z, h1, h2, -⟩ := meets _ (fun _ x => .fin (.ok x)) (buildConfig M size (.ok ()) p F u)
    (fun q _ => (CommProg.bind_pure' _).symm)
  have hz : z = fun r => .fin (.ok (m r, ⟨(u r).nodes + F.spanned r, (u r).comms + F.spanned r⟩)) := by
    funext r
    exact h2 r trivial
  refine ⟨n, m, hm, fun k c hk => ?_⟩
  have := CommRun.all h1 (by rw [hz]; exact fun r => ⟨_, rfl⟩) hk
  rwa [hz] at this

/-- Two ranks with two leaves each. -/
example (p : Patch ℚ) (u : Nat → Usage) {k : Nat} {c : Nat → CommProg (NodeMap (Patch ℚ) × Usage)}
    (h : CommRun k (buildConfig 29 2 .ub p (.node (.leaf 0) (.leaf 0) (.leaf 1) (.leaf 1)) u) c) (r : Nat)
    {x : Res (NodeMap (Patch ℚ) × Usage)} (hx : c r = .fin x) : x = .ub :=
  C60_several_ranks_wrong p (a := 0) (b := 1) (by decide) (by unfold Forest.Sorted; decide) (by decide) (by decide) (by decide) (by decide) u h r hx

/-- A run of that case: the communicator of the root is created, then both ranks have failed. -/
example (p : Patch ℚ) (u : Nat → Usage) :
    ∃ c, CommRun 1 (buildConfig 29 2 .ub p (.node (.leaf 0) (.leaf 0) (.leaf 1) (.leaf 1)) u) c ∧ c 1 = .fin .ub := by
  refine ⟨_, .step (.create 0 1 0 (fun r => match buildConfig 29 2 .ub p (.node (.leaf 0) (.leaf 0) (.leaf 1) (.leaf 1)) u r with
    | .create _ _ _ k => k
    | q => q) (by decide) (c' := fun r => match buildConfig 29 2 .ub p (.node (.leaf 0) (.leaf 0) (.leaf 1) (.leaf 1)) u r with
    | .create _ _ _ k => if r ≤ 1 then k else buildConfig 29 2 .ub p (.node (.leaf 0) (.leaf 0) (.leaf 1) (.leaf 1)) u r
    | q => q) ?_ ?_ ?_) (.refl _), rfl⟩
  · intro r _ h
    obtain rfl | rfl : r = 0 ∨ r = 1 := by omega
    · rfl
    · rfl
  · intro r _ h
    obtain rfl | rfl : r = 0 ∨ r = 1 := by omega
    · rfl
    · rfl
  · intro r h
    have : ¬ r ≤ 1 := by omega
    split
    · exact if_neg this
    · rfl

/-- One process, seven leaves: nine quadrants. -/
example (p : Patch ℚ) (u : Nat → Usage) : ∃ m n z, construct 29 0 p FVFactory.factory
      (.node (.leaf 0) (.node (.leaf 0) (.leaf 0) (.leaf 0) (.leaf 0)) (.leaf 0) (.leaf 0)) = .ok m ∧
    z 0 = .fin (.ok (m, ⟨(u 0).nodes + 9, (u 0).comms + 9⟩)) ∧
    ∀ k c, CommRun k (buildConfig 29 1 .ub p (.node (.leaf 0) (.node (.leaf 0) (.leaf 0) (.leaf 0) (.leaf 0)) (.leaf 0) (.leaf 0)) u) c →
      k ≤ n ∧ CommRun (n - k) c z :=
  C60_one_rank_partial p (by decide) (by unfold Forest.Sorted; decide) (by decide) (by decide) u

/-- Two processes and a lenient MPI. -/
example (p : Patch ℚ) (u : Nat → Usage) : ∃ (n : Nat) (m : Nat → NodeMap (Patch ℚ)),
    (∀ r, construct 29 r p FVFactory.factory (.node (.leaf 0) (.leaf 0) (.leaf 1) (.leaf 1)) = .ok (m r)) ∧
    ∀ k c, CommRun k (buildConfig 29 2 (.ok ()) p (.node (.leaf 0) (.leaf 0) (.leaf 1) (.leaf 1)) u) c → k ≤ n ∧
      CommRun (n - k) c (fun r => .fin (.ok (m r, ⟨(u r).nodes + Forest.spanned r (.node (.leaf 0) (.leaf 0) (.leaf 1) (.leaf 1)),
        (u r).comms + Forest.spanned r (.node (.leaf 0) (.leaf 0) (.leaf 1) (.leaf 1))⟩))) :=
  C60_lenient_partial p (by decide) (by unfold Forest.Sorted; decide) (by decide) u

/-! ## C61: what a mesh leaves behind -/

/-- Number of quadrants of a forest on one rank. -/
theorem spanned_one {F : Forest} {r : Nat} (h : ∀ k ∈ F.ranks, k = r) : 3 * F.spanned r + 1 = 4 * F.ranks.length := by
  induction F with
  | leaf k => simp [Forest.spanned, Forest.ranks, h k (by simp [Forest.ranks])]
  | node c0 c1 c2 c3 h0 h1 h2 h3 =>
    obtain ⟨a0, a1, a2, a3⟩ := Forest.AllOn.kids (show (Forest.node c0 c1 c2 c3).AllOn r from h)
    have e0 := h0 a0; have e1 := h1 a1; have e2 := h2 a2; have e3 := h3 a3
    have f0 : c0.first = r := a0.first
    have f3 : c3.last = r := a3.last
    simp only [Forest.spanned, Forest.ranks, List.length_append, f0, f3, le_refl, and_self, if_true]
    omega

/-- What rank `r` has after constructing its part of `F`, under either reading of MPI, if it gets there. -/
theorem construct_usage {M size r : Nat} {nullName : Res Unit} (hn : nullName = .ok () ∨ nullName = .ub) (p : Patch K) {F : Forest}
    (hM : F.depth ≤ M) (hs : F.Sorted) (hlt : F.last < size) (u : Usage) {x : NodeMap (Patch K) × Usage}
    (h : (constructComm M size r nullName p FVFactory.factory F u).result = .ok x) :
    construct M r p FVFactory.factory F = .ok x.1 ∧ x.2 = ⟨u.nodes + F.spanned r, u.comms + F.spanned r⟩ := by
  obtain ⟨m, hm, -⟩ := construct_ok (M := M) r p hM hs
  have hr := fun v hv => searchAll_ranges (M := M) (r := r) hs .root v hv
  have hL : ∀ v ∈ searchAll M r F .root, v.pfirst ≤ v.plast ∧ v.plast < size := fun v hv => ⟨(hr v hv).2.1, lt_of_le_of_lt (hr v hv).2.2 hlt⟩
  rcases hn with rfl | rfl
  · have := fold_lenient (M := M) (size := size) (d := p) (nf := FVFactory.factory) hL u hm
    rw [ownedCount_searchAll hs] at this
    have := h.symm.trans this
    rw [Res.ok_inj] at this
    subst this
    exact ⟨hm, rfl⟩
  · have h2 := fold_strict (M := M) (size := size) (d := p) (nf := FVFactory.factory) hL u hm
    have h3 := h.symm.trans h2
    by_cases hall : ∀ v ∈ searchAll M r F .root, v.Owned r
    · rw [if_pos hall, Res.ok_inj] at h3
      subst h3
      refine ⟨hm, ?_⟩
      have : (searchAll M r F .root).length = F.spanned r := by
        rw [← ownedCount_searchAll (M := M) hs .root]
        exact (List.countP_eq_length.mpr (fun v hv => decide_eq_true (hall v hv))).symm
      rw [this]
    · rw [if_neg hall] at h3
      cases h3

/-- A mesh is built and refined for any list of forests and then destroyed.  A rank that comes to the end still has one node
object and one communicator per quadrant it ever owned, over all the refinements: nothing is given back. -/
theorem C61_leak_wrong {M size r : Nat} {nullName : Res Unit} (hn : nullName = .ok () ∨ nullName = .ub) (p : Patch K)
    {Fs : List Forest} (hF : ∀ F ∈ Fs, F.depth ≤ M ∧ F.Sorted ∧ F.last < size) (u : Nat → Usage) {k : Nat} {c : Nat → CommProg Usage}
    (hrun : CommRun k (fun r => Mesh.lifetime M size r nullName p FVFactory.factory Fs (u r)) c) {x : Usage}
    (hx : c r = .fin (.ok x)) :
    x = ⟨(u r).nodes + (Fs.map (Forest.spanned r)).sum, (u r).comms + (Fs.map (Forest.spanned r)).sum⟩ := by
  have h1 := hrun.result r
  rw [hx] at h1
  have key : ∀ (Fs : List Forest) (s s' : NodeMap (Patch K) × Usage), (∀ F ∈ Fs, F.depth ≤ M ∧ F.Sorted ∧ F.last < size) →
      (Fs.foldlM (Mesh.rebuildTree M size r nullName p FVFactory.factory) s).result = .ok s' →
      s'.2 = ⟨s.2.nodes + (Fs.map (Forest.spanned r)).sum, s.2.comms + (Fs.map (Forest.spanned r)).sum⟩ := by
    intro Fs
    induction Fs with
    | nil =>
      intro s s' _ h
      cases h
      rfl
    | cons F Fs ih =>
      intro s s' hF h
      rw [List.foldlM_cons, CommProg.result_bind, Res.bind_eq_ok] at h
      obtain ⟨s1, e1, e2⟩ := h
      unfold Mesh.rebuildTree at e1
      rw [CommProg.result_bind, Res.bind_eq_ok] at e1
      obtain ⟨t, e3, e4⟩ := e1
      obtain ⟨f1, f2, f3⟩ := hF F (by simp)
      have g := (construct_usage hn p f1 f2 f3 s.2 e3).2
      cases e4
      rw [ih _ s' (fun G hG => hF G (by simp [hG])) e2]
      simp only [Quadtree.moveAssign, Quadtree.destroy, g, List.map_cons, List.sum_cons]
      congr 1 <;> omega
  unfold Mesh.lifetime at h1
  rw [CommProg.result_bind] at h1
  have h2 := h1.symm
  change _ = Res.ok x at h2
  rw [Res.bind_eq_ok] at h2
  obtain ⟨s, e1, e2⟩ := h2
  cases e2
  exact key Fs _ s hF e1

/-- In a run with one process, each of the `n` refinements to a forest with `L` leaves leaves `(4 L - 1) / 3` node objects
behind. -/
theorem C61_leak_serial_wrong {M : Nat} (p : Patch K) {F : Forest} (hM : F.depth ≤ M) (hs : F.Sorted) (hall : ∀ k ∈ F.ranks, k = 0)
    (n : Nat) :
    ∃ k c x, CommRun k (fun r => Mesh.lifetime M 1 r .ub p FVFactory.factory (List.replicate n F) ⟨0, 0⟩) c ∧ c 0 = .fin (.ok x) ∧
      3 * x.nodes + n = n * (4 * F.ranks.length) ∧ x.comms = x.nodes := by
  have hlt : F.last < 1 := by rw [hall _ (Forest.last_mem F)]; exact Nat.one_pos
  -- rank 0 alone comes to the end
  have one : ∀ (j : Nat) (s : NodeMap (Patch K) × Usage), ∃ s', ∀ (α : Type) (κ : NodeMap (Patch K) × Usage → CommProg α) (c : Nat → CommProg α),
      c 0 = ((List.replicate j F).foldlM (Mesh.rebuildTree M 1 0 .ub p FVFactory.factory) s >>= κ) →
      ∃ k c', CommRun k c c' ∧ c' 0 = κ s' := by
    intro j
    induction j with
    | zero =>
      intro s
      exact ⟨s, fun α κ c hc => ⟨0, c, .refl _, hc⟩⟩
    | succ j ih =>
      intro s
      obtain ⟨m, -, -, hm, -, -⟩ := C60_one_rank_partial (size := 1) p hM hs hall Nat.one_pos (fun _ => s.2)
      obtain ⟨s', hs'⟩ := ih (m, ⟨s.2.nodes + F.spanned 0, s.2.comms + F.spanned 0⟩)
      refine ⟨s', fun α κ c hc => ?_⟩
      have hown := (all_owned_iff (M := M) hs .root).mpr hall
      have meets := ctor_meets (M := M) (size := 1) (d := p) (nf := FVFactory.factory) F hs hlt .root (S := fun q => q = 0)
        (fun q hq => by have := hq.2; omega) (m := fun _ _ => none) (m' := fun _ => m) (fun _ => s.2) (fun q hq => by subst hq; exact hm)
      have hc' : c 0 = (searchAll M 0 F .root).foldlM (ctorVisitComm M 1 0 (.ok ()) p FVFactory.factory) ((fun _ => none), s.2) >>=
          fun t => (List.replicate j F).foldlM (Mesh.rebuildTree M 1 0 .ub p FVFactory.factory) (t.1, t.2) >>= κ := by
        rw [hc, ← fold_owned _ _ hown, List.replicate_succ, List.foldlM_cons, bind_assoc]
        conv_lhs => arg 1; unfold Mesh.rebuildTree
        rw [bind_assoc]
        rfl
      obtain ⟨k1, c1, r1, e1, -⟩ := meets α (fun _ t => (List.replicate j F).foldlM (Mesh.rebuildTree M 1 0 .ub p FVFactory.factory)
        (t.1, t.2) >>= κ) c (fun q hq => by subst hq; exact hc')
      obtain ⟨k2, c2, r2, e2⟩ := hs' α κ c1 (by rw [e1 0 rfl])
      exact ⟨_, c2, r1.trans r2, e2⟩
  obtain ⟨s', hs'⟩ := one n ((fun _ => none), ⟨0, 0⟩)
  obtain ⟨k, c, hr, hc⟩ := hs' Usage (fun s => pure (Quadtree.destroy s.1 s.2))
    (fun r => Mesh.lifetime M 1 r .ub p FVFactory.factory (List.replicate n F) ⟨0, 0⟩) rfl
  refine ⟨k, c, _, hr, hc, ?_⟩
  have := C61_leak_wrong (r := 0) (.inr rfl) p (Fs := List.replicate n F) (fun G hG => by
    rw [List.eq_of_mem_replicate hG]; exact ⟨hM, hs, hlt⟩) (fun _ => ⟨0, 0⟩) hr hc
  rw [this]
  simp only [List.map_replicate, List.sum_replicate, smul_eq_mul, Nat.zero_add, and_true]
  have := spanned_one hall
  calc 3 * (n * F.spanned 0) + n = n * (3 * F.spanned 0 + 1) := by ring
    _ = _ := by rw [this]

/-- Ten refinements to seven leaves leave ninety node objects and ninety communicators behind. -/
example (p : Patch ℚ) : ∃ k c x, CommRun k (fun r => Mesh.lifetime 29 1 r .ub p FVFactory.factory
      (List.replicate 10 (.node (.leaf 0) (.node (.leaf 0) (.leaf 0) (.leaf 0) (.leaf 0)) (.leaf 0) (.leaf 0))) ⟨0, 0⟩) c ∧
    c 0 = .fin (.ok x) ∧ x.nodes = 90 ∧ x.comms = 90 := by
  obtain ⟨k, c, x, h1, h2, h3, h4⟩ := C61_leak_serial_wrong (M := 29) p
    (F := .node (.leaf 0) (.node (.leaf 0) (.leaf 0) (.leaf 0) (.leaf 0)) (.leaf 0) (.leaf 0)) (by decide) (by unfold Forest.Sorted; decide)
    (by decide) 10
  refine ⟨k, c, x, h1, h2, ?_, ?_⟩ <;> simp [Forest.ranks] at h3 <;> omega

/-- What does hold: after each refinement the mesh has exactly the tree just constructed, and the temporary tree holds no
node any more. -/
theorem C61_new_tree_partial {M size r : Nat} {nullName : Res Unit} (hn : nullName = .ok () ∨ nullName = .ub) (p : Patch K)
    {F : Forest} (hM : F.depth ≤ M) (hs : F.Sorted) (hlt : F.last < size) (s : Nat → NodeMap (Patch K) × Usage) {k : Nat}
    {c : Nat → CommProg (NodeMap (Patch K) × Usage)}
    (hrun : CommRun k (fun r => Mesh.rebuildTree M size r nullName p FVFactory.factory (s r) F) c) {x : NodeMap (Patch K) × Usage}
    (hx : c r = .fin (.ok x)) :
    construct M r p FVFactory.factory F = .ok x.1 ∧
      ∀ (old : NodeMap (Patch K)) (w : Usage) t n, (Quadtree.moveAssign old x.1 w).2.1 t ≠ some (some n) := by
  have h1 := hrun.result r
  rw [hx] at h1
  have h2 := h1.symm
  unfold Mesh.rebuildTree at h2
  rw [CommProg.result_bind] at h2
  change _ = Res.ok x at h2
  rw [Res.bind_eq_ok] at h2
  obtain ⟨t, e1, e2⟩ := h2
  cases e2
  refine ⟨(construct_usage hn p hM hs hlt _ e1).1, ?_⟩
  intro old w t' n hh
  simp only [Quadtree.moveAssign, Option.map_eq_some_iff] at hh
  obtain ⟨y, -, hy⟩ := hh
  cases hy

end EF
