import Verif.Proofs.Shares
import Verif.Proofs.ParallelRun

/-!
# The first broadcast of a run on several ranks
-/

namespace EF

open MPI

variable {K T τ α : Type}

/-- At a node with several owners every owner first agrees with the others on a root for the broadcast of a child. -/
theorem mergeSplit_casts [Inhabited T] {M r : Nat} {lf : T → τ → Res (T × τ)} {ff : Fam T → Res (Fam T)} {a : Addr} (ha : a.Valid)
    (hl : a.length ≤ M) {c0 c1 c2 c3 : Forest} {d : T} {m : NodeMap T} {s : τ} (h : Entry r (.node c0 c1 c2 c3) d a m)
    (hr : (Forest.node c0 c1 c2 c3).Spans r) (hne : c0.first ≠ c3.last) :
    ∃ (v : Nat) (mine : Node T) (k : Nat → Node T → Prog T ((NodeMap T × τ) × Bool)), c0.first + v ≤ c3.last ∧
      mergeSplit M r .this .broadcast (onData lf) (onFamily ff) (a.quad M) false (m, s)
        = .allMax c0.first c3.last a.text v (fun n => .bcast c0.first c3.last a.text n mine (k n)) := by
  unfold Entry at h
  rw [if_pos hr] at h
  have hr' : c0.first ≤ r ∧ r ≤ c3.last := hr
  unfold mergeSplit
  rw [if_neg (by simp), (Addr.quad_spec ha hl).2.2]
  dsimp only
  rw [h]
  dsimp only
  rw [nodeOf_comm]
  dsimp only
  rw [if_neg (by simp), if_neg (show ¬ (nodeOf d a (.node c0 c1 c2 c3)).pfirst = (nodeOf d a (.node c0 c1 c2 c3)).plast from
    hne), if_pos (show (nodeOf d a (.node c0 c1 c2 c3)).pfirst ≤ r ∧ r ≤ (nodeOf d a (.node c0 c1 c2 c3)).plast from hr), nodeOf_path]
  refine ⟨if (m.get (a.text ++ natText 0)).1.isSome then r - c0.first else 0, _, _, ?_, rfl⟩
  split <;> omega

theorem EveryRank.ends {F : Forest} {size : Nat} (h : EveryRank F size) (hs : F.Sorted) (h2 : 2 ≤ size) : F.first ≠ F.last := by
  have h0 := hs.spans_of_mem ((h 0).mp (by omega))
  have h1 := hs.spans_of_mem ((h 1).mp (by omega))
  have a1 := h0.1
  have a2 := h1.2
  omega

/-- A merge on at least two ranks comes to a broadcast. -/
theorem merge_meets [Inhabited T] {M size : Nat} {F : Forest} (hM : F.depth ≤ M) (hs : F.Sorted) (hr : EveryRank F size) (h2 : 2 ≤ size)
    {lf : T → τ → Res (T × τ)} {ff : Fam T → Res (Fam T)} {t t' : Tree T} {s s' : Nat → τ}
    (ht : Tree.mergeBy lf ff F t s = .ok (t', s')) {Q : Nat → Quadtree T} (hQ : HoldsOn size F t Q) (κ : Nat → Quadtree T × τ → Prog T α)
    {c : Config T α} (hc : ∀ r, r < size → c r = (Q r).merge M r F .broadcast (onData lf) (onFamily ff) (s r) >>= κ r) :
    ∃ n c', Run n c c' ∧ c'.AtBcast := by
  have e := hr.spans hs
  have e' : ∀ r, r < size ↔ F.Spans r := fun r => by rw [← e]
  have hne := hr.ends hs h2
  cases F with
  | leaf k => exact absurd rfl hne
  | node c0 c1 c2 c3 =>
    obtain ⟨d, m3, s3, he, hrun⟩ := mergeBy_kids_runs (M := M) (m := fun r => (Q r).map) (a := []) Addr.Valid.nil
      (by simpa using hM) hs (hr.full hs) ht (fun r h => (hQ r ((e' r).mpr h)).1)
    obtain ⟨n, c1', r1, r2, -⟩ := hrun α (fun r x =>
      (mergeSplit M r .this .broadcast (onData lf) (onFamily ff) (Addr.quad M []) false x >>= fun x =>
        (Pure.pure (⟨x.1.1, .this⟩, x.1.2) : Prog T (Quadtree T × τ))) >>= κ r) c (by
      intro r hsp
      have hlt := (e' r).mpr hsp
      rw [hc r hlt]
      unfold Quadtree.merge
      rw [(hQ r hlt).2]
      have hroot : (Addr.quad M [] : Quadrant) = .root := rfl
      simp only [← hroot, searchPost, ← Addr.quad_snoc]
      rw [if_pos ((hr.full hs) r hsp)]
      simp only [bind_assoc, pure_bind])
    have hlast : c0.first ≤ c3.last := hs.first_le_last
    have key : ∀ r, (Forest.node c0 c1 c2 c3).Spans r → ∃ (v : Nat) (mine : Node T) (k : Nat → Node T → Prog T α),
        c0.first + v ≤ c3.last ∧ c1' r = .allMax c0.first c3.last (Addr.text []) v
          (fun n => .bcast c0.first c3.last (Addr.text []) n mine (k n)) := by
      intro r hsp
      obtain ⟨v, mine, k, k1, k2⟩ := mergeSplit_casts (M := M) (lf := lf) (ff := ff) (s := s3 r) Addr.Valid.nil (by simp) (he r hsp) hsp hne
      refine ⟨v, mine, fun n x => (k n x >>= fun x => (Pure.pure (⟨x.1.1, .this⟩, x.1.2) : Prog T (Quadtree T × τ))) >>= κ r, k1, ?_⟩
      rw [r2 r hsp, k2]
      rfl
    have key' : ∃ (v : Nat → Nat) (mine : Nat → Node T) (k : Nat → Nat → Node T → Prog T α), ∀ r, (Forest.node c0 c1 c2 c3).Spans r →
        c0.first + v r ≤ c3.last ∧ c1' r = .allMax c0.first c3.last (Addr.text []) (v r)
          (fun n => .bcast c0.first c3.last (Addr.text []) n (mine r) (k r n)) := by
      have : ∀ r, ∃ (v : Nat) (mine : Node T) (k : Nat → Node T → Prog T α), (Forest.node c0 c1 c2 c3).Spans r →
          c0.first + v ≤ c3.last ∧ c1' r = .allMax c0.first c3.last (Addr.text []) v
            (fun n => .bcast c0.first c3.last (Addr.text []) n mine (k n)) := by
        intro r
        by_cases h : (Forest.node c0 c1 c2 c3).Spans r
        · obtain ⟨v, mine, k, h⟩ := key r h
          exact ⟨v, mine, k, fun _ => h⟩
        · exact ⟨0, Node.blank, fun _ _ => .fin .ub, fun h' => absurd h' h⟩
      choose v mine k h using this
      exact ⟨v, mine, k, h⟩
    obtain ⟨v, mine, k, hk⟩ := key'
    let top := (Finset.Icc c0.first c3.last).sup v
    refine ⟨1 + n, fun r => if c0.first ≤ r ∧ r ≤ c3.last then .bcast c0.first c3.last (Addr.text []) top (mine r) (k r top) else c1' r,
      r1.trans (.step (.allMax c0.first c3.last (Addr.text []) v (fun r n => .bcast c0.first c3.last (Addr.text []) n (mine r) (k r n))
        hlast ?_ ?_ ?_) (.refl _)), c0.first, c3.last, Addr.text [], top, mine, fun r => k r top, ?_, ?_⟩
    · exact fun r h1 h2 => (hk r ⟨h1, h2⟩).2
    · exact fun r h1 h2 => if_pos ⟨h1, h2⟩
    · exact fun r h => if_neg h
    · have : top ≤ c3.last - c0.first := Finset.sup_le fun r hr' => by
        have := (hk r (Finset.mem_Icc.mp hr')).1
        omega
      omega
    · exact fun r h1 h2 => if_pos ⟨h1, h2⟩

end EF
