import Verif.Spec.Calls
import Verif.Spec.ParallelHPS
import Verif.Proofs.Message
import Verif.Proofs.Parallel

/-!
# From broadcasts of nodes to calls of `MPI_Bcast`
-/

namespace EF.MPI

variable {K T α β : Type} {D : Dialect}

/-! ## Confluence -/

/-- Two calls that can happen are the same or do not disturb each other. -/
theorem CallStep.diamond {c c1 c2 : Nat → Calls K α} (h1 : CallStep c c1) (h2 : CallStep c c2) :
    c1 = c2 ∨ ∃ d, CallStep c1 d ∧ CallStep c2 d := by
  cases h1 with
  | allMax lo hi name v k hle arr lv oth =>
    cases h2 with
    | allMax lo' hi' name' v' k' hle' arr' lv' oth' =>
      by_cases hx : ∃ r, (lo ≤ r ∧ r ≤ hi) ∧ (lo' ≤ r ∧ r ≤ hi')
      · obtain ⟨r, ⟨a1, a2⟩, b1, b2⟩ := hx
        have := (arr r a1 a2).symm.trans (arr' r b1 b2)
        injection this with e1 e2 e3 e4 e5
        subst e1 e2
        left
        have same : ∀ q, lo ≤ q → q ≤ hi → v q = v' q ∧ k q = k' q := by
          intro q q1 q2
          have := (arr q q1 q2).symm.trans (arr' q q1 q2)
          injection this with _ _ _ e4 e5
          exact ⟨e4, e5⟩
        funext q
        by_cases hq : lo ≤ q ∧ q ≤ hi
        · rw [lv q hq.1 hq.2, lv' q hq.1 hq.2, (same q hq.1 hq.2).2]
          congr 1
          exact Finset.sup_congr rfl (fun r hr => (same r (Finset.mem_Icc.mp hr).1 (Finset.mem_Icc.mp hr).2).1)
        · rw [oth q hq, oth' q hq]
      · right
        push_neg at hx
        refine ⟨fun q => if lo' ≤ q ∧ q ≤ hi' then k' q ((Finset.Icc lo' hi').sup v') else c1 q,
          .allMax lo' hi' name' v' k' hle' ?_ ?_ ?_, .allMax lo hi name v k hle ?_ ?_ ?_⟩
        · intro r h h'
          rw [oth r (fun hh => absurd h' (not_le.mpr (hx r hh h))), arr' r h h']
        · intro r h h'
          exact if_pos ⟨h, h'⟩
        · intro r h
          exact if_neg h
        · intro r h h'
          have hn : ¬ (lo' ≤ r ∧ r ≤ hi') := fun hh => absurd hh.2 (not_le.mpr (hx r ⟨h, h'⟩ hh.1))
          rw [oth' r hn, arr r h h']
        · intro r h h'
          have hn : ¬ (lo' ≤ r ∧ r ≤ hi') := fun hh => absurd hh.2 (not_le.mpr (hx r ⟨h, h'⟩ hh.1))
          show (if _ then _ else _) = _
          rw [if_neg hn, lv r h h']
        · intro r h
          show (if _ then _ else _) = _
          split
          · rename_i hh
            rw [lv' r hh.1 hh.2]
          · rename_i hh
            rw [oth r h, oth' r hh]
    | bcast lo' hi' name' root' kd' v' k' hle' arr' ct' lv' oth' =>
      have hx : ∀ r, (lo ≤ r ∧ r ≤ hi) → ¬ (lo' ≤ r ∧ r ≤ hi') := by
        intro r a b
        have := (arr r a.1 a.2).symm.trans (arr' r b.1 b.2)
        cases this
      right
      refine ⟨fun q => if lo' ≤ q ∧ q ≤ hi' then k' q (v' (lo' + root')) else c1 q,
        .bcast lo' hi' name' root' kd' v' k' hle' ?_ ct' ?_ ?_, .allMax lo hi name v k hle ?_ ?_ ?_⟩
      · intro r h h'
        rw [oth r (fun hh => hx r hh ⟨h, h'⟩), arr' r h h']
      · intro r h h'
        exact if_pos ⟨h, h'⟩
      · intro r h
        exact if_neg h
      · intro r h h'
        rw [oth' r (hx r ⟨h, h'⟩), arr r h h']
      · intro r h h'
        show (if _ then _ else _) = _
        rw [if_neg (hx r ⟨h, h'⟩), lv r h h']
      · intro r h
        show (if _ then _ else _) = _
        split
        · rename_i hh
          rw [lv' r hh.1 hh.2]
        · rename_i hh
          rw [oth r h, oth' r hh]
  | bcast lo hi name root kd v k hle arr ct lv oth =>
    cases h2 with
    | allMax lo' hi' name' v' k' hle' arr' lv' oth' =>
      have hx : ∀ r, (lo ≤ r ∧ r ≤ hi) → ¬ (lo' ≤ r ∧ r ≤ hi') := by
        intro r a b
        have := (arr r a.1 a.2).symm.trans (arr' r b.1 b.2)
        cases this
      right
      refine ⟨fun q => if lo' ≤ q ∧ q ≤ hi' then k' q ((Finset.Icc lo' hi').sup v') else c1 q,
        .allMax lo' hi' name' v' k' hle' ?_ ?_ ?_, .bcast lo hi name root kd v k hle ?_ ct ?_ ?_⟩
      · intro r h h'
        rw [oth r (fun hh => hx r hh ⟨h, h'⟩), arr' r h h']
      · intro r h h'
        exact if_pos ⟨h, h'⟩
      · intro r h
        exact if_neg h
      · intro r h h'
        rw [oth' r (hx r ⟨h, h'⟩), arr r h h']
      · intro r h h'
        show (if _ then _ else _) = _
        rw [if_neg (hx r ⟨h, h'⟩), lv r h h']
      · intro r h
        show (if _ then _ else _) = _
        split
        · rename_i hh
          rw [lv' r hh.1 hh.2]
        · rename_i hh
          rw [oth r h, oth' r hh]
    | bcast lo' hi' name' root' kd' v' k' hle' arr' ct' lv' oth' =>
      by_cases hx : ∃ r, (lo ≤ r ∧ r ≤ hi) ∧ (lo' ≤ r ∧ r ≤ hi')
      · obtain ⟨r, ⟨a1, a2⟩, b1, b2⟩ := hx
        have := (arr r a1 a2).symm.trans (arr' r b1 b2)
        injection this with e1 e2 e3 e4 e5 e6 e7
        subst e1 e2 e4 e5
        left
        have same : ∀ q, lo ≤ q → q ≤ hi → v q = v' q ∧ k q = k' q := by
          intro q q1 q2
          have := (arr q q1 q2).symm.trans (arr' q q1 q2)
          injection this with _ _ _ _ _ e4 e5
          exact ⟨e4, e5⟩
        funext q
        by_cases hq : lo ≤ q ∧ q ≤ hi
        · rw [lv q hq.1 hq.2, lv' q hq.1 hq.2, (same q hq.1 hq.2).2, (same (lo + root) (by omega) hle).1]
        · rw [oth q hq, oth' q hq]
      · right
        push_neg at hx
        refine ⟨fun q => if lo' ≤ q ∧ q ≤ hi' then k' q (v' (lo' + root')) else c1 q,
          .bcast lo' hi' name' root' kd' v' k' hle' ?_ ct' ?_ ?_, .bcast lo hi name root kd v k hle ?_ ct ?_ ?_⟩
        · intro r h h'
          rw [oth r (fun hh => absurd h' (not_le.mpr (hx r hh h))), arr' r h h']
        · intro r h h'
          exact if_pos ⟨h, h'⟩
        · intro r h
          exact if_neg h
        · intro r h h'
          have hn : ¬ (lo' ≤ r ∧ r ≤ hi') := fun hh => absurd hh.2 (not_le.mpr (hx r ⟨h, h'⟩ hh.1))
          rw [oth' r hn, arr r h h']
        · intro r h h'
          have hn : ¬ (lo' ≤ r ∧ r ≤ hi') := fun hh => absurd hh.2 (not_le.mpr (hx r ⟨h, h'⟩ hh.1))
          show (if _ then _ else _) = _
          rw [if_neg hn, lv r h h']
        · intro r h
          show (if _ then _ else _) = _
          split
          · rename_i hh
            rw [lv' r hh.1 hh.2]
          · rename_i hh
            rw [oth r h, oth' r hh]

/-- A rank that has ended stays as it is. -/
theorem CallStep.fin {c c' : Nat → Calls K α} (h : CallStep c c') {r : Nat} {x : Res α} (hr : c r = .fin x) : c' r = .fin x := by
  cases h with
  | allMax lo hi name v k hle arr lv oth =>
    by_cases hh : lo ≤ r ∧ r ≤ hi
    · have := (arr r hh.1 hh.2).symm.trans hr
      cases this
    · rw [oth r hh, hr]
  | bcast lo hi name root kd v k hle arr ct lv oth =>
    by_cases hh : lo ≤ r ∧ r ≤ hi
    · have := (arr r hh.1 hh.2).symm.trans hr
      cases this
    · rw [oth r hh, hr]

theorem CallRun.fin {n : Nat} {c c' : Nat → Calls K α} (h : CallRun n c c') {r : Nat} {x : Res α} (hr : c r = .fin x) :
    c' r = .fin x := by
  induction h with
  | refl => exact hr
  | step hs _ ih => exact ih (hs.fin hr)

theorem CallRun.trans {n n' : Nat} {a b c : Nat → Calls K α} (h : CallRun n a b) (h' : CallRun n' b c) : CallRun (n' + n) a c := by
  induction h with
  | refl => exact h'
  | step hs _ ih => exact .step hs (ih h')

theorem CallStep.not_done {c c' : Nat → Calls K α} (h : CallStep c c') (hz : ∀ r, ∃ x, c r = .fin x) : False := by
  cases h with
  | allMax lo hi name v k hle arr _ _ =>
    obtain ⟨x, hx⟩ := hz lo
    rw [arr lo (le_refl _) hle] at hx
    cases hx
  | bcast lo hi name root kd v k hle arr _ _ _ =>
    obtain ⟨x, hx⟩ := hz lo
    rw [arr lo (le_refl _) (by omega)] at hx
    cases hx

theorem CallRun.front {n : Nat} {a b z : Nat → Calls K α} (h : CallRun n a z) (hz : ∀ r, ∃ x, z r = .fin x) (hs : CallStep a b) :
    ∃ n', n = n' + 1 ∧ CallRun n' b z := by
  induction h generalizing b with
  | refl => exact (hs.not_done hz).elim
  | step h1 rest ih =>
    rename_i n c c' c''
    rcases h1.diamond hs with rfl | ⟨d, e1, e2⟩
    · exact ⟨n, rfl, rest⟩
    · obtain ⟨n', rfl, hr⟩ := ih hz e1
      exact ⟨n' + 1, rfl, .step e2 hr⟩

/-- When one run ends, every run can be completed to that same end, in the same total number of calls. -/
theorem CallRun.all {n k : Nat} {a b z : Nat → Calls K α} (h : CallRun n a z) (hz : ∀ r, ∃ x, z r = .fin x) (hb : CallRun k a b) :
    k ≤ n ∧ CallRun (n - k) b z := by
  induction hb generalizing n with
  | refl => exact ⟨by omega, h⟩
  | step hs _ ih =>
    obtain ⟨n', rfl, hr⟩ := h.front hz hs
    obtain ⟨e1, e2⟩ := ih hr
    exact ⟨by omega, by rwa [Nat.add_sub_add_right]⟩

/-! ## Broadcasts on one communicator among all ranks -/

theorem CastStep.calls {n : Nat} {c c' : Nat → Caster K β} (h : CastStep n c c') {lo hi : Nat} (hn : n = hi + 1 - lo) (name : Text)
    {κ : Nat → β → Calls K α} {d : Nat → Calls K α}
    (hd : ∀ r, lo ≤ r → r ≤ hi → d r = .onComm lo hi name (c (r - lo)) (κ r)) :
    ∃ d', CallStep d d' ∧ (∀ r, lo ≤ r → r ≤ hi → d' r = .onComm lo hi name (c' (r - lo)) (κ r)) ∧
      ∀ r, ¬ (lo ≤ r ∧ r ≤ hi) → d' r = d r := by
  cases h with
  | bcast root k mine next hroot arrived count leaves others =>
    have e : lo + root - lo = root := by omega
    refine ⟨fun r => if lo ≤ r ∧ r ≤ hi then .onComm lo hi name (c' (r - lo)) (κ r) else d r,
      .bcast lo hi name root k (fun r => mine (r - lo)) (fun r l => .onComm lo hi name (next (r - lo) l) (κ r)) (by omega) ?_ ?_ ?_ ?_,
      fun r h1 h2 => if_pos ⟨h1, h2⟩, fun r h => if_neg h⟩
    · intro r h1 h2
      rw [hd r h1 h2, arrived (r - lo) (by omega)]
      rfl
    · intro r h1 h2
      simp only [e]
      exact count (r - lo) (by omega)
    · intro r h1 h2
      simp only [e]
      rw [if_pos ⟨h1, h2⟩, leaves (r - lo) (by omega)]
    · intro r h
      exact if_neg h

/-- Ranks that run together on their communicator do so among all ranks. -/
theorem Repl.calls {n : Nat} {c : Nat → Caster K β} {a : Nat → β} (h : Repl n c a) {lo hi : Nat} (hn : n = hi + 1 - lo) (name : Text)
    {κ : Nat → β → Calls K α} {d : Nat → Calls K α}
    (hd : ∀ r, lo ≤ r → r ≤ hi → d r = .onComm lo hi name (c (r - lo)) (κ r)) :
    ∃ m d', CallRun m d d' ∧ (∀ r, lo ≤ r → r ≤ hi → d' r = κ r (a (r - lo))) ∧ ∀ r, ¬ (lo ≤ r ∧ r ≤ hi) → d' r = d r := by
  induction h generalizing d with
  | fin h =>
    refine ⟨0, d, .refl d, fun r h1 h2 => ?_, fun r _ => rfl⟩
    rw [hd r h1 h2, h (r - lo) (by omega)]
    rfl
  | step hs _ ih =>
    obtain ⟨d1, e1, e2, e3⟩ := hs.calls hn name hd
    obtain ⟨m, d2, f1, f2, f3⟩ := ih e2
    exact ⟨m + 1, d2, .step e1 f1, f2, fun r h => (f3 r h).trans (e3 r h)⟩

theorem Crash.calls {n e : Nat} {c : Nat → Caster K β} (h : Crash n e c) {lo hi : Nat} (hn : n = hi + 1 - lo) (he : e < n) (name : Text)
    {κ : Nat → β → Calls K α} {d : Nat → Calls K α}
    (hd : ∀ r, lo ≤ r → r ≤ hi → d r = .onComm lo hi name (c (r - lo)) (κ r)) :
    ∃ m d', CallRun m d d' ∧ d' (lo + e) = .fin .ub := by
  induction h generalizing d with
  | here h =>
    refine ⟨0, d, .refl d, ?_⟩
    rw [hd (lo + e) (by omega) (by omega), show lo + e - lo = e by omega, h]
    rfl
  | step hs _ ih =>
    obtain ⟨d1, e1, e2, _⟩ := hs.calls hn name hd
    obtain ⟨m, d2, f1, f2⟩ := ih e2
    exact ⟨m + 1, d2, .step e1 f1, f2⟩

end EF.MPI

namespace EF

open MPI

variable {K T α β : Type} {D : Dialect}

/-! ## What a program broadcasts -/

/-- Whatever the collectives deliver, the program broadcasts only nodes whose data satisfies `P` — as long as those it receives do —
and a value it returns satisfies `Q`. -/
inductive Prog.Shares (P : T → Prop) (Q : α → Prop) : Prog T α → Prop
  | ok {a : α} (h : Q a) : Shares P Q (.fin (.ok a))
  | throw (e : Exn) : Shares P Q (.fin (.throw e))
  | ub : Shares P Q (.fin .ub)
  | allMax {lo hi : Nat} {name : Text} {v : Nat} {k : Nat → Prog T α} (h : ∀ n, Shares P Q (k n)) : Shares P Q (.allMax lo hi name v k)
  | bcast {lo hi : Nat} {name : Text} {root : Nat} {v : Node T} {k : Node T → Prog T α} (hv : P v.data)
      (h : ∀ n, P n.data → Shares P Q (k n)) : Shares P Q (.bcast lo hi name root v k)

namespace Prog.Shares

variable {P : T → Prop} {Q : α → Prop} {R : β → Prop}

theorem bind {p : Prog T α} {f : α → Prog T β} (h : Shares P Q p) (hf : ∀ a, Q a → Shares P R (f a)) : Shares P R (p >>= f) := by
  change Shares P R (p.bind f)
  induction h with
  | ok h => exact hf _ h
  | throw e => exact .throw e
  | ub => exact .ub
  | allMax _ ih => exact .allMax ih
  | bcast hv _ ih => exact .bcast hv ih

theorem mono {p : Prog T α} {Q' : α → Prop} (h : Shares P Q p) (hq : ∀ a, Q a → Q' a) : Shares P Q' p := by
  induction h with
  | ok h => exact .ok (hq _ h)
  | throw e => exact .throw e
  | ub => exact .ub
  | allMax _ ih => exact .allMax ih
  | bcast hv _ ih => exact .bcast hv ih

theorem res {x : Res α} (h : ∀ a, x = .ok a → Q a) : Shares P Q (Prog.fin x) := by
  cases x with
  | ok a => exact .ok (h a rfl)
  | throw e => exact .throw e
  | ub => exact .ub

theorem step {c c' : Config T α} (hs : Step c c') (h : ∀ r, Shares P Q (c r)) (r : Nat) : Shares P Q (c' r) := by
  cases hs with
  | allMax lo hi name v k hle arr lv oth =>
    by_cases hh : lo ≤ r ∧ r ≤ hi
    · have := h r
      rw [arr r hh.1 hh.2] at this
      cases this with
      | allMax h => rw [lv r hh.1 hh.2]; exact h _
    · rw [oth r hh]
      exact h r
  | bcast lo hi name root v k hle arr lv oth =>
    by_cases hh : lo ≤ r ∧ r ≤ hi
    · have h0 := h (lo + root)
      rw [arr _ (by omega) hle] at h0
      have := h r
      rw [arr r hh.1 hh.2] at this
      cases h0 with
      | bcast hv _ =>
        cases this with
        | bcast _ h => rw [lv r hh.1 hh.2]; exact h _ hv
    · rw [oth r hh]
      exact h r

end Prog.Shares

/-! ## Simulation -/

variable [Zero K]

/-- A collective of the programs with broadcasts of nodes is a run of calls. -/
theorem Step.calls (hD : D.emptyFront = true) (hB : D.behind.isSome = true) {c c' : Config (Patch K) α} (hs : Step c c')
    (h : ∀ r, (c r).Shares SoundPatch (fun _ => True)) :
    ∃ m, CallRun m (fun r => Calls.of D r (c r)) (fun r => Calls.of D r (c' r)) := by
  cases hs with
  | allMax lo hi name v k hle arr lv oth =>
    refine ⟨1, .step (.allMax lo hi name v (fun r n => Calls.of D r (k r n)) hle ?_ ?_ ?_) (.refl _)⟩
    · intro r h1 h2
      simp only [arr r h1 h2]
      rfl
    · intro r h1 h2
      simp only [lv r h1 h2]
    · intro r hr
      simp only [oth r hr]
  | bcast lo hi name root v k hle arr lv oth =>
    have hsound : SoundPatch (v (lo + root)).data := by
      have := h (lo + root)
      rw [arr _ (by omega) hle] at this
      cases this with
      | bcast hv _ => exact hv
    have hrep : Repl (hi + 1 - lo) (fun i => castNode D (castPatch D i root) i root (v (lo + i)))
        (fun i => { v (lo + root) with comm := (v (lo + i)).comm }) :=
      repl_node (castData := fun i => castPatch D i root) (nd := fun i => v (lo + i)) (by omega)
        (repl_patch (p := fun i => (v (lo + i)).data) (by omega) hsound (.inl hD)) (fun _ _ => .inl hB)
    obtain ⟨m, d, e1, e2, e3⟩ := hrep.calls rfl name (κ := fun r n => Calls.of D r (k r n)) (d := fun r => Calls.of D r (c r)) (by
      intro r h1 h2
      simp only [arr r h1 h2, show lo + (r - lo) = r by omega]
      rfl)
    refine ⟨m, ?_⟩
    have : d = fun r => Calls.of D r (c' r) := by
      funext r
      by_cases hh : lo ≤ r ∧ r ≤ hi
      · rw [e2 r hh.1 hh.2, lv r hh.1 hh.2, show lo + (r - lo) = r by omega]
      · rw [e3 r hh, oth r hh]
    rwa [this] at e1

theorem Run.calls (hD : D.emptyFront = true) (hB : D.behind.isSome = true) {n : Nat} {c c' : Config (Patch K) α} (hr : Run n c c')
    (h : ∀ r, (c r).Shares SoundPatch (fun _ => True)) :
    ∃ m, CallRun m (fun r => Calls.of D r (c r)) (fun r => Calls.of D r (c' r)) := by
  induction hr with
  | refl => exact ⟨0, .refl _⟩
  | step hs _ ih =>
    obtain ⟨m, h1⟩ := hs.calls hD hB h
    obtain ⟨m', h2⟩ := ih (Prog.Shares.step hs h)
    exact ⟨m' + m, h1.trans h2⟩

theorem AlwaysEnds.calls (hD : D.emptyFront = true) (hB : D.behind.isSome = true) {c : Config (Patch K) α} {z : Nat → α}
    (hz : AlwaysEnds c z) (h : ∀ r, (c r).Shares SoundPatch (fun _ => True)) : CallsEnd (fun r => Calls.of D r (c r)) z := by
  obtain ⟨n, hn⟩ := hz
  obtain ⟨m, hm⟩ := (hn 0 c (.refl c)).2.calls hD hB h
  exact ⟨m, fun k c' hk => hm.all (fun r => ⟨_, rfl⟩) hk⟩

/-- The ranks of a communicator have arrived at the broadcast of a node. -/
def Config.AtBcast (c : Config T α) : Prop :=
  ∃ (lo hi : Nat) (name : Text) (root : Nat) (v : Nat → Node T) (k : Nat → Node T → Prog T α), lo + root ≤ hi ∧
    ∀ r, lo ≤ r → r ≤ hi → c r = .bcast lo hi name root (v r) (k r)

theorem Config.AtBcast.calls (hD : D.emptyFront = false) {P : Patch K → Prop} (hP : ∀ p, P p → SoundPatch p ∧ ¬ FullPatch p)
    {c : Config (Patch K) α} (h : ∀ r, (c r).Shares P (fun _ => True)) (hc : c.AtBcast) :
    ∃ m d e, CallRun m (fun r => Calls.of D r (c r)) d ∧ d e = .fin .ub := by
  obtain ⟨lo, hi, name, root, v, k, hle, arr⟩ := hc
  have hv : P (v (lo + root)).data := by
    have := h (lo + root)
    rw [arr _ (by omega) hle] at this
    cases this with
    | bcast hv _ => exact hv
  have hcr : Crash (hi + 1 - lo) 0 (fun i => castNode D (castPatch D i root) i root (v (lo + i))) := by
    unfold castNode
    exact Crash.bind _ (crash_patch hD (p := fun i => (v (lo + i)).data) (by omega) (by omega) (hP _ hv).1 (hP _ hv).2)
  obtain ⟨m, d, e1, e2⟩ := hcr.calls rfl (by omega) name (κ := fun r n => Calls.of D r (k r n)) (d := fun r => Calls.of D r (c r)) (by
    intro r h1 h2
    simp only [arr r h1 h2, show lo + (r - lo) = r by omega]
    rfl)
  exact ⟨m, d, _, e1, e2⟩

/-- Where addresses of elements of empty vectors are undefined, a run that comes to a broadcast of patches of which a member is
empty comes to undefined behaviour. -/
theorem Run.calls_crash (hD : D.emptyFront = false) {P : Patch K → Prop} (hP : ∀ p, P p → SoundPatch p ∧ ¬ FullPatch p) {n : Nat}
    {c c' : Config (Patch K) α} (hr : Run n c c') (h : ∀ r, (c r).Shares P (fun _ => True)) (hc : c'.AtBcast) :
    ∃ m d e, CallRun m (fun r => Calls.of D r (c r)) d ∧ d e = .fin .ub := by
  induction hr with
  | refl => exact hc.calls hD hP h
  | step hs _ ih =>
    obtain ⟨m, d, e, h1, h2⟩ := ih (Prog.Shares.step hs h) hc
    cases hs with
    | allMax lo hi name v k hle arr lv oth =>
      refine ⟨m + 1, d, e, .step (.allMax lo hi name v (fun r n => Calls.of D r (k r n)) hle ?_ ?_ ?_) h1, h2⟩
      · intro r h1 h2
        simp only [arr r h1 h2]
        rfl
      · intro r h1 h2
        simp only [lv r h1 h2]
      · intro r hr
        simp only [oth r hr]
    | bcast lo hi name root v k hle arr lv oth => exact Config.AtBcast.calls hD hP h ⟨lo, hi, name, root, v, k, hle, arr⟩

end EF
