import Verif.Spec.Parallel
import Verif.Spec.Tree
import Verif.Proofs.QuadSerial

/-!
# Collectives commute, and ranks running the same search meet at the same collectives
-/

namespace EF

variable {T α β τ : Type}

/-! ## Confluence -/

/-- Two collectives that can happen are the same or do not disturb each other. -/
theorem Step.diamond {c c1 c2 : Config T α} (h1 : Step c c1) (h2 : Step c c2) :
    c1 = c2 ∨ ∃ d, Step c1 d ∧ Step c2 d := by
  cases h1 with
  | allMax lo hi name v k hle arr lv oth =>
    cases h2 with
    | allMax lo' hi' name' v' k' hle' arr' lv' oth' =>
      by_cases hx : ∃ r, (lo ≤ r ∧ r ≤ hi) ∧ (lo' ≤ r ∧ r ≤ hi')
      · obtain ⟨r, ⟨a1, a2⟩, b1, b2⟩ := hx
        have := (arr r a1 a2).symm.trans (arr' r b1 b2)
        injection this with e1 e2 e3 e4 e5
        subst e1 e2
        left
        have same : ∀ q, lo ≤ q → q ≤ hi → v q = v' q ∧ k q = k' q := by
          intro q q1 q2
          have := (arr q q1 q2).symm.trans (arr' q q1 q2)
          injection this with _ _ _ e4 e5
          exact ⟨e4, e5⟩
        funext q
        by_cases hq : lo ≤ q ∧ q ≤ hi
        · rw [lv q hq.1 hq.2, lv' q hq.1 hq.2, (same q hq.1 hq.2).2]
          congr 1
          exact Finset.sup_congr rfl (fun r hr => (same r (Finset.mem_Icc.mp hr).1 (Finset.mem_Icc.mp hr).2).1)
        · rw [oth q hq, oth' q hq]
      · right
        push_neg at hx
        refine ⟨fun q => if lo' ≤ q ∧ q ≤ hi' then k' q ((Finset.Icc lo' hi').sup v') else c1 q,
          .allMax lo' hi' name' v' k' hle' ?_ ?_ ?_, .allMax lo hi name v k hle ?_ ?_ ?_⟩
        · intro r h h'
          rw [oth r (fun hh => absurd h' (not_le.mpr (hx r hh h))), arr' r h h']
        · intro r h h'
          exact if_pos ⟨h, h'⟩
        · intro r h
          exact if_neg h
        · intro r h h'
          have hn : ¬ (lo' ≤ r ∧ r ≤ hi') := fun hh => absurd hh.2 (not_le.mpr (hx r ⟨h, h'⟩ hh.1))
          rw [oth' r hn, arr r h h']
        · intro r h h'
          have hn : ¬ (lo' ≤ r ∧ r ≤ hi') := fun hh => absurd hh.2 (not_le.mpr (hx r ⟨h, h'⟩ hh.1))
          show (if _ then _ else _) = _
          rw [if_neg hn, lv r h h']
        · intro r h
          show (if _ then _ else _) = _
          split
          · rename_i hh
            rw [lv' r hh.1 hh.2]
          · rename_i hh
            rw [oth r h, oth' r hh]
    | bcast lo' hi' name' root' v' k' hle' arr' lv' oth' =>
      have hx : ∀ r, (lo ≤ r ∧ r ≤ hi) → ¬ (lo' ≤ r ∧ r ≤ hi') := by
        intro r a b
        have := (arr r a.1 a.2).symm.trans (arr' r b.1 b.2)
        cases this
      right
      refine ⟨fun q => if lo' ≤ q ∧ q ≤ hi' then k' q { v' (lo' + root') with comm := (v' q).comm } else c1 q,
        .bcast lo' hi' name' root' v' k' hle' ?_ ?_ ?_, .allMax lo hi name v k hle ?_ ?_ ?_⟩
      · intro r h h'
        rw [oth r (fun hh => hx r hh ⟨h, h'⟩), arr' r h h']
      · intro r h h'
        exact if_pos ⟨h, h'⟩
      · intro r h
        exact if_neg h
      · intro r h h'
        rw [oth' r (hx r ⟨h, h'⟩), arr r h h']
      · intro r h h'
        show (if _ then _ else _) = _
        rw [if_neg (hx r ⟨h, h'⟩), lv r h h']
      · intro r h
        show (if _ then _ else _) = _
        split
        · rename_i hh
          rw [lv' r hh.1 hh.2]
        · rename_i hh
          rw [oth r h, oth' r hh]
  | bcast lo hi name root v k hle arr lv oth =>
    cases h2 with
    | allMax lo' hi' name' v' k' hle' arr' lv' oth' =>
      have hx : ∀ r, (lo ≤ r ∧ r ≤ hi) → ¬ (lo' ≤ r ∧ r ≤ hi') := by
        intro r a b
        have := (arr r a.1 a.2).symm.trans (arr' r b.1 b.2)
        cases this
      right
      refine ⟨fun q => if lo' ≤ q ∧ q ≤ hi' then k' q ((Finset.Icc lo' hi').sup v') else c1 q,
        .allMax lo' hi' name' v' k' hle' ?_ ?_ ?_, .bcast lo hi name root v k hle ?_ ?_ ?_⟩
      · intro r h h'
        rw [oth r (fun hh => hx r hh ⟨h, h'⟩), arr' r h h']
      · intro r h h'
        exact if_pos ⟨h, h'⟩
      · intro r h
        exact if_neg h
      · intro r h h'
        rw [oth' r (hx r ⟨h, h'⟩), arr r h h']
      · intro r h h'
        show (if _ then _ else _) = _
        rw [if_neg (hx r ⟨h, h'⟩), lv r h h']
      · intro r h
        show (if _ then _ else _) = _
        split
        · rename_i hh
          rw [lv' r hh.1 hh.2]
        · rename_i hh
          rw [oth r h, oth' r hh]
    | bcast lo' hi' name' root' v' k' hle' arr' lv' oth' =>
      by_cases hx : ∃ r, (lo ≤ r ∧ r ≤ hi) ∧ (lo' ≤ r ∧ r ≤ hi')
      · obtain ⟨r, ⟨a1, a2⟩, b1, b2⟩ := hx
        have := (arr r a1 a2).symm.trans (arr' r b1 b2)
        injection this with e1 e2 e3 e4 e5 e6
        subst e1 e2 e4
        left
        have same : ∀ q, lo ≤ q → q ≤ hi → v q = v' q ∧ k q = k' q := by
          intro q q1 q2
          have := (arr q q1 q2).symm.trans (arr' q q1 q2)
          injection this with _ _ _ _ e4 e5
          exact ⟨e4, e5⟩
        funext q
        by_cases hq : lo ≤ q ∧ q ≤ hi
        · rw [lv q hq.1 hq.2, lv' q hq.1 hq.2, (same q hq.1 hq.2).2, (same q hq.1 hq.2).1, (same (lo + root) (by omega) hle).1]
        · rw [oth q hq, oth' q hq]
      · right
        push_neg at hx
        refine ⟨fun q => if lo' ≤ q ∧ q ≤ hi' then k' q { v' (lo' + root') with comm := (v' q).comm } else c1 q,
          .bcast lo' hi' name' root' v' k' hle' ?_ ?_ ?_, .bcast lo hi name root v k hle ?_ ?_ ?_⟩
        · intro r h h'
          rw [oth r (fun hh => absurd h' (not_le.mpr (hx r hh h))), arr' r h h']
        · intro r h h'
          exact if_pos ⟨h, h'⟩
        · intro r h
          exact if_neg h
        · intro r h h'
          have hn : ¬ (lo' ≤ r ∧ r ≤ hi') := fun hh => absurd hh.2 (not_le.mpr (hx r ⟨h, h'⟩ hh.1))
          rw [oth' r hn, arr r h h']
        · intro r h h'
          have hn : ¬ (lo' ≤ r ∧ r ≤ hi') := fun hh => absurd hh.2 (not_le.mpr (hx r ⟨h, h'⟩ hh.1))
          show (if _ then _ else _) = _
          rw [if_neg hn, lv r h h']
        · intro r h
          show (if _ then _ else _) = _
          split
          · rename_i hh
            rw [lv' r hh.1 hh.2]
          · rename_i hh
            rw [oth r h, oth' r hh]

theorem Config.Done.no_step {c : Config T α} (h : c.Done) {c' : Config T α} : ¬ Step c c' := by
  intro hs
  cases hs with
  | allMax lo hi name v k hle arr _ _ =>
    obtain ⟨x, hx⟩ := h lo
    rw [arr lo (le_refl _) hle] at hx
    cases hx
  | bcast lo hi name root v k hle arr _ _ =>
    obtain ⟨x, hx⟩ := h lo
    rw [arr lo (le_refl _) (by omega)] at hx
    cases hx

theorem Run.trans {n n' : Nat} {a b c : Config T α} (h : Run n a b) (h' : Run n' b c) : Run (n' + n) a c := by
  induction h with
  | refl => exact h'
  | step hs _ ih => exact .step hs (ih h')

/-- A first collective can be moved to the front of a run that ends. -/
theorem Run.front {n : Nat} {a b z : Config T α} (h : Run n a z) (hz : z.Done) (hs : Step a b) :
    ∃ n', n = n' + 1 ∧ Run n' b z := by
  induction h generalizing b with
  | refl => exact absurd hs hz.no_step
  | step h1 rest ih =>
    rename_i n c c' c''
    rcases h1.diamond hs with rfl | ⟨d, e1, e2⟩
    · exact ⟨n, rfl, rest⟩
    · obtain ⟨n', rfl, hr⟩ := ih hz e1
      exact ⟨n' + 1, rfl, .step e2 hr⟩

/-- When one run ends, every run can be completed to that same end, in the same total number of collectives. -/
theorem Run.all {n k : Nat} {a b z : Config T α} (h : Run n a z) (hz : z.Done) (hb : Run k a b) :
    k ≤ n ∧ Run (n - k) b z := by
  induction hb generalizing n with
  | refl => exact ⟨by omega, h⟩
  | step hs _ ih =>
    obtain ⟨n', rfl, hr⟩ := h.front hz hs
    obtain ⟨e1, e2⟩ := ih hr
    exact ⟨by omega, by rwa [Nat.add_sub_add_right]⟩

/-! ## Ranks running together -/

/-- The ranks of `S`, running `p` and then anything, come together to the values `v`; the other ranks do nothing. -/
def Runs (S : Nat → Prop) (p : Nat → Prog T β) (v : Nat → β) : Prop :=
  ∀ (α : Type) (κ : Nat → β → Prog T α) (c : Config T α), (∀ r, S r → c r = p r >>= κ r) →
    ∃ n c', Run n c c' ∧ (∀ r, S r → c' r = κ r (v r)) ∧ ∀ r, ¬ S r → c' r = c r

theorem Runs.pure {S : Nat → Prop} {p : Nat → Prog T β} {v : Nat → β} (h : ∀ r, S r → p r = Pure.pure (v r)) : Runs S p v := by
  intro α κ c hc
  refine ⟨0, c, .refl c, fun r hr => ?_, fun r _ => rfl⟩
  rw [hc r hr, h r hr]
  rfl

theorem Runs.bind {γ : Type} {S : Nat → Prop} {p : Nat → Prog T β} {v : Nat → β} {q : Nat → β → Prog T γ} {w : Nat → γ}
    (h : Runs S p v) (h' : Runs S (fun r => q r (v r)) w) : Runs S (fun r => p r >>= q r) w := by
  intro α κ c hc
  obtain ⟨n, c1, r1, e1, f1⟩ := h α (fun r b => q r b >>= κ r) c (fun r hr => by rw [hc r hr, bind_assoc])
  obtain ⟨n', c2, r2, e2, f2⟩ := h' α κ c1 e1
  exact ⟨n' + n, c2, r1.trans r2, e2, fun r hr => (f2 r hr).trans (f1 r hr)⟩

theorem Runs.congr {S : Nat → Prop} {p p' : Nat → Prog T β} {v v' : Nat → β} (h : Runs S p v) (hp : ∀ r, S r → p' r = p r)
    (hv : ∀ r, S r → v' r = v r) : Runs S p' v' := by
  intro α κ c hc
  obtain ⟨n, c', h1, h2, h3⟩ := h α κ c (fun r hr => by rw [hc r hr, hp r hr])
  exact ⟨n, c', h1, fun r hr => by rw [h2 r hr, hv r hr], h3⟩

/-- Further ranks may skip the work. -/
theorem Runs.mono {S S' : Nat → Prop} {p : Nat → Prog T β} {v : Nat → β} (h : Runs S p v) (hS : ∀ r, S r → S' r)
    (hp : ∀ r, S' r → ¬ S r → p r = Pure.pure (v r)) : Runs S' p v := by
  intro α κ c hc
  obtain ⟨n, c', h1, h2, h3⟩ := h α κ c (fun r hr => hc r (hS r hr))
  refine ⟨n, c', h1, fun r hr => ?_, fun r hr => h3 r (fun h => hr (hS r h))⟩
  by_cases hs : S r
  · exact h2 r hs
  · rw [h3 r hs, hc r hr, hp r hr hs]
    rfl

theorem Runs.allMax {lo hi : Nat} (hle : lo ≤ hi) (name : Text) (v : Nat → Nat) :
    Runs (T := T) (fun r => lo ≤ r ∧ r ≤ hi) (fun r => Prog.allMax lo hi name (v r) Pure.pure)
      (fun _ => (Finset.Icc lo hi).sup v) := by
  intro α κ c hc
  refine ⟨1, fun r => if lo ≤ r ∧ r ≤ hi then κ r ((Finset.Icc lo hi).sup v) else c r, .step ?_ (.refl _),
    fun r hr => if_pos hr, fun r hr => if_neg hr⟩
  exact .allMax lo hi name v κ hle (fun r h h' => hc r ⟨h, h'⟩) (fun r h h' => if_pos ⟨h, h'⟩) (fun r h => if_neg h)

theorem Runs.bcast {lo hi root : Nat} (hle : lo + root ≤ hi) (name : Text) (v : Nat → Node T) :
    Runs (fun r => lo ≤ r ∧ r ≤ hi) (fun r => Prog.bcast lo hi name root (v r) Pure.pure)
      (fun r => { v (lo + root) with comm := (v r).comm }) := by
  intro α κ c hc
  refine ⟨1, fun r => if lo ≤ r ∧ r ≤ hi then κ r { v (lo + root) with comm := (v r).comm } else c r, .step ?_ (.refl _),
    fun r hr => if_pos hr, fun r hr => if_neg hr⟩
  exact .bcast lo hi name root v κ hle (fun r h h' => hc r ⟨h, h'⟩) (fun r h h' => if_pos ⟨h, h'⟩) (fun r h => if_neg h)

end EF
