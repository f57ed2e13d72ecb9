import Verif.Model.Interpolation
import Verif.Spec.Interpolation
import Verif.Proofs.HasLemmas
import Mathlib.Tactic.Ring
import Mathlib.Tactic.FieldSimp

/-!
# Searching in a sorted table
-/

namespace EF

namespace Interpolant

/-- The answer of a search among the positions `0 … n-1`, where `p` tells the positions that lie before the query. -/
structure Loc (n : Int) (p : Int → Bool) (j : Int) : Prop where
  lo : 0 ≤ j
  hi : j + 1 ≤ n - 1
  left : j = 0 ∨ p j = true
  right : j + 1 = n - 1 ∨ p (j + 1) = false

/-- `p` holds on an initial part of the table. -/
def Initial (n : Int) (p : Int → Bool) : Prop := ∀ i j, 0 ≤ i → i ≤ j → j < n → p j = true → p i = true

theorem Loc.unique {n : Int} {p : Int → Bool} (hp : Initial n p) {i j : Int} (hi : Loc n p i) (hj : Loc n p j) : i = j := by
  have key : ∀ {i j : Int}, Loc n p i → Loc n p j → ¬ i < j := by
    intro i j hi hj h
    have h1 : p j = true := by
      rcases hj.left with h | h
      · have := hi.lo; omega
      · exact h
    have h2 := hp (i + 1) j (by have := hi.lo; omega) (by omega) (by have := hj.hi; omega) h1
    rcases hi.right with h | h
    · have := hj.hi; omega
    · rw [h] at h2; cases h2
  have := key hi hj
  have := key hj hi
  omega

section search
variable {K : Type} [Field K] [LinearOrder K] {n : Int} {p : Int → Bool} {xx : Vec K} {asc : Bool} {x : K}
  (hb : ∀ j, 0 ≤ j → j < n → below xx asc x j = .ok (p j))
include hb

theorem bisect_ok {jl ju : Int} (h0 : 0 ≤ jl) (h1 : jl < ju) (h2 : ju ≤ n - 1) (h3 : jl = 0 ∨ p jl = true)
    (h4 : ju = n - 1 ∨ p ju = false) : ∃ j, bisect xx asc x jl ju = .ok j ∧ Loc n p j := by
  obtain ⟨k, hk⟩ : ∃ k, (ju - jl).toNat = k := ⟨_, rfl⟩
  induction k using Nat.strong_induction_on generalizing jl ju with
  | _ k ih =>
    rw [bisect]
    by_cases h : ju - jl > 1
    · rw [dif_pos h]
      dsimp only
      rw [hb _ (by omega) (by omega), Res.ok_bind]
      by_cases hp : p ((ju + jl) / 2) = true
      · rw [if_pos hp]
        exact ih _ (by omega) (by omega) (by omega) h2 (.inr hp) h4 rfl
      · rw [if_neg hp]
        exact ih _ (by omega) h0 (by omega) (by omega) h3 (.inr (by simpa using hp)) rfl
    · rw [dif_neg h]
      have : ju = jl + 1 := by omega
      subst this
      exact ⟨jl, rfl, h0, by omega, h3, h4⟩

omit hb in
theorem bisect_same (j : Int) : bisect xx asc x j j = .ok j := by
  rw [bisect, dif_neg (by omega)]
  rfl

theorem huntUp_ok {jl inc : Int} (hinc : 0 < inc) (h0 : 0 ≤ jl) (h1 : jl ≤ n - 1) (h3 : p jl = true) :
    ∃ r, huntUp n xx asc x jl inc hinc = .ok r ∧ ((r = (n - 1, n - 1) ∧ p (n - 1) = true) ∨
      (0 ≤ r.1 ∧ r.1 < r.2 ∧ r.2 ≤ n - 1 ∧ p r.1 = true ∧ (r.2 = n - 1 ∨ p r.2 = false))) := by
  obtain ⟨k, hk⟩ : ∃ k, (n - jl).toNat = k := ⟨_, rfl⟩
  induction k using Nat.strong_induction_on generalizing jl inc with
  | _ k ih =>
    rw [huntUp]
    by_cases h : jl + inc ≥ n - 1
    · rw [dif_pos h]
      refine ⟨_, rfl, ?_⟩
      by_cases hj : jl = n - 1
      · exact .inl ⟨by rw [hj], by rw [← hj]; exact h3⟩
      · exact .inr ⟨h0, by omega, by omega, h3, .inl rfl⟩
    · rw [dif_neg h]
      have hc := hb (jl + inc) (by omega) (by omega)
      unfold below at hc
      obtain ⟨a, ha, hp⟩ := Res.bind_eq_ok.mp hc
      rw [ha, Res.ok_bind]
      rw [Res.pure_def, Res.ok_inj] at hp
      have e : (decide (x < a) == asc) = !p (jl + inc) := by
        rw [← hp]
        by_cases hx : a ≤ x
        · cases asc <;> simp [hx, not_lt.mpr hx]
        · cases asc <;> simp [hx, not_le.mp hx]
      rw [e]
      by_cases hq : p (jl + inc) = true
      · rw [hq]
        exact ih _ (by omega) (by omega) (by omega) (by omega) hq rfl
      · have hq : p (jl + inc) = false := by simpa using hq
        rw [hq]
        exact ⟨_, rfl, .inr ⟨h0, by dsimp only; omega, by dsimp only; omega, h3, .inr hq⟩⟩

theorem huntDown_ok {j inc : Int} (hinc : 0 < inc) (h0 : 0 ≤ j) (h1 : j ≤ n - 1) (h3 : p j = false) :
    ∃ r, huntDown xx asc x j j inc hinc = .ok r ∧ ((r = (0, 0) ∧ p 0 = false) ∨
      (0 ≤ r.1 ∧ r.1 < r.2 ∧ r.2 ≤ n - 1 ∧ (r.1 = 0 ∨ p r.1 = true) ∧ p r.2 = false)) := by
  obtain ⟨k, hk⟩ : ∃ k, j.toNat = k := ⟨_, rfl⟩
  induction k using Nat.strong_induction_on generalizing j inc with
  | _ k ih =>
    rw [huntDown]
    by_cases h : j - inc ≤ 0
    · rw [dif_pos h]
      refine ⟨_, rfl, ?_⟩
      by_cases hj : j = 0
      · exact .inl ⟨by rw [hj], by rw [← hj]; exact h3⟩
      · exact .inr ⟨le_refl _, by dsimp only; omega, h1, .inl rfl, h3⟩
    · rw [dif_neg h, hb _ (by omega) (by omega), Res.ok_bind]
      by_cases hq : p (j - inc) = true
      · rw [if_pos hq]
        exact ⟨_, rfl, .inr ⟨by dsimp only; omega, by dsimp only; omega, h1, .inr hq, h3⟩⟩
      · rw [if_neg hq]
        exact ih _ (by omega) (by omega) (by omega) (by omega) (by simpa using hq) rfl

end search

section table
variable {K : Type} [Field K] [LinearOrder K]

/-- The index handed to the interpolation formula. -/
def index (n mm j : Int) : Int := max 0 (min (n - mm) (j - (mm - 2) / 2))

theorem index_last {n mm : Int} (h : 2 ≤ mm) : index n mm (n - 1) = index n mm (n - 2) := by
  unfold index
  omega

/-- Two interpolants with the same table. -/
def Same (I J : Interpolant K) : Prop := I.n = J.n ∧ I.mm = J.mm ∧ I.xx = J.xx ∧ I.yy = J.yy

theorem same_finish (I : Interpolant K) (j : Int) : Same (I.finish j).2 I := ⟨rfl, rfl, rfl, rfl⟩

theorem getInt_has {v : Vec K} {n : Nat} {t : Nat → K} (h : v.Has n t) {j : Int} (h0 : 0 ≤ j) (h1 : j < n) :
    v.getInt j = .ok (t j.toNat) := by
  unfold Vec.getInt toSize
  rw [if_pos h0]
  exact h.2.2 _ (by omega)

/-- Which way the table is sorted. -/
def ascends (n : Nat) (t : Nat → K) : Bool := decide (t 0 ≤ t (n - 1))

/-- The positions before the query. -/
def before (n : Nat) (t : Nat → K) (x : K) (j : Int) : Bool := decide (t j.toNat ≤ x) == ascends n t

theorem before_initial {n : Nat} {t : Nat → K} (hs : TableSorted n t) (x : K) : Initial n (before n t x) := by
  intro i j hi hij hj hp
  have hn : 0 < n := by omega
  unfold before at hp ⊢
  rcases hs with hs | hs
  · have ha : ascends n t = true := by
      unfold ascends
      simpa using hs 0 (n - 1) (by omega) (by omega)
    rw [ha] at hp ⊢
    have := hs i.toNat j.toNat (by omega) (by omega)
    simp only [beq_true, decide_eq_true_eq] at hp ⊢
    exact this.trans hp
  · have h1 := hs i.toNat j.toNat (by omega) (by omega)
    cases ha : ascends n t with
    | false =>
      rw [ha] at hp
      simp only [beq_false, Bool.not_eq_true', decide_eq_false_iff_not, not_le] at hp ⊢
      exact lt_of_lt_of_le hp h1
    | true =>
      rw [ha] at hp
      have h2 := hs 0 (n - 1) (by omega) (by omega)
      have h3 : t 0 ≤ t (n - 1) := by simpa [ascends] using ha
      have h4 := hs 0 i.toNat (by omega) (by omega)
      have h5 := hs j.toNat (n - 1) (by omega) (by omega)
      simp only [beq_true, decide_eq_true_eq] at hp ⊢
      exact (h4.trans h3).trans (h5.trans hp)

/-- Every search of a sorted table gives the same index, whatever the state of the interpolant. -/
theorem search_ok {n : Nat} {t : Nat → K} (hs : TableSorted n t) {mm : Int} (hn : 2 ≤ n) (hm : 2 ≤ mm) (hmn : mm ≤ n) (x : K) :
    ∃ j, Loc n (before n t x) j ∧ ∀ I : Interpolant K, I.n = n → I.mm = mm → I.xx.Has n t →
      ∃ I', I.search x = .ok (index n mm j, I') ∧ Same I' I := by
  have hb : ∀ xx : Vec K, xx.Has n t → ∀ j, 0 ≤ j → j < (n : Int) →
      below xx (ascends n t) x j = .ok (before n t x j) := by
    intro xx hx j h0 h1
    unfold below
    rw [getInt_has hx h0 h1]
    rfl
  have key : ∀ I : Interpolant K, I.n = n → I.mm = mm → I.xx.Has n t →
      ∃ j I', Loc n (before n t x) j ∧ I.search x = .ok (index n mm j, I') ∧ Same I' I := by
    intro I h1 h2 hx
    have hb := hb I.xx hx
    have hinit := before_initial hs x
    have hc : ¬ (I.n < 2 ∨ I.mm < 2 ∨ I.mm > I.n) := by rw [h1, h2]; omega
    have e1 : I.xx.getInt (I.n - 1) = .ok (t (n - 1)) := by
      rw [h1, getInt_has hx (by omega) (by omega), show ((n : Int) - 1).toNat = n - 1 by omega]
    have e2 : I.xx.getInt 0 = .ok (t 0) := getInt_has hx (by omega) (by omega)
    have e3 : ∀ j, I.finish j = (index n mm j, (I.finish j).2) := by
      intro j
      unfold finish index
      rw [h1, h2]
    have direct : ∃ j, bisect I.xx (ascends n t) x 0 (n - 1) = .ok j ∧ Loc n (before n t x) j :=
      bisect_ok hb (by omega) (by omega) (by omega) (.inl rfl) (.inl rfl)
    unfold search
    cases hcor : I.cor with
    | false =>
      obtain ⟨j, hj, hl⟩ := direct
      refine ⟨j, _, hl, ?_, same_finish I j⟩
      rw [if_neg (by simp)]
      unfold locate
      rw [if_neg hc, e1, e2, Res.ok_bind, Res.ok_bind]
      dsimp only
      rw [show decide (t (n - 1) ≥ t 0) = ascends n t from rfl, h1, hj, Res.ok_bind, e3]
      rfl
    | true =>
      rw [if_pos rfl]
      unfold hunt
      rw [if_neg hc, e1, e2, Res.ok_bind, Res.ok_bind]
      dsimp only
      rw [show decide (t (n - 1) ≥ t 0) = ascends n t from rfl, h1]
      have fin : ∀ (s : Int × Int) (j : Int), bisect I.xx (ascends n t) x s.1 s.2 = .ok j →
          ∀ j', Loc n (before n t x) j' → index n mm j = index n mm j' →
          ∃ j I', Loc n (before n t x) j ∧
            ((pure s : Res (Int × Int)) >>= fun s => bisect I.xx (ascends n t) x s.1 s.2 >>= fun jl => pure (I.finish jl))
              = .ok (index n mm j, I') ∧ Same I' I := by
        intro s j hj j' hl hi
        refine ⟨j', _, hl, ?_, same_finish I j⟩
        rw [Res.pure_def, Res.ok_bind, hj, Res.ok_bind, Res.pure_def, e3, hi]
      by_cases hj : I.jsav < 0 ∨ I.jsav > (n : Int) - 1
      · rw [if_pos hj]
        obtain ⟨j, hj, hl⟩ := direct
        exact fin (0, n - 1) j hj j hl rfl
      · rw [if_neg hj, hb _ (by omega) (by omega), Res.ok_bind]
        by_cases hp : before n t x I.jsav = true
        · rw [if_pos hp]
          obtain ⟨r, hr, hr'⟩ := huntUp_ok hb (inc := 1) (by omega) (by omega) (by omega) hp
          rw [hr]
          rcases hr' with ⟨rfl, hlast⟩ | ⟨h3, h4, h5, h6, h7⟩
          · refine fin _ (n - 1) (bisect_same _) (n - 2) ⟨by omega, by omega, .inr (hinit _ (n - 1) (by omega) (by omega) (by omega) hlast), .inl (by omega)⟩ (index_last hm)
          · obtain ⟨j, hj, hl⟩ := bisect_ok hb h3 h4 h5 (.inr h6) h7
            exact fin _ j hj j hl rfl
        · rw [if_neg hp]
          have hp : before n t x I.jsav = false := by simpa using hp
          obtain ⟨r, hr, hr'⟩ := huntDown_ok hb (inc := 1) (by omega) (by omega) (by omega) hp
          rw [hr]
          rcases hr' with ⟨rfl, hfirst⟩ | ⟨h3, h4, h5, h6, h7⟩
          · refine fin _ 0 (bisect_same _) 0 ⟨by omega, by omega, .inl rfl, .inr ?_⟩ rfl
            by_contra hq
            have := hinit 0 1 (by omega) (by omega) (by omega) (by simpa using hq)
            rw [hfirst] at this
            cases this
          · obtain ⟨j, hj, hl⟩ := bisect_ok hb h3 h4 h5 h6 (.inr h7)
            exact fin _ j hj j hl rfl
  by_cases hex : ∃ I : Interpolant K, I.n = n ∧ I.mm = mm ∧ I.xx.Has n t
  · obtain ⟨I, h1, h2, h3⟩ := hex
    obtain ⟨j, -, hl, -⟩ := key I h1 h2 h3
    refine ⟨j, hl, fun I' k1 k2 k3 => ?_⟩
    obtain ⟨j', I'', hl', e, hs'⟩ := key I' k1 k2 k3
    rw [hl'.unique (before_initial hs x) hl] at e
    exact ⟨I'', e, hs'⟩
  · refine absurd ⟨⟨n, mm, 0, false, 0, Vec.ofFn n t, Vec.ofFn n t⟩, rfl, rfl, Vec.has_ofFn _ _⟩ hex

/-! ### Histories -/

/-- Equal values and the same tables, or the same failure. -/
inductive Agree {α : Type} : Res (α × Interpolant K) → Res (α × Interpolant K) → Prop
  | ok (v : α) {I J : Interpolant K} (h : Same I J) : Agree (.ok (v, I)) (.ok (v, J))
  | throw (e : Exn) : Agree (.throw e) (.throw e)
  | ub : Agree .ub .ub

theorem Agree.fst {α : Type} {a b : Res (α × Interpolant K)} (h : Agree a b) : Prod.fst <$> a = Prod.fst <$> b := by
  cases h <;> rfl

theorem Agree.bind {α β : Type} {a b : Res (α × Interpolant K)} (h : Agree a b)
    {f g : α × Interpolant K → Res (β × Interpolant K)} (hfg : ∀ v I J, Same I J → Agree (f (v, I)) (g (v, J))) :
    Agree (a >>= f) (b >>= g) := by
  cases h with
  | ok v h => exact hfg v _ _ h
  | throw e => exact .throw e
  | ub => exact .ub

theorem Same.refl (I : Interpolant K) : Same I I := ⟨rfl, rfl, rfl, rfl⟩

theorem Same.symm {I J : Interpolant K} (h : Same I J) : Same J I := ⟨h.1.symm, h.2.1.symm, h.2.2.1.symm, h.2.2.2.symm⟩

theorem Same.trans {I J L : Interpolant K} (h : Same I J) (h' : Same J L) : Same I L :=
  ⟨h.1.trans h'.1, h.2.1.trans h'.2.1, h.2.2.1.trans h'.2.2.1, h.2.2.2.trans h'.2.2.2⟩

section history
variable {n : Nat} {t : Nat → K} (hs : TableSorted n t) (raw : Vec K → Vec K → Int → K → Res K)
include hs

theorem search_agree {I J : Interpolant K} (hI : I.n = n) (hx : I.xx.Has n t) (h : Same I J) (x : K) :
    Agree (I.search x) (J.search x) := by
  have hJ : J.n = n := h.1 ▸ hI
  have hxJ : J.xx.Has n t := h.2.2.1 ▸ hx
  by_cases hc : I.n < 2 ∨ I.mm < 2 ∨ I.mm > I.n
  · have hc' : J.n < 2 ∨ J.mm < 2 ∨ J.mm > J.n := by rw [← h.1, ← h.2.1]; exact hc
    have e : ∀ L : Interpolant K, (L.n < 2 ∨ L.mm < 2 ∨ L.mm > L.n) → L.search x = .throw .invalidArgument := by
      intro L hL
      unfold search hunt locate
      rw [if_pos hL, if_pos hL, ite_self]
    rw [e I hc, e J hc']
    exact .throw _
  · obtain ⟨j, -, hj⟩ := search_ok hs (mm := I.mm) (by omega) (by omega) (by omega) x
    obtain ⟨I', e1, s1⟩ := hj I hI rfl hx
    obtain ⟨J', e2, s2⟩ := hj J hJ h.2.1.symm hxJ
    rw [e1, e2]
    exact .ok _ (s1.trans (h.trans s2.symm))

theorem eval_agree {I J : Interpolant K} (hI : I.n = n) (hx : I.xx.Has n t) (h : Same I J) (x : K) :
    Agree (I.eval raw x) (J.eval raw x) := by
  refine (search_agree hs hI hx h x).bind ?_
  intro j I' J' h'
  dsimp only
  rw [h'.2.2.1, h'.2.2.2]
  cases raw J'.xx J'.yy j x with
  | ok y => exact .ok y h'
  | throw e => exact .throw e
  | ub => exact .ub

theorem eval_same {I I' : Interpolant K} (hI : I.n = n) (hx : I.xx.Has n t) {x y : K} (h : I.eval raw x = .ok (y, I')) :
    Same I' I := by
  unfold eval at h
  obtain ⟨r, h1, h2⟩ := Res.bind_eq_ok.mp h
  obtain ⟨y', h3, h4⟩ := Res.bind_eq_ok.mp h2
  rw [Res.pure_def, Res.ok_inj, Prod.mk.injEq] at h4
  rw [← h4.2]
  by_cases hc : I.n < 2 ∨ I.mm < 2 ∨ I.mm > I.n
  · unfold search hunt locate at h1
    rw [if_pos hc, if_pos hc, ite_self] at h1
    cases h1
  · obtain ⟨j, -, hj⟩ := search_ok hs (mm := I.mm) (by omega) (by omega) (by omega) x
    obtain ⟨I2, e1, s1⟩ := hj I hI rfl hx
    rw [e1, Res.ok_inj] at h1
    rw [← h1]
    exact s1

theorem evalVec_agree {I J : Interpolant K} (hI : I.n = n) (hx : I.xx.Has n t) (h : Same I J) (x : Vec K) :
    Agree (I.evalVec raw x) (J.evalVec raw x) ∧ ∀ y I', I.evalVec raw x = .ok (y, I') → Same I' I := by
  unfold evalVec
  generalize (Vec.zeros x.size : Vec K) = w
  generalize x.size = k
  induction k with
  | zero =>
    refine ⟨.ok w h, ?_⟩
    intro y I' e
    rw [forN_zero, Res.ok_inj, Prod.mk.injEq] at e
    rw [← e.2]
    exact Same.refl I
  | succ k ih =>
    rw [forN_succ, forN_succ]
    obtain ⟨ih1, ih2⟩ := ih
    constructor
    · revert ih2
      generalize forN k _ (w, I) = a at ih1 ⊢
      generalize forN k _ (w, J) = b at ih1 ⊢
      intro ih2
      cases ih1 with
      | throw e => exact .throw e
      | ub => exact .ub
      | ok v h' =>
        have hs' := ih2 v _ rfl
        rw [Res.ok_bind, Res.ok_bind]
        cases x.get k with
        | throw e => exact .throw e
        | ub => exact .ub
        | ok z =>
          rw [Res.ok_bind, Res.ok_bind]
          refine (eval_agree hs raw (hs'.1.trans hI) (by rw [hs'.2.2.1]; exact hx) h' z).bind ?_
          intro y I' J' h2
          dsimp only
          cases v.set k y with
          | ok u => exact .ok u h2
          | throw e => exact .throw e
          | ub => exact .ub
    · intro y I' e
      obtain ⟨⟨v, I1⟩, e1, e2⟩ := Res.bind_eq_ok.mp e
      have hs' := ih2 v I1 e1
      obtain ⟨z, -, e3⟩ := Res.bind_eq_ok.mp e2
      obtain ⟨r, e4, e5⟩ := Res.bind_eq_ok.mp e3
      obtain ⟨u, -, e6⟩ := Res.bind_eq_ok.mp e5
      rw [Res.pure_def, Res.ok_inj, Prod.mk.injEq] at e6
      rw [← e6.2]
      exact (eval_same hs raw (hs'.1.trans hI) (by rw [hs'.2.2.1]; exact hx) (y := r.1) e4).trans hs'

theorem after_same {qs : List (Query K)} {I I' : Interpolant K} (hI : I.n = n) (hx : I.xx.Has n t)
    (h : after raw qs I = .ok I') : Same I' I := by
  induction qs generalizing I with
  | nil =>
    rw [after, Res.pure_def, Res.ok_inj] at h
    rw [h]
    exact Same.refl _
  | cons q qs ih =>
    cases q with
    | one x =>
      obtain ⟨r, h1, h2⟩ := Res.bind_eq_ok.mp h
      have h3 := eval_same hs raw hI hx (y := r.1) h1
      exact (ih (h3.1.trans hI) (by rw [h3.2.2.1]; exact hx) h2).trans h3
    | many x =>
      obtain ⟨r, h1, h2⟩ := Res.bind_eq_ok.mp h
      have h3 := (evalVec_agree hs raw hI hx (Same.refl I) x).2 r.1 r.2 h1
      exact (ih (h3.1.trans hI) (by rw [h3.2.2.1]; exact hx) h2).trans h3

/-- A vector query is a sequence of scalar queries. -/
theorem evalVec_ok {I : Interpolant K} (hI : I.n = n) (hx : I.xx.Has n t) {k : Nat} {f g : Nat → K} {v : Vec K} (hv : v.Has k f)
    (hg : ∀ i, i < k → Prod.fst <$> I.eval raw (f i) = .ok (g i)) :
    ∃ w I', I.evalVec raw v = .ok (w, I') ∧ w.Has k g ∧ Same I' I := by
  unfold evalVec
  rw [hv.1]
  have key : ∀ m, m ≤ k → ∃ I', forN m (fun i (s : Vec K × Interpolant K) => do
      let xi ← v.get i
      let r ← s.2.eval raw xi
      let y ← s.1.set i r.1
      pure (y, r.2)) (Vec.zeros k, I) = .ok (Vec.ofFn k fun i => if i < m then g i else 0, I') ∧ Same I' I := by
    intro m
    induction m with
    | zero =>
      intro _
      exact ⟨I, by rw [forN_zero, Vec.zeros_eq]; simp, Same.refl I⟩
    | succ m ih =>
      intro hm
      obtain ⟨I', e, hs'⟩ := ih (by omega)
      rw [forN_succ, e, Res.ok_bind, hv.2.2 m (by omega), Res.ok_bind]
      dsimp only
      have ha := eval_agree hs raw hI hx hs'.symm (f m)
      have hval := hg m (by omega)
      rw [ha.fst] at hval
      obtain ⟨⟨y, I2⟩, e2⟩ : ∃ r, I'.eval raw (f m) = .ok r := by
        cases h : I'.eval raw (f m) with
        | ok r => exact ⟨r, rfl⟩
        | throw e => rw [h] at hval; cases hval
        | ub => rw [h] at hval; cases hval
      rw [e2, Res.ok_map, Res.ok_inj] at hval
      dsimp only at hval
      subst hval
      have h3 := eval_same hs raw (hs'.1.trans hI) (by rw [hs'.2.2.1]; exact hx) e2
      refine ⟨I2, ?_, h3.trans hs'⟩
      rw [e2, Res.ok_bind]
      dsimp only
      rw [Vec.set_ofFn (by omega), Res.ok_bind, Res.pure_def]
      congr 2
      apply Vec.ofFn_congr
      intro i hi
      by_cases h1 : i = m
      · subst h1; simp
      · rw [if_neg h1]
        by_cases h2 : i < m
        · rw [if_pos h2, if_pos (by omega)]
        · rw [if_neg h2, if_neg (by omega)]
  obtain ⟨I', e, hs'⟩ := key k (le_refl k)
  refine ⟨_, I', e, ?_, hs'⟩
  have : (Vec.ofFn k fun i => if i < k then g i else 0) = Vec.ofFn k g := Vec.ofFn_congr fun i hi => if_pos hi
  rw [this]
  exact Vec.has_ofFn _ _

end history

end table

/-! ### The linear interpolant -/

section linear
variable {K : Type} [Field K] [LinearOrder K] {n : Nat} {t s : Nat → K}

theorem rawLinear_ok {xx yy : Vec K} (hx : xx.Has n t) (hy : yy.Has n s) {j : Int} (h0 : 0 ≤ j) (h1 : j + 1 < n) (x : K) :
    ∃ y, rawLinear xx yy j x = .ok y ∧ (t j.toNat ≠ t (j.toNat + 1) →
      y = chord (t j.toNat) (t (j.toNat + 1)) (s j.toNat) (s (j.toNat + 1)) x) := by
  have e : (j + 1).toNat = j.toNat + 1 := by omega
  unfold rawLinear
  rw [getInt_has hx h0 (by omega), getInt_has hx (by omega) h1, e, Res.ok_bind, Res.ok_bind]
  by_cases h : t j.toNat = t (j.toNat + 1)
  · rw [if_pos h, getInt_has hy h0 (by omega)]
    exact ⟨_, rfl, fun hn => absurd h hn⟩
  · rw [if_neg h, getInt_has hy h0 (by omega), getInt_has hy (by omega) h1, e, Res.ok_bind, Res.ok_bind]
    refine ⟨_, rfl, fun _ => ?_⟩
    unfold chord
    rw [div_mul_eq_mul_div, mul_div_assoc]

end linear

end Interpolant

end EF
