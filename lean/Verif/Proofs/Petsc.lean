import Verif.Spec.Petsc

/-!
# Lemmas about the lifetimes of the PETSc objects
-/

namespace EF

namespace PState

theorem fresh_eq {s : PState} {x : Nat} (h : s.vars x = none) : s.fresh x = .ok () := by unfold fresh; rw [h]

theorem get_eq {s : PState} {x : Nat} {o : PObj} (h : s.vars x = some o) : s.get x = .ok o := by unfold get; rw [h]

theorem vars_put {s : PState} {x y : Nat} {o : Option PObj} : (s.put x o).vars y = if y = x then o else s.vars y := rfl

theorem live_put {s : PState} {x h : Nat} {o : Option PObj} : (s.put x o).live h = s.live h := rfl

/-- Objects and variables with an object correspond one to one. -/
structure Owned (s : PState) : Prop where
  alive : ∀ x o, s.vars x = some o → o.created = true → ∃ h, o.handle = some h ∧ s.live h = true
  one : ∀ x y o o' h, s.vars x = some o → s.vars y = some o' → o.created = true → o'.created = true → o.handle = some h →
    o'.handle = some h → x = y
  held : ∀ h, s.live h = true → ∃ x o, s.vars x = some o ∧ o.created = true ∧ o.handle = some h
  below : ∀ h, s.live h = true → h < s.next
  bare : ∀ x o, s.vars x = some o → o.created = false → o.handle = none

theorem Owned.empty : Owned .empty := by
  constructor <;> simp [PState.empty]

/-- Setting a variable without object to a value without object. -/
theorem Owned.put_bare {s : PState} (hs : s.Owned) {x : Nat} (hx : s.vars x = none ∨ s.Bare x) {o : Option PObj}
    (ho : ∀ v, o = some v → v.created = false ∧ v.handle = none) : (s.put x o).Owned := by
  have hne : ∀ y v, s.vars y = some v → v.created = true → y ≠ x := by
    rintro y v hv hc rfl
    rcases hx with h | ⟨w, hw, hwc⟩
    · rw [h] at hv; cases hv
    · rw [hw] at hv; cases hv; rw [hwc] at hc; cases hc
  have back : ∀ y v, (s.put x o).vars y = some v → v.created = true → s.vars y = some v := by
    intro y v hv hc
    rw [vars_put] at hv
    by_cases e : y = x
    · rw [if_pos e] at hv
      have := (ho v hv).1
      rw [this] at hc; cases hc
    · rwa [if_neg e] at hv
  refine ⟨fun y v hv hc => hs.alive y v (back y v hv hc) hc, fun y z v w h hv hw hc hc' e e' =>
    hs.one y z v w h (back y v hv hc) (back z w hw hc') hc hc' e e', fun h hl => ?_, hs.below, fun y v hv hc => ?_⟩
  · obtain ⟨y, v, hv, hc, e⟩ := hs.held h hl
    exact ⟨y, v, by rw [vars_put, if_neg (hne y v hv hc)]; exact hv, hc, e⟩
  · rw [vars_put] at hv
    by_cases e : y = x
    · rw [if_pos e] at hv; exact (ho v hv).2
    · rw [if_neg e] at hv; exact hs.bare y v hv hc

/-- A new object in a variable without object. -/
theorem Owned.put_new {s : PState} (hs : s.Owned) {x : Nat} (hx : s.vars x = none ∨ s.Bare x) :
    (s.alloc.2.put x (some ⟨true, some s.alloc.1⟩)).Owned := by
  have hne : ∀ y v, s.vars y = some v → v.created = true → y ≠ x := by
    rintro y v hv hc rfl
    rcases hx with h | ⟨w, hw, hwc⟩
    · rw [h] at hv; cases hv
    · rw [hw] at hv; cases hv; rw [hwc] at hc; cases hc
  have old : ∀ y v h, s.vars y = some v → v.created = true → v.handle = some h → h < s.next := by
    intro y v h hv hc e
    obtain ⟨h', e', hl⟩ := hs.alive y v hv hc
    rw [e] at e'; cases e'
    exact hs.below h hl
  have cases' : ∀ y v, (s.alloc.2.put x (some ⟨true, some s.alloc.1⟩)).vars y = some v →
      (y = x ∧ v = ⟨true, some s.next⟩) ∨ (y ≠ x ∧ s.vars y = some v) := by
    intro y v hv
    rw [vars_put] at hv
    by_cases e : y = x
    · rw [if_pos e] at hv
      cases hv
      exact .inl ⟨e, rfl⟩
    · rw [if_neg e] at hv
      exact .inr ⟨e, hv⟩
  refine ⟨fun y v hv hc => ?_, fun y z v w h hv hw hc hc' e e' => ?_, fun h hl => ?_, fun h hl => ?_, fun y v hv hc => ?_⟩
  · rcases cases' y v hv with ⟨-, rfl⟩ | ⟨-, h'⟩
    · exact ⟨s.next, rfl, if_pos rfl⟩
    · obtain ⟨h, e, hl⟩ := hs.alive y v h' hc
      exact ⟨h, e, by show (if h = s.next then true else s.live h) = true; rw [hl]; exact ite_self _⟩
  · rcases cases' y v hv with ⟨rfl, rfl⟩ | ⟨-, h1⟩
    · rcases cases' z w hw with ⟨rfl, rfl⟩ | ⟨-, h2⟩
      · rfl
      · cases e
        exact absurd (old z w _ h2 hc' e') (Nat.lt_irrefl _)
    · rcases cases' z w hw with ⟨rfl, rfl⟩ | ⟨-, h2⟩
      · cases e'
        exact absurd (old y v _ h1 hc e) (Nat.lt_irrefl _)
      · exact hs.one y z v w h h1 h2 hc hc' e e'
  · change (if h = s.next then true else s.live h) = true at hl
    by_cases e : h = s.next
    · exact ⟨x, _, by rw [vars_put, if_pos rfl], rfl, by rw [e]; rfl⟩
    · rw [if_neg e] at hl
      obtain ⟨y, v, hv, hc, e'⟩ := hs.held h hl
      exact ⟨y, v, by rw [vars_put, if_neg (hne y v hv hc)]; exact hv, hc, e'⟩
  · change (if h = s.next then true else s.live h) = true at hl
    show h < s.next + 1
    by_cases e : h = s.next
    · omega
    · rw [if_neg e] at hl
      have := hs.below h hl
      omega
  · rcases cases' y v hv with ⟨-, rfl⟩ | ⟨-, h'⟩
    · cases hc
    · exact hs.bare y v h' hc

/-- A careful call succeeds and keeps the correspondence. -/
theorem Owned.call {s : PState} (hs : s.Owned) {c : PCall} (hc : s.Careful c) : ∃ s', s.call c = .ok s' ∧ s'.Owned := by
  cases hc with
  | declare h =>
    refine ⟨s.put _ (some ⟨false, none⟩), by rw [PState.call, fresh_eq h]; rfl, hs.put_bare (.inl h) (fun v hv => by cases hv; exact ⟨rfl, rfl⟩)⟩
  | build h =>
    exact ⟨_, by rw [PState.call, fresh_eq h]; rfl, hs.put_new (.inl h)⟩
  | @copy x y h h' =>
    obtain ⟨o, ho, hb⟩ := h'
    exact ⟨_, by rw [PState.call, fresh_eq h, Res.ok_bind, get_eq ho]; rfl,
      hs.put_bare (.inl h) (fun v hv => by cases hv; exact ⟨hb, hs.bare y _ ho hb⟩)⟩
  | @moveAssign x y h h' =>
    obtain ⟨o, ho, hb⟩ := h
    obtain ⟨w, hw⟩ := Option.isSome_iff_exists.mp h'
    by_cases e : x = y
    · exact ⟨s, by rw [PState.call, get_eq ho, Res.ok_bind, get_eq hw, Res.ok_bind, if_neg (by simpa using e)]; rfl, hs⟩
    · refine ⟨(s.put x (some w)).put y (some ⟨false, none⟩), by
        rw [PState.call, get_eq ho, Res.ok_bind, get_eq hw, Res.ok_bind, if_pos e]; rfl, ?_⟩
      have look : ∀ z v, ((s.put x (some w)).put y (some ⟨false, none⟩)).vars z = some v → v.created = true →
          (z = x ∧ v = w) ∨ (z ≠ x ∧ z ≠ y ∧ s.vars z = some v) := by
        intro z v hv hc
        rw [vars_put] at hv
        by_cases e1 : z = y
        · rw [if_pos e1] at hv; cases hv; cases hc
        · rw [if_neg e1, vars_put] at hv
          by_cases e2 : z = x
          · rw [if_pos e2] at hv; cases hv; exact .inl ⟨e2, rfl⟩
          · rw [if_neg e2] at hv; exact .inr ⟨e2, e1, hv⟩
      refine ⟨fun z v hv hc => ?_, fun a b v u k hv hu hc hc' e1 e2 => ?_, fun k hk => ?_, hs.below, fun z v hv hc => ?_⟩
      · rcases look z v hv hc with ⟨-, rfl⟩ | ⟨-, -, h⟩
        · exact hs.alive y _ hw hc
        · exact hs.alive z v h hc
      · rcases look a v hv hc with ⟨rfl, rfl⟩ | ⟨n1, n2, h1⟩
        · rcases look b u hu hc' with ⟨rfl, rfl⟩ | ⟨n3, n4, h2⟩
          · rfl
          · exact absurd (hs.one y b _ u k hw h2 hc hc' e1 e2) (Ne.symm n4)
        · rcases look b u hu hc' with ⟨rfl, rfl⟩ | ⟨n3, n4, h2⟩
          · exact absurd (hs.one a y v _ k h1 hw hc hc' e1 e2) n2
          · exact hs.one a b v u k h1 h2 hc hc' e1 e2
      · obtain ⟨z, v, hv, hc, e1⟩ := hs.held k hk
        by_cases e2 : z = y
        · subst e2
          rw [hw] at hv; cases hv
          exact ⟨x, w, by rw [vars_put, if_neg e, vars_put, if_pos rfl], hc, e1⟩
        · have e3 : z ≠ x := by
            rintro rfl
            rw [ho] at hv; cases hv; rw [hb] at hc; cases hc
          exact ⟨z, v, by rw [vars_put, if_neg e2, vars_put, if_neg e3]; exact hv, hc, e1⟩
      · rw [vars_put] at hv
        by_cases e1 : z = y
        · rw [if_pos e1] at hv; cases hv; rfl
        · rw [if_neg e1, vars_put] at hv
          by_cases e2 : z = x
          · rw [if_pos e2] at hv; cases hv; exact hs.bare y _ hw hc
          · rw [if_neg e2] at hv; exact hs.bare z v hv hc
  | @assign x y h h' =>
    obtain ⟨o, ho, hb⟩ := h
    obtain ⟨w, hw, hwb⟩ := h'
    exact ⟨_, by rw [PState.call, get_eq ho, Res.ok_bind, get_eq hw]; rfl,
      hs.put_bare (.inr ⟨o, ho, hb⟩) (fun v hv => by cases hv; exact ⟨hwb, hs.bare y _ hw hwb⟩)⟩
  | @create x h =>
    obtain ⟨o, ho, hb⟩ := h
    exact ⟨_, by rw [PState.call, get_eq ho]; rfl, hs.put_new (.inr ⟨o, ho, hb⟩)⟩
  | @use x h =>
    obtain ⟨o, ho, hb⟩ := h
    obtain ⟨k, e, hl⟩ := hs.alive x o ho hb
    refine ⟨s, ?_, hs⟩
    rw [PState.call]
    rw [get_eq ho, Res.ok_bind, e]
    rw [access, if_pos hl]
    rfl
  | @destroy x h =>
    obtain ⟨o, ho⟩ := Option.isSome_iff_exists.mp h
    by_cases hb : o.created = true
    · obtain ⟨k, e, hl⟩ := hs.alive x o ho hb
      refine ⟨PState.put { s with live := fun j => if j = k then false else s.live j } x none, ?_, ?_⟩
      · rw [PState.call]
        rw [get_eq ho, Res.ok_bind, finalize, if_pos hb, e, release, if_pos hl]
        rfl
      · have look : ∀ z v, (PState.put { s with live := fun j => if j = k then false else s.live j } x none).vars z = some v →
            z ≠ x ∧ s.vars z = some v := by
          intro z v hv
          rw [vars_put] at hv
          by_cases e1 : z = x
          · rw [if_pos e1] at hv; cases hv
          · rw [if_neg e1] at hv; exact ⟨e1, hv⟩
        refine ⟨fun z v hv hc => ?_, fun a b v u j hv hu hc hc' e1 e2 =>
          hs.one a b v u j (look a v hv).2 (look b u hu).2 hc hc' e1 e2, fun j hj => ?_, fun j hj => ?_, fun z v hv hc =>
          hs.bare z v (look z v hv).2 hc⟩
        · obtain ⟨n1, h1⟩ := look z v hv
          obtain ⟨j, ej, hj⟩ := hs.alive z v h1 hc
          refine ⟨j, ej, ?_⟩
          show (if j = k then false else s.live j) = true
          rw [if_neg]
          · exact hj
          · rintro rfl
            exact n1 (hs.one z x v o j h1 ho hc hb ej e)
        · change (if j = k then false else s.live j) = true at hj
          by_cases ej : j = k
          · rw [if_pos ej] at hj; cases hj
          · rw [if_neg ej] at hj
            obtain ⟨z, v, hv, hc, e1⟩ := hs.held j hj
            refine ⟨z, v, ?_, hc, e1⟩
            rw [vars_put, if_neg]
            · exact hv
            · rintro rfl
              rw [ho] at hv; cases hv
              rw [e] at e1; cases e1
              exact ej rfl
        · change (if j = k then false else s.live j) = true at hj
          by_cases ej : j = k
          · rw [if_pos ej] at hj; cases hj
          · rw [if_neg ej] at hj
            exact hs.below j hj
    · refine ⟨s.put x none, ?_, hs.put_bare (.inr ⟨o, ho, by simpa using hb⟩) (fun v hv => by cases hv)⟩
      rw [PState.call]
      rw [get_eq ho, Res.ok_bind, finalize, if_neg hb]
      rfl

theorem Owned.run {s : PState} (hs : s.Owned) {L : List PCall} (h : s.CarefulRun L) : ∃ s', s.run L = .ok s' ∧ s'.Owned := by
  induction L generalizing s with
  | nil => exact ⟨s, rfl, hs⟩
  | cons c L ih =>
    obtain ⟨s1, e1, h1⟩ := hs.call h.1
    obtain ⟨s2, e2, h2⟩ := ih h1 (h.2 s1 e1)
    refine ⟨s2, ?_, h2⟩
    unfold PState.run at *
    rw [List.foldlM_cons, e1, Res.ok_bind, e2]

/-- An object no variable will ever destroy. -/
def Lost (s : PState) (h : Nat) : Prop := h < s.next ∧ ∀ x o, s.vars x = some o → o.handle = some h → o.created = false

theorem Lost.call {s s' : PState} {h : Nat} (hl : s.Lost h) {c : PCall} (e : s.call c = .ok s') : s'.Lost h ∧ s'.live h = s.live h := by
  have putL : ∀ {s : PState}, s.Lost h → ∀ (x : Nat) (o : Option PObj), (∀ v, o = some v → v.handle = some h → v.created = false) →
      (s.put x o).Lost h := by
    intro s hl x o ho
    refine ⟨hl.1, fun y v hv eh => ?_⟩
    rw [vars_put] at hv
    by_cases ey : y = x
    · rw [if_pos ey] at hv; exact ho v hv eh
    · rw [if_neg ey] at hv; exact hl.2 y v hv eh
  have allocL : s.alloc.2.Lost h := ⟨by have := hl.1; show h < s.next + 1; omega, hl.2⟩
  have allocl : s.alloc.2.live h = s.live h := by
    show (if h = s.next then true else s.live h) = s.live h
    rw [if_neg]
    have := hl.1
    omega
  have notnew : ∀ b v, (some (⟨b, some s.alloc.1⟩ : PObj)) = some v → v.handle = some h → v.created = false := by
    intro b v hv eh
    cases hv
    have := hl.1
    cases eh
    exact absurd this (Nat.lt_irrefl _)
  cases c with
  | declare x =>
    simp only [PState.call, Res.bind_eq_ok, Res.pure_def, Res.ok_inj] at e
    obtain ⟨-, -, rfl⟩ := e
    exact ⟨putL hl _ _ (fun v hv _ => by cases hv; rfl), rfl⟩
  | build x =>
    simp only [PState.call, Res.bind_eq_ok, Res.pure_def, Res.ok_inj] at e
    obtain ⟨-, -, rfl⟩ := e
    exact ⟨putL allocL _ _ (notnew _), allocl⟩
  | toComm x y =>
    simp only [PState.call, Res.bind_eq_ok, Res.pure_def, Res.ok_inj] at e
    obtain ⟨-, -, -, -, -, -, rfl⟩ := e
    exact ⟨putL allocL _ _ (notnew _), allocl⟩
  | copy x y =>
    simp only [PState.call, Res.bind_eq_ok, Res.pure_def, Res.ok_inj] at e
    obtain ⟨-, -, o, ho, rfl⟩ := e
    have ho' : s.vars y = some o := by
      unfold PState.get at ho
      split at ho
      · cases ho; assumption
      · cases ho
    exact ⟨putL hl _ _ (fun v hv eh => by cases hv; exact hl.2 y _ ho' eh), rfl⟩
  | moveAssign x y =>
    simp only [PState.call, Res.bind_eq_ok] at e
    obtain ⟨-, -, o, ho, e⟩ := e
    have ho' : s.vars y = some o := by
      unfold PState.get at ho
      split at ho
      · cases ho; assumption
      · cases ho
    split at e
    · cases e
      exact ⟨putL (putL hl _ _ (fun v hv eh => by cases hv; exact hl.2 y _ ho' eh)) _ _ (fun v hv _ => by cases hv; rfl), rfl⟩
    · cases e
      exact ⟨hl, rfl⟩
  | assign x y =>
    simp only [PState.call, Res.bind_eq_ok, Res.pure_def, Res.ok_inj] at e
    obtain ⟨-, -, o, ho, rfl⟩ := e
    have ho' : s.vars y = some o := by
      unfold PState.get at ho
      split at ho
      · cases ho; assumption
      · cases ho
    exact ⟨putL hl _ _ (fun v hv eh => by cases hv; exact hl.2 y _ ho' eh), rfl⟩
  | create x =>
    simp only [PState.call, Res.bind_eq_ok, Res.pure_def, Res.ok_inj] at e
    obtain ⟨-, -, rfl⟩ := e
    exact ⟨putL allocL _ _ (notnew _), allocl⟩
  | use x =>
    simp only [PState.call, Res.bind_eq_ok, Res.pure_def, Res.ok_inj] at e
    obtain ⟨-, -, -, -, rfl⟩ := e
    exact ⟨hl, rfl⟩
  | destroy x =>
    simp only [PState.call, Res.bind_eq_ok, Res.pure_def, Res.ok_inj] at e
    obtain ⟨o, ho, s1, e1, rfl⟩ := e
    have ho' : s.vars x = some o := by
      unfold PState.get at ho
      split at ho
      · cases ho; assumption
      · cases ho
    have key : s1.Lost h ∧ s1.live h = s.live h := by
      unfold PState.finalize at e1
      split at e1
      · rename_i hc
        unfold PState.release at e1
        split at e1
        · cases e1; exact ⟨hl, rfl⟩
        · rename_i k ek
          split at e1
          · cases e1
            refine ⟨hl, ?_⟩
            show (if h = k then false else s.live h) = s.live h
            rw [if_neg]
            rintro rfl
            rw [hl.2 x o ho' ek] at hc
            cases hc
          · cases e1
      · cases e1; exact ⟨hl, rfl⟩
    exact ⟨putL key.1 _ _ (fun v hv _ => by cases hv), key.2⟩

theorem Lost.run {s s' : PState} {h : Nat} (hl : s.Lost h) {L : List PCall} (e : s.run L = .ok s') : s'.live h = s.live h := by
  induction L generalizing s with
  | nil => cases e; rfl
  | cons c L ih =>
    unfold PState.run at e
    rw [List.foldlM_cons, Res.bind_eq_ok] at e
    obtain ⟨s1, e1, e2⟩ := e
    obtain ⟨h1, h2⟩ := hl.call e1
    rw [ih h1 e2, h2]

end PState

end EF
