import Verif.Proofs.Petsc

/-!
# Property C63: the PETSc objects behind the wrappers are destroyed exactly once
-/

namespace EF

open PState

/-! ## C63 -/

/-- A program that copies and overwrites only variables without an object (and uses only those with one): no call fails, at every
point the objects of PETSc are exactly those of the variables with an object, one each, and so once all variables are gone no
object is left. -/
theorem C63_careful_partial {L : List PCall} (h : PState.empty.CarefulRun L) :
    ∃ s, PState.empty.run L = .ok s ∧ (∀ k, s.live k = true ↔ ∃ x o, s.vars x = some o ∧ o.created = true ∧ o.handle = some k) ∧
      (∀ x y o o' k, s.vars x = some o → s.vars y = some o' → o.created = true → o'.created = true → o.handle = some k →
        o'.handle = some k → x = y) ∧ ((∀ x, s.vars x = none) → ∀ k, s.live k = false) := by
  obtain ⟨s, e, hs⟩ := Owned.empty.run h
  refine ⟨s, e, fun k => ⟨hs.held k, ?_⟩, hs.one, fun hn k => ?_⟩
  · rintro ⟨x, o, hx, hc, ek⟩
    obtain ⟨j, ej, hl⟩ := hs.alive x o hx hc
    rw [ek] at ej; cases ej
    exact hl
  · cases hk : s.live k with
    | false => rfl
    | true =>
      obtain ⟨x, o, hx, -, -⟩ := hs.held k hk
      rw [hn x] at hx; cases hx

/-- The library's own use, in patches: such a program never fails and never makes PETSc hold anything. -/
theorem C63_patches_partial {L : List PCall} (hp : ∀ c ∈ L, c.OfPatch) (hn : PState.empty.NamedRun L) :
    ∃ s, PState.empty.run L = .ok s ∧ ∀ k, s.live k = false := by
  have key : ∀ (L : List PCall) (s : PState), (∀ x o, s.vars x = some o → o.created = false) → (∀ c ∈ L, c.OfPatch) → s.NamedRun L →
      ∃ s', s.run L = .ok s' ∧ ∀ k, s'.live k = s.live k := by
    intro L
    induction L with
    | nil => intro s _ _ _; exact ⟨s, rfl, fun _ => rfl⟩
    | cons c L ih =>
      intro s hb hp hn
      have hc := hp c (by simp)
      have hput : ∀ (x : Nat) (v : Option PObj), (∀ o, v = some o → o.created = false) → ∀ y o, (s.put x v).vars y = some o → o.created = false := by
        intro x v hv y o ho
        rw [vars_put] at ho
        by_cases e : y = x
        · rw [if_pos e] at ho; exact hv o ho
        · rw [if_neg e] at ho; exact hb y o ho
      have step : ∃ s1, s.call c = .ok s1 ∧ (∀ x o, s1.vars x = some o → o.created = false) ∧ ∀ k, s1.live k = s.live k := by
        cases c with
        | declare x => exact ⟨_, by rw [PState.call, fresh_eq hn.1]; rfl, hput _ _ (fun o ho => by cases ho; rfl), fun _ => rfl⟩
        | copy x y =>
          obtain ⟨o, ho⟩ := Option.isSome_iff_exists.mp hn.1.2
          exact ⟨_, by rw [PState.call, fresh_eq hn.1.1, Res.ok_bind, get_eq ho]; rfl,
            hput _ _ (fun v hv => by cases hv; exact hb y o ho), fun _ => rfl⟩
        | moveAssign x y =>
          obtain ⟨w, hw⟩ := Option.isSome_iff_exists.mp hn.1.1
          obtain ⟨o, ho⟩ := Option.isSome_iff_exists.mp hn.1.2
          by_cases e : x = y
          · exact ⟨s, by rw [PState.call, get_eq hw, Res.ok_bind, get_eq ho, Res.ok_bind, if_neg (by simpa using e)]; rfl, hb, fun _ => rfl⟩
          · refine ⟨(s.put x (some o)).put y (some ⟨false, none⟩), by
              rw [PState.call, get_eq hw, Res.ok_bind, get_eq ho, Res.ok_bind, if_pos e]; rfl, fun z v hv => ?_, fun _ => rfl⟩
            rw [vars_put] at hv
            by_cases e1 : z = y
            · rw [if_pos e1] at hv; cases hv; rfl
            · rw [if_neg e1] at hv
              exact hput x (some o) (fun u hu => by cases hu; exact hb y _ ho) z v hv
        | assign x y =>
          obtain ⟨w, hw⟩ := Option.isSome_iff_exists.mp hn.1.1
          obtain ⟨o, ho⟩ := Option.isSome_iff_exists.mp hn.1.2
          exact ⟨_, by rw [PState.call, get_eq hw, Res.ok_bind, get_eq ho]; rfl,
            hput _ _ (fun v hv => by cases hv; exact hb y o ho), fun _ => rfl⟩
        | destroy x =>
          obtain ⟨o, ho⟩ := Option.isSome_iff_exists.mp hn.1
          refine ⟨s.put x none, ?_, hput _ _ (fun v hv => by cases hv), fun _ => rfl⟩
          rw [PState.call]
          rw [get_eq ho, Res.ok_bind, finalize, if_neg (by rw [hb x o ho]; simp)]
          rfl
        | build x => cases hc
        | toComm x y => cases hc
        | create x => cases hc
        | use x => cases hc
      obtain ⟨s1, e1, h1, l1⟩ := step
      obtain ⟨s2, e2, l2⟩ := ih s1 h1 (fun d hd => hp d (by simp [hd])) (hn.2 s1 e1)
      exact ⟨s2, by unfold PState.run at *; rw [List.foldlM_cons, e1, Res.ok_bind, e2], fun k => by rw [l2 k, l1 k]⟩
  obtain ⟨s, e, h⟩ := key L .empty (fun x o h => by cases h) hp hn
  exact ⟨s, e, fun k => h k⟩

/-- A copy of a vector or matrix with an object: when both go away the object is destroyed twice, and when one has gone away the
other can no longer be used. -/
theorem C63_copy_wrong {s : PState} {x y h : Nat} (hx : s.vars x = some ⟨true, some h⟩) (hl : s.live h = true) (hy : s.vars y = none) :
    s.run [.copy y x, .destroy y, .destroy x] = .ub ∧ s.run [.copy y x, .destroy x, .destroy y] = .ub ∧
      s.run [.copy y x, .destroy y, .use x] = .ub := by
  have hne : x ≠ y := by rintro rfl; rw [hx] at hy; cases hy
  have e1 : s.call (.copy y x) = .ok (s.put y (some ⟨true, some h⟩)) := by
    rw [PState.call]
    rw [fresh_eq hy, Res.ok_bind, get_eq hx]
    rfl
  have e2 : (s.put y (some ⟨true, some h⟩)).call (.destroy y) =
      .ok (PState.put { s.put y (some ⟨true, some h⟩) with live := fun k => if k = h then false else s.live k } y none) := by
    rw [PState.call]
    rw [get_eq (o := ⟨true, some h⟩) (by rw [vars_put, if_pos rfl]), Res.ok_bind, finalize, if_pos rfl, release, live_put, if_pos hl]
    rfl
  have e3 : (s.put y (some ⟨true, some h⟩)).call (.destroy x) =
      .ok (PState.put { s.put y (some ⟨true, some h⟩) with live := fun k => if k = h then false else s.live k } x none) := by
    rw [PState.call]
    rw [get_eq (o := ⟨true, some h⟩) (by rw [vars_put, if_neg hne]; exact hx), Res.ok_bind, finalize, if_pos rfl, release, live_put, if_pos hl]
    rfl
  unfold PState.run
  refine ⟨?_, ?_, ?_⟩
  · rw [List.foldlM_cons, e1, Res.ok_bind, List.foldlM_cons, e2, Res.ok_bind, List.foldlM_cons]
    have : (PState.put { s.put y (some ⟨true, some h⟩) with live := fun k => if k = h then false else s.live k } y none).call (.destroy x) =
        .ub := by
      rw [PState.call]
      rw [get_eq (o := ⟨true, some h⟩) (by rw [vars_put, if_neg hne, vars_put, if_neg hne]; exact hx), Res.ok_bind, finalize, if_pos rfl, release, live_put, if_neg (by simp)]
      rfl
    rw [this]
    rfl
  · rw [List.foldlM_cons, e1, Res.ok_bind, List.foldlM_cons, e3, Res.ok_bind, List.foldlM_cons]
    have : (PState.put { s.put y (some ⟨true, some h⟩) with live := fun k => if k = h then false else s.live k } x none).call (.destroy y) =
        .ub := by
      rw [PState.call]
      rw [get_eq (o := ⟨true, some h⟩) (by rw [vars_put, if_neg (Ne.symm hne), vars_put, if_pos rfl]), Res.ok_bind, finalize, if_pos rfl, release, live_put, if_neg (by simp)]
      rfl
    rw [this]
    rfl
  · rw [List.foldlM_cons, e1, Res.ok_bind, List.foldlM_cons, e2, Res.ok_bind, List.foldlM_cons]
    have : (PState.put { s.put y (some ⟨true, some h⟩) with live := fun k => if k = h then false else s.live k } y none).call (.use x) =
        .ub := by
      rw [PState.call]
      rw [get_eq (o := ⟨true, some h⟩) (by rw [vars_put, if_neg hne, vars_put, if_neg hne]; exact hx), Res.ok_bind]
      rw [access, live_put, if_neg (by simp)]
      rfl
    rw [this]
    rfl

/-- A matrix with an object that is overwritten by move assignment: whatever the program does afterwards, its old object is never
destroyed. -/
theorem C63_move_assign_wrong {s : PState} {L₀ : List PCall} (h₀ : PState.empty.CarefulRun L₀) (e₀ : PState.empty.run L₀ = .ok s) {x y h : Nat} (hx : s.vars x = some ⟨true, some h⟩) (hxy : x ≠ y)
    (hy : (s.vars y).isSome) (L : List PCall) {s' : PState} (hrun : s.run (.moveAssign x y :: L) = .ok s') : s'.live h = true := by
  have hs : s.Owned := by
    obtain ⟨t, et, ht⟩ := Owned.empty.run h₀
    rw [e₀] at et; cases et
    exact ht
  obtain ⟨o, ho⟩ := Option.isSome_iff_exists.mp hy
  obtain ⟨k, ek, hl⟩ := hs.alive x _ hx rfl
  cases ek
  have e1 : s.call (.moveAssign x y) = .ok ((s.put x (some o)).put y (some ⟨false, none⟩)) := by
    rw [PState.call]
    rw [get_eq hx, Res.ok_bind, get_eq ho, Res.ok_bind, if_pos hxy]
    rfl
  unfold PState.run at hrun
  rw [List.foldlM_cons, e1, Res.ok_bind] at hrun
  have lost : ((s.put x (some o)).put y (some ⟨false, none⟩)).Lost h := by
    refine ⟨hs.below h hl, fun z v hv eh => ?_⟩
    cases hc : v.created with
    | false => rfl
    | true =>
      exfalso
      rw [vars_put] at hv
      by_cases e : z = y
      · rw [if_pos e] at hv; cases hv; cases hc
      · rw [if_neg e, vars_put] at hv
        by_cases e' : z = x
        · rw [if_pos e'] at hv; cases hv
          exact hxy (hs.one x y _ _ h hx ho rfl hc rfl eh)
        · rw [if_neg e'] at hv
          exact e' (hs.one z x _ _ h hv hx hc rfl eh rfl)
  rw [lost.run hrun]
  exact hl

/-- A matrix moved to another communicator by the constructor for that: the object made
there is never destroyed. -/
theorem C63_to_comm_wrong {s : PState} {L₀ : List PCall} (h₀ : PState.empty.CarefulRun L₀) (e₀ : PState.empty.run L₀ = .ok s) {x y : Nat} (hx : s.vars x = none) {o : PObj} (hy : s.vars y = some o)
    (hc : o.created = true) (L : List PCall) {s' : PState} (hrun : s.run (.toComm x y :: L) = .ok s') :
    s.live s.next = false ∧ s'.live s.next = true := by
  have hs : s.Owned := by
    obtain ⟨t, et, ht⟩ := Owned.empty.run h₀
    rw [e₀] at et; cases et
    exact ht
  have hbelow : ∀ z v k, s.vars z = some v → v.handle = some k → k < s.next := by
    intro z v k hv ek
    cases hb : v.created with
    | false => rw [hs.bare z v hv hb] at ek; cases ek
    | true =>
      obtain ⟨j, ej, hl⟩ := hs.alive z v hv hb
      rw [ek] at ej; cases ej
      exact hs.below k hl
  refine ⟨?_, ?_⟩
  · cases hb : s.live s.next with
    | false => rfl
    | true => exact absurd (hs.below _ hb) (Nat.lt_irrefl _)
  obtain ⟨k, ek, hl⟩ := hs.alive y o hy hc
  have e1 : s.call (.toComm x y) = .ok (s.alloc.2.put x (some ⟨false, some s.alloc.1⟩)) := by
    rw [PState.call]
    rw [fresh_eq hx, Res.ok_bind, get_eq hy, Res.ok_bind, ek]
    rw [access, if_pos hl]
    rfl
  unfold PState.run at hrun
  rw [List.foldlM_cons, e1, Res.ok_bind] at hrun
  have lost : (s.alloc.2.put x (some ⟨false, some s.alloc.1⟩)).Lost s.next := by
    refine ⟨Nat.lt_succ_self _, fun z v hv eh => ?_⟩
    rw [vars_put] at hv
    by_cases e : z = x
    · rw [if_pos e] at hv; cases hv; rfl
    · rw [if_neg e] at hv
      exact absurd (hbelow z v _ hv eh) (Nat.lt_irrefl _)
  rw [lost.run hrun]
  exact if_pos rfl

/-- A program in order: a vector is built and used, moved into a variable without object, and everything is destroyed. -/
example : ∃ s, PState.empty.run [.build 0, .use 0, .declare 1, .moveAssign 1 0, .use 1, .destroy 0, .destroy 1] = .ok s ∧
    (∀ k, s.live k = false) := by
  refine ⟨_, rfl, fun k => ?_⟩
  show (if k = 0 then false else if k = 0 then true else false) = false
  by_cases h : k = 0
  · rw [if_pos h]
  · rw [if_neg h, if_neg h]

example : PState.empty.CarefulRun [.build 0, .use 0, .declare 1, .moveAssign 1 0, .use 1, .destroy 0, .destroy 1] := by
  refine ⟨.build rfl, fun s1 e1 => ?_⟩
  cases e1
  refine ⟨.use ⟨_, rfl, rfl⟩, fun s2 e2 => ?_⟩
  cases e2
  refine ⟨.declare rfl, fun s3 e3 => ?_⟩
  cases e3
  refine ⟨.moveAssign ⟨_, rfl, rfl⟩ rfl, fun s4 e4 => ?_⟩
  cases e4
  refine ⟨.use ⟨_, rfl, rfl⟩, fun s5 e5 => ?_⟩
  cases e5
  refine ⟨.destroy rfl, fun s6 e6 => ?_⟩
  cases e6
  exact ⟨.destroy rfl, fun _ _ => trivial⟩

/-- Building a vector, copying it and leaving the scope. -/
example : PState.empty.run [.build 0, .copy 1 0, .destroy 1, .destroy 0] = .ub :=
  (C63_copy_wrong (s := (PState.empty.alloc.2.put 0 (some ⟨true, some 0⟩))) (x := 0) (y := 1) (h := 0) rfl rfl rfl).1

/-- Building two matrices, moving one onto the other and leaving the scope: one object is left. -/
example : ∃ s, PState.empty.run [.build 0, .build 1, .moveAssign 0 1, .destroy 1, .destroy 0] = .ok s ∧ (∀ x, s.vars x = none) ∧
    s.live 0 = true := by
  refine ⟨_, rfl, fun x => ?_, rfl⟩
  show (if x = 0 then none else if x = 1 then none else if x = 1 then some (⟨false, none⟩ : PObj) else if x = 0 then _ else
    if x = 1 then _ else if x = 0 then _ else none) = none
  by_cases h0 : x = 0
  · simp [h0]
  · by_cases h1 : x = 1
    · simp [h1]
    · simp [h0, h1]

end EF
