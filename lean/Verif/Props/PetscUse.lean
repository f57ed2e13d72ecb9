import Mathlib.Tactic.Ring
import Verif.Model.PetscUse

/-!
# C106: a leaf solve uses PETSc by its rules and leaves nothing behind

False of the code in two ways: the two index sets of every solve are never destroyed, and values are inserted into and added to the load
vector without assembly in between.
-/

namespace EF

namespace Petsc

namespace State

theorem run_append (strict : Bool) (a b : List Call) (s : State) :
    s.run strict (a ++ b) = (s.run strict a).bind fun s => s.run strict b := by
  induction a generalizing s with
  | nil => rfl
  | cons c a ih =>
    rw [List.cons_append, run, run]
    cases s.step strict c with
    | none => rfl
    | some s => exact ih s

/-- A call of the loops. -/
def IsFill (c : Call) : Prop := c = .setMat ∨ ∃ m, c = .setVec m

/-- Same objects, same variables. -/
structure Same (s s' : State) : Prop where
  next : s'.next = s.next
  live : s'.live = s.live
  handle : s'.handle = s.handle
  factored : s'.factored = s.factored

theorem Same.has {s s' : State} (h : Same s s') (o : Obj) : s'.Has o ↔ s.Has o := by
  unfold Has
  rw [h.live, h.handle]

theorem run_fill (l : List Call) (hl : ∀ c ∈ l, IsFill c) (s : State) (h1 : s.Has .rhs) (h2 : s.Has .mat) (h3 : s.factored = false) :
    ∃ s', s.run false l = some s' ∧ Same s s' := by
  induction l generalizing s with
  | nil => exact ⟨s, rfl, rfl, rfl, rfl, rfl⟩
  | cons c l ih =>
    have key : ∃ s1, s.step false c = some s1 ∧ Same s s1 := by
      rcases hl c (by simp) with rfl | ⟨m, rfl⟩
      · exact ⟨{ s with matReady := false }, if_pos ⟨h2, h3⟩, rfl, rfl, rfl, rfl⟩
      · exact ⟨{ s with mode := some m, vecReady := false }, if_pos ⟨h1, fun h => by cases h⟩, rfl, rfl, rfl, rfl⟩
    obtain ⟨s1, e1, e2⟩ := key
    obtain ⟨s', e3, e4⟩ := ih (fun c h => hl c (by simp [h])) s1 ((e2.has _).2 h1) ((e2.has _).2 h2) (e2.factored.trans h3)
    refine ⟨s', ?_, e4.next.trans e2.next, e4.live.trans e2.live, e4.handle.trans e2.handle, e4.factored.trans e2.factored⟩
    unfold run
    rw [e1]
    exact e3

end State

open State

theorem fillCalls_fill (nx ny : Nat) : ∀ c ∈ fillCalls nx ny, IsFill c := by
  intro c hc
  obtain ⟨j, -, hc⟩ := List.mem_flatMap.1 hc
  obtain ⟨i, -, hc⟩ := List.mem_flatMap.1 hc
  unfold cellCalls at hc
  rw [List.cons_append, List.mem_cons, List.mem_append, List.mem_singleton] at hc
  rcases hc with rfl | hc | rfl
  · exact .inr ⟨_, rfl⟩
  · split at hc
    · exact .inr ⟨_, List.mem_singleton.1 hc⟩
    · cases hc
  · exact .inl rfl

/-- What a solve leaves, if the rule about inserting and adding does not count: every call is allowed, whatever was made before; of the five
objects it makes the matrix and the two vectors are gone at the end and the two index sets are still there; nothing else has changed. -/
theorem C106_solve_actual (nx ny : Nat) (s : State) : ∃ s', s.run false (solveCalls nx ny) = some s' ∧ s'.next = s.next + 5 ∧
    (∀ i, s'.live i = if i < s.next then s.live i else if i < s.next + 3 then false else if i < s.next + 5 then true else s.live i) ∧
    ¬ s'.Has .mat ∧ ¬ s'.Has .rhs ∧ ¬ s'.Has .sol := by
  unfold solveCalls
  rw [run_append, run_append]
  -- after the three create calls
  let s1 : State := ⟨s.next + 3, fun i => if i = s.next + 2 then true else if i = s.next + 1 then true else if i = s.next then true else s.live i,
    fun o => if o = .sol then some (s.next + 2) else if o = .rhs then some (s.next + 1) else if o = .mat then some s.next else s.handle o,
    none, false, false, false⟩
  have e1 : s.run false [.create .mat, .create .rhs, .create .sol] = some s1 := rfl
  obtain ⟨s2, e2, e3⟩ := run_fill (fillCalls nx ny) (fillCalls_fill nx ny) s1 ⟨s.next + 1, rfl, by simp [s1]⟩ ⟨s.next, rfl, by simp [s1]⟩ rfl
  rw [e1, Option.bind_some, e2, Option.bind_some]
  obtain ⟨n2, l2, g2, m2, a2, b2, f2⟩ := s2
  obtain ⟨rfl, rfl, rfl, rfl⟩ := e3
  let l3 : Nat → Bool := fun i => if i = s.next + 1 then false else if i = s.next + 2 then false else if i = s.next then false else
    if i = s.next + 4 then true else if i = s.next + 3 then true else s1.live i
  let g3 : Obj → Option Nat := fun o => if o = .rhs then none else if o = .sol then none else if o = .mat then none else
    if o = .cols then some (s.next + 4) else if o = .rows then some (s.next + 3) else s1.handle o
  refine ⟨⟨s.next + 5, l3, g3, none, true, true, true⟩, ?_, rfl, fun i => ?_, ?_, ?_, ?_⟩
  · simp [run, step, Has, s1, l3, g3]
  · dsimp only [s1, l3]
    split_ifs <;> first | rfl | omega
  · rintro ⟨i, h, -⟩; cases h
  · rintro ⟨i, h, -⟩; cases h
  · rintro ⟨i, h, -⟩; cases h

/-- A solve leaves two objects more than there were. -/
theorem C106_count (nx ny : Nat) {s s' : State} (h : s.run false (solveCalls nx ny) = some s') : s'.count = s.count + 2 := by
  obtain ⟨s'', e1, e2, e3, -⟩ := C106_solve_actual nx ny s
  rw [e1] at h
  cases h
  unfold State.count
  rw [e2, show List.range (s.next + 5) = List.range s.next ++ [s.next, s.next + 1, s.next + 2, s.next + 3, s.next + 4] by
    simp [List.range_succ], List.filter_append, List.length_append]
  congr 1
  · congr 1
    refine List.filter_congr fun i hi => ?_
    rw [e3, if_pos (List.mem_range.1 hi)]
  · simp [List.filter_cons, e3]

/-- Every solve leaves two objects for good: after any number of solves on grids of any sizes there are twice as many objects more. -/
theorem C106_leak_actual (grids : List (Nat × Nat)) (s : State) :
    ∃ s', s.run false (manyCalls grids) = some s' ∧ s'.count = s.count + 2 * grids.length := by
  induction grids generalizing s with
  | nil => exact ⟨s, rfl, rfl⟩
  | cons g grids ih =>
    obtain ⟨s1, e1, -⟩ := C106_solve_actual g.1 g.2 s
    obtain ⟨s2, e2, e3⟩ := ih s1
    refine ⟨s2, ?_, ?_⟩
    · show s.run false (solveCalls g.1 g.2 ++ manyCalls grids) = some s2
      rw [run_append, e1]
      exact e2
    · rw [e3, C106_count _ _ e1, List.length_cons]
      ring

/-- C106 is false of the code: no solve on any grid leaves as many objects as there were before it. -/
theorem C106_leak_wrong (nx ny : Nat) (s s' : State) (h : s.run false (solveCalls nx ny) = some s') : s'.count ≠ s.count := by
  rw [C106_count nx ny h]
  omega

/-- By the letter of PETSc's rules no solve on a grid with cells is allowed: in the first cell a value is inserted and one is added. -/
theorem C106_modes_wrong {nx ny : Nat} (hx : 0 < nx) (hy : 0 < ny) (s : State) : s.run true (solveCalls nx ny) = none := by
  obtain ⟨a, rfl⟩ := Nat.exists_eq_succ_of_ne_zero hx.ne'
  obtain ⟨b, rfl⟩ := Nat.exists_eq_succ_of_ne_zero hy.ne'
  have e : ∃ l, fillCalls a.succ b.succ = .setVec .insert :: .setVec .add :: l := by
    unfold fillCalls
    simp only [List.range_succ_eq_map, List.flatMap_cons]
    rw [cellCalls, if_pos (.inl rfl)]
    exact ⟨_, rfl⟩
  obtain ⟨l, hl⟩ := e
  unfold solveCalls
  rw [hl]
  simp [run, step, Has]

/-! ## Cases -/

/-- Two solves, from a process without objects, leave four. -/
example : ∃ s', State.start.run false (manyCalls [(4, 4), (3, 5)]) = some s' ∧ s'.count = 4 := C106_leak_actual [(4, 4), (3, 5)] .start

/-- The rules can be kept: a vector into which values are only inserted. -/
example : (State.start.run true [.create .rhs, .setVec .insert, .setVec .insert, .assembleVec, .setVec .add, .assembleVec, .destroy .rhs]).map
    State.count = some 0 := by decide

end Petsc

end EF
