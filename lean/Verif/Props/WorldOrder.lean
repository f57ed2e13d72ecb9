import Verif.Proofs.WorldOrder
import Verif.Props.WorldCalls

/-!
# C105: the order of the collective calls of the leaf solver

Equal numbers of leaves are not enough: a rank that comes to a family it shares with another rank waits there, while the other one waits in
an index set.
-/

namespace EF

open HPS

variable {K : Type} [Field K] {N M size : Nat} {F : Forest}

/-- C105 is false of the code also where all ranks own equally many leaves: the program ends on two ranks only if they come to the operations
of the first merge that concern them both in the same order. -/
theorem C105_order_wrong (lap : Lapack K) (ps : PatchSolver K) {opt : HPSOptions} (ho : opt.cacheOperators = false) (hM : F.depth ≤ M)
    (hF : F.Sorted) (root : Patch K) (f : K → K → K) (bc : BoundaryFn K) (n : Nat) {p q : Nat} (hp : p < size) (hq : q < size)
    (hne : ¬ (commonOps size (8 * N) F p q <+: commonOps size (8 * N) F q p ∨ commonOps size (8 * N) F q p <+: commonOps size (8 * N) F p q))
    {j : Nat} {c : Config (Patch K) (Mesh K)} (hr : Run j (exampleWorldOn N M size F lap ps opt root f bc n) c) :
    ¬ ((∃ x, c p = .fin (.ok x)) ∧ ∃ x, c q = .fin (.ok x)) := by
  rintro ⟨ep, eq⟩
  have key : ∀ r, r < size → (exampleWorldOn N M size F lap ps opt root f bc n r).Begins True (fun _ => True)
      ((0, size - 1, []) :: (0, size - 1, []) :: mergeOps size (8 * N) r F []) := by
    intro r h
    unfold exampleWorldOn
    rw [if_pos h]
    unfold exampleMainWorld
    obtain ⟨m1, a1, -, a3, a4, -⟩ := refine_first (K := K) hM hF root r
    dsimp only
    rw [a1]
    refine .bind0 (Q := fun m => m = m1) (.ok rfl) fun m hm => ?_
    subst hm
    refine .bind (l := [(0, size - 1, [])]) (l' := (0, size - 1, []) :: mergeOps size (8 * N) r F [])
      (Q := fun A => A = ⟨m, none⟩) (.end0 (Q := fun _ => True) (.allMax fun _ => .ok trivial) fun _ _ => .ok rfl) fun A hA => ?_
    subst hA
    refine .end0 (Q := fun _ => True) ?_ fun A _ => .rest trivial _
    refine .bind (l := [(0, size - 1, [])]) (l' := mergeOps size (8 * N) r F []) (Q := fun _ => True) (.allMax fun _ => .ok trivial)
      fun _ _ => ?_
    exact .end0 (mergeWorld_begins (c := 8 * N) (fun t => by
      unfold HPSRank.buildCalls
      rw [if_neg (by simp [ho])]
      ring) hM hF a4 a3 _) fun _ _ => .ok trivial
  have hb : Op.both p q (0, size - 1, []) = true := by simp [Op.both]; omega
  have sym : ∀ l : List Op, l.filter (Op.both p q) = l.filter (Op.both q p) := fun l => by
    congr 1
    funext o
    simp only [Op.both, and_comm]
  have h := Prog.Begins.run hr (key p hp) (key q hq) ep eq
  simp only [List.filter_cons_of_pos hb, List.cons_prefix_cons, true_and, List.cons.injEq] at h
  rw [sym (mergeOps size (8 * N) q F [])] at h
  rcases h with h | h | h
  · exact hne (.inl (by unfold commonOps; rw [h]))
  · exact hne (.inl h)
  · exact hne (.inr h)

/-- The upwards stage, with or without the operator cache, from trees that represent some tree of patches. -/
theorem C105_upwards_order_wrong (lap : Lapack K) (ps : PatchSolver K) (opt : HPSOptions) (f : K → K → K) (hM : F.depth ≤ M) (hF : F.Sorted)
    {A : Nat → HPSRank K} {t : Tree (Patch K)} (hA : HoldsOn size F t (fun r => (A r).mesh.quadtree)) {p q : Nat} (hp : p < size)
    (hq : q < size) (hne : commonOps size 2 F p q ≠ commonOps size 2 F q p) {j : Nat} {c : Config (Patch K) (HPSRank K)}
    (hr : Run j (fun r => if r < size then (A r).upwardsStageWorld ⟨M, size, r, F⟩ lap ps opt f else .fin (.ok (A r))) c) :
    ¬ ((∃ x, c p = .fin (.ok x)) ∧ ∃ x, c q = .fin (.ok x)) := by
  rintro ⟨ep, eq⟩
  have key : ∀ r, r < size → ((if r < size then (A r).upwardsStageWorld ⟨M, size, r, F⟩ lap ps opt f else .fin (.ok (A r))) :
      Prog (Patch K) (HPSRank K)).Begins False (fun _ => True) ((0, size - 1, []) :: mergeOps size 2 r F []) := by
    intro r h
    rw [if_pos h]
    refine .bind (l := [(0, size - 1, [])]) (l' := mergeOps size 2 r F []) (Q := fun _ => True) (.allMax fun _ => .ok trivial)
      fun _ _ => ?_
    exact .end0 (mergeWorld_begins (fun t => rfl) hM hF (hA r h).2 (hA r h).1 _) fun _ _ => .ok trivial
  have hb : Op.both p q (0, size - 1, []) = true := by simp [Op.both]; omega
  have sym : ∀ l : List Op, l.filter (Op.both p q) = l.filter (Op.both q p) := fun l => by
    congr 1
    funext o
    simp only [Op.both, and_comm]
  have h := Prog.Begins.run hr (key p hp) (key q hq) ep eq
  simp only [List.filter_cons_of_pos hb, List.cons.injEq, true_and, false_and, or_false] at h
  rw [sym (mergeOps size 2 q F [])] at h
  exact hne h

/-! ## The hypotheses are met -/

/-- Two refined quarters and two large leaves on two ranks, five leaves on each.  Rank 1 comes to the second refined quarter, which it shares
with rank 0, after three leaves; rank 0 after five. -/
def exFiveFive : Forest :=
  .node (.node (.leaf 0) (.leaf 0) (.leaf 0) (.leaf 0)) (.node (.leaf 0) (.leaf 1) (.leaf 1) (.leaf 1)) (.leaf 1) (.leaf 1)

/-- Both ranks own five leaves; without the calls the program ends on both ranks, with them it does not. -/
example (lap : Lapack ℚ) (lu : PetscLU ℚ) (f : ℚ → ℚ → ℚ) (bc : BoundaryFn ℚ) :
    exFiveFive.ranks.count 0 = exFiveFive.ranks.count 1 ∧
    (∃ Z : Nat → Mesh ℚ, AlwaysEnds (exampleOn 30 2 exFiveFive lap (exPde.toPatchSolver lu) ⟨false, false⟩
      (Patch.fresh ⟨4, 4, 0, 1, 0, 1⟩) f bc 1) Z) ∧
    ¬ ∃ Z : Nat → Mesh ℚ, AlwaysEnds (exampleWorldOn 4 30 2 exFiveFive lap (exPde.toPatchSolver lu) ⟨false, false⟩
      (Patch.fresh ⟨4, 4, 0, 1, 0, 1⟩) f bc 1) Z := by
  refine ⟨by decide, ?_, ?_⟩
  · obtain ⟨_, _, _, Z, -, -, h, -⟩ := C65_as_serial_partial (N := 4) (M := 30) (size := 2) (F := exFiveFive) lap (by omega)
      (FVSolver.shapes lu exPde (n := 4) (by omega)) (opt := ⟨false, false⟩) rfl (by decide) (by unfold Forest.Sorted; decide)
      (by intro r; simp [exFiveFive, Forest.ranks]; omega) (root := Patch.fresh ⟨4, 4, 0, 1, 0, 1⟩) (R := unitSquare) rfl rfl
      (Or.inl (by omega)) (fun h => by cases h) f bc 0
    exact ⟨Z, h⟩
  · rintro ⟨Z, m, hm⟩
    have h := (hm 0 _ (.refl _)).2
    exact C105_order_wrong (N := 4) (M := 30) (size := 2) (F := exFiveFive) lap (exPde.toPatchSolver lu) (opt := ⟨false, false⟩) rfl
      (by decide) (by unfold Forest.Sorted; decide) (Patch.fresh ⟨4, 4, 0, 1, 0, 1⟩) f bc 1 (p := 0) (q := 1) (by omega) (by omega)
      (by decide +kernel) h ⟨⟨_, rfl⟩, _, rfl⟩

/-- The two ranks differ in the upwards stage too. -/
example : commonOps 2 2 exFiveFive 0 1 ≠ commonOps 2 2 exFiveFive 1 0 := by decide +kernel

end EF
