import Verif.Proofs.WorldCache
import Verif.Props.WorldCalls

/-!
# C105 with the operator cache

With the cache a rank builds one operator however many leaves it has, but it solves on every leaf.
-/

namespace EF

open HPS

variable {K : Type}

section
variable [Field K] {N M size : Nat} {F : Forest}

/-- C105 is false of the code with the operator cache too: if two ranks own different numbers of leaves, the program with at least one solve
never ends on both of them, whatever the order of the collective operations, whatever the problem. -/
theorem C105_unequal_cached_wrong (lap : Lapack K) (ps : PatchSolver K) {opt : HPSOptions} (ho : opt.cacheOperators = true) (hM : F.depth ≤ M)
    (hF : F.Sorted) (root : Patch K) (f : K → K → K) (bc : BoundaryFn K) {n : Nat} (hn : 0 < n) {p q : Nat} (hp : p < size) (hq : q < size)
    (hne : F.ranks.count p ≠ F.ranks.count q) {j : Nat} {c : Config (Patch K) (Mesh K)}
    (hr : Run j (exampleWorldOn N M size F lap ps opt root f bc n) c) :
    ¬ ((∃ x, c p = .fin (.ok x)) ∧ ∃ x, c q = .fin (.ok x)) := by
  refine Prog.Makes.never (size := size) (Q := fun _ => True)
    (n := fun r => if r < size then (if r ∈ F.ranks then 8 * N else 0) + 4 * n * F.ranks.count r else 0) hr (fun r => ?_) hp hq ?_
  · unfold exampleWorldOn
    split
    · obtain ⟨m1, a1, -, a3, a4, -⟩ := refine_first (K := K) hM hF root r
      have hc : (⟨m1, none⟩ : HPSRank K).Clean := refine_clean a1
      unfold exampleMainWorld
      dsimp only
      rw [a1]
      refine .bind0 (Q := fun m => m = m1) (.ok rfl) fun m hm => ?_
      subst hm
      refine .bind0 (Q := fun A => A = ⟨m, none⟩) (.bind0 (HPSRank.barrier_makes _ _) fun _ _ => .ok rfl) fun A hA => ?_
      subst hA
      exact .bind (HPSRank.build_makesOnce hc N ⟨M, size, r, F⟩ lap ps ho rfl hM a3 a4) fun A hA =>
        .bind (m := 0) (HPSRank.solves_makes ⟨M, size, r, F⟩ lap ps opt f bc n hA) fun A _ =>
          .bind0 (Q := fun _ => True) (.res fun _ _ => trivial) fun _ _ => .ok trivial
    · exact .ok trivial
  · rw [if_pos hp, if_pos hq]
    have key : ∀ a b : Nat, a < b → 4 * n * a < 4 * n * b := fun a b h => Nat.mul_lt_mul_of_pos_left h (by omega)
    have occ : ∀ r, r ∈ F.ranks ↔ 0 < F.ranks.count r := fun r => List.count_pos_iff.symm
    rcases Nat.lt_or_gt_of_ne hne with h | h
    · have := key _ _ h
      have hq' : q ∈ F.ranks := (occ q).2 (by omega)
      rw [if_pos hq']
      split <;> omega
    · have := key _ _ h
      have hp' : p ∈ F.ranks := (occ p).2 (by omega)
      rw [if_pos hp']
      split <;> omega

end

/-! ## The hypotheses are met -/

/-- The mesh with one refined quarter on two ranks, four small leaves on rank 0 and three large ones on rank 1. -/
example (lap : Lapack ℚ) (lu : PetscLU ℚ) (f : ℚ → ℚ → ℚ) (bc : BoundaryFn ℚ) :
    ¬ ∃ Z : Nat → Mesh ℚ, AlwaysEnds (exampleWorldOn 4 30 2 exTwoRanks lap (exPde.toPatchSolver lu) ⟨true, false⟩
      (Patch.fresh ⟨4, 4, 0, 1, 0, 1⟩) f bc 1) Z := by
  rintro ⟨Z, m, hm⟩
  have h := (hm 0 _ (.refl _)).2
  exact C105_unequal_cached_wrong (N := 4) (M := 30) (size := 2) (F := exTwoRanks) lap (exPde.toPatchSolver lu) (opt := ⟨true, false⟩) rfl
    (by decide) (by unfold Forest.Sorted; decide) (Patch.fresh ⟨4, 4, 0, 1, 0, 1⟩) f bc (n := 1) (by omega) (p := 0) (q := 1) (by omega)
    (by omega) (by decide) h ⟨⟨_, rfl⟩, _, rfl⟩

end EF
