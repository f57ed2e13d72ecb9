import Verif.Proofs.Linear
import Verif.Props.Exact

/-!
# Lemmas about the operator cache of the build stage
-/

namespace EF

theorem Tree.leaves_ne_nil {P : Type} (t : Tree P) : t.leaves ≠ [] := by
  induction t with
  | leaf => simp [Tree.leaves]
  | node _ _ _ _ _ i0 => simp [Tree.leaves, i0]

namespace HPS

open FV

variable {K : Type} [Field K] {N : Nat}

/-- The leaf operators of a built tree. -/
theorem Built.leafT {LP : Grid K → Blk K → Prop} {t : Tree (Patch K)} {R : Rect K} {k m : Nat} {T : Blk K}
    (h : Built N LP t R k m T) : ∀ p ∈ t.leaves, ∃ T', p.T = bm N 4 4 T' ∧ LP p.grid T' := by
  induction h with
  | leaf hk hx hy hR hT hL =>
    intro p hp
    simp only [Tree.leaves, List.mem_singleton] at hp
    subst hp
    exact ⟨_, hT, hL⟩
  | node _ _ _ _ hTT hz hn hm hN h3m hk hx hy hR hX hH hS hSol hT i0 i1 i2 i3 =>
    intro p hp
    simp only [Tree.leaves, List.mem_append] at hp
    rcases hp with ((hp | hp) | hp) | hp
    · exact i0 p hp
    · exact i1 p hp
    · exact i2 p hp
    · exact i3 p hp

/-- With a filled cache every leaf gets the cached operator. -/
theorem buildStage_cached (lap : Lapack K) (ps : PatchSolver K) {opt : HPSOptions} (hc : opt.cacheOperators = true) (A : Mat K)
    (t : Tree (Patch K)) (c : Option (Mat K)) :
    buildStage lap ps opt t (some A) =
      (buildStage lap { ps with buildD2N := fun _ => .ok A } { opt with cacheOperators := false } t c >>= fun r => .ok (r.1, some A)) := by
  unfold buildStage
  induction t generalizing c with
  | leaf p => simp [Tree.mergeSt, buildLeaf, hc]
  | node p c0 c1 c2 c3 i0 i1 i2 i3 =>
    have same : ∀ (t : Tree (Patch K)) (c d : Option (Mat K)),
        t.mergeSt (buildLeaf { ps with buildD2N := fun _ => .ok A } { opt with cacheOperators := false }) (merge4to1 lap) d =
          (t.mergeSt (buildLeaf { ps with buildD2N := fun _ => .ok A } { opt with cacheOperators := false }) (merge4to1 lap) c >>=
            fun r => .ok (r.1, d)) := by
      intro t
      induction t with
      | leaf p => intro c d; simp [Tree.mergeSt, buildLeaf]
      | node p c0 c1 c2 c3 i0 i1 i2 i3 =>
        intro c d
        simp only [Tree.mergeSt]
        rw [i0 c d]
        simp only [bind_assoc, Res.ok_bind]
        refine bind_congr fun r0 => ?_
        rw [i1 r0.2 d]
        simp only [bind_assoc, Res.ok_bind]
        refine bind_congr fun r1 => ?_
        rw [i2 r1.2 d]
        simp only [bind_assoc, Res.ok_bind]
        refine bind_congr fun r2 => ?_
        rw [i3 r2.2 d]
        simp only [bind_assoc, Res.ok_bind]
        rfl
    simp only [Tree.mergeSt]
    rw [i0 c]
    simp only [bind_assoc, Res.ok_bind]
    refine bind_congr fun r0 => ?_
    rw [i1 r0.2]
    simp only [bind_assoc, Res.ok_bind]
    refine bind_congr fun r1 => ?_
    rw [i2 r1.2]
    simp only [bind_assoc, Res.ok_bind]
    refine bind_congr fun r2 => ?_
    rw [i3 r2.2]
    simp only [bind_assoc, Res.ok_bind]
    rfl

/-- With an empty cache the first leaf fills it. -/
theorem buildStage_first (lap : Lapack K) (ps : PatchSolver K) {opt : HPSOptions} (hc : opt.cacheOperators = true)
    {t : Tree (Patch K)} {p : Patch K} {l : List (Patch K)} (hp : t.leaves = p :: l) :
    buildStage lap ps opt t none = (ps.buildD2N p.grid >>= fun A => buildStage lap ps opt t (some A)) := by
  unfold buildStage
  induction t generalizing l with
  | leaf q =>
    simp only [Tree.leaves, List.cons.injEq] at hp
    obtain ⟨rfl, _⟩ := hp
    simp [Tree.mergeSt, buildLeaf, hc, bind_assoc]
  | node q c0 c1 c2 c3 i0 =>
    obtain ⟨p', l', e⟩ : ∃ p' l', c0.leaves = p' :: l' := List.exists_cons_of_ne_nil c0.leaves_ne_nil
    have : p' = p := by
      simp only [Tree.leaves, e, List.cons_append, List.cons.injEq] at hp
      exact hp.1
    subst this
    simp only [Tree.mergeSt]
    rw [i0 e]
    simp only [bind_assoc]

end HPS
end EF
