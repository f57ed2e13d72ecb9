import Verif.Proofs.FVSolve
import Mathlib.Tactic.FieldSimp

/-!
# The leaf operator represents the leaf solver
-/

namespace EF
namespace FVSolver

open Finset FV

variable {K : Type} [Field K]

/-- Unit vector. -/
def unit (j : Nat) : Nat → K := fun k => if k = j then 1 else 0

/-- `buildD2N` on a square grid, from the values `solve` computes for unit boundary data. -/
theorem buildD2NWith_ok {solve : Grid K → Vec K → Vec K → Res (Vec K)} {grid : Grid K} {n : Nat} (hn0 : 0 < n)
    (hx : grid.nx = n) (hy : grid.ny = n) {U : Nat → Nat → K}
    (hU : ∀ j, solve grid (Vec.ofFn (4 * n) (unit j)) (Vec.ofFn (n * n) (fun _ => 0)) = .ok (Vec.ofFn (n * n) (U j))) :
    buildD2NWith (mapD2NWith solve) grid = .ok (Mat.ofFn (4 * n) (4 * n) (fun k j =>
        deriv (rect grid) n n (Bdry.ofFn n (unit j)) (fun i' j' => U j (j' + i' * n)) (k / n) (k % n))) := by
  unfold buildD2NWith
  simp only [hx]
  have := forN_ok (n := 4 * n) (body := fun j (st : Mat K × Vec K) => do
    let e ← st.2.set j 1
    let col ← mapD2NWith solve grid e (Vec.fill (n * n) 0)
    let T ← st.1.setColumn j col
    let e ← e.set j 0
    pure (T, e)) (fun m => (Mat.ofFn (4 * n) (4 * n) (fun k j => if j < m then
        deriv (rect grid) n n (Bdry.ofFn n (unit j)) (fun i' j' => U j (j' + i' * n)) (k / n) (k % n) else 0),
        Vec.ofFn (4 * n) (fun _ => 0)))
    (by
      intro m hm
      simp only []
      rw [Vec.set_ofFn hm, Res.ok_bind]
      have e1 : (Vec.ofFn (4 * n) (fun k => if k = m then (1 : K) else 0)) = Vec.ofFn (4 * n) (unit m) := rfl
      rw [e1, Vec.fill_eq, mapD2NWith_ok hn0 hx hy _ _ (hU m), Res.ok_bind, Mat.setColumn_ofFn hm, Res.ok_bind,
        Vec.set_ofFn hm, Res.ok_bind, Res.pure_def]
      congr 2
      · refine Mat.ofFn_congr fun p _ q _ => ?_
        by_cases hq : q = m
        · subst hq; simp
        · have : q < m ↔ q < m + 1 := by omega
          simp [hq, this]
      · refine Vec.ofFn_congr fun k _ => ?_
        unfold unit
        split_ifs <;> rfl)
  simp only [Nat.not_lt_zero, if_false] at this
  rw [Mat.zeros_eq, Vec.fill_eq (4 * n), this, Res.ok_bind, Res.pure_def]
  congr 1
  simp only []
  refine Mat.ofFn_congr fun p _ q hq => ?_
  exact if_pos hq

theorem buildD2N_ok (lu : PetscLU K) (s : FVSolver K) {grid : Grid K} {n : Nat} (hn : 2 ≤ n) (hx : grid.nx = n)
    (hy : grid.ny = n) :
    ∃ U : Nat → Nat → K, (∀ j, s.solve lu grid (Vec.ofFn (4 * n) (unit j)) (Vec.ofFn (n * n) (fun _ => 0))
        = .ok (Vec.ofFn (n * n) (U j))) ∧
      s.buildD2N lu grid = .ok (Mat.ofFn (4 * n) (4 * n) (fun k j =>
        deriv (rect grid) n n (Bdry.ofFn n (unit j)) (fun i' j' => U j (j' + i' * n)) (k / n) (k % n))) := by
  have hsol := fun j => solve_ok lu s hn hx hy (unit j) (fun _ => 0)
  choose U hU _ using hsol
  exact ⟨U, hU, buildD2NWith_ok (by omega) hx hy hU⟩

theorem pnd_eq (lu : PetscLU K) (s : FVSolver K) {grid : Grid K} {n : Nat} (hx : grid.nx = n) (hy : grid.ny = n) (rhs : Vec K) :
    s.particularNeumannData lu grid rhs = s.mapD2N lu grid (Vec.ofFn (4 * n) (fun _ => 0)) rhs := by
  unfold particularNeumannData
  rw [hx, hy, ← Vec.fill_eq]
  congr 2
  omega

/-- Superposition of the solutions for unit boundary data. -/
theorem superpose {s : FVSolver K} {R : Rect K} {n : Nat} {U : Nat → Nat → Nat → K} {U0 f : Nat → Nat → K}
    (hU : ∀ j, Solves s R n n (Bdry.ofFn n (unit j)) (fun _ _ => 0) (U j))
    (h0 : Solves s R n n (Bdry.ofFn n (fun _ => 0)) f U0) (g : Nat → K) (m : Nat) :
    Solves s R n n (Bdry.ofFn n (fun k => if k < m then g k else 0)) f
        (fun i j => (∑ q ∈ range m, g q * U q i j) + U0 i j) ∧
      ∀ sd k, deriv R n n (Bdry.ofFn n (fun k => if k < m then g k else 0))
        (fun i j => (∑ q ∈ range m, g q * U q i j) + U0 i j) sd k =
        (∑ q ∈ range m, g q * deriv R n n (Bdry.ofFn n (unit q)) (U q) sd k) +
          deriv R n n (Bdry.ofFn n (fun _ => 0)) U0 sd k := by
  induction m with
  | zero => simpa using h0
  | succ m ih =>
    have hb : Bdry.ofFn n (fun k => if k < m + 1 then g k else 0) =
        (Bdry.ofFn n (unit m)).lin (g m) 1 (Bdry.ofFn n (fun k => if k < m then g k else 0)) := by
      have hf : ∀ k, (if k < m + 1 then g k else 0) = g m * unit m k + 1 * (if k < m then g k else 0) := by
        intro k
        unfold unit
        by_cases hk : k = m
        · subst hk; simp
        · have : k < m + 1 ↔ k < m := by omega
          simp [hk, this]
      unfold Bdry.ofFn Bdry.lin
      simp only [hf]
    have hu : (fun i j => (∑ q ∈ range (m + 1), g q * U q i j) + U0 i j) =
        fun i j => g m * U m i j + 1 * ((∑ q ∈ range m, g q * U q i j) + U0 i j) := by
      funext i j
      rw [sum_range_succ]; ring
    rw [hb, hu]
    refine ⟨?_, ?_⟩
    · have := (hU m).lin (g m) 1 ih.1
      refine this.congr (fun _ _ => rfl) (fun _ _ => rfl) (fun _ _ => rfl) (fun _ _ => rfl) ?_ (fun _ _ _ _ => rfl)
      intros; ring
    · intro sd k
      rw [deriv_lin, ih.2, sum_range_succ]; ring

/-- The operator and the particular flux together give the flux of every solution. -/
theorem represent (lu : PetscLU K) (s : FVSolver K) {grid : Grid K} {n : Nat} (hn : 2 ≤ n) (hx : grid.nx = n)
    (hy : grid.ny = n) (hq : Unique s (rect grid) n n) (f : Nat → K) :
    ∃ a h, s.buildD2N lu grid = .ok (Mat.ofFn (4 * n) (4 * n) a) ∧
      s.particularNeumannData lu grid (Vec.ofFn (n * n) f) = .ok (Vec.ofFn (4 * n) h) ∧
      ∀ g U, Solves s (rect grid) n n (Bdry.ofFn n g) (fun i j => f (j + i * n)) U → ∀ k, k < 4 * n →
        deriv (rect grid) n n (Bdry.ofFn n g) U (k / n) (k % n) = ∑ j ∈ range (4 * n), a k j * g j + h k := by
  obtain ⟨V, hV, hT⟩ := buildD2N_ok lu s hn hx hy
  obtain ⟨U0, hU0, hS0⟩ := solve_ok lu s hn hx hy (fun _ => 0) f
  refine ⟨_, _, hT, by rw [pnd_eq lu s hx hy, mapD2N_ok lu s hn hx hy _ _ hU0], ?_⟩
  intro g U hU k hk
  have hVS : ∀ j, Solves s (rect grid) n n (Bdry.ofFn n (unit j)) (fun _ _ => 0) (fun i' j' => V j (j' + i' * n)) := by
    intro j
    obtain ⟨W, w1, w2⟩ := solve_ok lu s hn hx hy (unit j) (fun _ => 0)
    rw [hV j] at w1
    have := Vec.ofFn_inj (Res.ok_inj.mp w1)
    exact (w2 hq).congr (fun _ _ => rfl) (fun _ _ => rfl) (fun _ _ => rfl) (fun _ _ => rfl) (fun _ _ _ _ => rfl)
      (fun i hi j hj => (this _ (idx_lt hi hj)).symm)
  obtain ⟨s1, s2⟩ := superpose hVS (hS0 hq) g (4 * n)
  have cW : ∀ j, j < n → (Bdry.ofFn n (fun k => if k < 4 * n then g k else 0)).W j = (Bdry.ofFn n g).W j :=
    fun j hj => if_pos (by omega)
  have cE : ∀ j, j < n → (Bdry.ofFn n (fun k => if k < 4 * n then g k else 0)).E j = (Bdry.ofFn n g).E j :=
    fun j hj => if_pos (by omega)
  have cS : ∀ j, j < n → (Bdry.ofFn n (fun k => if k < 4 * n then g k else 0)).S j = (Bdry.ofFn n g).S j :=
    fun j hj => if_pos (by omega)
  have cN : ∀ j, j < n → (Bdry.ofFn n (fun k => if k < 4 * n then g k else 0)).N j = (Bdry.ofFn n g).N j :=
    fun j hj => if_pos (by omega)
  have s1' := s1.congr cW cE cS cN (fun _ _ _ _ => rfl) (fun _ _ _ _ => rfl)
  have hsame := hq _ _ _ _ hU s1'
  have hkn : k % n < n := Nat.mod_lt _ (by omega)
  rw [deriv_congr (by omega) (fun j hj => (cW j hj).symm) (fun j hj => (cE j hj).symm) (fun j hj => (cS j hj).symm)
    (fun j hj => (cN j hj).symm) hsame hkn, s2]
  congr 1
  exact sum_congr rfl fun q _ => mul_comm _ _

/-- The finite volume solver returns objects of the documented sizes. -/
theorem shapes (lu : PetscLU K) (s : FVSolver K) {n : Nat} (hn : 2 ≤ n) : HPS.SolverShapes n (s.toPatchSolver lu) where
  d2n := by
    intro grid hx hy
    obtain ⟨V, _, hT⟩ := buildD2N_ok lu s hn hx hy
    exact ⟨_, hT, _, Mat.has_ofFn _ _ _⟩
  flux := by
    intro grid f hx hy h1 h2
    obtain ⟨φ, hφ⟩ := h2.has
    rw [h1, Vec.has_iff] at hφ
    obtain ⟨U0, hU0, _⟩ := solve_ok lu s hn hx hy (fun _ => 0) φ
    have := mapD2N_ok lu s hn hx hy _ _ hU0
    rw [← hφ, ← pnd_eq lu s hx hy] at this
    exact ⟨_, this, _, Vec.has_ofFn _ _⟩
  solve := by
    intro grid g f hx hy g1 g2 f1 f2
    obtain ⟨φ, hφ⟩ := f2.has
    obtain ⟨γ, hγ⟩ := g2.has
    rw [f1, Vec.has_iff] at hφ
    rw [g1, Vec.has_iff] at hγ
    obtain ⟨U, hU, _⟩ := solve_ok lu s hn hx hy γ φ
    refine ⟨Vec.ofFn (n * n) U, ?_, rfl, (Vec.has_ofFn _ _).wf⟩
    show s.solve lu grid g f = _
    rw [hφ, hγ, hU]

end FVSolver
end EF
