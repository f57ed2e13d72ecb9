import Verif.Proofs.FVAssemble
import Verif.Spec.Tree

/-!
# The leaf solver, its flux map and its operator
-/

namespace EF
namespace FV

open Finset

variable {K : Type} [Field K]

/-- Linear combination of boundary values. -/
def Bdry.lin (a : K) (b : Bdry K) (a' : K) (b' : Bdry K) : Bdry K :=
  ⟨fun k => a * b.W k + a' * b'.W k, fun k => a * b.E k + a' * b'.E k, fun k => a * b.S k + a' * b'.S k,
    fun k => a * b.N k + a' * b'.N k⟩

theorem balance_lin (c : FVSolver K) (R : Rect K) (nx ny : Nat) (a a' : K) (b b' : Bdry K) (u u' : Nat → Nat → K) (i j : Nat) :
    balance c R nx ny (b.lin a a' b') (fun i j => a * u i j + a' * u' i j) i j =
      a * balance c R nx ny b u i j + a' * balance c R nx ny b' u' i j := by
  unfold balance west east south north Bdry.lin
  split_ifs <;> ring

theorem Solves.lin {c : FVSolver K} {R : Rect K} {nx ny : Nat} {b b' : Bdry K} {f f' u u' : Nat → Nat → K} (a a' : K)
    (h : Solves c R nx ny b f u) (h' : Solves c R nx ny b' f' u') :
    Solves c R nx ny (b.lin a a' b') (fun i j => a * f i j + a' * f' i j) (fun i j => a * u i j + a' * u' i j) := by
  intro i hi j hj
  rw [balance_lin, h i hi j hj, h' i hi j hj]

theorem balance_congr {c : FVSolver K} {R : Rect K} {nx ny : Nat} {b b' : Bdry K} {u u' : Nat → Nat → K}
    (hW : ∀ j, j < ny → b.W j = b'.W j) (hE : ∀ j, j < ny → b.E j = b'.E j) (hS : ∀ i, i < nx → b.S i = b'.S i)
    (hN : ∀ i, i < nx → b.N i = b'.N i) (hu : ∀ i, i < nx → ∀ j, j < ny → u i j = u' i j) {i j : Nat} (hi : i < nx)
    (hj : j < ny) : balance c R nx ny b u i j = balance c R nx ny b' u' i j := by
  have e1 : west b u i j = west b' u' i j := by
    unfold west; split_ifs with h
    · rw [hW j hj, hu i hi j hj]
    · exact hu _ (by omega) _ hj
  have e2 : east nx b u i j = east nx b' u' i j := by
    unfold east; split_ifs with h
    · rw [hE j hj, hu i hi j hj]
    · exact hu _ (by omega) _ hj
  have e3 : south b u i j = south b' u' i j := by
    unfold south; split_ifs with h
    · rw [hS i hi, hu i hi j hj]
    · exact hu _ hi _ (by omega)
  have e4 : north ny b u i j = north ny b' u' i j := by
    unfold north; split_ifs with h
    · rw [hN i hi, hu i hi j hj]
    · exact hu _ hi _ (by omega)
  unfold balance
  rw [e1, e2, e3, e4, hu i hi j hj]

theorem Solves.congr {c : FVSolver K} {R : Rect K} {nx ny : Nat} {b b' : Bdry K} {f f' u u' : Nat → Nat → K}
    (h : Solves c R nx ny b f u)
    (hW : ∀ j, j < ny → b.W j = b'.W j) (hE : ∀ j, j < ny → b.E j = b'.E j) (hS : ∀ i, i < nx → b.S i = b'.S i)
    (hN : ∀ i, i < nx → b.N i = b'.N i) (hf : ∀ i, i < nx → ∀ j, j < ny → f i j = f' i j)
    (hu : ∀ i, i < nx → ∀ j, j < ny → u i j = u' i j) : Solves c R nx ny b' f' u' := by
  intro i hi j hj
  rw [← balance_congr hW hE hS hN hu hi hj, h i hi j hj, hf i hi j hj]

theorem solves_zero (c : FVSolver K) (R : Rect K) (nx ny : Nat) :
    Solves c R nx ny FVSolver.bz (fun _ _ => 0) (fun _ _ => 0) := by
  intro i _ j _
  unfold balance west east south north FVSolver.bz
  split_ifs <;> ring

theorem deriv_lin (R : Rect K) (nx ny : Nat) (a a' : K) (b b' : Bdry K) (u u' : Nat → Nat → K) (s k : Nat) :
    deriv R nx ny (b.lin a a' b') (fun i j => a * u i j + a' * u' i j) s k =
      a * deriv R nx ny b u s k + a' * deriv R nx ny b' u' s k := by
  unfold deriv Bdry.lin
  split <;> ring

theorem deriv_congr {R : Rect K} {n : Nat} (hn : 0 < n) {b b' : Bdry K} {u u' : Nat → Nat → K}
    (hW : ∀ j, j < n → b.W j = b'.W j) (hE : ∀ j, j < n → b.E j = b'.E j) (hS : ∀ i, i < n → b.S i = b'.S i)
    (hN : ∀ i, i < n → b.N i = b'.N i) (hu : ∀ i, i < n → ∀ j, j < n → u i j = u' i j) {s k : Nat} (hk : k < n) :
    deriv R n n b u s k = deriv R n n b' u' s k := by
  unfold deriv
  split
  · rw [hW k hk, hu 0 hn k hk]
  · rw [hE k hk, hu _ (by omega) k hk]
  · rw [hS k hk, hu k hk 0 hn]
  · rw [hN k hk, hu k hk _ (by omega)]

end FV

namespace FVSolver

open Finset FV

variable {K : Type} [Field K]

theorem cell_idx {n k : Nat} (hk : k < n * n) : k / n < n ∧ k % n < n ∧ k % n + k / n * n = k := by
  have hn : 0 < n := by
    rcases Nat.eq_zero_or_pos n with h | h
    · subst h; omega
    · exact h
  refine ⟨Nat.div_lt_of_lt_mul hk, Nat.mod_lt _ hn, ?_⟩
  rw [Nat.mul_comm]; exact Nat.mod_add_div k n

/-- The assembled matrix is nonsingular when the discrete problem has at most one solution. -/
theorem nonsing_of_unique {s : FVSolver K} {grid : Grid K} {n : Nat} (hx : grid.nx = n) (hy : grid.ny = n)
    {b : Bdry K} {f : Nat → K} {st : Asm K}
    (hst : ∀ i, i < grid.nx → ∀ j, j < grid.ny → RowDone s grid b f st i j) (hu : Unique s (rect grid) n n) :
    Nonsing (n * n) st.A := by
  subst hx
  rw [hy] at hst
  intro v hv k hk
  obtain ⟨h1, h2, h3⟩ := cell_idx hk
  have := hu bz (fun _ _ => 0) (fun i j => v (j + i * grid.nx)) (fun _ _ => 0)
    (by
      intro i hi j hj
      have := (hst i hi j hj).1 v
      rw [hy] at this
      rw [← this]
      exact hv _ (idx_lt hi hj))
    (solves_zero _ _ _ _) (k / grid.nx) h1 (k % grid.nx) h2
  simp only [h3] at this
  exact this

theorem sides_ok {grid : Grid K} {n : Nat} (hx : grid.nx = n) (g : Nat → K) :
    sides grid (Vec.ofFn (4 * n) g) = .ok ⟨Vec.ofFn n (Bdry.ofFn n g).W, Vec.ofFn n (Bdry.ofFn n g).E,
      Vec.ofFn n (Bdry.ofFn n g).S, Vec.ofFn n (Bdry.ofFn n g).N⟩ := by
  unfold sides
  simp only [hx]
  rw [Vec.getSegment_ofFn (by omega), Res.ok_bind, Vec.getSegment_ofFn (by omega), Res.ok_bind,
    Vec.getSegment_ofFn (by omega), Res.ok_bind, Vec.getSegment_ofFn (by omega), Res.ok_bind, Res.pure_def]
  simp only [Bdry.ofFn, Nat.zero_mul, Nat.zero_add, Nat.one_mul]

/-- `solve` on a square grid. -/
theorem solve_ok (lu : PetscLU K) (s : FVSolver K) {grid : Grid K} {n : Nat} (hn : 2 ≤ n) (hx : grid.nx = n)
    (hy : grid.ny = n) (g f : Nat → K) :
    ∃ U, s.solve lu grid (Vec.ofFn (4 * n) g) (Vec.ofFn (n * n) f) = .ok (Vec.ofFn (n * n) U) ∧
      (Unique s (rect grid) n n →
        Solves s (rect grid) n n (Bdry.ofFn n g) (fun i j => f (j + i * n)) (fun i j => U (j + i * n))) := by
  have hsd : SidesAre grid.nx grid.ny (⟨Vec.ofFn n (Bdry.ofFn n g).W, Vec.ofFn n (Bdry.ofFn n g).E,
      Vec.ofFn n (Bdry.ofFn n g).S, Vec.ofFn n (Bdry.ofFn n g).N⟩ : Sides K) (Bdry.ofFn n g) := by
    rw [hx, hy]
    exact ⟨fun j hj => Vec.get_ofFn hj, fun j hj => Vec.get_ofFn hj, fun j hj => Vec.get_ofFn hj, fun j hj => Vec.get_ofFn hj⟩
  obtain ⟨st, h1, h2⟩ := assemble_ok (s := s) (by omega) (by omega) hsd (rhs := Vec.ofFn (n * n) f) (f := f)
    (by rw [hx, hy]; exact Vec.has_ofFn _ _)
  refine ⟨lu.sol (n * n) st.A st.f, ?_, ?_⟩
  · unfold solve
    rw [sides_ok hx, Res.ok_bind, h1, Res.ok_bind, hx, hy, Res.pure_def]
    congr 1
    simp [Vec.ofList, Vec.ofFn, listFn]
  · intro hu i hi j hj
    have hns := nonsing_of_unique hx hy h2 hu
    obtain ⟨r1, r2⟩ := h2 i (by omega) j (by omega)
    have e := lu.solves (n * n) st.A st.f hns (j + i * n) (idx_lt hi hj)
    have r1 := r1 (lu.sol (n * n) st.A st.f)
    have sp := balance_split s grid (Bdry.ofFn n g) (fun i j => lu.sol (n * n) st.A st.f (j + i * n)) i j
    rw [hx, hy] at r1 r2 sp
    rw [sp, ← r1, e, r2]
    ring

/-- The system which `solve` assembles is nonsingular if the discrete problem has at most one solution. -/
theorem assembled_nonsing (s : FVSolver K) {grid : Grid K} {n : Nat} (hn : 2 ≤ n) (hx : grid.nx = n) (hy : grid.ny = n)
    (g f : Nat → K) (hu : Unique s (rect grid) n n) :
    ∃ gs st, sides grid (Vec.ofFn (4 * n) g) = .ok gs ∧ assemble s grid gs (Vec.ofFn (n * n) f) = .ok st ∧
      Nonsing (n * n) st.A := by
  have hsd : SidesAre grid.nx grid.ny (⟨Vec.ofFn n (Bdry.ofFn n g).W, Vec.ofFn n (Bdry.ofFn n g).E,
      Vec.ofFn n (Bdry.ofFn n g).S, Vec.ofFn n (Bdry.ofFn n g).N⟩ : Sides K) (Bdry.ofFn n g) := by
    rw [hx, hy]
    exact ⟨fun j hj => Vec.get_ofFn hj, fun j hj => Vec.get_ofFn hj, fun j hj => Vec.get_ofFn hj, fun j hj => Vec.get_ofFn hj⟩
  obtain ⟨st, h1, h2⟩ := assemble_ok (s := s) (by omega) (by omega) hsd (rhs := Vec.ofFn (n * n) f) (f := f)
    (by rw [hx, hy]; exact Vec.has_ofFn _ _)
  exact ⟨_, st, sides_ok hx g, h1, nonsing_of_unique hx hy h2 hu⟩

theorem edgeCells_ok {n : Nat} (hn : 0 < n) (U : Nat → K) :
    edgeCells n (Vec.ofFn (n * n) U) = .ok ⟨Vec.ofFn n (fun j => U j), Vec.ofFn n (fun j => U ((n - 1) * n + j)),
      Vec.ofFn n (fun i => U (i * n)), Vec.ofFn n (fun i => U ((i + 1) * n - 1))⟩ := by
  unfold edgeCells
  have e1 : forN n (fun j (st : Vec K × Vec K) => do
      let a ← (Vec.ofFn (n * n) U).get j
      let w ← st.1.set j a
      let b ← (Vec.ofFn (n * n) U).get ((n - 1) * n + j)
      let e ← st.2.set j b
      pure (w, e)) (Vec.zeros n, Vec.zeros n)
      = .ok (Vec.ofFn n (fun j => U j), Vec.ofFn n (fun j => U ((n - 1) * n + j))) := by
    have := forN_ok (n := n) (body := fun j (st : Vec K × Vec K) => do
      let a ← (Vec.ofFn (n * n) U).get j
      let w ← st.1.set j a
      let b ← (Vec.ofFn (n * n) U).get ((n - 1) * n + j)
      let e ← st.2.set j b
      pure (w, e)) (fun m => (Vec.ofFn n (fun j => if j < m then U j else 0),
        Vec.ofFn n (fun j => if j < m then U ((n - 1) * n + j) else 0)))
      (by
        intro m hm
        have h1 : m < n * n := by nlinarith
        have h2 : (n - 1) * n + m < n * n := by
          have := idx_lt (nx := n) (ny := n) (i := n - 1) (j := m) (by omega) hm
          omega
        rw [Vec.get_ofFn h1, Res.ok_bind, Vec.set_ofFn hm, Res.ok_bind, Vec.get_ofFn h2, Res.ok_bind, Vec.set_ofFn hm,
          Res.ok_bind, Res.pure_def]
        congr 2
        · refine Vec.ofFn_congr fun k _ => ?_
          by_cases hk : k = m
          · subst hk; simp
          · have : k < m ↔ k < m + 1 := by omega
            simp [hk, this]
        · refine Vec.ofFn_congr fun k _ => ?_
          by_cases hk : k = m
          · subst hk; simp
          · have : k < m ↔ k < m + 1 := by omega
            simp [hk, this])
    simp only [Nat.not_lt_zero, if_false] at this
    rw [Vec.zeros_eq, this]
    congr 2 <;> exact Vec.ofFn_congr fun k hk => by simp [hk]
  have e2 : forN n (fun i (st : Vec K × Vec K) => do
      let a ← (Vec.ofFn (n * n) U).get (i * n)
      let w ← st.1.set i a
      let b ← (Vec.ofFn (n * n) U).get ((i + 1) * n - 1)
      let e ← st.2.set i b
      pure (w, e)) (Vec.zeros n, Vec.zeros n)
      = .ok (Vec.ofFn n (fun i => U (i * n)), Vec.ofFn n (fun i => U ((i + 1) * n - 1))) := by
    have := forN_ok (n := n) (body := fun i (st : Vec K × Vec K) => do
      let a ← (Vec.ofFn (n * n) U).get (i * n)
      let w ← st.1.set i a
      let b ← (Vec.ofFn (n * n) U).get ((i + 1) * n - 1)
      let e ← st.2.set i b
      pure (w, e)) (fun m => (Vec.ofFn n (fun i => if i < m then U (i * n) else 0),
        Vec.ofFn n (fun i => if i < m then U ((i + 1) * n - 1) else 0)))
      (by
        intro m hm
        have h1 : m * n < n * n := by
          have := idx_lt (nx := n) (ny := n) (i := m) (j := 0) hm hn
          omega
        have h2 : (m + 1) * n - 1 < n * n := by
          have := idx_lt (nx := n) (ny := n) (i := m) (j := n - 1) hm (by omega)
          rw [Nat.add_mul]; omega
        rw [Vec.get_ofFn h1, Res.ok_bind, Vec.set_ofFn hm, Res.ok_bind, Vec.get_ofFn h2, Res.ok_bind, Vec.set_ofFn hm,
          Res.ok_bind, Res.pure_def]
        congr 2
        · refine Vec.ofFn_congr fun k _ => ?_
          by_cases hk : k = m
          · subst hk; simp
          · have : k < m ↔ k < m + 1 := by omega
            simp [hk, this]
        · refine Vec.ofFn_congr fun k _ => ?_
          by_cases hk : k = m
          · subst hk; simp
          · have : k < m ↔ k < m + 1 := by omega
            simp [hk, this])
    simp only [Nat.not_lt_zero, if_false] at this
    rw [Vec.zeros_eq, this]
    congr 2 <;> exact Vec.ofFn_congr fun k hk => by simp [hk]
  simp only [] at e1 e2 ⊢
  rw [e1, Res.ok_bind, e2, Res.ok_bind]
  rfl

theorem neumannSide_ok (n : Nat) (c : K) (u g : Nat → K) :
    neumannSide n c (Vec.ofFn n u) (Vec.ofFn n g) = .ok (Vec.ofFn n (fun i => c * (u i - g i))) := by
  unfold neumannSide
  rw [Vec.zeros_eq]
  refine Vec.forN_fill (fun i => c * (u i - g i)) _ ?_
  intro i hi f
  rw [Vec.get_ofFn hi, Res.ok_bind, Vec.get_ofFn hi, Res.ok_bind, Vec.set_ofFn hi]

/-- `mapD2N` on a square grid: the derivatives of the values `solve` computes. -/
theorem mapD2NWith_ok {solve : Grid K → Vec K → Vec K → Res (Vec K)} {grid : Grid K} {n : Nat} (hn0 : 0 < n)
    (hx : grid.nx = n) (hy : grid.ny = n) (g f : Nat → K) {U : Nat → K}
    (hU : solve grid (Vec.ofFn (4 * n) g) (Vec.ofFn (n * n) f) = .ok (Vec.ofFn (n * n) U)) :
    mapD2NWith solve grid (Vec.ofFn (4 * n) g) (Vec.ofFn (n * n) f) = .ok (Vec.ofFn (4 * n) (fun k =>
      deriv (rect grid) n n (Bdry.ofFn n g) (fun i j => U (j + i * n)) (k / n) (k % n))) := by
  unfold mapD2NWith
  simp only [hx]
  rw [sides_ok hx, Res.ok_bind, hU, Res.ok_bind, edgeCells_ok hn0, Res.ok_bind]
  simp only [neumannSide_ok, Res.ok_bind]
  rw [Vec.zeros_eq, Vec.setSegment_ofFn (by omega), Res.ok_bind, Vec.setSegment_ofFn (by omega), Res.ok_bind,
    Vec.setSegment_ofFn (by omega), Res.ok_bind, Vec.setSegment_ofFn (by omega)]
  congr 1
  refine Vec.ofFn_congr fun k hk => ?_
  have e1 : grid.dx = FV.hx (rect grid) n := by unfold Grid.dx FV.hx rect; rw [hx]
  have e2 : grid.dy = FV.hy (rect grid) n := by unfold Grid.dy FV.hy rect; rw [hy]
  rw [e1, e2]
  have hd : ∀ q r, r < n → k = q * n + r → k / n = q ∧ k % n = r := by
    intro q r hr hk
    subst hk
    exact ⟨by rw [Nat.add_comm, Nat.add_mul_div_right _ _ hn0, Nat.div_eq_of_lt hr, zero_add],
      by rw [Nat.add_comm, Nat.add_mul_mod_self_right, Nat.mod_eq_of_lt hr]⟩
  by_cases h3 : 3 * n ≤ k
  · obtain ⟨d1, d2⟩ := hd 3 (k - 3 * n) (by omega) (by omega)
    rw [if_pos ⟨h3, by omega⟩, d1, d2]
    simp only [deriv, Bdry.ofFn]
    have : (k - 3 * n + 1) * n - 1 = n - 1 + (k - 3 * n) * n := by rw [Nat.add_mul]; omega
    rw [this]
    field_simp; ring
  · rw [if_neg (by omega)]
    by_cases h2 : 2 * n ≤ k
    · obtain ⟨d1, d2⟩ := hd 2 (k - 2 * n) (by omega) (by omega)
      rw [if_pos ⟨h2, by omega⟩, d1, d2]
      simp only [deriv, Bdry.ofFn, Nat.zero_add]
      field_simp
    · rw [if_neg (by omega)]
      by_cases h1 : n ≤ k
      · obtain ⟨d1, d2⟩ := hd 1 (k - n) (by omega) (by omega)
        rw [if_pos ⟨by omega, by omega⟩, d1, d2]
        simp only [deriv, Bdry.ofFn, Nat.one_mul]
        rw [Nat.add_comm (k - n)]
        field_simp; ring
      · obtain ⟨d1, d2⟩ := hd 0 k (by omega) (by omega)
        rw [if_neg (by omega), if_pos ⟨by omega, by omega⟩, d1, d2]
        simp only [deriv, Bdry.ofFn, Nat.zero_mul, Nat.sub_zero, Nat.add_zero]
        field_simp

theorem mapD2N_ok (lu : PetscLU K) (s : FVSolver K) {grid : Grid K} {n : Nat} (hn : 2 ≤ n) (hx : grid.nx = n)
    (hy : grid.ny = n) (g f : Nat → K) {U : Nat → K}
    (hU : s.solve lu grid (Vec.ofFn (4 * n) g) (Vec.ofFn (n * n) f) = .ok (Vec.ofFn (n * n) U)) :
    s.mapD2N lu grid (Vec.ofFn (4 * n) g) (Vec.ofFn (n * n) f) = .ok (Vec.ofFn (4 * n) (fun k =>
      deriv (rect grid) n n (Bdry.ofFn n g) (fun i j => U (j + i * n)) (k / n) (k % n))) :=
  mapD2NWith_ok (by omega) hx hy g f hU

end FVSolver
end EF
