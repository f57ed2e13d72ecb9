import Verif.Spec.Robin
import Verif.Props.Global

/-!
# Boundary conditions `a u + b du/dn = r` on uniformly refined meshes
-/

namespace EF

open Finset FV HPS

variable {K : Type} [Field K]

theorem FV.normalDeriv_deriv (R : Rect K) (m : Nat) (g : Bdry K) (u : Nat → Nat → K) (b : Nat → Nat → K) {s : Nat} (hs : s < 4)
    (k : Nat) : flipWS b s k * normalDeriv R m g u s k = b s k * FV.deriv R m m g u s k := by
  have h4 : s = 0 ∨ s = 1 ∨ s = 2 ∨ s = 3 := by omega
  rcases h4 with rfl | rfl | rfl | rfl <;> simp [flipWS, normalDeriv, FV.deriv] <;> ring

theorem FV.flipWS_flipWS (b : Nat → Nat → K) : flipWS (flipWS b) = b := by
  funext s k
  unfold flipWS
  split_ifs <;> simp

omit [Field K] in
theorem FV.side_ofB (b : Nat → Nat → K) {s : Nat} (hs : s < 4) (k : Nat) : (ofB b).side s k = b s k := by
  have h4 : s = 0 ∨ s = 1 ∨ s = 2 ∨ s = 3 := by omega
  rcases h4 with rfl | rfl | rfl | rfl <;> rfl

section
variable [LinearOrder K] [IsStrictOrderedRing K] {N : Nat}

/-- The boundary system of a square is nonsingular exactly when the problem with these boundary conditions
has at most one solution. -/
theorem boundary_nonsing {s : FVSolver K} {R : Rect K} {m : Nat} {T : Blk K} (hT : TrueOp s R m T (fun _ _ => 0) (fun _ _ => 0))
    (hD : FV.Unique s R m m) {a b : Nat → Nat → K} :
    Nonsing (4 * m) (fun i j => (if i = j then a (i / m) (i % m) else 0) + b (i / m) (i % m) * T (i / m) (j / m) (i % m) (j % m)) ↔
      RobinUnique s R m a (flipWS b) := by
  have hflux : ∀ (v : Nat → K) (i : Nat), i < 4 * m → ∑ j ∈ range (4 * m), ((if i = j then a (i / m) (i % m) else 0) +
      b (i / m) (i % m) * T (i / m) (j / m) (i % m) (j % m)) * v j =
      a (i / m) (i % m) * v i + b (i / m) (i % m) * app m 4 T (toBv m v) (i / m) (i % m) := by
    intro v i hi
    simp only [add_mul, sum_add_distrib, ite_mul, zero_mul]
    rw [sum_ite_eq (range (4 * m)) i, if_pos (mem_range.mpr hi)]
    congr 1
    unfold app
    rw [mul_sum, sum_range_mul]
    refine sum_congr rfl fun q _ => ?_
    rw [mul_sum]
    refine sum_congr rfl fun j hj => ?_
    have hj := mem_range.mp hj
    rw [Mat.idx_div hj, Mat.idx_mod hj]
    unfold toBv
    ring
  constructor
  · intro hn g u hu
    have hz : ∀ k, k < 4 * m → g.side (k / m) (k % m) = 0 := by
      refine hn (fun k => g.side (k / m) (k % m)) ?_
      intro i hi
      have hi4 : i / m < 4 := Mat.div_lt' hi
      have him : i % m < m := Mat.mod_lt' hi
      rw [hflux _ i hi]
      have hS : Solves s R m m (ofB (toBv m (fun k => g.side (k / m) (k % m)))) (fun _ _ => 0) u := by
        refine hu.1.congr ?_ ?_ ?_ ?_ (fun _ _ _ _ => rfl) (fun _ _ _ _ => rfl) <;> intro k hk <;>
          simp only [ofB, toBv, Mat.idx_div hk, Mat.idx_mod hk] <;> rfl
      have h1 := hT _ _ hS (i / m) hi4 (i % m) him
      unfold opFlux at h1
      rw [add_zero] at h1
      rw [← h1]
      have h2 := hu.2 (i / m) hi4 (i % m) him
      rw [normalDeriv_deriv R m g u b hi4] at h2
      refine Eq.trans ?_ h2
      congr 2
      refine deriv_congr (by omega) ?_ ?_ ?_ ?_ (fun _ _ _ _ => rfl) him <;> intro k hk <;>
          simp only [ofB, toBv, Mat.idx_div hk, Mat.idx_mod hk] <;> rfl
    have hg : ∀ s, s < 4 → ∀ k, k < m → g.side s k = 0 := by
      intro s hs k hk
      have := hz (s * m + k) (Mat.idx_lt hs hk)
      rwa [Mat.idx_div hk, Mat.idx_mod hk] at this
    refine ⟨?_, hg⟩
    refine hD FVSolver.bz (fun _ _ => 0) u (fun _ _ => 0) ?_ (solves_zero _ _ _ _)
    exact hu.1.congr (fun k hk => hg 0 (by omega) k hk) (fun k hk => hg 1 (by omega) k hk) (fun k hk => hg 2 (by omega) k hk)
      (fun k hk => hg 3 (by omega) k hk) (fun _ _ _ _ => rfl) (fun _ _ _ _ => rfl)
  · intro hq v hv k hk
    obtain ⟨U, hU⟩ := exists_of_unique hD (ofB (toBv m v)) (fun _ _ => 0)
    have h1 := (hq (ofB (toBv m v)) U ⟨hU, fun q hq4 i hi => by
      rw [normalDeriv_deriv R m _ U b hq4, hT _ _ hU q hq4 i hi, side_ofB _ hq4]
      have := hv (q * m + i) (Mat.idx_lt hq4 hi)
      rw [hflux v _ (Mat.idx_lt hq4 hi), Mat.idx_div hi, Mat.idx_mod hi] at this
      unfold opFlux
      rw [add_zero]
      exact this⟩).2 (k / m) (Mat.div_lt' hk) (k % m) (Mat.mod_lt' hk)
    rw [side_ofB _ (Mat.div_lt' hk)] at h1
    unfold toBv at h1
    rwa [show k / m * m + k % m = k by rw [Nat.mul_comm]; exact Nat.div_add_mod k m] at h1

/-- The three stages on a uniform tree with boundary conditions given by a function. -/
theorem robin_global (lap : Lapack K) (lu : PetscLU K) {s : FVSolver K} (hN : 2 ≤ N) {opt : HPSOptions}
    (hc : opt.cacheOperators = false) (ho : opt.homogeneousRhs = false) {t : Tree (Patch K)} {R : Rect K} (ht : Init N t R)
    {d : Nat} (hu : Uniform d t) (hR : Proper R) (hE : EllipticOn s R) {rhs : Patch K → Res (Patch K)} {φ : Grid K → Vec K}
    (hφ : SetsLoad N rhs φ) (bc : BoundaryFn K) {t1 t2 t3 : Tree (Patch K)} {c1 : Option (Mat K)}
    (h1 : buildStage lap (s.toPatchSolver lu) opt t none = .ok (t1, c1))
    (h2 : upwardsStage lap (s.toPatchSolver lu) opt rhs t1 = .ok t2)
    (h3 : solveStageAnalytic lap (s.toPatchSolver lu) opt bc t2 = .ok t3)
    (hq : RobinUnique s R (N * 2 ^ d) (sideData (·.2.1) bc R (N * 2 ^ d)) (flipWS (sideData (·.2.2) bc R (N * 2 ^ d)))) :
    ∃ g, RobinSolves s R (N * 2 ^ d) (sideData (·.2.1) bc R (N * 2 ^ d)) (flipWS (sideData (·.2.2) bc R (N * 2 ^ d)))
      (sideData (·.1) bc R (N * 2 ^ d)) (gridFn N (fun p => φ p.grid) t) g (gridFn N (·.u) t3) := by
  have hs := FVSolver.shapes lu s hN
  have hD := unique_of_elliptic hR hE (N * 2 ^ d) (N * 2 ^ d)
  obtain ⟨t1', m, T, e1, b1, s1, hm⟩ := buildStage_ok lap hs hc (by omega) ht (Or.inr ⟨d, hu⟩) none
  rw [h1] at e1
  obtain ⟨rfl, rfl⟩ := Prod.mk.inj (Res.ok_inj.mp e1)
  obtain rfl := hm d hu
  obtain ⟨t2', h, e2, u2, v2, _, s2⟩ := upwardsStage_ok'
    (HP := fun grid f h => f = φ grid ∧ HPs N (s.toPatchSolver lu) grid f h) lap hs opt hφ
    (fun grid f h a b c e => ⟨a, ⟨b, c⟩, e⟩) b1
  rw [h2] at e2
  obtain rfl := Res.ok_inj.mp e2
  have hr := u2.built.root
  simp only [pow_zero, mul_one, crsN] at hr
  have hv := v2 ho
  simp only [pow_zero, mul_one] at hv
  have hm0 : 0 < N * 2 ^ d := by positivity
  obtain ⟨γ, g1, g2⟩ := rootDirichlet_ok lap bc hm0 hr.2.1 hr.2.2.2.2.1 hv
  rw [solveStageAnalytic_eq g1] at h3
  obtain ⟨t3', e3, v3, s3⟩ := solveStage_ok hs opt (m := N * 2 ^ d) (bdry := fun p => .ok { p with g := Vec.ofFn (4 * (N * 2 ^ d)) γ })
    (γ := fun _ => Vec.ofFn (4 * (N * 2 ^ d)) γ) ⟨fun _ => rfl, fun _ _ _ => ⟨rfl, (Vec.has_ofFn _ _).2.1⟩⟩
    (fun _ _ _ h => h.2.1) (fun h => by rw [ho] at h; cases h) u2
  rw [h3] at e3
  obtain rfl := Res.ok_inj.mp e3
  have hsh : t3.shape = t.shape := by rw [s3, s2, s1]
  have hu3 : Uniform d t3 := uniform_shape.mp (hsh ▸ uniform_shape.mpr hu)
  obtain ⟨o1, o2, g3, _⟩ := v3.global lu hN (P := fun grid f => f = φ grid) rfl hu3 hR hE
  rw [v3.load ht hsh] at o1 g3
  set B := toBv (N * 2 ^ d) (fun k => (Vec.ofFn (4 * (N * 2 ^ d)) γ).data.getD k 0) with hB
  obtain ⟨U, hU⟩ := exists_of_unique hD (ofB B) (gridFn N (fun p => φ p.grid) t)
  have hUu := g3 U hU
  have hS : Solves s R (N * 2 ^ d) (N * 2 ^ d) (ofB B) (gridFn N (fun p => φ p.grid) t) (gridFn N (·.u) t3) :=
    hU.congr (fun _ _ => rfl) (fun _ _ => rfl) (fun _ _ => rfl) (fun _ _ => rfl) (fun _ _ _ _ => rfl)
      (fun i hi j hj => (hUu i hi j hj).symm)
  have hrect : rect t2.val.grid = R := by
    obtain ⟨x1, x2, x3, x4⟩ := hr.2.2.2.1
    unfold rect
    rw [x1, x2, x3, x4]
  have hb : ∀ (pick : K × K × K → K) k, k < 4 * (N * 2 ^ d) → bval pick bc t2.val.grid (N * 2 ^ d) k =
      sideData pick bc R (N * 2 ^ d) (k / (N * 2 ^ d)) (k % (N * 2 ^ d)) := by
    intro pick k hk
    unfold bval sideData
    rw [boundaryPoint_eq hr.2.1 hr.2.2.1 (Mat.div_lt' hk), hrect]
  have hns := g2 ((boundary_nonsing o2 hD).mpr hq |>.congr (fun i hi j hj => by rw [hb _ i hi, hb _ i hi]))
  refine ⟨ofB B, hS, ?_⟩
  intro q hq4 k hk
  have hi := Mat.idx_lt hq4 hk
  have hBk : ∀ q, q < 4 → ∀ k, k < N * 2 ^ d → B q k = γ (q * (N * 2 ^ d) + k) := fun q hq4 k hk => getD_listFn (Mat.idx_lt hq4 hk) 0
  rw [normalDeriv_deriv R _ _ _ _ hq4, o1 _ _ hS q hq4 k hk, side_ofB _ hq4, hBk q hq4 k hk]
  have := hns _ hi
  rw [hb _ _ hi, hb _ _ hi, hb _ _ hi, Mat.idx_div hk, Mat.idx_mod hk] at this
  rw [← this]
  congr 2
  unfold opFlux app
  rw [sum_range_mul]
  congr 1
  refine sum_congr rfl fun q' hq' => sum_congr rfl fun j hj => ?_
  have hj := mem_range.mp hj
  rw [Mat.idx_div hj, Mat.idx_mod hj, hBk q' (mem_range.mp hq') j hj]

end
end EF
