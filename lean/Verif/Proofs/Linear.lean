import Verif.Proofs.GlobalTree
import Verif.Props.Interp

/-!
# Linear functions on adaptive trees
-/

namespace EF
namespace HPS

open Finset FV

variable {K : Type} [Field K] {N : Nat}

/-- The function `a + b x + c y` at cell `i` of side `s`. -/
def smp (a b c : K) (R : Rect K) (m s i : Nat) : K := a + b * (sidePoint R m s i).1 + c * (sidePoint R m s i).2

/-- Derivative of `a + b x + c y` across side `s`. -/
def slope (b c : K) (s : Nat) : K := if s < 2 then b else c

/-- The function `a + b x + c y` on interface `r`. -/
def ifc (a b c : K) (R : Rect K) (n r i : Nat) : K := smp a b c (R.quarter (jl r).1) n (jl r).2 i

theorem app_congr {n c : Nat} {B : Blk K} {x y : Nat → Nat → K} (h : ∀ q, q < c → ∀ j, j < n → x q j = y q j) (p i : Nat) :
    app n c B x p i = app n c B y p i := by
  unfold app
  refine sum_congr rfl fun q hq => sum_congr rfl fun j hj => ?_
  rw [h q (mem_range.mp hq) j (mem_range.mp hj)]

theorem smp_0 (a b c : K) (R : Rect K) (m i : Nat) : smp a b c R m 0 i = a + b * R.xl + c * cy R m i := rfl
theorem smp_1 (a b c : K) (R : Rect K) (m i : Nat) : smp a b c R m 1 i = a + b * R.xu + c * cy R m i := rfl
theorem smp_2 (a b c : K) (R : Rect K) (m i : Nat) : smp a b c R m 2 i = a + b * cx R m i + c * R.yl := rfl
theorem smp_3 (a b c : K) (R : Rect K) (m i : Nat) : smp a b c R m 3 i = a + b * cx R m i + c * R.yu := rfl

section
variable [CharZero K]

/-- Prolongation takes samples of a linear function to samples. -/
theorem pro_smp {m : Nat} (hm : 3 ≤ m) (a b c : K) (R : Rect K) {g : Nat → Nat → K}
    (hg : ∀ p, p < 4 → ∀ i, i < m → g p i = smp a b c R m p i) {p : Nat} (hp : p < 4) {i : Nat} (hi : i < 2 * m) :
    pro m g p i = smp a b c R (2 * m) p i := by
  have hm0 : (m : K) ≠ 0 := by exact_mod_cast (by omega : m ≠ 0)
  have e : pro m g p i = ∑ t ∈ range m, Mat.c2fFn m i t * smp a b c R m p t := by
    unfold pro
    exact sum_congr rfl fun t ht => by rw [hg p hp t (mem_range.mp ht)]
  rw [e]
  have key : ∀ q r : K, (∀ t : Nat, smp a b c R m p t = q + r * (t : K)) →
      ∑ t ∈ range m, Mat.c2fFn m i t * smp a b c R m p t = q + r * (((i : K) + 1 / 2) / 2 - 1 / 2) := by
    intro q r h
    rw [← c2f_affine hm hi q r]
    exact sum_congr rfl fun t _ => by rw [h t]
  interval_cases p
  · rw [key (a + b * R.xl + c * (R.yl + 1 / 2 * hy R m)) (c * hy R m) (by intro t; rw [smp_0]; unfold cy; ring)]
    rw [smp_0]; unfold cy hy; push_cast; field_simp; ring
  · rw [key (a + b * R.xu + c * (R.yl + 1 / 2 * hy R m)) (c * hy R m) (by intro t; rw [smp_1]; unfold cy; ring)]
    rw [smp_1]; unfold cy hy; push_cast; field_simp; ring
  · rw [key (a + c * R.yl + b * (R.xl + 1 / 2 * hx R m)) (b * hx R m) (by intro t; rw [smp_2]; unfold cx; ring)]
    rw [smp_2]; unfold cx hx; push_cast; field_simp; ring
  · rw [key (a + c * R.yu + b * (R.xl + 1 / 2 * hx R m)) (b * hx R m) (by intro t; rw [smp_3]; unfold cx; ring)]
    rw [smp_3]; unfold cx hx; push_cast; field_simp; ring

theorem proN_smp {k m : Nat} (hm : k = 0 ∨ 3 ≤ m) (a b c : K) (R : Rect K) {g : Nat → Nat → K}
    (hg : ∀ p, p < 4 → ∀ i, i < m → g p i = smp a b c R m p i) :
    ∀ p, p < 4 → ∀ i, i < m * 2 ^ k → proN k m g p i = smp a b c R (m * 2 ^ k) p i := by
  induction k with
  | zero => simpa [proN] using hg
  | succ k ih =>
    have h3 : 3 ≤ m := by omega
    intro p hp i hi
    have e : m * 2 ^ (k + 1) = 2 * (m * 2 ^ k) := by ring
    rw [e] at hi ⊢
    rw [proN]
    exact pro_smp (le_trans h3 (Nat.le_mul_of_pos_right m (by positivity))) a b c R (ih (Or.inr h3)) hp hi

/-- The data of the children are samples if those of the parent and on the interfaces are. -/
theorem cd_smp {n : Nat} (hn : 0 < n) (a b c : K) (R : Rect K) {G : Nat → Nat → K}
    (hG : ∀ p, p < 8 → ∀ i, i < n → G p i = hlv n (smp a b c R (2 * n)) p i) {d : Nat} (hd : d < 4) {q : Nat} (hq : q < 4)
    {i : Nat} (hi : i < n) : cd d G (ifc a b c R n) q i = smp a b c (R.quarter d) n q i := by
  have h := fun p (hp : p < 8) => hG p hp i hi
  have cxq := fun d (_ : d < 4) => cx_quarter R hn d i
  have cyq := fun d (hd : d < 4) => cy_quarter R hn hd i
  interval_cases d <;> interval_cases q <;>
    simp [cd, ifc, jl, h, hlv, smp_0, smp_1, smp_2, smp_3, cxq, cyq] <;> simp [Rect.quarter]

/-- Interface values and fluxes at a family whose children have the right fluxes. -/
theorem ifc_eq {n : Nat} (hn : 0 < n) (a b c : K) (R : Rect K) {TT : Ops K} {hh : Nat → Nat → Nat → K}
    (hT : ∀ d, d < 4 → ∀ s, s < 4 → ∀ i, i < n → fl n (TT d) (smp a b c (R.quarter d) n) s i + hh d s i = slope b c s)
    (hns : BNonsing n 4 (Xf TT)) {S : Blk K} (hS : SolCond n TT S) {w : Nat → Nat → K} (hw : WCond n TT hh w)
    {G : Nat → Nat → K} (hG : ∀ p, p < 8 → ∀ i, i < n → G p i = hlv n (smp a b c R (2 * n)) p i) :
    (∀ kp : Nat × Nat, kp.1 < 4 → kp.2 < 4 → ∀ i, i < n → tfl n TT hh G (ifc a b c R n) kp i = slope b c kp.2) ∧
    ∀ r, r < 4 → ∀ i, i < n → ifc a b c R n r i = app n 8 S G r i + w r i := by
  have h0 : ∀ kp : Nat × Nat, kp.1 < 4 → kp.2 < 4 → ∀ i, i < n → tfl n TT hh G (ifc a b c R n) kp i = slope b c kp.2 := by
    intro kp h1 h2 i hi
    rw [← hT _ h1 _ h2 i hi]
    unfold tfl cfl fl
    congr 1
    refine sum_congr rfl fun q hq => sum_congr rfl fun j hj => ?_
    rw [cd_smp hn a b c R hG h1 (mem_range.mp hq) (mem_range.mp hj)]
  refine ⟨h0, ?_⟩
  have hsl : ∀ r, r < 4 → slope b c (jl r).2 = slope b c (jr r).2 := by
    intro r hr
    interval_cases r <;> simp [slope, jl, jr]
  have h2 := fun r (hr : r < 4) i (hi : i < n) => total_jump (hS.1 hns) (hw.1 hns) G hr hi
  have := hns (fun l s => ifc a b c R n l s - (app n 8 S G l s + w l s)) (by
    intro r hr i hi
    have a1 := h0 (jl r) (jl_lt r hr).1 (jl_lt r hr).2 i hi
    have a1' := h0 (jr r) (jr_lt r hr).1 (jr_lt r hr).2 i hi
    have a2 := h2 r hr i hi
    have a3 := hsl r hr
    have j1 := jump_eq n TT G (ifc a b c R n) r hr i
    have j2 := jump_eq n TT G (fun l s => app n 8 S G l s + w l s) r hr i
    unfold tfl at a1 a1' a2
    unfold jump at j1 j2
    simp only [mul_sub, sum_sub_distrib]
    linear_combination (-1 : K) * j1 + j2 + a1 - a1' - a2 + a3)
  intro r hr i hi
  exact sub_eq_zero.mp (this r hr i hi)

/-- The interface system of a branch in block form. -/
theorem bnonsing_of {n : Nat} {X : Blk K} {A : Mat K} (hA : A = bm n 4 4 X) (h : NonsingularMat A) : BNonsing n 4 X := by
  obtain ⟨n', a, ha, hna⟩ := h
  rw [hA] at ha
  have hsz : n' = 4 * n := by have := ha.1; simp at this; omega
  subst hsz
  refine bnonsing_iff.mp (hna.congr ?_)
  intro i hi j hj
  have h1 := ha.2.2.2 i hi j hj
  rw [bm] at h1
  have h2 := (Mat.has_ofFn (4 * n) (4 * n) (fun i j => X (i / n) (j / n) (i % n) (j % n))).2.2.2 i hi j hj
  rw [h2] at h1
  exact (Res.ok_inj.mp h1).symm

/-- A solved tree whose leaves are exact on `a + b x + c y` has the derivatives of that function as fluxes, and takes
its samples on the boundary to its values in the cells. -/
theorem Slv.linear (a b c : K) {LP : Grid K → Blk K → Prop} {HP : Grid K → Vec K → (Nat → Nat → K) → Prop}
    {UP : Grid K → (Nat → Nat → K) → Vec K → Vec K → Prop} (V : Patch K → Prop)
    (hflux : ∀ grid T f h, grid.nx = N → grid.ny = N → LP grid T → HP grid f h →
      ∀ s, s < 4 → ∀ i, i < N → opFlux N T (smp a b c (rect grid) N) h s i = slope b c s)
    (hleaf : ∀ (p : Patch K) g, p.grid.nx = N → p.grid.ny = N → (∃ T, LP p.grid T) → (∃ h, HP p.grid p.f h) → UP p.grid g p.f p.u →
      (∀ s, s < 4 → ∀ i, i < N → g s i = smp a b c (rect p.grid) N s i) → V p)
    {t : Tree (Patch K)} {R : Rect K} {k m : Nat} {T : Blk K} {h g : Nat → Nat → K} (ht : Slv N LP HP UP t R k m T h g)
    (hB : Branches (fun p => NonsingularMat p.X) t) :
    (∀ s, s < 4 → ∀ i, i < m * 2 ^ k → opFlux (m * 2 ^ k) T (smp a b c R (m * 2 ^ k)) h s i = slope b c s) ∧
      ((∀ s, s < 4 → ∀ i, i < m → g s i = smp a b c R m s i) → ∀ p ∈ t.leaves, V p) := by
  induction ht with
  | @leaf p R T h g hk hx hy hR hT hL hh hg hu =>
    obtain rfl := rect_eq hR
    refine ⟨by simpa using hflux p.grid T p.f h hx hy hL hh, ?_⟩
    intro h1 q hq
    simp only [Tree.leaves, List.mem_singleton] at hq
    subst hq
    exact hleaf q g hx hy ⟨_, hL⟩ ⟨_, hh⟩ hu h1
  | @node p R c0 c1 c2 c3 n k m k0 k1 k2 k3 T0 T1 T2 T3 S TT f0 f1 f2 f3 w g G u hh h0 h1 h2 h3 hTT hhh hz hn hm hN h3m
      hk hx hy hR hX hSol hW hG hu hg i0 i1 i2 i3 =>
    obtain ⟨hp, b0, b1, b2, b3⟩ := hB
    obtain ⟨e0, v0⟩ := i0 b0
    obtain ⟨e1, v1⟩ := i1 b1
    obtain ⟨e2, v2⟩ := i2 b2
    obtain ⟨e3, v3⟩ := i3 b3
    have hns := bnonsing_of hX hp
    have hchild : ∀ {ct : Tree (Patch K)} {Q : Rect K} {kc : Nat} {Tc : Blk K} {fc gc : Nat → Nat → K},
        Slv N LP HP UP ct Q kc n Tc fc gc →
        (∀ s, s < 4 → ∀ i, i < n * 2 ^ kc → opFlux (n * 2 ^ kc) Tc (smp a b c Q (n * 2 ^ kc)) fc s i = slope b c s) →
        ∀ s, s < 4 → ∀ i, i < n → fl n (crsN kc n Tc) (smp a b c Q n) s i + rstN kc n fc s i = slope b c s := by
      intro ct Q kc Tc fc gc hct hf s hs i hi
      have h3c : kc = 0 ∨ 3 ≤ n := by
        cases hct with
        | leaf => exact Or.inl rfl
        | node _ _ _ _ _ _ _ _ _ _ h3m => exact h3m
      have := coarse_flux (y := fun s _ => slope b c s) hn (T := Tc) (g := smp a b c Q n) (h := fc) (k := kc) (by
        intro s hs j hj
        rw [← hf s hs j hj]
        unfold opFlux
        congr 1
        exact (app_congr (fun q hq j hj => proN_smp h3c a b c Q (fun _ _ _ _ => rfl) q hq j hj) s j).symm) hs hi
      rw [← this]
      unfold meanOver
      rw [Nat.mul_div_cancel_left _ hn]
      have h2 : ((2 ^ kc : Nat) : K) ≠ 0 := by exact_mod_cast (by positivity : (2 : Nat) ^ kc ≠ 0)
      rw [sum_const, card_range, nsmul_eq_mul, mul_div_cancel_left₀ _ h2]
    have hTf : ∀ d, d < 4 → ∀ s, s < 4 → ∀ i, i < n →
        fl n (TT d) (smp a b c (R.quarter d) n) s i + hh d s i = slope b c s := by
      intro d hd
      rw [hTT, hhh]
      interval_cases d
      · exact hchild h0 e0
      · exact hchild h1 e1
      · exact hchild h2 e2
      · exact hchild h3 e3
    constructor
    · rw [hm]
      intro s hs i hi
      obtain ⟨q1, q2⟩ := ifc_eq hn a b c R hTf hns hSol hW (G := hlv n (smp a b c R (2 * n))) (fun _ _ _ _ => rfl)
      have hz : i / n < 2 := Nat.div_lt_of_lt_mul (by rw [mul_comm]; exact hi)
      have hp8 : s * 2 + i / n < 8 := by omega
      have hi' := Nat.mod_lt i hn
      unfold opFlux
      rw [app_dbl]
      unfold dblv
      rw [total_ext n TT S hh w _ hp8, ← tfl_congr q2, q1 _ (ex_lt _ hp8).1 (ex_lt _ hp8).2 _ hi']
      have : ∀ e, e < 8 → slope b c (ex e).2 = slope b c (e / 2) := by
        intro e he
        interval_cases e <;> simp [slope, ex]
      rw [this _ hp8]
      congr 1
      generalize i / n = z at *
      omega
    · intro hgs
      have hG' : ∀ p, p < 8 → ∀ i, i < n → G p i = hlv n (smp a b c R (2 * n)) p i := by
        intro p hp i hi
        rw [hG]
        unfold hlv
        have := proN_smp h3m a b c R hgs (p / 2) (by omega) (p % 2 * n + i) (by
          rw [hm]
          have : p % 2 < 2 := Nat.mod_lt _ (by omega)
          nlinarith)
        rw [this, hm]
      obtain ⟨q1, q2⟩ := ifc_eq hn a b c R hTf hns hSol hW hG'
      have hcd : ∀ d, d < 4 → ∀ s, s < 4 → ∀ i, i < n → cd d G u s i = smp a b c (R.quarter d) n s i := by
        intro d hd s hs i hi
        rw [← cd_smp hn a b c R hG' hd hs hi, hu]
        exact (cd_congr q2 d s hi).symm
      intro q hq
      simp only [Tree.leaves, List.mem_append] at hq
      rcases hq with ((hq | hq) | hq) | hq
      · exact v0 (hcd 0 (by omega)) q hq
      · exact v1 (hcd 1 (by omega)) q hq
      · exact v2 (hcd 2 (by omega)) q hq
      · exact v3 (hcd 3 (by omega)) q hq

end

end HPS
end EF
