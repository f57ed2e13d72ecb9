import Verif.Proofs.Rounding

/-!
# Properties C95 to C99: coordinates in double arithmetic
-/

namespace EF

namespace Rounded

/-- The nodes of the quadtrees. -/
theorem hasNode (fl : ℚ → ℚ) (p : Patch ℚ) {F : Forest} (hs : F.Sorted) {r : Nat} {b : Addr} {G : Forest} (hb : F.sub b = some G)
    (hG : G.Spans r) : HasNode fl p F r b (nodeOf (dataOf fl p b) b G) := by
  intro M hM
  obtain ⟨m, h1, h2, -⟩ := construct_rounded fl r p hM hs
  exact ⟨m, h1, h2 b G hb hG⟩

theorem hasNode_grid {fl : ℚ → ℚ} {p : Patch ℚ} {F : Forest} (hs : F.Sorted) {r : Nat} {b : Addr} (hb : b.Valid) {n : Node (Patch ℚ)}
    (h : HasNode fl p F r b n) : n.data.grid = gridOf fl p.grid b ∧ b.length ≤ F.depth := by
  obtain ⟨m, h1, h2⟩ := h F.depth le_rfl
  obtain ⟨m', h3, -, h4⟩ := construct_rounded fl r p (le_refl F.depth) hs
  rw [h1, Res.ok_inj] at h3
  subst h3
  obtain ⟨c, G, q1, -, q3, rfl⟩ := h4 _ _ h2
  have : b = c := Addr.text_inj hb (Forest.sub_valid q1) q3
  subst this
  exact ⟨dataOf_grid fl p b, by have := Forest.sub_depth q1; omega⟩

/-! ## C95 -/

/-- C95: whatever the rounding, the bounds of every patch of every rank and every mesh are functions of its place alone, so that sides
at the same place have the same coordinate, to the last bit; cell counts are those of the root. -/
theorem C95_places (fl : ℚ → ℚ) (p : Patch ℚ) :
    ∃ X Y : ℚ → ℚ, X 0 = p.grid.xl ∧ X 1 = p.grid.xu ∧ Y 0 = p.grid.yl ∧ Y 1 = p.grid.yu ∧
      ∀ (F : Forest), F.Sorted → ∀ (r : Nat) (b : Addr) (G : Forest), F.sub b = some G → G.Spans r → ∃ n, HasNode fl p F r b n ∧
        n.data.grid = ⟨p.grid.nx, p.grid.ny, X (place b).xl, X (place b).xu, Y (place b).yl, Y (place b).yu⟩ := by
  obtain ⟨X, hX⟩ := V_function fl p.grid.xl p.grid.xu
  obtain ⟨Y, hY⟩ := V_function fl p.grid.yl p.grid.yu
  have x0 := hX 0 0
  have x1 := hX 0 1
  have y0 := hY 0 0
  have y1 := hY 0 1
  simp only [Nat.cast_zero, Nat.cast_one, pow_zero, div_one, V, if_pos, one_ne_zero, if_false] at x0 x1 y0 y1
  refine ⟨X, Y, x0, x1, y0, y1, fun F hF r b G hb hG => ⟨_, hasNode fl p hF hb hG, ?_⟩⟩
  show (dataOf fl p b).grid = _
  have hv := Forest.sub_valid hb
  have e := gridAt_eq ⟨p.grid.nx, p.grid.ny, 0, 1, 0, 1⟩ hv
  have e' : ∀ l i : Nat, E 0 1 l i = i / 2 ^ l := by intro l i; unfold E; ring
  have q1 : (place b).xl = _ := congrArg Grid.xl e
  have q2 : (place b).xu = _ := congrArg Grid.xu e
  have q3 : (place b).yl = _ := congrArg Grid.yl e
  have q4 : (place b).yu = _ := congrArg Grid.yu e
  dsimp only at q1 q2 q3 q4
  rw [dataOf_grid, q1, q2, q3, q4, e', e', e', e', hX, hX, hY, hY]
  rfl

/-- C95 for two patches: where the right side of one lies on the left side of the other they have the same coordinate, the same holds for
upper and lower sides; the patches may be of different ranks, levels and meshes. -/
theorem C95_touch {fl : ℚ → ℚ} {p : Patch ℚ} {F F' : Forest} (hF : F.Sorted) (hF' : F'.Sorted) {r r' : Nat} {b b' : Addr}
    (hb : b.Valid) (hb' : b'.Valid) {n n' : Node (Patch ℚ)} (h : HasNode fl p F r b n) (h' : HasNode fl p F' r' b' n') :
    ((place b).xu = (place b').xl → n.data.grid.xu = n'.data.grid.xl) ∧ ((place b).yu = (place b').yl → n.data.grid.yu = n'.data.grid.yl) ∧
      ((place b).xl = (place b').xl → n.data.grid.xl = n'.data.grid.xl) ∧ ((place b).yl = (place b').yl → n.data.grid.yl = n'.data.grid.yl) ∧
      ((place b).xu = (place b').xu → n.data.grid.xu = n'.data.grid.xu) ∧ ((place b).yu = (place b').yu → n.data.grid.yu = n'.data.grid.yu) := by
  rw [(hasNode_grid hF hb h).1, (hasNode_grid hF' hb' h').1]
  have e' : ∀ l i : Nat, E 0 1 l i = i / 2 ^ l := by intro l i; unfold E; ring
  have e := gridAt_eq ⟨0, 0, 0, 1, 0, 1⟩ hb
  have k := gridAt_eq ⟨0, 0, 0, 1, 0, 1⟩ hb'
  have q1 : (place b).xl = _ := congrArg Grid.xl e
  have q2 : (place b).xu = _ := congrArg Grid.xu e
  have q3 : (place b).yl = _ := congrArg Grid.yl e
  have q4 : (place b).yu = _ := congrArg Grid.yu e
  have k1 : (place b').xl = _ := congrArg Grid.xl k
  have k2 : (place b').xu = _ := congrArg Grid.xu k
  have k3 : (place b').yl = _ := congrArg Grid.yl k
  have k4 : (place b').yu = _ := congrArg Grid.yu k
  dsimp only at q1 q2 q3 q4 k1 k2 k3 k4
  rw [q1, q2, q3, q4, k1, k2, k3, k4]
  simp only [e']
  exact ⟨V_pos fl _ _, V_pos fl _ _, V_pos fl _ _, V_pos fl _ _, V_pos fl _ _, V_pos fl _ _⟩

/-- C95: a parent made again from its children has the bounds it had, and so has a family after the merge. -/
theorem C95_parent (fl : ℚ → ℚ) (nd : Node (Patch ℚ)) (pf pl : Nat) :
    ∃ c : Nat → Node (Patch ℚ), (∀ i < 4, createChildNode fl nd i pf pl = .ok (c i)) ∧
      (∃ q, FVFactory.createParentNode [c 0, c 1, c 2, c 3] pf pl = .ok q ∧ q.data.grid = nd.data.grid) ∧
      ∀ tau, (HPS.mergeGrid ⟨tau, (c 0).data, (c 1).data, (c 2).data, (c 3).data⟩).rect = nd.data.grid.rect := by
  have : ∀ i, ∃ n, i < 4 → createChildNode fl nd i pf pl = .ok n := by
    intro i
    by_cases hi : i < 4
    · interval_cases i <;> exact ⟨_, fun _ => rfl⟩
    · exact ⟨nd, fun h => absurd h hi⟩
  choose c hc using this
  refine ⟨c, hc, ?_, ?_⟩
  · refine ⟨_, rfl, ?_⟩
    have h0 := hc 0 (by omega)
    have h1 := hc 1 (by omega)
    have h2 := hc 2 (by omega)
    unfold createChildNode childGrid at h0 h1 h2
    simp only [Res.ok_bind, Res.pure_def, Res.ok_inj] at h0 h1 h2
    rw [← h0, ← h1, ← h2]
    rfl
  · intro tau
    have h0 := hc 0 (by omega)
    have h1 := hc 1 (by omega)
    have h2 := hc 2 (by omega)
    unfold createChildNode childGrid at h0 h1 h2
    simp only [Res.ok_bind, Res.pure_def, Res.ok_inj] at h0 h1 h2
    rw [← h0, ← h1, ← h2]
    rfl

/-- An adaptive mesh on two ranks. -/
def exForest : Forest := .node (.leaf 0) (.node (.leaf 0) (.leaf 0) (.leaf 1) (.leaf 1)) (.leaf 1) (.leaf 1)

theorem exForest_sorted : exForest.Sorted := by unfold Forest.Sorted exForest; decide

/-- A domain that is not dyadic. -/
def exPatch : Patch ℚ := Patch.fresh ⟨10, 10, roundDouble (-1 / 10), roundDouble (7 / 10), 0, 1⟩

/-- The large patch at the lower left touches the small ones to its right. -/
example := (C95_touch (fl := roundDouble) (p := exPatch) exForest_sorted exForest_sorted (b := [0]) (b' := [1, 2]) (by unfold Addr.Valid; decide)
  (by unfold Addr.Valid; decide) (hasNode roundDouble exPatch exForest_sorted (r := 0) rfl ⟨by decide, by decide⟩)
  (hasNode roundDouble exPatch exForest_sorted (r := 1) rfl ⟨by decide, by decide⟩)).1 (by norm_num [place, Addr.rect, Rect.quarter])

/-! ## C96 -/

/-- C96, the order: on a domain with finite bounds in order, the bounds of every patch are finite doubles, in order, and inside the domain. -/
theorem C96_ordered {p : Patch ℚ} (ha : IsDouble p.grid.xl) (hb : IsDouble p.grid.xu) (hc : IsDouble p.grid.yl) (hd : IsDouble p.grid.yu)
    (hx : p.grid.xl ≤ p.grid.xu) (hy : p.grid.yl ≤ p.grid.yu) {F : Forest} (hF : F.Sorted) {r : Nat} {b : Addr} (hv : b.Valid)
    {n : Node (Patch ℚ)} (h : HasNode roundDouble p F r b n) :
    let g := n.data.grid
    (IsDouble g.xl ∧ IsDouble g.xu ∧ IsDouble g.yl ∧ IsDouble g.yu) ∧ (p.grid.xl ≤ g.xl ∧ g.xl ≤ g.xu ∧ g.xu ≤ p.grid.xu) ∧
      p.grid.yl ≤ g.yl ∧ g.yl ≤ g.yu ∧ g.yu ≤ p.grid.yu := by
  have hcol := Addr.col_lt hv
  have hrow := Addr.row_lt hv
  dsimp only
  rw [(hasNode_grid hF hv h).1]
  have x1 := V_in ha.short hb.short hx (l := b.length) (i := b.col) (by omega)
  have x2 := V_in ha.short hb.short hx (l := b.length) (i := b.col + 1) (by omega)
  have y1 := V_in hc.short hd.short hy (l := b.length) (i := b.row) (by omega)
  have y2 := V_in hc.short hd.short hy (l := b.length) (i := b.row + 1) (by omega)
  exact ⟨⟨isDouble_of_between ha hb (V_short ha.short hb.short _ _) x1.1 x1.2, isDouble_of_between ha hb (V_short ha.short hb.short _ _) x2.1 x2.2,
    isDouble_of_between hc hd (V_short hc.short hd.short _ _) y1.1 y1.2, isDouble_of_between hc hd (V_short hc.short hd.short _ _) y2.1 y2.2⟩,
    ⟨x1.1, V_step ha.short hb.short hx _ _, x2.2⟩, y1.1, V_step hc.short hd.short hy _ _, y2.2⟩

theorem separate_of_wide {a b M : ℚ} (ha : Short a) (hb : Short b) (hab : a ≤ b) (h1 : |a| ≤ M) (h2 : |b| ≤ M) {n D l i : Nat} (hn : 0 < n)
    (hM : n / 2 ^ 1022 ≤ M) (hl : l ≤ D) (hi : i < 2 ^ l) (hw : 2 ^ D * n * (40 + 4 * D) * roundoff * M < b - a) :
    Separate n (V roundDouble a b l i) (V roundDouble a b l (i + 1)) := by
  have hn1 : (1 : ℚ) ≤ n := by exact_mod_cast hn
  have hn' : (0 : ℚ) < n := by linarith
  have t0 : (0 : ℚ) < 1 / 2 ^ 1022 := by positivity
  have hM2 : (n : ℚ) * (1 / 2 ^ 1022) ≤ M := by rwa [mul_one_div]
  have hM1 : 1 / 2 ^ 1022 ≤ M := by nlinarith
  have hM0 : 0 < M := lt_of_lt_of_le t0 hM1
  have hu : 0 < roundoff := by unfold roundoff; positivity
  have hp : 0 < roundoff * M := mul_pos hu hM0
  have e1 := V_error ha hb hab h1 h2 hM1 (l := l) (i := i) (by omega)
  have e2 := V_error ha hb hab h1 h2 hM1 (l := l) (i := i + 1) (by omega)
  have r1 := V_in ha hb hab (l := l) (i := i) (by omega)
  have r2 := V_in ha hb hab (l := l) (i := i + 1) (by omega)
  have hE : E a b l (i + 1) - E a b l i = (b - a) / 2 ^ l := by unfold E; push_cast; ring
  generalize V roundDouble a b l i = lo at *
  generalize V roundDouble a b l (i + 1) = hi' at *
  have hlD : (l : ℚ) ≤ D := by exact_mod_cast hl
  have wide : n * (40 + 4 * D) * (roundoff * M) < (b - a) / 2 ^ l := by
    rw [lt_div_iff₀ (by positivity)]
    refine lt_of_le_of_lt ?_ hw
    have : (2 : ℚ) ^ l ≤ 2 ^ D := pow_le_pow_right₀ (by norm_num) hl
    have h0 : 0 ≤ n * (40 + 4 * (D : ℚ)) * (roundoff * M) :=
      mul_nonneg (mul_nonneg hn'.le (by clear hM hM2 hM1 t0; positivity)) hp.le
    calc _ ≤ n * (40 + 4 * (D : ℚ)) * (roundoff * M) * 2 ^ D := mul_le_mul_of_nonneg_left this h0
      _ = _ := by ring
  have w2 : 40 * (n * (roundoff * M)) < hi' - lo := by
    have c1 : 2 * l * roundoff * M ≤ 2 * (D * (roundoff * M)) := by
      have := mul_le_mul_of_nonneg_right hlD hp.le
      clear hM2 hM1 hM t0
      linarith
    have c2 : (D : ℚ) * (roundoff * M) ≤ n * (D * (roundoff * M)) := by
      have : 0 ≤ (D : ℚ) * (roundoff * M) := mul_nonneg (Nat.cast_nonneg D) hp.le
      exact le_mul_of_one_le_left this hn1
    rw [abs_le] at e1 e2
    have c3 : n * (40 + 4 * D) * (roundoff * M) = 40 * (n * (roundoff * M)) + 4 * (n * (D * (roundoff * M))) := by ring
    linarith [e1.1, e1.2, e2.1, e2.2]
  have a1 : |lo| ≤ M := by rw [abs_le] at *; constructor <;> linarith [r1.1, r1.2]
  have a2 : |hi'| ≤ M := by rw [abs_le] at *; constructor <;> linarith [r2.1, r2.2]
  have d : 40 * (roundoff * M) < (hi' - lo) / n := by rw [lt_div_iff₀ hn']; linarith
  have pt : ∀ j, j < n → |point roundDouble lo hi' n j - (lo + (j + 1 / 2) * ((hi' - lo) / n))| ≤ 18 * (roundoff * M) := by
    intro j hj
    have := point_error a1 a2 hj hM
    rwa [show (hi' - lo) * (((j : ℚ) + 1 / 2) / n) = (j + 1 / 2) * ((hi' - lo) / n) by ring] at this
  have hwn : hi' = lo + n * ((hi' - lo) / n) := by field_simp; ring
  refine ⟨by have : 0 < 40 * (n * (roundoff * M)) := mul_pos (by norm_num) (mul_pos hn' hp)
             linarith, fun j hj => ?_, fun j k hjk hk => ?_⟩
  · have := pt j hj
    have hj' : (j : ℚ) + 1 ≤ n := by exact_mod_cast hj
    have hj0 : (0 : ℚ) ≤ j := by positivity
    generalize (hi' - lo) / n = w at *
    rw [abs_le] at this
    generalize point roundDouble lo hi' n j = x at *
    have m1 := mul_nonneg hj0 (show 0 ≤ w by linarith)
    have m2 := mul_le_mul_of_nonneg_right hj' (show 0 ≤ w by linarith)
    constructor <;> linarith [this.1, this.2]
  · have q1 := pt j (by omega)
    have q2 := pt k hk
    have hj' : (j : ℚ) + 1 ≤ k := by exact_mod_cast hjk
    generalize (hi' - lo) / n = w at *
    rw [abs_le] at q1 q2
    have m2 := mul_le_mul_of_nonneg_right hj' (show 0 ≤ w by linarith)
    linarith [q1.1, q1.2, q2.1, q2.2]

/-- C96, the part that holds: if the domain is wide enough for its depth of refinement and number of cells, compared with the size `M` of its
coordinates, then every patch has a positive width and height, and the centres of its cells are in order and inside it.  Missing: domains far from
the origin, see `C96_empty_wrong`. -/
theorem C96_separate_partial {p : Patch ℚ} (ha : IsDouble p.grid.xl) (hb : IsDouble p.grid.xu) (hc : IsDouble p.grid.yl) (hd : IsDouble p.grid.yu)
    {M : ℚ} (h1 : |p.grid.xl| ≤ M) (h2 : |p.grid.xu| ≤ M) (h3 : |p.grid.yl| ≤ M) (h4 : |p.grid.yu| ≤ M) (hnx : 0 < p.grid.nx) (hny : 0 < p.grid.ny)
    (hMx : p.grid.nx / 2 ^ 1022 ≤ M) (hMy : p.grid.ny / 2 ^ 1022 ≤ M) {F : Forest} (hF : F.Sorted)
    (hx : 2 ^ F.depth * p.grid.nx * (40 + 4 * F.depth) * roundoff * M < p.grid.xu - p.grid.xl)
    (hy : 2 ^ F.depth * p.grid.ny * (40 + 4 * F.depth) * roundoff * M < p.grid.yu - p.grid.yl)
    {r : Nat} {b : Addr} (hv : b.Valid) {n : Node (Patch ℚ)} (h : HasNode roundDouble p F r b n) :
    Separate p.grid.nx n.data.grid.xl n.data.grid.xu ∧ Separate p.grid.ny n.data.grid.yl n.data.grid.yu := by
  obtain ⟨e, hl⟩ := hasNode_grid hF hv h
  rw [e]
  have hM0 : 0 ≤ M := (abs_nonneg _).trans h1
  have hu : 0 ≤ roundoff := by unfold roundoff; positivity
  have gx : p.grid.xl ≤ p.grid.xu := by
    have : 0 ≤ 2 ^ F.depth * (p.grid.nx : ℚ) * (40 + 4 * F.depth) * roundoff * M := by positivity
    linarith
  have gy : p.grid.yl ≤ p.grid.yu := by
    have : 0 ≤ 2 ^ F.depth * (p.grid.ny : ℚ) * (40 + 4 * F.depth) * roundoff * M := by positivity
    linarith
  exact ⟨separate_of_wide ha.short hb.short gx h1 h2 hnx hMx hl (Addr.col_lt hv) hx,
    separate_of_wide hc.short hd.short gy h3 h4 hny hMy hl (Addr.row_lt hv) hy⟩

/-- A mesh with one refinement. -/
def exFour : Forest := .node (.leaf 0) (.leaf 0) (.leaf 0) (.leaf 0)

theorem exFour_sorted : exFour.Sorted := by unfold Forest.Sorted exFour; decide

/-- Whole numbers below `2^53` are doubles. -/
theorem isDouble_int {m : Int} (h : |m| < 2 ^ 53) : IsDouble (m : ℚ) := ⟨m, 0, by simp, h, by norm_num, by norm_num⟩

/-- C96 is false as stated: the square of side 1 at `2^52`, refined once, has patches without area. -/
theorem C96_empty_wrong :
    ¬ ∀ p : Patch ℚ, IsDouble p.grid.xl → IsDouble p.grid.xu → IsDouble p.grid.yl → IsDouble p.grid.yu → p.grid.xl < p.grid.xu →
      p.grid.yl < p.grid.yu → ∀ F : Forest, F.Sorted → ∀ (r : Nat) (b : Addr) (n : Node (Patch ℚ)), b.Valid → HasNode roundDouble p F r b n →
      n.data.grid.xl < n.data.grid.xu := by
  intro H
  have d0 : IsDouble (4503599627370496 : ℚ) := by exact_mod_cast isDouble_int (m := 4503599627370496) (by norm_num)
  have d1 : IsDouble (4503599627370497 : ℚ) := by exact_mod_cast isDouble_int (m := 4503599627370497) (by norm_num)
  have := H (Patch.fresh ⟨4, 4, 4503599627370496, 4503599627370497, 4503599627370496, 4503599627370497⟩) d0 d1 d0 d1
    (by norm_num [Patch.fresh]) (by norm_num [Patch.fresh]) exFour exFour_sorted 0 [0] _ (by unfold Addr.Valid; decide)
    (hasNode roundDouble _ exFour_sorted (b := [0]) rfl ⟨by decide, by decide⟩)
  change (dataOf roundDouble _ [0]).grid.xl < (dataOf roundDouble _ [0]).grid.xu at this
  rw [dataOf_grid] at this
  revert this
  decide +kernel

/-- A domain near the origin is wide enough. -/
theorem roundDouble_isDouble {x : ℚ} (h : |x| ≤ 1) : IsDouble (roundDouble x) := by
  have d1 : Short 1 := ⟨1, 0, by norm_num, by norm_num, by norm_num⟩
  refine (roundDouble_isShort x).isDouble (lt_of_le_of_lt ?_ (show (1 : ℚ) < 2 ^ (1024 : Int) by
    rw [show (1 : ℚ) = 2 ^ (0 : Int) by norm_num]; exact zpow2_lt.2 (by norm_num)))
  rw [abs_le] at *
  exact ⟨roundDouble_ge d1.neg h.1, roundDouble_le d1 h.2⟩

/-! ## C97 -/

theorem near_of {a b M : ℚ} (ha : Short a) (hb : Short b) (hab : a ≤ b) (h1 : |a| ≤ M) (h2 : |b| ≤ M) {n l i : Nat} (hn : 0 < n)
    (hM : n / 2 ^ 1022 ≤ M) (hi : i < 2 ^ l) :
    Near M l n (E a b l i) (E a b l (i + 1)) (V roundDouble a b l i) (V roundDouble a b l (i + 1)) := by
  have hn1 : (1 : ℚ) ≤ n := by exact_mod_cast hn
  have hn' : (0 : ℚ) < n := by linarith
  have t0 : (0 : ℚ) < 1 / 2 ^ 1022 := by positivity
  have hM2 : (n : ℚ) * (1 / 2 ^ 1022) ≤ M := by rwa [mul_one_div]
  have hM1 : 1 / 2 ^ 1022 ≤ M := by nlinarith
  have e1 := V_error ha hb hab h1 h2 hM1 (l := l) (i := i) (by omega)
  have e2 := V_error ha hb hab h1 h2 hM1 (l := l) (i := i + 1) (by omega)
  have r1 := V_in ha hb hab (l := l) (i := i) (by omega)
  have r2 := V_in ha hb hab (l := l) (i := i + 1) (by omega)
  generalize V roundDouble a b l i = lo at *
  generalize V roundDouble a b l (i + 1) = hi' at *
  have a1 : |lo| ≤ M := by rw [abs_le] at *; constructor <;> linarith [r1.1, r1.2]
  have a2 : |hi'| ≤ M := by rw [abs_le] at *; constructor <;> linarith [r2.1, r2.2]
  have blend : ∀ x : ℚ, 0 ≤ x → x ≤ 1 → |lo + (hi' - lo) * x - (E a b l i + (E a b l (i + 1) - E a b l i) * x)| ≤ 2 * l * roundoff * M := by
    intro x x0 x1
    generalize 2 * (l : ℚ) * roundoff * M = t at *
    rw [show lo + (hi' - lo) * x - (E a b l i + (E a b l (i + 1) - E a b l i) * x) = (lo - E a b l i) * (1 - x) + (hi' - E a b l (i + 1)) * x by ring]
    have x2 : 0 ≤ 1 - x := by linarith
    calc _ ≤ |(lo - E a b l i) * (1 - x)| + |(hi' - E a b l (i + 1)) * x| := abs_add_le _ _
      _ ≤ t * (1 - x) + t * x := by
        rw [abs_mul, abs_mul, abs_of_nonneg x0, abs_of_nonneg x2]
        exact add_le_add (mul_le_mul_of_nonneg_right e1 x2) (mul_le_mul_of_nonneg_right e2 x0)
      _ = t := by ring
  refine ⟨e1, e2, fun j hj => ?_, fun j hj => ?_⟩
  · have q := point_error a1 a2 hj hM
    have hj' : (j : ℚ) + 1 ≤ n := by exact_mod_cast hj
    have c := blend ((j + 1 / 2) / n) (div_nonneg (by linarith [show (0 : ℚ) ≤ j from Nat.cast_nonneg j]) hn'.le)
      ((div_le_one hn').2 (by linarith))
    rw [show ((j : ℚ) + 1 / 2) * ((E a b l (i + 1) - E a b l i) / n) = (E a b l (i + 1) - E a b l i) * ((j + 1 / 2) / n) by ring]
    calc _ ≤ _ := abs_sub_le _ (lo + (hi' - lo) * ((j + 1 / 2) / n)) _
      _ ≤ 18 * (roundoff * M) + 2 * l * roundoff * M := add_le_add q c
      _ = _ := by ring
  · have q := corner_error a1 a2 hn hj hM
    have hj' : (j : ℚ) ≤ n := by exact_mod_cast hj
    have c := blend (j / n) (div_nonneg (Nat.cast_nonneg j) hn'.le) ((div_le_one hn').2 hj')
    rw [show (j : ℚ) * ((E a b l (i + 1) - E a b l i) / n) = (E a b l (i + 1) - E a b l i) * (j / n) by ring]
    calc _ ≤ _ := abs_sub_le _ (lo + (hi' - lo) * (j / n)) _
      _ ≤ 12 * (roundoff * M) + 2 * l * roundoff * M := add_le_add q c
      _ = _ := by ring

/-- C97: the coordinates of every patch, of the centres and of the corners of its cells are as near to the exact ones as `2` roundoffs per level
and `18` or `12` for the cells, in units of the size `M` of the coordinates of the domain. -/
theorem C97_near {p : Patch ℚ} (ha : IsDouble p.grid.xl) (hb : IsDouble p.grid.xu) (hc : IsDouble p.grid.yl) (hd : IsDouble p.grid.yu)
    (hx : p.grid.xl ≤ p.grid.xu) (hy : p.grid.yl ≤ p.grid.yu)
    {M : ℚ} (h1 : |p.grid.xl| ≤ M) (h2 : |p.grid.xu| ≤ M) (h3 : |p.grid.yl| ≤ M) (h4 : |p.grid.yu| ≤ M) (hnx : 0 < p.grid.nx) (hny : 0 < p.grid.ny)
    (hMx : p.grid.nx / 2 ^ 1022 ≤ M) (hMy : p.grid.ny / 2 ^ 1022 ≤ M) {F : Forest} (hF : F.Sorted)
    {r : Nat} {b : Addr} (hv : b.Valid) {n : Node (Patch ℚ)} (h : HasNode roundDouble p F r b n) :
    let R := Addr.rect p.grid.rect b
    Near M b.length p.grid.nx R.xl R.xu n.data.grid.xl n.data.grid.xu ∧ Near M b.length p.grid.ny R.yl R.yu n.data.grid.yl n.data.grid.yu := by
  have e := gridAt_eq p.grid hv
  have q1 : (Addr.rect p.grid.rect b).xl = _ := congrArg Grid.xl e
  have q2 : (Addr.rect p.grid.rect b).xu = _ := congrArg Grid.xu e
  have q3 : (Addr.rect p.grid.rect b).yl = _ := congrArg Grid.yl e
  have q4 : (Addr.rect p.grid.rect b).yu = _ := congrArg Grid.yu e
  dsimp only at q1 q2 q3 q4 ⊢
  rw [(hasNode_grid hF hv h).1, q1, q2, q3, q4]
  exact ⟨near_of ha.short hb.short hx h1 h2 hnx hMx (Addr.col_lt hv), near_of hc.short hd.short hy h3 h4 hny hMy (Addr.row_lt hv)⟩

theorem roundDouble_abs {x : ℚ} {k : Nat} (h : |x| ≤ 2 ^ k) : |roundDouble x| ≤ 2 ^ k := by
  have s : Short (2 ^ k) := ⟨1, k, by rw [zpow_natCast]; norm_num, by norm_num, by omega⟩
  rw [abs_le] at *
  exact ⟨roundDouble_ge s.neg h.1, roundDouble_le s h.2⟩

theorem operand_steps {lo hi : ℚ} {k : Nat} (h1 : |lo| ≤ 2 ^ k) (h2 : |hi| ≤ 2 ^ k) {n i : Nat} (hn : 0 < n)
    (hstep : |(i : ℚ) * spacing roundDouble lo hi n| ≤ 2 ^ (k + 2)) : ∀ x ∈ operands lo hi n i, |x| < 2 ^ (k + 3) := by
  have hn1 : (1 : ℚ) ≤ n := by exact_mod_cast hn
  have k1 : (2 : ℚ) ^ (k + 1) = 2 * 2 ^ k := by ring
  have k2 : (2 : ℚ) ^ (k + 2) = 4 * 2 ^ k := by ring
  have k3 : (2 : ℚ) ^ (k + 3) = 8 * 2 ^ k := by ring
  have hB : (0 : ℚ) < 2 ^ k := by positivity
  have s1 : |lo + hi| ≤ 2 ^ (k + 1) := by rw [k1]; rw [abs_le] at *; constructor <;> linarith
  have s2 := roundDouble_abs s1
  have s3 : |hi - lo| ≤ 2 ^ (k + 1) := by rw [k1]; rw [abs_le] at *; constructor <;> linarith
  have s4 := roundDouble_abs s3
  have s5 : |roundDouble (hi - lo) / n| ≤ 2 ^ (k + 1) := by
    rw [abs_div, Nat.abs_cast]
    exact (div_le_self (abs_nonneg _) hn1).trans s4
  have s6 : |spacing roundDouble lo hi n| ≤ 2 ^ (k + 1) := roundDouble_abs s5
  have s7 : |spacing roundDouble lo hi n / 2| ≤ 2 ^ k := by
    rw [abs_div, abs_of_pos (by norm_num : (0 : ℚ) < 2)]; linarith
  have s8 := roundDouble_abs s7
  have s9 : |lo + roundDouble (spacing roundDouble lo hi n / 2)| ≤ 2 ^ (k + 1) := by
    rw [k1]; rw [abs_le] at *; constructor <;> linarith
  have s10 := roundDouble_abs s9
  have s11 := roundDouble_abs hstep
  have s12 : |roundDouble (lo + hi) / 2| ≤ 2 ^ k := by
    rw [abs_div, abs_of_pos (by norm_num : (0 : ℚ) < 2)]; linarith
  rw [k1] at s1 s2 s3 s4 s5 s6 s9 s10
  rw [k2] at hstep s11
  intro x hx
  unfold operands at hx
  simp only [List.mem_cons, List.not_mem_nil, or_false] at hx
  rw [k3]
  rcases hx with rfl | rfl | rfl | rfl | rfl | rfl | rfl | rfl | rfl
  · linarith
  · linarith
  · linarith
  · linarith
  · linarith
  · linarith
  · linarith
  · rw [abs_le] at s10 s11; rw [abs_lt]; constructor <;> linarith
  · rw [abs_le] at h1 s11; rw [abs_lt]; constructor <;> linarith

/-- C97: nothing overflows on the way: on a domain with coordinates up to `2^1020`, every operation on the bounds of a patch has a result below
the largest double. -/
theorem C97_finite {p : Patch ℚ} (ha : IsDouble p.grid.xl) (hb : IsDouble p.grid.xu) (hc : IsDouble p.grid.yl) (hd : IsDouble p.grid.yu)
    (hx : p.grid.xl ≤ p.grid.xu) (hy : p.grid.yl ≤ p.grid.yu)
    {M : ℚ} (h1 : |p.grid.xl| ≤ M) (h2 : |p.grid.xu| ≤ M) (h3 : |p.grid.yl| ≤ M) (h4 : |p.grid.yu| ≤ M) (hnx : 0 < p.grid.nx) (hny : 0 < p.grid.ny)
    (hMx : p.grid.nx / 2 ^ 1022 ≤ M) (hMy : p.grid.ny / 2 ^ 1022 ≤ M) (hM : M ≤ 2 ^ 1020) {F : Forest} (hF : F.Sorted)
    {r : Nat} {b : Addr} (hv : b.Valid) {n : Node (Patch ℚ)} (h : HasNode roundDouble p F r b n) :
    (∀ i ≤ p.grid.nx, ∀ x ∈ operands n.data.grid.xl n.data.grid.xu p.grid.nx i, |x| < 2 ^ 1023) ∧
      ∀ i ≤ p.grid.ny, ∀ x ∈ operands n.data.grid.yl n.data.grid.yu p.grid.ny i, |x| < 2 ^ 1023 := by
  have key : ∀ {lo hi : ℚ} {m i : Nat}, |lo| ≤ M → |hi| ≤ M → 0 < m → (m : ℚ) / 2 ^ 1022 ≤ M → i ≤ m →
      ∀ x ∈ operands lo hi m i, |x| < 2 ^ 1023 := by
    intro lo hi m i q1 q2 hm hMm hi'
    refine operand_steps (k := 1020) (q1.trans hM) (q2.trans hM) hm ?_
    have hM0 : 0 ≤ M := (abs_nonneg _).trans q1
    have d := spacing_error q1 q2 hm hMm
    have hm' : (0 : ℚ) < m := by exact_mod_cast hm
    have us := mul_le_mul_of_nonneg_right roundoff_small hM0
    have w : |(hi - lo) / (m : ℚ)| ≤ 2 * M / m := by
      rw [abs_div, abs_of_pos hm']
      refine div_le_div_of_nonneg_right ?_ hm'.le
      rw [abs_le] at q1 q2 ⊢
      constructor <;> linarith [q1.1, q1.2, q2.1, q2.2]
    have w2 : |spacing roundDouble lo hi m| ≤ 3 * M / m := by
      calc _ = |(spacing roundDouble lo hi m - (hi - lo) / m) + (hi - lo) / m| := by rw [sub_add_cancel]
        _ ≤ _ := abs_add_le _ _
        _ ≤ 5 * (roundoff * M) / m + 2 * M / m := add_le_add d w
        _ = (5 * (roundoff * M) + 2 * M) / m := by ring
        _ ≤ _ := div_le_div_of_nonneg_right (by linarith) hm'.le
    rw [abs_mul, Nat.abs_cast]
    calc _ ≤ (m : ℚ) * (3 * M / m) := mul_le_mul (by exact_mod_cast hi') w2 (abs_nonneg _) hm'.le
      _ = 3 * M := by field_simp
      _ ≤ 4 * M := by linarith
      _ ≤ 4 * 2 ^ 1020 := by linarith
      _ = 2 ^ (1020 + 2) := by rw [pow_add]; ring
  have o := C96_ordered ha hb hc hd hx hy hF hv h
  have b1 : ∀ {lo hi z : ℚ}, |lo| ≤ M → |hi| ≤ M → lo ≤ z → z ≤ hi → |z| ≤ M := by
    intro lo hi z q1 q2 q3 q4
    rw [abs_le] at *
    constructor <;> linarith
  obtain ⟨-, ⟨x1, x2, x3⟩, y1, y2, y3⟩ := o
  exact ⟨fun i hi => key (b1 h1 h2 x1 (x2.trans x3)) (b1 h1 h2 (x1.trans x2) x3) hnx hMx hi,
    fun i hi => key (b1 h3 h4 y1 (y2.trans y3)) (b1 h3 h4 (y1.trans y2) y3) hny hMy hi⟩

/-- The example domain meets the conditions of C96 and C97. -/
theorem exPatch_double : IsDouble exPatch.grid.xl ∧ IsDouble exPatch.grid.xu ∧ IsDouble exPatch.grid.yl ∧ IsDouble exPatch.grid.yu ∧
    exPatch.grid.xl ≤ exPatch.grid.xu ∧ exPatch.grid.yl ≤ exPatch.grid.yu := by
  refine ⟨roundDouble_isDouble ?_, roundDouble_isDouble ?_, ?_, ?_, ?_, ?_⟩
  · rw [abs_le]; norm_num
  · rw [abs_le]; norm_num
  · exact_mod_cast isDouble_int (m := 0) (by norm_num)
  · exact_mod_cast isDouble_int (m := 1) (by norm_num)
  · exact roundDouble_mono (by norm_num)
  · decide +kernel

theorem exPatch_size : |exPatch.grid.xl| ≤ 1 ∧ |exPatch.grid.xu| ≤ 1 ∧ |exPatch.grid.yl| ≤ 1 ∧ |exPatch.grid.yu| ≤ 1 ∧
    ((exPatch.grid.nx : Nat) : ℚ) / 2 ^ 1022 ≤ 1 ∧ ((exPatch.grid.ny : Nat) : ℚ) / 2 ^ 1022 ≤ 1 := by decide +kernel

theorem exPatch_wide : 2 ^ exForest.depth * ((exPatch.grid.nx : Nat) : ℚ) * (40 + 4 * ((exForest.depth : Nat) : ℚ)) * roundoff * 1 < exPatch.grid.xu - exPatch.grid.xl ∧
    2 ^ exForest.depth * ((exPatch.grid.ny : Nat) : ℚ) * (40 + 4 * ((exForest.depth : Nat) : ℚ)) * roundoff * 1 < exPatch.grid.yu - exPatch.grid.yl := by decide +kernel

theorem exNode : ∃ n, HasNode roundDouble exPatch exForest 1 [1, 2] n :=
  ⟨_, hasNode roundDouble exPatch exForest_sorted (r := 1) (b := [1, 2]) rfl ⟨by decide, by decide⟩⟩

example := C96_separate_partial exPatch_double.1 exPatch_double.2.1 exPatch_double.2.2.1 exPatch_double.2.2.2.1 exPatch_size.1 exPatch_size.2.1
  exPatch_size.2.2.1 exPatch_size.2.2.2.1 (by decide) (by decide) exPatch_size.2.2.2.2.1 exPatch_size.2.2.2.2.2 exForest_sorted exPatch_wide.1
  exPatch_wide.2 (b := [1, 2]) (by unfold Addr.Valid; decide) exNode.choose_spec
example := C97_near exPatch_double.1 exPatch_double.2.1 exPatch_double.2.2.1 exPatch_double.2.2.2.1 exPatch_double.2.2.2.2.1 exPatch_double.2.2.2.2.2
  exPatch_size.1 exPatch_size.2.1 exPatch_size.2.2.1 exPatch_size.2.2.2.1 (by decide) (by decide) exPatch_size.2.2.2.2.1 exPatch_size.2.2.2.2.2
  exForest_sorted (b := [1, 2]) (by unfold Addr.Valid; decide) exNode.choose_spec

/-! ## C98 -/

theorem exact_of {a b : ℚ} {D k : Nat} (h : Fits D k a b) {l i : Nat} (hl : l ≤ D) (hi : i < 2 ^ l) :
    Exact (2 ^ k) (E a b l i) (E a b l (i + 1)) (V roundDouble a b l i) (V roundDouble a b l (i + 1)) := by
  obtain ⟨f, hf, da, db, na, nb⟩ := fits_dyadic h
  have e1 := V_exact hf (D := D) (da.mono (by omega)) (db.mono (by omega)) na nb hl hi.le
  have e2 := V_exact hf (D := D) (da.mono (by omega)) (db.mono (by omega)) na nb hl (i := i + 1) (by omega)
  have d1 : Dyadic (f + k + 1) (E a b l i) := E_dyadic i (da.mono (by omega)) (db.mono (by omega))
  have d2 : Dyadic (f + k + 1) (E a b l (i + 1)) := E_dyadic (i + 1) (da.mono (by omega)) (db.mono (by omega))
  have n1 := E_abs na nb hi.le
  have n2 := E_abs na nb (l := l) (i := i + 1) (by omega)
  rw [e1, e2]
  exact ⟨rfl, rfl, (spacing_exact hf (d1.mono (by omega)) (d2.mono (by omega)) n1 n2).1, fun j hj => point_exact hf d1 d2 n1 n2 hj,
    fun j hj => corner_exact hf (d1.mono (by omega)) (d2.mono (by omega)) n1 n2 hj⟩

/-- C98: on a domain whose ends are short binary numbers, with a power of two of cells, all coordinates are exact: the bounds of every patch,
the spacing, the centres and the corners of the cells. -/
theorem C98_exact {p : Patch ℚ} {F : Forest} (hF : F.Sorted) {kx ky : Nat} (hnx : p.grid.nx = 2 ^ kx) (hny : p.grid.ny = 2 ^ ky)
    (hx : Fits F.depth kx p.grid.xl p.grid.xu) (hy : Fits F.depth ky p.grid.yl p.grid.yu)
    {r : Nat} {b : Addr} (hv : b.Valid) {n : Node (Patch ℚ)} (h : HasNode roundDouble p F r b n) :
    let R := Addr.rect p.grid.rect b
    Exact p.grid.nx R.xl R.xu n.data.grid.xl n.data.grid.xu ∧ Exact p.grid.ny R.yl R.yu n.data.grid.yl n.data.grid.yu := by
  have e := gridAt_eq p.grid hv
  have q1 : (Addr.rect p.grid.rect b).xl = _ := congrArg Grid.xl e
  have q2 : (Addr.rect p.grid.rect b).xu = _ := congrArg Grid.xu e
  have q3 : (Addr.rect p.grid.rect b).yl = _ := congrArg Grid.yl e
  have q4 : (Addr.rect p.grid.rect b).yu = _ := congrArg Grid.yu e
  obtain ⟨e, hl⟩ := hasNode_grid hF hv h
  dsimp only at q1 q2 q3 q4 ⊢
  rw [e, q1, q2, q3, q4, hnx, hny]
  exact ⟨exact_of hx hl (Addr.col_lt hv), exact_of hy hl (Addr.row_lt hv)⟩

/-- The unit square with 16 by 16 cells per patch may be refined 46 times. -/
theorem unitSquare_fits : Fits 46 4 0 1 := ⟨0, 1, 0, by norm_num, by norm_num, by norm_num, by norm_num, by norm_num⟩

example := C98_exact (p := Patch.fresh ⟨2 ^ 4, 2 ^ 4, 0, 1, 0, 1⟩) exForest_sorted (kx := 4) (ky := 4) rfl rfl
  (⟨0, 1, 0, by norm_num [Patch.fresh], by norm_num [Patch.fresh], by decide, by decide, by decide⟩)
  (⟨0, 1, 0, by norm_num [Patch.fresh], by norm_num [Patch.fresh], by decide, by decide, by decide⟩) (r := 1) (b := [1, 2]) (by unfold Addr.Valid; decide)
  (hasNode roundDouble _ exForest_sorted rfl ⟨by decide, by decide⟩)

/-! ## C99 -/

/-- C99 is false as stated: with 49 cells per side, the right corners of the last cells of a patch are not the left corners of the first cells
of the patch it touches. -/
theorem C99_corners_wrong :
    ¬ ∀ p : Patch ℚ, IsDouble p.grid.xl → IsDouble p.grid.xu → p.grid.xl < p.grid.xu → ∀ F : Forest, F.Sorted →
      ∀ (r r' : Nat) (b b' : Addr) (n n' : Node (Patch ℚ)), b.Valid → b'.Valid → HasNode roundDouble p F r b n → HasNode roundDouble p F r' b' n' →
      (place b).xu = (place b').xl →
      corner roundDouble n.data.grid.xl n.data.grid.xu p.grid.nx p.grid.nx = corner roundDouble n'.data.grid.xl n'.data.grid.xu p.grid.nx 0 := by
  intro H
  have d0 : IsDouble (0 : ℚ) := by exact_mod_cast isDouble_int (m := 0) (by norm_num)
  have d1 : IsDouble (1 : ℚ) := by exact_mod_cast isDouble_int (m := 1) (by norm_num)
  have := H (Patch.fresh ⟨49, 49, 0, 1, 0, 1⟩) d0 d1 (by norm_num [Patch.fresh]) exFour exFour_sorted 0 0 [0] [1] _ _ (by unfold Addr.Valid; decide)
    (by unfold Addr.Valid; decide) (hasNode roundDouble _ exFour_sorted (b := [0]) rfl ⟨by decide, by decide⟩)
    (hasNode roundDouble _ exFour_sorted (b := [1]) rfl ⟨by decide, by decide⟩) (by norm_num [place, Addr.rect, Rect.quarter])
  change corner _ (dataOf roundDouble _ [0]).grid.xl (dataOf roundDouble _ [0]).grid.xu _ _
    = corner _ (dataOf roundDouble _ [1]).grid.xl (dataOf roundDouble _ [1]).grid.xu _ _ at this
  rw [dataOf_grid, dataOf_grid] at this
  revert this
  decide +kernel

/-- The first corner of a patch is its lower bound. -/
theorem corner_first {lo hi : ℚ} (h : Short lo) (n : Nat) : corner roundDouble lo hi n 0 = lo := by
  unfold corner
  rw [Nat.cast_zero, zero_mul, roundDouble_zero, add_zero, roundDouble_short h]

theorem corners_near {a b M : ℚ} (ha : Short a) (hb : Short b) (hab : a ≤ b) (h1 : |a| ≤ M) (h2 : |b| ≤ M) {n l i l' i' : Nat} (hn : 0 < n)
    (hM : n / 2 ^ 1022 ≤ M) (hi : i < 2 ^ l) (e : V roundDouble a b l (i + 1) = V roundDouble a b l' i') (up : ℚ) :
    |corner roundDouble (V roundDouble a b l i) (V roundDouble a b l (i + 1)) n n - corner roundDouble (V roundDouble a b l' i') up n 0|
      ≤ 12 * roundoff * M := by
  have r1 := V_in ha hb hab (l := l) (i := i) (by omega)
  have r2 := V_in ha hb hab (l := l) (i := i + 1) (by omega)
  rw [corner_first (V_short ha hb _ _), ← e]
  generalize V roundDouble a b l i = lo at *
  generalize V roundDouble a b l (i + 1) = hi at *
  have a1 : |lo| ≤ M := by rw [abs_le] at *; constructor <;> linarith [r1.1, r1.2]
  have a2 : |hi| ≤ M := by rw [abs_le] at *; constructor <;> linarith [r2.1, r2.2]
  have := corner_error a1 a2 hn le_rfl hM
  rw [div_self (by exact_mod_cast hn.ne'), mul_one, add_sub_cancel] at this
  rw [mul_assoc]
  exact this

theorem corners_same {a b : ℚ} {D k : Nat} (h : Fits D k a b) {l i l' i' : Nat} (hl : l ≤ D) (hi : i < 2 ^ l) (hl' : l' ≤ D) (hi' : i' < 2 ^ l')
    (e : V roundDouble a b l (i + 1) = V roundDouble a b l' i') :
    corner roundDouble (V roundDouble a b l i) (V roundDouble a b l (i + 1)) (2 ^ k) (2 ^ k)
      = corner roundDouble (V roundDouble a b l' i') (V roundDouble a b l' (i' + 1)) (2 ^ k) 0 := by
  have x := exact_of h hl hi
  have x' := exact_of h hl' hi'
  rw [x.corner _ le_rfl, x'.corner 0 (Nat.zero_le _), Nat.cast_zero, zero_mul, add_zero, ← x'.lower, ← e, x.upper]
  push_cast
  field_simp
  ring

/-- C99, the part that holds: the corners of touching patches are within 12 roundoffs of the size of the coordinates.  Missing: that they are
the same, see `C99_corners_wrong` and `C99_same_partial`. -/
theorem C99_near_partial {p : Patch ℚ} (ha : IsDouble p.grid.xl) (hb : IsDouble p.grid.xu) (hc : IsDouble p.grid.yl) (hd : IsDouble p.grid.yu)
    (hx : p.grid.xl ≤ p.grid.xu) (hy : p.grid.yl ≤ p.grid.yu)
    {M : ℚ} (h1 : |p.grid.xl| ≤ M) (h2 : |p.grid.xu| ≤ M) (h3 : |p.grid.yl| ≤ M) (h4 : |p.grid.yu| ≤ M) (hnx : 0 < p.grid.nx) (hny : 0 < p.grid.ny)
    (hMx : p.grid.nx / 2 ^ 1022 ≤ M) (hMy : p.grid.ny / 2 ^ 1022 ≤ M)
    {F F' : Forest} (hF : F.Sorted) (hF' : F'.Sorted) {r r' : Nat} {b b' : Addr} (hv : b.Valid) (hv' : b'.Valid) {n n' : Node (Patch ℚ)}
    (h : HasNode roundDouble p F r b n) (h' : HasNode roundDouble p F' r' b' n') :
    ((place b).xu = (place b').xl → |corner roundDouble n.data.grid.xl n.data.grid.xu p.grid.nx p.grid.nx
        - corner roundDouble n'.data.grid.xl n'.data.grid.xu p.grid.nx 0| ≤ 12 * roundoff * M) ∧
      ((place b).yu = (place b').yl → |corner roundDouble n.data.grid.yl n.data.grid.yu p.grid.ny p.grid.ny
        - corner roundDouble n'.data.grid.yl n'.data.grid.yu p.grid.ny 0| ≤ 12 * roundoff * M) := by
  obtain ⟨tx, ty, -⟩ := C95_touch hF hF' hv hv' h h'
  rw [(hasNode_grid hF hv h).1, (hasNode_grid hF' hv' h').1] at tx ty ⊢
  exact ⟨fun t => corners_near ha.short hb.short hx h1 h2 hnx hMx (Addr.col_lt hv) (tx t) _,
    fun t => corners_near hc.short hd.short hy h3 h4 hny hMy (Addr.row_lt hv) (ty t) _⟩

/-- C99: and they are the same on domains as in C98. -/
theorem C99_same_partial {p : Patch ℚ} {F : Forest} (hF : F.Sorted) {kx ky : Nat} (hnx : p.grid.nx = 2 ^ kx) (hny : p.grid.ny = 2 ^ ky)
    (hx : Fits F.depth kx p.grid.xl p.grid.xu) (hy : Fits F.depth ky p.grid.yl p.grid.yu)
    {r r' : Nat} {b b' : Addr} (hv : b.Valid) (hv' : b'.Valid) {n n' : Node (Patch ℚ)}
    (h : HasNode roundDouble p F r b n) (h' : HasNode roundDouble p F r' b' n') :
    ((place b).xu = (place b').xl → corner roundDouble n.data.grid.xl n.data.grid.xu p.grid.nx p.grid.nx
        = corner roundDouble n'.data.grid.xl n'.data.grid.xu p.grid.nx 0) ∧
      ((place b).yu = (place b').yl → corner roundDouble n.data.grid.yl n.data.grid.yu p.grid.ny p.grid.ny
        = corner roundDouble n'.data.grid.yl n'.data.grid.yu p.grid.ny 0) := by
  obtain ⟨tx, ty, -⟩ := C95_touch hF hF hv hv' h h'
  obtain ⟨g, hl⟩ := hasNode_grid hF hv h
  obtain ⟨g', hl'⟩ := hasNode_grid hF hv' h'
  rw [g, g'] at tx ty ⊢
  rw [hnx, hny]
  exact ⟨fun t => corners_same hx hl (Addr.col_lt hv) hl' (Addr.col_lt hv') (tx t),
    fun t => corners_same hy hl (Addr.row_lt hv) hl' (Addr.row_lt hv') (ty t)⟩

example := (C99_near_partial exPatch_double.1 exPatch_double.2.1 exPatch_double.2.2.1 exPatch_double.2.2.2.1 exPatch_double.2.2.2.2.1 exPatch_double.2.2.2.2.2
  exPatch_size.1 exPatch_size.2.1 exPatch_size.2.2.1 exPatch_size.2.2.2.1 (by decide) (by decide) exPatch_size.2.2.2.2.1 exPatch_size.2.2.2.2.2
  exForest_sorted exForest_sorted (b := [0]) (b' := [1, 2]) (by unfold Addr.Valid; decide) (by unfold Addr.Valid; decide)
  (hasNode roundDouble exPatch exForest_sorted (r := 0) rfl ⟨by decide, by decide⟩) exNode.choose_spec).1 (by norm_num [place, Addr.rect, Rect.quarter])

end Rounded

end EF
