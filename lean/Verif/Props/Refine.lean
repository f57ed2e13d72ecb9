import Verif.Proofs.Refine
import Verif.Props.Quadtree

/-!
# Property C41: function-driven refinement

`refinedShape` is the tree before balancing, and `T` with `(refinedShape …).BalanceOf M T` the tree `p4est_balance` makes.
-/

namespace EF

variable {K : Type} [Field K] [NeZero (2 : K)]

/-- The callback in terms of cells. -/
theorem callback_centre {M : Nat} {fn : K → K → Bool} {maxLevel : Nat} {g : Grid K} {a : Addr} (ha : a.Valid)
    (hl : a.length ≤ M) :
    refineCallback M fn maxLevel g (a.quad M) = true ↔ a.length < maxLevel ∧ TrueAtCentre fn (gridAt g a) := by
  rw [callback_iff ha hl]
  refine and_congr_right fun _ => ?_
  constructor
  · rintro ⟨i, hi, j, hj, h⟩
    have hi' : i < (gridAt g a).nx := hi
    have hj' : j < (gridAt g a).ny := hj
    exact ⟨_, List.mem_of_getElem? (gridCells_get (gridAt g a) hi' hj'), by rw [centre_cell]; exact h⟩
  · rintro ⟨R, hR, h⟩
    unfold gridCells cellIndices at hR
    simp only [List.mem_map, List.mem_flatMap, List.mem_range] at hR
    obtain ⟨c, ⟨i, hi, j, hj, rfl⟩, rfl⟩ := hR
    rw [centre_cell] at h
    exact ⟨i, hi, j, hj, h⟩

/-- Before balancing: levels are within the limits. -/
theorem refined_levels {M : Nat} {fn : K → K → Bool} {minLevel maxLevel : Nat} {g : Grid K} (hmm : minLevel ≤ maxLevel)
    {a : Addr} (h : (refinedShape M fn minLevel maxLevel g).IsLeaf a) (hM : maxLevel ≤ M) :
    minLevel ≤ a.length ∧ a.length ≤ maxLevel := by
  obtain ⟨h1, -, h3⟩ := Shape.refine_leaf h
  refine ⟨h1, ?_⟩
  have hv := Shape.sub_valid h
  by_contra hc
  obtain ⟨k, e⟩ : ∃ k, a = a.take maxLevel ++ k ∧ k ≠ [] := by
    refine ⟨a.drop maxLevel, (List.take_append_drop _ _).symm, fun h => ?_⟩
    have := congrArg List.length h
    rw [List.length_drop] at this
    simp at this
    omega
  have hlen : (a.take maxLevel).length = maxLevel := by rw [List.length_take]; omega
  have := h3 (a.take maxLevel) k e.1 e.2 (by rw [hlen]; exact hmm)
  have h4 := (callback_centre (a := a.take maxLevel) (fun i hi => hv i (List.mem_of_mem_take hi)) (by omega)).mp this
  omega

/-- C41, levels: in the balanced tree no leaf is shallower than `min_level` or deeper than `max_level`. -/
theorem C41_levels {M : Nat} (fn : K → K → Bool) {minLevel maxLevel : Nat} (g : Grid K) (hmm : minLevel ≤ maxLevel)
    (hM : maxLevel < M) {T : Shape} (hT : (refinedShape M fn minLevel maxLevel g).BalanceOf M T) {a : Addr}
    (ha : T.IsLeaf a) : minLevel ≤ a.length ∧ a.length ≤ maxLevel := by
  constructor
  · by_contra hc
    have hv := Shape.sub_valid ha
    have h1 : ((Shape.uniform minLevel).sub (a ++ [0])).isSome := by
      rw [Shape.uniform_sub (hv.snoc (by omega)) (by simp; omega)]
      rfl
    have h2 := hT.refines _ (Shape.refine_refines M _ _ .root _ h1)
    exact ha.no_child h2
  · have h1 : (refinedShape M fn minLevel maxLevel g).Fits maxLevel := fun b hb => (refined_levels hmm hb hM.le).2
    exact Shape.fits_of_uniform (hT.least _ (Shape.uniform_fits hM.le) (Shape.uniform_refines h1)
      (Shape.uniform_balanced _ _)) a ha

/-- C41, refinement: before balancing, a leaf shallower than `max_level` has no cell centre at which the function is true,
and whatever was refined beyond `min_level` had one. -/
theorem C41_refined {M : Nat} (fn : K → K → Bool) {minLevel maxLevel : Nat} (g : Grid K) (hmm : minLevel ≤ maxLevel)
    (hM : maxLevel < M) {a : Addr} (ha : (refinedShape M fn minLevel maxLevel g).IsLeaf a) :
    (a.length < maxLevel → ¬ TrueAtCentre fn (gridAt g a)) ∧
      ∀ b, b <+: a → b ≠ a → minLevel ≤ b.length → TrueAtCentre fn (gridAt g b) := by
  have hv := Shape.sub_valid ha
  have hle := (refined_levels hmm ha hM.le).2
  obtain ⟨-, h2, h3⟩ := Shape.refine_leaf ha
  constructor
  · intro hl ht
    have := h2 (by show 0 + a.length < M - 1; omega)
    have h4 := (callback_centre (M := M) hv (by omega)).mpr ⟨hl, ht⟩
    unfold Addr.quad at h4
    rw [this] at h4
    cases h4
  · rintro b ⟨c, rfl⟩ hne hb
    have := h3 b c rfl (fun h => hne (by simp [h])) hb
    rw [List.length_append] at hle
    exact ((callback_centre (M := M) (fun i hi => hv i (by simp [hi])) (by omega)).mp this).2

/-- C41, the part that holds after balancing: a leaf shallower than `max_level` that balancing did not make has no cell centre
at which the function is true.  Missing: the leaves made by balancing, see `C41_centres_wrong`. -/
theorem C41_untouched_partial {M : Nat} (fn : K → K → Bool) {minLevel maxLevel : Nat} (g : Grid K)
    (hmm : minLevel ≤ maxLevel) (hM : maxLevel < M) {T : Shape}
    (hT : (refinedShape M fn minLevel maxLevel g).BalanceOf M T) {a : Addr} (ha : T.IsLeaf a) (hl : a.length < maxLevel)
    (ho : ((refinedShape M fn minLevel maxLevel g).sub a).isSome) : ¬ TrueAtCentre fn (gridAt g a) := by
  refine (C41_refined fn g hmm hM ?_).1 hl
  by_contra hc
  exact ha.no_child (hT.refines _ (Shape.sub_of_child ho hc (by omega : 0 < 4)))

/-- C41 for the mesh: after `refineByFunction` every leaf of rank `r` is in its map, at a level within the limits, on the grid
of its part of the domain; unless balancing made it or it has `max_level`, the function is true at none of its centres. -/
theorem C41_mesh_partial {M r : Nat} (fn : K → K → Bool) {minLevel maxLevel : Nat} (p : Patch K)
    (hmm : minLevel ≤ maxLevel) (hM : maxLevel < M) {F : Forest} (hF : F.Sorted)
    (hT : (refinedShape M fn minLevel maxLevel p.grid).BalanceOf M F.shape) (m : Mesh K) :
    ∃ m', Mesh.refineByFunction M r F p FVFactory.factory m = .ok m' ∧
      ∀ a, F.sub a = some (.leaf r) → ∃ n, (m'.quadtree.map.get a.text).1 = some n ∧ n.leaf = true ∧
        n.level = a.length ∧ minLevel ≤ n.level ∧ n.level ≤ maxLevel ∧ n.data.grid = gridAt p.grid a ∧
        (n.level < maxLevel → ((refinedShape M fn minLevel maxLevel p.grid).sub a).isSome →
          ¬ TrueAtCentre fn n.data.grid) := by
  have hd := Forest.shape_fits hT.fits
  obtain ⟨m0, h1, h2⟩ := construct_ok (M := M) r p hd hF
  obtain ⟨q, h3, h4, -⟩ := setMesh_eq hd hF (m := { m with quadtree := ⟨m0, .other⟩ }) h2.rep
  have h5 : Mesh.refineByFunction M r F p FVFactory.factory m
      = Mesh.setMeshFromQuadtree M r F { m with quadtree := ⟨m0, .other⟩ } := by
    unfold Mesh.refineByFunction Quadtree.new
    rw [h1, Res.ok_bind, Res.pure_def, Res.ok_bind]
  refine ⟨_, h5.trans h3, ?_⟩
  · intro a ha
    have hleaf : F.shape.IsLeaf a := Forest.shape_leaf.mpr ⟨r, ha⟩
    have hlev := C41_levels fn p.grid hmm hM hT hleaf
    have he := Rep.start h4 ha
    rw [List.nil_append, Entry, if_pos (show (Forest.leaf r).Spans r from ⟨le_refl _, le_refl _⟩)] at he
    have hg : (startData p a).grid = gridAt p.grid a := by
      unfold startData
      by_cases h0 : a = []
      · subst h0; rfl
      · rw [if_neg h0]; rfl
    refine ⟨_, he, rfl, rfl, Int.ofNat_le.mpr hlev.1, Int.ofNat_le.mpr hlev.2, hg, fun hl ho => ?_⟩
    show ¬ TrueAtCentre fn (startData p a).grid
    rw [hg]
    exact C41_untouched_partial fn p.grid hmm hM hT hleaf (Int.ofNat_lt.mp hl) ho

/-! ## Leaves made by balancing -/

/-- A refinement function that is true at four points of the diagonal. -/
def dots (x y : ℚ) : Bool := x = y && (x = 1 / 2 || x = 3 / 4 || x = 5 / 8 || x = 3 / 8)

/-- The unit square with one cell per leaf. -/
def dotGrid : Grid ℚ := ⟨1, 1, 0, 1, 0, 1⟩

private def four : Shape := .node .leaf .leaf .leaf .leaf

theorem dots_refined : refinedShape 30 dots 0 3 dotGrid
    = .node .leaf .leaf .leaf (.node four .leaf .leaf .leaf) := by decide +kernel

instance (M : Nat) (q q' : Quadrant) : Decidable (q.Touch M q') := inferInstanceAs (Decidable (_ ∧ _))

theorem dots_balanced : (Shape.node four four four (.node four .leaf .leaf .leaf)).Balanced 30 := by
  intro a b ha hb
  have h : ∀ a ∈ (Shape.node four four four (.node four .leaf .leaf .leaf)).leaves,
      ∀ b ∈ (Shape.node four four four (.node four .leaf .leaf .leaf)).leaves,
        (Addr.quad 30 a).Touch 30 (Addr.quad 30 b) → b.length ≤ a.length + 1 := by decide +kernel
  exact h a (Shape.mem_leaves ha) b (Shape.mem_leaves hb)

/-- C41 is false as stated: balancing makes leaves the refinement function is not asked about.  Here one of them lies below
`max_level` and the function is true at its centre. -/
theorem C41_centres_wrong :
    ¬ ∀ (fn : ℚ → ℚ → Bool) (minLevel maxLevel : Nat) (g : Grid ℚ) (T : Shape) (a : Addr), minLevel ≤ maxLevel →
      maxLevel < 30 → (refinedShape 30 fn minLevel maxLevel g).BalanceOf 30 T → T.IsLeaf a → a.length < maxLevel →
      ¬ TrueAtCentre fn (gridAt g a) := by
  intro H
  have hfit : (refinedShape 30 dots 0 3 dotGrid).Fits 30 :=
    fun b hb => (refined_levels (by omega) hb (by omega)).2.trans (by omega)
  obtain ⟨T, hT⟩ := Shape.balance_exists hfit
  have hn : (T.sub [3, 0, 0]).isSome := hT.refines _ (by rw [dots_refined]; rfl)
  have h0 : (T.sub [0]).isSome := hT.refines _ (by rw [dots_refined]; rfl)
  have h1 : ¬ T.IsLeaf [0] := fun h => by
    have := hT.balanced.node hT.fits h hn (by decide +kernel)
    simp at this
  have h2 := Shape.sub_of_child h0 h1 (by omega : 3 < 4)
  have h3 : (Shape.node four four four (.node four .leaf .leaf .leaf)).Refines T := by
    refine hT.least _ (fun b hb => ?_) (Shape.refines_of_meet ?_) dots_balanced
    · have h : ∀ b ∈ (Shape.node four four four (.node four .leaf .leaf .leaf)).leaves, b.length ≤ 30 := by decide +kernel
      exact h b (Shape.mem_leaves hb)
    · rw [dots_refined]
      rfl
  have h4 : T.IsLeaf [0, 3] := by
    rw [Shape.isLeaf_iff]
    refine ⟨h2, fun h => ?_⟩
    have := h3 _ h
    revert this
    decide
  refine H dots 0 3 dotGrid T [0, 3] (by omega) (by omega) hT h4 (by decide) ?_
  exact ⟨⟨1 / 4, 1 / 2, 1 / 4, 1 / 2⟩, by decide +kernel, by decide +kernel⟩

/-- The contract of balancing can be met for every refinement function. -/
example (fn : ℚ → ℚ → Bool) (g : Grid ℚ) : ∃ T, (refinedShape 30 fn 1 4 g).BalanceOf 30 T ∧
    ∀ a, T.IsLeaf a → 1 ≤ a.length ∧ a.length ≤ 4 := by
  have hfit : (refinedShape 30 fn 1 4 g).Fits 30 :=
    fun b hb => (refined_levels (by omega) hb (by omega)).2.trans (by omega)
  obtain ⟨T, hT⟩ := Shape.balance_exists hfit
  exact ⟨T, hT, fun a => C41_levels fn g (by omega) (by omega) hT⟩

end EF
