import Verif.Proofs.Memory
import Verif.Props.ParallelHPS

/-!
# Sizes of the operators and vectors of a solved tree
-/

namespace EF

/-- Two trees of the same shape, their leaves related by one relation, their branches by another. -/
def Related {P : Type} (ρL ρB : P → P → Prop) : Tree P → Tree P → Prop
  | .leaf p, .leaf q => ρL p q
  | .node p c0 c1 c2 c3, .node q d0 d1 d2 d3 =>
    ρB p q ∧ Related ρL ρB c0 d0 ∧ Related ρL ρB c1 d1 ∧ Related ρL ρB c2 d2 ∧ Related ρL ρB c3 d3
  | _, _ => False

/-- All leaves satisfy one predicate, all branches another. -/
def Every {P : Type} (PL PB : P → Prop) : Tree P → Prop
  | .leaf p => PL p
  | .node p c0 c1 c2 c3 => PB p ∧ Every PL PB c0 ∧ Every PL PB c1 ∧ Every PL PB c2 ∧ Every PL PB c3

section
variable {P σ : Type} {ρL ρB κ : P → P → Prop}

theorem Related.setVal {t t' : Tree P} (h : Related ρL ρB t t') {q : P} (hL : ∀ p q r, ρL p q → κ q r → ρL p r)
    (hB : ∀ p q r, ρB p q → κ q r → ρB p r) (hq : κ t'.val q) : Related ρL ρB t (t'.setVal q) := by
  cases t with
  | leaf p =>
    cases t' with
    | leaf p' => exact hL _ _ _ h hq
    | node => exact absurd h id
  | node p c0 c1 c2 c3 =>
    cases t' with
    | leaf p' => exact absurd h id
    | node => exact ⟨hB _ _ _ h.1 hq, h.2⟩

/-- A family after a step: the parent related by `ρB`, the children by `κ`. -/
def FamRel (ρB κ : P → P → Prop) (F G : Fam P) : Prop := ρB F.tau G.tau ∧ κ F.a G.a ∧ κ F.b G.b ∧ κ F.c G.c ∧ κ F.d G.d

theorem Related.mergeSt {leafF : P → σ → Res (P × σ)} {famF : Fam P → Res (Fam P)} (hl : ∀ p s x, leafF p s = .ok x → ρL p x.1)
    (hf : ∀ F G, famF F = .ok G → FamRel ρB κ F G) (hL : ∀ p q r, ρL p q → κ q r → ρL p r) (hB : ∀ p q r, ρB p q → κ q r → ρB p r)
    (t : Tree P) {s : σ} {x : Tree P × σ} (h : t.mergeSt leafF famF s = .ok x) : Related ρL ρB t x.1 := by
  induction t generalizing s x with
  | leaf p =>
    simp only [Tree.mergeSt, Res.bind_eq_ok, Res.pure_def, Res.ok_inj] at h
    obtain ⟨y, h1, rfl⟩ := h
    exact hl _ _ _ h1
  | node p c0 c1 c2 c3 i0 i1 i2 i3 =>
    simp only [Tree.mergeSt, Res.bind_eq_ok, Res.pure_def, Res.ok_inj] at h
    obtain ⟨x0, h0, x1, h1, x2, h2, x3, h3, G, hG, rfl⟩ := h
    obtain ⟨g0, g1, g2, g3, g4⟩ := hf _ _ hG
    exact ⟨g0, (i0 h0).setVal hL hB g1, (i1 h1).setVal hL hB g2, (i2 h2).setVal hL hB g3, (i3 h3).setVal hL hB g4⟩

theorem Related.merge {leafF : P → Res P} {famF : Fam P → Res (Fam P)} (hl : ∀ p q, leafF p = .ok q → ρL p q)
    (hf : ∀ F G, famF F = .ok G → FamRel ρB κ F G) (hL : ∀ p q r, ρL p q → κ q r → ρL p r) (hB : ∀ p q r, ρB p q → κ q r → ρB p r)
    (t : Tree P) {t' : Tree P} (h : t.merge leafF famF = .ok t') : Related ρL ρB t t' := by
  induction t generalizing t' with
  | leaf p =>
    simp only [Tree.merge, Res.bind_eq_ok, Res.pure_def, Res.ok_inj] at h
    obtain ⟨y, h1, rfl⟩ := h
    exact hl _ _ h1
  | node p c0 c1 c2 c3 i0 i1 i2 i3 =>
    simp only [Tree.merge, Res.bind_eq_ok, Res.pure_def, Res.ok_inj] at h
    obtain ⟨x0, h0, x1, h1, x2, h2, x3, h3, G, hG, rfl⟩ := h
    obtain ⟨g0, g1, g2, g3, g4⟩ := hf _ _ hG
    exact ⟨g0, (i0 h0).setVal hL hB g1, (i1 h1).setVal hL hB g2, (i2 h2).setVal hL hB g3, (i3 h3).setVal hL hB g4⟩

theorem Related.split {leafF : P → Res P} {famF : Fam P → Res (Fam P)} (hl : ∀ p q, leafF p = .ok q → ρL p q)
    (hf : ∀ F G, famF F = .ok G → FamRel ρB κ F G) (hL : ∀ p q r, κ p q → ρL q r → ρL p r) (hB : ∀ p q r, κ p q → ρB q r → ρB p r)
    (t : Tree P) {t' : Tree P} {q : P} (hq : κ t.val q) (h : t.splitFrom leafF famF q = .ok t') : Related ρL ρB t t' := by
  induction t generalizing t' q with
  | leaf p =>
    simp only [Tree.splitFrom, Res.bind_eq_ok, Res.pure_def, Res.ok_inj] at h
    obtain ⟨y, h1, rfl⟩ := h
    exact hL _ _ _ hq (hl _ _ h1)
  | node p c0 c1 c2 c3 i0 i1 i2 i3 =>
    simp only [Tree.splitFrom, Res.bind_eq_ok, Res.pure_def, Res.ok_inj] at h
    obtain ⟨G, hG, x0, h0, x1, h1, x2, h2, x3, h3, rfl⟩ := h
    obtain ⟨g0, g1, g2, g3, g4⟩ := hf _ _ hG
    exact ⟨hB _ _ _ hq g0, i0 g1 h0, i1 g2 h1, i2 g3 h2, i3 g4 h3⟩

theorem Every.related {PL PB PL' PB' : P → Prop} {t t' : Tree P} (h : Every PL PB t) (hr : Related ρL ρB t t')
    (hL : ∀ p q, PL p → ρL p q → PL' q) (hB : ∀ p q, PB p → ρB p q → PB' q) : Every PL' PB' t' := by
  induction t generalizing t' with
  | leaf p =>
    cases t' with
    | leaf q => exact hL _ _ h hr
    | node => exact absurd hr id
  | node p c0 c1 c2 c3 i0 i1 i2 i3 =>
    cases t' with
    | leaf => exact absurd hr id
    | node q d0 d1 d2 d3 =>
      obtain ⟨a, a0, a1, a2, a3⟩ := h
      obtain ⟨b, b0, b1, b2, b3⟩ := hr
      exact ⟨hB _ _ a b, i0 a0 b0, i1 a1 b1, i2 a2 b2, i3 a3 b3⟩

theorem Every.and {PL PB PL' PB' : P → Prop} {t : Tree P} (h : Every PL PB t) (h' : Every PL' PB' t) :
    Every (fun p => PL p ∧ PL' p) (fun p => PB p ∧ PB' p) t := by
  induction t with
  | leaf p => exact ⟨h, h'⟩
  | node p c0 c1 c2 c3 i0 i1 i2 i3 =>
    obtain ⟨a, a0, a1, a2, a3⟩ := h
    obtain ⟨b, b0, b1, b2, b3⟩ := h'
    exact ⟨⟨a, b⟩, i0 a0 b0, i1 a1 b1, i2 a2 b2, i3 a3 b3⟩

theorem Every.imp {PL PB PL' PB' : P → Prop} {t : Tree P} (h : Every PL PB t) (hL : ∀ p, PL p → PL' p) (hB : ∀ p, PB p → PB' p) :
    Every PL' PB' t := by
  induction t with
  | leaf p => exact hL _ h
  | node p c0 c1 c2 c3 i0 i1 i2 i3 =>
    obtain ⟨a, a0, a1, a2, a3⟩ := h
    exact ⟨hB _ a, i0 a0, i1 a1, i2 a2, i3 a3⟩

end

namespace HPS

variable {K : Type} [Field K] {N : Nat} {LP : Grid K → Blk K → Prop}

/-! ### What the stages leave alone -/

/-- The vectors of a patch. -/
def SameVecs (p q : Patch K) : Prop := q.u = p.u ∧ q.g = p.g ∧ q.v = p.v ∧ q.f = p.f ∧ q.h = p.h ∧ q.w = p.w

/-- Interface operators and vectors of a patch. -/
def SameIface (p q : Patch K) : Prop := (q.X = p.X ∧ q.H = p.H ∧ q.S = p.S) ∧ SameVecs p q

omit [Field K] in
theorem SameVecs.trans (p q r : Patch K) (h : SameVecs p q) (h' : SameVecs q r) : SameVecs p r := by
  obtain ⟨a, b, c, d, e, f⟩ := h
  obtain ⟨a', b', c', d', e', f'⟩ := h'
  exact ⟨a'.trans a, b'.trans b, c'.trans c, d'.trans d, e'.trans e, f'.trans f⟩

omit [Field K] in
theorem SameIface.trans (p q r : Patch K) (h : SameIface p q) (h' : SameIface q r) : SameIface p r := by
  obtain ⟨⟨a, b, c⟩, d⟩ := h
  obtain ⟨⟨a', b', c'⟩, d'⟩ := h'
  exact ⟨⟨a'.trans a, b'.trans b, c'.trans c⟩, d.trans _ _ _ d'⟩

omit [Field K] in
theorem SameIface.refl (p : Patch K) : SameIface p p := ⟨⟨rfl, rfl, rfl⟩, rfl, rfl, rfl, rfl, rfl, rfl⟩

theorem coarsenPatch_iface {t : Nat} {p q : Patch K} (h : coarsenPatch t p = .ok q) : SameIface p q := by
  refine forN_inv SameIface SameIface.refl SameIface.trans (fun i s s' hs => ?_) h
  unfold coarsenStep at hs
  simp only [Res.bind_eq_ok, Res.pure_def, Res.ok_inj] at hs
  obtain ⟨_, _, _, _, _, _, _, _, _, _, _, _, rfl⟩ := hs
  exact SameIface.refl s

theorem merge4to1_iface {lap : Lapack K} (F G : Fam (Patch K)) (h : merge4to1 lap F = .ok G) : FamRel SameVecs SameIface F G := by
  unfold merge4to1 at h
  simp only [Res.bind_eq_ok, Res.pure_def, Res.ok_inj] at h
  obtain ⟨F1, h1, _, _, _, _, _, _, _, _, _, _, _, _, rfl⟩ := h
  unfold coarsen at h1
  simp only [Res.bind_eq_ok, Res.pure_def, Res.ok_inj] at h1
  obtain ⟨_, _, a, ha, b, hb, c, hc, d, hd, rfl⟩ := h1
  exact ⟨⟨rfl, rfl, rfl, rfl, rfl, rfl⟩, coarsenPatch_iface ha, coarsenPatch_iface hb, coarsenPatch_iface hc, coarsenPatch_iface hd⟩

theorem buildLeaf_iface {ps : PatchSolver K} {opt : HPSOptions} (p : Patch K) (c : Option (Mat K)) (x : Patch K × Option (Mat K))
    (h : buildLeaf ps opt p c = .ok x) : SameIface p x.1 := by
  unfold buildLeaf at h
  split at h
  · split at h
    · rw [← Res.ok_inj.mp h]
      exact SameIface.refl p
    · simp only [Res.bind_eq_ok, Res.pure_def, Res.ok_inj] at h
      obtain ⟨_, _, rfl⟩ := h
      exact SameIface.refl p
  · simp only [Res.bind_eq_ok, Res.pure_def, Res.ok_inj] at h
    obtain ⟨_, _, rfl⟩ := h
    exact SameIface.refl p

/-- The build stage leaves the vectors alone, and the interface operators of leaves. -/
theorem buildStage_related {lap : Lapack K} {ps : PatchSolver K} {opt : HPSOptions} {t : Tree (Patch K)} {c : Option (Mat K)}
    {x : Tree (Patch K) × Option (Mat K)} (h : buildStage lap ps opt t c = .ok x) : Related SameIface SameVecs t x.1 :=
  Related.mergeSt buildLeaf_iface merge4to1_iface SameIface.trans (fun _ _ _ a b => a.trans _ _ _ b.2) t h

/-- Everything but the flux of a patch. -/
def ButH (p q : Patch K) : Prop := SameOps p q ∧ q.u = p.u ∧ q.g = p.g ∧ q.v = p.v ∧ q.f = p.f ∧ q.w = p.w

/-- What the upwards stage leaves alone at a leaf. -/
def UpLeaf (p q : Patch K) : Prop := (q.X = p.X ∧ q.H = p.H ∧ q.S = p.S) ∧ q.u = p.u ∧ q.g = p.g ∧ q.v = p.v ∧ q.w = p.w

/-- What the upwards stage leaves alone at a branch. -/
def UpBranch (p q : Patch K) : Prop := q.u = p.u ∧ q.g = p.g ∧ q.v = p.v ∧ q.f = p.f

omit [Field K] in
theorem ButH.refl (p : Patch K) : ButH p p := ⟨⟨rfl, rfl, rfl, rfl, rfl, rfl⟩, rfl, rfl, rfl, rfl, rfl⟩

omit [Field K] in
theorem ButH.trans (p q r : Patch K) (h : ButH p q) (h' : ButH q r) : ButH p r := by
  obtain ⟨⟨a, b, c, d, e, f⟩, g, i, j, k, l⟩ := h
  obtain ⟨⟨a', b', c', d', e', f'⟩, g', i', j', k', l'⟩ := h'
  exact ⟨⟨a'.trans a, b'.trans b, c'.trans c, d'.trans d, e'.trans e, f'.trans f⟩, g'.trans g, i'.trans i, j'.trans j, k'.trans k, l'.trans l⟩

theorem coarsenUpPatch_butH {p q : Patch K} (h : coarsenUpPatch p = .ok q) : ButH p q := by
  refine forN_inv ButH ButH.refl ButH.trans (fun i s s' hs => ?_) h
  unfold coarsenUpStep at hs
  simp only [Res.bind_eq_ok, Res.pure_def, Res.ok_inj] at hs
  obtain ⟨_, _, _, _, _, h1, rfl⟩ := hs
  exact ⟨⟨rfl, rfl, rfl, rfl, rfl, rfl⟩, rfl, rfl, rfl, rfl, rfl⟩

theorem upwards4to1_butH {lap : Lapack K} {opt : HPSOptions} (F G : Fam (Patch K)) (h : upwards4to1 lap opt F = .ok G) :
    FamRel UpBranch ButH F G := by
  unfold upwards4to1 at h
  split at h
  · rw [← Res.ok_inj.mp h]
    exact ⟨⟨rfl, rfl, rfl, rfl⟩, .refl _, .refl _, .refl _, .refl _⟩
  · simp only [Res.bind_eq_ok, Res.pure_def, Res.ok_inj] at h
    obtain ⟨F1, h1, _, _, _, _, _, _, w, hw, h, _, h', hh, rfl⟩ := h
    unfold coarsenUp at h1
    simp only [Res.bind_eq_ok, Res.pure_def, Res.ok_inj] at h1
    obtain ⟨a, ha, b, hb, c, hc, d, hd, rfl⟩ := h1
    exact ⟨⟨rfl, rfl, rfl, rfl⟩, coarsenUpPatch_butH ha, coarsenUpPatch_butH hb, coarsenUpPatch_butH hc, coarsenUpPatch_butH hd⟩

theorem upwardsStage_related {lap : Lapack K} {ps : PatchSolver K} {opt : HPSOptions} {φ : Grid K → Vec K} {t t' : Tree (Patch K)}
    (h : upwardsStage lap ps opt (fun p => .ok { p with f := φ p.grid }) t = .ok t') : Related UpLeaf UpBranch t t' := by
  refine Related.merge (κ := ButH) (fun p q hp => ?_) upwards4to1_butH (fun p q r a b => ?_) (fun p q r a b => ?_) t h
  · unfold upwardsLeaf at hp
    simp only [Res.bind_eq_ok, Res.pure_def, Res.ok_inj] at hp
    obtain ⟨p1, rfl, h', h2, rfl⟩ := hp
    exact ⟨⟨rfl, rfl, rfl⟩, rfl, rfl, rfl, rfl⟩
  · obtain ⟨⟨a1, a2, a3⟩, a4, a5, a6, a7⟩ := a
    obtain ⟨⟨-, -, c, d, e, -⟩, g, i, j, -, l⟩ := b
    exact ⟨⟨c.trans a1, d.trans a2, e.trans a3⟩, g.trans a4, i.trans a5, j.trans a6, l.trans a7⟩
  · obtain ⟨a4, a5, a6, a7⟩ := a
    obtain ⟨-, g, i, j, k, -⟩ := b
    exact ⟨g.trans a4, i.trans a5, j.trans a6, k.trans a7⟩

/-- Everything but the Dirichlet data of a patch. -/
def ButG (p q : Patch K) : Prop := SameOps p q ∧ q.u = p.u ∧ q.v = p.v ∧ q.f = p.f ∧ q.h = p.h ∧ q.w = p.w

/-- Everything but Dirichlet data and solution. -/
def ButGU (p q : Patch K) : Prop := SameOps p q ∧ q.v = p.v ∧ q.f = p.f ∧ q.h = p.h ∧ q.w = p.w

omit [Field K] in
theorem ButG.refl (p : Patch K) : ButG p p := ⟨⟨rfl, rfl, rfl, rfl, rfl, rfl⟩, rfl, rfl, rfl, rfl, rfl⟩

omit [Field K] in
theorem ButG.trans (p q r : Patch K) (h : ButG p q) (h' : ButG q r) : ButG p r := by
  obtain ⟨⟨a, b, c, d, e, f⟩, g, i, j, k, l⟩ := h
  obtain ⟨⟨a', b', c', d', e', f'⟩, g', i', j', k', l'⟩ := h'
  exact ⟨⟨a'.trans a, b'.trans b, c'.trans c, d'.trans d, e'.trans e, f'.trans f⟩, g'.trans g, i'.trans i, j'.trans j, k'.trans k, l'.trans l⟩

theorem uncoarsen_butG {p q : Patch K} (h : uncoarsen p = .ok q) : ButG p q := by
  refine forN_inv ButG ButG.refl ButG.trans (fun i s s' hs => ?_) h
  unfold uncoarsenStep at hs
  simp only [Res.bind_eq_ok, Res.pure_def, Res.ok_inj] at hs
  obtain ⟨_, _, _, _, _, h1, rfl⟩ := hs
  exact ⟨⟨rfl, rfl, rfl, rfl, rfl, rfl⟩, rfl, rfl, rfl, rfl, rfl⟩

theorem split1to4_butG {opt : HPSOptions} (F G : Fam (Patch K)) (h : split1to4 opt F = .ok G) : FamRel ButG ButG F G := by
  unfold split1to4 at h
  simp only [Res.bind_eq_ok] at h
  obtain ⟨t, ht, h1⟩ := h
  unfold applyS at h1
  simp only [Res.bind_eq_ok, Res.pure_def, Res.ok_inj] at h1
  obtain ⟨_, _, _, _, _, _, _, _, _, _, _, _, _, _, _, _, _, _, _, _, _, _, _, _, _, _, ga, ha, gb, hb, gc, hc, gd, hd, rfl⟩ := h1
  have k : ∀ (p : Patch K) (g : Vec K), ButG p { p with g := g } := fun p g => ⟨⟨rfl, rfl, rfl, rfl, rfl, rfl⟩, rfl, rfl, rfl, rfl, rfl⟩
  exact ⟨uncoarsen_butG ht, k _ _, k _ _, k _ _, k _ _⟩

theorem solveStage_related {ps : PatchSolver K} {opt : HPSOptions} (ho : opt.homogeneousRhs = false) {γ : Vec K} {t t' : Tree (Patch K)}
    (h : solveStage ps opt (fun p => .ok { p with g := γ }) t = .ok t') : Related ButGU ButG t t' := by
  unfold solveStage at h
  simp only [Res.ok_bind] at h
  have hk : ButG t.val { t.val with g := γ } := ⟨⟨rfl, rfl, rfl, rfl, rfl, rfl⟩, rfl, rfl, rfl, rfl, rfl⟩
  refine Related.split (κ := ButG) (fun p q hp => ?_) split1to4_butG (fun p q r a b => ?_) ButG.trans t hk h
  · unfold leafSolve at hp
    rw [ho] at hp
    simp only [Bool.false_eq_true, if_false, Res.bind_eq_ok, Res.pure_def, Res.ok_inj] at hp
    obtain ⟨u, _, rfl⟩ := hp
    exact ⟨⟨rfl, rfl, rfl, rfl, rfl, rfl⟩, rfl, rfl, rfl, rfl⟩
  · obtain ⟨⟨a1, a2, a3, a4, a5, a6⟩, -, a8, a9, a10, a11⟩ := a
    obtain ⟨⟨b1, b2, b3, b4, b5, b6⟩, b8, b9, b10, b11⟩ := b
    exact ⟨⟨b1.trans a1, b2.trans a2, b3.trans a3, b4.trans a4, b5.trans a5, b6.trans a6⟩, b8.trans a8, b9.trans a9, b10.trans a10, b11.trans a11⟩

/-! ### Sizes -/

/-- A matrix without entries. -/
def NoMat (A : Mat K) : Prop := A.nrows = 0 ∧ A.ncols = 0

/-- The sizes of a matrix. -/
def Dims (A : Mat K) (r c : Nat) : Prop := A.nrows = r ∧ A.ncols = c

/-- A leaf that has not been used. -/
def FreshLeaf (p : Patch K) : Prop := (NoMat p.X ∧ NoMat p.H ∧ NoMat p.S) ∧ p.v.size = 0 ∧ p.w.size = 0

/-- A branch that has not been used. -/
def FreshBranch (p : Patch K) : Prop := p.u.size = 0 ∧ p.v.size = 0 ∧ p.f.size = 0

/-- Sizes at a leaf that the upwards stage establishes. -/
def UpdLeaf (N : Nat) (p : Patch K) : Prop :=
  (p.nCoarsens = 0 ∧ p.grid.nx = N ∧ p.grid.ny = N) ∧ Dims p.T (4 * N) (4 * N) ∧ p.f.size = N * N ∧ p.h.size = 4 * N

/-- Sizes at a branch that the upwards stage establishes. -/
def UpdBranch (p : Patch K) : Prop :=
  (p.grid.ny = p.grid.nx ∧ p.grid.nx = p.size * 2 ^ p.nCoarsens) ∧
  (Dims p.X (2 * p.grid.nx) (2 * p.grid.nx) ∧ Dims p.H (4 * p.grid.nx) (2 * p.grid.nx) ∧ Dims p.S (2 * p.grid.nx) (4 * p.grid.nx) ∧
    Dims p.T (4 * p.size) (4 * p.size)) ∧ p.h.size = 4 * p.size ∧ p.w.size = 2 * p.grid.nx

theorem Upd.sizes {HP : Grid K → Vec K → (Nat → Nat → K) → Prop} (hHP : ∀ grid f h, HP grid f h → f.size = N * N)
    {t : Tree (Patch K)} {R : Rect K} {k m : Nat} {T : Blk K} {h : Nat → Nat → K} (hu : Upd N LP HP false t R k m T h)
    (hh : t.val.h.size = 4 * m) : Every (UpdLeaf N) UpdBranch t := by
  induction hu with
  | @leaf p R T h hk hx hy hR hT hL hf h0 =>
    refine ⟨⟨hk, hx, hy⟩, ?_, hHP _ _ _ (hf rfl), hh⟩
    rw [hT]
    exact ⟨rfl, rfl⟩
  | @node p R c0 c1 c2 c3 n k m k0 k1 k2 k3 T0 T1 T2 T3 S TT f0 f1 f2 f3 w hh' h0 h1 h2 h3 hTT hhh hz hn hm hN h3m hk
      hx hy hR hX hH hS hSol hT hw hW hw0 hch i0 i1 i2 i3 =>
    obtain ⟨e0, e1, e2, e3⟩ := hch rfl
    have hs : p.size = m := size_eq hk (by rw [hx, hm])
    refine ⟨⟨⟨by rw [hx, hy], by rw [hs, hk, hx, hm]⟩, ⟨?_, ?_, ?_, ?_⟩, by rw [hs]; exact hh, ?_⟩, i0 ?_, i1 ?_, i2 ?_, i3 ?_⟩
    · rw [hX, hx]; exact ⟨show 4 * n = _ by omega, show 4 * n = _ by omega⟩
    · rw [hH, hx]; exact ⟨show 8 * n = _ by omega, show 4 * n = _ by omega⟩
    · rw [hS, hx]; exact ⟨show 4 * n = _ by omega, show 8 * n = _ by omega⟩
    · rw [hT, hs]; exact ⟨rfl, rfl⟩
    · rw [hw rfl, hx]; exact show 4 * n = _ by omega
    · rw [e0]; rfl
    · rw [e1]; rfl
    · rw [e2]; rfl
    · rw [e3]; rfl

/-- Side lengths in a tree: those of the four children of a branch are equal after coarsening, the branch has twice as many cells per
side, and some child has not been coarsened. -/
def Sides (N : Nat) : Tree (Patch K) → Prop
  | .leaf p => p.nCoarsens = 0 ∧ p.grid.nx = N
  | .node p c0 c1 c2 c3 => (∃ n, 0 < n ∧ p.grid.nx = 2 * n ∧
      (∀ c ∈ [c0.val, c1.val, c2.val, c3.val], c.grid.nx = n * 2 ^ c.nCoarsens) ∧
      ∃ c ∈ [c0.val, c1.val, c2.val, c3.val], c.nCoarsens = 0) ∧ Sides N c0 ∧ Sides N c1 ∧ Sides N c2 ∧ Sides N c3

/-- Sizes at a leaf that the solve stage establishes. -/
def SlvLeaf (N : Nat) (p : Patch K) : Prop := p.g.size = 4 * N ∧ p.u.size = N * N

/-- Sizes at a branch that the solve stage establishes. -/
def SlvBranch (p : Patch K) : Prop := p.g.size = 4 * p.grid.nx

theorem Slv.sizes {HP : Grid K → Vec K → (Nat → Nat → K) → Prop} {UP : Grid K → (Nat → Nat → K) → Vec K → Vec K → Prop}
    (hUP : ∀ (grid : Grid K) g f u h, grid.nx = N → grid.ny = N → HP grid f h → UP grid g f u → u.size = N * N)
    {t : Tree (Patch K)} {R : Rect K} {k m : Nat} {T : Blk K} {h g : Nat → Nat → K} (hu : Slv N LP HP UP t R k m T h g) :
    Every (SlvLeaf N) SlvBranch t ∧ Sides N t ∧ t.val.nCoarsens = k ∧ t.val.grid.nx = m * 2 ^ k := by
  induction hu with
  | @leaf p R T h g hk hx hy hR hT hL hh hg hu =>
    refine ⟨⟨by rw [hg]; rfl, hUP _ _ _ _ _ hx hy hh hu⟩, ⟨hk, hx⟩, hk, by simpa [Tree.val] using hx⟩
  | @node p R c0 c1 c2 c3 n k m k0 k1 k2 k3 T0 T1 T2 T3 S TT f0 f1 f2 f3 w g G u hh' h0 h1 h2 h3 hTT hhh hz hn hm hN h3m hk
      hx hy hR hX hSol hW hG hu hg i0 i1 i2 i3 =>
    obtain ⟨a0, b0, d0, e0⟩ := i0
    obtain ⟨a1, b1, d1, e1⟩ := i1
    obtain ⟨a2, b2, d2, e2⟩ := i2
    obtain ⟨a3, b3, d3, e3⟩ := i3
    refine ⟨⟨?_, a0, a1, a2, a3⟩, ⟨⟨n, hn, hx, ?_, ?_⟩, b0, b1, b2, b3⟩, hk, by rw [hm]; exact hx⟩
    · show p.g.size = _
      rw [hg, hx, hm]; rfl
    · simp only [List.mem_cons, List.not_mem_nil, or_false]
      rintro c (rfl | rfl | rfl | rfl)
      · rw [e0, d0]
      · rw [e1, d1]
      · rw [e2, d2]
      · rw [e3, d3]
    · rcases hz with rfl | rfl | rfl | rfl
      · exact ⟨c0.val, by simp, d0⟩
      · exact ⟨c1.val, by simp, d1⟩
      · exact ⟨c2.val, by simp, d2⟩
      · exact ⟨c3.val, by simp, d3⟩

/-- What a leaf keeps after the three stages. -/
structure LeafKept (N : Nat) (p : Patch K) : Prop where
  nc : p.nCoarsens = 0
  nx : p.grid.nx = N
  ny : p.grid.ny = N
  X : NoMat p.X
  H : NoMat p.H
  S : NoMat p.S
  T : Dims p.T (4 * N) (4 * N)
  u : p.u.size = N * N
  g : p.g.size = 4 * N
  v : p.v.size = 0
  f : p.f.size = N * N
  h : p.h.size = 4 * N
  w : p.w.size = 0

/-- What a branch keeps after the three stages. -/
structure BranchKept (p : Patch K) : Prop where
  ny : p.grid.ny = p.grid.nx
  size : p.grid.nx = p.size * 2 ^ p.nCoarsens
  X : Dims p.X (2 * p.grid.nx) (2 * p.grid.nx)
  H : Dims p.H (4 * p.grid.nx) (2 * p.grid.nx)
  S : Dims p.S (2 * p.grid.nx) (4 * p.grid.nx)
  T : Dims p.T (4 * p.size) (4 * p.size)
  u : p.u.size = 0
  g : p.g.size = 4 * p.grid.nx
  v : p.v.size = 0
  f : p.f.size = 0
  h : p.h.size = 4 * p.size
  w : p.w.size = 2 * p.grid.nx

/-- The serial run with functions and all the sizes it leaves. -/
theorem serial_kept [NeZero (2 : K)] (lap : Lapack K) {ps : PatchSolver K} (hN : 0 < N)
    (hs : SolverShapes N ps) {opt : HPSOptions} (ho : opt.homogeneousRhs = false) {t : Tree (Patch K)} {R : Rect K}
    (ht : Init N t R) (h3 : 3 ≤ N ∨ ∃ d, Uniform d t) (h0 : Every FreshLeaf FreshBranch t) (f : K → K → K) (bc : BoundaryFn K) :
    ∃ t1 c1 t3, buildStage lap ps opt t none = .ok (t1, c1) ∧ (Request.functions f bc).run lap ps opt t1 = .ok t3 ∧
      t3.shape = t.shape ∧ Every (LeafKept N) BranchKept t3 ∧ Sides N t3 ∧ t3.val.nCoarsens = 0 := by
  obtain ⟨t1, c1, m, T, e1, b1, _, s1, _⟩ := buildStage_any lap hs opt hN ht h3 no_cache
  obtain ⟨φ, f1, f2⟩ := sampleLoad_fn f
  obtain ⟨t2, h, e2, u2, v2, _, s2⟩ := upwardsStage_ok' (HP := HP0 N) lap hs opt
    (rhs := fun p => .ok { p with f := φ p.grid }) (φ := φ)
    ⟨fun _ => rfl, fun grid hx hy => by have := f2 grid; rwa [hx, hy] at this⟩ (fun grid f h e a b _ => ⟨a, b⟩) b1
  have hr := u2.built.root
  simp only [pow_zero, mul_one, crsN] at hr
  have hm : 0 < m := by
    obtain ⟨j, hj⟩ := hr.2.2.2.2.2
    rw [hj]; positivity
  have hv := v2 ho
  simp only [pow_zero, mul_one] at hv
  obtain ⟨γ, g1, _⟩ := rootDirichlet_ok lap bc hm hr.2.1 hr.2.2.2.2.1 hv
  obtain ⟨t3, e3, v3, s3⟩ := solveStage_ok hs opt (m := m) (bdry := fun p => .ok { p with g := Vec.ofFn (4 * m) γ })
    (γ := fun _ => Vec.ofFn (4 * m) γ) ⟨fun _ => rfl, fun _ _ _ => ⟨rfl, (Vec.has_ofFn _ _).2.1⟩⟩
    (fun _ _ _ h => h) (fun h => by rw [ho] at h; cases h) u2
  have r1 := buildStage_related e1
  have r2 := upwardsStage_related e2
  have r3 := solveStage_related ho e3
  have k1 : Every FreshLeaf FreshBranch t1 := h0.related r1
    (fun p q a b => by
      obtain ⟨⟨a1, a2, a3⟩, a4, a5⟩ := a
      obtain ⟨⟨b1, b2, b3⟩, -, -, b6, -, -, b9⟩ := b
      exact ⟨⟨by rw [b1]; exact a1, by rw [b2]; exact a2, by rw [b3]; exact a3⟩, by rw [b6]; exact a4, by rw [b9]; exact a5⟩)
    (fun p q a b => by
      obtain ⟨a1, a2, a3⟩ := a
      obtain ⟨b4, -, b6, b7, -, -⟩ := b
      exact ⟨by rw [b4]; exact a1, by rw [b6]; exact a2, by rw [b7]; exact a3⟩)
  have k2 : Every FreshLeaf FreshBranch t2 := k1.related r2
    (fun p q a b => by
      obtain ⟨⟨a1, a2, a3⟩, a4, a5⟩ := a
      obtain ⟨⟨b1, b2, b3⟩, -, -, b6, b9⟩ := b
      exact ⟨⟨by rw [b1]; exact a1, by rw [b2]; exact a2, by rw [b3]; exact a3⟩, by rw [b6]; exact a4, by rw [b9]; exact a5⟩)
    (fun p q a b => by
      obtain ⟨a1, a2, a3⟩ := a
      obtain ⟨b4, -, b6, b7⟩ := b
      exact ⟨by rw [b4]; exact a1, by rw [b6]; exact a2, by rw [b7]; exact a3⟩)
  have q2 : Every (UpdLeaf N) UpdBranch t2 := by
    rw [ho] at u2
    exact u2.sizes (fun _ _ _ h => h.1) (by rw [hv]; rfl)
  obtain ⟨q3, q4, q5, -⟩ := v3.sizes (fun grid g f u h hx hy hf hu => by
    obtain ⟨u', hu', h1, -⟩ := hs.solve grid (bv N 4 g) f hx hy rfl ((bv_has N 4 g).2.1.trans (bv_has N 4 g).1.symm) hf.1 hf.2
    unfold UPs at hu
    rw [hu] at hu'
    rw [Res.ok_inj.mp hu']
    exact h1)
  have k3 : Every (fun p : Patch K => UpdLeaf N p ∧ FreshLeaf p) (fun p : Patch K => UpdBranch p ∧ FreshBranch p) t3 :=
    (q2.and k2).related r3
    (fun p q a b => by
      obtain ⟨⟨⟨a1, a2, a3⟩, a4, a5, a6⟩, ⟨a7, a8, a9⟩, a10, a11⟩ := a
      obtain ⟨⟨b1, b2, b3, b4, b5, b6⟩, b8, b9, b10, b11⟩ := b
      exact ⟨⟨⟨by rw [b1, a1], by rw [b2, a2], by rw [b2, a3]⟩, by rw [b6]; exact a4, by rw [b9, a5], by rw [b10, a6]⟩,
        ⟨by rw [b3]; exact a7, by rw [b4]; exact a8, by rw [b5]; exact a9⟩, by rw [b8, a10], by rw [b11, a11]⟩)
    (fun p q a b => by
      obtain ⟨⟨⟨a1, a2⟩, ⟨a3, a4, a5, a6⟩, a7, a8⟩, a9, a10, a11⟩ := a
      obtain ⟨⟨b1, b2, b3, b4, b5, b6⟩, b7, b8, b9, b10, b11⟩ := b
      have hsz : q.size = p.size := by unfold Patch.size; rw [b1, b2]
      refine ⟨⟨⟨by rw [b2, a1], by rw [b1, hsz, ← a2, b2]⟩, ⟨?_, ?_, ?_, ?_⟩, by rw [b10, hsz, a7], by rw [b11, b2, a8]⟩,
        by rw [b7, a9], by rw [b8, a10], by rw [b9, a11]⟩
      · rw [b3, b2]; exact a3
      · rw [b4, b2]; exact a4
      · rw [b5, b2]; exact a5
      · rw [b6, hsz]; exact a6)
  refine ⟨t1, c1, t3, e1, ?_, by rw [s3, s2, s1], (k3.and q3).imp ?_ ?_, q4, q5⟩
  · show (upwardsStageAnalytic lap ps opt f t1 >>= fun t2 => solveStageAnalytic lap ps opt bc t2) = _
    rw [upwardsStageAnalytic_eq lap ps opt f1, e2, Res.ok_bind, solveStageAnalytic_eq g1, e3]
  · rintro p ⟨⟨⟨⟨a1, a2, a3⟩, a4, a5, a6⟩, ⟨a7, a8, a9⟩, a10, a11⟩, a12, a13⟩
    exact ⟨a1, a2, a3, a7, a8, a9, a4, a13, a12, a10, a5, a6, a11⟩
  · rintro p ⟨⟨⟨⟨a1, a2⟩, ⟨a3, a4, a5, a6⟩, a7, a8⟩, a9, a10, a11⟩, a12⟩
    exact ⟨a1, a2, a3, a4, a5, a6, a9, a12, a10, a11, a7, a8⟩

end HPS
end EF
