import Verif.Proofs.Pipeline

/-!
# Later runs see nothing of earlier runs
-/

namespace EF
namespace HPS

variable {K : Type} [Field K]

/-- Forget what `upwardsStage` and `solveStage` overwrite. -/
def wipe (hom : Bool) : Tree (Patch K) → Tree (Patch K)
  | .leaf p => .leaf { p with f := .empty, h := .empty, g := .empty, u := .empty }
  | .node p c0 c1 c2 c3 =>
    .node (if hom then { p with g := .empty }
      else { p with X := .empty, w := .empty, h := .empty, g := .empty })
      (wipe hom c0) (wipe hom c1) (wipe hom c2) (wipe hom c3)

/-- Forget what `solveStage` overwrites. -/
def wipe2 : Tree (Patch K) → Tree (Patch K)
  | .leaf p => .leaf { p with g := .empty, u := .empty }
  | .node p c0 c1 c2 c3 => .node { p with g := .empty } (wipe2 c0) (wipe2 c1) (wipe2 c2) (wipe2 c3)

/-- Replace `g` and `u`. -/
def setGU (g u : Vec K) (p : Patch K) : Patch K := { p with g := g, u := u }

/-- Replace `g` and `u` in a family. -/
def setF (G : Nat → Vec K × Vec K) (F : Fam (Patch K)) : Fam (Patch K) :=
  ⟨setGU (G 0).1 (G 0).2 F.tau, setGU (G 1).1 (G 1).2 F.a, setGU (G 2).1 (G 2).2 F.b, setGU (G 3).1 (G 3).2 F.c,
    setGU (G 4).1 (G 4).2 F.d⟩

theorem forN_map {σ : Type} (n : Nat) (body : Nat → σ → Res σ) (φ : σ → σ)
    (h : ∀ i s, body i (φ s) = φ <$> body i s) (s : σ) : forN n body (φ s) = φ <$> forN n body s := by
  induction n with
  | zero => rfl
  | succ n ih =>
    rw [forN, forN, ih]
    simp only [map_bind, bind_map_left, h]

theorem coarsenUpPatch_setGU (g u : Vec K) (p : Patch K) :
    coarsenUpPatch (setGU g u p) = setGU g u <$> coarsenUpPatch p := by
  unfold coarsenUpPatch
  refine forN_map _ _ _ ?_ p
  intro i s
  unfold coarsenUpStep
  simp only [map_bind, map_pure]
  rfl

theorem coarsenUp_setF (G : Nat → Vec K × Vec K) (F : Fam (Patch K)) :
    coarsenUp (setF G F) = setF G <$> coarsenUp F := by
  unfold coarsenUp
  simp only [setF, coarsenUpPatch_setGU, map_bind, bind_map_left, map_pure]

theorem upEq_setF (lap : Lapack K) (G : Nat → Vec K × Vec K) (F : Fam (Patch K)) :
    upEq lap (setF G F) = setF G <$> upEq lap F := by
  unfold upEq
  simp only [map_bind, map_pure]
  rfl

theorem upwards4to1_setF (lap : Lapack K) (opt : HPSOptions) (G : Nat → Vec K × Vec K) (F : Fam (Patch K)) :
    upwards4to1 lap opt (setF G F) = setF G <$> upwards4to1 lap opt F := by
  cases ho : opt.homogeneousRhs with
  | true => unfold upwards4to1; rw [ho]; rfl
  | false =>
    rw [upwards4to1_eq lap opt _ ho, upwards4to1_eq lap opt _ ho, coarsenUp_setF, map_bind, bind_map_left]
    simp only [upEq_setF]

/-- In the non-homogeneous mode the old `X`, `w`, `h` of the parent are not read. -/
theorem upwards4to1_tau (lap : Lapack K) (opt : HPSOptions) (ho : opt.homogeneousRhs = false) (F : Fam (Patch K))
    (X : Mat K) (w h : Vec K) :
    upwards4to1 lap opt { F with tau := { F.tau with X := X, w := w, h := h } } = upwards4to1 lap opt F := by
  rw [upwards4to1_eq lap opt _ ho, upwards4to1_eq lap opt _ ho]
  unfold coarsenUp
  simp only [bind_assoc, pure_bind]
  rfl

/-- The `g`, `u` that `wipe2` leaves at the root. -/
def guOf (t : Tree (Patch K)) : Vec K × Vec K := (.empty, (wipe2 t).val.u)

omit [Field K] in
theorem wipe2_val (t : Tree (Patch K)) : (wipe2 t).val = setGU (guOf t).1 (guOf t).2 t.val := by
  cases t <;> rfl

omit [Field K] in
theorem wipe2_setVal (t : Tree (Patch K)) (q : Patch K) (hu : q.u = t.val.u) :
    wipe2 (t.setVal q) = (wipe2 t).setVal (setGU (guOf t).1 (guOf t).2 q) := by
  cases t with
  | leaf p => rfl
  | node p c0 c1 c2 c3 =>
    simp only [Tree.setVal, wipe2, guOf, setGU, Tree.val] at *
    rw [← hu]

theorem coarsenUpPatch_u {p q : Patch K} (h : coarsenUpPatch p = .ok q) : q.u = p.u := by
  have := coarsenUpPatch_setGU p.g p.u p
  have e : setGU p.g p.u p = p := rfl
  rw [e, h] at this
  have := Res.ok_inj.mp (this.trans rfl)
  rw [this]; rfl

/-- The upwards step keeps the `u` of all five patches. -/
theorem upwards4to1_u (lap : Lapack K) (opt : HPSOptions) {F F' : Fam (Patch K)} (h : upwards4to1 lap opt F = .ok F') :
    F'.tau.u = F.tau.u ∧ F'.a.u = F.a.u ∧ F'.b.u = F.b.u ∧ F'.c.u = F.c.u ∧ F'.d.u = F.d.u := by
  have := upwards4to1_setF lap opt (fun i => match i with
    | 0 => (F.tau.g, F.tau.u) | 1 => (F.a.g, F.a.u) | 2 => (F.b.g, F.b.u) | 3 => (F.c.g, F.c.u) | _ => (F.d.g, F.d.u)) F
  have e : setF (fun i => match i with
    | 0 => (F.tau.g, F.tau.u) | 1 => (F.a.g, F.a.u) | 2 => (F.b.g, F.b.u) | 3 => (F.c.g, F.c.u) | _ => (F.d.g, F.d.u)) F = F := rfl
  rw [e, h] at this
  have := Res.ok_inj.mp (this.trans rfl)
  rw [this]
  exact ⟨rfl, rfl, rfl, rfl, rfl⟩

/-- Running upwards on a wiped tree. -/
theorem upwards_wipe (lap : Lapack K) (ps : PatchSolver K) (opt : HPSOptions) {rhs : Patch K → Res (Patch K)}
    {φ : Grid K → Vec K} (hφ : ∀ p, rhs p = .ok { p with f := φ p.grid }) (t : Tree (Patch K)) :
    upwardsStage lap ps opt rhs (wipe opt.homogeneousRhs t) = wipe2 <$> upwardsStage lap ps opt rhs t := by
  unfold upwardsStage
  induction t with
  | leaf p =>
    simp only [wipe, Tree.merge, upwardsLeaf, hφ, Res.ok_bind, map_bind, bind_assoc, pure_bind, map_pure]
    rfl
  | node p c0 c1 c2 c3 i0 i1 i2 i3 =>
    simp only [wipe, Tree.merge, i0, i1, i2, i3, map_bind, bind_map_left, map_pure]
    refine bind_congr fun t0 => bind_congr fun t1 => bind_congr fun t2 => bind_congr fun t3 => ?_
    have key : upwards4to1 lap opt ⟨if opt.homogeneousRhs = true then { p with g := .empty }
        else { p with X := .empty, w := .empty, h := .empty, g := .empty },
        (wipe2 t0).val, (wipe2 t1).val, (wipe2 t2).val, (wipe2 t3).val⟩
        = setF (fun i => match i with | 0 => (.empty, p.u) | 1 => guOf t0 | 2 => guOf t1 | 3 => guOf t2 | _ => guOf t3) <$>
          upwards4to1 lap opt ⟨p, t0.val, t1.val, t2.val, t3.val⟩ := by
      rw [← upwards4to1_setF]
      simp only [wipe2_val]
      cases ho : opt.homogeneousRhs with
      | true => rfl
      | false =>
        exact upwards4to1_tau lap opt ho (setF (fun i => match i with | 0 => (.empty, p.u) | 1 => guOf t0 | 2 => guOf t1 | 3 => guOf t2 | _ => guOf t3)
          ⟨p, t0.val, t1.val, t2.val, t3.val⟩) .empty .empty .empty
    rw [key, bind_map_left]
    cases hF : upwards4to1 lap opt ⟨p, t0.val, t1.val, t2.val, t3.val⟩ with
    | throw e => rfl
    | ub => rfl
    | ok F =>
      rw [Res.ok_bind, Res.ok_bind]
      obtain ⟨e0, e1, e2, e3, e4⟩ := upwards4to1_u lap opt hF
      simp only [wipe2, wipe2_setVal _ _ e1, wipe2_setVal _ _ e2, wipe2_setVal _ _ e3, wipe2_setVal _ _ e4]
      congr 2
      simp only [setF, setGU]
      rw [← e0]

/-! ### Solve -/

/-- Replace the `u` of the children. -/
def setFU (G : Nat → Vec K × Vec K) (F : Fam (Patch K)) : Fam (Patch K) :=
  ⟨F.tau, setGU F.a.g (G 1).2 F.a, setGU F.b.g (G 2).2 F.b, setGU F.c.g (G 3).2 F.c, setGU F.d.g (G 4).2 F.d⟩

/-- The split step overwrites the `g` of the children and ignores their `u`. -/
theorem split1to4_setF (opt : HPSOptions) (G : Nat → Vec K × Vec K) (tau a b c d : Patch K) :
    split1to4 opt ⟨tau, setGU (G 1).1 (G 1).2 a, setGU (G 2).1 (G 2).2 b, setGU (G 3).1 (G 3).2 c, setGU (G 4).1 (G 4).2 d⟩
      = setFU G <$> split1to4 opt ⟨tau, a, b, c, d⟩ := by
  unfold split1to4 applyS
  simp only [map_bind, map_pure]
  rfl

/-- Set the `u` a leaf starts with. -/
def startU (u : Vec K) : Tree (Patch K) → Patch K → Patch K
  | .leaf _, q => { q with u := u }
  | .node .., q => q

/-- The split step keeps the `u` of the children. -/
theorem split1to4_u (opt : HPSOptions) {F F' : Fam (Patch K)} (h : split1to4 opt F = .ok F') :
    F'.a.u = F.a.u ∧ F'.b.u = F.b.u ∧ F'.c.u = F.c.u ∧ F'.d.u = F.d.u := by
  have := split1to4_setF opt (fun i => match i with
    | 0 => (F.tau.g, F.tau.u) | 1 => (F.a.g, F.a.u) | 2 => (F.b.g, F.b.u) | 3 => (F.c.g, F.c.u) | _ => (F.d.g, F.d.u))
    F.tau F.a F.b F.c F.d
  have e : (⟨F.tau, setGU F.a.g F.a.u F.a, setGU F.b.g F.b.u F.b, setGU F.c.g F.c.u F.c, setGU F.d.g F.d.u F.d⟩ : Fam (Patch K))
    = F := rfl
  simp only [] at this
  rw [e] at this
  rw [show (⟨F.tau, F.a, F.b, F.c, F.d⟩ : Fam (Patch K)) = F from rfl, h] at this
  have := Res.ok_inj.mp (this.trans rfl)
  rw [this]
  exact ⟨rfl, rfl, rfl, rfl⟩

theorem splitFrom_wipe2 (ps : PatchSolver K) (opt : HPSOptions) (t : Tree (Patch K)) (q : Patch K) (u : Vec K) :
    (wipe2 t).splitFrom (leafSolve ps opt) (split1to4 opt) (startU u t q)
      = t.splitFrom (leafSolve ps opt) (split1to4 opt) q := by
  induction t generalizing q u with
  | leaf p =>
    simp only [wipe2, Tree.splitFrom, startU, leafSolve]
    cases opt.homogeneousRhs <;> simp only [Bool.false_eq_true, if_true, if_false, bind_assoc, pure_bind]
  | node p c0 c1 c2 c3 i0 i1 i2 i3 =>
    simp only [wipe2, Tree.splitFrom, startU, wipe2_val]
    refine (congrArg (· >>= _) (split1to4_setF opt (fun i => match i with
      | 0 => (.empty, .empty) | 1 => guOf c0 | 2 => guOf c1 | 3 => guOf c2 | _ => guOf c3) q
      c0.val c1.val c2.val c3.val)).trans ?_
    rw [bind_map_left]
    cases hF : split1to4 opt ⟨q, c0.val, c1.val, c2.val, c3.val⟩ with
    | throw e => rfl
    | ub => rfl
    | ok F =>
      obtain ⟨e1, e2, e3, e4⟩ := split1to4_u opt hF
      have hs : ∀ (c : Tree (Patch K)) (a : Patch K), a.u = c.val.u → setGU a.g (guOf c).2 a = startU .empty c a := by
        intro c a ha
        cases c with
        | leaf p => rfl
        | node p _ _ _ _ =>
          simp only [Tree.val] at ha
          simp only [setGU, startU, guOf, wipe2, Tree.val]
          rw [← ha]
      simp only [Res.ok_bind, setFU, hs _ _ e1, hs _ _ e2, hs _ _ e3, hs _ _ e4, i0, i1, i2, i3]

/-- The boundary callback sets `g` from the grid, operator and flux of the root. -/
def BoundaryOf (bdry : Patch K → Res (Patch K)) (γ : Grid K → Nat → Mat K → Vec K → Res (Vec K)) : Prop :=
  ∀ p, bdry p = do
    let g ← γ p.grid p.nCoarsens p.T p.h
    pure { p with g := g }

theorem solve_wipe2 (ps : PatchSolver K) (opt : HPSOptions) {bdry : Patch K → Res (Patch K)}
    {γ : Grid K → Nat → Mat K → Vec K → Res (Vec K)} (hγ : BoundaryOf bdry γ) (t : Tree (Patch K)) :
    solveStage ps opt bdry (wipe2 t) = solveStage ps opt bdry t := by
  unfold solveStage
  rw [hγ, hγ, wipe2_val]
  simp only [setGU]
  cases γ t.val.grid t.val.nCoarsens t.val.T t.val.h with
  | throw e => rfl
  | ub => rfl
  | ok g =>
    simp only [Res.ok_bind, Res.pure_def]
    rw [← splitFrom_wipe2 ps opt t _ (guOf t).2]
    congr 1
    cases t <;> rfl

/-! ### What the stages leave alone -/

theorem forN_inv {σ : Type} {n : Nat} {body : Nat → σ → Res σ} (I : σ → σ → Prop) (hr : ∀ s, I s s)
    (ht : ∀ a b c, I a b → I b c → I a c) (hb : ∀ i s s', body i s = .ok s' → I s s') {s s' : σ}
    (h : forN n body s = .ok s') : I s s' := by
  induction n generalizing s' with
  | zero => rw [forN_zero] at h; rw [Res.ok_inj.mp h]; exact hr _
  | succ n ih =>
    rw [forN_succ] at h
    obtain ⟨m, h1, h2⟩ := Res.bind_eq_ok.mp h
    exact ht _ _ _ (ih h1) (hb _ _ _ h2)

theorem coarsenUpPatch_frame {p q : Patch K} (h : coarsenUpPatch p = .ok q) : q = { p with h := q.h } := by
  refine forN_inv (fun p q : Patch K => q = { p with h := q.h }) (fun _ => rfl) ?_ ?_ h
  · intro a b c h1 h2; rw [h2, h1]
  · intro i s s' hs
    unfold coarsenUpStep at hs
    simp only [Res.bind_eq_ok, Res.pure_def, Res.ok_inj] at hs
    obtain ⟨_, _, _, _, _, _, rfl⟩ := hs
    rfl

theorem uncoarsen_frame {p q : Patch K} (h : uncoarsen p = .ok q) : q = { p with g := q.g } := by
  refine forN_inv (fun p q : Patch K => q = { p with g := q.g }) (fun _ => rfl) ?_ ?_ h
  · intro a b c h1 h2; rw [h2, h1]
  · intro i s s' hs
    unfold uncoarsenStep at hs
    simp only [Res.bind_eq_ok, Res.pure_def, Res.ok_inj] at hs
    obtain ⟨_, _, _, _, _, _, rfl⟩ := hs
    rfl

theorem upwards4to1_frame {lap : Lapack K} {opt : HPSOptions} {F F' : Fam (Patch K)}
    (h : upwards4to1 lap opt F = .ok F') :
    (opt.homogeneousRhs = true → F' = F) ∧
    F'.tau = { F.tau with X := F'.tau.X, w := F'.tau.w, h := F'.tau.h } ∧ F'.a = { F.a with h := F'.a.h } ∧
      F'.b = { F.b with h := F'.b.h } ∧ F'.c = { F.c with h := F'.c.h } ∧ F'.d = { F.d with h := F'.d.h } := by
  unfold upwards4to1 at h
  cases ho : opt.homogeneousRhs with
  | true =>
    rw [ho, if_pos rfl, Res.pure_def, Res.ok_inj] at h
    subst h
    exact ⟨fun _ => rfl, rfl, rfl, rfl, rfl, rfl⟩
  | false =>
    rw [ho, if_neg (by simp)] at h
    unfold coarsenUp at h
    simp only [Res.bind_eq_ok, Res.pure_def, Res.ok_inj] at h
    obtain ⟨_, ⟨a, ha, b, hb, c, hc, d, hd, rfl⟩, _, _, _, _, _, _, _, _, _, _, _, _, rfl⟩ := h
    exact ⟨by simp, rfl, coarsenUpPatch_frame ha, coarsenUpPatch_frame hb, coarsenUpPatch_frame hc, coarsenUpPatch_frame hd⟩

theorem split1to4_frame {opt : HPSOptions} {F F' : Fam (Patch K)} (h : split1to4 opt F = .ok F') :
    F'.tau = { F.tau with g := F'.tau.g } ∧ F'.a = { F.a with g := F'.a.g } ∧
      F'.b = { F.b with g := F'.b.g } ∧ F'.c = { F.c with g := F'.c.g } ∧ F'.d = { F.d with g := F'.d.g } := by
  unfold split1to4 applyS at h
  simp only [Res.bind_eq_ok, Res.pure_def, Res.ok_inj] at h
  obtain ⟨t, ht, _, _, _, _, _, _, _, _, _, _, _, _, _, _, _, _, _, _, _, _, _, _, _, _, _, _, _, _, _, _, _, _, _, _, rfl⟩ := h
  exact ⟨uncoarsen_frame ht, rfl, rfl, rfl, rfl⟩

omit [Field K] in
/-- Setting `g` of the root is forgotten by `wipe`. -/
theorem wipe_setVal_g (hom : Bool) (t : Tree (Patch K)) (g : Vec K) :
    wipe hom (t.setVal { t.val with g := g }) = wipe hom t := by
  cases t <;> cases hom <;> rfl

omit [Field K] in
/-- Setting `h` of the root is forgotten by `wipe` in the non-homogeneous mode. -/
theorem wipe_setVal_h (t : Tree (Patch K)) (h : Vec K) :
    wipe false (t.setVal { t.val with h := h }) = wipe false t := by
  cases t <;> rfl

theorem upwards_keeps (lap : Lapack K) (ps : PatchSolver K) (opt : HPSOptions) {rhs : Patch K → Res (Patch K)}
    {φ : Grid K → Vec K} (hφ : ∀ p, rhs p = .ok { p with f := φ p.grid }) {t t' : Tree (Patch K)}
    (h : upwardsStage lap ps opt rhs t = .ok t') : wipe opt.homogeneousRhs t' = wipe opt.homogeneousRhs t := by
  unfold upwardsStage at h
  induction t generalizing t' with
  | leaf p =>
    simp only [Tree.merge, upwardsLeaf, hφ, Res.bind_eq_ok, Res.ok_bind, Res.pure_def, Res.ok_inj] at h
    obtain ⟨q, ⟨hh, _, rfl⟩, rfl⟩ := h
    rfl
  | node p c0 c1 c2 c3 i0 i1 i2 i3 =>
    simp only [Tree.merge, Res.bind_eq_ok, Res.pure_def, Res.ok_inj] at h
    obtain ⟨t0, h0, t1, h1, t2, h2, t3, h3, F, hF, rfl⟩ := h
    obtain ⟨g0, g1, g2, g3, g4, g5⟩ := upwards4to1_frame hF
    cases ho : opt.homogeneousRhs with
    | true =>
      have := g0 ho
      subst this
      have hsv : ∀ c : Tree (Patch K), c.setVal c.val = c := by intro c; cases c <;> rfl
      simp only [hsv, wipe, ← ho, i0 h0, i1 h1, i2 h2, i3 h3]
    | false =>
      simp only [wipe, Bool.false_eq_true, if_false]
      rw [g2, g3, g4, g5, wipe_setVal_h, wipe_setVal_h, wipe_setVal_h, wipe_setVal_h, g1]
      simp only [← ho, i0 h0, i1 h1, i2 h2, i3 h3]

theorem split_keeps (ps : PatchSolver K) (opt : HPSOptions) {t t' : Tree (Patch K)} {q : Patch K}
    (hq : q = { t.val with g := q.g })
    (h : t.splitFrom (leafSolve ps opt) (split1to4 opt) q = .ok t') :
    wipe opt.homogeneousRhs t' = wipe opt.homogeneousRhs t := by
  induction t generalizing t' q with
  | leaf p =>
    simp only [Tree.splitFrom, leafSolve, Res.bind_eq_ok, Res.pure_def, Res.ok_inj] at h
    obtain ⟨r, ⟨u, _, rfl⟩, rfl⟩ := h
    rw [hq]
    cases opt.homogeneousRhs <;> rfl
  | node p c0 c1 c2 c3 i0 i1 i2 i3 =>
    simp only [Tree.splitFrom, Res.bind_eq_ok, Res.pure_def, Res.ok_inj] at h
    obtain ⟨F, hF, t0, h0, t1, h1, t2, h2, t3, h3, rfl⟩ := h
    obtain ⟨g1, g2, g3, g4, g5⟩ := split1to4_frame hF
    simp only [wipe, i0 g2 h0, i1 g3 h1, i2 g4 h2, i3 g5 h3]
    rw [g1, hq]
    rfl

theorem solve_keeps (ps : PatchSolver K) (opt : HPSOptions) {bdry : Patch K → Res (Patch K)}
    {γ : Grid K → Nat → Mat K → Vec K → Res (Vec K)} (hγ : BoundaryOf bdry γ) {t t' : Tree (Patch K)}
    (h : solveStage ps opt bdry t = .ok t') : wipe opt.homogeneousRhs t' = wipe opt.homogeneousRhs t := by
  unfold solveStage at h
  rw [hγ] at h
  simp only [Res.bind_eq_ok, Res.pure_def, Res.ok_inj] at h
  obtain ⟨_, ⟨g, _, rfl⟩, h⟩ := h
  exact split_keeps ps opt (by rfl) h

end HPS
end EF
