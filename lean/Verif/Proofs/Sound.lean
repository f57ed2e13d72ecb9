import Verif.Proofs.Rerun
import Verif.Proofs.Calls
import Verif.Model.Fishpack
import Verif.Model.ParallelHPS

/-!
# The vectors of the patches keep the lengths they say
-/

namespace EF

variable {K α σ : Type}

/-! ## Vectors -/

theorem wr_length {l l' : List α} {k : Nat} {a : α} (h : wr l k a = .ok l') : l'.length = l.length := by
  unfold wr at h
  split at h
  · rw [← Res.ok_inj.mp h, List.length_set]
  · cases h

namespace Vec

/-- Same `size_` and same number of entries. -/
def SameLen (v w : Vec α) : Prop := w.size = v.size ∧ w.data.length = v.data.length

theorem SameLen.refl (v : Vec α) : SameLen v v := ⟨rfl, rfl⟩

theorem SameLen.trans (u v w : Vec α) (h : SameLen u v) (h' : SameLen v w) : SameLen u w := ⟨h'.1.trans h.1, h'.2.trans h.2⟩

theorem SameLen.wf {v w : Vec α} (h : SameLen v w) (hv : v.WF) : w.WF := by
  unfold WF at *
  rw [h.1, h.2, hv]

theorem wf_fill (n : Nat) (a : α) : (fill n a).WF := by simp [WF, fill]

theorem wf_zeros [Zero α] (n : Nat) : (zeros n : Vec α).WF := wf_fill n 0

theorem wf_ofList (l : List α) : (ofList l).WF := rfl

theorem wf_empty : (empty : Vec α).WF := rfl

theorem set_len {v w : Vec α} {i : Nat} {a : α} (h : v.set i a = .ok w) : SameLen v w := by
  unfold set at h
  split at h
  · cases h
  · simp only [Res.bind_eq_ok, Res.pure_def, Res.ok_inj] at h
    obtain ⟨d, h1, rfl⟩ := h
    exact ⟨rfl, wr_length h1⟩

theorem updData_len {v w : Vec α} {i : Nat} {f : α → Res α} (h : v.updData i f = .ok w) : SameLen v w := by
  unfold updData at h
  simp only [Res.bind_eq_ok, Res.pure_def, Res.ok_inj] at h
  obtain ⟨_, _, _, _, d, h1, rfl⟩ := h
  exact ⟨rfl, wr_length h1⟩

theorem forN_len {n : Nat} {body : Nat → Vec α → Res (Vec α)} (hb : ∀ i s s', body i s = .ok s' → SameLen s s') {s s' : Vec α}
    (h : forN n body s = .ok s') : SameLen s s' :=
  HPS.forN_inv SameLen SameLen.refl SameLen.trans hb h

theorem getSegment_wf [Zero α] {v w : Vec α} {s l : Nat} (h : v.getSegment s l = .ok w) : w.WF := by
  unfold getSegment at h
  split at h
  · cases h
  · refine (forN_len (fun i s s' hs => ?_) h).wf (wf_zeros l)
    simp only [Res.bind_eq_ok] at hs
    obtain ⟨_, _, h1⟩ := hs
    exact set_len h1

theorem setSegment_len {v w x : Vec α} {s : Nat} (h : v.setSegment s x = .ok w) : SameLen v w := by
  unfold setSegment at h
  split at h
  · cases h
  · refine forN_len (fun i s s' hs => ?_) h
    simp only [Res.bind_eq_ok, Res.pure_def, Res.ok_inj] at hs
    obtain ⟨_, _, _, h1, rfl⟩ := hs
    exact ⟨rfl, wr_length h1⟩

theorem callIndexSet_wf [Zero α] {v w : Vec α} {I : Vec Int} (h : v.callIndexSet I = .ok w) : w.WF := by
  unfold callIndexSet at h
  split at h
  · cases h
  · refine (forN_len (fun i s s' hs => ?_) h).wf (wf_zeros _)
    simp only [Res.bind_eq_ok] at hs
    obtain ⟨k, _, h1⟩ := hs
    split at h1
    · cases h1
    · simp only [Res.bind_eq_ok] at h1
      obtain ⟨_, _, _, _, h2⟩ := h1
      exact set_len h2

theorem getFromIndexSet_wf [Zero α] {v w : Vec α} {I : Vec Int} (h : v.getFromIndexSet I = .ok w) : w.WF := callIndexSet_wf h

theorem blockPermute_wf [Zero α] {v w : Vec α} {I S : Vec Int} (h : v.blockPermute I S = .ok w) : w.WF := by
  unfold blockPermute at h
  simp only [Res.bind_eq_ok] at h
  obtain ⟨n, _, h1⟩ := h
  split at h1
  · cases h1
  · simp only [Res.bind_eq_ok] at h1
    obtain ⟨_, _, h2⟩ := h1
    exact getFromIndexSet_wf h2

theorem addAssign_len [Field K] {v w x : Vec K} (h : v.addAssign x = .ok w) : SameLen v w := by
  unfold addAssign at h
  split at h
  · cases h
  · exact forN_len (fun i s s' hs => updData_len hs) h

theorem add_len [Field K] {v w x : Vec K} (h : v.add x = .ok w) : SameLen v w := by
  unfold add at h
  split at h
  · cases h
  · exact addAssign_len h

theorem sub_len [Field K] {v w x : Vec K} (h : v.sub x = .ok w) : SameLen v w := by
  unfold sub subAssign at h
  split at h
  · cases h
  · exact forN_len (fun i s s' hs => updData_len hs) h

theorem forL_inv {β : Type} {l : List β} {body : β → σ → Res σ} (I : σ → σ → Prop) (hr : ∀ s, I s s)
    (ht : ∀ a b c, I a b → I b c → I a c) (hb : ∀ i s s', body i s = .ok s' → I s s') {s s' : σ}
    (h : forL l body s = .ok s') : I s s' := by
  induction l generalizing s with
  | nil => rw [forL_nil] at h; rw [Res.ok_inj.mp h]; exact hr _
  | cons x l ih =>
    rw [forL_cons] at h
    obtain ⟨m, h1, h2⟩ := Res.bind_eq_ok.mp h
    exact ht _ _ _ (hb _ _ _ h1) (ih h2)

theorem concatenate_wf [Zero α] {vs : List (Vec α)} {w : Vec α} (h : concatenate vs = .ok w) : w.WF := by
  unfold concatenate at h
  simp only [Res.bind_eq_ok, Res.pure_def, Res.ok_inj] at h
  obtain ⟨n, _, r, h1, rfl⟩ := h
  refine SameLen.wf (v := zeros n) ?_ (wf_zeros n)
  refine forL_inv (fun (s s' : Vec α × Nat) => SameLen s.1 s'.1) (fun _ => .refl _) (fun _ _ _ => SameLen.trans _ _ _) ?_ h1
  intro v s s' hs
  refine HPS.forN_inv (fun (s s' : Vec α × Nat) => SameLen s.1 s'.1) (fun _ => .refl _) (fun _ _ _ => SameLen.trans _ _ _) ?_ hs
  intro i s s' hs
  simp only [Res.bind_eq_ok, Res.ok_inj] at hs
  obtain ⟨_, _, _, h2, rfl⟩ := hs
  exact set_len h2

end Vec

section field

variable [Field K]

theorem mulVec_wf {A : Mat K} {x y : Vec K} (h : A.mulVec x = .ok y) : y.WF := by
  unfold Mat.mulVec at h
  split at h
  · cases h
  · simp only [Res.bind_eq_ok, Res.pure_def, Res.ok_inj] at h
    obtain ⟨l, h1, rfl⟩ := h
    have : l.length = (Vec.zeros A.nrows : Vec K).data.length := by
      unfold dgemv at h1
      split at h1
      · cases h1
      · split at h1
        · rw [Res.ok_inj.mp h1]
        · refine (HPS.forN_inv (fun s s' : List K => s.length = s'.length) (fun _ => rfl) (fun _ _ _ => Eq.trans) ?_ h1).symm
          intro i s s' hs
          simp only [Res.bind_eq_ok] at hs
          obtain ⟨_, _, h2⟩ := hs
          exact (wr_length h2).symm
    exact this.trans (Vec.wf_zeros A.nrows)

theorem solveVec_len {lap : Lapack K} {A : Mat K} {b x : Vec K} (h : A.solveVec lap b = .ok x) : Vec.SameLen b x := by
  unfold Mat.solveVec at h
  split at h
  · cases h
  split at h
  · cases h
  simp only [Res.bind_eq_ok, Res.pure_def, Res.ok_inj] at h
  obtain ⟨AT, _, l, h1, rfl⟩ := h
  refine ⟨rfl, ?_⟩
  unfold dgesv at h1
  split at h1
  · cases h1
  split at h1
  · cases h1
  split at h1
  · cases h1
  rw [← Res.ok_inj.mp h1]
  exact lap.length_sol ..

/-! ## Patches -/

/-- What the callbacks of the stages do to a patch: sound vectors stay sound, and the vector `v` is not touched. -/
def PatchKeeps (p q : Patch K) : Prop := (MPI.SoundPatch p → MPI.SoundPatch q) ∧ q.v = p.v

theorem PatchKeeps.refl (p : Patch K) : PatchKeeps p p := ⟨id, rfl⟩

theorem PatchKeeps.trans (p q r : Patch K) (h : PatchKeeps p q) (h' : PatchKeeps q r) : PatchKeeps p r := ⟨h'.1 ∘ h.1, h'.2.trans h.2⟩

/-- A family of which every member is kept. -/
def KeepsFam (F G : Fam (Patch K)) : Prop :=
  PatchKeeps F.tau G.tau ∧ PatchKeeps F.a G.a ∧ PatchKeeps F.b G.b ∧ PatchKeeps F.c G.c ∧ PatchKeeps F.d G.d

theorem PatchKeeps.of {p q : Patch K} (hu : q.u = p.u ∨ q.u.WF) (hg : q.g = p.g ∨ q.g.WF) (hv : q.v = p.v) (hf : q.f = p.f ∨ q.f.WF)
    (hh : q.h = p.h ∨ q.h.WF) (hw : q.w = p.w ∨ q.w.WF) : PatchKeeps p q := by
  refine ⟨?_, hv⟩
  rintro ⟨s1, s2, s3, s4, s5, s6⟩
  have aux : ∀ {a b : Vec K}, a.size = a.data.length → (b = a ∨ b.WF) → b.size = b.data.length := by
    intro a b h1 h2
    rcases h2 with rfl | h2
    · exact h1
    · exact h2.symm
  exact ⟨aux s1 hu, aux s2 hg, aux s3 (.inl hv), aux s4 hf, aux s5 hh, aux s6 hw⟩

namespace HPS

theorem buildLeaf_keeps {ps : PatchSolver K} {opt : HPSOptions} {p : Patch K} {c : Option (Mat K)} {x : Patch K × Option (Mat K)}
    (h : buildLeaf ps opt p c = .ok x) : PatchKeeps p x.1 := by
  unfold buildLeaf at h
  split at h
  · split at h
    · rw [← Res.ok_inj.mp h]
      exact .of (.inl rfl) (.inl rfl) rfl (.inl rfl) (.inl rfl) (.inl rfl)
    · simp only [Res.bind_eq_ok, Res.pure_def, Res.ok_inj] at h
      obtain ⟨_, _, rfl⟩ := h
      exact .of (.inl rfl) (.inl rfl) rfl (.inl rfl) (.inl rfl) (.inl rfl)
  · simp only [Res.bind_eq_ok, Res.pure_def, Res.ok_inj] at h
    obtain ⟨_, _, rfl⟩ := h
    exact .of (.inl rfl) (.inl rfl) rfl (.inl rfl) (.inl rfl) (.inl rfl)

theorem coarsenPatch_keeps {t : Nat} {p q : Patch K} (h : coarsenPatch t p = .ok q) : PatchKeeps p q := by
  refine forN_inv PatchKeeps PatchKeeps.refl PatchKeeps.trans (fun i s s' hs => ?_) h
  unfold coarsenStep at hs
  simp only [Res.bind_eq_ok, Res.pure_def, Res.ok_inj] at hs
  obtain ⟨_, _, _, _, _, _, _, _, _, _, _, _, rfl⟩ := hs
  exact .of (.inl rfl) (.inl rfl) rfl (.inl rfl) (.inl rfl) (.inl rfl)

theorem coarsen_keeps {F G : Fam (Patch K)} (h : coarsen F = .ok G) : KeepsFam F G := by
  unfold coarsen at h
  simp only [Res.bind_eq_ok, Res.pure_def, Res.ok_inj] at h
  obtain ⟨_, _, a, ha, b, hb, c, hc, d, hd, rfl⟩ := h
  exact ⟨.refl _, coarsenPatch_keeps ha, coarsenPatch_keeps hb, coarsenPatch_keeps hc, coarsenPatch_keeps hd⟩

theorem merge4to1_keeps {lap : Lapack K} {F G : Fam (Patch K)} (h : merge4to1 lap F = .ok G) : KeepsFam F G := by
  unfold merge4to1 at h
  simp only [Res.bind_eq_ok, Res.pure_def, Res.ok_inj] at h
  obtain ⟨F1, h1, _, _, _, _, _, _, _, _, _, _, _, _, rfl⟩ := h
  obtain ⟨k1, k2⟩ := coarsen_keeps h1
  exact ⟨k1.trans _ _ _ (.of (.inl rfl) (.inl rfl) rfl (.inl rfl) (.inl rfl) (.inl rfl)), k2⟩

theorem coarsenUpPatch_keeps {p q : Patch K} (h : coarsenUpPatch p = .ok q) : PatchKeeps p q := by
  refine forN_inv PatchKeeps PatchKeeps.refl PatchKeeps.trans (fun i s s' hs => ?_) h
  unfold coarsenUpStep at hs
  simp only [Res.bind_eq_ok, Res.pure_def, Res.ok_inj] at hs
  obtain ⟨_, _, _, _, _, h1, rfl⟩ := hs
  exact .of (.inl rfl) (.inl rfl) rfl (.inl rfl) (.inr (mulVec_wf h1)) (.inl rfl)

theorem coarsenUp_keeps {F G : Fam (Patch K)} (h : coarsenUp F = .ok G) : KeepsFam F G := by
  unfold coarsenUp at h
  simp only [Res.bind_eq_ok, Res.pure_def, Res.ok_inj] at h
  obtain ⟨a, ha, b, hb, c, hc, d, hd, rfl⟩ := h
  exact ⟨.refl _, coarsenUpPatch_keeps ha, coarsenUpPatch_keeps hb, coarsenUpPatch_keeps hc, coarsenUpPatch_keeps hd⟩

theorem mergeW_wf {lap : Lapack K} {I : IndexSets} {F : Fam (Patch K)} {X : Mat K} {w : Vec K} (h : mergeW lap I F X = .ok w) : w.WF := by
  unfold mergeW at h
  simp only [Res.bind_eq_ok] at h
  obtain ⟨_, _, _, _, _, _, _, _, _, _, _, _, _, _, _, _, _, _, _, _, _, _, _, _, _, h1, h2⟩ := h
  exact (solveVec_len h2).wf (Vec.concatenate_wf h1)

theorem mergeH_wf {I : IndexSets} {F : Fam (Patch K)} {w h : Vec K} (hh : mergeH I F w = .ok h) : h.WF := by
  unfold mergeH at hh
  simp only [Res.bind_eq_ok] at hh
  obtain ⟨_, h1, _, _, _, _, _, _, _, _, _, _, h2⟩ := hh
  exact (Vec.addAssign_len h2).wf (mulVec_wf h1)

theorem reorderUp_wf {F : Fam (Patch K)} {h h' : Vec K} (hh : reorderUp F h = .ok h') : h'.WF := by
  unfold reorderUp at hh
  split at hh
  · cases hh
  · exact Vec.blockPermute_wf hh

theorem upwards4to1_keeps {lap : Lapack K} {opt : HPSOptions} {F G : Fam (Patch K)} (h : upwards4to1 lap opt F = .ok G) :
    KeepsFam F G := by
  unfold upwards4to1 at h
  split at h
  · rw [← Res.ok_inj.mp h]
    exact ⟨.refl _, .refl _, .refl _, .refl _, .refl _⟩
  · simp only [Res.bind_eq_ok, Res.pure_def, Res.ok_inj] at h
    obtain ⟨F1, h1, _, _, _, _, _, _, w, hw, h, _, h', hh, rfl⟩ := h
    obtain ⟨k1, k2⟩ := coarsenUp_keeps h1
    exact ⟨k1.trans _ _ _ (.of (.inl rfl) (.inl rfl) rfl (.inl rfl) (.inr (reorderUp_wf hh)) (.inr (mergeW_wf hw))), k2⟩

theorem uncoarsen_keeps {p q : Patch K} (h : uncoarsen p = .ok q) : PatchKeeps p q := by
  refine forN_inv PatchKeeps PatchKeeps.refl PatchKeeps.trans (fun i s s' hs => ?_) h
  unfold uncoarsenStep at hs
  simp only [Res.bind_eq_ok, Res.pure_def, Res.ok_inj] at hs
  obtain ⟨_, _, _, _, _, h1, rfl⟩ := hs
  exact .of (.inl rfl) (.inr (mulVec_wf h1)) rfl (.inl rfl) (.inl rfl) (.inl rfl)

theorem applyS_keeps {opt : HPSOptions} {F G : Fam (Patch K)} (h : applyS opt F = .ok G) : KeepsFam F G := by
  unfold applyS at h
  simp only [Res.bind_eq_ok, Res.pure_def, Res.ok_inj] at h
  obtain ⟨_, _, _, _, _, _, _, _, _, _, _, _, _, _, _, _, _, _, _, _, _, _, _, _, _, _, ga, ha, gb, hb, gc, hc, gd, hd, rfl⟩ := h
  exact ⟨.refl _, .of (.inl rfl) (.inr (Vec.concatenate_wf ha)) rfl (.inl rfl) (.inl rfl) (.inl rfl),
    .of (.inl rfl) (.inr (Vec.concatenate_wf hb)) rfl (.inl rfl) (.inl rfl) (.inl rfl),
    .of (.inl rfl) (.inr (Vec.concatenate_wf hc)) rfl (.inl rfl) (.inl rfl) (.inl rfl),
    .of (.inl rfl) (.inr (Vec.concatenate_wf hd)) rfl (.inl rfl) (.inl rfl) (.inl rfl)⟩

theorem split1to4_keeps {opt : HPSOptions} {F G : Fam (Patch K)} (h : split1to4 opt F = .ok G) : KeepsFam F G := by
  unfold split1to4 at h
  simp only [Res.bind_eq_ok] at h
  obtain ⟨t, ht, h1⟩ := h
  obtain ⟨k1, k2⟩ := applyS_keeps h1
  exact ⟨(uncoarsen_keeps ht).trans _ _ _ k1, k2⟩

theorem sampleLoad_wf {f : K → K → K} {grid : Grid K} {F : Vec K} (h : sampleLoad f grid = .ok F) : F.WF := by
  refine (Vec.forN_len (fun i s s' hs => ?_) h).wf (Vec.wf_zeros _)
  simp only [Res.bind_eq_ok] at hs
  obtain ⟨_, _, h1⟩ := hs
  refine Vec.forN_len (fun j s s' hs => ?_) h1
  simp only [Res.bind_eq_ok] at hs
  obtain ⟨_, _, h2⟩ := hs
  exact Vec.set_len h2

end HPS

/-- The vectors a patch solver returns have the length they say. -/
structure SoundSolver (ps : PatchSolver K) : Prop where
  flux : ∀ grid f h, ps.particularNeumannData grid f = .ok h → h.WF
  solve : ∀ grid g f u, ps.solve grid g f = .ok u → u.WF

namespace HPS

theorem upwardsLeafAnalytic_keeps {ps : PatchSolver K} (hs : SoundSolver ps) {f : K → K → K} {p q : Patch K}
    (h : upwardsLeafAnalytic ps f p = .ok q) : PatchKeeps p q := by
  unfold upwardsLeafAnalytic at h
  simp only [Res.bind_eq_ok, Res.pure_def, Res.ok_inj] at h
  obtain ⟨F, h1, h', h2, rfl⟩ := h
  exact .of (.inl rfl) (.inl rfl) rfl (.inr (sampleLoad_wf h1)) (.inr (hs.flux _ _ _ h2)) (.inl rfl)

theorem upwardsLeaf_keeps {ps : PatchSolver K} (hs : SoundSolver ps) {rhs : Patch K → Res (Patch K)}
    (hr : ∀ p q, rhs p = .ok q → PatchKeeps p q) {p q : Patch K} (h : upwardsLeaf ps rhs p = .ok q) : PatchKeeps p q := by
  unfold upwardsLeaf at h
  simp only [Res.bind_eq_ok, Res.pure_def, Res.ok_inj] at h
  obtain ⟨p1, h1, h', h2, rfl⟩ := h
  exact (hr _ _ h1).trans _ _ _ (.of (.inl rfl) (.inl rfl) rfl (.inl rfl) (.inr (hs.flux _ _ _ h2)) (.inl rfl))

theorem leafSolve_keeps {ps : PatchSolver K} (hs : SoundSolver ps) {opt : HPSOptions} {p q : Patch K}
    (h : leafSolve ps opt p = .ok q) : PatchKeeps p q := by
  unfold leafSolve at h
  simp only [Res.bind_eq_ok, Res.pure_def, Res.ok_inj] at h
  obtain ⟨u, h1, rfl⟩ := h
  have hu := hs.solve _ _ _ _ h1
  split
  · exact .of (.inr hu) (.inl rfl) rfl (.inr (Vec.wf_fill _ _)) (.inl rfl) (.inl rfl)
  · exact .of (.inr hu) (.inl rfl) rfl (.inl rfl) (.inl rfl) (.inl rfl)

theorem rootDirichlet_wf {lap : Lapack K} {bc : BoundaryFn K} {root : Patch K} {g : Vec K} (h : rootDirichlet lap bc root = .ok g) :
    g.WF := by
  unfold rootDirichlet at h
  simp only [Res.bind_eq_ok] at h
  obtain ⟨r, hr, _, _, _, _, _, _, _, _, _, _, rhs, h1, _, _, _, _, h2⟩ := h
  refine (solveVec_len h2).wf ((Vec.sub_len h1).wf ?_)
  unfold boundaryVec at hr
  simp only [Res.bind_eq_ok] at hr
  obtain ⟨_, _, _, _, _, _, _, _, h3⟩ := hr
  exact Vec.concatenate_wf h3

end HPS

namespace FVSolver

theorem mapD2NWith_wf {sv : Grid K → Vec K → Vec K → Res (Vec K)} {grid : Grid K} {g f h : Vec K} (hh : mapD2NWith sv grid g f = .ok h) :
    h.WF := by
  unfold mapD2NWith at hh
  simp only [Res.bind_eq_ok] at hh
  obtain ⟨_, _, _, _, _, _, _, _, _, _, _, _, _, _, _, h1, _, h2, _, h3, h4⟩ := hh
  exact (Vec.setSegment_len h4).wf ((Vec.setSegment_len h3).wf ((Vec.setSegment_len h2).wf ((Vec.setSegment_len h1).wf (Vec.wf_zeros _))))

/-- The finite volume solver returns sound vectors. -/
theorem toPatchSolver_sound (lu : PetscLU K) (s : FVSolver K) : SoundSolver (s.toPatchSolver lu) where
  flux _ _ _ h := mapD2NWith_wf h
  solve grid g f u h := by
    change solve lu s grid g f = .ok u at h
    unfold solve at h
    simp only [Res.bind_eq_ok, Res.pure_def, Res.ok_inj] at h
    obtain ⟨_, _, _, _, rfl⟩ := h
    exact Vec.wf_ofList _

/-- So it does for either type of the leaf solver. -/
theorem patchSolver_sound [LinearOrder K] (lu : PetscLU K) (hst : Hstcrt K) (kind : Kind) (s : FVSolver K) :
    SoundSolver (s.patchSolver lu hst kind) where
  flux _ _ _ h := mapD2NWith_wf h
  solve grid g f u h := by
    change solveKind lu hst kind s grid g f = .ok u at h
    cases kind with
    | FivePointStencil => exact (toPatchSolver_sound lu s).solve _ _ _ _ h
    | FISHPACK90 =>
      change solveFish hst s grid g f = .ok u at h
      unfold solveFish at h
      simp only [Res.bind_eq_ok] at h
      obtain ⟨_, _, _, _, _, _, h1⟩ := h
      refine (Vec.forN_len (fun i s s' hs => ?_) h1).wf (Vec.wf_zeros _)
      refine Vec.forN_len (fun j s s' hs => ?_) hs
      simp only [Res.bind_eq_ok] at hs
      obtain ⟨_, _, h2⟩ := hs
      exact Vec.set_len h2

end FVSolver

end field

end EF
