import Verif.Spec.Comm
import Verif.Proofs.QuadParallel

/-!
# The constructor creates its communicators in one order on all ranks
-/

namespace EF

variable {T K α β γ : Type}

theorem CommProg.bind_assoc' (p : CommProg α) (f : α → CommProg β) (g : β → CommProg γ) :
    (p.bind f).bind g = p.bind (fun a => (f a).bind g) := by
  induction p with
  | fin a => cases a <;> rfl
  | create lo hi tag k ih => simp only [CommProg.bind, ih]

theorem CommProg.bind_pure' (p : CommProg α) : p.bind (fun a => .fin (.ok a)) = p := by
  induction p with
  | fin a => cases a <;> rfl
  | create lo hi tag k ih => simp only [CommProg.bind, ih]

instance : LawfulMonad CommProg := LawfulMonad.mk' CommProg
  (id_map := fun p => CommProg.bind_pure' p)
  (pure_bind := fun _ _ => rfl)
  (bind_assoc := CommProg.bind_assoc')

/-! ## What a rank ends with -/

/-- What the program ends with once all its communicators exist. -/
def CommProg.result : CommProg α → Res α
  | fin a => a
  | create _ _ _ k => k.result

theorem CommProg.result_bind (p : CommProg α) (f : α → CommProg β) : (p >>= f).result = p.result >>= fun a => (f a).result := by
  show (p.bind f).result = _
  induction p with
  | fin a => cases a <;> rfl
  | create lo hi tag k ih => simpa only [CommProg.bind, CommProg.result] using ih

theorem CommProg.result_foldlM {σ : Type} (f : σ → β → CommProg σ) (L : List β) (s : σ) :
    (L.foldlM f s).result = L.foldlM (fun s b => (f s b).result) s := by
  induction L generalizing s with
  | nil => rfl
  | cons b L ih =>
    rw [List.foldlM_cons, List.foldlM_cons, CommProg.result_bind]
    congr 1
    funext a
    exact ih a

theorem CommStep.result {c c' : Nat → CommProg α} (h : CommStep c c') (r : Nat) : (c' r).result = (c r).result := by
  cases h with
  | create lo hi tag k hle arr lv oth =>
    by_cases hr : lo ≤ r ∧ r ≤ hi
    · rw [lv r hr.1 hr.2, arr r hr.1 hr.2]
      rfl
    · rw [oth r hr]

theorem CommRun.result {n : Nat} {c c' : Nat → CommProg α} (h : CommRun n c c') (r : Nat) : (c' r).result = (c r).result := by
  induction h with
  | refl => rfl
  | step hs _ ih => rw [ih, hs.result r]

/-! ## Confluence -/

theorem CommStep.diamond {c c1 c2 : Nat → CommProg α} (h1 : CommStep c c1) (h2 : CommStep c c2) :
    c1 = c2 ∨ ∃ d, CommStep c1 d ∧ CommStep c2 d := by
  cases h1 with
  | create lo hi tag k hle arr lv oth =>
    cases h2 with
    | create lo' hi' tag' k' hle' arr' lv' oth' =>
      by_cases hx : ∃ r, (lo ≤ r ∧ r ≤ hi) ∧ (lo' ≤ r ∧ r ≤ hi')
      · obtain ⟨r, ⟨a1, a2⟩, b1, b2⟩ := hx
        have := (arr r a1 a2).symm.trans (arr' r b1 b2)
        injection this with e1 e2 e3 e4
        subst e1 e2
        left
        funext q
        by_cases hq : lo ≤ q ∧ q ≤ hi
        · rw [lv q hq.1 hq.2, lv' q hq.1 hq.2]
          have := (arr q hq.1 hq.2).symm.trans (arr' q hq.1 hq.2)
          injection this
        · rw [oth q hq, oth' q hq]
      · right
        push Not at hx
        refine ⟨fun q => if lo' ≤ q ∧ q ≤ hi' then k' q else c1 q,
          .create lo' hi' tag' k' hle' ?_ ?_ ?_, .create lo hi tag k hle ?_ ?_ ?_⟩
        · intro r h h'
          rw [oth r (fun hh => absurd h' (not_le.mpr (hx r hh h))), arr' r h h']
        · intro r h h'
          exact if_pos ⟨h, h'⟩
        · intro r h
          exact if_neg h
        · intro r h h'
          have hn : ¬ (lo' ≤ r ∧ r ≤ hi') := fun hh => absurd hh.2 (not_le.mpr (hx r ⟨h, h'⟩ hh.1))
          rw [oth' r hn, arr r h h']
        · intro r h h'
          have hn : ¬ (lo' ≤ r ∧ r ≤ hi') := fun hh => absurd hh.2 (not_le.mpr (hx r ⟨h, h'⟩ hh.1))
          show (if _ then _ else _) = _
          rw [if_neg hn, lv r h h']
        · intro r h
          show (if _ then _ else _) = _
          split
          · rename_i hh
            rw [lv' r hh.1 hh.2]
          · rename_i hh
            rw [oth r h, oth' r hh]

theorem CommStep.not_done {c c' : Nat → CommProg α} (h : ∀ r, ∃ x, c r = .fin x) : ¬ CommStep c c' := by
  intro hs
  cases hs with
  | create lo hi tag k hle arr _ _ =>
    obtain ⟨x, hx⟩ := h lo
    rw [arr lo (le_refl _) hle] at hx
    cases hx

theorem CommRun.trans {n n' : Nat} {a b c : Nat → CommProg α} (h : CommRun n a b) (h' : CommRun n' b c) : CommRun (n' + n) a c := by
  induction h with
  | refl => exact h'
  | step hs _ ih => exact .step hs (ih h')

theorem CommRun.front {n : Nat} {a b z : Nat → CommProg α} (h : CommRun n a z) (hz : ∀ r, ∃ x, z r = .fin x) (hs : CommStep a b) :
    ∃ n', n = n' + 1 ∧ CommRun n' b z := by
  induction h generalizing b with
  | refl => exact absurd hs (CommStep.not_done hz)
  | step h1 rest ih =>
    rename_i n c c' c''
    rcases h1.diamond hs with rfl | ⟨d, e1, e2⟩
    · exact ⟨n, rfl, rest⟩
    · obtain ⟨n', rfl, hr⟩ := ih hz e1
      exact ⟨n' + 1, rfl, .step e2 hr⟩

/-- When one run ends, every run can be completed to that same end. -/
theorem CommRun.all {n k : Nat} {a b z : Nat → CommProg α} (h : CommRun n a z) (hz : ∀ r, ∃ x, z r = .fin x) (hb : CommRun k a b) :
    k ≤ n ∧ CommRun (n - k) b z := by
  induction hb generalizing n with
  | refl => exact ⟨by omega, h⟩
  | step hs _ ih =>
    obtain ⟨n', rfl, hr⟩ := h.front hz hs
    obtain ⟨e1, e2⟩ := ih hr
    exact ⟨by omega, by rwa [Nat.add_sub_add_right]⟩

/-! ## Ranks running together -/

/-- The ranks of `S`, running `p` and then anything, come together to the values `v`; the other ranks do nothing. -/
def CommRuns (S : Nat → Prop) (p : Nat → CommProg β) (v : Nat → β) : Prop :=
  ∀ (α : Type) (κ : Nat → β → CommProg α) (c : Nat → CommProg α), (∀ r, S r → c r = p r >>= κ r) →
    ∃ n c', CommRun n c c' ∧ (∀ r, S r → c' r = κ r (v r)) ∧ ∀ r, ¬ S r → c' r = c r

theorem CommRuns.pure {S : Nat → Prop} {p : Nat → CommProg β} {v : Nat → β} (h : ∀ r, S r → p r = Pure.pure (v r)) : CommRuns S p v := by
  intro α κ c hc
  refine ⟨0, c, .refl c, fun r hr => ?_, fun r _ => rfl⟩
  rw [hc r hr, h r hr]
  rfl

theorem CommRuns.bind {S : Nat → Prop} {p : Nat → CommProg β} {v : Nat → β} {q : Nat → β → CommProg γ} {w : Nat → γ}
    (h : CommRuns S p v) (h' : CommRuns S (fun r => q r (v r)) w) : CommRuns S (fun r => p r >>= q r) w := by
  intro α κ c hc
  obtain ⟨n, c1, r1, e1, f1⟩ := h α (fun r b => q r b >>= κ r) c (fun r hr => by rw [hc r hr, bind_assoc])
  obtain ⟨n', c2, r2, e2, f2⟩ := h' α κ c1 e1
  exact ⟨n' + n, c2, r1.trans r2, e2, fun r hr => (f2 r hr).trans (f1 r hr)⟩

theorem CommRuns.congr {S : Nat → Prop} {p p' : Nat → CommProg β} {v v' : Nat → β} (h : CommRuns S p v) (hp : ∀ r, S r → p' r = p r)
    (hv : ∀ r, S r → v' r = v r) : CommRuns S p' v' := by
  intro α κ c hc
  obtain ⟨n, c', h1, h2, h3⟩ := h α κ c (fun r hr => by rw [hc r hr, hp r hr])
  exact ⟨n, c', h1, fun r hr => by rw [h2 r hr, hv r hr], h3⟩

/-- Further ranks may skip the work. -/
theorem CommRuns.mono {S S' : Nat → Prop} {p : Nat → CommProg β} {v : Nat → β} (h : CommRuns S p v) (hS : ∀ r, S r → S' r)
    (hp : ∀ r, S' r → ¬ S r → p r = Pure.pure (v r)) : CommRuns S' p v := by
  intro α κ c hc
  obtain ⟨n, c', h1, h2, h3⟩ := h α κ c (fun r hr => hc r (hS r hr))
  refine ⟨n, c', h1, fun r hr => ?_, fun r hr => h3 r (fun h => hr (hS r h))⟩
  by_cases hs : S r
  · exact h2 r hs
  · rw [h3 r hs, hc r hr, hp r hr hs]
    rfl

theorem CommRuns.create {lo hi : Nat} (hle : lo ≤ hi) (tag : Nat) (v : Nat → β) :
    CommRuns (fun r => lo ≤ r ∧ r ≤ hi) (fun r => CommProg.create lo hi tag (.fin (.ok (v r)))) v := by
  intro α κ c hc
  refine ⟨1, fun r => if lo ≤ r ∧ r ≤ hi then κ r (v r) else c r, .step ?_ (.refl _), fun r hr => if_pos hr, fun r hr => if_neg hr⟩
  exact .create lo hi tag (fun r => κ r (v r)) hle (fun r h h' => by rw [hc r ⟨h, h'⟩]; rfl) (fun r h h' => if_pos ⟨h, h'⟩)
    (fun r h => if_neg h)

/-! ## The constructor -/

/-- Whether the rank is in the range of owners of the visited quadrant. -/
def Visit.Owned (r : Nat) (v : Visit) : Prop := v.pfirst ≤ r ∧ r ≤ v.plast

instance (r : Nat) (v : Visit) : Decidable (v.Owned r) := inferInstanceAs (Decidable (_ ∧ _))

/-- Number of visited quadrants the rank owns. -/
def ownedCount (r : Nat) (L : List Visit) : Nat := L.countP (fun v => decide (v.Owned r))

theorem ownedCount_cons (r : Nat) (v : Visit) (L : List Visit) :
    ownedCount r (v :: L) = ownedCount r L + if v.pfirst ≤ r ∧ r ≤ v.plast then 1 else 0 := by
  unfold ownedCount
  rw [List.countP_cons]
  by_cases h : v.pfirst ≤ r ∧ r ≤ v.plast
  · rw [if_pos h, if_pos (decide_eq_true (show v.Owned r from h))]
  · rw [if_neg h, if_neg (fun hh => h (of_decide_eq_true hh : v.Owned r))]

theorem ownedCount_append (r : Nat) (L L' : List Visit) : ownedCount r (L ++ L') = ownedCount r L + ownedCount r L' :=
  List.countP_append

theorem visit_result {M size r : Nat} {nullName : Res Unit} {d : T} {nf : NodeFactory T} {m m' : NodeMap T} {u : Usage} {v : Visit}
    (hv : v.pfirst ≤ v.plast ∧ v.plast < size) (h : ctorVisit M r d nf m v = .ok m') :
    (ctorVisitComm M size r nullName d nf (m, u) v).result =
      if v.Owned r then .ok (m', ⟨u.nodes + 1, u.comms + 1⟩) else nullName >>= fun _ => .ok (m', u) := by
  unfold ctorVisitComm communicatorSubsetRange
  simp only [CommProg.result_bind, if_pos hv, h]
  by_cases ho : v.Owned r
  · have ho' : v.pfirst ≤ r ∧ r ≤ v.plast := ho
    rw [if_pos ho, if_pos ho', if_pos ho']
    rfl
  · have ho' : ¬ (v.pfirst ≤ r ∧ r ≤ v.plast) := ho
    rw [if_neg ho, if_neg ho', if_neg ho']
    cases nullName <;> rfl

/-- Under the standard: the constructor ends well only when every quadrant it visits is owned. -/
theorem fold_strict {M size r : Nat} {d : T} {nf : NodeFactory T} {L : List Visit} (hL : ∀ v ∈ L, v.pfirst ≤ v.plast ∧ v.plast < size)
    {m m' : NodeMap T} (u : Usage) (h : L.foldlM (ctorVisit M r d nf) m = .ok m') :
    (L.foldlM (ctorVisitComm M size r .ub d nf) (m, u)).result =
      if ∀ v ∈ L, v.Owned r then .ok (m', ⟨u.nodes + L.length, u.comms + L.length⟩) else .ub := by
  induction L generalizing m u with
  | nil =>
    simp only [List.foldlM_nil, Res.pure_def, Res.ok_inj] at h
    subst h
    simp
    rfl
  | cons v L ih =>
    simp only [List.foldlM_cons, Res.bind_eq_ok] at h
    obtain ⟨m1, e1, e2⟩ := h
    rw [List.foldlM_cons, CommProg.result_bind, visit_result (hL v (by simp)) e1]
    by_cases ho : v.Owned r
    · rw [if_pos ho, Res.ok_bind, ih (fun w hw => hL w (by simp [hw])) _ e2]
      simp only [List.mem_cons, forall_eq_or_imp, ho, true_and, List.length_cons]
      congr 4 <;> omega
    · rw [if_neg ho, if_neg (fun hh => ho (hh v (by simp)))]
      rfl

/-- With an MPI that does not mind. -/
theorem fold_lenient {M size r : Nat} {d : T} {nf : NodeFactory T} {L : List Visit} (hL : ∀ v ∈ L, v.pfirst ≤ v.plast ∧ v.plast < size)
    {m m' : NodeMap T} (u : Usage) (h : L.foldlM (ctorVisit M r d nf) m = .ok m') :
    (L.foldlM (ctorVisitComm M size r (.ok ()) d nf) (m, u)).result =
      .ok (m', ⟨u.nodes + ownedCount r L, u.comms + ownedCount r L⟩) := by
  induction L generalizing m u with
  | nil =>
    simp only [List.foldlM_nil, Res.pure_def, Res.ok_inj] at h
    subst h
    rfl
  | cons v L ih =>
    simp only [List.foldlM_cons, Res.bind_eq_ok] at h
    obtain ⟨m1, e1, e2⟩ := h
    rw [List.foldlM_cons, CommProg.result_bind, visit_result (hL v (by simp)) e1]
    unfold ownedCount at *
    by_cases ho : v.Owned r
    · rw [if_pos ho, Res.ok_bind, ih (fun w hw => hL w (by simp [hw])) _ e2, List.countP_cons, if_pos (by simpa using ho)]
      dsimp only
      congr 3 <;> omega
    · rw [if_neg ho, Res.ok_bind, Res.ok_bind, ih (fun w hw => hL w (by simp [hw])) _ e2, List.countP_cons, if_neg (by simpa using ho)]
      rfl

/-- Where every visited quadrant is owned, no null communicator is named. -/
theorem fold_owned {M size r : Nat} {nullName nullName' : Res Unit} {d : T} {nf : NodeFactory T} (L : List Visit)
    (s : NodeMap T × Usage) (hL : ∀ v ∈ L, v.Owned r) :
    L.foldlM (ctorVisitComm M size r nullName d nf) s = L.foldlM (ctorVisitComm M size r nullName' d nf) s := by
  induction L generalizing s with
  | nil => rfl
  | cons v L ih =>
    have hv : v.pfirst ≤ r ∧ r ≤ v.plast := hL v (by simp)
    rw [List.foldlM_cons, List.foldlM_cons]
    have : ctorVisitComm M size r nullName d nf s v = ctorVisitComm M size r nullName' d nf s v := by
      unfold ctorVisitComm communicatorSubsetRange
      simp only [if_pos hv]
    rw [this]
    congr 1
    funext s'
    exact ih s' (fun w hw => hL w (by simp [hw]))

theorem searchAll_ranges {M r : Nat} {F : Forest} (hs : F.Sorted) (q : Quadrant) :
    ∀ v ∈ searchAll M r F q, F.first ≤ v.pfirst ∧ v.pfirst ≤ v.plast ∧ v.plast ≤ F.last := by
  induction F generalizing q with
  | leaf k =>
    intro v hv
    simp only [searchAll, List.mem_singleton] at hv
    subst hv
    exact ⟨le_refl _, le_refl _, le_refl _⟩
  | node c0 c1 c2 c3 h0 h1 h2 h3 =>
    obtain ⟨s0, s1, s2, s3⟩ := hs.kids
    have kid := fun G hG => hs.kid_range G hG
    intro v hv
    simp only [searchAll, List.mem_cons] at hv
    rcases hv with rfl | hv
    · exact ⟨le_refl _, hs.first_le_last, le_refl _⟩
    · split at hv
      · simp at hv
      · simp only [List.mem_append] at hv
        rcases hv with ((hv | hv) | hv) | hv
        · have a := h0 s0 _ v hv; have b := kid c0 (by simp); omega
        · have a := h1 s1 _ v hv; have b := kid c1 (by simp); omega
        · have a := h2 s2 _ v hv; have b := kid c2 (by simp); omega
        · have a := h3 s3 _ v hv; have b := kid c3 (by simp); omega

theorem spanned_zero {r : Nat} {F : Forest} (hs : F.Sorted) (h : ¬ F.Spans r) : F.spanned r = 0 := by
  induction F with
  | leaf k =>
    simp only [Forest.spanned]
    rw [if_neg]
    rintro rfl
    exact h ⟨le_refl _, le_refl _⟩
  | node c0 c1 c2 c3 h0 h1 h2 h3 =>
    obtain ⟨s0, s1, s2, s3⟩ := hs.kids
    have no : ∀ {G : Forest}, (G = c0 ∨ G = c1 ∨ G = c2 ∨ G = c3) → ¬ G.Spans r := by
      intro G hG hsp
      obtain ⟨x, _, y⟩ := hs.kid_range G hG
      exact h ⟨le_trans x hsp.1, le_trans hsp.2 y⟩
    simp only [Forest.spanned]
    rw [if_neg (show ¬ (c0.first ≤ r ∧ r ≤ c3.last) from h), h0 s0 (no (by simp)), h1 s1 (no (by simp)), h2 s2 (no (by simp)), h3 s3 (no (by simp))]

theorem ownedCount_searchAll {M r : Nat} {F : Forest} (hs : F.Sorted) (q : Quadrant) :
    ownedCount r (searchAll M r F q) = F.spanned r := by
  induction F generalizing q with
  | leaf k =>
    rw [searchAll, ownedCount_cons, Forest.spanned]
    show 0 + _ = _
    by_cases h : k = r
    · rw [if_pos (by simp only; omega), if_pos h]
    · rw [if_neg (by simp only; omega), if_neg h]
  | node c0 c1 c2 c3 h0 h1 h2 h3 =>
    obtain ⟨s0, s1, s2, s3⟩ := hs.kids
    by_cases hd : c0.first = c3.last ∧ c0.first ≠ r
    · have hn : ¬ (Forest.node c0 c1 c2 c3).Spans r := by
        rintro ⟨a, b⟩
        simp only [Forest.first, Forest.last] at a b
        omega
      rw [spanned_zero hs hn, searchAll, if_pos hd, ownedCount_cons]
      show 0 + (if c0.first ≤ r ∧ r ≤ c3.last then 1 else 0) = 0
      rw [if_neg (show ¬ (c0.first ≤ r ∧ r ≤ c3.last) from hn)]
    · rw [searchAll, if_neg hd, ownedCount_cons]
      simp only [ownedCount_append, h0 s0, h1 s1, h2 s2, h3 s3, Forest.spanned]
      omega

/-- Every quadrant a rank visits is its own only when all leaves are. -/
theorem all_owned {M r : Nat} {F : Forest} (hs : F.Sorted) (q : Quadrant) (h : ∀ v ∈ searchAll M r F q, v.Owned r) :
    ∀ k ∈ F.ranks, k = r := by
  induction F generalizing q with
  | leaf k =>
    intro j hj
    simp only [Forest.ranks, List.mem_singleton] at hj
    subst hj
    have := h ⟨q, j, j, decide (j = r)⟩ (by simp [searchAll])
    exact le_antisymm this.1 this.2
  | node c0 c1 c2 c3 h0 h1 h2 h3 =>
    obtain ⟨s0, s1, s2, s3⟩ := hs.kids
    have hroot : c0.first ≤ r ∧ r ≤ c3.last := h ⟨q, c0.first, c3.last, false⟩ (by simp [searchAll])
    rw [searchAll] at h
    rw [if_neg (by omega)] at h
    simp only [List.mem_cons, List.mem_append] at h
    have a0 := h0 s0 (q.child M 0) (fun v hv => h v (by simp [hv]))
    have a1 := h1 s1 (q.child M 1) (fun v hv => h v (by simp [hv]))
    have a2 := h2 s2 (q.child M 2) (fun v hv => h v (by simp [hv]))
    have a3 := h3 s3 (q.child M 3) (fun v hv => h v (by simp [hv]))
    intro k hk
    simp only [Forest.ranks, List.mem_append] at hk
    rcases hk with ((hk | hk) | hk) | hk
    · exact a0 k hk
    · exact a1 k hk
    · exact a2 k hk
    · exact a3 k hk

theorem all_owned_iff {M r : Nat} {F : Forest} (hs : F.Sorted) (q : Quadrant) :
    (∀ v ∈ searchAll M r F q, v.Owned r) ↔ ∀ k ∈ F.ranks, k = r := by
  refine ⟨all_owned hs q, fun h v hv => ?_⟩
  have a := searchAll_ranges hs q v hv
  have b := h _ (Forest.last_mem F)
  have c := h _ (Forest.first_mem F)
  constructor <;> omega

/-- All ranks meet at the communicators of the quadrants below `F`. -/
theorem ctor_meets {M size : Nat} {d : T} {nf : NodeFactory T} (F : Forest) (hs : F.Sorted) (hlt : F.last < size) (q : Quadrant)
    {S : Nat → Prop} (hS : ∀ r, F.Spans r → S r) {m m' : Nat → NodeMap T} (u : Nat → Usage)
    (h : ∀ r, S r → (searchAll M r F q).foldlM (ctorVisit M r d nf) (m r) = .ok (m' r)) :
    CommRuns S (fun r => (searchAll M r F q).foldlM (ctorVisitComm M size r (.ok ()) d nf) (m r, u r))
      (fun r => (m' r, ⟨(u r).nodes + F.spanned r, (u r).comms + F.spanned r⟩)) := by
  -- one visit
  have visit : ∀ (v : Nat → Visit) (lo hi : Nat) (S : Nat → Prop), lo ≤ hi → hi < size → (∀ r, lo ≤ r ∧ r ≤ hi → S r) →
      (∀ r, (v r).pfirst = lo ∧ (v r).plast = hi) → ∀ (m m' : Nat → NodeMap T) (u : Nat → Usage),
      (∀ r, S r → ctorVisit M r d nf (m r) (v r) = .ok (m' r)) →
      CommRuns S (fun r => ctorVisitComm M size r (.ok ()) d nf (m r, u r) (v r))
        (fun r => (m' r, ⟨(u r).nodes + (if lo ≤ r ∧ r ≤ hi then 1 else 0), (u r).comms + (if lo ≤ r ∧ r ≤ hi then 1 else 0)⟩)) := by
    intro v lo hi S hle hlt hS hv m m' u hc
    refine CommRuns.mono (S := fun r => lo ≤ r ∧ r ≤ hi) ?_ hS ?_
    · refine CommRuns.congr (CommRuns.create hle 0 _) (fun r hr => ?_) (fun r _ => rfl)
      unfold ctorVisitComm communicatorSubsetRange
      simp only [(hv r).1, (hv r).2, if_pos (And.intro hle hlt), if_pos hr, hc r (hS r hr)]
      rfl
    · intro r hr hn
      unfold ctorVisitComm communicatorSubsetRange
      simp only [(hv r).1, (hv r).2, if_pos (And.intro hle hlt), if_neg hn, hc r hr]
      rfl
  induction F generalizing q S m m' u with
  | leaf k =>
    have := visit (fun r => ⟨q, k, k, decide (k = r)⟩) k k S (le_refl _) hlt (fun r hr => hS r hr) (fun r => ⟨rfl, rfl⟩) m m' u
      (fun r hr => by
        have := h r hr
        simp only [searchAll, List.foldlM_cons, List.foldlM_nil] at this
        rwa [bind_pure] at this)
    refine this.congr (fun r hr => ?_) (fun r _ => ?_)
    · simp only [searchAll, List.foldlM_cons, List.foldlM_nil, bind_pure]
    · have : (if k = r then 1 else 0) = if k ≤ r ∧ r ≤ k then 1 else 0 := by
        by_cases hk : k = r
        · rw [if_pos hk, if_pos (by omega)]
        · rw [if_neg hk, if_neg (by omega)]
      simp only [Forest.spanned, this]
  | node c0 c1 c2 c3 h0 h1 h2 h3 =>
    obtain ⟨s0, s1, s2, s3⟩ := hs.kids
    have kid := fun G hG => hs.kid_range G hG
    have hle := hs.first_le_last
    simp only [Forest.first, Forest.last] at hle hlt
    let D : Nat → Prop := fun r => S r ∧ ¬ (c0.first = c3.last ∧ c0.first ≠ r)
    have hD : ∀ G, (G = c0 ∨ G = c1 ∨ G = c2 ∨ G = c3) → ∀ r, G.Spans r → D r := by
      intro G hG r hr
      obtain ⟨x, y, z⟩ := kid G hG
      have := hr.1; have := hr.2
      refine ⟨hS r ⟨by omega, by omega⟩, ?_⟩
      simp only [Forest.first, Forest.last] at x z
      omega
    -- split the work of a rank
    have parts : ∀ r, ∃ x0 x1 x2 x3 x4, S r → (ctorVisit M r d nf (m r) ⟨q, c0.first, c3.last, false⟩ = .ok x0 ∧
        (D r → (searchAll M r c0 (q.child M 0)).foldlM (ctorVisit M r d nf) x0 = .ok x1 ∧
          (searchAll M r c1 (q.child M 1)).foldlM (ctorVisit M r d nf) x1 = .ok x2 ∧
          (searchAll M r c2 (q.child M 2)).foldlM (ctorVisit M r d nf) x2 = .ok x3 ∧
          (searchAll M r c3 (q.child M 3)).foldlM (ctorVisit M r d nf) x3 = .ok x4) ∧
        (¬ D r → x1 = x0 ∧ x2 = x0 ∧ x3 = x0 ∧ x4 = x0) ∧ m' r = x4) := by
      intro r
      by_cases hr : S r
      · have hh := h r hr
        rw [searchAll, List.foldlM_cons, Res.bind_eq_ok] at hh
        obtain ⟨x0, e0, hh⟩ := hh
        by_cases hd : c0.first = c3.last ∧ c0.first ≠ r
        · rw [if_pos hd] at hh
          simp only [List.foldlM_nil, Res.pure_def, Res.ok_inj] at hh
          exact ⟨x0, x0, x0, x0, x0, fun _ => ⟨e0, fun hx => absurd hd hx.2, fun _ => ⟨rfl, rfl, rfl, rfl⟩, hh.symm⟩⟩
        · rw [if_neg hd] at hh
          simp only [List.foldlM_append, Res.bind_eq_ok] at hh
          obtain ⟨x3, ⟨x2, ⟨x1, e1, e2⟩, e3⟩, e4⟩ := hh
          exact ⟨x0, x1, x2, x3, m' r, fun _ => ⟨e0, fun _ => ⟨e1, e2, e3, e4⟩, fun hx => absurd ⟨hr, hd⟩ hx, rfl⟩⟩
      · exact ⟨m r, m r, m r, m r, m r, fun hx => absurd hx hr⟩
    choose x0 x1 x2 x3 x4 hx using parts
    have R := visit (fun r => ⟨q, c0.first, c3.last, false⟩) c0.first c3.last S hle hlt (fun r hr => hS r hr) (fun r => ⟨rfl, rfl⟩) m x0 u
      (fun r hr => (hx r hr).1)
    let P : Forest → Quadrant → Nat → NodeMap T × Usage → CommProg (NodeMap T × Usage) := fun G q' r s =>
      if c0.first = c3.last ∧ c0.first ≠ r then pure s else (searchAll M r G q').foldlM (ctorVisitComm M size r (.ok ()) d nf) s
    have step : ∀ (G : Forest) (q' : Quadrant) (y y' : Nat → NodeMap T) (w : Nat → Usage),
        (G = c0 ∨ G = c1 ∨ G = c2 ∨ G = c3) → G.Sorted →
        (CommRuns D (fun r => (searchAll M r G q').foldlM (ctorVisitComm M size r (.ok ()) d nf) (y r, w r))
          (fun r => (y' r, ⟨(w r).nodes + G.spanned r, (w r).comms + G.spanned r⟩))) →
        (∀ r, S r → ¬ D r → y' r = y r) →
        CommRuns S (fun r => P G q' r (y r, w r))
          (fun r => (y' r, ⟨(w r).nodes + G.spanned r, (w r).comms + G.spanned r⟩)) := by
      intro G q' y y' w hG sG hR hy
      refine CommRuns.mono (hR.congr (fun r hr => if_neg hr.2) (fun _ _ => rfl)) (fun r hr => hr.1) ?_
      intro r hr hn
      have hd : c0.first = c3.last ∧ c0.first ≠ r := by
        by_contra hc
        exact hn ⟨hr, hc⟩
      show (if _ then _ else _) = _
      rw [if_pos hd, hy r hr hn, spanned_zero sG (fun hsp => hn (hD G hG r hsp))]
      rfl
    have k0 := kid c0 (by simp); have k1 := kid c1 (by simp); have k2 := kid c2 (by simp); have k3 := kid c3 (by simp)
    simp only [Forest.first, Forest.last] at k0 k1 k2 k3
    have R0 := fun w => step c0 (q.child M 0) x0 x1 w (by simp) s0 (h0 s0 (by omega) (q.child M 0) (hD c0 (by simp)) w
      (fun r hr => ((hx r hr.1).2.1 hr).1)) (fun r hr hn => ((hx r hr).2.2.1 hn).1)
    have R1 := fun w => step c1 (q.child M 1) x1 x2 w (by simp) s1 (h1 s1 (by omega) (q.child M 1) (hD c1 (by simp)) w
      (fun r hr => ((hx r hr.1).2.1 hr).2.1)) (fun r hr hn => by rw [((hx r hr).2.2.1 hn).2.1, ((hx r hr).2.2.1 hn).1])
    have R2 := fun w => step c2 (q.child M 2) x2 x3 w (by simp) s2 (h2 s2 (by omega) (q.child M 2) (hD c2 (by simp)) w
      (fun r hr => ((hx r hr.1).2.1 hr).2.2.1)) (fun r hr hn => by rw [((hx r hr).2.2.1 hn).2.2.1, ((hx r hr).2.2.1 hn).2.1])
    have R3 := fun w => step c3 (q.child M 3) x3 x4 w (by simp) s3 (h3 s3 (by omega) (q.child M 3) (hD c3 (by simp)) w
      (fun r hr => ((hx r hr.1).2.1 hr).2.2.2)) (fun r hr hn => by rw [((hx r hr).2.2.1 hn).2.2.2, ((hx r hr).2.2.1 hn).2.2.1])
    refine (CommRuns.bind (q := fun r s => P c0 (q.child M 0) r s >>= fun s => P c1 (q.child M 1) r s >>= fun s =>
      P c2 (q.child M 2) r s >>= fun s => P c3 (q.child M 3) r s) R
      (CommRuns.bind (q := fun r s => P c1 (q.child M 1) r s >>= fun s => P c2 (q.child M 2) r s >>= fun s =>
        P c3 (q.child M 3) r s) (R0 _)
        (CommRuns.bind (q := fun r s => P c2 (q.child M 2) r s >>= fun s => P c3 (q.child M 3) r s) (R1 _)
          (CommRuns.bind (q := fun r s => P c3 (q.child M 3) r s) (R2 _) (R3 _))))).congr ?_ ?_
    · intro r _
      rw [searchAll, List.foldlM_cons]
      by_cases hd : c0.first = c3.last ∧ c0.first ≠ r
      · simp only [P, if_pos hd, List.foldlM_nil, pure_bind]
      · simp only [P, if_neg hd, List.foldlM_append, bind_assoc]
    · intro r hr
      rw [(hx r hr).2.2.2]
      simp only [Forest.spanned]
      congr 2 <;> omega

end EF
