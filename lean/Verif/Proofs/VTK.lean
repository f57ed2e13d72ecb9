import Verif.Spec.VTK
import Verif.Proofs.XML

/-!
# Lemmas about the VTK writers
-/

namespace EF

/-! ## Cells -/

theorem alloc_cells (h : Heap) (n : XNode) (b : Nat) :
    (h.alloc n).1.cells b = if b = h.next then some n else h.cells b := rfl

theorem alloc_next (h : Heap) (n : XNode) : (h.alloc n).1.next = h.next + 1 := rfl

theorem addChild_self {h : Heap} {a : Nat} {n : XNode} (ha : h.cells a = some n) (c : Nat) :
    (h.addChild a c).cells a = some { n with children := n.children ++ [c] } := by
  show (if a = a then (h.cells a).map _ else _) = _
  rw [if_pos rfl, ha]
  rfl

theorem addChild_other (h : Heap) {a b : Nat} (hb : b ≠ a) (c : Nat) :
    (h.addChild a c).cells b = h.cells b := if_neg hb

theorem addChild_next (h : Heap) (a c : Nat) : (h.addChild a c).next = h.next := rfl

/-- From `h` to `h'` nothing that was there changed, except for the nodes in `S`. -/
structure Keeps (S : List Nat) (h h' : Heap) : Prop where
  next : h.next ≤ h'.next
  cells : ∀ b, b < h.next → b ∉ S → h'.cells b = h.cells b

theorem Keeps.refl (S : List Nat) (h : Heap) : Keeps S h h := ⟨Nat.le_refl _, fun _ _ _ => rfl⟩

theorem Keeps.trans {S : List Nat} {a b c : Heap} (h : Keeps S a b) (h' : Keeps S b c) : Keeps S a c :=
  ⟨Nat.le_trans h.next h'.next, fun x hx hs =>
    (h'.cells x (Nat.lt_of_lt_of_le hx h.next) hs).trans (h.cells x hx hs)⟩

theorem Keeps.mono {S S' : List Nat} {a b : Heap} (h : Keeps S a b) (hs : ∀ x ∈ S, x ∈ S') :
    Keeps S' a b := ⟨h.next, fun x hx hn => h.cells x hx (fun e => hn (hs x e))⟩

theorem Keeps.alloc (S : List Nat) (h : Heap) (n : XNode) : Keeps S h (h.alloc n).1 :=
  ⟨Nat.le_succ _, fun b hb _ => if_neg (Nat.ne_of_lt hb)⟩

theorem Keeps.addChild {S : List Nat} (h : Heap) {a : Nat} (ha : a ∈ S) (c : Nat) :
    Keeps S h (h.addChild a c) :=
  ⟨Nat.le_refl _, fun b _ hn => if_neg (fun e : b = a => hn (e ▸ ha))⟩

/-! ## Arrays -/

/-- The node made for an array. -/
def arrNode (a : DataArr) : XNode :=
  { name := "DataArray".toList
    attributes := [("type".toList, a.type), ("Name".toList, a.name),
      ("NumberOfComponents".toList, a.components), ("format".toList, a.format),
      ("RangeMin".toList, (a.range.getD ([], [])).1), ("RangeMax".toList, (a.range.getD ([], [])).2)]
    data := a.data }

def annNode (a : DataArr) : XNode :=
  { name := "PDataArray".toList
    attributes := [("type".toList, a.type), ("Name".toList, a.name),
      ("NumberOfComponents".toList, a.components), ("format".toList, a.format)] }

theorem toVTK_eq {a : DataArr} (ha : a.range.isSome) (h : Heap) :
    a.toVTK h = .ok (h.alloc (arrNode a)) := by
  unfold DataArr.toVTK arrNode
  cases hr : a.range with
  | none => rw [hr] at ha; cases ha
  | some r => rfl

theorem toPVTK_eq (a : DataArr) (h : Heap) : a.toPVTK h = .ok (h.alloc (annNode a)) := rfl

theorem addArrays_ok {f : DataArr → Heap → Res (Heap × Nat)} {g : DataArr → XNode} {node : Nat}
    (as : List DataArr) (hf : ∀ a ∈ as, ∀ h, f a h = .ok (h.alloc (g a))) (h : Heap) (n : XNode)
    (hn : h.cells node = some n) (hlt : node < h.next) :
    ∃ h' cs, addArrays f node as h = .ok h' ∧ Keeps [node] h h' ∧
      h'.cells node = some { n with children := n.children ++ cs } ∧
      List.Forall₂ (fun c a => h.next ≤ c ∧ c < h'.next ∧ h'.cells c = some (g a)) cs as := by
  induction as generalizing h n with
  | nil => exact ⟨h, [], rfl, Keeps.refl _ _, by rw [hn]; simp, .nil⟩
  | cons a as ih =>
    have h1 := hf a (List.mem_cons_self ..) h
    have hself : ((h.alloc (g a)).1.addChild node h.next).cells node =
        some { n with children := n.children ++ [h.next] } := by
      apply addChild_self
      rw [alloc_cells, if_neg (Nat.ne_of_lt hlt), hn]
    obtain ⟨h', cs, e1, e2, e3, e4⟩ := ih (fun x hx => hf x (List.mem_cons_of_mem _ hx))
      ((h.alloc (g a)).1.addChild node h.next) _ hself (Nat.lt_succ_of_lt hlt)
    have hk : Keeps [node] h h' := ((Keeps.alloc _ h (g a)).trans
      (Keeps.addChild _ (List.mem_singleton.mpr rfl) _)).trans e2
    refine ⟨h', h.next :: cs, ?_, hk, ?_, ?_⟩
    · rw [addArrays, h1]
      exact e1
    · rw [e3]
      simp
    · refine .cons ⟨Nat.le_refl _, Nat.lt_of_lt_of_le (Nat.lt_succ_self _) e2.next, ?_⟩ ?_
      · rw [e2.cells h.next (Nat.lt_succ_self _) (by simp; omega), addChild_other _ (by omega), alloc_cells,
          if_pos rfl]
      · exact forall₂_imp_mem e4 (fun c b _ hc => ⟨Nat.le_of_succ_le hc.1, hc.2⟩)

/-- The nodes of arrays stand for the elements of the arrays, also after later changes elsewhere. -/
theorem arrays_unfold {g : DataArr → XNode} {e : DataArr → XTree} {lo : Nat} {h1 h2 : Heap}
    {S : List Nat} {cs : List Nat} {as : List DataArr}
    (hge : ∀ a, g a = ⟨(e a).name, (e a).attributes, (e a).data, []⟩ ∧ (e a).children = [])
    (hc : List.Forall₂ (fun c a => lo ≤ c ∧ c < h1.next ∧ h1.cells c = some (g a)) cs as)
    (hk : Keeps S h1 h2) (hS : ∀ x ∈ S, x < lo) :
    List.Forall₂ (Unfolds h2) cs (as.map e) := by
  induction hc with
  | nil => exact .nil
  | cons h _ ih =>
    rename_i c a cs as _
    refine .cons ?_ ih
    have hcell : h2.cells c = some (g a) := by
      rw [hk.cells c h.2.1 (fun hx => absurd (hS c hx) (by omega)), h.2.2]
    obtain ⟨e1, e2⟩ := hge a
    rw [e1] at hcell
    have := Unfolds.node (h := h2) (cs := []) hcell .nil
    have hea : e a = .node (e a).name (e a).attributes (e a).data [] := by
      rw [← e2]
      cases e a
      rfl
    rw [hea]
    exact this

theorem arr_element (a : DataArr) :
    arrNode a = ⟨(arrayElement a).name, (arrayElement a).attributes, (arrayElement a).data, []⟩ ∧
      (arrayElement a).children = [] := ⟨rfl, rfl⟩

theorem ann_element (a : DataArr) :
    annNode a = ⟨(announceElement a).name, (announceElement a).attributes, (announceElement a).data, []⟩ ∧
      (announceElement a).children = [] := ⟨rfl, rfl⟩

theorem scalars_eq (as : List DataArr) : scalars as = namesAttr as := by
  unfold scalars namesAttr
  have key : ∀ (l : List DataArr) (s : Text),
      l.foldl (fun s a => s ++ (a.name ++ [' '])) s = s ++ namesText l := by
    intro l
    induction l with
    | nil => intro s; simp [namesText]
    | cons a l ih =>
      intro s
      rw [List.foldl_cons, ih]
      simp [namesText]
  cases as with
  | nil => rfl
  | cons a as =>
    rw [if_neg (by simp), key]
    rfl

/-! ## Legal documents -/

theorem legal_leaf {n : Text} {as : List (Text × Text)} {d : Text} (hn : XName n)
    (ha : ∀ p ∈ as, XName p.1 ∧ Plain p.2) (hd : (as.map Prod.fst).Nodup) (hp : Plain d) :
    XTree.Legal (.node n as d []) := .node hn ha hd hp (fun c hc => by simp at hc)

theorem plain_nil : Plain [] := fun c hc => by simp at hc

theorem xname_of {c : Char} {r : Text} (h1 : ∀ x ∈ c :: r, x ≠ '<' ∧ x ≠ '>' ∧ x ≠ '&' ∧ x ≠ '"')
    (h2 : ' ' ∉ c :: r) (h3 : '=' ∉ c :: r) (h4 : c ≠ '/') (h5 : c ≠ '?') : XName (c :: r) :=
  ⟨h1, h2, h3, c, r, rfl, h4, h5⟩

macro "xname" : tactic =>
  `(tactic| exact xname_of (by decide) (by decide) (by decide) (by decide) (by decide))

theorem arrayElement_legal {a : DataArr} (h : a.Clean) : (arrayElement a).Legal := by
  obtain ⟨h1, h2, h3, h4, h5, h6⟩ := h
  have hr : Plain (a.range.getD ([], [])).1 ∧ Plain (a.range.getD ([], [])).2 := by
    cases hr : a.range with
    | none => exact ⟨plain_nil, plain_nil⟩
    | some r => exact h6 r hr
  refine legal_leaf (by xname) ?_ (by simp) h5
  intro p hp
  simp only [List.mem_cons, List.not_mem_nil, or_false] at hp
  rcases hp with rfl | rfl | rfl | rfl | rfl | rfl
  · exact ⟨by xname, h1⟩
  · exact ⟨by xname, h2⟩
  · exact ⟨by xname, h3⟩
  · exact ⟨by xname, h4⟩
  · exact ⟨by xname, hr.1⟩
  · exact ⟨by xname, hr.2⟩

theorem announceElement_legal {a : DataArr} (h : a.Clean) : (announceElement a).Legal := by
  obtain ⟨h1, h2, h3, h4, h5, h6⟩ := h
  refine legal_leaf (by xname) ?_ (by simp) plain_nil
  intro p hp
  simp only [List.mem_cons, List.not_mem_nil, or_false] at hp
  rcases hp with rfl | rfl | rfl | rfl
  · exact ⟨by xname, h1⟩
  · exact ⟨by xname, h2⟩
  · exact ⟨by xname, h3⟩
  · exact ⟨by xname, h4⟩

theorem namesAttr_legal {as : List DataArr} (h : ∀ a ∈ as, a.Clean) :
    (∀ p ∈ namesAttr as, XName p.1 ∧ Plain p.2) ∧ ((namesAttr as).map Prod.fst).Nodup := by
  cases as with
  | nil => exact ⟨fun p hp => by simp [namesAttr] at hp, by simp [namesAttr]⟩
  | cons a as =>
    refine ⟨?_, by simp [namesAttr]⟩
    intro p hp
    have : p = ("Scalars".toList, namesText (a :: as)) := by simpa [namesAttr] using hp
    subst this
    refine ⟨by xname, ?_⟩
    intro c hc
    obtain ⟨l, hl, hc⟩ := List.mem_flatten.mp hc
    obtain ⟨b, hb, rfl⟩ := List.mem_map.mp hl
    rcases List.mem_append.mp hc with hc | hc
    · exact (h b hb).2.1 c hc
    · have : c = ' ' := by simpa using hc
      subst this
      decide

theorem dataElement_legal {n : Text} (hn : XName n) {as : List DataArr} (h : ∀ a ∈ as, a.Clean) :
    ∀ e ∈ dataElement n as, XTree.Legal e := by
  intro e he
  cases as with
  | nil => simp [dataElement] at he
  | cons a as =>
    have : e = .node n (namesAttr (a :: as)) [] ((a :: as).map arrayElement) := by
      simpa [dataElement] using he
    subst this
    obtain ⟨h1, h2⟩ := namesAttr_legal h
    refine .node hn h1 h2 plain_nil ?_
    intro c hc
    obtain ⟨b, hb, rfl⟩ := List.mem_map.mp hc
    exact arrayElement_legal (h b hb)

theorem fileElement_legal {type : Text} (ht : Plain type) {g : XTree} (hg : g.Legal) :
    (fileElement type g).Legal := by
  refine .node (by xname) ?_ (by simp) plain_nil ?_
  · intro p hp
    simp only [List.mem_cons, List.not_mem_nil, or_false] at hp
    rcases hp with rfl | rfl | rfl
    · exact ⟨by xname, ht⟩
    · exact ⟨by xname, by unfold Plain; decide⟩
    · exact ⟨by xname, by unfold Plain; decide⟩
  · intro c hc
    have : c = g := by simpa using hc
    rw [this]
    exact hg

theorem unstructuredDoc_legal {m : UMesh} {pd cd : List DataArr} (hp : Plain m.npoints)
    (hc : Plain m.ncells) (hm : ∀ a ∈ m.arrays, a.Clean) (hpd : ∀ a ∈ pd, a.Clean)
    (hcd : ∀ a ∈ cd, a.Clean) : (unstructuredDoc m pd cd).Legal := by
  have no : ∀ p ∈ ([] : List (Text × Text)), XName p.1 ∧ Plain p.2 := fun p hp => by simp at hp
  refine fileElement_legal (by unfold Plain; decide) (.node (by xname) no (by simp) plain_nil ?_)
  intro e he
  obtain rfl := List.mem_singleton.mp he
  refine .node (by xname) ?_ (by simp) plain_nil ?_
  · intro p hp'
    simp only [List.mem_cons, List.not_mem_nil, or_false] at hp'
    rcases hp' with rfl | rfl
    · exact ⟨by xname, hp⟩
    · exact ⟨by xname, hc⟩
  · intro e he
    simp only [List.mem_append] at he
    rcases he with (he | he) | he
    · simp only [List.mem_cons, List.not_mem_nil, or_false] at he
      rcases he with rfl | rfl
      · refine .node (by xname) no (by simp) plain_nil ?_
        intro e he
        obtain rfl := List.mem_singleton.mp he
        exact arrayElement_legal (hm _ (by simp [UMesh.arrays]))
      · refine .node (by xname) no (by simp) plain_nil ?_
        intro e he
        simp only [List.mem_cons, List.not_mem_nil, or_false] at he
        rcases he with rfl | rfl | rfl
        · exact arrayElement_legal (hm _ (by simp [UMesh.arrays]))
        · exact arrayElement_legal (hm _ (by simp [UMesh.arrays]))
        · exact arrayElement_legal (hm _ (by simp [UMesh.arrays]))
    · exact dataElement_legal (by xname) hcd e he
    · exact dataElement_legal (by xname) hpd e he

theorem rectilinearDoc_legal {whole extent : Text} {co pd cd : List DataArr} (hw : Plain whole)
    (hx : Plain extent) (hco : ∀ a ∈ co, a.Clean) (hpd : ∀ a ∈ pd, a.Clean)
    (hcd : ∀ a ∈ cd, a.Clean) : (rectilinearDoc whole extent co pd cd).Legal := by
  have no : ∀ p ∈ ([] : List (Text × Text)), XName p.1 ∧ Plain p.2 := fun p hp => by simp at hp
  refine fileElement_legal (by unfold Plain; decide) (.node (by xname) ?_ (by simp) plain_nil ?_)
  · intro p hp
    obtain rfl := List.mem_singleton.mp hp
    exact ⟨by xname, hw⟩
  intro e he
  obtain rfl := List.mem_singleton.mp he
  refine .node (by xname) ?_ (by simp) plain_nil ?_
  · intro p hp
    obtain rfl := List.mem_singleton.mp hp
    exact ⟨by xname, hx⟩
  · intro e he
    simp only [List.mem_append] at he
    rcases he with (he | he) | he
    · exact dataElement_legal (by xname) hcd e he
    · exact dataElement_legal (by xname) hpd e he
    · obtain rfl := List.mem_singleton.mp he
      refine .node (by xname) no (by simp) plain_nil ?_
      intro e he
      obtain ⟨b, hb, rfl⟩ := List.mem_map.mp he
      exact arrayElement_legal (hco b hb)

theorem headerDoc_legal {type : Text} {m : UMesh} {pd cd : List DataArr} {pieces : List Text}
    (ht : Plain type) (hm : ∀ a ∈ m.arrays, a.Clean) (hpd : ∀ a ∈ pd, a.Clean)
    (hcd : ∀ a ∈ cd, a.Clean) (hf : ∀ f ∈ pieces, Plain f) :
    (headerDoc type m pd cd pieces).Legal := by
  have no : ∀ p ∈ ([] : List (Text × Text)), XName p.1 ∧ Plain p.2 := fun p hp => by simp at hp
  refine fileElement_legal ht (.node (by xname) ?_ (by simp) plain_nil ?_)
  · intro p hp
    obtain rfl := List.mem_singleton.mp hp
    exact ⟨by xname, by unfold Plain; decide⟩
  intro e he
  simp only [List.mem_append] at he
  rcases he with he | he
  · simp only [List.mem_cons, List.not_mem_nil, or_false] at he
    rcases he with rfl | rfl | rfl
    · refine .node (by xname) no (by simp) plain_nil ?_
      intro e he
      obtain rfl := List.mem_singleton.mp he
      exact announceElement_legal (hm _ (by simp [UMesh.arrays]))
    · obtain ⟨h1, h2⟩ := namesAttr_legal hpd
      refine .node (by xname) h1 h2 plain_nil ?_
      intro e he
      obtain ⟨b, hb, rfl⟩ := List.mem_map.mp he
      exact announceElement_legal (hpd b hb)
    · obtain ⟨h1, h2⟩ := namesAttr_legal hcd
      refine .node (by xname) h1 h2 plain_nil ?_
      intro e he
      obtain ⟨b, hb, rfl⟩ := List.mem_map.mp he
      exact announceElement_legal (hcd b hb)
  · obtain ⟨f, hfm, rfl⟩ := List.mem_map.mp he
    refine legal_leaf (by xname) ?_ (by simp) plain_nil
    intro p hp
    obtain rfl := List.mem_singleton.mp hp
    exact ⟨by xname, hf f hfm⟩

/-! ## A first use of a writer -/

theorem addChild_cells (h : Heap) (a c b : Nat) :
    (h.addChild a c).cells b =
      if b = a then (h.cells a).map (fun n => { n with children := n.children ++ [c] }) else h.cells b := rfl

/-- The pointer stands for the tree whatever changes at the nodes of `T`, or beyond the memory used. -/
def Lasting (h : Heap) (T : List Nat) (c : Nat) (t : XTree) : Prop :=
  ∀ h' S, Keeps S h h' → (∀ x ∈ S, x ∈ T) → Unfolds h' c t

theorem Lasting.keep {h h' : Heap} {T S : List Nat} {c : Nat} {t : XTree} (hs : Lasting h T c t)
    (hk : Keeps S h h') (hS : ∀ x ∈ S, x ∈ T) : Lasting h' T c t :=
  fun h'' _ k'' hS'' => hs h'' T ((hk.mono hS).trans (k''.mono hS'')) (fun _ hx => hx)

theorem Lasting.mono {h : Heap} {T T' : List Nat} {c : Nat} {t : XTree} (hs : Lasting h T c t)
    (hT : ∀ x ∈ T', x ∈ T) : Lasting h T' c t :=
  fun h'' S k hS => hs h'' S k (fun x hx => hT x (hS x hx))

theorem Lasting.unfolds {h : Heap} {T : List Nat} {c : Nat} {t : XTree} (hs : Lasting h T c t) :
    Unfolds h c t := hs h [] (Keeps.refl _ _) (fun x hx => by simp at hx)

/-- Filling a node with arrays. -/
theorem fill_ok {f : DataArr → Heap → Res (Heap × Nat)} {g : DataArr → XNode} {e : DataArr → XTree}
    (hge : ∀ a, g a = ⟨(e a).name, (e a).attributes, (e a).data, []⟩ ∧ (e a).children = [])
    {d : Nat} (as : List DataArr) (hf : ∀ a ∈ as, ∀ h, f a h = .ok (h.alloc (g a))) {h : Heap}
    {name data : Text} {attrs : List (Text × Text)} (hd : h.cells d = some ⟨name, attrs, data, []⟩)
    (hlt : d < h.next) {T : List Nat} (hT : ∀ x ∈ T, x < h.next ∧ x ≠ d) :
    ∃ h', addArrays f d as h = .ok h' ∧ Keeps [d] h h' ∧
      Lasting h' T d (.node name attrs data (as.map e)) := by
  obtain ⟨h', cs, h1, h2, h3, h4⟩ := addArrays_ok as hf h _ hd hlt
  refine ⟨h', h1, h2, ?_⟩
  intro h'' S hk hS
  have hcell : h''.cells d = some ⟨name, attrs, data, cs⟩ := by
    rw [hk.cells d (Nat.lt_of_lt_of_le hlt h2.next) (fun hx => (hT d (hS d hx)).2 rfl), h3]
    rfl
  exact Unfolds.node hcell (arrays_unfold hge h4 hk (fun x hx => (hT x (hS x hx)).1))

theorem Keeps.killAll {S : List Nat} {h : Heap} {as : List Nat} (ha : ∀ a ∈ as, a ∈ S) :
    Keeps S h (h.killAll as) := by
  induction as generalizing h with
  | nil => exact Keeps.refl _ _
  | cons a as ih =>
    have : Keeps S h (h.kill a) :=
      ⟨Nat.le_refl _, fun b _ hn => if_neg (fun e : b = a => hn (e ▸ ha a (List.mem_cons_self ..)))⟩
    exact this.trans (ih (fun x hx => ha x (List.mem_cons_of_mem _ hx)))

theorem killAll_next (h : Heap) (as : List Nat) : (h.killAll as).next = h.next := by
  induction as generalizing h with
  | nil => rfl
  | cons a as ih => exact ih (h.kill a)

theorem killAll_mem {h : Heap} {as : List Nat} {a : Nat} (ha : a ∈ as) : (h.killAll as).cells a = none := by
  induction as generalizing h with
  | nil => simp at ha
  | cons b as ih =>
    by_cases hm : a ∈ as
    · exact ih hm
    · rcases List.mem_cons.mp ha with rfl | hm'
      · have k : Keeps as (h.kill a) ((h.kill a).killAll as) := Keeps.killAll (fun _ hx => hx)
        show ((h.kill a).killAll as).cells a = none
        have none' : ∀ (l : List Nat) (h : Heap), h.cells a = none → (h.killAll l).cells a = none := by
          intro l
          induction l with
          | nil => intro h hn; exact hn
          | cons x l ihl =>
            intro h hn
            refine ihl (h.kill x) ?_
            show (if a = x then none else h.cells a) = none
            rw [hn, ite_self]
        exact none' as _ (if_pos rfl)
      · exact absurd hm' hm

theorem write_doc {h : Heap} {root : Nat} {t : XTree} (hu : Unfolds h root t) {stack : Nat}
    (hs : t.depth ≤ stack) :
    writeXML h stack (some root) = .ok ("<?xml version=\"1.0\"?>".toList ++ ['\n'] ++ XTree.text [] t) := by
  show (writeNode h stack root [] >>= fun t => pure ("<?xml version=\"1.0\"?>".toList ++ ['\n'] ++ t)) = _
  rw [writeNode_ok h t root stack [] hu hs]
  rfl

/-! ## A second use of a writer -/

/-- Writing either succeeds or is undefined. -/
theorem writeNode_cases (h : Heap) : ∀ (stack a : Nat) (indent : Text),
    (∃ t, writeNode h stack a indent = .ok t) ∨ writeNode h stack a indent = .ub := by
  intro stack
  induction stack with
  | zero => intro a i; exact Or.inr rfl
  | succ stack ih =>
    intro a i
    rw [writeNode]
    cases h.cells a with
    | none => exact Or.inr rfl
    | some n =>
      have key : ∀ cs : List Nat,
          (∃ t, writeChildren (fun c => writeNode h stack c (i ++ [' ', ' '])) cs = .ok t) ∨
            writeChildren (fun c => writeNode h stack c (i ++ [' ', ' '])) cs = .ub := by
        intro cs
        induction cs with
        | nil => exact Or.inl ⟨[], rfl⟩
        | cons c cs ihc =>
          rw [writeChildren]
          rcases ih c (i ++ [' ', ' ']) with ⟨t, ht⟩ | ht
          · rw [ht]
            rcases ihc with ⟨u, hu⟩ | hu
            · exact Or.inl ⟨t ++ u, by
                show (writeChildren _ cs >>= _) = _
                rw [hu]; rfl⟩
            · exact Or.inr (by
                show (writeChildren _ cs >>= _) = _
                rw [hu]; rfl)
          · exact Or.inr (by rw [ht]; rfl)
      rcases key n.children with ⟨t, ht⟩ | ht
      · left
        simp only [ht]
        exact ⟨_, rfl⟩
      · right
        simp only [ht]
        rfl

theorem writeChildren_dead {w : Nat → Res Text} (hw : ∀ c, (∃ t, w c = .ok t) ∨ w c = .ub)
    {x : Nat} (hx : w x = .ub) {cs : List Nat} (hm : x ∈ cs) : writeChildren w cs = .ub := by
  induction cs with
  | nil => simp at hm
  | cons c cs ih =>
    rw [writeChildren]
    rcases List.mem_cons.mp hm with rfl | hm
    · rw [hx]; rfl
    · rcases hw c with ⟨t, ht⟩ | ht
      · rw [ht]
        show (writeChildren w cs >>= _) = _
        rw [ih hm]
        rfl
      · rw [ht]; rfl

/-- The root has a child that is no longer there. -/
structure Stale (root : Nat) (h : Heap) : Prop where
  root_lt : root < h.next
  child : ∃ n x, h.cells root = some n ∧ x ∈ n.children ∧ x < h.next ∧ h.cells x = none

theorem Stale.write {root : Nat} {h : Heap} (hs : Stale root h) (stack : Nat) :
    writeXML h stack (some root) = .ub := by
  obtain ⟨_, n, x, h1, h2, _, h4⟩ := hs
  show (writeNode h stack root [] >>= _) = _
  cases stack with
  | zero => rfl
  | succ stack =>
    rw [writeNode, h1]
    have hx : writeNode h stack x ([] ++ [' ', ' ']) = .ub := by
      cases stack with
      | zero => rfl
      | succ s => rw [writeNode, h4]
    have := writeChildren_dead (w := fun c => writeNode h stack c ([] ++ [' ', ' ']))
      (fun c => writeNode_cases h stack c _) hx h2
    simp only [this]
    rfl

theorem Stale.alloc {root : Nat} {h : Heap} (hs : Stale root h) (n : XNode) : Stale root (h.alloc n).1 := by
  obtain ⟨h0, m, x, h1, h2, h3, h4⟩ := hs
  refine ⟨Nat.lt_succ_of_lt h0, m, x, ?_, h2, Nat.lt_succ_of_lt h3, ?_⟩
  · rw [alloc_cells, if_neg (Nat.ne_of_lt h0), h1]
  · rw [alloc_cells, if_neg (Nat.ne_of_lt h3), h4]

theorem Stale.kill {root : Nat} {h : Heap} (hs : Stale root h) {a : Nat} (ha : a ≠ root) :
    Stale root (h.kill a) := by
  obtain ⟨h0, m, x, h1, h2, h3, h4⟩ := hs
  refine ⟨h0, m, x, ?_, h2, h3, ?_⟩
  · show (if root = a then none else h.cells root) = _
    rw [if_neg (fun e => ha e.symm), h1]
  · show (if x = a then none else h.cells x) = _
    split
    · rfl
    · exact h4

theorem Stale.addChild {root : Nat} {h : Heap} (hs : Stale root h) (a c : Nat) :
    Stale root (h.addChild a c) := by
  obtain ⟨h0, m, x, h1, h2, h3, h4⟩ := hs
  by_cases ha : root = a
  · subst ha
    refine ⟨h0, _, x, addChild_self h1 c, List.mem_append_left _ h2, h3, ?_⟩
    by_cases hx : x = root
    · rw [hx] at h4
      rw [h4] at h1
      cases h1
    · rw [addChild_other _ hx, h4]
  · refine ⟨h0, m, x, ?_, h2, h3, ?_⟩
    · rw [addChild_other _ ha, h1]
    · by_cases hx : x = a
      · subst hx
        show (if x = x then (h.cells x).map _ else _) = none
        rw [if_pos rfl, h4]
        rfl
      · rw [addChild_other _ hx, h4]

theorem Stale.later {root : Nat} {h h' : Heap} (hl : Later root h h') (hs : Stale root h) :
    Stale root h' := by
  induction hl with
  | refl => exact hs
  | alloc n _ ih => exact ih.alloc n
  | kill a ha _ ih => exact ih.kill ha
  | addChild a c _ ih => exact ih.addChild a c

/-- Adding arrays is undefined or keeps a stale root stale. -/
theorem Stale.addArrays {root : Nat} {f : DataArr → Heap → Res (Heap × Nat)} {node : Nat}
    (hf : ∀ a h, (∃ n, f a h = .ok (Heap.alloc h n)) ∨ f a h = .ub) (as : List DataArr) {h : Heap}
    (hs : Stale root h) :
    addArrays f node as h = .ub ∨ ∃ h', addArrays f node as h = .ok h' ∧ Stale root h' := by
  induction as generalizing h with
  | nil => exact Or.inr ⟨h, rfl, hs⟩
  | cons a as ih =>
    rw [EF.addArrays]
    rcases hf a h with ⟨n, hn⟩ | hn
    · rw [hn]
      exact ih ((hs.alloc n).addChild node _)
    · left
      rw [hn]
      rfl

theorem toVTK_cases (a : DataArr) (h : Heap) :
    (∃ n, a.toVTK h = .ok (Heap.alloc h n)) ∨ a.toVTK h = .ub := by
  unfold DataArr.toVTK
  cases a.range with
  | none => exact Or.inr rfl
  | some r => exact Or.inl ⟨_, rfl⟩

theorem toPVTK_cases (a : DataArr) (h : Heap) :
    (∃ n, a.toPVTK h = .ok (Heap.alloc h n)) ∨ a.toPVTK h = .ub := Or.inl ⟨_, rfl⟩

theorem Stale.ite {root : Nat} {h : Heap} (hs : Stale root h) (p : Prop) [Decidable p] (a c : Nat) :
    Stale root (if p then h else h.addChild a c) := by
  split
  · exact hs
  · exact hs.addChild a c

/-- Using the result of a step that is undefined or keeps the root stale. -/
theorem stale_bind {α : Type} {root : Nat} {r : Res Heap} {k : Heap → Res α}
    (hr : r = .ub ∨ ∃ h', r = .ok h' ∧ Stale root h') (hk : ∀ h', Stale root h' → k h' = .ub) :
    (r >>= k) = .ub := by
  rcases hr with rfl | ⟨h', rfl, hs⟩
  · rfl
  · exact hk h' hs

theorem UGrid.stale (w : UGrid) (hm : w.mesh.isSome) (stack : Nat) {h : Heap} (hs : Stale w.root h) :
    w.toVTK stack h = .ub := by
  unfold UGrid.toVTK
  cases hw : w.mesh with
  | none => rw [hw] at hm; cases hm
  | some m =>
    have h1 := (((((((((hs.alloc { name := "UnstructuredGrid".toList }).alloc
      { name := "Piece".toList
        attributes := [("NumberOfPoints".toList, m.npoints), ("NumberOfCells".toList, m.ncells)] }).alloc
      { name := "Points".toList }).alloc { name := "Cells".toList }).alloc
      { name := "CellData".toList, attributes := scalars w.cellData }).alloc
      { name := "PointData".toList, attributes := scalars w.pointData }).addChild w.root h.next).addChild
      h.next (h.next + 1)).addChild (h.next + 1) (h.next + 2))
    refine stale_bind (h1.addArrays toVTK_cases _) (fun h2 s2 => ?_)
    refine stale_bind ((s2.addChild _ _).addArrays toVTK_cases _) (fun h3 s3 => ?_)
    refine stale_bind ((s3.ite _ _ _).addArrays toVTK_cases _) (fun h4 s4 => ?_)
    refine stale_bind ((s4.ite _ _ _).addArrays toVTK_cases _) (fun h5 s5 => ?_)
    rw [s5.write]
    rfl

theorem RGrid.stale (w : RGrid) (hm : w.extents.isSome) (stack : Nat) {h : Heap} (hs : Stale w.root h) :
    w.toVTK stack h = .ub := by
  unfold RGrid.toVTK
  cases hw : w.extents with
  | none => rw [hw] at hm; cases hm
  | some e =>
    obtain ⟨whole, extent⟩ := e
    have h1 := (((((((hs.alloc
      { name := "RectilinearGrid".toList, attributes := [("WholeExtent".toList, whole)] }).alloc
      { name := "Piece".toList, attributes := [("Extent".toList, extent)] }).alloc
      { name := "CellData".toList, attributes := scalars w.cellData }).alloc
      { name := "PointData".toList, attributes := scalars w.pointData }).alloc
      { name := "Coordinates".toList }).addChild w.root h.next).addChild
      h.next (h.next + 1))
    have h1' := (h1.ite (w.cellData = []) (h.next + 1) (h.next + 2)).ite (w.pointData = []) (h.next + 1)
      (h.next + 3)
    refine stale_bind ((h1'.addChild _ _).addArrays toVTK_cases _) (fun h2 s2 => ?_)
    refine stale_bind (s2.addArrays toVTK_cases _) (fun h3 s3 => ?_)
    refine stale_bind (s3.addArrays toVTK_cases _) (fun h4 s4 => ?_)
    rw [s4.write]
    rfl

/-- What one use of a writer leaves: everything else in memory as before, and a root whose child is gone. -/
structure Used (root : Nat) (h h' : Heap) : Prop where
  keeps : Keeps [root] h h'
  stale : Stale root h'

theorem Used.of {root : Nat} {h h1 : Heap} (hr : root < h.next) {S : List Nat} (hk : Keeps (root :: S) h h1)
    {as : List Nat} (ha : ∀ a ∈ as, h.next ≤ a) (hS : ∀ a ∈ S, h.next ≤ a) {n : XNode} {x : Nat}
    (hn : h1.cells root = some n) (hx : x ∈ n.children) (hxa : x ∈ as) (hx1 : x < h1.next) :
    Used root h (h1.killAll as) := by
  have k1 : Keeps ((root :: S) ++ as) h (h1.killAll as) :=
    (hk.mono (fun y hy => List.mem_append_left _ hy)).trans
      (Keeps.killAll (fun a ha => List.mem_append_right _ ha))
  refine ⟨⟨k1.next, fun b hb hn => k1.cells b hb ?_⟩, ?_, n, x, ?_, hx, ?_, killAll_mem hxa⟩
  · intro hm
    rcases List.mem_append.mp hm with hm | hm
    · rcases List.mem_cons.mp hm with rfl | hm
      · exact hn (by simp)
      · exact absurd (hS b hm) (by omega)
    · exact absurd (ha b hm) (by omega)
  · exact Nat.lt_of_lt_of_le hr k1.next
  · have k2 : Keeps as h1 (h1.killAll as) := Keeps.killAll (fun _ hx => hx)
    rw [k2.cells root (Nat.lt_of_lt_of_le hr hk.next) (fun hm => absurd (ha root hm) (by omega)), hn]
  · rw [killAll_next]
    exact hx1

theorem arrays_depth (as : List DataArr) : ((as.map arrayElement).map XTree.depth).foldr max 0 ≤ 1 := by
  induction as with
  | nil => simp
  | cons a as ih =>
    rw [List.map_cons, List.map_cons, List.foldr_cons]
    have : (arrayElement a).depth = 1 := by simp [arrayElement, XTree.depth]
    omega

theorem dataElement_depth (n : Text) (as : List DataArr) (r : Nat) (hr : r ≤ 2) :
    ((dataElement n as).map XTree.depth).foldr max r ≤ 2 := by
  cases as with
  | nil => simpa [dataElement] using hr
  | cons a as =>
    have h := arrays_depth (a :: as)
    show max (XTree.depth (.node n _ [] ((a :: as).map arrayElement))) r ≤ 2
    rw [XTree.depth]
    omega

theorem unstructuredDoc_depth (m : UMesh) (pd cd : List DataArr) : (unstructuredDoc m pd cd).depth ≤ 5 := by
  have h1 : (arrayElement m.points).depth = 1 := by simp [arrayElement, XTree.depth]
  have h2 : (arrayElement m.connectivity).depth = 1 := by simp [arrayElement, XTree.depth]
  have h3 : (arrayElement m.offsets).depth = 1 := by simp [arrayElement, XTree.depth]
  have h4 : (arrayElement m.types).depth = 1 := by simp [arrayElement, XTree.depth]
  have h5 := dataElement_depth "PointData".toList pd 0 (by omega)
  have h6 := dataElement_depth "CellData".toList cd _ h5
  simp only [unstructuredDoc, fileElement, XTree.depth, List.map_cons, List.map_nil, List.foldr_cons,
    List.foldr_nil, List.map_append, List.foldr_append, h1, h2, h3, h4]
  omega

/-- The memory when an unstructured writer begins with the arrays. -/
def uStart (m : UMesh) (root : Nat) (pd cd : List DataArr) (h : Heap) : Heap :=
  (((((((((h.alloc { name := "UnstructuredGrid".toList }).1.alloc
      { name := "Piece".toList
        attributes := [("NumberOfPoints".toList, m.npoints), ("NumberOfCells".toList, m.ncells)] }).1.alloc
      { name := "Points".toList }).1.alloc { name := "Cells".toList }).1.alloc
      { name := "CellData".toList, attributes := scalars cd }).1.alloc
      { name := "PointData".toList, attributes := scalars pd }).1.addChild root h.next).addChild
      h.next (h.next + 1)).addChild (h.next + 1) (h.next + 2))

theorem UGrid.steps (m : UMesh) (root : Nat) (pd cd : List DataArr) (stack : Nat) (h : Heap) :
    UGrid.toVTK ⟨root, some m, pd, cd⟩ stack h =
      (addArrays DataArr.toVTK (h.next + 2) [m.points] (uStart m root pd cd h) >>= fun h1 =>
       addArrays DataArr.toVTK (h.next + 3) [m.connectivity, m.offsets, m.types]
         (h1.addChild (h.next + 1) (h.next + 3)) >>= fun h2 =>
       addArrays DataArr.toVTK (h.next + 4) cd
         (if cd = [] then h2 else h2.addChild (h.next + 1) (h.next + 4)) >>= fun h3 =>
       addArrays DataArr.toVTK (h.next + 5) pd
         (if pd = [] then h3 else h3.addChild (h.next + 1) (h.next + 5)) >>= fun h4 =>
       writeXML h4 stack (some root) >>= fun t =>
       pure (h4.killAll [h.next, h.next + 1, h.next + 2, h.next + 3, h.next + 4, h.next + 5], t)) := rfl

/-- A child added or not. -/
theorem addIf_cells {h : Heap} {p c : Nat} {n : XNode} (hp : h.cells p = some n) (q : Prop) [Decidable q] :
    (if q then h else h.addChild p c).cells p =
      some { n with children := n.children ++ (if q then [] else [c]) } := by
  split
  · rw [hp]; simp
  · exact addChild_self hp c

theorem addIf_keeps (h : Heap) (p c : Nat) (q : Prop) [Decidable q] :
    Keeps [p] h (if q then h else h.addChild p c) := by
  split
  · exact Keeps.refl _ _
  · exact Keeps.addChild h (List.mem_singleton.mpr rfl) c

theorem addIf_next (h : Heap) (p c : Nat) (q : Prop) [Decidable q] :
    (if q then h else h.addChild p c).next = h.next := by
  split <;> rfl

/-- An element that is there only if it has arrays. -/
theorem optional_unfold {h : Heap} {c : Nat} {name : Text} {as : List DataArr}
    (hu : Unfolds h c (.node name (scalars as) [] (as.map arrayElement))) :
    List.Forall₂ (Unfolds h) (if as = [] then [] else [c]) (dataElement name as) := by
  cases as with
  | nil => exact .nil
  | cons a as =>
    rw [if_neg (by simp)]
    rw [scalars_eq] at hu
    exact .cons hu .nil

theorem UGrid.first {w : UGrid} {m : UMesh} (hm : w.mesh = some m) {h : Heap}
    (hroot : h.cells w.root = some (rootNode "UnstructuredGrid".toList)) (hr : w.root < h.next)
    (hma : ∀ a ∈ m.arrays, a.range.isSome) (hpd : ∀ a ∈ w.pointData, a.range.isSome)
    (hcd : ∀ a ∈ w.cellData, a.range.isSome) {stack : Nat} (hs : 5 ≤ stack) :
    ∃ h', w.toVTK stack h = .ok (h', "<?xml version=\"1.0\"?>".toList ++ ['\n'] ++
        (unstructuredDoc m w.pointData w.cellData).text []) ∧ Used w.root h h' := by
  obtain ⟨root, mesh, pd, cd⟩ := w
  obtain rfl : mesh = some m := hm
  simp only at hroot hr hpd hcd ⊢
  rw [UGrid.steps]
  have n0 : (uStart m root pd cd h).next = h.next + 6 := rfl
  have hk0 : Keeps [root, h.next, h.next + 1] h (uStart m root pd cd h) := by
    unfold uStart
    exact ((((((((Keeps.alloc _ _ _).trans (Keeps.alloc _ _ _)).trans (Keeps.alloc _ _ _)).trans
      (Keeps.alloc _ _ _)).trans (Keeps.alloc _ _ _)).trans (Keeps.alloc _ _ _)).trans
      (Keeps.addChild _ (by simp) _)).trans (Keeps.addChild _ (by simp) _)).trans
      (Keeps.addChild _ (by simp) _)
  have r0 : (uStart m root pd cd h).cells root =
      some { rootNode "UnstructuredGrid".toList with children := [h.next] } := by
    have e1 : root ≠ h.next := by omega
    have e2 : root ≠ h.next + 1 := by omega
    have e3 : root ≠ h.next + 2 := by omega
    have e4 : root ≠ h.next + 3 := by omega
    have e5 : root ≠ h.next + 4 := by omega
    have e6 : root ≠ h.next + 5 := by omega
    simp only [uStart, addChild_cells, alloc_cells, alloc_next, if_neg e1, if_neg e2, if_neg e3, if_neg e4,
      if_neg e5, if_neg e6, hroot, if_pos]
    rfl
  have g0 : (uStart m root pd cd h).cells h.next =
      some ⟨"UnstructuredGrid".toList, [], [], [h.next + 1]⟩ := by
    have e1 : h.next ≠ root := by omega
    simp [uStart, addChild_cells, alloc_cells, alloc_next, e1, Nat.add_assoc]
  have p0 : (uStart m root pd cd h).cells (h.next + 1) =
      some ⟨"Piece".toList, [("NumberOfPoints".toList, m.npoints), ("NumberOfCells".toList, m.ncells)], [],
        [h.next + 2]⟩ := by
    have e1 : h.next + 1 ≠ root := by omega
    simp [uStart, addChild_cells, alloc_cells, alloc_next, e1, Nat.add_assoc]
  have pt0 : (uStart m root pd cd h).cells (h.next + 2) = some ⟨"Points".toList, [], [], []⟩ := by
    have e1 : h.next + 2 ≠ root := by omega
    simp [uStart, addChild_cells, alloc_cells, alloc_next, e1, Nat.add_assoc]
  have cl0 : (uStart m root pd cd h).cells (h.next + 3) = some ⟨"Cells".toList, [], [], []⟩ := by
    have e1 : h.next + 3 ≠ root := by omega
    simp [uStart, addChild_cells, alloc_cells, alloc_next, e1, Nat.add_assoc]
  have cd0 : (uStart m root pd cd h).cells (h.next + 4) = some ⟨"CellData".toList, scalars cd, [], []⟩ := by
    have e1 : h.next + 4 ≠ root := by omega
    simp [uStart, addChild_cells, alloc_cells, alloc_next, e1, Nat.add_assoc]
  have pd0 : (uStart m root pd cd h).cells (h.next + 5) = some ⟨"PointData".toList, scalars pd, [], []⟩ := by
    have e1 : h.next + 5 ≠ root := by omega
    simp [uStart, addChild_cells, alloc_cells, alloc_next, e1, Nat.add_assoc]
  generalize uStart m root pd cd h = h0 at *
  generalize hn : h.next = n at *
  -- points
  obtain ⟨h1, s1, k1, u1⟩ := fill_ok (f := DataArr.toVTK) arr_element (d := n + 2) [m.points]
    (fun a ha => toVTK_eq (hma a (by simp at ha; simp [UMesh.arrays, ha]))) pt0 (by omega)
    (T := [n + 1, n + 3, n + 4, n + 5]) (by simp; omega)
  have n1 := k1.next
  -- cells
  have k1' : Keeps [n + 1] h1 (h1.addChild (n + 1) (n + 3)) := Keeps.addChild _ (by simp) _
  obtain ⟨h2, s2, k2, u2⟩ := fill_ok (f := DataArr.toVTK) arr_element (d := n + 3)
    [m.connectivity, m.offsets, m.types]
    (fun a ha => toVTK_eq (hma a (by simp at ha; simp [UMesh.arrays, ha])))
    (h := h1.addChild (n + 1) (n + 3)) (name := "Cells".toList) (attrs := []) (data := [])
    (by rw [addChild_other _ (by omega), k1.cells _ (by omega) (by simp), cl0])
    (by rw [addChild_next]; omega) (T := [n + 1, n + 4, n + 5]) (by rw [addChild_next]; simp; omega)
  have n2 := k2.next
  rw [addChild_next] at n2
  have p2 : h2.cells (n + 1) = some ⟨"Piece".toList, [("NumberOfPoints".toList, m.npoints),
      ("NumberOfCells".toList, m.ncells)], [], [n + 2, n + 3]⟩ := by
    rw [k2.cells _ (by rw [addChild_next]; omega) (by simp),
      addChild_self (by rw [k1.cells _ (by omega) (by simp), p0])]
    rfl
  -- cell data
  have k2' := addIf_keeps h2 (n + 1) (n + 4) (cd = [])
  have n2' := addIf_next h2 (n + 1) (n + 4) (cd = [])
  have p2' := addIf_cells (c := n + 4) p2 (cd = [])
  generalize E2 : (if cd = [] then h2 else h2.addChild (n + 1) (n + 4)) = h2' at *
  obtain ⟨h3, s3, k3, u3⟩ := fill_ok (f := DataArr.toVTK) arr_element (d := n + 4) cd
    (fun a ha => toVTK_eq (hcd a ha)) (h := h2') (name := "CellData".toList) (attrs := scalars cd)
    (data := [])
    (by rw [k2'.cells _ (by omega) (by simp), k2.cells _ (by rw [addChild_next]; omega) (by simp),
      addChild_other _ (by omega), k1.cells _ (by omega) (by simp), cd0])
    (by omega) (T := [n + 1, n + 5]) (by simp; omega)
  have n3 := k3.next
  have p3 := (k3.cells (n + 1) (by omega) (by simp)).trans p2'
  -- point data
  have k3' := addIf_keeps h3 (n + 1) (n + 5) (pd = [])
  have n3' := addIf_next h3 (n + 1) (n + 5) (pd = [])
  have p3' := addIf_cells (c := n + 5) p3 (pd = [])
  have pd3 : h3.cells (n + 5) = some ⟨"PointData".toList, scalars pd, [], []⟩ := by
    rw [k3.cells _ (by omega) (by simp), k2'.cells _ (by omega) (by simp),
      k2.cells _ (by rw [addChild_next]; omega) (by simp),
      addChild_other _ (by omega), k1.cells _ (by omega) (by simp), pd0]
  generalize E3 : (if pd = [] then h3 else h3.addChild (n + 1) (n + 5)) = h3' at *
  obtain ⟨h4, s4, k4, u4⟩ := fill_ok (f := DataArr.toVTK) arr_element (d := n + 5) pd
    (fun a ha => toVTK_eq (hpd a ha)) (h := h3') (name := "PointData".toList) (attrs := scalars pd)
    (data := []) (by rw [k3'.cells _ (by omega) (by simp), pd3])
    (by omega) (T := [n + 1]) (by simp; omega)
  have n4 := k4.next
  have p4 := (k4.cells (n + 1) (by omega) (by simp)).trans p3'
  -- all steps together
  have K : Keeps [n + 1, n + 2, n + 3, n + 4, n + 5] h0 h4 :=
    ((((((k1.mono (by simp)).trans (k1'.mono (by simp))).trans (k2.mono (by simp))).trans
      (k2'.mono (by simp))).trans (k3.mono (by simp))).trans (k3'.mono (by simp))).trans (k4.mono (by simp))
  have r4 := (K.cells root (by omega) (by simp; omega)).trans r0
  have g4 := (K.cells n (by omega) (by simp)).trans g0
  have U1 : Unfolds h4 (n + 2) _ := u1 h4 [n + 1, n + 3, n + 4, n + 5]
    (((((((k1'.mono (by simp)).trans (k2.mono (by simp))).trans
      (k2'.mono (by simp))).trans (k3.mono (by simp))).trans (k3'.mono (by simp))).trans (k4.mono (by simp))))
    (fun _ hx => hx)
  have U2 : Unfolds h4 (n + 3) _ := u2 h4 [n + 1, n + 4, n + 5]
    ((((k2'.mono (by simp)).trans (k3.mono (by simp))).trans (k3'.mono (by simp))).trans (k4.mono (by simp)))
    (fun _ hx => hx)
  have U3 : Unfolds h4 (n + 4) _ := u3 h4 [n + 1, n + 5] ((k3'.mono (by simp)).trans (k4.mono (by simp)))
    (fun _ hx => hx)
  have U4 : Unfolds h4 (n + 5) _ := u4.unfolds
  have hdoc : Unfolds h4 root (unstructuredDoc m pd cd) := by
    refine Unfolds.node r4 (.cons (Unfolds.node g4 (.cons (Unfolds.node p4 ?_) .nil)) .nil)
    refine List.rel_append (List.rel_append (.cons U1 (.cons U2 .nil)) (optional_unfold U3))
      (optional_unfold U4)
  refine ⟨h4.killAll [n, n + 1, n + 2, n + 3, n + 4, n + 5], ?_, ?_⟩
  · rw [s1]
    show (addArrays _ _ _ (h1.addChild _ _) >>= _) = _
    rw [s2]
    show (addArrays _ _ _ (if cd = [] then h2 else h2.addChild (n + 1) (n + 4)) >>= _) = _
    rw [E2]
    rw [s3]
    show (addArrays _ _ _ (if pd = [] then h3 else h3.addChild (n + 1) (n + 5)) >>= _) = _
    rw [E3]
    rw [s4]
    show (writeXML h4 stack (some root) >>= _) = _
    rw [write_doc hdoc (Nat.le_trans (unstructuredDoc_depth m pd cd) hs)]
    rfl
  · subst hn
    refine Used.of hr (S := [h.next, h.next + 1, h.next + 2, h.next + 3, h.next + 4, h.next + 5])
      (Keeps.trans (hk0.mono (by simp)) (K.mono (by simp))) (by simp) (by simp) r4 (x := h.next) (by simp)
      (by simp) (by omega)

/-! ### Rectilinear grids -/

theorem rectilinearDoc_depth (whole extent : Text) (co pd cd : List DataArr) :
    (rectilinearDoc whole extent co pd cd).depth ≤ 5 := by
  have h0 := arrays_depth co
  have h5 := dataElement_depth "PointData".toList pd
    (max (XTree.depth (.node "Coordinates".toList [] [] (co.map arrayElement))) 0)
    (by rw [XTree.depth]; omega)
  have h6 := dataElement_depth "CellData".toList cd _ h5
  simp only [rectilinearDoc, fileElement, XTree.depth, List.map_cons, List.map_nil, List.foldr_cons,
    List.foldr_nil, List.map_append, List.foldr_append] at h6 ⊢
  omega

/-- The memory when a rectilinear writer begins with the sections. -/
def rStart (whole extent : Text) (root : Nat) (pd cd : List DataArr) (h : Heap) : Heap :=
  (((((((h.alloc { name := "RectilinearGrid".toList, attributes := [("WholeExtent".toList, whole)] }).1.alloc
      { name := "Piece".toList, attributes := [("Extent".toList, extent)] }).1.alloc
      { name := "CellData".toList, attributes := scalars cd }).1.alloc
      { name := "PointData".toList, attributes := scalars pd }).1.alloc
      { name := "Coordinates".toList }).1.addChild root h.next).addChild h.next (h.next + 1))

theorem RGrid.steps (whole extent : Text) (root : Nat) (co pd cd : List DataArr) (stack : Nat) (h : Heap) :
    RGrid.toVTK ⟨root, some (whole, extent), co, pd, cd⟩ stack h =
      (let a := if cd = [] then rStart whole extent root pd cd h
         else (rStart whole extent root pd cd h).addChild (h.next + 1) (h.next + 2)
       let b := if pd = [] then a else a.addChild (h.next + 1) (h.next + 3)
       addArrays DataArr.toVTK (h.next + 2) cd (b.addChild (h.next + 1) (h.next + 4)) >>= fun h1 =>
       addArrays DataArr.toVTK (h.next + 3) pd h1 >>= fun h2 =>
       addArrays DataArr.toVTK (h.next + 4) co h2 >>= fun h3 =>
       writeXML h3 stack (some root) >>= fun t =>
       pure (h3.killAll [h.next, h.next + 1, h.next + 2, h.next + 3, h.next + 4], t)) := rfl

theorem RGrid.first {w : RGrid} {whole extent : Text} (hm : w.extents = some (whole, extent)) {h : Heap}
    (hroot : h.cells w.root = some (rootNode "RectilinearGrid".toList)) (hr : w.root < h.next)
    (hco : ∀ a ∈ w.coords, a.range.isSome) (hpd : ∀ a ∈ w.pointData, a.range.isSome)
    (hcd : ∀ a ∈ w.cellData, a.range.isSome) {stack : Nat} (hs : 5 ≤ stack) :
    ∃ h', w.toVTK stack h = .ok (h', "<?xml version=\"1.0\"?>".toList ++ ['\n'] ++
        (rectilinearDoc whole extent w.coords w.pointData w.cellData).text []) ∧ Used w.root h h' := by
  obtain ⟨root, mesh, co, pd, cd⟩ := w
  obtain rfl : mesh = some (whole, extent) := hm
  simp only at hroot hr hpd hcd hco ⊢
  rw [RGrid.steps]
  have n0 : (rStart whole extent root pd cd h).next = h.next + 5 := rfl
  have hk0 : Keeps [root, h.next, h.next + 1] h (rStart whole extent root pd cd h) := by
    unfold rStart
    exact ((((((Keeps.alloc _ _ _).trans (Keeps.alloc _ _ _)).trans (Keeps.alloc _ _ _)).trans
      (Keeps.alloc _ _ _)).trans (Keeps.alloc _ _ _)).trans
      (Keeps.addChild _ (by simp) _)).trans (Keeps.addChild _ (by simp) _)
  have r0 : (rStart whole extent root pd cd h).cells root =
      some { rootNode "RectilinearGrid".toList with children := [h.next] } := by
    have e1 : root ≠ h.next := by omega
    have e2 : root ≠ h.next + 1 := by omega
    have e3 : root ≠ h.next + 2 := by omega
    have e4 : root ≠ h.next + 3 := by omega
    have e5 : root ≠ h.next + 4 := by omega
    simp only [rStart, addChild_cells, alloc_cells, alloc_next, if_neg e1, if_neg e2, if_neg e3, if_neg e4,
      if_neg e5, hroot, if_pos]
    rfl
  have g0 : (rStart whole extent root pd cd h).cells h.next =
      some ⟨"RectilinearGrid".toList, [("WholeExtent".toList, whole)], [], [h.next + 1]⟩ := by
    have e1 : h.next ≠ root := by omega
    simp [rStart, addChild_cells, alloc_cells, alloc_next, e1, Nat.add_assoc]
  have p0 : (rStart whole extent root pd cd h).cells (h.next + 1) =
      some ⟨"Piece".toList, [("Extent".toList, extent)], [], []⟩ := by
    have e1 : h.next + 1 ≠ root := by omega
    simp [rStart, addChild_cells, alloc_cells, alloc_next, e1, Nat.add_assoc]
  have cd0 : (rStart whole extent root pd cd h).cells (h.next + 2) =
      some ⟨"CellData".toList, scalars cd, [], []⟩ := by
    have e1 : h.next + 2 ≠ root := by omega
    simp [rStart, addChild_cells, alloc_cells, alloc_next, e1, Nat.add_assoc]
  have pd0 : (rStart whole extent root pd cd h).cells (h.next + 3) =
      some ⟨"PointData".toList, scalars pd, [], []⟩ := by
    have e1 : h.next + 3 ≠ root := by omega
    simp [rStart, addChild_cells, alloc_cells, alloc_next, e1, Nat.add_assoc]
  have co0 : (rStart whole extent root pd cd h).cells (h.next + 4) =
      some ⟨"Coordinates".toList, [], [], []⟩ := by
    have e1 : h.next + 4 ≠ root := by omega
    simp [rStart, addChild_cells, alloc_cells, alloc_next, e1, Nat.add_assoc]
  generalize rStart whole extent root pd cd h = h0 at *
  generalize hn : h.next = n at *
  have ka := addIf_keeps h0 (n + 1) (n + 2) (cd = [])
  have na := addIf_next h0 (n + 1) (n + 2) (cd = [])
  have pa := addIf_cells (c := n + 2) p0 (cd = [])
  generalize Ea : (if cd = [] then h0 else h0.addChild (n + 1) (n + 2)) = ha at *
  have kb := addIf_keeps ha (n + 1) (n + 3) (pd = [])
  have nb := addIf_next ha (n + 1) (n + 3) (pd = [])
  have pb := addIf_cells (c := n + 3) pa (pd = [])
  generalize Eb : (if pd = [] then ha else ha.addChild (n + 1) (n + 3)) = hb at *
  have kc : Keeps [n + 1] hb (hb.addChild (n + 1) (n + 4)) := Keeps.addChild _ (by simp) _
  have nc := addChild_next hb (n + 1) (n + 4)
  have pc := addChild_self pb (n + 4)
  generalize Ec : hb.addChild (n + 1) (n + 4) = hc at *
  have K0 : Keeps [n + 1] h0 hc := (ka.trans kb).trans kc
  obtain ⟨h1, s1, k1, u1⟩ := fill_ok (f := DataArr.toVTK) arr_element (d := n + 2) cd
    (fun a ha => toVTK_eq (hcd a ha)) ((K0.cells _ (by omega) (by simp)).trans cd0)
    (by omega) (T := [n + 3, n + 4]) (by simp; omega)
  have n1 := k1.next
  obtain ⟨h2, s2, k2, u2⟩ := fill_ok (f := DataArr.toVTK) arr_element (d := n + 3) pd
    (fun a ha => toVTK_eq (hpd a ha)) ((k1.cells _ (by omega) (by simp)).trans
      ((K0.cells _ (by omega) (by simp)).trans pd0)) (by omega) (T := [n + 4]) (by simp; omega)
  have n2 := k2.next
  obtain ⟨h3, s3, k3, u3⟩ := fill_ok (f := DataArr.toVTK) arr_element (d := n + 4) co
    (fun a ha => toVTK_eq (hco a ha)) ((k2.cells _ (by omega) (by simp)).trans
      ((k1.cells _ (by omega) (by simp)).trans ((K0.cells _ (by omega) (by simp)).trans co0)))
    (by omega) (T := []) (by simp)
  have n3 := k3.next
  have K1 : Keeps [n + 2, n + 3, n + 4] hc h3 :=
    ((k1.mono (by simp)).trans (k2.mono (by simp))).trans (k3.mono (by simp))
  have K : Keeps [n + 1, n + 2, n + 3, n + 4] h0 h3 := (K0.mono (by simp)).trans (K1.mono (by simp))
  have r3 := (K.cells root (by omega) (by simp; omega)).trans r0
  have g3 := (K.cells n (by omega) (by simp)).trans g0
  have p3 := (K1.cells (n + 1) (by omega) (by simp)).trans pc
  have U1 : Unfolds h3 (n + 2) _ := u1 h3 [n + 3, n + 4] ((k2.mono (by simp)).trans (k3.mono (by simp)))
    (fun _ hx => hx)
  have U2 : Unfolds h3 (n + 3) _ := u2 h3 [n + 4] k3 (fun _ hx => hx)
  have U3 : Unfolds h3 (n + 4) _ := u3.unfolds
  have hdoc : Unfolds h3 root (rectilinearDoc whole extent co pd cd) := by
    refine Unfolds.node r3 (.cons (Unfolds.node g3 (.cons (Unfolds.node p3 ?_) .nil)) .nil)
    exact List.rel_append (List.rel_append (optional_unfold U1) (optional_unfold U2)) (.cons U3 .nil)
  refine ⟨h3.killAll [n, n + 1, n + 2, n + 3, n + 4], ?_, ?_⟩
  · simp only
    rw [Eb, Ec, s1]
    show (addArrays _ _ _ h1 >>= _) = _
    rw [s2]
    show (addArrays _ _ _ h2 >>= _) = _
    rw [s3]
    show (writeXML h3 stack (some root) >>= _) = _
    rw [write_doc hdoc (Nat.le_trans (rectilinearDoc_depth whole extent co pd cd) hs)]
    rfl
  · subst hn
    exact Used.of hr (S := [h.next, h.next + 1, h.next + 2, h.next + 3, h.next + 4])
      (Keeps.trans (hk0.mono (by simp)) (K.mono (by simp))) (by simp) (by simp) r3 (x := h.next) (by simp)
      (by simp) (by omega)

/-! ### Parallel headers -/

/-- The name the format yields. -/
def pieceText (base : Text) (rank : Nat) : Text := (base ++ '_' :: pad4 rank ++ ".vtu".toList).take 255

def pieceNode (base : Text) (rank : Nat) : XNode :=
  { name := "Piece".toList, attributes := [("Source".toList, pieceText base rank)] }

theorem pieceName_eq {base : Text} (hb : '%' ∉ base) (rank : Nat) :
    pieceName base rank = .ok (pieceText base rank) := if_neg hb

theorem pieceNodes_ok {base : Text} (hb : '%' ∉ base) (is : List Nat) (h : Heap) :
    ∃ h' cs, pieceNodes base is h = .ok (h', cs) ∧ Keeps [] h h' ∧
      List.Forall₂ (fun c i => h.next ≤ c ∧ c < h'.next ∧ h'.cells c = some (pieceNode base i)) cs is := by
  induction is generalizing h with
  | nil => exact ⟨h, [], rfl, Keeps.refl _ _, .nil⟩
  | cons i is ih =>
    obtain ⟨h', cs, e1, e2, e3⟩ := ih (h.alloc (pieceNode base i)).1
    refine ⟨h', h.next :: cs, ?_, (Keeps.alloc _ _ _).trans e2, ?_⟩
    · rw [pieceNodes, pieceName_eq hb]
      show (pieceNodes base is (h.alloc (pieceNode base i)).1 >>= _) = _
      rw [e1]
      rfl
    · refine .cons ⟨Nat.le_refl _, Nat.lt_of_lt_of_le (Nat.lt_succ_self _) e2.next, ?_⟩ ?_
      · rw [e2.cells h.next (Nat.lt_succ_self _) (by simp), alloc_cells, if_pos rfl]
      · exact forall₂_imp_mem e3 (fun c b _ hc => ⟨Nat.le_of_succ_le hc.1, hc.2⟩)

theorem addAll_ok {p : Nat} (cs : List Nat) {h : Heap} {n : XNode} (hp : h.cells p = some n) :
    Keeps [p] h (cs.foldl (fun h q => h.addChild p q) h) ∧
      (cs.foldl (fun h q => h.addChild p q) h).cells p = some { n with children := n.children ++ cs } ∧
      (cs.foldl (fun h q => h.addChild p q) h).next = h.next := by
  induction cs generalizing h n with
  | nil => exact ⟨Keeps.refl _ _, by rw [List.foldl_nil, hp]; simp, rfl⟩
  | cons c cs ih =>
    obtain ⟨h1, h2, h3⟩ := ih (addChild_self hp c)
    refine ⟨(Keeps.addChild h (List.mem_singleton.mpr rfl) c).trans h1, ?_, h3⟩
    rw [List.foldl_cons, h2]
    simp

theorem headerDoc_depth (type : Text) (m : UMesh) (pd cd : List DataArr) (pieces : List Text) :
    (headerDoc type m pd cd pieces).depth ≤ 4 := by
  have hann : ∀ as : List DataArr, ((as.map announceElement).map XTree.depth).foldr max 0 ≤ 1 := by
    intro as
    induction as with
    | nil => simp
    | cons a as ih =>
      rw [List.map_cons, List.map_cons, List.foldr_cons]
      have : (announceElement a).depth = 1 := by simp [announceElement, XTree.depth]
      omega
  have hpc : (((pieces.map (fun f => XTree.node "Piece".toList [("Source".toList, f)] [] [])).map
      XTree.depth).foldr max 0) ≤ 1 := by
    induction pieces with
    | nil => simp
    | cons a as ih =>
      rw [List.map_cons, List.map_cons, List.foldr_cons]
      have : (XTree.node "Piece".toList [("Source".toList, a)] [] []).depth = 1 := by simp [XTree.depth]
      omega
  have h1 : (announceElement m.points).depth = 1 := by simp [announceElement, XTree.depth]
  have h2 := hann pd
  have h3 := hann cd
  simp only [headerDoc, fileElement, XTree.depth, List.map_cons, List.map_nil, List.foldr_cons,
    List.foldr_nil, List.map_append, List.foldr_append, h1] at *
  omega

/-- The memory when a header begins with the pieces. -/
def pStart (pd cd : List DataArr) (h : Heap) : Heap :=
  ((((h.alloc { name := "PUnstructuredGrid".toList, attributes := [("GhostLevel".toList, "0".toList)] }).1.alloc
      { name := "PPoints".toList }).1.alloc
      { name := "PPointData".toList, attributes := scalars pd }).1.alloc
      { name := "PCellData".toList, attributes := scalars cd }).1

theorem PGrid.steps (w : PGrid) (m : UMesh) (size stack : Nat) (base : Text) (h : Heap) :
    w.headerFile m size stack base h =
      (pieceNodes base (List.range size) (pStart w.vtu.pointData w.vtu.cellData h) >>= fun ps =>
       addArrays DataArr.toPVTK (h.next + 1) [m.points]
         ((ps.1.addChild w.root h.next).addChild h.next (h.next + 1)) >>= fun h1 =>
       addArrays DataArr.toPVTK (h.next + 2) w.vtu.pointData (h1.addChild h.next (h.next + 2)) >>= fun h2 =>
       addArrays DataArr.toPVTK (h.next + 3) w.vtu.cellData (h2.addChild h.next (h.next + 3)) >>= fun h3 =>
       writeXML (ps.2.foldl (fun h' q => h'.addChild h.next q) h3) stack (some w.root) >>= fun t =>
       pure ((ps.2.foldl (fun h' q => h'.addChild h.next q) h3).killAll
         ([h.next, h.next + 1, h.next + 2, h.next + 3] ++ ps.2), t)) := rfl

theorem PGrid.header {w : PGrid} {m : UMesh} {base : Text} (hb : '%' ∉ base) {h : Heap}
    (hroot : h.cells w.root = some (rootNode "UnstructuredGrid".toList)) (hr : w.root < h.next)
    (size : Nat) {stack : Nat} (hs : 4 ≤ stack) :
    ∃ h', w.headerFile m size stack base h = .ok (h', "<?xml version=\"1.0\"?>".toList ++ ['\n'] ++
        (headerDoc "UnstructuredGrid".toList m w.vtu.pointData w.vtu.cellData
          ((List.range size).map (pieceText base))).text []) ∧ Used w.root h h' := by
  rw [PGrid.steps]
  generalize w.vtu.pointData = pd
  generalize w.vtu.cellData = cd
  generalize w.root = root at *
  have n0 : (pStart pd cd h).next = h.next + 4 := rfl
  have hk0 : Keeps [] h (pStart pd cd h) :=
    (((Keeps.alloc _ _ _).trans (Keeps.alloc _ _ _)).trans (Keeps.alloc _ _ _)).trans (Keeps.alloc _ _ _)
  have g0 : (pStart pd cd h).cells h.next =
      some ⟨"PUnstructuredGrid".toList, [("GhostLevel".toList, "0".toList)], [], []⟩ := by
    simp [pStart, alloc_cells, alloc_next, Nat.add_assoc]
  have pt0 : (pStart pd cd h).cells (h.next + 1) = some ⟨"PPoints".toList, [], [], []⟩ := by
    simp [pStart, alloc_cells, alloc_next, Nat.add_assoc]
  have pd0 : (pStart pd cd h).cells (h.next + 2) = some ⟨"PPointData".toList, scalars pd, [], []⟩ := by
    simp [pStart, alloc_cells, alloc_next, Nat.add_assoc]
  have cd0 : (pStart pd cd h).cells (h.next + 3) = some ⟨"PCellData".toList, scalars cd, [], []⟩ := by
    simp [pStart, alloc_cells, alloc_next, Nat.add_assoc]
  generalize pStart pd cd h = h0 at *
  obtain ⟨hp, cs, sp, kp, up⟩ := pieceNodes_ok hb (List.range size) h0
  have np := kp.next
  have k0 : Keeps [] h hp := hk0.trans kp
  have rp : hp.cells root = some (rootNode "UnstructuredGrid".toList) :=
    (k0.cells root hr (by simp)).trans hroot
  have gp := (kp.cells h.next (by omega) (by simp)).trans g0
  have ptp := (kp.cells (h.next + 1) (by omega) (by simp)).trans pt0
  have pdp := (kp.cells (h.next + 2) (by omega) (by simp)).trans pd0
  have cdp := (kp.cells (h.next + 3) (by omega) (by simp)).trans cd0
  have upl : ∀ c ∈ cs, h0.next ≤ c := by
    intro c hc
    obtain ⟨i, hi⟩ := List.getElem_of_mem hc
    have := List.Forall₂.get up hi.1 (by rw [← up.length_eq]; exact hi.1)
    rw [List.get_eq_getElem, hi.2] at this
    exact this.1
  generalize hn : h.next = n at *
  -- root and points
  have kq : Keeps [root, n] hp ((hp.addChild root n).addChild n (n + 1)) :=
    (Keeps.addChild _ (by simp) _).trans (Keeps.addChild _ (by simp) _)
  have rq : ((hp.addChild root n).addChild n (n + 1)).cells root =
      some { rootNode "UnstructuredGrid".toList with children := [n] } := by
    rw [addChild_other _ (by omega), addChild_self rp]
    rfl
  have gq : ((hp.addChild root n).addChild n (n + 1)).cells n =
      some ⟨"PUnstructuredGrid".toList, [("GhostLevel".toList, "0".toList)], [], [n + 1]⟩ := by
    rw [addChild_self (by rw [addChild_other _ (by omega), gp])]
    rfl
  have nq : ((hp.addChild root n).addChild n (n + 1)).next = hp.next := rfl
  generalize Eq : (hp.addChild root n).addChild n (n + 1) = hq at *
  obtain ⟨h1, s1, k1, u1⟩ := fill_ok (f := DataArr.toPVTK) ann_element (d := n + 1) [m.points]
    (fun a _ => toPVTK_eq a) ((kq.cells _ (by omega) (by simp; omega)).trans ptp) (by omega)
    (T := [n, n + 2, n + 3]) (by simp; omega)
  have n1 := k1.next
  -- point data
  have ka : Keeps [n] h1 (h1.addChild n (n + 2)) := Keeps.addChild _ (by simp) _
  have na := addChild_next h1 n (n + 2)
  have ga := addChild_self ((k1.cells n (by omega) (by simp)).trans gq) (n + 2)
  generalize Ea : h1.addChild n (n + 2) = ha at *
  obtain ⟨h2, s2, k2, u2⟩ := fill_ok (f := DataArr.toPVTK) ann_element (d := n + 2) pd
    (fun a _ => toPVTK_eq a) ((ka.cells _ (by omega) (by simp)).trans
      ((k1.cells _ (by omega) (by simp)).trans ((kq.cells _ (by omega) (by simp; omega)).trans pdp)))
    (by omega) (T := [n, n + 3]) (by simp; omega)
  have n2 := k2.next
  -- cell data
  have kb : Keeps [n] h2 (h2.addChild n (n + 3)) := Keeps.addChild _ (by simp) _
  have nb := addChild_next h2 n (n + 3)
  have gb := addChild_self ((k2.cells n (by omega) (by simp)).trans ga) (n + 3)
  generalize Eb : h2.addChild n (n + 3) = hb' at *
  obtain ⟨h3, s3, k3, u3⟩ := fill_ok (f := DataArr.toPVTK) ann_element (d := n + 3) cd
    (fun a _ => toPVTK_eq a) ((kb.cells _ (by omega) (by simp)).trans
      ((k2.cells _ (by omega) (by simp)).trans ((ka.cells _ (by omega) (by simp)).trans
      ((k1.cells _ (by omega) (by simp)).trans ((kq.cells _ (by omega) (by simp; omega)).trans cdp)))))
    (by omega) (T := [n]) (by simp; omega)
  have n3 := k3.next
  -- pieces
  obtain ⟨k4, g4, n4⟩ := addAll_ok cs ((k3.cells n (by omega) (by simp)).trans gb)
  generalize E4 : cs.foldl (fun h' q => h'.addChild n q) h3 = h4 at *
  have K : Keeps [root, n, n + 1, n + 2, n + 3] hp h4 :=
    ((((((kq.mono (by simp)).trans (k1.mono (by simp))).trans (ka.mono (by simp))).trans
      (k2.mono (by simp))).trans (kb.mono (by simp))).trans (k3.mono (by simp))).trans (k4.mono (by simp))
  have Kr : Keeps [n, n + 1, n + 2, n + 3] hq h4 :=
    ((((((k1.mono (by simp))).trans (ka.mono (by simp))).trans
      (k2.mono (by simp))).trans (kb.mono (by simp))).trans (k3.mono (by simp))).trans (k4.mono (by simp))
  have r4 := (Kr.cells root (by omega) (by simp; omega)).trans rq
  have U1 : Unfolds h4 (n + 1) _ := u1 h4 [n, n + 2, n + 3]
    (((((ka.mono (by simp)).trans (k2.mono (by simp))).trans (kb.mono (by simp))).trans
      (k3.mono (by simp))).trans (k4.mono (by simp))) (fun _ hx => hx)
  have U2 : Unfolds h4 (n + 2) _ := u2 h4 [n, n + 3]
    (((kb.mono (by simp)).trans (k3.mono (by simp))).trans (k4.mono (by simp))) (fun _ hx => hx)
  have U3 : Unfolds h4 (n + 3) _ := u3 h4 [n] k4 (fun _ hx => hx)
  have U4 : List.Forall₂ (Unfolds h4) cs (((List.range size).map (pieceText base)).map
      (fun f => XTree.node "Piece".toList [("Source".toList, f)] [] [])) := by
    rw [List.map_map]
    rw [List.forall₂_map_right_iff]
    refine forall₂_imp_mem up (fun c i _ hc => ?_)
    refine Unfolds.node (n := pieceNode base i) ?_ .nil
    rw [K.cells c hc.2.1 (by simp; omega), hc.2.2]
  have hdoc : Unfolds h4 root (headerDoc "UnstructuredGrid".toList m pd cd
      ((List.range size).map (pieceText base))) := by
    refine Unfolds.node r4 (.cons (Unfolds.node g4 ?_) .nil)
    refine List.rel_append ?_ U4
    rw [scalars_eq] at U2 U3
    exact .cons U1 (.cons U2 (.cons U3 .nil))
  refine ⟨h4.killAll ([n, n + 1, n + 2, n + 3] ++ cs), ?_, ?_⟩
  · have okb : ∀ {α β : Type} (x : α) (f : α → Res β), (Res.ok x >>= f) = f x := fun _ _ => rfl
    rw [sp, okb]
    simp only
    rw [Eq, s1, okb, Ea, s2, okb, Eb, s3, okb, E4,
      write_doc hdoc (Nat.le_trans (headerDoc_depth _ m pd cd _) hs)]
    rfl
  · subst hn
    refine Used.of hr (S := [h.next, h.next + 1, h.next + 2, h.next + 3])
      (Keeps.trans (k0.mono (by simp)) (K.mono (by simp))) ?_ (by simp) r4 (x := h.next) (by simp)
      (by simp) (by omega)
    intro a ha
    rcases List.mem_append.mp ha with ha | ha
    · simp at ha
      omega
    · have := upl a ha
      omega

/-! ### Parallel writers -/

theorem Stale.keeps {root : Nat} {h h' : Heap} {S : List Nat} (hs : Stale root h) (hk : Keeps S h h')
    (hr : root ∉ S) (hS : ∀ x ∈ S, (h.cells x).isSome) : Stale root h' := by
  obtain ⟨h0, n, x, h1, h2, h3, h4⟩ := hs
  refine ⟨Nat.lt_of_lt_of_le h0 hk.next, n, x, ?_, h2, Nat.lt_of_lt_of_le h3 hk.next, ?_⟩
  · rw [hk.cells root h0 hr, h1]
  · rw [hk.cells x h3 (fun hx => by have := hS x hx; rw [h4] at this; cases this), h4]

theorem UGrid.Fresh.run {w : UGrid} {m : UMesh} {h : Heap} (hw : w.Fresh m h) {stack : Nat}
    (hs : 5 ≤ stack) :
    ∃ h', w.toVTK stack h = .ok (h', "<?xml version=\"1.0\"?>".toList ++ ['\n'] ++
        (unstructuredDoc m w.pointData w.cellData).text []) ∧ Used w.root h h' :=
  UGrid.first hw.mesh hw.root hw.lt (fun a ha => hw.arrays a (by simp [ha]))
    (fun a ha => hw.arrays a (by simp [ha])) (fun a ha => hw.arrays a (by simp [ha])) hs

theorem RGrid.Fresh.run {w : RGrid} {whole extent : Text} {h : Heap} (hw : w.Fresh whole extent h)
    {stack : Nat} (hs : 5 ≤ stack) :
    ∃ h', w.toVTK stack h = .ok (h', "<?xml version=\"1.0\"?>".toList ++ ['\n'] ++
        (rectilinearDoc whole extent w.coords w.pointData w.cellData).text []) ∧ Used w.root h h' :=
  RGrid.first hw.mesh hw.root hw.lt (fun a ha => hw.arrays a (by simp [ha]))
    (fun a ha => hw.arrays a (by simp [ha])) (fun a ha => hw.arrays a (by simp [ha])) hs

/-- The files of a rank. -/
def rankFiles (w : PGrid) (m : UMesh) (rank size : Nat) (base : Text) : List (Text × Text) :=
  (pieceText base rank, "<?xml version=\"1.0\"?>".toList ++ ['\n'] ++
      (unstructuredDoc m w.vtu.pointData w.vtu.cellData).text []) ::
    (if rank = 0 then [(base ++ ".pvtu".toList, "<?xml version=\"1.0\"?>".toList ++ ['\n'] ++
      (headerDoc "UnstructuredGrid".toList m w.vtu.pointData w.vtu.cellData
          ((List.range size).map (pieceText base))).text [])] else [])

theorem PGrid.Fresh.run {w : PGrid} {m : UMesh} {h : Heap} (hw : w.Fresh m h) {base : Text}
    (hb : '%' ∉ base) (rank size : Nat) {stack : Nat} (hs : 5 ≤ stack) :
    ∃ h', w.toVTK rank size stack base h = .ok (h', rankFiles w m rank size base) ∧
      Stale w.vtu.root h' := by
  obtain ⟨h1, e1, u1⟩ := hw.vtu.run hs
  have okb : ∀ {α β : Type} (x : α) (f : α → Res β), (Res.ok x >>= f) = f x := fun _ _ => rfl
  unfold PGrid.toVTK rankFiles
  rw [pieceName_eq hb, okb, e1, okb]
  by_cases hr : rank = 0
  · have r1 : h1.cells w.root = some (rootNode "UnstructuredGrid".toList) := by
      rw [u1.keeps.cells w.root hw.lt (by simpa using hw.ne), hw.root]
    obtain ⟨h2, e2, u2⟩ := PGrid.header (w := w) (m := m) hb r1
      (Nat.lt_of_lt_of_le hw.lt u1.keeps.next) size (stack := stack) (by omega)
    refine ⟨h2, ?_, u1.stale.keeps u2.keeps (by simpa using hw.ne.symm) (by simp [r1])⟩
    rw [if_pos hr, if_pos hr, hw.vtu.mesh]
    simp only
    rw [e2]
    rfl
  · refine ⟨h1, ?_, u1.stale⟩
    rw [if_neg hr, if_neg hr]
    rfl

/-! ### Names of pieces -/

theorem pad4_injective {a b : Nat} (h : pad4 a = pad4 b) : a = b := by
  have key : ∀ n, Nat.ofDigitChars 10 (pad4 n) 0 = n := by
    intro n
    unfold pad4 natText
    rw [Nat.ofDigitChars_append, Nat.ofDigitChars_replicate_zero, Nat.mul_zero,
      Nat.ofDigitChars_ten_toDigits]
  rw [← key a, h, key b]

theorem pad4_length {n : Nat} (h : n < 10 ^ 10) : (pad4 n).length ≤ 10 := by
  have : (natText n).length ≤ 10 := (Nat.length_toDigits_le_iff (by omega) (by omega)).mpr h
  unfold pad4
  rw [List.length_append, List.length_replicate]
  omega

theorem pieceText_short {base : Text} (hl : base.length ≤ 240) {i : Nat} (hi : i < 10 ^ 10) :
    pieceText base i = base ++ '_' :: pad4 i ++ ".vtu".toList := by
  unfold pieceText
  apply List.take_of_length_le
  have := pad4_length hi
  have h4 : ".vtu".toList.length = 4 := rfl
  rw [List.length_append, List.length_append, List.length_cons, h4]
  omega

theorem pieceText_plain {base : Text} (hb : Plain base) (i : Nat) : Plain (pieceText base i) := by
  intro c hc
  have hc := List.mem_of_mem_take hc
  rcases List.mem_append.mp hc with hc | hc
  · rcases List.mem_append.mp hc with hc | hc
    · exact hb c hc
    · rcases List.mem_cons.mp hc with rfl | hc
      · decide
      · have hd : c.isDigit = true := by
          rcases List.mem_append.mp hc with hc | hc
          · rw [List.eq_of_mem_replicate hc]; rfl
          · exact Nat.isDigit_of_mem_toDigits (by omega) (by omega) hc
        refine ⟨?_, ?_, ?_, ?_⟩ <;> (rintro rfl; revert hd; decide)
  · have : ∀ c ∈ ".vtu".toList, c ≠ '<' ∧ c ≠ '>' ∧ c ≠ '&' ∧ c ≠ '"' := by decide
    exact this c hc

/-- The directory of a name does not depend on what follows the last slash. -/
theorem directory_append (a : Text) {b : Text} (hb : '/' ∉ b) : directory (a ++ b) = directory a := by
  unfold directory
  rw [List.reverse_append, List.dropWhile_append_of_pos]
  intro c hc
  have : c ≠ '/' := by
    rintro rfl
    exact hb (List.mem_reverse.mp hc)
  simpa using this

theorem directory_slash (d : Text) {f : Text} (hf : '/' ∉ f) : directory (d ++ '/' :: f) = d ++ ['/'] := by
  have : d ++ '/' :: f = (d ++ ['/']) ++ f := by simp
  rw [this, directory_append _ hf]
  unfold directory
  rw [List.reverse_append]
  simp

theorem directory_none {f : Text} (hf : '/' ∉ f) : directory f = [] := by
  have := directory_append [] hf
  simpa [directory] using this

theorem headerSources_trimmed (t : XTree) : headerSources t.trimmed = headerSources t := by
  obtain ⟨n, as, d, cs⟩ := t
  have e1 : ∀ l : List XTree, ((l.map XTree.trimmed).filter (fun c => c.name = "Piece".toList)).flatMap
      (fun c => (c.attributes.filter (fun p => p.1 = "Source".toList)).map Prod.snd) =
      (l.filter (fun c => c.name = "Piece".toList)).flatMap
      (fun c => (c.attributes.filter (fun p => p.1 = "Source".toList)).map Prod.snd) := by
    intro l
    induction l with
    | nil => rfl
    | cons c l ih =>
      obtain ⟨cn, ca, cd, cc⟩ := c
      rw [List.map_cons, XTree.trimmed]
      rw [List.filter_cons, List.filter_cons]
      by_cases hc : cn = "Piece".toList
      · have hp : ∀ d c, (decide (XTree.name (.node cn ca d c) = "Piece".toList)) = true :=
          fun _ _ => decide_eq_true hc
        rw [if_pos (hp _ _), if_pos (hp _ _), List.flatMap_cons, List.flatMap_cons, ih]
        rfl
      · have hp : ∀ d c, ¬ (decide (XTree.name (.node cn ca d c) = "Piece".toList)) = true :=
          fun _ _ e => hc (of_decide_eq_true e)
        rw [if_neg (hp _ _), if_neg (hp _ _), ih]
  rw [XTree.trimmed]
  unfold headerSources
  match cs with
  | [] => rfl
  | [g] =>
    obtain ⟨gn, ga, gd, gc⟩ := g
    simp only [XTree.children, List.map_cons, List.map_nil, XTree.trimmed]
    exact e1 gc
  | _ :: _ :: _ => rfl

theorem headerSources_doc (type : Text) (m : UMesh) (pd cd : List DataArr) (pieces : List Text) :
    headerSources (headerDoc type m pd cd pieces) = pieces := by
  unfold headerSources headerDoc fileElement
  simp only [XTree.children]
  rw [List.filter_append, List.flatMap_append]
  have e1 : (List.filter (fun c => decide (XTree.name c = "Piece".toList))
      [XTree.node "PPoints".toList [] [] [announceElement m.points],
      .node "PPointData".toList (namesAttr pd) [] (pd.map announceElement),
      .node "PCellData".toList (namesAttr cd) [] (cd.map announceElement)]) = [] := by
    simp [XTree.name]
  rw [e1, List.flatMap_nil, List.nil_append]
  induction pieces with
  | nil => rfl
  | cons f fs ih =>
    rw [List.map_cons, List.filter_cons_of_pos (by simp [XTree.name]), List.flatMap_cons, ih]
    simp [XTree.attributes]

end EF
