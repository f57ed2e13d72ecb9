import Verif.Spec.XML
import Verif.Proofs.VecLemmas

/-!
# The writer produces what the reader reads
-/

namespace EF

theorem XTree.induct {P : XTree → Prop}
    (h : ∀ n as d cs, (∀ c ∈ cs, P c) → P (.node n as d cs)) : ∀ t, P t
  | .node n as d cs => h n as d cs (fun c _ => XTree.induct h c)
termination_by t => sizeOf t
decreasing_by
  have := List.sizeOf_lt_of_mem ‹c ∈ cs›
  simp only [XTree.node.sizeOf_spec]
  omega

/-! ## The text of a tree -/

def attrText (p : Text × Text) : Text := ' ' :: (p.1 ++ '=' :: '"' :: (p.2 ++ ['"']))

def attrsText (as : List (Text × Text)) : Text := as.flatMap attrText

def dataText (d : Text) : Text := if d ≠ [] then d ++ ['\n'] else []

def XTree.text (indent : Text) : XTree → Text
  | .node n as d cs =>
    indent ++ '<' :: (n ++ attrsText as ++ '>' :: '\n' :: (dataText d ++
      (cs.map (XTree.text (indent ++ [' ', ' ']))).flatten ++ (indent ++ '<' :: '/' :: (n ++ ['>', '\n']))))
termination_by t => sizeOf t

theorem header_eq (n : XNode) (indent : Text) :
    n.header indent = indent ++ '<' :: (n.name ++ attrsText n.attributes ++ ['>']) := by
  have key : ∀ (as : List (Text × Text)) (s : Text),
      as.foldl (fun s p => s ++ (p.1 ++ '=' :: '"' :: p.2 ++ ['"', ' '])) (s ++ [' ']) =
        s ++ attrsText as ++ [' '] := by
    intro as
    induction as with
    | nil => intro s; simp [attrsText]
    | cons p as ih =>
      intro s
      rw [List.foldl_cons]
      have h1 : s ++ [' '] ++ (p.1 ++ '=' :: '"' :: p.2 ++ ['"', ' ']) = (s ++ attrText p) ++ [' '] := by
        simp [attrText]
      rw [h1, ih]
      simp [attrsText]
  unfold XNode.header
  have h2 : indent ++ ('<' :: n.name ++ [' ']) = (indent ++ '<' :: n.name) ++ [' '] := by simp
  rw [h2, key, List.dropLast_concat]
  simp

theorem writeChildren_ok {w : Nat → Res Text} {g : XTree → Text} {as : List Nat} {cs : List XTree}
    (h : List.Forall₂ (fun a c => w a = .ok (g c)) as cs) :
    writeChildren w as = .ok (cs.map g).flatten := by
  induction h with
  | nil => rfl
  | cons h1 _ ih =>
    rw [writeChildren, h1]
    show (writeChildren w _ >>= _) = _
    rw [ih]
    rfl

theorem depth_child {c : XTree} {cs : List XTree} (hc : c ∈ cs) :
    c.depth ≤ (cs.map XTree.depth).foldr max 0 := by
  induction cs with
  | nil => simp at hc
  | cons x xs ih =>
    rw [List.map_cons, List.foldr_cons]
    rcases List.mem_cons.mp hc with rfl | hc
    · exact Nat.le_max_left ..
    · exact Nat.le_trans (ih hc) (Nat.le_max_right ..)

theorem forall₂_imp_mem {α β : Type} {R S : α → β → Prop} {as : List α} {bs : List β}
    (h : List.Forall₂ R as bs) (hi : ∀ a b, b ∈ bs → R a b → S a b) : List.Forall₂ S as bs := by
  induction h with
  | nil => exact .nil
  | cons h1 _ ih =>
    exact .cons (hi _ _ (List.mem_cons_self ..) h1)
      (ih (fun a b hb => hi a b (List.mem_cons_of_mem _ hb)))

theorem writeNode_ok (h : Heap) (t : XTree) : ∀ (a stack : Nat) (indent : Text), Unfolds h a t →
    t.depth ≤ stack → writeNode h stack a indent = .ok (t.text indent) := by
  induction t using XTree.induct with
  | h n as d cs ih =>
    intro a stack indent hu hs
    cases hu with
    | @node _ x _ hx hc =>
      cases stack with
      | zero => rw [XTree.depth] at hs; omega
      | succ stack =>
        rw [XTree.depth] at hs
        rw [writeNode, hx]
        have hkids := forall₂_imp_mem (S := fun a c => writeNode h stack a (indent ++ [' ', ' ']) =
            .ok (c.text (indent ++ [' ', ' ']))) hc
          (fun b c hm hb => ih c hm b stack _ hb (by have := depth_child hm; omega))
        simp only [writeChildren_ok hkids]
        show Res.ok _ = _
        rw [header_eq, XTree.text]
        unfold dataText
        simp

/-! ## Reading -/

theorem run_text (s : XState) (hs : s.inTag = false) (t : Text)
    (h : ∀ c ∈ t, c ≠ '<' ∧ c ≠ '>' ∧ c ≠ '&') :
    t.foldlM xmlStep s = some { s with acc := s.acc ++ t } := by
  induction t generalizing s with
  | nil => simp
  | cons c t ih =>
    obtain ⟨h1, h2, h3⟩ := h c (List.mem_cons_self ..)
    have hstep : xmlStep s c = some { s with acc := s.acc ++ [c] } := by
      unfold xmlStep
      rw [if_neg h3, hs]
      simp [h1, h2]
    rw [List.foldlM_cons, hstep]
    show t.foldlM xmlStep { s with acc := s.acc ++ [c] } = _
    rw [ih { s with acc := s.acc ++ [c] } hs (fun x hx => h x (List.mem_cons_of_mem _ hx))]
    simp

theorem run_tagText (s : XState) (hs : s.inTag = true) (t : Text)
    (h : ∀ c ∈ t, c ≠ '<' ∧ c ≠ '>' ∧ c ≠ '&') :
    t.foldlM xmlStep s = some { s with acc := s.acc ++ t } := by
  induction t generalizing s with
  | nil => simp
  | cons c t ih =>
    obtain ⟨h1, h2, h3⟩ := h c (List.mem_cons_self ..)
    have hstep : xmlStep s c = some { s with acc := s.acc ++ [c] } := by
      unfold xmlStep
      rw [if_neg h3, hs]
      simp [h1, h2]
    rw [List.foldlM_cons, hstep]
    show t.foldlM xmlStep { s with acc := s.acc ++ [c] } = _
    rw [ih { s with acc := s.acc ++ [c] } hs (fun x hx => h x (List.mem_cons_of_mem _ hx))]
    simp

/-- A whole tag, from `<` to `>`. -/
theorem run_tag (s s' : XState) (hs : s.inTag = false) (hf : s.flush = some s') (t : Text)
    (h : ∀ c ∈ t, c ≠ '<' ∧ c ≠ '>' ∧ c ≠ '&') :
    ('<' :: (t ++ ['>'])).foldlM xmlStep s = ({ s' with inTag := true, acc := t } : XState).tag := by
  have h1 : xmlStep s '<' = some { s' with inTag := true } := by
    unfold xmlStep
    rw [if_neg (by decide), hs, hf]
    rfl
  have hacc : s'.acc = [] := by
    unfold XState.flush at hf
    split at hf
    · split at hf
      · cases hf; rfl
      · cases hf
    · cases hf; rfl
  rw [List.foldlM_cons, h1]
  show (t ++ ['>']).foldlM xmlStep { s' with inTag := true } = _
  rw [List.foldlM_append, run_tagText _ rfl t h]
  show ['>'].foldlM xmlStep { s' with inTag := true, acc := s'.acc ++ t } = _
  rw [hacc, List.nil_append, List.foldlM_cons]
  have h2 : xmlStep { s' with inTag := true, acc := t } '>' =
      ({ s' with inTag := true, acc := t } : XState).tag := by
    unfold xmlStep
    rw [if_neg (by decide), if_pos rfl, if_pos rfl]
  rw [h2]
  cases ({ s' with inTag := true, acc := t } : XState).tag <;> rfl

theorem attrs_key (t : Text) (h : ∀ c ∈ t, c ≠ ' ' ∧ c ≠ '"' ∧ c ≠ '=') (acc : Text)
    (as : List (Text × Text)) :
    t.foldlM attrStep (.key acc, as) = some (.key (acc ++ t), as) := by
  induction t generalizing acc with
  | nil => simp
  | cons c t ih =>
    obtain ⟨h1, h2, h3⟩ := h c (List.mem_cons_self ..)
    have : attrStep (.key acc, as) c = some (.key (acc ++ [c]), as) := by
      simp [attrStep, h1, h2, h3]
    rw [List.foldlM_cons, this]
    show t.foldlM attrStep (.key (acc ++ [c]), as) = _
    rw [ih (fun x hx => h x (List.mem_cons_of_mem _ hx))]
    simp

theorem attrs_value (t : Text) (h : '"' ∉ t) (k acc : Text) (as : List (Text × Text)) :
    t.foldlM attrStep (.value k acc, as) = some (.value k (acc ++ t), as) := by
  induction t generalizing acc with
  | nil => simp
  | cons c t ih =>
    have hc : c ≠ '"' := fun e => h (e ▸ List.mem_cons_self ..)
    have : attrStep (.value k acc, as) c = some (.value k (acc ++ [c]), as) := by
      simp [attrStep, hc]
    rw [List.foldlM_cons, this]
    show t.foldlM attrStep (.value k (acc ++ [c]), as) = _
    rw [ih (fun hx => h (List.mem_cons_of_mem _ hx))]
    simp

theorem attrs_one (p : Text × Text) (hk : XName p.1) (hv : Plain p.2) (as : List (Text × Text)) :
    (attrText p).foldlM attrStep (.closed, as) = some (.closed, as ++ [p]) := by
  obtain ⟨k, v⟩ := p
  obtain ⟨hp, hsp, heq, c, r, hkr, _, _⟩ := hk
  simp only at hp hsp heq hkr hv ⊢
  subst hkr
  have hkey : ∀ x ∈ c :: r, x ≠ ' ' ∧ x ≠ '"' ∧ x ≠ '=' := by
    intro x hx
    exact ⟨fun e => hsp (e ▸ hx), (hp x hx).2.2.2, fun e => heq (e ▸ hx)⟩
  obtain ⟨c1, c2, c3⟩ := hkey c (List.mem_cons_self ..)
  unfold attrText
  rw [List.foldlM_cons]
  show ((c :: r) ++ '=' :: '"' :: (v ++ ['"'])).foldlM attrStep (.gap, as) = _
  rw [List.cons_append, List.foldlM_cons]
  have h1 : attrStep (.gap, as) c = some (.key [c], as) := by simp [attrStep, c1, c2, c3]
  rw [h1]
  show (r ++ '=' :: '"' :: (v ++ ['"'])).foldlM attrStep (.key [c], as) = _
  rw [List.foldlM_append, attrs_key r (fun x hx => hkey x (List.mem_cons_of_mem _ hx))]
  show ('=' :: '"' :: (v ++ ['"'])).foldlM attrStep (.key ([c] ++ r), as) = _
  rw [List.foldlM_cons]
  show ('"' :: (v ++ ['"'])).foldlM attrStep (.quote ([c] ++ r), as) = _
  rw [List.foldlM_cons]
  show (v ++ ['"']).foldlM attrStep (.value ([c] ++ r) [], as) = _
  rw [List.foldlM_append, attrs_value v (fun hx => (hv _ hx).2.2.2 rfl)]
  rfl

theorem attrs_all (as : List (Text × Text)) (h : ∀ p ∈ as, XName p.1 ∧ Plain p.2)
    (pre : List (Text × Text)) :
    (attrsText as).foldlM attrStep (.closed, pre) = some (.closed, pre ++ as) := by
  induction as generalizing pre with
  | nil => simp [attrsText]
  | cons p as ih =>
    obtain ⟨h1, h2⟩ := h p (List.mem_cons_self ..)
    unfold attrsText
    rw [List.flatMap_cons, List.foldlM_append, attrs_one p h1 h2]
    show (attrsText as).foldlM attrStep (.closed, pre ++ [p]) = _
    rw [ih (fun x hx => h x (List.mem_cons_of_mem _ hx))]
    simp

theorem readAttrs_ok (as : List (Text × Text)) (h : ∀ p ∈ as, XName p.1 ∧ Plain p.2)
    (hn : (as.map Prod.fst).Nodup) : readAttrs (attrsText as) = some as := by
  unfold readAttrs
  rw [attrs_all as h]
  simp [hn]

theorem splitSpace {n : Text} (hn : ' ' ∉ n) (r : Text) (hr : r = [] ∨ r.head? = some ' ') :
    (n ++ r).takeWhile (· ≠ ' ') = n ∧ (n ++ r).dropWhile (· ≠ ' ') = r := by
  have h1 : ∀ x ∈ n, decide (x ≠ ' ') = true := by
    intro x hx
    simp only [ne_eq, decide_eq_true_eq]
    rintro rfl
    exact hn hx
  rw [List.takeWhile_append_of_pos h1, List.dropWhile_append_of_pos h1]
  rcases hr with rfl | hr
  · simp
  · cases r with
    | nil => simp
    | cons c r =>
      have : c = ' ' := by simpa using hr
      subst this
      simp

theorem readTag_open {n : Text} {as : List (Text × Text)} (hn : XName n)
    (h : ∀ p ∈ as, XName p.1 ∧ Plain p.2) (hd : (as.map Prod.fst).Nodup) :
    readTag (n ++ attrsText as) = some (.opening n as) := by
  obtain ⟨_, hsp, _, c, r, rfl, h1, h2⟩ := hn
  have hr : attrsText as = [] ∨ (attrsText as).head? = some ' ' := by
    cases as with
    | nil => exact Or.inl rfl
    | cons p as => exact Or.inr rfl
  obtain ⟨s1, s2⟩ := splitSpace hsp (attrsText as) hr
  unfold readTag
  split
  · rename_i x n' hx
    simp only [List.cons_append, List.cons.injEq] at hx
    exact absurd hx.1 h1
  · rename_i x n' hx
    simp only [List.cons_append, List.cons.injEq] at hx
    exact absurd hx.1 h2
  · rw [s1, s2, if_neg (by simp), readAttrs_ok as h hd]
    rfl

theorem readTag_close {n : Text} (hn : XName n) : readTag ('/' :: n) = some (.closing n) := by
  obtain ⟨_, hsp, _, c, r, rfl, _, _⟩ := hn
  unfold readTag
  show (if c :: r = [] ∨ ' ' ∈ c :: r then none else _) = _
  rw [if_neg (by simp only [reduceCtorEq, false_or]; exact hsp)]

theorem plain_tag {n : Text} {as : List (Text × Text)} (hn : XName n)
    (h : ∀ p ∈ as, XName p.1 ∧ Plain p.2) :
    ∀ c ∈ n ++ attrsText as, c ≠ '<' ∧ c ≠ '>' ∧ c ≠ '&' := by
  intro c hc
  rcases List.mem_append.mp hc with hc | hc
  · obtain ⟨a, b, d, _⟩ := hn.1 c hc
    exact ⟨a, b, d⟩
  · obtain ⟨p, hp, hc⟩ := List.mem_flatMap.mp hc
    obtain ⟨hk, hv⟩ := h p hp
    simp only [attrText, List.mem_cons, List.mem_append, List.not_mem_nil, or_false] at hc
    rcases hc with rfl | hc | rfl | rfl | hc | rfl
    · decide
    · obtain ⟨a, b, d, _⟩ := hk.1 c hc
      exact ⟨a, b, d⟩
    · decide
    · decide
    · obtain ⟨a, b, d, _⟩ := hv c hc
      exact ⟨a, b, d⟩
    · decide

/-! ## White space -/

def Ws (t : Text) : Prop := ∀ c ∈ t, isWs c = true

theorem dropWhile_ws {w : Text} (hw : Ws w) (t : Text) : (w ++ t).dropWhile isWs = t.dropWhile isWs :=
  List.dropWhile_append_of_pos hw

theorem trimWs_left {w : Text} (hw : Ws w) (t : Text) : trimWs (w ++ t) = trimWs t := by
  unfold trimWs
  rw [dropWhile_ws hw]

theorem dropWhile_append_ws (t : Text) {w : Text} (hw : Ws w) :
    ∃ w', Ws w' ∧ (t ++ w).dropWhile isWs = t.dropWhile isWs ++ w' ∧ (t.dropWhile isWs = [] → w' = []) := by
  induction t with
  | nil =>
    refine ⟨[], fun c hc => by simp at hc, ?_, fun _ => rfl⟩
    have := dropWhile_ws hw []
    rw [List.append_nil] at this
    rw [List.nil_append, this]
    rfl
  | cons c t ih =>
    by_cases hc : isWs c = true
    · obtain ⟨w', h1, h2, h3⟩ := ih
      refine ⟨w', h1, ?_, ?_⟩
      · rw [List.cons_append, List.dropWhile_cons_of_pos hc, List.dropWhile_cons_of_pos hc, h2]
      · rw [List.dropWhile_cons_of_pos hc]; exact h3
    · refine ⟨w, hw, ?_, ?_⟩
      · rw [List.cons_append, List.dropWhile_cons_of_neg hc, List.dropWhile_cons_of_neg hc]
        rfl
      · rw [List.dropWhile_cons_of_neg hc]
        intro h
        cases h

theorem trimWs_right (t : Text) {w : Text} (hw : Ws w) : trimWs (t ++ w) = trimWs t := by
  obtain ⟨w', h1, h2, _⟩ := dropWhile_append_ws t hw
  unfold trimWs
  rw [h2, List.reverse_append]
  have : Ws w'.reverse := fun c hc => h1 c (List.mem_reverse.mp hc)
  rw [dropWhile_ws this]

theorem ws_nl : Ws ['\n'] := fun c hc => by simp at hc; subst hc; rfl

theorem ws_append {a b : Text} (ha : Ws a) (hb : Ws b) : Ws (a ++ b) := by
  intro c hc
  rcases List.mem_append.mp hc with h | h
  · exact ha c h
  · exact hb c h

theorem ws_plain {w : Text} (hw : Ws w) : ∀ c ∈ w, c ≠ '<' ∧ c ≠ '>' ∧ c ≠ '&' := by
  intro c hc
  have := hw c hc
  refine ⟨?_, ?_, ?_⟩ <;> rintro rfl <;> exact absurd this (by decide)

/-! ## One element -/

/-- Running over the text of a tree attaches the tree to the state after the flush. -/
def ReadsAs (t : XTree) : Prop :=
  ∀ (indent : Text), Ws indent → ∀ (acc : Text) (stack : List XFrame) (root : Option XTree) (s' : XState),
    (stack = [] → root = none) →
    (⟨false, acc ++ indent, stack, root⟩ : XState).flush = some s' →
    (t.text indent).foldlM xmlStep ⟨false, acc, stack, root⟩ =
      (XState.attach t.trimmed s'.stack root).map (fun s => { s with acc := ['\n'] })

theorem reads_children (cs : List XTree) (h : ∀ c ∈ cs, ReadsAs c) (indent : Text) (hi : Ws indent)
    (acc : Text) (f : XFrame) (fs : List XFrame) (root : Option XTree) :
    ∃ A T w, (cs.map (XTree.text indent)).flatten.foldlM xmlStep ⟨false, acc, f :: fs, root⟩ =
        some ⟨false, A, { f with text := T, children := f.children ++ cs.map XTree.trimmed } :: fs, root⟩ ∧
      T ++ A = f.text ++ acc ++ w ∧ Ws w := by
  induction cs generalizing acc f with
  | nil =>
    refine ⟨acc, f.text, [], ?_, by simp, fun c hc => by simp at hc⟩
    simp
  | cons c cs ih =>
    have h1 := h c (List.mem_cons_self ..) indent hi acc (f :: fs) root _ (fun e => by cases e) rfl
    obtain ⟨A, T, w, e1, e2, e3⟩ := ih (fun x hx => h x (List.mem_cons_of_mem _ hx)) ['\n']
      { f with text := f.text ++ (acc ++ indent), children := f.children ++ [c.trimmed] }
    refine ⟨A, T, indent ++ ['\n'] ++ w, ?_, ?_, ws_append (ws_append hi ws_nl) e3⟩
    · rw [List.map_cons, List.flatten_cons, List.foldlM_append, h1]
      show (cs.map (XTree.text indent)).flatten.foldlM xmlStep
        ⟨false, ['\n'], ⟨f.name, f.attributes, f.text ++ (acc ++ indent), f.children ++ [c.trimmed]⟩ :: fs,
          root⟩ = _
      rw [e1]
      simp
    · rw [e2]
      simp

theorem reads (t : XTree) : t.Legal → ReadsAs t := by
  induction t using XTree.induct with
  | h n as d cs ih =>
    intro hl indent hi acc stack root s' hroot hflush
    cases hl with
    | node hn has hnd hd hcs =>
    rw [XTree.text]
    have hsplit : indent ++ '<' :: (n ++ attrsText as ++ '>' :: '\n' :: (dataText d ++
        (cs.map (XTree.text (indent ++ [' ', ' ']))).flatten ++ (indent ++ '<' :: '/' :: (n ++ ['>', '\n'])))) =
        indent ++ (('<' :: ((n ++ attrsText as) ++ ['>'])) ++ (('\n' :: dataText d) ++
        ((cs.map (XTree.text (indent ++ [' ', ' ']))).flatten ++ (indent ++ (('<' :: (('/' :: n) ++ ['>'])) ++
          ['\n']))))) := by simp
    rw [hsplit, List.foldlM_append, run_text _ rfl indent (ws_plain hi)]
    show (('<' :: ((n ++ attrsText as) ++ ['>'])) ++ _).foldlM xmlStep ⟨false, acc ++ indent, stack, root⟩ = _
    rw [List.foldlM_append, run_tag _ s' rfl hflush _ (plain_tag hn has)]
    -- the opening tag
    have hs'root : s'.root = root := by
      unfold XState.flush at hflush
      split at hflush
      · split at hflush
        · cases hflush; rfl
        · cases hflush
      · cases hflush; rfl
    have hs'stack : s'.stack = [] → root = none := by
      unfold XState.flush at hflush
      intro e
      split at hflush
      · rename_i h0
        exact hroot h0
      · cases hflush
        simp at e
    have hopen : ({ s' with inTag := true, acc := n ++ attrsText as } : XState).tag =
        some ⟨false, [], ⟨n, as, [], []⟩ :: s'.stack, root⟩ := by
      unfold XState.tag
      rw [readTag_open hn has hnd]
      show (if s'.stack = [] ∧ s'.root.isSome = true then none else _) = _
      rw [if_neg]
      · rw [hs'root]
      · rintro ⟨h1, h2⟩
        rw [hs'root, hs'stack h1] at h2
        simp at h2
    rw [hopen]
    show (('\n' :: dataText d) ++ _).foldlM xmlStep ⟨false, [], ⟨n, as, [], []⟩ :: s'.stack, root⟩ = _
    have hdp : ∀ c ∈ '\n' :: dataText d, c ≠ '<' ∧ c ≠ '>' ∧ c ≠ '&' := by
      intro c hc
      rcases List.mem_cons.mp hc with rfl | hc
      · decide
      · unfold dataText at hc
        split at hc
        · rcases List.mem_append.mp hc with hc | hc
          · obtain ⟨a, b, e, _⟩ := hd c hc
            exact ⟨a, b, e⟩
          · have : c = '\n' := by simpa using hc
            subst this
            decide
        · simp at hc
    rw [List.foldlM_append, run_text _ rfl _ hdp]
    show (((cs.map (XTree.text (indent ++ [' ', ' ']))).flatten ++ _)).foldlM xmlStep
      ⟨false, '\n' :: dataText d, ⟨n, as, [], []⟩ :: s'.stack, root⟩ = _
    have hi2 : Ws (indent ++ [' ', ' ']) := ws_append hi (fun c hc => by
      have : c = ' ' := by simpa using hc
      subst this; rfl)
    obtain ⟨A, T, w, e1, e2, e3⟩ := reads_children cs (fun c hc => ih c hc (hcs c hc)) _ hi2
      ('\n' :: dataText d) ⟨n, as, [], []⟩ s'.stack root
    rw [List.foldlM_append, e1]
    show (indent ++ _).foldlM xmlStep
      ⟨false, A, ⟨n, as, T, [] ++ cs.map XTree.trimmed⟩ :: s'.stack, root⟩ = _
    rw [List.foldlM_append, run_text _ rfl indent (ws_plain hi)]
    show (('<' :: (('/' :: n) ++ ['>'])) ++ ['\n']).foldlM xmlStep
      ⟨false, A ++ indent, ⟨n, as, T, [] ++ cs.map XTree.trimmed⟩ :: s'.stack, root⟩ = _
    have hcp : ∀ c ∈ '/' :: n, c ≠ '<' ∧ c ≠ '>' ∧ c ≠ '&' := by
      intro c hc
      rcases List.mem_cons.mp hc with rfl | hc
      · decide
      · obtain ⟨a, b, e, _⟩ := hn.1 c hc
        exact ⟨a, b, e⟩
    rw [List.foldlM_append, run_tag _ _ rfl rfl _ hcp]
    have hclose : XState.tag ⟨true, '/' :: n,
          ⟨n, as, T ++ (A ++ indent), [] ++ cs.map XTree.trimmed⟩ :: s'.stack, root⟩ =
        XState.attach (.node n as (trimWs (T ++ (A ++ indent))) (cs.map XTree.trimmed)) s'.stack root := by
      unfold XState.tag
      rw [readTag_close hn]
      show (if n = n then _ else none) = _
      rw [if_pos rfl, List.nil_append]
    have htrim : trimWs (T ++ (A ++ indent)) = trimWs d := by
      rw [← List.append_assoc, e2]
      show trimWs (([] ++ '\n' :: dataText d) ++ w ++ indent) = _
      rw [trimWs_right _ hi, trimWs_right _ e3, List.nil_append]
      show trimWs (['\n'] ++ dataText d) = _
      rw [trimWs_left ws_nl]
      unfold dataText
      split
      · exact trimWs_right d ws_nl
      · rename_i h0
        have : d = [] := by simpa using h0
        rw [this]
    have ht : (XTree.node n as d cs).trimmed = .node n as (trimWs d) (cs.map XTree.trimmed) := by
      rw [XTree.trimmed]
    show (XState.tag ⟨true, '/' :: n, ⟨n, as, T ++ (A ++ indent), [] ++ cs.map XTree.trimmed⟩ :: s'.stack,
      root⟩ >>= fun s => ['\n'].foldlM xmlStep s) = _
    rw [hclose, htrim, ht]
    unfold XState.attach
    cases hst : s'.stack with
    | nil =>
      rw [hs'stack hst]
      rfl
    | cons f fs => rfl

/-- Reading back what is written. -/
theorem readXML_text (t : XTree) (hl : t.Legal) :
    readXML ("<?xml version=\"1.0\"?>".toList ++ ['\n'] ++ t.text []) = some t.trimmed := by
  have h0 : ("<?xml version=\"1.0\"?>".toList ++ ['\n']).foldlM xmlStep ⟨false, [], [], none⟩ =
      some ⟨false, ['\n'], [], none⟩ := by rfl
  have h1 := reads t hl [] (fun c hc => by simp at hc) ['\n'] [] none ⟨false, [], [], none⟩
    (fun _ => rfl) rfl
  have h2 : ("<?xml version=\"1.0\"?>".toList ++ ['\n'] ++ t.text []).foldlM xmlStep
      ⟨false, [], [], none⟩ = some ⟨false, ['\n'], [], some t.trimmed⟩ := by
    rw [List.foldlM_append, h0]
    show (t.text []).foldlM xmlStep ⟨false, ['\n'], [], none⟩ = _
    rw [h1]
    rfl
  unfold readXML
  rw [h2]
  rfl

end EF
