import Verif.Proofs.XML

/-!
# C47: XML output is well nested and can be read back
-/

namespace EF

/-- Whatever tree of nodes a root pointer stands for, if it has legal names and no markup characters in
values and data, the text written for it is a document from which the reader recovers the tree, up to
white space at the ends of the data. -/
theorem C47_roundtrip (h : Heap) (root : Nat) (t : XTree) (hu : Unfolds h root t) (hl : t.Legal)
    (stack : Nat) (hs : t.depth ≤ stack) :
    ∃ text, writeXML h stack (some root) = .ok text ∧ readXML text = some t.trimmed := by
  refine ⟨_, ?_, readXML_text t hl⟩
  show (writeNode h stack root [] >>= fun t => pure ("<?xml version=\"1.0\"?>".toList ++ ['\n'] ++ t)) = _
  rw [writeNode_ok h t root stack [] hu hs]
  rfl

/-- No data of the tree begins or ends with white space. -/
inductive XTree.Tight : XTree → Prop
  | node {n as d cs} : (∀ c, d.head? = some c ∨ d.getLast? = some c → isWs c = false) →
      (∀ c ∈ cs, XTree.Tight c) → XTree.Tight (.node n as d cs)

theorem trimWs_tight {d : Text} (h : ∀ c, d.head? = some c ∨ d.getLast? = some c → isWs c = false) :
    trimWs d = d := by
  unfold trimWs
  have h1 : d.dropWhile isWs = d := by
    cases d with
    | nil => rfl
    | cons c d => exact List.dropWhile_cons_of_neg (by simp [h c (Or.inl rfl)])
  rw [h1]
  have h2 : d.reverse.dropWhile isWs = d.reverse := by
    cases hr : d.reverse with
    | nil => rfl
    | cons c r =>
      have : d.getLast? = some c := by
        rw [← List.head?_reverse, hr]
        rfl
      exact List.dropWhile_cons_of_neg (by simp [h c (Or.inr this)])
  rw [h2, List.reverse_reverse]

theorem trimmed_tight (t : XTree) : t.Tight → t.trimmed = t := by
  induction t using XTree.induct with
  | h n as d cs ih =>
    intro ht
    cases ht with
    | node h1 h2 =>
      rw [XTree.trimmed, trimWs_tight h1]
      have : cs.map XTree.trimmed = cs := by
        conv_rhs => rw [← List.map_id cs]
        exact List.map_congr_left (fun c hc => ih c hc (h2 c hc))
      rw [this]

/-- Exactly the tree is recovered when its data have no white space at their ends. -/
theorem C47_exact (h : Heap) (root : Nat) (t : XTree) (hu : Unfolds h root t) (hl : t.Legal)
    (ht : t.Tight) (stack : Nat) (hs : t.depth ≤ stack) :
    ∃ text, writeXML h stack (some root) = .ok text ∧ readXML text = some t := by
  obtain ⟨text, h1, h2⟩ := C47_roundtrip h root t hu hl stack hs
  exact ⟨text, h1, by rw [h2, trimmed_tight t ht]⟩

/-- Two legal trees with the same text are the same up to white space at the ends of data. -/
theorem C47_injective (h : Heap) (a b : Nat) (t u : XTree) (ht : Unfolds h a t) (hu : Unfolds h b u)
    (hlt : t.Legal) (hlu : u.Legal) (stack : Nat) (hs : t.depth ≤ stack) (hs' : u.depth ≤ stack)
    (e : writeXML h stack (some a) = writeXML h stack (some b)) : t.trimmed = u.trimmed := by
  obtain ⟨x, h1, h2⟩ := C47_roundtrip h a t ht hlt stack hs
  obtain ⟨y, h3, h4⟩ := C47_roundtrip h b u hu hlu stack hs'
  rw [h1, h3] at e
  obtain rfl := Res.ok.inj e
  rw [h2] at h4
  exact Option.some.inj h4

/-- A tree object without a root cannot be written. -/
theorem C47_null_actual (h : Heap) (stack : Nat) : writeXML h stack none = .ub := rfl

/-! ## The hypotheses are met -/

/-- Three nodes: a root with an attribute and two children, one of them with data. -/
def exHeap : Heap :=
  let r := (Heap.mk (fun _ => none) 0).alloc ⟨"VTKFile".toList, [("type".toList, "Grid 1".toList)], [], []⟩
  let c := r.1.alloc ⟨"Points".toList, [], "1.5 2.5".toList, []⟩
  let d := c.1.alloc ⟨"Cells".toList, [], [], []⟩
  (d.1.addChild r.2 c.2).addChild r.2 d.2

def exTree : XTree :=
  .node "VTKFile".toList [("type".toList, "Grid 1".toList)] []
    [.node "Points".toList [] "1.5 2.5".toList [], .node "Cells".toList [] [] []]

theorem exName {c : Char} {r : Text} (h1 : ∀ x ∈ c :: r, x ≠ '<' ∧ x ≠ '>' ∧ x ≠ '&' ∧ x ≠ '"')
    (h2 : ' ' ∉ c :: r) (h3 : '=' ∉ c :: r) (h4 : c ≠ '/') (h5 : c ≠ '?') : XName (c :: r) :=
  ⟨h1, h2, h3, c, r, rfl, h4, h5⟩

example : Unfolds exHeap 0 exTree ∧ exTree.Legal ∧ exTree.Tight ∧ exTree.depth ≤ 2 := by
  have n1 : XName "VTKFile".toList := exName (by decide) (by decide) (by decide) (by decide) (by decide)
  have n2 : XName "Points".toList := exName (by decide) (by decide) (by decide) (by decide) (by decide)
  have n3 : XName "Cells".toList := exName (by decide) (by decide) (by decide) (by decide) (by decide)
  have n4 : XName "type".toList := exName (by decide) (by decide) (by decide) (by decide) (by decide)
  have hp : ∀ cs : List XTree, cs = [] → ∀ c ∈ cs, XTree.Legal c := by
    rintro cs rfl c hc
    simp at hc
  have hq : ∀ cs : List XTree, cs = [] → ∀ c ∈ cs, XTree.Tight c := by
    rintro cs rfl c hc
    simp at hc
  refine ⟨?_, ?_, ?_, ?_⟩
  · refine Unfolds.node (h := exHeap) (a := 0)
      (n := ⟨"VTKFile".toList, [("type".toList, "Grid 1".toList)], [], [1, 2]⟩) rfl ?_
    refine .cons ?_ (.cons ?_ .nil)
    · exact Unfolds.node (h := exHeap) (a := 1) (n := ⟨"Points".toList, [], "1.5 2.5".toList, []⟩) rfl .nil
    · exact Unfolds.node (h := exHeap) (a := 2) (n := ⟨"Cells".toList, [], [], []⟩) rfl .nil
  · refine .node n1 ?_ (by decide) (by unfold Plain; decide) ?_
    · intro p hp
      have : p = ("type".toList, "Grid 1".toList) := by simpa using hp
      subst this
      exact ⟨n4, by unfold Plain; decide⟩
    · intro c hc
      rcases List.mem_cons.mp hc with rfl | hc
      · exact .node n2 (fun p hp => by simp at hp) (by decide) (by unfold Plain; decide) (hp [] rfl)
      · have : c = .node "Cells".toList [] [] [] := by simpa using hc
        subst this
        exact .node n3 (fun p hp => by simp at hp) (by decide) (by unfold Plain; decide) (hp [] rfl)
  · refine .node (fun c hc => by simp at hc) ?_
    intro c hc
    rcases List.mem_cons.mp hc with rfl | hc
    · refine .node ?_ (hq [] rfl)
      intro c hc
      rcases hc with hc | hc
      · have : c = '1' := by simpa using hc.symm
        subst this; rfl
      · have : c = '5' := by simpa using hc.symm
        subst this; rfl
    · have : c = .node "Cells".toList [] [] [] := by simpa using hc
      subst this
      exact .node (fun c hc => by simp at hc) (hq [] rfl)
  · simp [exTree, XTree.depth]

end EF
