import Verif.Model.XML

/-!
# A reader for XML documents

An independent reader: one state machine over the characters, one for the inside of a tag.  It refuses
documents with unbalanced or wrongly nested tags, two roots, text outside of the root, repeated attributes,
stray markup characters or references (no entities are known).  The text of an element is what stands
between its tags outside of its children, without white space at either end.

The model is imported for the memory, to say which tree a pointer stands for.
-/

namespace EF

/-- An element: name, attributes, text and children. -/
inductive XTree where
  | node (name : Text) (attributes : List (Text × Text)) (data : Text) (children : List XTree)

namespace XTree

def name : XTree → Text | node n _ _ _ => n
def attributes : XTree → List (Text × Text) | node _ a _ _ => a
def data : XTree → Text | node _ _ d _ => d
def children : XTree → List XTree | node _ _ _ c => c

end XTree

/-- White space: space, tab, line feed, return. -/
def isWs (c : Char) : Bool := c = ' ' || c = '\t' || c = '\n' || c = '\r'

/-- The text without white space at either end. -/
def trimWs (t : Text) : Text := ((t.dropWhile isWs).reverse.dropWhile isWs).reverse

/-! ## The inside of a tag -/

/-- Where the reader of attributes is: after a space, in a key, before the opening quote, in a value, after
the closing quote. -/
inductive AttrMode where
  | gap
  | key (acc : Text)
  | quote (key : Text)
  | value (key acc : Text)
  | closed

def attrStep (s : AttrMode × List (Text × Text)) (c : Char) : Option (AttrMode × List (Text × Text)) :=
  match s.1 with
  | .gap => if c = ' ' then some s else if c = '=' ∨ c = '"' then none else some (.key [c], s.2)
  | .key acc =>
    if c = '=' then some (.quote acc, s.2) else if c = ' ' ∨ c = '"' then none
    else some (.key (acc ++ [c]), s.2)
  | .quote k => if c = '"' then some (.value k [], s.2) else none
  | .value k acc =>
    if c = '"' then some (.closed, s.2 ++ [(k, acc)]) else some (.value k (acc ++ [c]), s.2)
  | .closed => if c = ' ' then some (.gap, s.2) else none

/-- The attributes written after the name of an element. -/
def readAttrs (t : Text) : Option (List (Text × Text)) :=
  match t.foldlM attrStep (.closed, []) with
  | some (.closed, as) => if (as.map Prod.fst).Nodup then some as else none
  | some (.gap, as) => if (as.map Prod.fst).Nodup then some as else none
  | _ => none

inductive XTag where
  | opening (name : Text) (attributes : List (Text × Text))
  | closing (name : Text)
  | declaration

/-- What stands between `<` and `>`. -/
def readTag (t : Text) : Option XTag :=
  match t with
  | '/' :: n => if n = [] ∨ ' ' ∈ n then none else some (.closing n)
  | '?' :: r => if r.getLast? = some '?' then some .declaration else none
  | t =>
    if t.takeWhile (· ≠ ' ') = [] then none
    else (readAttrs (t.dropWhile (· ≠ ' '))).map (.opening (t.takeWhile (· ≠ ' ')))

/-! ## The document -/

/-- An element that is open: its text and children so far. -/
structure XFrame where
  name : Text
  attributes : List (Text × Text)
  text : Text
  children : List XTree

structure XState where
  inTag : Bool
  acc : Text
  stack : List XFrame
  root : Option XTree

/-- The text before a tag belongs to the innermost open element; outside of the root only white space may
stand. -/
def XState.flush (s : XState) : Option XState :=
  match s.stack with
  | [] => if s.acc.all isWs then some { s with acc := [] } else none
  | f :: fs => some { s with acc := [], stack := { f with text := f.text ++ s.acc } :: fs }

/-- A closed element goes to the element around it, or becomes the root. -/
def XState.attach (t : XTree) (stack : List XFrame) (root : Option XTree) : Option XState :=
  match stack with
  | [] => if root.isSome then none else some ⟨false, [], [], some t⟩
  | f :: fs => some ⟨false, [], { f with children := f.children ++ [t] } :: fs, root⟩

def XState.tag (s : XState) : Option XState :=
  match readTag s.acc with
  | none => none
  | some .declaration => if s.stack = [] ∧ s.root.isNone then some { s with inTag := false, acc := [] } else none
  | some (.opening n as) =>
    if s.stack = [] ∧ s.root.isSome then none
    else some { s with inTag := false, acc := [], stack := ⟨n, as, [], []⟩ :: s.stack }
  | some (.closing n) =>
    match s.stack with
    | [] => none
    | f :: fs =>
      if f.name = n then XState.attach (.node f.name f.attributes (trimWs f.text) f.children) fs s.root
      else none

def xmlStep (s : XState) (c : Char) : Option XState :=
  if c = '&' then none
  else if s.inTag then
    if c = '>' then s.tag else if c = '<' then none else some { s with acc := s.acc ++ [c] }
  else
    if c = '<' then s.flush.map (fun s => { s with inTag := true })
    else if c = '>' then none else some { s with acc := s.acc ++ [c] }

/-- Read a document. -/
def readXML (t : Text) : Option XTree :=
  match t.foldlM xmlStep ⟨false, [], [], none⟩ with
  | some s => if s.inTag = false ∧ s.acc.all isWs ∧ s.stack = [] then s.root else none
  | none => none

/-! ## Legal trees -/

/-- No markup character. -/
def Plain (t : Text) : Prop := ∀ c ∈ t, c ≠ '<' ∧ c ≠ '>' ∧ c ≠ '&' ∧ c ≠ '"'

/-- A name: not empty, no markup, no space, no `=`, and not beginning with `/` or `?`. -/
def XName (t : Text) : Prop :=
  Plain t ∧ ' ' ∉ t ∧ '=' ∉ t ∧ ∃ c r, t = c :: r ∧ c ≠ '/' ∧ c ≠ '?'

/-- Names are names, attributes are not repeated, values and data contain no markup. -/
inductive XTree.Legal : XTree → Prop
  | node {n as d cs} : XName n → (∀ p ∈ as, XName p.1 ∧ Plain p.2) → (as.map Prod.fst).Nodup → Plain d →
      (∀ c ∈ cs, XTree.Legal c) → XTree.Legal (.node n as d cs)

/-- The tree with the white space at the ends of its data removed. -/
def XTree.trimmed : XTree → XTree
  | .node n as d cs => .node n as (trimWs d) (cs.map XTree.trimmed)

/-- Nesting depth. -/
def XTree.depth : XTree → Nat
  | .node _ _ _ cs => (cs.map XTree.depth).foldr max 0 + 1

/-- The pointer `a` stands for the tree. -/
inductive Unfolds (h : Heap) : Nat → XTree → Prop
  | node {a n cs} : h.cells a = some n → List.Forall₂ (Unfolds h) n.children cs →
      Unfolds h a (.node n.name n.attributes n.data cs)

end EF
