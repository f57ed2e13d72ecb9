import Verif.Spec.Describe
import Verif.Model.Describe
import Verif.Props.Print
import Verif.Props.Number

/-!
# C104: the texts of patches and nodes
-/

namespace EF

theorem natText_noWs (n : Nat) : ∀ c ∈ natText n, NumChar c := fun c hc => by
  have := intText_chars (n : Int) c
  simp only [intText, Int.natAbs_natCast, show ¬ ((n : Int) < 0) from by omega, if_false, List.nil_append] at this
  exact this hc

theorem natText_not {n : Nat} {c : Char} (h : c.isDigit = false) : c ∉ natText n := fun hc => by
  have := List.all_eq_true.1 (natText_digits n) c hc
  rw [h] at this
  exact absurd this (by simp)

theorem decimalText_noLine (x : ℚ) : '\n' ∉ decimalText x := fun hc => absurd (decimalText_chars x _ hc).plain.2 (by decide)

/-- The lines of the text of a patch. -/
theorem patch_lines (p : Patch ℚ) : textLines p.str =
    [ "n_coarsens = ".toList ++ natText p.nCoarsens, "grid:".toList,
      "  nx = ".toList ++ natText p.grid.nx, "  ny = ".toList ++ natText p.grid.ny,
      "  x_lower = ".toList ++ decimalText p.grid.xl, "  x_upper = ".toList ++ decimalText p.grid.xu,
      "  y_lower = ".toList ++ decimalText p.grid.yl, "  y_upper = ".toList ++ decimalText p.grid.yu,
      "data:".toList,
      "  X = [".toList ++ natText p.X.nrows ++ ", ".toList ++ natText p.X.ncols ++ "]".toList,
      "  S = [".toList ++ natText p.S.nrows ++ ", ".toList ++ natText p.S.ncols ++ "]".toList,
      "  T = [".toList ++ natText p.T.nrows ++ ", ".toList ++ natText p.T.ncols ++ "]".toList,
      "  u = [".toList ++ natText p.u.size ++ "]".toList, "  g = [".toList ++ natText p.g.size ++ "]".toList,
      "  v = [".toList ++ natText p.v.size ++ "]".toList, "  f = [".toList ++ natText p.f.size ++ "]".toList,
      "  h = [".toList ++ natText p.h.size ++ "]".toList, "  w = [".toList ++ natText p.w.size ++ "]".toList, [] ] := by
  have hc : ∀ (name : Text) n r, '\n' ∉ name → textLines (countLine name n ++ r) = (name ++ " = ".toList ++ natText n) :: textLines r := by
    intro name n r hn
    unfold countLine
    rw [List.append_assoc _ ['\n'], List.singleton_append, textLines_cons]
    simp only [List.mem_append, not_or]
    exact ⟨⟨hn, by decide⟩, natText_not (by decide)⟩
  have hr : ∀ (name : Text) x r, '\n' ∉ name → textLines (realLine name x ++ r) = (name ++ " = ".toList ++ decimalText x) :: textLines r := by
    intro name x r hn
    unfold realLine
    rw [List.append_assoc _ ['\n'], List.singleton_append, textLines_cons]
    simp only [List.mem_append, not_or]
    exact ⟨⟨hn, by decide⟩, decimalText_noLine x⟩
  have hm : ∀ (name : Text) (A : Mat ℚ) r, '\n' ∉ name → textLines (matrixLine name A ++ r) =
      (name ++ " = [".toList ++ natText A.nrows ++ ", ".toList ++ natText A.ncols ++ "]".toList) :: textLines r := by
    intro name A r hn
    unfold matrixLine
    rw [show "]\n".toList = "]".toList ++ ['\n'] from rfl, ← List.append_assoc _ "]".toList, List.append_assoc _ ['\n'],
      List.singleton_append, textLines_cons]
    simp only [List.mem_append, not_or]
    exact ⟨⟨⟨⟨⟨hn, by decide⟩, natText_not (by decide)⟩, by decide⟩, natText_not (by decide)⟩, by decide⟩
  have hv : ∀ (name : Text) (v : Vec ℚ) r, '\n' ∉ name → textLines (vectorLine name v ++ r) =
      (name ++ " = [".toList ++ natText v.size ++ "]".toList) :: textLines r := by
    intro name A r hn
    unfold vectorLine
    rw [show "]\n".toList = "]".toList ++ ['\n'] from rfl, ← List.append_assoc _ "]".toList, List.append_assoc _ ['\n'],
      List.singleton_append, textLines_cons]
    simp only [List.mem_append, not_or]
    exact ⟨⟨⟨hn, by decide⟩, natText_not (by decide)⟩, by decide⟩
  have hg : ∀ r, textLines ("grid:\n".toList ++ r) = "grid:".toList :: textLines r := fun r => by
    rw [show "grid:\n".toList ++ r = "grid:".toList ++ '\n' :: r from rfl, textLines_cons (by decide)]
  have hd : ∀ r, textLines ("data:\n".toList ++ r) = "data:".toList :: textLines r := fun r => by
    rw [show "data:\n".toList ++ r = "data:".toList ++ '\n' :: r from rfl, textLines_cons (by decide)]
  unfold Patch.str
  rw [hc _ _ _ (by decide), hg, hc _ _ _ (by decide), hc _ _ _ (by decide), hr _ _ _ (by decide), hr _ _ _ (by decide),
    hr _ _ _ (by decide), hr _ _ _ (by decide), hd, hm _ _ _ (by decide), hm _ _ _ (by decide), hm _ _ _ (by decide),
    hv _ _ _ (by decide), hv _ _ _ (by decide), hv _ _ _ (by decide), hv _ _ _ (by decide), hv _ _ _ (by decide),
    ← List.append_nil (vectorLine _ p.w), hv _ _ _ (by decide)]
  rfl

theorem after_append (a b : Text) : after a (a ++ b) = some b := by
  unfold after
  rw [if_pos (by simp), List.drop_left]

theorem readSizes_one (n : Nat) : readSizes ("[".toList ++ natText n ++ "]".toList) = some [n] := by
  unfold readSizes
  rw [show "[".toList ++ natText n ++ "]".toList = ['['] ++ (natText n ++ [']']) from rfl, after_append, Option.bind_some,
    if_pos (by simp), List.dropLast_concat]
  have h := pieces_plain (sep := ',') (natText_not (n := n) (c := ',') (by decide)) [] []
  rw [List.append_nil, List.nil_append] at h
  rw [h]
  have h2 : (natText n).dropWhile isWs = natText n := by
    cases hn : natText n with
    | nil => rfl
    | cons c t => rw [List.dropWhile_cons_of_neg]; rw [(natText_noWs n c (by rw [hn]; simp)).plain.2]; simp
  simp [pieces, h2, readDigits_natText]

theorem readSizes_two (m n : Nat) :
    readSizes ("[".toList ++ natText m ++ ", ".toList ++ natText n ++ "]".toList) = some [m, n] := by
  unfold readSizes
  rw [show "[".toList ++ natText m ++ ", ".toList ++ natText n ++ "]".toList =
      ['['] ++ ((natText m ++ ',' :: (' ' :: natText n)) ++ [']']) from by simp, after_append, Option.bind_some,
    if_pos List.getLast?_concat, List.dropLast_concat]
  have h1 := pieces_plain (sep := ',') (natText_not (n := m) (c := ',') (by decide)) [] (',' :: (' ' :: natText n))
  have h := pieces_plain (sep := ',') (natText_not (n := n) (c := ',') (by decide)) [' '] []
  rw [List.append_nil] at h
  have h2 : ∀ n, (natText n).dropWhile isWs = natText n := by
    intro n
    cases hn : natText n with
    | nil => rfl
    | cons c t => rw [List.dropWhile_cons_of_neg]; rw [(natText_noWs n c (by rw [hn]; simp)).plain.2]; simp
  rw [h1]
  have h3 : List.dropWhile isWs (' ' :: natText n) = natText n := by
    rw [List.dropWhile_cons_of_pos (by decide), h2]
  simp [pieces, h, h2, h3, readDigits_natText]

/-- C104 for patches: every number of the patch the text names reads back under its name, the counts and sizes exactly and the bounds
within half a millionth.  Missing: the matrix `H`, and bounds exactly, see `C104_matrix_wrong` and `C104_bounds_wrong`. -/
theorem C104_patch_partial (p : Patch ℚ) :
    (fieldOf p.str "n_coarsens".toList).bind readDigits = some p.nCoarsens ∧
      (fieldOf p.str "  nx".toList).bind readDigits = some p.grid.nx ∧
      (fieldOf p.str "  ny".toList).bind readDigits = some p.grid.ny ∧
      Near ((fieldOf p.str "  x_lower".toList).bind readNumber) p.grid.xl ∧
      Near ((fieldOf p.str "  x_upper".toList).bind readNumber) p.grid.xu ∧
      Near ((fieldOf p.str "  y_lower".toList).bind readNumber) p.grid.yl ∧
      Near ((fieldOf p.str "  y_upper".toList).bind readNumber) p.grid.yu ∧
      (fieldOf p.str "  X".toList).bind readSizes = some [p.X.nrows, p.X.ncols] ∧
      (fieldOf p.str "  S".toList).bind readSizes = some [p.S.nrows, p.S.ncols] ∧
      (fieldOf p.str "  T".toList).bind readSizes = some [p.T.nrows, p.T.ncols] ∧
      (fieldOf p.str "  u".toList).bind readSizes = some [p.u.size] ∧
      (fieldOf p.str "  g".toList).bind readSizes = some [p.g.size] ∧
      (fieldOf p.str "  v".toList).bind readSizes = some [p.v.size] ∧
      (fieldOf p.str "  f".toList).bind readSizes = some [p.f.size] ∧
      (fieldOf p.str "  h".toList).bind readSizes = some [p.h.size] ∧
      (fieldOf p.str "  w".toList).bind readSizes = some [p.w.size] := by
  unfold fieldOf
  rw [patch_lines]
  refine ⟨?_, ?_, ?_, ?_, ?_, ?_, ?_, ?_, ?_, ?_, ?_, ?_, ?_, ?_, ?_, ?_⟩
  · exact readDigits_natText _
  · exact readDigits_natText _
  · exact readDigits_natText _
  · exact C56_value_partial _
  · exact C56_value_partial _
  · exact C56_value_partial _
  · exact C56_value_partial _
  · exact readSizes_two _ _
  · exact readSizes_two _ _
  · exact readSizes_two _ _
  · exact readSizes_one _
  · exact readSizes_one _
  · exact readSizes_one _
  · exact readSizes_one _
  · exact readSizes_one _
  · exact readSizes_one _

/-- Patches with the same text agree in everything the text names, the bounds up to a millionth. -/
theorem C104_same {p q : Patch ℚ} (h : p.str = q.str) :
    p.nCoarsens = q.nCoarsens ∧ p.grid.nx = q.grid.nx ∧ p.grid.ny = q.grid.ny ∧
      |p.grid.xl - q.grid.xl| ≤ 1 / 1000000 ∧ |p.grid.xu - q.grid.xu| ≤ 1 / 1000000 ∧
      |p.grid.yl - q.grid.yl| ≤ 1 / 1000000 ∧ |p.grid.yu - q.grid.yu| ≤ 1 / 1000000 ∧
      p.X.nrows = q.X.nrows ∧ p.X.ncols = q.X.ncols ∧ p.S.nrows = q.S.nrows ∧ p.S.ncols = q.S.ncols ∧
      p.T.nrows = q.T.nrows ∧ p.T.ncols = q.T.ncols ∧
      p.u.size = q.u.size ∧ p.g.size = q.g.size ∧ p.v.size = q.v.size ∧ p.f.size = q.f.size ∧ p.h.size = q.h.size ∧
      p.w.size = q.w.size := by
  have near : ∀ {o : Option ℚ} {x y : ℚ}, Near o x → Near o y → |x - y| ≤ 1 / 1000000 := by
    rintro o x y ⟨a, rfl, ha⟩ ⟨b, hb, hb'⟩
    obtain rfl := Option.some.inj hb
    rw [abs_le] at ha hb' ⊢
    constructor <;> linarith [ha.1, ha.2, hb'.1, hb'.2]
  have hp := C104_patch_partial p
  have hq := C104_patch_partial q
  rw [h] at hp
  obtain ⟨p1, p2, p3, p4, p5, p6, p7, p8, p9, p10, p11, p12, p13, p14, p15, p16⟩ := hp
  obtain ⟨q1, q2, q3, q4, q5, q6, q7, q8, q9, q10, q11, q12, q13, q14, q15, q16⟩ := hq
  rw [p1] at q1; rw [p2] at q2; rw [p3] at q3
  rw [p8] at q8; rw [p9] at q9; rw [p10] at q10; rw [p11] at q11; rw [p12] at q12; rw [p13] at q13; rw [p14] at q14
  rw [p15] at q15; rw [p16] at q16
  simp only [Option.some.injEq, List.cons.injEq, and_true] at q1 q2 q3 q8 q9 q10 q11 q12 q13 q14 q15 q16
  exact ⟨q1, q2, q3, near p4 q4, near p5 q5, near p6 q6, near p7 q7, q8.1, q8.2, q9.1, q9.2, q10.1, q10.2, q11, q12, q13, q14, q15, q16⟩

/-- The text says nothing about the matrix of the sums of flux: patches with and without it have the same text. -/
theorem C104_matrix_wrong (p : Patch ℚ) (A : Mat ℚ) : ({ p with H := A } : Patch ℚ).str = p.str := rfl

example : (Mat.zeros 2 3 : Mat ℚ).nrows ≠ (Mat.empty : Mat ℚ).nrows := by decide

/-- A patch of positive width may be shown with both bounds the same. -/
theorem C104_bounds_wrong : ∃ p : Patch ℚ, p.grid.xl < p.grid.xu ∧
    fieldOf p.str "  x_lower".toList = fieldOf p.str "  x_upper".toList ∧
    ∃ q : Patch ℚ, q.str = p.str ∧ ¬ q.grid.xl < q.grid.xu := by
  refine ⟨Patch.fresh ⟨4, 4, 0, 1 / 4000000, 0, 1⟩, by norm_num [Patch.fresh], ?_, Patch.fresh ⟨4, 4, 0, 0, 0, 1⟩, ?_,
    by norm_num [Patch.fresh]⟩
  · unfold fieldOf
    rw [patch_lines]
    decide +kernel
  · decide +kernel

/-! ## Nodes -/

theorem intText_not {i : Int} {c : Char} (h : c.isDigit = false) (hm : c ≠ '-') : c ∉ intText i := fun hc => by
  unfold intText at hc
  rcases List.mem_append.1 hc with hc | hc
  · split at hc
    · exact hm (by simpa using hc)
    · exact absurd hc (by simp)
  · exact natText_not h hc

/-- C104 for nodes: the text of a node gives its path, level and ranks, for every path without a comma. -/
theorem C104_node {T : Type} (n : Node T) (hp : ',' ∉ n.path) :
    readNode n.str = some (n.path, (n.level : ℚ), n.pfirst, n.plast) := by
  have h1 : n.str = ("node: path = ".toList ++ n.path) ++ ',' :: ((" level = ".toList ++ intText n.level) ++ ',' ::
      (" ranks = [".toList ++ ((natText n.pfirst ++ '-' :: natText n.plast) ++ [']']))) := by
    unfold Node.str
    rw [show ", level = ".toList = ',' :: " level = ".toList from rfl, show ", ranks = [".toList = ',' :: " ranks = [".toList from rfl,
      show "-".toList = ['-'] from rfl, show "]".toList = [']'] from rfl]
    simp only [List.append_assoc, List.cons_append, List.nil_append]
  have e1 : pieces ',' [] n.str = ["node: path = ".toList ++ n.path, " level = ".toList ++ intText n.level,
      " ranks = [".toList ++ ((natText n.pfirst ++ '-' :: natText n.plast) ++ [']'])] := by
    rw [h1, pieces_plain (by
      simp only [List.mem_append, not_or]
      exact ⟨by decide, hp⟩), List.nil_append, pieces, if_pos rfl, pieces_plain (by
      simp only [List.mem_append, not_or]
      exact ⟨by decide, intText_not (by decide) (by decide)⟩), List.nil_append, pieces, if_pos rfl]
    have := pieces_plain (sep := ',') (t := " ranks = [".toList ++ ((natText n.pfirst ++ '-' :: natText n.plast) ++ [']'])) (by
      simp only [List.mem_append, List.mem_cons, not_or]
      exact ⟨by decide, ⟨natText_not (by decide), by decide, natText_not (by decide)⟩, by decide, by simp⟩) [] []
    rw [List.append_nil, List.nil_append] at this
    rw [this]
    rfl
  have e2 : pieces '-' [] (natText n.pfirst ++ '-' :: natText n.plast) = [natText n.pfirst, natText n.plast] := by
    rw [pieces_plain (natText_not (by decide)), List.nil_append, pieces, if_pos rfl]
    have := pieces_plain (sep := '-') (natText_not (n := n.plast) (c := '-') (by decide)) [] []
    rw [List.append_nil, List.nil_append] at this
    rw [this]
    rfl
  unfold readNode
  rw [e1]
  simp only [after_append, Option.bind_some, readNumber_int]
  rw [if_pos List.getLast?_concat, List.dropLast_concat, e2]
  simp [readDigits_natText]

/-- Nodes put into a stream one after another are one line each, in order, for every list of nodes whose paths have no line end; the
stream keeps its precision. -/
theorem C104_nodes {T : Type} (ns : List (Node T)) (hp : ∀ n ∈ ns, '\n' ∉ n.path) (os : OStream) :
    ∃ t, (ns.foldl (fun os n => n.print os) os).text = os.text ++ t ∧
      (ns.foldl (fun os n => n.print os) os).precision = os.precision ∧ textLines t = ns.map Node.str ++ [[]] := by
  induction ns generalizing os with
  | nil => exact ⟨[], by simp, rfl, rfl⟩
  | cons n ns ih =>
    obtain ⟨t, h1, h2, h3⟩ := ih (fun m hm => hp m (by simp [hm])) (n.print os)
    refine ⟨n.str ++ '\n' :: t, ?_, h2, ?_⟩
    · rw [List.foldl_cons, h1]
      unfold Node.print Node.str
      simp only [OStream.put, List.append_assoc, List.cons_append, List.nil_append]
    · rw [textLines_cons, h3]
      · rfl
      · unfold Node.str
        simp only [List.mem_append, not_or]
        exact ⟨⟨⟨⟨⟨⟨⟨⟨by decide, hp n (by simp)⟩, by decide⟩, intText_not (by decide) (by decide)⟩, by decide⟩,
          natText_not (by decide)⟩, by decide⟩, natText_not (by decide)⟩, by decide⟩

example : (⟨(), "03".toList, 2, 1, 4, false, none⟩ : Node Unit).str = "node: path = 03, level = 2, ranks = [1-4]".toList ∧
    ',' ∉ "03".toList ∧ '\n' ∉ "03".toList := by decide +kernel

example : (Patch.fresh ⟨8, 4, -1, 1 / 3, 0, 2⟩ : Patch ℚ).str =
    "n_coarsens = 0\ngrid:\n  nx = 8\n  ny = 4\n  x_lower = -1.000000\n  x_upper = 0.333333\n  y_lower = 0.000000\n  y_upper = 2.000000\ndata:\n  X = [0, 0]\n  S = [0, 0]\n  T = [0, 0]\n  u = [0]\n  g = [0]\n  v = [0]\n  f = [0]\n  h = [0]\n  w = [0]\n".toList := by
  decide +kernel

end EF
