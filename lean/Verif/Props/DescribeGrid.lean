import Verif.Props.Describe
import Verif.Props.Number

/-!
# C108: the text of a grid can be read back
-/

namespace EF

/-- A text that a reader of words takes as one word. -/
def OneWord (w : Text) : Prop := w ≠ [] ∧ ∀ c ∈ w, isWs c = false

theorem words_axis {axis count step : Text} (h1 : OneWord axis) (h2 : OneWord count) (h3 : OneWord step) (lower upper : ℚ) (n : Nat) (d : ℚ)
    (t : Text) : words (axisText axis count step lower upper n d ++ ' ' :: t) =
      (axis ++ [':']) :: ('[' :: (decimalText lower ++ ':' :: decimalText upper ++ [']', ','])) :: count :: ['='] ::
        (natText n ++ [',']) :: step :: ['='] :: decimalText d :: words t := by
  have hd : ∀ x, ∀ c ∈ decimalText x, isWs c = false := fun x c hc => (decimalText_chars x c hc).plain.2
  have hn : ∀ n, ∀ c ∈ natText n, isWs c = false := fun n c hc => (natText_noWs n c hc).plain.2
  have e : axisText axis count step lower upper n d ++ ' ' :: t =
      (axis ++ [':']) ++ ' ' :: (('[' :: (decimalText lower ++ ':' :: decimalText upper ++ [']', ','])) ++ ' ' :: (count ++ ' ' :: (['='] ++ ' ' ::
        ((natText n ++ [',']) ++ ' ' :: (step ++ ' ' :: (['='] ++ ' ' :: (decimalText d ++ ' ' :: t))))))) := by
    unfold axisText
    rw [show ": [".toList = [':', ' ', '['] from rfl, show ":".toList = [':'] from rfl, show "], ".toList = [']', ',', ' '] from rfl,
      show " = ".toList = [' ', '=', ' '] from rfl, show ", ".toList = [',', ' '] from rfl]
    simp only [List.append_assoc, List.cons_append, List.nil_append]
  rw [e, words_entry _ (by simp), words_entry _ (by simp), words_entry h2.2 h2.1, words_entry (by decide) (by decide), words_entry _ (by simp),
    words_entry h3.2 h3.1, words_entry (by decide) (by decide), words_entry (hd d) (decimalText_ne d)]
  · intro c hc
    simp only [List.mem_append, List.mem_singleton] at hc
    rcases hc with hc | rfl
    · exact hn n c hc
    · decide
  · intro c hc
    simp only [List.mem_append, List.mem_cons, List.not_mem_nil, or_false] at hc
    rcases hc with rfl | (hc | rfl | hc) | rfl | rfl
    · decide
    · exact hd _ c hc
    · decide
    · exact hd _ c hc
    · decide
    · decide
  · intro c hc
    simp only [List.mem_append, List.mem_singleton] at hc
    rcases hc with hc | rfl
    · exact h1.2 c hc
    · decide

theorem readCount_ok (n : Nat) : readCount (natText n ++ [',']) = some n := by
  unfold readCount
  rw [if_pos List.getLast?_concat, List.dropLast_concat, readDigits_natText]

theorem decimalText_noColon (x : ℚ) : ':' ∉ decimalText x := fun hc => by
  rcases decimalText_chars x _ hc with h | h | h
  · exact absurd h (by decide)
  · exact absurd h (by decide)
  · exact absurd h (by decide)

theorem readBounds_ok (a b : ℚ) : readBounds ('[' :: (decimalText a ++ ':' :: decimalText b ++ [']', ','])) =
    some ((microInt a : ℚ) / 10 ^ 6, (microInt b : ℚ) / 10 ^ 6) := by
  unfold readBounds
  rw [show ('[' :: (decimalText a ++ ':' :: decimalText b ++ [']', ','])) = ['['] ++ ((decimalText a ++ ':' :: decimalText b) ++ [']', ',']) from rfl,
    after_append, Option.bind_some]
  have hl : ((decimalText a ++ ':' :: decimalText b) ++ [']', ',']).length - 2 = (decimalText a ++ ':' :: decimalText b).length := by
    rw [List.length_append]
    rfl
  rw [hl, List.drop_left, if_pos rfl, List.take_left]
  have h := pieces_plain (sep := ':') (decimalText_noColon b) [] []
  rw [List.append_nil, List.nil_append] at h
  rw [pieces_plain (decimalText_noColon a), List.nil_append, pieces, if_pos rfl, h]
  simp only [pieces]
  rw [readNumber_decimal, readNumber_decimal]
  rfl

/-- What the reader finds. -/
theorem readGrid_ok (g : Grid ℚ) : readGrid g.str = some
    ⟨((microInt g.xl : ℚ) / 10 ^ 6, (microInt g.xu : ℚ) / 10 ^ 6), g.nx, (microInt g.dx : ℚ) / 10 ^ 6,
      ((microInt g.yl : ℚ) / 10 ^ 6, (microInt g.yu : ℚ) / 10 ^ 6), g.ny, (microInt g.dy : ℚ) / 10 ^ 6⟩ := by
  have e : words g.str = words (axisText "X".toList "nx".toList "dx".toList g.xl g.xu g.nx g.dx ++ ' ' :: (' ' ::
      (axisText "Y".toList "ny".toList "dy".toList g.yl g.yu g.ny g.dy ++ ' ' :: []))) := by
    unfold Grid.str
    rw [show words (axisText "X".toList "nx".toList "dx".toList g.xl g.xu g.nx g.dx ++ "  ".toList ++
      axisText "Y".toList "ny".toList "dy".toList g.yl g.yu g.ny g.dy ++ "\n".toList) = wordsFrom [] _ from rfl, wordsFrom_trail (by decide)]
    rw [show (' ' :: (axisText "Y".toList "ny".toList "dy".toList g.yl g.yu g.ny g.dy ++ ' ' :: [])) =
      ((' ' :: axisText "Y".toList "ny".toList "dy".toList g.yl g.yu g.ny g.dy) ++ [' ']) from rfl,
      ← List.cons_append, ← List.append_assoc]
    unfold words
    rw [wordsFrom_trail (s := [' ']) (by decide)]
    simp only [show "  ".toList = [' ', ' '] from rfl, List.append_assoc, List.cons_append, List.nil_append]
  have e2 : ∀ t, words (' ' :: t) = words t := fun t => by
    unfold words
    rw [wordsFrom, if_pos (by decide), if_pos rfl]
  unfold readGrid
  rw [e, words_axis ⟨by decide, by decide⟩ ⟨by decide, by decide⟩ ⟨by decide, by decide⟩, e2,
    words_axis ⟨by decide, by decide⟩ ⟨by decide, by decide⟩ ⟨by decide, by decide⟩]
  simp only [show words ([] : Text) = [] from rfl]
  rw [if_pos (by decide), readBounds_ok, readCount_ok, readNumber_decimal, readBounds_ok, readCount_ok, readNumber_decimal]
  rfl

theorem micro_within (x : ℚ) : |(microInt x : ℚ) / 10 ^ 6 - x| ≤ 1 / 2000000 := by
  obtain ⟨y, h1, h2⟩ := C56_value_partial x
  rw [readNumber_decimal] at h1
  rwa [Option.some_inj.1 h1]

/-- C108: the text of a grid gives the numbers of cells exactly, and bounds and spacings within half a millionth.
Without cells the code divides by zero and shows no number as spacing, hence the hypotheses.  Missing: spacings that are
not zero, see `C108_spacing_wrong`. -/
theorem C108_partial (g : Grid ℚ) (_hx : 0 < g.nx) (_hy : 0 < g.ny) : ∃ r, readGrid g.str = some r ∧ r.nx = g.nx ∧ r.ny = g.ny ∧
    |r.xs.1 - g.xl| ≤ 1 / 2000000 ∧ |r.xs.2 - g.xu| ≤ 1 / 2000000 ∧ |r.ys.1 - g.yl| ≤ 1 / 2000000 ∧ |r.ys.2 - g.yu| ≤ 1 / 2000000 ∧
    |r.dx - (g.xu - g.xl) / g.nx| ≤ 1 / 2000000 ∧ |r.dy - (g.yu - g.yl) / g.ny| ≤ 1 / 2000000 :=
  ⟨_, readGrid_ok g, rfl, rfl, micro_within _, micro_within _, micro_within _, micro_within _, micro_within _, micro_within _⟩

/-- Two grids with one text have the same numbers of cells, and bounds that differ by a millionth at most. -/
theorem C108_same_partial {g g' : Grid ℚ} (hx : 0 < g.nx) (hy : 0 < g.ny) (hx' : 0 < g'.nx) (hy' : 0 < g'.ny)
    (h : g.str = g'.str) : g.nx = g'.nx ∧ g.ny = g'.ny ∧
    |g.xl - g'.xl| ≤ 1 / 1000000 ∧ |g.xu - g'.xu| ≤ 1 / 1000000 ∧ |g.yl - g'.yl| ≤ 1 / 1000000 ∧ |g.yu - g'.yu| ≤ 1 / 1000000 := by
  obtain ⟨r, h1, a1, a2, a3, a4, a5, a6, -⟩ := C108_partial g hx hy
  obtain ⟨r', h1', b1, b2, b3, b4, b5, b6, -⟩ := C108_partial g' hx' hy'
  rw [h, h1', Option.some_inj] at h1
  subst h1
  have key : ∀ x y z : ℚ, |x - y| ≤ 1 / 2000000 → |x - z| ≤ 1 / 2000000 → |y - z| ≤ 1 / 1000000 := by
    intro x y z h1 h2
    rw [abs_le] at h1 h2 ⊢
    constructor <;> linarith [h1.1, h1.2, h2.1, h2.2]
  exact ⟨a1.symm.trans b1, a2.symm.trans b2, key _ _ _ a3 b3, key _ _ _ a4 b4, key _ _ _ a5 b5, key _ _ _ a6 b6⟩

/-- C108 is false for spacings: every grid with a spacing of less than half a millionth is shown with spacing zero. -/
theorem C108_spacing_wrong (g : Grid ℚ) (h0 : 0 < g.dx) (h1 : g.dx < 1 / 2000000) : ∃ r, readGrid g.str = some r ∧ r.dx = 0 := by
  refine ⟨_, readGrid_ok g, ?_⟩
  have h := microInt_near g.dx
  rw [abs_le] at h
  have h2 : (microInt g.dx : ℚ) < 1 := by linarith [h.2]
  have h3 : (-1 : ℚ) < microInt g.dx := by linarith [h.1]
  have h4 : microInt g.dx = 0 := by
    have : microInt g.dx < 1 := by exact_mod_cast h2
    have : -1 < microInt g.dx := by exact_mod_cast h3
    omega
  show (microInt g.dx : ℚ) / 10 ^ 6 = 0
  rw [h4]
  norm_num

/-- A grid with 4096 cells over a thousandth. -/
example : 0 < (⟨4096, 8, 0, 1 / 1000, 0, 1⟩ : Grid ℚ).dx ∧ (⟨4096, 8, 0, 1 / 1000, 0, 1⟩ : Grid ℚ).dx < 1 / 2000000 := by
  constructor <;> norm_num [Grid.dx]

example : (⟨8, 4, -1, 1 / 3, 0, 2⟩ : Grid ℚ).str =
    "X: [-1.000000:0.333333], nx = 8, dx = 0.166667  Y: [0.000000:2.000000], ny = 4, dy = 0.500000\n".toList := by
  decide +kernel

end EF
