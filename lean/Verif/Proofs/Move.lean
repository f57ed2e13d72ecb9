import Verif.Proofs.Turn
import Verif.Proofs.Rigid
import Verif.Spec.Runs

/-!
# Moved problems
-/

namespace EF

open Finset FV HPS

variable {K : Type} [Field K] [CharZero K] {N : Nat}

namespace Move

/-- The way back. -/
def inv (μ : Move K) : Move K :=
  match μ.turn with
  | .keep => ⟨.keep, 1 / μ.L, -(μ.a / μ.L), -(μ.b / μ.L)⟩
  | .flip => ⟨.flip, 1 / μ.L, μ.a / μ.L, -(μ.b / μ.L)⟩
  | .swap => ⟨.swap, 1 / μ.L, -(μ.b / μ.L), -(μ.a / μ.L)⟩

theorem inv_turn (μ : Move K) : μ.inv.turn = μ.turn := by
  obtain ⟨τ, L, a, b⟩ := μ
  cases τ <;> rfl

theorem inv_L (μ : Move K) : μ.inv.L = 1 / μ.L := by
  obtain ⟨τ, L, a, b⟩ := μ
  cases τ <;> rfl

theorem pt_inv (μ : Move K) (hL : μ.L ≠ 0) (x y : K) : μ.pt (μ.inv.pt x y).1 (μ.inv.pt x y).2 = (x, y) := by
  obtain ⟨τ, L, a, b⟩ := μ
  simp only at hL
  cases τ <;> simp only [pt, inv] <;> ext <;> field_simp <;> ring

theorem inv_pt (μ : Move K) (hL : μ.L ≠ 0) (x y : K) : μ.inv.pt (μ.pt x y).1 (μ.pt x y).2 = (x, y) := by
  obtain ⟨τ, L, a, b⟩ := μ
  simp only at hL
  cases τ <;> simp only [pt, inv] <;> ext <;> field_simp <;> ring

theorem inv_rect (μ : Move K) (hL : μ.L ≠ 0) (R : Rect K) : μ.inv.rect (μ.rect R) = R := by
  obtain ⟨τ, L, a, b⟩ := μ
  obtain ⟨xl, xu, yl, yu⟩ := R
  simp only at hL
  cases τ <;> simp only [rect, inv, Rect.mk.injEq] <;> refine ⟨?_, ?_, ?_, ?_⟩ <;> field_simp <;> ring

theorem rect_quarter (μ : Move K) (R : Rect K) (d : Nat) (hd : d < 4) :
    (μ.rect R).quarter d = μ.rect (R.quarter (μ.turn.quarter d)) := by
  obtain ⟨τ, L, a, b⟩ := μ
  obtain ⟨xl, xu, yl, yu⟩ := R
  cases τ <;> interval_cases d <;> simp [Rect.quarter, rect, Turn.quarter] <;> first | (refine ⟨?_, ?_⟩ <;> ring) | ring

theorem rect_cx (μ : Move K) (R : Rect K) {m i : Nat} (hm : (m : K) ≠ 0) (hi : i < m) :
    cx (μ.rect R) m i = match μ.turn with
      | .keep => μ.L * cx R m i + μ.a
      | .flip => μ.a - μ.L * cx R m (m - 1 - i)
      | .swap => μ.L * cy R m i + μ.a := by
  obtain ⟨τ, L, a, b⟩ := μ
  cases τ <;> simp only [cx, cy, hx, hy, rect]
  · ring
  · rw [show m - 1 - i = m - (1 + i) by omega, Nat.cast_sub (by omega), Nat.cast_add]
    field_simp
    push_cast
    ring
  · ring

theorem rect_cy (μ : Move K) (R : Rect K) (m i : Nat) :
    cy (μ.rect R) m i = match μ.turn with
      | .swap => μ.L * cx R m i + μ.b
      | _ => μ.L * cy R m i + μ.b := by
  obtain ⟨τ, L, a, b⟩ := μ
  cases τ <;> simp only [cx, cy, hx, hy, rect] <;> ring

theorem rect_hx (μ : Move K) (R : Rect K) (m : Nat) :
    hx (μ.rect R) m = match μ.turn with
      | .swap => μ.L * hy R m
      | _ => μ.L * hx R m := by
  obtain ⟨τ, L, a, b⟩ := μ
  cases τ <;> simp only [hx, hy, rect] <;> ring

theorem rect_hy (μ : Move K) (R : Rect K) (m : Nat) :
    hy (μ.rect R) m = match μ.turn with
      | .swap => μ.L * hx R m
      | _ => μ.L * hy R m := by
  obtain ⟨τ, L, a, b⟩ := μ
  cases τ <;> simp only [hx, hy, rect] <;> ring

theorem sidePoint_rect (μ : Move K) (R : Rect K) {m i a : Nat} (hm : (m : K) ≠ 0) (hi : i < m) (ha : a < 4) :
    sidePoint (μ.rect R) m a i =
      μ.pt (sidePoint R m (μ.turn.side a) (μ.turn.idx m a i)).1 (sidePoint R m (μ.turn.side a) (μ.turn.idx m a i)).2 := by
  have h1 := μ.rect_cx R hm hi
  have h2 := μ.rect_cy R m i
  obtain ⟨τ, L, a', b⟩ := μ
  cases τ <;> interval_cases a <;> simp only [rect] at h1 h2 <;> simp [sidePoint, Turn.side, Turn.idx, pt, rect, h1, h2]

/-- The factors of the derivatives. -/
def fV (μ : Move K) : K :=
  match μ.turn with
  | .flip => -(1 / μ.L)
  | _ => 1 / μ.L

end Move

/-- The move carries solutions on single patches over. -/
theorem leafTurn_of {μ : Move K} {c : K} {w : K → K → K} {s s' : FVSolver K} (hN : (N : K) ≠ 0) (hL : μ.L ≠ 0) (hc : c ≠ 0)
    (hs : SameEquation μ c w s s') {f f' : K → K → K} (hf : ∀ x y, f' (μ.pt x y).1 (μ.pt x y).2 = w x y * f x y) :
    LeafTurn s s' f f' N μ.turn μ.fV (1 / μ.L) μ.rect := by
  intro R g u hu
  constructor
  · intro i hi j hj
    have hb := hs.beta
    have ha := hs.alpha
    have hl := hs.lambda
    have h1 := μ.rect_cx R hN hi
    have h2 := μ.rect_cy R N j
    have h3 := μ.rect_hx R N
    have h4 := μ.rect_hy R N
    obtain ⟨τ, L, a, b⟩ := μ
    simp only at hL h1 h2 h3 h4
    have hcl : ∀ (e P Q d d' l v : K), e * (L ^ 2 / c) * l * (c * P / (L * d) ^ 2 + c * Q / (L * d') ^ 2) + e * v = e * (l * (P / d ^ 2 + Q / d' ^ 2) + v) := by
      intro e P Q d d' l v
      have e1 : c * P / (L * d) ^ 2 = c / L ^ 2 * (P / d ^ 2) := by rw [mul_pow]; ring
      have e2 : c * Q / (L * d') ^ 2 = c / L ^ 2 * (Q / d' ^ 2) := by rw [mul_pow]; ring
      rw [e1, e2]
      field_simp
    cases τ
    · simp only [Move.pt] at hb ha hl hf h1 h2 h3 h4
      have key := hu i hi j hj
      unfold balance at key ⊢
      simp only [h1, h2, h3, h4] at key ⊢
      have e1 : s'.beta (L * cx R N i + a + L * hx R N / 2) (L * cy R N j + b) = c * s.beta (cx R N i + hx R N / 2) (cy R N j) := by
        rw [← hb]; congr 1; ring
      have e2 : s'.beta (L * cx R N i + a - L * hx R N / 2) (L * cy R N j + b) = c * s.beta (cx R N i - hx R N / 2) (cy R N j) := by
        rw [← hb]; congr 1; ring
      have e3 : s'.beta (L * cx R N i + a) (L * cy R N j + b + L * hy R N / 2) = c * s.beta (cx R N i) (cy R N j + hy R N / 2) := by
        rw [← hb]; congr 1; ring
      have e4 : s'.beta (L * cx R N i + a) (L * cy R N j + b - L * hy R N / 2) = c * s.beta (cx R N i) (cy R N j - hy R N / 2) := by
        rw [← hb]; congr 1; ring
      rw [e1, e2, e3, e4, ha, hl, hf, ← key, ← hcl]
      simp only [Turn.cells, east, west, north, south, ofB, Turn.act, Turn.side, Turn.idx]
      ring
    · simp only [Move.pt] at hb ha hl hf h1 h2 h3 h4
      have hi' : N - 1 - i < N := by omega
      have key := hu (N - 1 - i) hi' j hj
      unfold balance at key ⊢
      simp only [h1, h2, h3, h4] at key ⊢
      have e1 : s'.beta (a - L * cx R N (N - 1 - i) + L * hx R N / 2) (L * cy R N j + b) = c * s.beta (cx R N (N - 1 - i) - hx R N / 2) (cy R N j) := by
        rw [← hb]; congr 1; ring
      have e2 : s'.beta (a - L * cx R N (N - 1 - i) - L * hx R N / 2) (L * cy R N j + b) = c * s.beta (cx R N (N - 1 - i) + hx R N / 2) (cy R N j) := by
        rw [← hb]; congr 1; ring
      have e3 : s'.beta (a - L * cx R N (N - 1 - i)) (L * cy R N j + b + L * hy R N / 2) = c * s.beta (cx R N (N - 1 - i)) (cy R N j + hy R N / 2) := by
        rw [← hb]; congr 1; ring
      have e4 : s'.beta (a - L * cx R N (N - 1 - i)) (L * cy R N j + b - L * hy R N / 2) = c * s.beta (cx R N (N - 1 - i)) (cy R N j - hy R N / 2) := by
        rw [← hb]; congr 1; ring
      have n1 : east N (ofB (Turn.flip.act N g)) (Turn.flip.cells N u) i j = west (ofB g) u (N - 1 - i) j := by
        unfold east west
        by_cases h : i + 1 = N
        · rw [if_pos h, if_pos (by omega)]; rfl
        · rw [if_neg h, if_neg (by omega)]
          show u (N - 1 - (i + 1)) j = _
          rfl
      have n2 : west (ofB (Turn.flip.act N g)) (Turn.flip.cells N u) i j = east N (ofB g) u (N - 1 - i) j := by
        unfold east west
        by_cases h : i = 0
        · rw [if_pos h, if_pos (by omega)]; rfl
        · rw [if_neg h, if_neg (by omega)]
          show u (N - 1 - (i - 1)) j = _
          congr 1; omega
      have n3 : north N (ofB (Turn.flip.act N g)) (Turn.flip.cells N u) i j = north N (ofB g) u (N - 1 - i) j := rfl
      have n4 : south (ofB (Turn.flip.act N g)) (Turn.flip.cells N u) i j = south (ofB g) u (N - 1 - i) j := rfl
      have n5 : Turn.flip.cells N u i j = u (N - 1 - i) j := rfl
      rw [e1, e2, e3, e4, ha, hl, hf, ← key, ← hcl, n1, n2, n3, n4, n5]
      ring
    · simp only [Move.pt] at hb ha hl hf h1 h2 h3 h4
      have key := hu j hj i hi
      unfold balance at key ⊢
      simp only [h1, h2, h3, h4] at key ⊢
      have e1 : s'.beta (L * cy R N i + a + L * hy R N / 2) (L * cx R N j + b) = c * s.beta (cx R N j) (cy R N i + hy R N / 2) := by
        rw [← hb]; congr 1; ring
      have e2 : s'.beta (L * cy R N i + a - L * hy R N / 2) (L * cx R N j + b) = c * s.beta (cx R N j) (cy R N i - hy R N / 2) := by
        rw [← hb]; congr 1; ring
      have e3 : s'.beta (L * cy R N i + a) (L * cx R N j + b + L * hx R N / 2) = c * s.beta (cx R N j + hx R N / 2) (cy R N i) := by
        rw [← hb]; congr 1; ring
      have e4 : s'.beta (L * cy R N i + a) (L * cx R N j + b - L * hx R N / 2) = c * s.beta (cx R N j - hx R N / 2) (cy R N i) := by
        rw [← hb]; congr 1; ring
      have n1 : east N (ofB (Turn.swap.act N g)) (Turn.swap.cells N u) i j = north N (ofB g) u j i := rfl
      have n2 : west (ofB (Turn.swap.act N g)) (Turn.swap.cells N u) i j = south (ofB g) u j i := rfl
      have n3 : north N (ofB (Turn.swap.act N g)) (Turn.swap.cells N u) i j = east N (ofB g) u j i := rfl
      have n4 : south (ofB (Turn.swap.act N g)) (Turn.swap.cells N u) i j = west (ofB g) u j i := rfl
      have n5 : Turn.swap.cells N u i j = u j i := rfl
      rw [e1, e2, e3, e4, ha, hl, hf, ← key, ← hcl, n1, n2, n3, n4, n5]
      ring
  · intro a ha i hi
    have h3 := μ.rect_hx R N
    have h4 := μ.rect_hy R N
    obtain ⟨τ, L, a', b⟩ := μ
    simp only at hL h3 h4
    cases τ <;> simp only at h3 h4 <;> interval_cases a <;>
      simp [deriv, h3, h4, Turn.cells, ofB, Turn.act, Turn.side, Turn.idx, sideFactor, Move.fV] <;> ring

end EF
