import Verif.Spec.GridPlot
import Verif.Proofs.FVAssemble
import Verif.Proofs.FVMax

/-!
# The plot of a grid (C111)
-/

namespace EF

namespace GridPlot

open FV

section
variable {K : Type} [Field K]

theorem fill_ok {g : Grid K} {dim : Nat} {φ : Nat → K} (h : ∀ i, g.point dim i = .ok (φ i)) (n : Nat) :
    coordinates g dim n = .ok ((List.range n).map φ) := by
  have key : ∀ k, k ≤ n → forN k (fun i v => do
      let p ← g.point dim i
      wr v i p) (List.replicate n 0) = .ok ((List.range k).map φ ++ List.replicate (n - k) 0) := by
    intro k
    induction k with
    | zero => intro _; simp
    | succ k ih =>
      intro hk
      rw [forN_succ, ih (by omega), Res.ok_bind, h k, Res.ok_bind]
      unfold wr
      rw [if_pos (by simp; omega)]
      congr 1
      rw [List.set_append_right _ _ (by simp)]
      simp only [List.length_map, List.length_range, Nat.sub_self]
      rw [show n - k = (n - (k + 1)) + 1 by omega, List.replicate_succ, List.set_cons_zero, List.range_succ, List.map_append]
      simp
  unfold coordinates
  rw [key n le_rfl]
  simp

theorem line_ok {x y : List K} (h : x.length = y.length) (t : Text) : line x y t = .ok (.plot x y t) := by
  unfold line
  rw [if_neg (not_not.mpr h)]

/-- What `plot` draws. -/
theorem plot_ok (g : Grid K) (name : Text) (b p e t : Bool) (ec pc : Text) :
    plot g name b p e t ec pc = .ok (
      (if b then [Call.plot [g.xl, g.xu, g.xu, g.xl, g.xl] [g.yl, g.yl, g.yu, g.yu, g.yl] "-k".toList] else []) ++
      (if e then [Call.plot (List.replicate g.ny g.xl) ((List.range g.ny).map g.y) ('.' :: ec),
        .plot (List.replicate g.ny g.xu) ((List.range g.ny).map g.y) ('.' :: ec),
        .plot ((List.range g.nx).map g.x) (List.replicate g.nx g.yl) ('.' :: ec),
        .plot ((List.range g.nx).map g.x) (List.replicate g.nx g.yu) ('.' :: ec)] else []) ++
      (if p then (List.range g.ny).map fun j => Call.plot ((List.range g.nx).map g.x) (List.replicate g.nx (g.y j)) ('.' :: pc) else []) ++
      (if t then [.text ((g.xl + g.xu) / 2) ((g.yl + g.yu) / 2) name] else [])) := by
  have hp : forN g.ny (fun j l => do
        let y ← rd ((List.range g.ny).map g.y) j
        let c ← line ((List.range g.nx).map g.x) (List.replicate g.nx y) ('.' :: pc)
        pure (l ++ [c])) [] =
      .ok ((List.range g.ny).map fun j => Call.plot ((List.range g.nx).map g.x) (List.replicate g.nx (g.y j)) ('.' :: pc)) := by
    have key : ∀ k, k ≤ g.ny → forN k (fun j l => do
        let y ← rd ((List.range g.ny).map g.y) j
        let c ← line ((List.range g.nx).map g.x) (List.replicate g.nx y) ('.' :: pc)
        pure (l ++ [c])) [] =
      .ok ((List.range k).map fun j => Call.plot ((List.range g.nx).map g.x) (List.replicate g.nx (g.y j)) ('.' :: pc)) := by
      intro k
      induction k with
      | zero => intro _; rfl
      | succ k ih =>
        intro hk
        rw [forN_succ, ih (by omega), Res.ok_bind]
        have e1 : rd ((List.range g.ny).map g.y) k = .ok (g.y k) := by
          unfold rd
          rw [List.getElem?_map, List.getElem?_range (by omega)]
          rfl
        rw [e1, Res.ok_bind, line_ok (by simp), Res.ok_bind, List.range_succ, List.map_append]
        rfl
    exact key g.ny le_rfl
  unfold plot
  rw [fill_ok (φ := g.x) (fun i => rfl), Res.ok_bind, fill_ok (φ := g.y) (fun i => rfl), Res.ok_bind]
  simp only [hp]
  cases b <;> cases e <;> cases p <;> cases t <;> simp [line_ok, Res.ok_bind, pure, Res.ok_inj]

theorem zip_replicate_right (l : List K) (y : K) : l.zip (List.replicate l.length y) = l.map fun x => (x, y) := by
  induction l with
  | nil => rfl
  | cons a l ih => simp [List.replicate_succ, ih]

theorem zip_replicate_left (l : List K) (x : K) : (List.replicate l.length x).zip l = l.map fun y => (x, y) := by
  induction l with
  | nil => rfl
  | cons a l ih => simp [List.replicate_succ, ih]

end

section
variable {K : Type} [Field K] [LinearOrder K] [IsStrictOrderedRing K]

theorem cx_lt {R : Rect K} (hR : Proper R) {nx i j : Nat} (hn : 0 < nx) (h : i < j) : cx R nx i < cx R nx j := by
  have := hx_pos hR hn
  have h' : (i : K) < j := by exact_mod_cast h
  unfold cx
  nlinarith

theorem cy_lt {R : Rect K} (hR : Proper R) {ny i j : Nat} (hn : 0 < ny) (h : i < j) : cy R ny i < cy R ny j := by
  have := hy_pos hR hn
  have h' : (i : K) < j := by exact_mod_cast h
  unfold cy
  nlinarith

theorem cx_inj {R : Rect K} (hR : Proper R) {nx i j : Nat} (hn : 0 < nx) (h : cx R nx i = cx R nx j) : i = j := by
  rcases Nat.lt_trichotomy i j with h' | h' | h'
  · exact absurd h (cx_lt hR hn h').ne
  · exact h'
  · exact absurd h (cx_lt hR hn h').ne'

theorem cy_inj {R : Rect K} (hR : Proper R) {ny i j : Nat} (hn : 0 < ny) (h : cy R ny i = cy R ny j) : i = j := by
  rcases Nat.lt_trichotomy i j with h' | h' | h'
  · exact absurd h (cy_lt hR hn h').ne
  · exact h'
  · exact absurd h (cy_lt hR hn h').ne'

theorem cx_inside {R : Rect K} (hR : Proper R) {nx i : Nat} (h : i < nx) : R.xl < cx R nx i ∧ cx R nx i < R.xu := by
  have hp := hx_pos hR (nx := nx) (by omega)
  have hn : (nx : K) ≠ 0 := by exact_mod_cast (by omega : nx ≠ 0)
  have e : R.xu = R.xl + nx * hx R nx := by
    unfold hx
    field_simp
    ring
  have h' : (i : K) + 1 ≤ nx := by exact_mod_cast h
  have h0 : (0 : K) ≤ i := Nat.cast_nonneg i
  constructor
  · unfold cx
    nlinarith [mul_pos (by linarith : (0 : K) < i + 1 / 2) hp]
  · rw [e]
    unfold cx
    nlinarith [mul_pos (by linarith : (0 : K) < nx - (i + 1 / 2)) hp]

theorem cy_inside {R : Rect K} (hR : Proper R) {ny i : Nat} (h : i < ny) : R.yl < cy R ny i ∧ cy R ny i < R.yu := by
  have hp := hy_pos hR (ny := ny) (by omega)
  have hn : (ny : K) ≠ 0 := by exact_mod_cast (by omega : ny ≠ 0)
  have e : R.yu = R.yl + ny * hy R ny := by
    unfold hy
    field_simp
    ring
  have h' : (i : K) + 1 ≤ ny := by exact_mod_cast h
  have h0 : (0 : K) ≤ i := Nat.cast_nonneg i
  constructor
  · unfold cy
    nlinarith [mul_pos (by linarith : (0 : K) < i + 1 / 2) hp]
  · rw [e]
    unfold cy
    nlinarith [mul_pos (by linarith : (0 : K) < ny - (i + 1 / 2)) hp]

/-- C111, for every grid on a proper rectangle, every choice of parts and all texts: `plot` returns, and draws, in this order, what was
asked for and nothing else.  The box is the closed line through the four corners.  The edges have one mark at the centre of every
boundary face, on the box.  The points have one mark at the centre of every cell, strictly inside the box, no two at the same place.
The name stands in the middle. -/
theorem C111_shows (g : Grid K) (hR : Proper (rect g)) (hx : 0 < g.nx) (hy : 0 < g.ny) (name : Text)
    (plotBox plotPoints plotEdges plotName : Bool) (edgeColor pointColor : Text) :
    ∃ B E P T : List (Call K), plot g name plotBox plotPoints plotEdges plotName edgeColor pointColor = .ok (B ++ E ++ P ++ T) ∧
      (if plotBox then ∃ c, B = [c] ∧ c.format = some "-k".toList ∧
        c.marks = [(g.xl, g.yl), (g.xu, g.yl), (g.xu, g.yu), (g.xl, g.yu), (g.xl, g.yl)] else B = []) ∧
      (if plotEdges then (∀ c ∈ E, c.format = some ('.' :: edgeColor)) ∧ (E.flatMap Call.marks).Nodup ∧
        ∀ q, q ∈ E.flatMap Call.marks ↔ IsFace (rect g) g.nx g.ny q else E = []) ∧
      (if plotPoints then (∀ c ∈ P, c.format = some ('.' :: pointColor)) ∧ (P.flatMap Call.marks).Nodup ∧
        (∀ q, q ∈ P.flatMap Call.marks ↔ IsCentre (rect g) g.nx g.ny q) ∧
        ∀ q ∈ P.flatMap Call.marks, g.xl < q.1 ∧ q.1 < g.xu ∧ g.yl < q.2 ∧ q.2 < g.yu else P = []) ∧
      T = if plotName then [.text ((g.xl + g.xu) / 2) ((g.yl + g.yu) / 2) name] else [] := by
  have eX : (List.range g.nx).map g.x = (List.range g.nx).map (cx (rect g) g.nx) := List.map_congr_left fun i _ => FVSolver.x_eq g i
  have eY : (List.range g.ny).map g.y = (List.range g.ny).map (cy (rect g) g.ny) := List.map_congr_left fun i _ => FVSolver.y_eq g i
  have zr : ∀ y : K, ((List.range g.nx).map g.x).zip (List.replicate g.nx y) = (List.range g.nx).map fun i => (cx (rect g) g.nx i, y) := by
    intro y
    have := zip_replicate_right ((List.range g.nx).map g.x) y
    rw [List.length_map, List.length_range] at this
    rw [this, eX, List.map_map]
    rfl
  have zl : ∀ x : K, (List.replicate g.ny x).zip ((List.range g.ny).map g.y) = (List.range g.ny).map fun j => (x, cy (rect g) g.ny j) := by
    intro x
    have := zip_replicate_left ((List.range g.ny).map g.y) x
    rw [List.length_map, List.length_range] at this
    rw [this, eY, List.map_map]
    rfl
  have ix : ∀ i, i < g.nx → g.xl < cx (rect g) g.nx i ∧ cx (rect g) g.nx i < g.xu := fun i h => cx_inside hR h
  have iy : ∀ j, j < g.ny → g.yl < cy (rect g) g.ny j ∧ cy (rect g) g.ny j < g.yu := fun j h => cy_inside hR h
  have hxx : g.xl < g.xu := hR.1
  have hyy : g.yl < g.yu := hR.2
  refine ⟨_, _, _, _, plot_ok g name plotBox plotPoints plotEdges plotName edgeColor pointColor, ?_, ?_, ?_, rfl⟩
  · cases plotBox
    · rfl
    · exact ⟨_, rfl, rfl, rfl⟩
  · cases plotEdges
    · rfl
    · simp only [if_true, List.flatMap_cons, List.flatMap_nil, List.append_nil, Call.marks, zr, zl]
      refine ⟨by simp [Call.format], ?_, fun q => ?_⟩
      · have nx' : ∀ y : K, ((List.range g.nx).map fun i => (cx (rect g) g.nx i, y)).Nodup := fun y =>
          List.Nodup.map (fun i j h => cx_inj hR hx (Prod.mk.inj h).1) List.nodup_range
        have ny' : ∀ x : K, ((List.range g.ny).map fun j => (x, cy (rect g) g.ny j)).Nodup := fun x =>
          List.Nodup.map (fun i j h => cy_inj hR hy (Prod.mk.inj h).2) List.nodup_range
        rw [List.nodup_append, List.nodup_append, List.nodup_append]
        refine ⟨ny' _, ⟨ny' _, ⟨nx' _, nx' _, ?_⟩, ?_⟩, ?_⟩
        · intro a ha b hb e
          obtain ⟨i, -, rfl⟩ := List.mem_map.mp ha
          obtain ⟨j, -, rfl⟩ := List.mem_map.mp hb
          exact hyy.ne (Prod.mk.inj e).2
        · intro a ha b hb e
          obtain ⟨i, hi, rfl⟩ := List.mem_map.mp ha
          rcases List.mem_append.mp hb with hb | hb <;> obtain ⟨j, hj, rfl⟩ := List.mem_map.mp hb
          · exact (ix j (List.mem_range.mp hj)).2.ne' (Prod.mk.inj e).1
          · exact (ix j (List.mem_range.mp hj)).2.ne' (Prod.mk.inj e).1
        · intro a ha b hb e
          obtain ⟨i, hi, rfl⟩ := List.mem_map.mp ha
          rcases List.mem_append.mp hb with hb | hb
          · obtain ⟨j, hj, rfl⟩ := List.mem_map.mp hb
            exact hxx.ne (Prod.mk.inj e).1
          · rcases List.mem_append.mp hb with hb | hb <;> obtain ⟨j, hj, rfl⟩ := List.mem_map.mp hb
            · exact (ix j (List.mem_range.mp hj)).1.ne (Prod.mk.inj e).1
            · exact (ix j (List.mem_range.mp hj)).1.ne (Prod.mk.inj e).1
      · simp only [List.mem_append, List.mem_map, List.mem_range]
        constructor
        · rintro (⟨j, hj, rfl⟩ | ⟨j, hj, rfl⟩ | ⟨i, hi, rfl⟩ | ⟨i, hi, rfl⟩)
          · exact .inl ⟨j, hj, .inl rfl⟩
          · exact .inl ⟨j, hj, .inr rfl⟩
          · exact .inr ⟨i, hi, .inl rfl⟩
          · exact .inr ⟨i, hi, .inr rfl⟩
        · rintro (⟨j, hj, rfl | rfl⟩ | ⟨i, hi, rfl | rfl⟩)
          · exact .inl ⟨j, hj, rfl⟩
          · exact .inr (.inl ⟨j, hj, rfl⟩)
          · exact .inr (.inr (.inl ⟨i, hi, rfl⟩))
          · exact .inr (.inr (.inr ⟨i, hi, rfl⟩))
  · cases plotPoints
    · rfl
    · have em : ((List.range g.ny).map fun j => Call.plot ((List.range g.nx).map g.x) (List.replicate g.nx (g.y j)) ('.' :: pointColor)).flatMap
          Call.marks = (List.range g.ny).flatMap fun j => (List.range g.nx).map fun i => (cx (rect g) g.nx i, cy (rect g) g.ny j) := by
        rw [List.flatMap_map]
        refine List.flatMap_congr fun j _ => ?_
        show (((List.range g.nx).map g.x).zip _ : List (K × K)) = _
        rw [zr, FVSolver.y_eq]
      simp only [if_true]
      rw [em]
      have hm : ∀ q : K × K, q ∈ ((List.range g.ny).flatMap fun j => (List.range g.nx).map fun i => (cx (rect g) g.nx i, cy (rect g) g.ny j)) ↔
          IsCentre (rect g) g.nx g.ny q := by
        intro q
        simp only [List.mem_flatMap, List.mem_map, List.mem_range]
        constructor
        · rintro ⟨j, hj, i, hi, rfl⟩
          exact ⟨i, j, hi, hj, rfl⟩
        · rintro ⟨i, j, hi, hj, rfl⟩
          exact ⟨j, hj, i, hi, rfl⟩
      refine ⟨?_, ?_, hm, ?_⟩
      · intro c hc
        obtain ⟨j, -, rfl⟩ := List.mem_map.mp hc
        rfl
      · rw [List.nodup_flatMap]
        refine ⟨fun j _ => List.Nodup.map (fun i k h => cx_inj hR hx (Prod.mk.inj h).1) List.nodup_range, ?_⟩
        refine List.Pairwise.imp ?_ (List.nodup_range (n := g.ny))
        intro j k hjk a ha hb
        obtain ⟨i, -, rfl⟩ := List.mem_map.mp ha
        obtain ⟨i', -, e⟩ := List.mem_map.mp hb
        exact hjk (cy_inj hR hy (Prod.mk.inj e).2).symm
      · intro q hq
        obtain ⟨i, j, hi, hj, rfl⟩ := (hm q).mp hq
        exact ⟨(ix i hi).1, (ix i hi).2, (iy j hj).1, (iy j hj).2⟩

/-- C111, telling grids apart: two grids whose full pictures are made of the same calls are the same grid. -/
theorem C111_same (g g' : Grid K) (name : Text) (edgeColor pointColor : Text)
    (h : plot g name true true true true edgeColor pointColor = plot g' name true true true true edgeColor pointColor) : g = g' := by
  rw [plot_ok, plot_ok] at h
  have h' := Res.ok_inj.mp h
  simp only [if_true, List.cons_append, List.nil_append, List.cons.injEq, Call.plot.injEq] at h'
  obtain ⟨⟨⟨e1, e2, -⟩, ⟨e3, -, e4, -⟩, -⟩, ⟨e5, -⟩, -, ⟨e6, -⟩, -⟩ := h'
  have l1 := congrArg List.length e5
  have l2 := congrArg List.length e6
  simp only [List.length_replicate, List.length_map, List.length_range] at l1 l2
  obtain ⟨a, b, c, d, e, f⟩ := g
  obtain ⟨a', b', c', d', e', f'⟩ := g'
  simp only at e1 e2 e3 e4 l1 l2
  subst e1 e2 e3 e4 l1 l2
  rfl

end

/-! ## Examples -/

/-- Two by one cells: all parts. -/
example : (plot (⟨2, 1, 0, 4, 0, 2⟩ : Grid ℚ) "g".toList true true true true "b".toList "r".toList >>= fun l => pure (l.map Call.marks)) =
    .ok [[(0, 0), (4, 0), (4, 2), (0, 2), (0, 0)], [(0, 1)], [(4, 1)], [(1, 0), (3, 0)], [(1, 2), (3, 2)], [(1, 1), (3, 1)], []] := by
  decide +kernel

example := C111_shows (⟨2, 1, 0, 4, 0, 2⟩ : Grid ℚ) ⟨by norm_num [rect], by norm_num [rect]⟩ two_pos one_pos "g".toList true true true true "b".toList
  "r".toList

end GridPlot

end EF
