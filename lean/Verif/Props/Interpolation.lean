import Verif.Proofs.Interpolation
import Mathlib.Algebra.Order.Ring.Rat

/-!
# Property C44: interpolation
-/

namespace EF

open Interpolant

variable {K : Type} [Field K] [LinearOrder K]

/-- C44, history: with a sorted table of any size, any order of interpolation and any interpolation formula, the value at a
number or at a vector of numbers is the one a new interpolant gives, whatever was evaluated before. -/
theorem C44_history {n : Nat} {t : Nat → K} (ht : TableSorted n t) {X Y : Vec K} (hX : X.Has n t) (m : Int)
    (raw : Vec K → Vec K → Int → K → Res K) {qs : List (Query K)} {I : Interpolant K} (h : after raw qs (new X Y m) = .ok I) :
    (∀ x, Prod.fst <$> I.eval raw x = Prod.fst <$> (new X Y m).eval raw x) ∧
      ∀ v, Prod.fst <$> I.evalVec raw v = Prod.fst <$> (new X Y m).evalVec raw v := by
  have hn : (new X Y m).n = n := congrArg Int.ofNat hX.1
  have hs := after_same ht raw hn hX h
  exact ⟨fun x => (eval_agree ht raw hn hX hs.symm x).fst.symm, fun v => (evalVec_agree ht raw hn hX hs.symm v).1.fst.symm⟩

/-- C44: a vector query gives the values of the scalar queries, in order. -/
theorem C44_vector {n : Nat} {t : Nat → K} (ht : TableSorted n t) {X Y : Vec K} (hX : X.Has n t) (m : Int)
    (raw : Vec K → Vec K → Int → K → Res K) {qs : List (Query K)} {I : Interpolant K} (h : after raw qs (new X Y m) = .ok I)
    {k : Nat} {f g : Nat → K} {v : Vec K} (hv : v.Has k f)
    (hg : ∀ i, i < k → Prod.fst <$> (new X Y m).eval raw (f i) = .ok (g i)) :
    ∃ w I', I.evalVec raw v = .ok (w, I') ∧ w.Has k g := by
  have hn : (new X Y m).n = n := congrArg Int.ofNat hX.1
  have hs := after_same ht raw hn hX h
  obtain ⟨w, I', h1, h2, -⟩ := evalVec_ok ht raw (hs.1.trans hn) (by rw [hs.2.2.1]; exact hX) hv
    (fun i hi => ((C44_history ht hX m raw h).1 _).trans (hg i hi))
  exact ⟨w, I', h1, h2⟩

/-- The segment the code picks, for a strictly monotone table, lies on the same line as any segment the query belongs to. -/
theorem chord_of_loc {n : Nat} {t s : Nat → K} (ht : TableStrict n t) {x : K} {j : Int} (hj : Loc n (before n t x) j) {i : Nat}
    (hi : i + 1 < n) (hx : Between (t i) (t (i + 1)) x ∨ (i = 0 ∧ Between x (t 1) (t 0)) ∨
      (i + 2 = n ∧ Between (t i) x (t (i + 1)))) :
    chord (t j.toNat) (t (j.toNat + 1)) (s j.toNat) (s (j.toNat + 1)) x
      = chord (t i) (t (i + 1)) (s i) (s (i + 1)) x := by
  obtain ⟨j, rfl⟩ : ∃ m : Nat, (m : Int) = j := ⟨j.toNat, by have := hj.lo; omega⟩
  rw [Int.toNat_natCast]
  have hlt : j + 1 < n := by have := hj.hi; omega
  have left := hj.left
  have right := hj.right
  unfold before at left right
  rw [show ((j : Int) + 1).toNat = j + 1 by omega, Int.toNat_natCast] at *
  have c0 : ∀ a b c d : K, chord a b c d a = c := by intro a b c d; simp [chord]
  have c1 : ∀ a b c d : K, b - a ≠ 0 → chord a b c d b = d := by
    intro a b c d h
    unfold chord
    rw [mul_div_cancel₀ _ h]
    ring
  have ne : ∀ i, i + 1 < n → t (i + 1) - t i ≠ 0 := by
    intro i hi
    rcases ht with ht | ht
    · exact sub_ne_zero.mpr (ht i (i + 1) (by omega) hi).ne'
    · exact sub_ne_zero.mpr (ht i (i + 1) (by omega) hi).ne
  rcases ht with ht | ht
  · have ha : ascends n t = true := by
      unfold ascends
      simpa using (ht 0 (n - 1) (by omega) (by omega)).le
    rw [ha] at left right
    simp only [beq_true, decide_eq_true_eq, decide_eq_false_iff_not, not_le] at left right
    have le : ∀ a b, a ≤ b → b < n → t a ≤ t b := by
      intro a b hab hb
      rcases Nat.lt_or_ge a b with h | h
      · exact (ht a b h hb).le
      · rw [show a = b by omega]
    have h01 := ht i (i + 1) (by omega) hi
    -- the query is not before node `i` unless `i = 0`, and not after node `i + 1` unless that is the last
    have hlo : i = 0 ∨ t i ≤ x := by
      rcases hx with (⟨h, -⟩ | ⟨h1, h2⟩) | ⟨h, -⟩ | ⟨-, ⟨h, h'⟩ | ⟨h, h'⟩⟩
      · exact .inr h
      · exact .inr (h01.le.trans h1)
      · exact .inl h
      · exact .inr (h.trans h')
      · exact absurd h' (not_le.mpr h01)
    have hup : i + 2 = n ∨ x ≤ t (i + 1) := by
      rcases hx with (⟨-, h⟩ | ⟨h1, h2⟩) | ⟨h, ⟨h1, h2⟩ | ⟨h1, h2⟩⟩ | ⟨h, -⟩
      · exact .inr h
      · exact .inr (h2.trans h01.le)
      · subst h; exact .inr (h1.trans h01.le)
      · subst h; exact absurd h1 (not_le.mpr h01)
      · exact .inl h
    rcases Nat.lt_trichotomy j i with h | h | h
    · exfalso
      have h1 : x < t (j + 1) := by
        rcases right with h' | h'
        · omega
        · exact h'
      rcases hlo with h' | h'
      · omega
      · exact absurd (h'.trans_lt h1) (not_lt.mpr (le _ _ (by omega) (by omega)))
    · rw [h]
    · have h1 : t j ≤ x := by
        rcases left with h' | h'
        · omega
        · exact h'
      have h2 : x ≤ t (i + 1) := by
        rcases hup with h' | h'
        · omega
        · exact h'
      have h3 : j = i + 1 := by
        by_contra hne
        exact absurd (h1.trans h2) (not_le.mpr (ht (i + 1) j (by omega) (by omega)))
      subst h3
      rw [le_antisymm h2 h1, c0, c1 _ _ _ _ (ne i hi)]
  · have ha : ascends n t = false := by
      unfold ascends
      simpa using ht 0 (n - 1) (by omega) (by omega)
    rw [ha] at left right
    simp only [beq_false, Bool.not_eq_true', decide_eq_false_iff_not, not_le, Bool.not_eq_false', decide_eq_true_eq] at left right
    have le : ∀ a b, a ≤ b → b < n → t b ≤ t a := by
      intro a b hab hb
      rcases Nat.lt_or_ge a b with h | h
      · exact (ht a b h hb).le
      · rw [show a = b by omega]
    have h01 := ht i (i + 1) (by omega) hi
    have hlo : i = 0 ∨ x ≤ t i := by
      rcases hx with (⟨h1, h2⟩ | ⟨-, h⟩) | ⟨h, -⟩ | ⟨-, ⟨h, h'⟩ | ⟨h, h'⟩⟩
      · exact .inr (h2.trans h01.le)
      · exact .inr h
      · exact .inl h
      · exact absurd h (not_le.mpr h01)
      · exact .inr (h.trans h')
    have hup : i + 2 = n ∨ t (i + 1) ≤ x := by
      rcases hx with (⟨h1, h2⟩ | ⟨h, -⟩) | ⟨h, ⟨h1, h2⟩ | ⟨h1, h2⟩⟩ | ⟨h, -⟩
      · exact .inr (h01.le.trans h1)
      · exact .inr h
      · subst h; exact absurd h2 (not_le.mpr h01)
      · subst h; exact .inr (h01.le.trans h2)
      · exact .inl h
    rcases Nat.lt_trichotomy j i with h | h | h
    · have h1 : t (j + 1) ≤ x := by
        rcases right with h' | h'
        · omega
        · exact h'
      have h2 : x ≤ t i := by
        rcases hlo with h' | h'
        · omega
        · exact h'
      have h3 : i = j + 1 := by
        by_contra hne
        exact absurd (h1.trans h2) (not_le.mpr (ht (j + 1) i (by omega) (by omega)))
      subst h3
      rw [le_antisymm h2 h1, c0, c1 _ _ _ _ (ne j hlt)]
    · rw [h]
    · exfalso
      have h1 : x < t j := by
        rcases left with h' | h'
        · omega
        · exact h'
      rcases hup with h' | h'
      · omega
      · exact absurd (h'.trans_lt h1) (not_lt.mpr (le _ _ (by omega) (by omega)))

/-- C44, linear interpolation: after any history, between two neighbouring nodes the value lies on their chord; beyond the
first or last node it lies on the line through the first or last two. -/
theorem C44_chord {n : Nat} {t s : Nat → K} (ht : TableStrict n t) {X Y : Vec K} (hX : X.Has n t) (hY : Y.Has n s)
    {qs : List (Query K)} {I : Interpolant K} (h : after rawLinear qs (newLinear X Y) = .ok I) {i : Nat} (hi : i + 1 < n) {x : K}
    (hx : Between (t i) (t (i + 1)) x ∨ (i = 0 ∧ Between x (t 1) (t 0)) ∨ (i + 2 = n ∧ Between (t i) x (t (i + 1)))) :
    Prod.fst <$> I.eval rawLinear x = .ok (chord (t i) (t (i + 1)) (s i) (s (i + 1)) x) := by
  have hs : TableSorted n t := by
    have aux : ∀ a b : Nat, a ≤ b → a < b ∨ a = b := fun a b h => by omega
    rcases ht with ht | ht
    · exact .inl fun a b hab hb => (aux a b hab).elim (fun h => (ht a b h hb).le) fun h => by rw [h]
    · exact .inr fun a b hab hb => (aux a b hab).elim (fun h => (ht a b h hb).le) fun h => by rw [h]
  have hn : (new X Y 2).n = n := congrArg Int.ofNat hX.1
  have h1 := (C44_history hs hX 2 rawLinear h).1 x
  rw [h1]
  obtain ⟨j, hl, hj⟩ := search_ok hs (mm := 2) (by omega) (by omega) (by omega) x
  obtain ⟨I', e, h2⟩ := hj (new X Y 2) hn rfl hX
  unfold eval
  rw [e, Res.ok_bind]
  dsimp only
  have hidx : index n 2 j = j := by
    unfold index
    have := hl.lo; have := hl.hi
    omega
  obtain ⟨y, e2, e3⟩ := rawLinear_ok (xx := I'.xx) (yy := I'.yy) (by rw [h2.2.2.1]; exact hX) (by rw [h2.2.2.2]; exact hY) hl.lo
    (by have := hl.hi; omega) x
  rw [hidx, e2, Res.ok_bind, Res.pure_def, Res.ok_map]
  dsimp only
  have hlt : j.toNat + 1 < n := by have := hl.lo; have := hl.hi; omega
  rw [e3 ?_, chord_of_loc ht hl hi hx]
  rcases ht with ht | ht
  · exact (ht _ _ (by omega) hlt).ne
  · exact (ht _ _ (by omega) hlt).ne'

/-- C44, nodes: after any history the value at a node is the table value. -/
theorem C44_node {n : Nat} (hn : 2 ≤ n) {t s : Nat → K} (ht : TableStrict n t) {X Y : Vec K} (hX : X.Has n t) (hY : Y.Has n s)
    {qs : List (Query K)} {I : Interpolant K} (h : after rawLinear qs (newLinear X Y) = .ok I) {k : Nat} (hk : k < n) :
    Prod.fst <$> I.eval rawLinear (t k) = .ok (s k) := by
  by_cases hl : k + 1 < n
  · have hb : Between (t k) (t (k + 1)) (t k) := by
      rcases ht with ht | ht
      · exact .inl ⟨le_refl _, (ht k (k + 1) (by omega) hl).le⟩
      · exact .inr ⟨(ht k (k + 1) (by omega) hl).le, le_refl _⟩
    rw [C44_chord ht hX hY h hl (.inl hb)]
    simp [chord]
  · obtain ⟨j, rfl⟩ : ∃ j, k = j + 1 := ⟨k - 1, by omega⟩
    have hb : Between (t j) (t (j + 1)) (t (j + 1)) := by
      rcases ht with ht | ht
      · exact .inl ⟨(ht j (j + 1) (by omega) hk).le, le_refl _⟩
      · exact .inr ⟨le_refl _, (ht j (j + 1) (by omega) hk).le⟩
    have ne : t (j + 1) - t j ≠ 0 := by
      rcases ht with ht | ht
      · exact sub_ne_zero.mpr (ht j (j + 1) (by omega) hk).ne'
      · exact sub_ne_zero.mpr (ht j (j + 1) (by omega) hk).ne
    rw [C44_chord ht hX hY h hk (.inl hb)]
    unfold chord
    rw [mul_div_cancel₀ _ ne]
    congr 1
    ring

/-- C44: with a sorted table of at least two nodes every sequence of uses of a linear interpolant succeeds. -/
theorem C44_succeeds {n : Nat} (hn : 2 ≤ n) {t s : Nat → K} (ht : TableSorted n t) {X Y : Vec K} (hX : X.Has n t)
    (hY : Y.Has n s) (qs : List (Query K)) (hq : ∀ v, Query.many v ∈ qs → v.WF) :
    ∃ I, after rawLinear qs (newLinear X Y) = .ok I := by
  have key : ∀ I : Interpolant K, Same I (newLinear X Y) → ∀ x, ∃ y I', I.eval rawLinear x = .ok (y, I') ∧ Same I' (newLinear X Y) := by
    intro I hI x
    obtain ⟨j, hl, hj⟩ := search_ok ht (mm := 2) (by omega) (by omega) (by omega) x
    obtain ⟨I', e, h2⟩ := hj I (hI.1.trans (congrArg Int.ofNat hX.1)) hI.2.1 (by rw [hI.2.2.1]; exact hX)
    have h3 := h2.trans hI
    have hidx : index n 2 j = j := by
      unfold index
      have := hl.lo; have := hl.hi
      omega
    obtain ⟨y, e2, -⟩ := rawLinear_ok (xx := I'.xx) (yy := I'.yy) (by rw [h3.2.2.1]; exact hX) (by rw [h3.2.2.2]; exact hY) hl.lo
      (by have := hl.hi; omega) x
    refine ⟨y, I', ?_, h3⟩
    unfold eval
    rw [e, Res.ok_bind]
    dsimp only
    rw [hidx, e2]
    rfl
  have gen : ∀ qs : List (Query K), (∀ v, Query.many v ∈ qs → v.WF) → ∀ I, Same I (newLinear X Y) →
      ∃ I', after rawLinear qs I = .ok I' := by
    intro qs
    induction qs with
    | nil => intro _ I _; exact ⟨I, rfl⟩
    | cons q qs ih =>
      intro hq I hI
      have hq' : ∀ v, Query.many v ∈ qs → v.WF := fun v hv => hq v (by simp [hv])
      cases q with
      | one x =>
        obtain ⟨y, I', e, h'⟩ := key I hI x
        rw [after, e, Res.ok_bind]
        exact ih hq' I' h'
      | many v =>
        have hw : v.Has v.size (fun i => v.data.getD i 0) := by
          have hwf := hq v (by simp)
          refine ⟨rfl, hwf, fun i hi => ?_⟩
          unfold Vec.get
          have hl : i < v.data.length := by rw [show v.data.length = v.size from hwf]; exact hi
          rw [if_neg (by omega), rd_eq_ok hl]
          simp [hl]
        have hg : ∀ i, i < v.size → ∃ y, Prod.fst <$> I.eval rawLinear (v.data.getD i 0) = .ok y := by
          intro i _
          obtain ⟨y, I', e, -⟩ := key I hI (v.data.getD i 0)
          exact ⟨y, by rw [e]; rfl⟩
        choose! g hg using hg
        obtain ⟨w, I', e, -, h'⟩ := evalVec_ok ht rawLinear (hI.1.trans (congrArg Int.ofNat hX.1)) (by rw [hI.2.2.1]; exact hX) hw hg
        rw [after, e, Res.ok_bind]
        exact ih hq' I' (h'.trans hI)
  exact gen qs hq _ (Same.refl _)

/-- C44: a table with fewer than two nodes is refused at the first use. -/
theorem C44_short {X Y : Vec K} (h : X.size < 2) (x : K) : (newLinear X Y).eval rawLinear x = .throw .invalidArgument := by
  unfold eval search locate newLinear new
  have : ((X.size : Int) < 2 ∨ (2 : Int) < 2 ∨ (2 : Int) > X.size) := .inl (by omega)
  dsimp only
  rw [if_neg (by simp), if_pos this]
  rfl

/-! ## A concrete table -/

/-- A falling table of four nodes. -/
def exX : Vec ℚ := Vec.ofList [8, 4, 2, 1]

/-- Its values. -/
def exY : Vec ℚ := Vec.ofList [0, 1, 5, 7]

theorem exX_strict : TableStrict 4 (fun i => ([8, 4, 2, 1] : List ℚ).getD i 0) := by
  refine .inr fun i j hij hj => ?_
  have : ∀ j < 4, ∀ i < j, ([8, 4, 2, 1] : List ℚ).getD j 0 < ([8, 4, 2, 1] : List ℚ).getD i 0 := by decide +kernel
  exact this j hj i hij

theorem has_list (l : List ℚ) : (Vec.ofList l).Has l.length (fun i => l.getD i 0) := by
  refine ⟨rfl, rfl, fun i hi => ?_⟩
  unfold Vec.get Vec.ofList
  rw [if_neg (by dsimp only; omega), rd_eq_ok hi]
  simp [hi]

/-- After two other uses the interpolant gives the table value at a node. -/
example : ∃ I, after rawLinear [.one 9, .many (Vec.ofList [3, 5 / 2])] (newLinear exX exY) = .ok I ∧
    Prod.fst <$> I.eval rawLinear 2 = .ok 5 := by
  have hs : TableSorted 4 (fun i => ([8, 4, 2, 1] : List ℚ).getD i 0) := by
    refine .inr fun i j hij hj => ?_
    have : ∀ j < 4, ∀ i ≤ j, ([8, 4, 2, 1] : List ℚ).getD j 0 ≤ ([8, 4, 2, 1] : List ℚ).getD i 0 := by decide +kernel
    exact this j hj i hij
  obtain ⟨I, h⟩ := C44_succeeds (by omega) hs (has_list [8, 4, 2, 1]) (has_list [0, 1, 5, 7])
    [.one 9, .many (Vec.ofList [3, 5 / 2])] (by rintro v hv; simp at hv; subst hv; rfl)
  exact ⟨I, h, C44_node (by omega) exX_strict (has_list [8, 4, 2, 1]) (has_list [0, 1, 5, 7]) h (k := 2) (by omega)⟩

end EF
