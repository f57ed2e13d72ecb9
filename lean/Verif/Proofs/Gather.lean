import Verif.Model.Gather
import Verif.Spec.Linear

/-!
# Writing blocks into a buffer
-/

namespace EF

variable {V : Type}

theorem length_writeAt {b blk : List V} {p : Nat} (h : p + blk.length ≤ b.length) : (writeAt b p blk).length = b.length := by
  unfold writeAt
  simp only [List.length_append, List.length_take, List.length_drop]
  omega

theorem get_writeAt {b blk : List V} {p i : Nat} (h : p + blk.length ≤ b.length) :
    (writeAt b p blk)[i]? = if p ≤ i ∧ i < p + blk.length then blk[i - p]? else b[i]? := by
  unfold writeAt
  by_cases h1 : i < p
  · rw [if_neg (by omega), List.append_assoc, List.getElem?_append_left (by simp; omega), List.getElem?_take_of_lt h1]
  · by_cases h2 : i < p + blk.length
    · rw [if_pos ⟨by omega, h2⟩, List.append_assoc, List.getElem?_append_right (by simp; omega),
        List.getElem?_append_left (by simp; omega)]
      congr 1
      simp only [List.length_take]
      omega
    · rw [if_neg (by omega), List.getElem?_append_right (by simp; omega), List.getElem?_drop]
      congr 1
      simp only [List.length_append, List.length_take]
      omega

/-- Writing disjoint blocks. -/
theorem foldl_writeAt {n : Nat} {send : Nat → List V} {pos : Nat → Nat} {b : List V}
    (hfit : ∀ j < n, pos j + (send j).length ≤ b.length)
    (hdis : ∀ i < n, ∀ j < n, i ≠ j → pos i + (send i).length ≤ pos j ∨ pos j + (send j).length ≤ pos i ∨
      (send i).length = 0 ∨ (send j).length = 0) :
    let c := (List.range n).foldl (fun b j => writeAt b (pos j) (send j)) b
    c.length = b.length ∧ (∀ j < n, ∀ i < (send j).length, c[pos j + i]? = (send j)[i]?) ∧
      ∀ i, (∀ j < n, ¬ (pos j ≤ i ∧ i < pos j + (send j).length)) → c[i]? = b[i]? := by
  induction n with
  | zero => exact ⟨rfl, by intro j hj; omega, fun i _ => rfl⟩
  | succ n ih =>
    obtain ⟨h1, h2, h3⟩ := ih (fun j hj => hfit j (by omega)) (fun i hi j hj => hdis i (by omega) j (by omega))
    simp only [List.range_succ, List.foldl_append, List.foldl_cons, List.foldl_nil] at *
    generalize (List.range n).foldl (fun b j => writeAt b (pos j) (send j)) b = c at *
    have hf : pos n + (send n).length ≤ c.length := by rw [h1]; exact hfit n (by omega)
    refine ⟨by rw [length_writeAt hf, h1], ?_, ?_⟩
    · intro j hj i hi
      rw [get_writeAt hf]
      by_cases e : j = n
      · subst e
        rw [if_pos ⟨by omega, by omega⟩]
        congr 1
        omega
      · rw [if_neg, h2 j (by omega) i hi]
        have := hdis j hj n (by omega) e
        omega
    · intro i hi
      rw [get_writeAt hf, if_neg (hi n (by omega)), h3 i (fun j hj => hi j (by omega))]

theorem needElements {n : Nat} {send recv : Nat → List V} (hs : ∀ j < n, send j ≠ []) (hr : ∀ j < n, recv j ≠ []) :
    (List.range n).mapM (fun j => do
      let _ ← needElement (send j)
      needElement (recv j)) = .ok (List.replicate n ()) := by
  induction n with
  | zero => rfl
  | succ n ih =>
    rw [List.range_succ, List.mapM_append, ih (fun j hj => hs j (by omega)) (fun j hj => hr j (by omega))]
    have a := hs n (by omega); have b := hr n (by omega)
    obtain ⟨x, xs, ex⟩ := List.exists_cons_of_ne_nil a
    obtain ⟨y, ys, ey⟩ := List.exists_cons_of_ne_nil b
    simp only [List.mapM_cons, List.mapM_nil, ex, ey, needElement, Res.ok_bind, Res.pure_def, List.replicate_succ']

theorem needElements_ub {n : Nat} {send recv : Nat → List V} {j : Nat} (hj : j < n) (h : send j = [] ∨ recv j = []) :
    (List.range n).mapM (fun j => do
      let _ ← needElement (send j)
      needElement (recv j)) = .ub := by
  induction n with
  | zero => omega
  | succ n ih =>
    rw [List.range_succ, List.mapM_append]
    have hstep : ∀ k, (do let _ ← needElement (send k); needElement (recv k)) = Res.ok () ∨
        (do let _ ← needElement (send k); needElement (recv k)) = (Res.ub : Res Unit) := by
      intro k
      cases send k <;> cases recv k
      · exact .inr rfl
      · exact .inr rfl
      · exact .inr rfl
      · exact .inl rfl
    have hall : ∀ L : List Nat, (∃ x, L.mapM (fun j => do let _ ← needElement (send j); needElement (recv j)) = Res.ok x) ∨
        L.mapM (fun j => do let _ ← needElement (send j); needElement (recv j)) = (Res.ub : Res (List Unit)) := by
      intro L
      induction L with
      | nil => exact .inl ⟨_, rfl⟩
      | cons a L ih =>
        rw [List.mapM_cons]
        rcases hstep a with e | e
        · rw [e, Res.ok_bind]
          rcases ih with ⟨x, ex⟩ | ex
          · rw [ex]; exact .inl ⟨_, rfl⟩
          · rw [ex]; exact .inr rfl
        · rw [e]; exact .inr rfl
    by_cases e : j = n
    · subst e
      have hbad : (do let _ ← needElement (send j); needElement (recv j)) = (Res.ub : Res Unit) := by
        rcases h with h | h
        · rw [h]; rfl
        · rw [h]; cases send j <;> rfl
      rcases hall (List.range j) with ⟨x, ex⟩ | ex
      · rw [ex, Res.ok_bind, List.mapM_cons, hbad]; rfl
      · rw [ex]; rfl
    · rw [ih (by omega)]
      rfl

theorem getD_of_has {l : List V} {i : Nat} (h : i < l.length) (d : V) : l[i]? = some (l.getD i d) := by
  rw [List.getD_eq_getElem?_getD, List.getElem?_eq_getElem h]
  rfl

theorem get_iff {s : Nat} {l : List V} {i : Nat} (h : i < s) (x : V) : (⟨s, l⟩ : Vec V).get i = .ok x ↔ l[i]? = some x := by
  unfold Vec.get rd
  rw [if_neg (by simp only; omega)]
  simp only
  cases l[i]? <;> simp

theorem has_get {v : Vec V} {n : Nat} {f : Nat → V} (h : v.Has n f) {i : Nat} (hi : i < n) : v.data[i]? = some (f i) := by
  have := h.2.2 i hi
  exact (get_iff (s := v.size) (by rw [h.1]; exact hi) _).mp this

end EF
