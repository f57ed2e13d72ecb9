import Mathlib.Tactic.Ring
import Verif.Proofs.Gather

/-!
# Property C62: gathering
-/

namespace EF

variable {V : Type}

/-- Every rank passes the same positive number `m` of elements, the same count and a receiving vector with room: on every rank
element `i` of rank `j`'s vector is then at `j * m + i`; what lies behind the blocks is unchanged. -/
theorem C62_allgather_partial {n m : Nat} (hm : 0 < m) {send recv : Nat → Vec V} {f g : Nat → Nat → V} {N : Nat → Nat}
    (hs : ∀ j < n, (send j).Has m (f j)) (hr : ∀ j < n, (recv j).Has (N j) (g j)) (hN : ∀ j < n, n * m ≤ N j) {count : Nat → Nat}
    (hc : ∀ j < n, count j = m) {r : Nat} (hrn : r < n) :
    (allgatherVec n send recv count r).Returns
      (fun v => v.Has (N r) (fun i => if i < n * m then f (i / m) (i % m) else g r i)) := by
  have hpos : 0 < n * m := Nat.mul_pos (by omega) hm
  have len : ∀ j < n, (send j).data.length = m := fun j hj => (hs j hj).2.1
  have lenr : ∀ j < n, (recv j).data.length = N j := fun j hj => (hr j hj).2.1
  have e1 := needElements (n := n) (send := fun j => (send j).data) (recv := fun j => (recv j).data)
    (fun j hj h => by have := len j hj; rw [h] at this; simp at this; omega)
    (fun j hj h => by have a := lenr j hj; have b := hN j hj; rw [h] at a; simp at a; omega)
  have hfit : ∀ j < n, j * m + (send j).data.length ≤ (recv r).data.length := by
    intro j hj
    rw [len j hj, lenr r hrn]
    calc j * m + m = (j + 1) * m := by ring
      _ ≤ n * m := Nat.mul_le_mul_right m hj
      _ ≤ _ := hN r hrn
  obtain ⟨h1, h2, h3⟩ := foldl_writeAt (n := n) (send := fun j => (send j).data) (pos := fun j => j * m) (b := (recv r).data) hfit
    (by
      intro i hi j hj hij
      rw [len i hi, len j hj]
      rcases Nat.lt_or_gt_of_ne hij with h | h
      · left
        calc i * m + m = (i + 1) * m := by ring
          _ ≤ j * m := Nat.mul_le_mul_right m h
      · right; left
        calc j * m + m = (j + 1) * m := by ring
          _ ≤ i * m := Nat.mul_le_mul_right m h)
  generalize hcc : (List.range n).foldl (fun b j => writeAt b (j * m) (send j).data) (recv r).data = c at h1 h2 h3
  refine ⟨⟨(recv r).size, c⟩, ?_, (hr r hrn).1, by rw [← lenr r hrn]; exact h1, ?_⟩
  · unfold allgatherVec allgatherStd mpiAllgather
    rw [e1, Res.ok_bind, hc r hrn, if_pos ⟨len, by rw [lenr r hrn]; exact hN r hrn⟩, hcc]
    rfl
  · intro i hi
    refine (get_iff (by rw [(hr r hrn).1]; exact hi) _).mpr ?_
    beta_reduce
    by_cases hlt : i < n * m
    · rw [if_pos hlt]
      have hj : i / m < n := Nat.div_lt_of_lt_mul (by rw [Nat.mul_comm]; exact hlt)
      have hmod : i % m < m := Nat.mod_lt _ hm
      have := h2 (i / m) hj (i % m) (by rw [len _ hj]; exact hmod)
      rw [show i / m * m + i % m = i by rw [Nat.mul_comm]; exact Nat.div_add_mod i m] at this
      rw [this]
      exact has_get (hs _ hj) hmod
    · rw [if_neg hlt, h3 i]
      · exact has_get (hr r hrn) hi
      · intro j hj hh
        have := hfit j hj
        rw [len j hj] at hh
        have : (j + 1) * m ≤ n * m := Nat.mul_le_mul_right m hj
        have : (j + 1) * m = j * m + m := by ring
        omega

/-- Every rank passes its own positive number of elements; counts and places tell the same to all and the places are disjoint and
inside the receiving vector: then every rank has every block at its place and the rest of its vector unchanged. -/
theorem C62_allgatherv_partial {n : Nat} {send recv : Nat → Vec V} {f g : Nat → Nat → V} {s N p : Nat → Nat}
    (hs : ∀ j < n, (send j).Has (s j) (f j) ∧ 0 < s j) (hr : ∀ j < n, (recv j).Has (N j) (g j)) {counts displs : Nat → List Nat}
    (hc : ∀ j < n, (counts j).length = n ∧ ∀ k < n, (counts j).getD k 0 = s k)
    (hd : ∀ j < n, (displs j).length = n ∧ ∀ k < n, (displs j).getD k 0 = p k)
    (hfit : ∀ j < n, ∀ k < n, p k + s k ≤ N j) (hdis : ∀ i < n, ∀ j < n, i ≠ j → p i + s i ≤ p j ∨ p j + s j ≤ p i)
    {r : Nat} (hrn : r < n) :
    (allgathervVec n send recv counts displs r).Returns (fun v => ∃ h, v.Has (N r) h ∧ (∀ j < n, ∀ i < s j, h (p j + i) = f j i) ∧
      ∀ i < N r, (∀ j < n, ¬ (p j ≤ i ∧ i < p j + s j)) → h i = g r i) := by
  have len : ∀ j < n, (send j).data.length = s j := fun j hj => (hs j hj).1.2.1
  have lenr : ∀ j < n, (recv j).data.length = N j := fun j hj => (hr j hj).2.1
  have e1 := needElements (n := n) (send := fun j => (send j).data) (recv := fun j => (recv j).data)
    (fun j hj h => by have a := len j hj; have b := (hs j hj).2; rw [h] at a; simp at a; omega)
    (fun j hj h => by have a := lenr j hj; have b := hfit j hj j hj; have c := (hs j hj).2; rw [h] at a; simp at a; omega)
  obtain ⟨h1, h2, h3⟩ := foldl_writeAt (n := n) (send := fun j => (send j).data) (pos := p) (b := (recv r).data)
    (fun j hj => by rw [len j hj, lenr r hrn]; exact hfit r hrn j hj)
    (by
      intro i hi j hj hij
      rw [len i hi, len j hj]
      have := hdis i hi j hj hij
      omega)
  have hfold : (List.range n).foldl (fun b j => writeAt b ((displs r).getD j 0) (send j).data) (recv r).data =
      (List.range n).foldl (fun b j => writeAt b (p j) (send j).data) (recv r).data :=
    List.foldl_ext _ _ _ (fun b j hj => by rw [(hd r hrn).2 j (List.mem_range.mp hj)])
  generalize hcc : (List.range n).foldl (fun b j => writeAt b (p j) (send j).data) (recv r).data = c at h1 h2 h3 hfold
  have hcl : c.length = N r := by rw [← lenr r hrn]; exact h1
  have hpos : 0 < N r := by have := hfit r hrn r hrn; have := (hs r hrn).2; omega
  let d : V := f r 0
  refine ⟨⟨(recv r).size, c⟩, ?_, fun i => c.getD i d, ⟨(hr r hrn).1, hcl, fun i hi =>
    (get_iff (by rw [(hr r hrn).1]; exact hi) _).mpr (getD_of_has (by rw [hcl]; exact hi) d)⟩, ?_, ?_⟩
  · unfold allgathervVec allgathervStd mpiAllgatherv
    rw [e1, Res.ok_bind, if_pos, hfold]
    · rfl
    · refine ⟨(hc r hrn).1, (hd r hrn).1, fun j hj => ?_, fun i hi j hj hij => ?_⟩
      · rw [(hc r hrn).2 j hj, (hd r hrn).2 j hj, len j hj, lenr r hrn]
        exact ⟨rfl, hfit r hrn j hj⟩
      · rw [(hc r hrn).2 j hj, (hd r hrn).2 j hj, (hc r hrn).2 i hi, (hd r hrn).2 i hi]
        have := hdis i hi j hj hij
        omega
  · intro j hj i hi
    have a := h2 j hj i (by rw [len j hj]; exact hi)
    rw [has_get (hs j hj).1 hi] at a
    show c.getD _ d = _
    rw [List.getD_eq_getElem?_getD, a]
    rfl
  · intro i hi hno
    have a := h3 i (fun j hj => by rw [len j hj]; exact hno j hj)
    rw [has_get (hr r hrn) hi] at a
    show c.getD _ d = _
    rw [List.getD_eq_getElem?_getD, a]
    rfl

/-- A rank with nothing to send, or with an empty receiving vector, makes the call undefined on every rank, although MPI allows
sending nothing: the address of the first element is asked for. -/
theorem C62_empty_wrong {n : Nat} {send recv : Nat → Vec V} {j : Nat} (hj : j < n) (h : (send j).data = [] ∨ (recv j).data = [])
    (count : Nat → Nat) (counts displs : Nat → List Nat) (r : Nat) :
    allgatherVec n send recv count r = .ub ∧ allgathervVec n send recv counts displs r = .ub := by
  unfold allgatherVec allgathervVec allgatherStd allgathervStd
  rw [needElements_ub (send := fun j => (send j).data) (recv := fun j => (recv j).data) hj h]
  exact ⟨rfl, rfl⟩

/-- MPI itself gathers from ranks that have nothing to send. -/
theorem C62_mpi_allows_empty (send : Nat → List V) (n : Nat) (p : Nat → Nat) (recv : List V) (hp : ∀ k, p k = ((List.range k).map (fun j => (send j).length)).sum)
    (hfit : p n = recv.length) :
    mpiAllgatherv n send recv ((List.range n).map (fun j => (send j).length)) ((List.range n).map p) ≠ .ub := by
  have mono : ∀ i j, i < j → p i + (send i).length ≤ p j := by
    intro i j hij
    induction j with
    | zero => omega
    | succ j ih =>
      have e : p (j + 1) = p j + (send j).length := by
        rw [hp, hp, List.range_succ, List.map_append, List.sum_append]
        simp
      by_cases h : i = j
      · subst h; omega
      · have := ih (by omega); omega
  unfold mpiAllgatherv
  rw [if_pos]
  · simp
  · refine ⟨by simp, by simp, fun j hj => ?_, fun i hi j hj hij => ?_⟩
    · rw [List.getD_eq_getElem?_getD, List.getD_eq_getElem?_getD]
      simp only [List.getElem?_map, List.getElem?_range hj, Option.map_some, Option.getD_some, true_and]
      rw [← hfit]
      exact mono j n hj
    · simp only [List.getD_eq_getElem?_getD, List.getElem?_map, List.getElem?_range hi, List.getElem?_range hj, Option.map_some,
        Option.getD_some]
      rcases Nat.lt_or_gt_of_ne hij with h | h
      · exact .inl (mono i j h)
      · exact .inr (.inl (mono j i h))

/-- A receiving vector without room for all the data is overrun. -/
theorem C62_no_room_wrong {n : Nat} {send recv : Nat → Vec V} {count : Nat → Nat} {r : Nat} (h : (recv r).data.length < n * count r)
    (hne : ∀ j < n, (send j).data ≠ [] ∧ (recv j).data ≠ []) : allgatherVec n send recv count r = .ub := by
  unfold allgatherVec allgatherStd mpiAllgather
  rw [needElements (send := fun j => (send j).data) (recv := fun j => (recv j).data) (fun j hj => (hne j hj).1) (fun j hj => (hne j hj).2),
    Res.ok_bind, if_neg (fun hh => absurd hh.2 (by simp only; omega))]
  rfl

/-- Three ranks with two elements each. -/
example : allgatherVec 3 (fun j => ⟨2, [10 * j, 10 * j + 1]⟩) (fun _ => ⟨7, [9, 9, 9, 9, 9, 9, 9]⟩) (fun _ => 2) 1 =
    .ok ⟨7, [0, 1, 10, 11, 20, 21, 9]⟩ := by decide

example : (allgatherVec 3 (fun j => ⟨2, [10 * j, 10 * j + 1]⟩) (fun _ => ⟨7, [9, 9, 9, 9, 9, 9, 9]⟩) (fun _ => 2) 1).Returns
    (fun v => v.Has 7 (fun i => if i < 3 * 2 then 10 * (i / 2) + i % 2 else 9)) :=
  C62_allgather_partial (n := 3) (m := 2) (by decide) (f := fun j i => 10 * j + i) (g := fun _ _ => 9) (N := fun _ => 7)
    (fun j _ => ⟨rfl, rfl, fun i hi => by obtain rfl | rfl : i = 0 ∨ i = 1 := by omega
                                          all_goals rfl⟩)
    (fun j _ => ⟨rfl, rfl, by decide⟩) (fun _ _ => by decide) (fun _ _ => rfl) (by decide)

/-- The test `mpi_allgatherv.cpp` on two ranks: rank `j` sends `j` elements, so rank 0 sends none. -/
example (r : Nat) : allgathervVec 2 (fun j => ⟨j, List.replicate j j⟩) (fun _ => ⟨1, [0]⟩) (fun _ => [0, 1]) (fun _ => [0, 0]) r = .ub :=
  (C62_empty_wrong (n := 2) (j := 0) (by decide) (.inl rfl) (fun _ => 0) _ _ r).2

end EF
