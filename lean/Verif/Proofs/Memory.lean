import Verif.Spec.Memory
import Verif.Proofs.Report
import Verif.Proofs.Sound

/-!
# What the nodes of a tree keep after the three stages
-/

namespace EF

open Finset FV HPS

variable {K T τ : Type}

/-! ### The traversal -/

theorem dataSize_eq (p : Patch K) : p.dataSize = ((8 * p.doubles + 17 : Nat) : ℚ) / 2 ^ 20 := by
  unfold Patch.dataSize doubleSize byteToMegabyte Patch.doubles
  push_cast
  ring

theorem megabytes_nil : megabytes ([] : List (Patch K)) = 0 := by simp [megabytes]

theorem megabytes_cons (p : Patch K) (l : List (Patch K)) : megabytes (p :: l) = p.dataSize + megabytes l := by
  rw [dataSize_eq]
  unfold megabytes
  simp only [List.map_cons, List.sum_cons, List.length_cons]
  push_cast
  ring

theorem megabytes_append (l l' : List (Patch K)) : megabytes (l ++ l') = megabytes l + megabytes l' := by
  induction l with
  | nil => rw [List.nil_append, megabytes_nil, zero_add]
  | cons p l ih => rw [List.cons_append, megabytes_cons, megabytes_cons, ih]; ring

theorem dataSize_pos (p : Patch K) : 0 < p.dataSize := by
  rw [dataSize_eq]
  positivity

theorem megabytes_nonneg (l : List (Patch K)) : 0 ≤ megabytes l := by
  unfold megabytes
  positivity

theorem nodesOf_skip {r : Nat} {F : Forest} {t : Tree T} (hr : r ∉ F.ranks) : nodesOf r F t = [] := by
  induction F generalizing t with
  | leaf k =>
    cases t with
    | leaf d =>
      have : k ≠ r := by rintro rfl; exact hr (by simp [Forest.ranks])
      simp only [nodesOf, if_neg this]
    | node => rfl
  | node c0 c1 c2 c3 h0 h1 h2 h3 =>
    cases t with
    | leaf => rfl
    | node d t0 t1 t2 t3 =>
      have hr' := hr
      simp only [Forest.ranks, List.mem_append, not_or] at hr'
      simp only [nodesOf]
      rw [h0 hr'.1.1.1, h1 hr'.1.1.2, h2 hr'.1.2, h3 hr'.2, if_neg hr]
      rfl

/-- A traversal that only looks at the data of the nodes changes no entry. -/
theorem visitData_look {M r : Nat} (g : T → τ → τ) {G : Forest} {a : Addr} (ha : a.Valid) (hl : a.length ≤ M) {d : T} {m : NodeMap T}
    (h : Entry r G d a m) (hs : G.Spans r) (b : Bool) (s : τ) :
    ∃ m', searchVisitData M r .this (fun p s => .ok (p, g p s)) (a.quad M) b (m, s) = .ok ((m', g d s), true) ∧
      ∀ p, (m'.get p).1 = (m.get p).1 := by
  unfold searchVisitData
  rw [searchVisit_entry ha hl h hs]
  refine ⟨m.set a.text (some (nodeOf d a G)), rfl, fun p => ?_⟩
  by_cases hp : p = a.text
  · rw [hp, get_set]
    unfold Entry at h
    rw [h, if_pos hs]
  · exact get_congr (set_other hp _)

/-- The traversal after the children hands every node of the rank to the function. -/
theorem dataVisit_post {M r : Nat} (g : T → τ → τ) (F : Forest) {a : Addr} (ha : a.Valid)
    (hl : a.length + F.depth ≤ M) (hF : F.Sorted) {t : Tree T} {m : NodeMap T} {s : τ} (h : Rep r F t a m) :
    ∃ m', searchPost M r (searchVisitData M r .this fun p s => .ok (p, g p s)) F (a.quad M) (m, s)
        = .ok (m', (nodesOf r F t).foldl (fun s d => g d s) s) ∧ ∀ p, (m'.get p).1 = (m.get p).1 := by
  induction F generalizing t a m s with
  | leaf k =>
    cases t with
    | node => exact absurd h id
    | leaf d =>
      simp only [searchPost, nodesOf]
      by_cases hk : k = r
      · obtain ⟨m', e1, e2⟩ := visitData_look (M := M) g ha (by omega) h (⟨hk.le, hk.ge⟩ : (Forest.leaf k).Spans r) true s
        rw [if_pos hk, if_pos hk, e1]
        exact ⟨m', rfl, e2⟩
      · rw [if_neg hk, if_neg hk]
        exact ⟨m, rfl, fun _ => rfl⟩
  | node c0 c1 c2 c3 h0 h1 h2 h3 =>
    by_cases hr : r ∈ (Forest.node c0 c1 c2 c3).ranks
    · cases t with
      | leaf => exact absurd h id
      | node d t0 t1 t2 t3 =>
        have hs := hF.spans_of_mem hr
        obtain ⟨he, k0, k1, k2, k3⟩ := h
        obtain ⟨o0, o1, o2, o3⟩ := hF.kids
        simp only [Forest.depth] at hl
        simp only [searchPost, nodesOf, ← Addr.quad_snoc, List.foldl_append]
        rw [if_pos hr, if_pos hr]
        obtain ⟨m1, e1, f1⟩ := h0 (ha.snoc (by omega)) (by simp; omega) o0 (s := s) k0
        rw [e1, Res.ok_bind]
        obtain ⟨m2, e2, f2⟩ := h1 (ha.snoc (by omega)) (by simp; omega) o1
          (s := (nodesOf r c0 t0).foldl (fun s d => g d s) s) (k1.congr fun p _ => f1 p)
        rw [e2, Res.ok_bind]
        obtain ⟨m3, e3, f3⟩ := h2 (ha.snoc (by omega)) (by simp; omega) o2
          (s := (nodesOf r c1 t1).foldl (fun s d => g d s) ((nodesOf r c0 t0).foldl (fun s d => g d s) s))
          (k2.congr fun p _ => (f2 p).trans (f1 p))
        rw [e3, Res.ok_bind]
        obtain ⟨m4, e4, f4⟩ := h3 (ha.snoc (by omega)) (by simp; omega) o3
          (s := (nodesOf r c2 t2).foldl (fun s d => g d s) ((nodesOf r c1 t1).foldl (fun s d => g d s)
            ((nodesOf r c0 t0).foldl (fun s d => g d s) s)))
          (k3.congr fun p _ => (f3 p).trans ((f2 p).trans (f1 p)))
        rw [e4, Res.ok_bind]
        have f : ∀ p, (m4.get p).1 = (m.get p).1 := fun p => (f4 p).trans ((f3 p).trans ((f2 p).trans (f1 p)))
        obtain ⟨m5, e5, f5⟩ := visitData_look (M := M) g ha (by omega) (he.congr (f _)) hs false
          ((nodesOf r c3 t3).foldl (fun s d => g d s) ((nodesOf r c2 t2).foldl (fun s d => g d s)
            ((nodesOf r c1 t1).foldl (fun s d => g d s) ((nodesOf r c0 t0).foldl (fun s d => g d s) s))))
        rw [e5, Res.ok_bind]
        exact ⟨m5, rfl, fun p => (f5 p).trans (f p)⟩
    · rw [nodesOf_skip hr]
      refine ⟨m, ?_, fun p => rfl⟩
      simp only [searchPost]
      rw [if_neg hr]
      rfl

theorem foldl_megabytes (l : List (Patch K)) (s : ℚ) : l.foldl (fun s d => s + d.dataSize) s = s + megabytes l := by
  induction l generalizing s with
  | nil => rw [megabytes_nil, add_zero]; rfl
  | cons p l ih => rw [List.foldl_cons, ih, megabytes_cons]; ring

/-- What a rank reports. -/
theorem sizeReport_ok {M size r : Nat} {F : Forest} (hM : F.depth ≤ M) (hF : F.Sorted) {t : Tree (Patch K)} {q : Quadtree (Patch K)}
    (h : Rep r F t [] q.map) (hp : q.userPointer = .this) :
    sizeReport ⟨M, size, r, F⟩ q = .ok (megabytes (nodesOf r F t)) := by
  obtain ⟨m', e, -⟩ := dataVisit_post (M := M) (fun (d : Patch K) (s : ℚ) => s + d.dataSize) F Addr.Valid.nil (by simpa using hM) hF (s := 0) h
  rw [foldl_megabytes, zero_add] at e
  unfold sizeReport Quadtree.traversePostOrderData
  rw [hp, show searchPost M r (searchVisitData M r .this fun (p : Patch K) (s : ℚ) => Res.ok (p, s + p.dataSize)) F .root (q.map, 0) = _ from e]
  rfl

theorem nodesOf_all {r : Nat} {F : Forest} {t : Tree T} {a : Addr} {m : NodeMap T} (h : Rep r F t a m) (hr : ∀ k ∈ F.ranks, k = r) :
    nodesOf r F t = t.nodes := by
  induction F generalizing t a with
  | leaf k =>
    cases t with
    | node => exact absurd h id
    | leaf d => simp only [nodesOf, Tree.nodes, if_pos (hr k (by simp [Forest.ranks]))]
  | node c0 c1 c2 c3 h0 h1 h2 h3 =>
    cases t with
    | leaf => exact absurd h id
    | node d t0 t1 t2 t3 =>
      obtain ⟨-, k0, k1, k2, k3⟩ := h
      have hm : r ∈ (Forest.node c0 c1 c2 c3).ranks := by
        have := (Forest.node c0 c1 c2 c3).first_mem
        rwa [hr _ this] at this
      have hr' := hr
      simp only [Forest.ranks, List.mem_append] at hr'
      simp only [nodesOf, Tree.nodes]
      rw [h0 k0 fun k hk => hr' k (.inl (.inl (.inl hk))), h1 k1 fun k hk => hr' k (.inl (.inl (.inr hk))),
        h2 k2 fun k hk => hr' k (.inl (.inr hk)), h3 k3 fun k hk => hr' k (.inr hk), if_pos hm]

end EF
