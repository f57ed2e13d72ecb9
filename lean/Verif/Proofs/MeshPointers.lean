import Verif.Spec.MeshUse
import Verif.Proofs.Output
import Verif.Proofs.VTKSession

/-! # Mesh functions by reference -/

namespace EF

/-! ## Programs that agree -/

/-- Two programs that take part in the same collective operations and end in the same way, with related values. -/
inductive Along {T α β : Type} (R : α → β → Prop) : Prog T α → Prog T β → Prop
  | ok {a : α} {b : β} (h : R a b) : Along R (.fin (.ok a)) (.fin (.ok b))
  | throw (e : Exn) : Along R (.fin (.throw e)) (.fin (.throw e))
  | ub : Along R (.fin .ub) (.fin .ub)
  | allMax {lo hi : Nat} {name : Text} {v : Nat} {k : Nat → Prog T α} {k' : Nat → Prog T β} (h : ∀ n, Along R (k n) (k' n)) :
    Along R (.allMax lo hi name v k) (.allMax lo hi name v k')
  | bcast {lo hi : Nat} {name : Text} {root : Nat} {v : Node T} {k : Node T → Prog T α} {k' : Node T → Prog T β}
    (h : ∀ n, Along R (k n) (k' n)) : Along R (.bcast lo hi name root v k) (.bcast lo hi name root v k')

namespace Along

variable {T α β γ δ : Type} {R : α → β → Prop}

theorem refl (p : Prog T α) : Along (fun a b => a = b) p p := by
  induction p with
  | fin x =>
    cases x with
    | ok x => exact .ok rfl
    | throw e => exact .throw e
    | ub => exact .ub
  | allMax lo hi name v k ih => exact .allMax ih
  | bcast lo hi name root v k ih => exact .bcast ih

theorem bind {p : Prog T α} {q : Prog T β} (h : Along R p q) {S : γ → δ → Prop} {f : α → Prog T γ} {g : β → Prog T δ}
    (hf : ∀ a b, R a b → Along S (f a) (g b)) : Along S (p >>= f) (q >>= g) := by
  induction h with
  | ok h => exact hf _ _ h
  | throw e => exact .throw e
  | ub => exact .ub
  | allMax _ ih => exact .allMax ih
  | bcast _ ih => exact .bcast ih

/-- The same program first. -/
theorem same (p : Prog T α) {S : γ → δ → Prop} {f : α → Prog T γ} {g : α → Prog T δ} (hf : ∀ a, Along S (f a) (g a)) :
    Along S (p >>= f) (p >>= g) := (refl p).bind fun a _ h => h ▸ hf a

theorem mono {S : α → β → Prop} (hRS : ∀ a b, R a b → S a b) {p : Prog T α} {q : Prog T β} (h : Along R p q) : Along S p q := by
  induction h with
  | ok h => exact .ok (hRS _ _ h)
  | throw e => exact .throw e
  | ub => exact .ub
  | allMax _ ih => exact .allMax ih
  | bcast _ ih => exact .bcast ih

/-- Related by a function: the first is the image of the second. -/
theorem eq_map {f : β → α} {p : Prog T α} {q : Prog T β} (h : Along (fun a b => f b = a) p q) : q >>= (fun b => pure (f b)) = p := by
  induction h with
  | ok h => rw [← h]; rfl
  | throw e => rfl
  | ub => rfl
  | allMax _ ih => exact congrArg (Prog.allMax _ _ _ _) (funext ih)
  | bcast _ ih => exact congrArg (Prog.bcast _ _ _ _ _) (funext ih)

end Along

/-- All values a program can end with, whatever the collective operations return. -/
inductive Only {T α : Type} (Q : α → Prop) : Prog T α → Prop
  | ok {a : α} (h : Q a) : Only Q (.fin (.ok a))
  | throw {e : Exn} : Only Q (.fin (.throw e))
  | ub : Only Q (.fin .ub)
  | allMax {lo hi : Nat} {name : Text} {v : Nat} {k : Nat → Prog T α} (h : ∀ n, Only Q (k n)) : Only Q (.allMax lo hi name v k)
  | bcast {lo hi : Nat} {name : Text} {root : Nat} {v : Node T} {k : Node T → Prog T α} (h : ∀ n, Only Q (k n)) :
    Only Q (.bcast lo hi name root v k)

namespace Only

variable {T α β : Type} {Q : α → Prop} {S : β → Prop}

theorem any (p : Prog T α) : Only (fun _ => True) p := by
  induction p with
  | fin x =>
    cases x with
    | ok x => exact .ok trivial
    | throw e => exact .throw
    | ub => exact .ub
  | allMax lo hi name v k ih => exact .allMax ih
  | bcast lo hi name root v k ih => exact .bcast ih

theorem bind {p : Prog T α} (h : Only Q p) {f : α → Prog T β} (hf : ∀ a, Q a → Only S (f a)) : Only S (p >>= f) := by
  induction h with
  | ok h => exact hf _ h
  | throw => exact .throw
  | ub => exact .ub
  | allMax _ ih => exact .allMax ih
  | bcast _ ih => exact .bcast ih

theorem after (p : Prog T α) {f : α → Prog T β} (hf : ∀ a, Only S (f a)) : Only S (p >>= f) := (any p).bind fun a _ => hf a

theorem fin {x : Res α} (h : ∀ a, x = .ok a → Q a) : Only (T := T) Q (.fin x) := by
  cases x with
  | ok x => exact .ok (h x rfl)
  | throw e => exact .throw
  | ub => exact .ub

theorem step {c c' : Config T α} (h : Step c c') {r : Nat} (hr : Only Q (c r)) : Only Q (c' r) := by
  cases h with
  | allMax lo hi name v k hle arrived leaves others =>
    by_cases hb : lo ≤ r ∧ r ≤ hi
    · rw [leaves r hb.1 hb.2]
      rw [arrived r hb.1 hb.2] at hr
      cases hr with
      | allMax h => exact h _
    · rw [others r hb]; exact hr
  | bcast lo hi name root v k hroot arrived leaves others =>
    by_cases hb : lo ≤ r ∧ r ≤ hi
    · rw [leaves r hb.1 hb.2]
      rw [arrived r hb.1 hb.2] at hr
      cases hr with
      | bcast h => exact h _
    · rw [others r hb]; exact hr

theorem run {n : Nat} {c c' : Config T α} (h : Run n c c') {r : Nat} (hr : Only Q (c r)) : Only Q (c' r) := by
  induction h with
  | refl => exact hr
  | step h _ ih => exact ih (hr.step h)

theorem value {a : α} (h : Only (T := T) Q (.fin (.ok a))) : Q a := by
  cases h with
  | ok h => exact h

end Only

/-- The same program first, with what is known of its values. -/
theorem Along.sameOnly {T α γ δ : Type} {Q : α → Prop} {p : Prog T α} (h : Only Q p) {S : γ → δ → Prop} {f : α → Prog T γ}
    {g : α → Prog T δ} (hf : ∀ a, Q a → Along S (f a) (g a)) : Along S (p >>= f) (p >>= g) := by
  induction h with
  | ok h => exact hf _ h
  | throw => exact .throw _
  | ub => exact .ub
  | allMax _ ih => exact .allMax ih
  | bcast _ ih => exact .bcast ih

/-! ## Memory -/

namespace Vectors

theorem live_alloc (V : Vectors) (x : Text × Vec ℚ) : (V.alloc x).1.live = V.live + 1 := by
  unfold live alloc
  rw [List.range_succ, List.countP_append]
  congr 1
  · refine List.countP_congr fun a ha => ?_
    have := List.mem_range.mp ha
    dsimp only
    rw [if_neg (by omega)]
  · simp

theorem live_assign (V : Vectors) {a : Nat} (x : Text × Vec ℚ) (h : (V.cells a).isSome) : (V.assign a x).live = V.live := by
  unfold live assign
  refine List.countP_congr fun b _ => ?_
  dsimp only
  by_cases hb : b = a
  · subst hb
    rw [if_pos rfl]
    simp [h]
  · rw [if_neg hb]

theorem live_kill (V : Vectors) {a : Nat} (ha : a < V.next) (h : (V.cells a).isSome) : (V.kill a).live + 1 = V.live := by
  have key : ∀ n, a < n → (List.range n).countP (fun b => ((V.kill a).cells b).isSome) + 1 =
      (List.range n).countP fun b => (V.cells b).isSome := by
    intro n
    induction n with
    | zero => intro h; omega
    | succ n ih =>
      intro hn
      rw [List.range_succ, List.countP_append, List.countP_append]
      by_cases e : a = n
      · subst e
        have e1 : (List.range a).countP (fun b => ((V.kill a).cells b).isSome) = (List.range a).countP fun b => (V.cells b).isSome := by
          refine List.countP_congr fun b hb => ?_
          have := List.mem_range.mp hb
          unfold kill
          dsimp only
          rw [if_neg (by omega)]
        rw [e1]
        simp [kill, h]
      · have e2 := ih (by omega)
        have e3 : ((V.kill a).cells n) = V.cells n := by
          unfold kill
          dsimp only
          rw [if_neg (by omega)]
        simp only [List.countP_cons, List.countP_nil, e3]
        omega
  exact key V.next ha

end Vectors

/-! ## Functions of x and y -/

/-- The traversals of `addMeshFunction`: the quadtree afterwards and the values. -/
def sampleCells (M r : Nat) (F : Forest) (fn : ℚ → ℚ → ℚ) (q : Quadtree (Patch ℚ)) (A : MeshArrays ℚ) : Res (Quadtree (Patch ℚ) × Vec ℚ) := do
  let x ← (⟨q, A, []⟩ : Mesh ℚ).iteratePatches M r F (fun p (n : Nat) => pure (p, n + p.grid.nx * p.grid.ny)) 0
  let y ← x.1.iterateCells M r F (fun xc yc (s : Vec ℚ × Nat) => do
    let v ← s.1.set s.2 (fn xc yc)
    pure (v, s.2 + 1)) (Vec.zeros x.2, 0)
  pure (y.1.quadtree, y.2.1)

theorem addMeshFunction_value (M r : Nat) (F : Forest) (fn : ℚ → ℚ → ℚ) (q : Quadtree (Patch ℚ)) (A : MeshArrays ℚ) (fs : List (Vec ℚ)) :
    (⟨q, A, fs⟩ : Mesh ℚ).addMeshFunction M r F fn = sampleCells M r F fn q A >>= fun y => pure ⟨y.1, A, fs ++ [y.2]⟩ := by
  unfold Mesh.addMeshFunction sampleCells Mesh.iteratePatches Mesh.iterateCells
  simp only [bind_assoc, pure_bind]

theorem addMeshFunction_pointer (M r : Nat) (F : Forest) (fn : ℚ → ℚ → ℚ) (name : Text) (q : Quadtree (Patch ℚ)) (A : MeshArrays ℚ)
    (ps : List Nat) (V : Vectors) :
    (⟨q, A, ps⟩ : PMesh).addMeshFunction M r F fn name V =
      sampleCells M r F fn q A >>= fun y => pure (⟨y.1, A, ps ++ [V.next]⟩, (V.alloc (name, y.2)).1) := by
  unfold PMesh.addMeshFunction sampleCells Mesh.iteratePatches Mesh.iterateCells PMesh.bare
  simp only [bind_assoc, pure_bind]
  rfl

/-! ## Files -/

/-- The pointers lead to the given vectors. -/
theorem toVTK_pointer {m : PMesh} {V : Vectors} {L : List (Text × Vec ℚ)} (hL : followAll V.cells m.functions = .ok L) (P : Place)
    (stack : Nat) (base : Text) (number : Option Nat) (h : Heap) :
    m.toVTK V P stack base number h =
      (⟨m.quadtree, m.arrays, L.map Prod.snd⟩ : Mesh ℚ).toVTK (L.map Prod.fst) P stack base number h := by
  unfold PMesh.toVTK Mesh.toVTK Mesh.functionArrays
  rw [hL, Res.ok_bind]
  have e : (L.map Prod.fst).zip (L.map Prod.snd) = L := by
    rw [List.zip_map']
    simp
  rw [e]

/-! ## The time loop -/

namespace Thermal

/-- What an output computes: the traversals, the values of the five functions, the files. -/
def writeCore (P : Place) (s : FVSolver ℚ) (stack k : Nat) (q : Quadtree (Patch ℚ)) (A : MeshArrays ℚ) (h : Heap) :
    Res ((Quadtree (Patch ℚ) × List (Vec ℚ)) × Heap × List (Text × Text)) := do
  let x ← q.traversePreOrder P.M P.rank P.forest
    (leafVisit fun p (s : Vec ℚ × Vec ℚ) => pure (p, (s.1.append p.u, s.2.append p.f))) (Vec.empty, Vec.empty)
  let a ← sampleCells P.M P.rank P.forest s.alpha x.1 A
  let b ← sampleCells P.M P.rank P.forest s.beta a.1 A
  let c ← sampleCells P.M P.rank P.forest s.lambda b.1 A
  let z ← (⟨c.1, A, [x.2.1, x.2.2, a.2, b.2, c.2]⟩ : Mesh ℚ).toVTK names P stack "thermal".toList (some k) h
  pure ((c.1, [x.2.1, x.2.2, a.2, b.2, c.2]), z)

theorem write_core (P : Place) (s : FVSolver ℚ) (stack k : Nat) (A : HPSRank ℚ) (h : Heap) :
    write P s stack k A h = writeCore P s stack k A.mesh.quadtree A.mesh.arrays h >>= fun y =>
      pure (⟨⟨y.1.1, A.mesh.arrays, y.1.2⟩, A.cache⟩, y.2.1, y.2.2) := by
  unfold write writeCore Mesh.clearMeshFunctions Mesh.addMeshVector
  simp only [bind_assoc, pure_bind, addMeshFunction_value, List.nil_append, List.cons_append]

/-- Memory after an output: the two vectors of the block are gone, the three made by `new` are not. -/
def memoryAfter (V : Vectors) (L : List (Vec ℚ)) : Vectors :=
  match L with
  | [u, f, a, b, c] =>
    let V1 := (((V.alloc ("u_soln".toList, Vec.empty)).1.alloc ("f_rhs".toList, Vec.empty)).1.assign V.next ("u_soln".toList, u)).assign
      (V.next + 1) ("f_rhs".toList, f)
    let V4 := (((V1.alloc ("alpha_fn".toList, a)).1.alloc ("beta_fn".toList, b)).1.alloc ("lambda_fn".toList, c)).1
    (V4.kill (V.next + 1)).kill V.next
  | _ => V

theorem memoryAfter_live (V : Vectors) (u f a b c : Vec ℚ) : (memoryAfter V [u, f, a, b, c]).live = V.live + 3 := by
  unfold memoryAfter
  dsimp only
  generalize e1 : (V.alloc ("u_soln".toList, Vec.empty)).1 = V1
  have l1 := V.live_alloc ("u_soln".toList, Vec.empty)
  rw [e1] at l1
  have n1 : V1.next = V.next + 1 := by rw [← e1]; rfl
  have c1 : V1.cells V.next = some ("u_soln".toList, Vec.empty) := by rw [← e1]; simp [Vectors.alloc]
  generalize e2 : (V1.alloc ("f_rhs".toList, Vec.empty)).1 = V2
  have l2 := V1.live_alloc ("f_rhs".toList, Vec.empty)
  rw [e2] at l2
  have n2 : V2.next = V.next + 2 := by rw [← e2, Vectors.alloc, n1]
  have c2 : (V2.cells V.next).isSome := by
    rw [← e2]
    simp only [Vectors.alloc, n1]
    rw [if_neg (by omega), c1]
    rfl
  have d2 : (V2.cells (V.next + 1)).isSome := by
    rw [← e2]
    simp [Vectors.alloc, n1]
  have l3 := V2.live_assign ("u_soln".toList, u) c2
  generalize e3 : V2.assign V.next ("u_soln".toList, u) = V3 at l3 ⊢
  have n3 : V3.next = V.next + 2 := by rw [← e3]; exact n2
  have c3 : (V3.cells V.next).isSome := by rw [← e3]; simp [Vectors.assign]
  have d3 : (V3.cells (V.next + 1)).isSome := by
    rw [← e3]
    simp only [Vectors.assign]
    rw [if_neg (by omega)]
    exact d2
  have l4 := V3.live_assign ("f_rhs".toList, f) d3
  generalize e4 : V3.assign (V.next + 1) ("f_rhs".toList, f) = V4 at l4 ⊢
  have n4 : V4.next = V.next + 2 := by rw [← e4]; exact n3
  have c4 : (V4.cells V.next).isSome := by
    rw [← e4]
    simp only [Vectors.assign]
    rw [if_neg (by omega)]
    exact c3
  have d4 : (V4.cells (V.next + 1)).isSome := by rw [← e4]; simp [Vectors.assign]
  have grow : ∀ (W : Vectors) (x : Text × Vec ℚ), V.next + 2 ≤ W.next → (W.cells V.next).isSome → (W.cells (V.next + 1)).isSome →
      V.next + 2 ≤ (W.alloc x).1.next ∧ ((W.alloc x).1.cells V.next).isSome ∧ ((W.alloc x).1.cells (V.next + 1)).isSome := by
    intro W x h1 h2 h3
    simp only [Vectors.alloc]
    rw [if_neg (by omega), if_neg (by omega)]
    exact ⟨by omega, h2, h3⟩
  obtain ⟨n5, c5, d5⟩ := grow V4 ("alpha_fn".toList, a) (by omega) c4 d4
  have l5 := V4.live_alloc ("alpha_fn".toList, a)
  obtain ⟨n6, c6, d6⟩ := grow _ ("beta_fn".toList, b) n5 c5 d5
  have l6 := (V4.alloc ("alpha_fn".toList, a)).1.live_alloc ("beta_fn".toList, b)
  obtain ⟨n7, c7, d7⟩ := grow _ ("lambda_fn".toList, c) n6 c6 d6
  have l7 := ((V4.alloc ("alpha_fn".toList, a)).1.alloc ("beta_fn".toList, b)).1.live_alloc ("lambda_fn".toList, c)
  generalize (((V4.alloc ("alpha_fn".toList, a)).1.alloc ("beta_fn".toList, b)).1.alloc ("lambda_fn".toList, c)).1 = V7 at n7 c7 d7 l7 ⊢
  have l8 := V7.live_kill (a := V.next + 1) (by omega) d7
  have l9 := (V7.kill (V.next + 1)).live_kill (a := V.next) (by show V.next < V7.next; omega) (by
    simp only [Vectors.kill]
    rw [if_neg (by omega)]
    exact c7)
  omega

theorem writePointers_core (P : Place) (s : FVSolver ℚ) (stack : Nat) (st : PState) :
    writePointers P s stack st = writeCore P s stack st.nOutput st.mesh.quadtree st.mesh.arrays st.heap >>= fun y =>
      pure ⟨⟨y.1.1, st.mesh.arrays, [st.vecs.next, st.vecs.next + 1, st.vecs.next + 2, st.vecs.next + 3, st.vecs.next + 4]⟩, st.cache,
        memoryAfter st.vecs y.1.2, st.nOutput + 1, y.2.1, st.files ++ [y.2.2]⟩ := by
  unfold writePointers writeCore PMesh.clearMeshFunctions PMesh.addMeshVector
  simp only [bind_assoc, pure_bind, addMeshFunction_pointer, List.nil_append, List.cons_append]
  refine bind_congr fun x => bind_congr fun a => bind_congr fun b => bind_congr fun c => ?_
  rw [toVTK_pointer (L := [("u_soln".toList, x.2.1), ("f_rhs".toList, x.2.2), ("alpha_fn".toList, a.2), ("beta_fn".toList, b.2),
    ("lambda_fn".toList, c.2)])]
  · rfl
  · refine followAll_live ?_
    generalize "u_soln".toList = n1
    generalize "f_rhs".toList = n2
    generalize "alpha_fn".toList = n3
    generalize "beta_fn".toList = n4
    generalize "lambda_fn".toList = n5
    simp only [Live, Vectors.alloc, Vectors.assign, List.map_cons, List.map_nil, Nat.add_assoc, Nat.reduceAdd, Nat.add_left_cancel_iff,
      Nat.left_eq_add, Nat.add_eq_left, OfNat.ofNat_ne_zero, OfNat.ofNat_ne_one, OfNat.one_ne_ofNat, one_ne_zero, if_true, if_false,
      Nat.reduceEqDiff]

/-- The states of the loop with functions by value and by reference. -/
structure Agree (V : Vectors) (a : State) (b : PState) : Prop where
  quadtree : b.mesh.quadtree = a.rank.mesh.quadtree
  arrays : b.mesh.arrays = a.rank.mesh.arrays
  cache : b.cache = a.rank.cache
  nOutput : b.nOutput = a.nOutput
  heap : b.heap = a.heap
  files : b.files = a.files
  live : b.vecs.live = V.live + 3 * b.files.length

/-- The same solver object up to the functions of the mesh. -/
def SameRank (A B : HPSRank ℚ) : Prop :=
  B.mesh.quadtree = A.mesh.quadtree ∧ B.mesh.arrays = A.mesh.arrays ∧ B.cache = A.cache

theorem stepOn_same (P : Place) (lap : Lapack ℚ) (ps : PatchSolver ℚ) (opt : HPSOptions) (c : Thermal ℚ) (n : Nat) {A B : HPSRank ℚ}
    (h : SameRank A B) : Along SameRank (stepOn P lap ps opt c n A) (stepOn P lap ps opt c n B) := by
  unfold stepOn
  refine Along.bind (R := SameRank) ?_ fun A B h => ?_
  · unfold HPSRank.upwardsStage
    rw [h.1]
    refine Along.same _ fun _ => Along.same _ fun x => .ok ?_
    exact ⟨rfl, h.2.1, h.2.2⟩
  · unfold HPSRank.solveStageAnalytic
    rw [h.1]
    refine Along.same _ fun _ => Along.same _ fun q => ?_
    unfold HPSRank.splitDown
    refine Along.same _ fun x => .ok ?_
    exact ⟨rfl, h.2.1, h.2.2⟩

theorem write_agree (P : Place) (s : FVSolver ℚ) (stack : Nat) {V : Vectors} {a : State} {b : PState} (h : Agree V a b) :
    Along (T := Patch ℚ) (Agree V)
      (Prog.fin (write P s stack a.nOutput a.rank a.heap) >>= fun x => pure ⟨x.1, a.nOutput + 1, x.2.1, a.files ++ [x.2.2]⟩)
      (Prog.fin (writePointers P s stack b)) := by
  rw [write_core, writePointers_core, h.quadtree, h.arrays, h.nOutput, h.heap, h.cache, h.files]
  have hl : ∀ y, writeCore P s stack a.nOutput a.rank.mesh.quadtree a.rank.mesh.arrays a.heap = .ok y →
      ∃ u f a b c, y.1.2 = [u, f, a, b, c] := by
    intro y hy
    unfold writeCore at hy
    obtain ⟨x, -, hy⟩ := Res.bind_eq_ok.mp hy
    obtain ⟨x1, -, hy⟩ := Res.bind_eq_ok.mp hy
    obtain ⟨x2, -, hy⟩ := Res.bind_eq_ok.mp hy
    obtain ⟨x3, -, hy⟩ := Res.bind_eq_ok.mp hy
    obtain ⟨x4, -, hy⟩ := Res.bind_eq_ok.mp hy
    obtain rfl := Res.ok_inj.mp hy
    exact ⟨_, _, _, _, _, rfl⟩
  cases hx : writeCore P s stack a.nOutput a.rank.mesh.quadtree a.rank.mesh.arrays a.heap with
  | ok y =>
    obtain ⟨u, f, a', b', c', e'⟩ := hl y hx
    refine .ok ⟨rfl, rfl, rfl, rfl, rfl, rfl, ?_⟩
    rw [e', memoryAfter_live, h.live, h.files]
    simp only [List.length_append, List.length_cons, List.length_nil]
    omega
  | throw e => exact .throw e
  | ub => exact .ub

theorem pass_agree (P : Place) (lap : Lapack ℚ) (ps : PatchSolver ℚ) (s : FVSolver ℚ) (opt : HPSOptions) (c : Thermal ℚ) (vtk : Bool)
    (nVtk : Int) (stack n : Nat) {V : Vectors} {a : State} {b : PState} (h : Agree V a b) :
    Along (Agree V) (pass P lap ps s opt c vtk nVtk stack n a) (passPointers P lap ps s opt c vtk nVtk stack n b) := by
  unfold pass passPointers
  refine (stepOn_same P lap ps opt c n (A := a.rank) (B := ⟨b.mesh.bare, b.cache⟩) ⟨h.quadtree, h.arrays, h.cache⟩).bind fun A B hAB => ?_
  have hs : Agree V { a with rank := A } { b with mesh := ⟨B.mesh.quadtree, B.mesh.arrays, b.mesh.functions⟩, cache := B.cache } :=
    ⟨hAB.1, hAB.2.1, hAB.2.2, h.nOutput, h.heap, h.files, h.live⟩
  · by_cases hv : vtk = true
    · rw [if_pos hv, if_pos hv]
      by_cases h0 : nVtk = 0
      · rw [if_pos h0, if_pos h0]
        exact .ub
      · rw [if_neg h0, if_neg h0]
        by_cases hn : (n : Int).tmod nVtk = 0
        · rw [if_pos hn, if_pos hn]
          exact write_agree P s stack hs
        · rw [if_neg hn, if_neg hn]
          exact .ok hs
    · rw [if_neg hv, if_neg hv]
      exact .ok hs

theorem passes_agree (P : Place) (lap : Lapack ℚ) (ps : PatchSolver ℚ) (s : FVSolver ℚ) (opt : HPSOptions) (c : Thermal ℚ) (vtk : Bool)
    (nVtk : Int) (stack : Nat) {V : Vectors} (k : Nat) {a : State} {b : PState} (h : Agree V a b) :
    Along (Agree V) (passes P lap ps s opt c vtk nVtk stack k a) (passesPointers P lap ps s opt c vtk nVtk stack k b) := by
  induction k with
  | zero => exact .ok h
  | succ k ih =>
    rw [passes, passesPointers]
    exact ih.bind fun a b h => pass_agree P lap ps s opt c vtk nVtk stack k h

theorem main_agree (P : Place) (lap : Lapack ℚ) (ps : PatchSolver ℚ) (s : FVSolver ℚ) (opt : HPSOptions) (root : Patch ℚ) (c : Thermal ℚ)
    (nt : Nat) (vtk : Bool) (nVtk : Int) (stack : Nat) (V : Vectors) (h : Heap) :
    Along (fun a b => b.2 = a ∧ b.1.live = V.live + 3 * b.2.length) (main P lap ps s opt root c nt vtk nVtk stack h)
      (mainPointers P lap ps s opt root c nt vtk nVtk stack V h) := by
  unfold main mainPointers
  refine Along.same _ fun mesh => Along.same _ fun A => Along.same _ fun A => ?_
  refine (passes_agree P lap ps s opt c vtk nVtk stack (nt + 1) (V := V) ?_).bind fun a b h => .ok ⟨h.files, h.live⟩
  exact ⟨rfl, rfl, rfl, rfl, rfl, rfl, rfl⟩

end Thermal

/-! ## The example with one output -/

theorem fin_bind {T α β : Type} (x : Res α) (f : α → Res β) : (Prog.fin (x >>= f) : Prog T β) = Prog.fin x >>= fun a => Prog.fin (f a) := by
  cases x <;> rfl

theorem fin_pure {T α : Type} (x : α) : (Prog.fin (pure x) : Prog T α) = pure x := rfl

/-- The stages do not touch the functions of the mesh. -/
theorem solves_functions (P : Place) (lap : Lapack ℚ) (ps : PatchSolver ℚ) (opt : HPSOptions) (f : ℚ → ℚ → ℚ) (bc : HPS.BoundaryFn ℚ)
    (n : Nat) {A : HPSRank ℚ} (h : A.mesh.functions = []) : Only (fun B => B.mesh.functions = []) (A.solves P lap ps opt f bc n) := by
  induction n generalizing A with
  | zero => exact .ok h
  | succ n ih =>
    rw [HPSRank.solves]
    have h1 : Only (fun B : HPSRank ℚ => B.mesh.functions = []) (A.upwardsStageAnalytic P lap ps opt f) := by
      unfold HPSRank.upwardsStageAnalytic
      exact Only.after _ fun _ => Only.after _ fun x => .ok h
    refine h1.bind fun B hB => ?_
    have h2 : Only (fun B : HPSRank ℚ => B.mesh.functions = []) (B.solveStageAnalytic P lap ps opt bc) := by
      unfold HPSRank.solveStageAnalytic
      refine Only.after _ fun _ => Only.after _ fun q => ?_
      unfold HPSRank.splitDown
      exact Only.after _ fun x => .ok hB
    exact h2.bind fun B hB => ih hB

theorem refine_functions {M r : Nat} {F : Forest} {root : Patch ℚ} {m : Mesh ℚ}
    (h : Mesh.refineByFunction M r F root FVFactory.factory Mesh.blank = .ok m) : m.functions = [] := by
  unfold Mesh.refineByFunction Mesh.setMeshFromQuadtree at h
  obtain ⟨q, -, h⟩ := Res.bind_eq_ok.mp h
  obtain ⟨x, -, h⟩ := Res.bind_eq_ok.mp h
  obtain rfl := Res.ok_inj.mp h
  rfl

theorem example_agree (P : Place) (lap : Lapack ℚ) (ps : PatchSolver ℚ) (s : FVSolver ℚ) (opt : HPSOptions) (root : Patch ℚ)
    (f : ℚ → ℚ → ℚ) (bc : HPS.BoundaryFn ℚ) (exact : ℚ → ℚ → ℚ) (n stack : Nat) (V : Vectors) (h : Heap) :
    Along (fun a b => b.2 = a) (exampleFiles P lap ps s opt root f bc exact n stack h)
      (examplePointers P lap ps s opt root f bc exact n stack V h) := by
  unfold exampleFiles exampleMain examplePointers
  simp only [bind_assoc, pure_bind]
  refine Along.sameOnly (Q := fun m : Mesh ℚ => m.functions = []) (Only.fin fun m h => refine_functions h) fun mesh h0 => ?_
  refine Along.sameOnly (Q := fun A : HPSRank ℚ => A.mesh.functions = []) (Only.after _ fun _ => .ok h0) fun A h0 => ?_
  have hb : Only (fun B : HPSRank ℚ => B.mesh.functions = []) (A.buildStage P lap ps opt) := by
    unfold HPSRank.buildStage
    exact Only.after _ fun _ => Only.after _ fun x => .ok h0
  refine Along.sameOnly hb fun A h0 => ?_
  refine Along.sameOnly (solves_functions P lap ps opt f bc n h0) fun A h0 => ?_
  refine Along.same _ fun x => ?_
  unfold Mesh.addMeshVector PMesh.addMeshVector
  simp only [addMeshFunction_value, addMeshFunction_pointer, fin_bind, fin_pure, bind_assoc, pure_bind, List.nil_append, List.cons_append, h0]
  refine Along.same _ fun a => Along.same _ fun b => Along.same _ fun c => Along.same _ fun d => ?_
  rw [toVTK_pointer (L := [("u_soln".toList, x.2.1), ("f_rhs".toList, x.2.2), ("alpha_fn".toList, a.2), ("beta_fn".toList, b.2),
    ("lambda_fn".toList, c.2), ("u_exact".toList, d.2)])]
  · exact Along.same (Prog.fin ((⟨d.1, A.mesh.arrays, [x.2.1, x.2.2, a.2, b.2, c.2, d.2]⟩ : Mesh ℚ).toVTK exampleNames P stack
      "elliptic".toList none h)) (f := fun z => (pure z.2 : Prog (Patch ℚ) (List (Text × Text)))) fun z => .ok rfl
  · refine followAll_live ?_
    generalize "u_soln".toList = n1
    generalize "f_rhs".toList = n2
    generalize "alpha_fn".toList = n3
    generalize "beta_fn".toList = n4
    generalize "lambda_fn".toList = n5
    generalize "u_exact".toList = n6
    simp only [Live, Vectors.alloc, Vectors.assign, List.map_cons, List.map_nil, Nat.add_assoc, Nat.reduceAdd, Nat.add_left_cancel_iff,
      Nat.left_eq_add, Nat.add_eq_left, OfNat.ofNat_ne_zero, OfNat.ofNat_ne_one, OfNat.one_ne_ofNat, one_ne_zero, if_true, if_false,
      Nat.reduceEqDiff]

/-! ## Sequences of calls -/

namespace MeshUse

/-- Name and entries of the vector at an address. -/
def read (V : Vectors) (a : Nat) : Option (Text × List ℚ) := (V.cells a).map fun x => (x.1, x.2.data)

/-- The address belongs to the function. -/
def Points (st : MeshUse) (C : List (Rect ℚ)) : Source → Nat → Prop
  | .vector i, a => st.vars[i]? = some a
  | .function fn name, a => read st.vecs a = some (name, C.map fun R => fn R.centre.1 R.centre.2) ∧ a < st.vecs.next ∧ a ∉ st.vars

/-- What holds after the calls. -/
structure Inv (r : Nat) (F : Forest) (t : Tree (Patch ℚ)) (A : MeshArrays ℚ) (l : Nat) (cs : List MeshCall) (st : MeshUse) : Prop where
  objects : ∀ i : Nat, (MeshCall.objects cs)[i]? = st.vars[i]?.map (read st.vecs)
  bound : ∀ a ∈ st.vars, a < st.vecs.next
  inj : ∀ i j a : Nat, st.vars[i]? = some a → st.vars[j]? = some a → i = j
  sources : List.Forall₂ (Points st (meshCells r F t)) (MeshCall.sources cs) st.mesh.functions
  rep : Rep r F t [] st.mesh.quadtree.map
  arrays : st.mesh.arrays = A
  live : st.vecs.live = l + (MeshCall.objects cs).countP (fun x => x.isSome) + MeshCall.sampled cs

theorem use_ok {st : MeshUse} {i : Nat} {x : Nat × Text × Vec ℚ} (h : st.use i = .ok x) :
    st.vars[i]? = some x.1 ∧ st.vecs.cells x.1 = some x.2 := by
  unfold use at h
  cases e : st.vars[i]? with
  | none => rw [e] at h; exact absurd h (by simp)
  | some a =>
    rw [e] at h
    dsimp only at h
    obtain ⟨y, h1, h2⟩ := Res.bind_eq_ok.mp h
    obtain rfl := Res.ok_inj.mp h2
    unfold follow at h1
    cases e' : st.vecs.cells a with
    | none => rw [e'] at h1; exact absurd h1 (by simp)
    | some z =>
      rw [e'] at h1
      obtain rfl := Res.ok_inj.mp h1
      exact ⟨rfl, rfl⟩

theorem objects_snoc (cs : List MeshCall) (c : MeshCall) : MeshCall.objects (cs ++ [c]) = match c with
    | .declare name v => MeshCall.objects cs ++ [some (name, v.data)]
    | .change i v => (MeshCall.objects cs).modify i (Option.map fun x => (x.1, v.data))
    | .destroy i => (MeshCall.objects cs).set i none
    | _ => MeshCall.objects cs := by
  unfold MeshCall.objects
  rw [List.foldl_append]
  cases c <;> rfl

theorem sources_snoc (cs : List MeshCall) (c : MeshCall) : MeshCall.sources (cs ++ [c]) = match c with
    | .addVector i => MeshCall.sources cs ++ [.vector i]
    | .addFunction fn name => MeshCall.sources cs ++ [.function fn name]
    | .clear => []
    | _ => MeshCall.sources cs := by
  unfold MeshCall.sources
  rw [List.foldl_append]
  cases c <;> rfl

theorem sampled_snoc (cs : List MeshCall) (c : MeshCall) : MeshCall.sampled (cs ++ [c]) = MeshCall.sampled cs + match c with
    | .addFunction _ _ => 1
    | _ => 0 := by
  unfold MeshCall.sampled
  rw [List.countP_append]
  cases c <;> rfl

/-- The functions of the mesh stay what they are while the memory they lie in does. -/
theorem points_mono {st st' : MeshUse} {C : List (Rect ℚ)} (hv : ∀ i a : Nat, st.vars[i]? = some a → st'.vars[i]? = some a)
    (hr : ∀ a, a < st.vecs.next → a ∉ st.vars → read st'.vecs a = read st.vecs a ∧ a < st'.vecs.next ∧ a ∉ st'.vars) {ss : List Source}
    {fs : List Nat} (h : List.Forall₂ (Points st C) ss fs) : List.Forall₂ (Points st' C) ss fs := by
  refine h.imp fun s a hs => ?_
  cases s with
  | vector i => exact hv i a hs
  | function fn name =>
    obtain ⟨h1, h2, h3⟩ := hs
    obtain ⟨k1, k2, k3⟩ := hr a h2 h3
    exact ⟨k1.trans h1, k2, k3⟩

theorem inv_start {r : Nat} {F : Forest} {t : Tree (Patch ℚ)} {st : MeshUse} (hr : Rep r F t [] st.mesh.quadtree.map)
    (hv : st.vars = []) (hf : st.mesh.functions = []) : Inv r F t st.mesh.arrays st.vecs.live [] st where
  objects i := by rw [hv]; rfl
  bound a ha := by rw [hv] at ha; simp at ha
  inj i j a h := by rw [hv] at h; simp at h
  sources := by rw [hf]; exact .nil
  rep := hr
  arrays := rfl
  live := rfl

theorem inv_call {P : Place} (hM : P.forest.depth ≤ P.M) (hF : P.forest.Sorted) {stack : Nat} {t : Tree (Patch ℚ)} {A : MeshArrays ℚ} {l : Nat}
    {cs : List MeshCall} {st st' : MeshUse} (h : Inv P.rank P.forest t A l cs st) {c : MeshCall} (hc : st.call P stack c = .ok st') :
    Inv P.rank P.forest t A l (cs ++ [c]) st' := by
  cases c with
  | declare name v =>
    obtain rfl := Res.ok_inj.mp hc
    have hrd : ∀ a, a < st.vecs.next → read (st.vecs.alloc (name, v)).1 a = read st.vecs a := by
      intro a ha
      unfold read Vectors.alloc
      dsimp only
      rw [if_neg (by omega)]
    have hlen : (MeshCall.objects cs).length = st.vars.length := by
      have h1 := h.objects
      apply le_antisymm
      · have := h1 st.vars.length
        rw [List.getElem?_eq_none (le_refl _)] at this
        exact List.getElem?_eq_none_iff.mp this
      · have := h1 (MeshCall.objects cs).length
        rw [List.getElem?_eq_none (le_refl _)] at this
        have h2 : st.vars[(MeshCall.objects cs).length]? = none := by
          cases e : st.vars[(MeshCall.objects cs).length]? with
          | none => rfl
          | some a => rw [e] at this; simp at this
        exact List.getElem?_eq_none_iff.mp h2
    refine ⟨fun i => ?_, fun a ha => ?_, fun i j a hi hj => ?_, ?_, h.rep, h.arrays, ?_⟩
    · rw [objects_snoc]
      dsimp only
      rcases Nat.lt_trichotomy i st.vars.length with hi | hi | hi
      · rw [List.getElem?_append_left (by omega), List.getElem?_append_left hi, h.objects i, List.getElem?_eq_getElem hi]
        exact congrArg some (hrd _ (h.bound _ (List.getElem_mem hi))).symm
      · rw [List.getElem?_append_right (by omega), List.getElem?_append_right (by omega), hi, hlen]
        simp [read, Vectors.alloc]
      · rw [List.getElem?_eq_none (by simp; omega), List.getElem?_eq_none (by simp; omega)]
        rfl
    · simp only [List.mem_append, List.mem_singleton] at ha
      show a < st.vecs.next + 1
      rcases ha with ha | rfl
      · have := h.bound a ha
        omega
      · exact Nat.lt_succ_self _
    · have key : ∀ {i a : Nat}, (st.vars ++ [st.vecs.next])[i]? = some a → (st.vars[i]? = some a ∧ a < st.vecs.next) ∨
          (i = st.vars.length ∧ a = st.vecs.next) := by
        intro i a hi
        rcases Nat.lt_trichotomy i st.vars.length with h1 | h1 | h1
        · rw [List.getElem?_append_left h1] at hi
          exact .inl ⟨hi, h.bound a (List.mem_of_getElem? hi)⟩
        · rw [List.getElem?_append_right (by omega), h1, Nat.sub_self] at hi
          exact .inr ⟨h1, (Option.some.inj hi).symm⟩
        · rw [List.getElem?_eq_none (by simp; omega)] at hi
          simp at hi
      rcases key hi with ⟨h1, h2⟩ | ⟨h1, h2⟩ <;> rcases key hj with ⟨h3, h4⟩ | ⟨h3, h4⟩
      · exact h.inj i j a h1 h3
      · omega
      · omega
      · omega
    · rw [sources_snoc]
      refine points_mono (st := st) (fun i a hi => ?_) (fun a ha hn => ?_) h.sources
      · dsimp only
        rw [List.getElem?_append_left (by
          by_contra hlt
          rw [List.getElem?_eq_none (by omega)] at hi
          simp at hi)]
        exact hi
      · refine ⟨hrd a ha, Nat.lt_succ_of_lt ha, ?_⟩
        simp only [List.mem_append, List.mem_singleton, not_or]
        exact ⟨hn, by show a ≠ st.vecs.next; omega⟩
    · show (st.vecs.alloc (name, v)).1.live = _
      rw [objects_snoc, sampled_snoc, Vectors.live_alloc, h.live]
      simp only [List.countP_append, List.countP_cons, List.countP_nil, Option.isSome_some, if_true]
      omega
  | change i v =>
    obtain ⟨x, hx, hc⟩ := Res.bind_eq_ok.mp hc
    obtain rfl := Res.ok_inj.mp hc
    obtain ⟨h1, h2⟩ := use_ok hx
    have hrd : ∀ a, a ≠ x.1 → read (st.vecs.assign x.1 (x.2.1, v)) a = read st.vecs a := by
      intro a ha
      unfold read Vectors.assign
      dsimp only
      rw [if_neg ha]
    have hrx : read (st.vecs.assign x.1 (x.2.1, v)) x.1 = some (x.2.1, v.data) := by
      simp [read, Vectors.assign]
    refine ⟨fun j => ?_, h.bound, h.inj, ?_, h.rep, h.arrays, ?_⟩
    · rw [objects_snoc]
      dsimp only
      rw [List.getElem?_modify, h.objects j]
      cases e : st.vars[j]? with
      | none => rfl
      | some a =>
        dsimp only [Option.map_some]
        by_cases hj : i = j
        · subst hj
          rw [h1] at e
          obtain rfl := Option.some.inj e
          rw [hrx]
          simp [read, h2]
        · have : a ≠ x.1 := fun e' => hj (h.inj i j a (e' ▸ h1) e)
          rw [hrd a this]
          simp [hj]
    · rw [sources_snoc]
      have hx1 : x.1 ∈ st.vars := List.mem_of_getElem? h1
      exact points_mono (st := st) (st' := { st with vecs := st.vecs.assign x.1 (x.2.1, v) }) (fun i a hi => hi)
        (fun a ha hn => ⟨hrd a fun e => hn (by rw [e]; exact hx1), ha, hn⟩) h.sources
    · show (st.vecs.assign x.1 (x.2.1, v)).live = _
      rw [objects_snoc, sampled_snoc, Vectors.live_assign _ _ (by rw [h2]; rfl), h.live]
      dsimp only
      have e : ∀ (f : Option (Text × List ℚ) → Option (Text × List ℚ)), (∀ o, (f o).isSome = o.isSome) → ∀ (os : List (Option (Text × List ℚ))) (k : Nat),
          (os.modify k f).countP (fun x => x.isSome) = os.countP (fun x => x.isSome) := by
        intro f hf os
        induction os with
        | nil => intro k; simp
        | cons o os ih =>
          intro k
          cases k with
          | zero => simp [List.countP_cons, hf]
          | succ k => simp [List.countP_cons, ih]
      rw [e _ (fun o => by cases o <;> rfl), Nat.add_zero]
  | destroy i =>
    obtain ⟨x, hx, hc⟩ := Res.bind_eq_ok.mp hc
    obtain rfl := Res.ok_inj.mp hc
    obtain ⟨h1, h2⟩ := use_ok hx
    have hrd : ∀ a, a ≠ x.1 → read (st.vecs.kill x.1) a = read st.vecs a := by
      intro a ha
      unfold read Vectors.kill
      dsimp only
      rw [if_neg ha]
    have hrx : read (st.vecs.kill x.1) x.1 = none := by
      simp [read, Vectors.kill]
    have hi : (MeshCall.objects cs)[i]? = some (some (x.2.1, x.2.2.data)) := by
      rw [h.objects i, h1]
      simp [read, h2]
    refine ⟨fun j => ?_, h.bound, h.inj, ?_, h.rep, h.arrays, ?_⟩
    · rw [objects_snoc]
      dsimp only
      by_cases hj : i = j
      · subst hj
        rw [List.getElem?_set_self (by
          by_contra hlt
          rw [List.getElem?_eq_none (by omega)] at hi
          simp at hi), h1]
        simp [hrx]
      · rw [List.getElem?_set_ne hj, h.objects j]
        cases e : st.vars[j]? with
        | none => rfl
        | some a =>
          have : a ≠ x.1 := fun e' => hj (h.inj i j a (e' ▸ h1) e)
          exact congrArg some (hrd a this).symm
    · rw [sources_snoc]
      have hx1 : x.1 ∈ st.vars := List.mem_of_getElem? h1
      exact points_mono (st := st) (st' := { st with vecs := st.vecs.kill x.1 }) (fun i a hi => hi)
        (fun a ha hn => ⟨hrd a fun e => hn (by rw [e]; exact hx1), ha, hn⟩) h.sources
    · show (st.vecs.kill x.1).live = _
      have hk := Vectors.live_kill st.vecs (a := x.1) (h.bound _ (List.mem_of_getElem? h1)) (by rw [h2]; rfl)
      have e : ∀ (os : List (Option (Text × List ℚ))) (k : Nat) (y : Text × List ℚ), os[k]? = some (some y) →
          (os.set k none).countP (fun x => x.isSome) + 1 = os.countP (fun x => x.isSome) := by
        intro os
        induction os with
        | nil => intro k y hy; simp at hy
        | cons o os ih =>
          intro k y hy
          cases k with
          | zero =>
            simp only [List.getElem?_cons_zero, Option.some.injEq] at hy
            subst hy
            simp [List.countP_cons]
          | succ k =>
            have := ih k y (by simpa using hy)
            simp only [List.set_cons_succ, List.countP_cons]
            omega
      have he := e _ i _ hi
      have hl := h.live
      rw [objects_snoc, sampled_snoc]
      dsimp only
      omega
  | addVector i =>
    obtain ⟨x, hx, hc⟩ := Res.bind_eq_ok.mp hc
    obtain rfl := Res.ok_inj.mp hc
    obtain ⟨h1, h2⟩ := use_ok hx
    refine ⟨by rw [objects_snoc]; exact h.objects, h.bound, h.inj, ?_, h.rep, h.arrays, by rw [objects_snoc, sampled_snoc]; exact h.live⟩
    rw [sources_snoc]
    exact List.rel_append (R := Points _ _) (points_mono (st := st) (fun i a hi => hi) (fun a ha hn => ⟨rfl, ha, hn⟩) h.sources) (.cons h1 .nil)
  | addFunction fn name =>
    obtain ⟨x, hx, hc⟩ := Res.bind_eq_ok.mp hc
    obtain rfl := Res.ok_inj.mp hc
    obtain ⟨q, k1, k2, -⟩ := addMeshFunction_eq hM hF (m := st.mesh.bare) h.rep fn
    have e1 : sampleCells P.M P.rank P.forest fn st.mesh.quadtree st.mesh.arrays =
        .ok (q, Vec.ofList ((meshCells P.rank P.forest t).map fun R => fn R.centre.1 R.centre.2)) := by
      have e2 := addMeshFunction_value P.M P.rank P.forest fn st.mesh.quadtree st.mesh.arrays []
      rw [show (⟨st.mesh.quadtree, st.mesh.arrays, []⟩ : Mesh ℚ) = st.mesh.bare from rfl, k1] at e2
      obtain ⟨y, y1, y2⟩ := Res.bind_eq_ok.mp e2.symm
      have y3 := Res.ok_inj.mp y2
      injection y3 with z1 z2 z3
      rw [y1]
      have z4 : y.2 = Vec.ofList ((meshCells P.rank P.forest t).map fun R => fn R.centre.1 R.centre.2) := by
        simpa [PMesh.bare] using z3
      exact congrArg _ (Prod.ext z1 z4)
    have e3 := addMeshFunction_pointer P.M P.rank P.forest fn name st.mesh.quadtree st.mesh.arrays st.mesh.functions st.vecs
    rw [e1, Res.ok_bind] at e3
    have e4 := Res.ok_inj.mp (hx.symm.trans e3)
    subst e4
    have hrd : ∀ v a, a < st.vecs.next → read (st.vecs.alloc (name, v)).1 a = read st.vecs a := by
      intro v a ha
      unfold read Vectors.alloc
      dsimp only
      rw [if_neg (by omega)]
    have hnot : st.vecs.next ∉ st.vars := fun hm => Nat.lt_irrefl _ (h.bound _ hm)
    refine ⟨fun i => ?_, fun a ha => Nat.lt_succ_of_lt (h.bound a ha), h.inj, ?_, k2, h.arrays, ?_⟩
    · rw [objects_snoc]
      dsimp only
      rw [h.objects i]
      cases e : st.vars[i]? with
      | none => rfl
      | some a => exact congrArg some (hrd _ a (h.bound a (List.mem_of_getElem? e))).symm
    · rw [sources_snoc]
      let w := Vec.ofList ((meshCells P.rank P.forest t).map fun R => fn R.centre.1 R.centre.2)
      let st' : MeshUse := { st with
        mesh := ⟨q, st.mesh.arrays, st.mesh.functions ++ [st.vecs.next]⟩
        vecs := (st.vecs.alloc (name, w)).1 }
      have p1 : Points st' (meshCells P.rank P.forest t) (.function fn name) st.vecs.next := by
        refine ⟨?_, Nat.lt_succ_self _, hnot⟩
        simp [st', w, read, Vectors.alloc, Vec.ofList]
      exact List.rel_append (R := Points st' (meshCells P.rank P.forest t)) (points_mono (st := st) (st' := st') (fun i a hi => hi)
        (fun a ha hn => ⟨hrd _ a ha, Nat.lt_succ_of_lt ha, hn⟩) h.sources) (.cons p1 .nil)
    · show (st.vecs.alloc _).1.live = _
      rw [objects_snoc, sampled_snoc, Vectors.live_alloc, h.live]
      dsimp only
      omega
  | clear =>
    obtain rfl := Res.ok_inj.mp hc
    exact ⟨by rw [objects_snoc]; exact h.objects, h.bound, h.inj, by rw [sources_snoc]; exact .nil, h.rep, h.arrays,
      by rw [objects_snoc, sampled_snoc]; exact h.live⟩
  | write base number =>
    obtain ⟨x, hx, hc⟩ := Res.bind_eq_ok.mp hc
    obtain rfl := Res.ok_inj.mp hc
    exact ⟨by rw [objects_snoc]; exact h.objects, h.bound, h.inj, by
      rw [sources_snoc]
      exact points_mono (st := st) (fun i a hi => hi) (fun a ha hn => ⟨rfl, ha, hn⟩) h.sources, h.rep, h.arrays,
      by rw [objects_snoc, sampled_snoc]; exact h.live⟩

theorem inv_calls {P : Place} (hM : P.forest.depth ≤ P.M) (hF : P.forest.Sorted) {stack : Nat} {t : Tree (Patch ℚ)} {A : MeshArrays ℚ} {l : Nat}
    (cs : List MeshCall) {ds : List MeshCall} {st st' : MeshUse} (h : Inv P.rank P.forest t A l ds st) (hc : calls P stack cs st = .ok st') :
    Inv P.rank P.forest t A l (ds ++ cs) st' := by
  induction cs generalizing ds st with
  | nil =>
    obtain rfl := Res.ok_inj.mp hc
    simpa using h
  | cons c cs ih =>
    unfold calls at hc
    rw [List.foldlM_cons] at hc
    obtain ⟨st1, h1, h2⟩ := Res.bind_eq_ok.mp hc
    have := ih (inv_call hM hF h h1) h2
    rwa [List.append_assoc, List.singleton_append] at this

/-- Following the pointers gives what the calls say. -/
theorem Inv.followed {r : Nat} {F : Forest} {t : Tree (Patch ℚ)} {A : MeshArrays ℚ} {l : Nat} {cs : List MeshCall} {st : MeshUse}
    (h : Inv r F t A l cs st) :
    (MeshCall.shown (meshCells r F t) cs = none ∧ followAll st.vecs.cells st.mesh.functions = .ub) ∨
    ∃ L, MeshCall.shown (meshCells r F t) cs = some (L.map fun p => (p.1, p.2.data)) ∧ followAll st.vecs.cells st.mesh.functions = .ok L := by
  unfold MeshCall.shown
  have hs := h.sources
  generalize MeshCall.sources cs = ss at hs ⊢
  generalize st.mesh.functions = fs at hs ⊢
  induction hs with
  | nil => exact .inr ⟨[], rfl, rfl⟩
  | @cons s a ss fs hp _ ih =>
    have e : Source.shows (MeshCall.objects cs) (meshCells r F t) s = read st.vecs a := by
      cases s with
      | vector i =>
        show (MeshCall.objects cs)[i]?.join = _
        rw [h.objects i, show st.vars[i]? = some a from hp]
        rfl
      | function fn name => exact hp.1.symm
    rw [List.mapM_cons, e, followAll]
    unfold EF.follow read
    cases st.vecs.cells a with
    | none => exact .inl ⟨rfl, rfl⟩
    | some x =>
      rcases ih with ⟨i1, i2⟩ | ⟨L, i1, i2⟩
      · left
        rw [i1]
        refine ⟨rfl, ?_⟩
        show (followAll st.vecs.cells fs >>= _) = _
        rw [i2]
        rfl
      · right
        refine ⟨x :: L, ?_, ?_⟩
        · rw [i1]
          rfl
        · show (followAll st.vecs.cells fs >>= _) = _
          rw [i2]
          rfl

end MeshUse
end EF
