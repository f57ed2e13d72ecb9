import Verif.Proofs.VTK

/-!
# Sessions of the VTK writers
-/

namespace EF

theorem follow_some {α : Type} {store : Nat → Option α} {a : Nat} {x : α} (h : store a = some x) :
    follow store a = .ok x := by
  unfold follow
  rw [h]
  rfl

theorem followAll_live {α : Type} {store : Nat → Option α} :
    ∀ {as : List Nat} {xs : List α}, Live store as xs → followAll store as = .ok xs
  | [], [], _ => rfl
  | [], x :: xs, h => by cases h
  | a :: as, [], h => by cases h
  | a :: as, x :: xs, h => by
    have h1 := (List.cons.inj h).1
    have h2 := (List.cons.inj h).2
    rw [followAll, follow_some h1]
    show (followAll store as >>= _) = _
    rw [followAll_live h2]
    rfl

theorem followAll_cases {α : Type} (store : Nat → Option α) :
    ∀ as : List Nat, followAll store as = .ub ∨ ∃ xs, followAll store as = .ok xs
  | [] => Or.inr ⟨[], rfl⟩
  | a :: as => by
    rw [followAll, follow]
    cases store a with
    | none => exact Or.inl rfl
    | some x =>
      show (followAll store as >>= _) = _ ∨ ∃ xs, (followAll store as >>= _) = _
      rcases followAll_cases store as with h | ⟨xs, h⟩
      · rw [h]; exact Or.inl rfl
      · rw [h]; exact Or.inr ⟨x :: xs, rfl⟩

theorem followAll_gone {α : Type} (store : Nat → Option α) {a : Nat} (h : store a = none) :
    ∀ {as : List Nat}, a ∈ as → followAll store as = .ub
  | b :: as, hm => by
    rw [followAll, follow]
    cases hb : store b with
    | none => rfl
    | some x =>
      show (followAll store as >>= _) = _
      rcases List.mem_cons.1 hm with rfl | hm
      · rw [h] at hb; cases hb
      · rw [followAll_gone store h hm]; rfl

theorem followCoords_live {o : Objects} :
    ∀ {as : List (Option Nat)} {xs : List DataArr}, LiveCoords o as xs → followCoords o as = .ok xs
  | [], [], _ => rfl
  | [], x :: xs, h => by cases h
  | a :: as, [], h => by cases h
  | none :: as, x :: xs, h => by
    have h1 := (List.cons.inj h).1
    have h2 := (List.cons.inj h).2
    rw [followCoords, followCoords_live h2, Option.some.inj h1]
    rfl
  | some a :: as, x :: xs, h => by
    have h1 := (List.cons.inj h).1
    have h2 := (List.cons.inj h).2
    rw [followCoords, follow_some h1]
    show (followCoords o as >>= _) = _
    rw [followCoords_live h2]
    rfl

theorem UWriter.calls_root (calls : List UCall) (w : UWriter) : (calls.foldl UWriter.call w).root = w.root := by
  induction calls generalizing w with
  | nil => rfl
  | cons c cs ih => rw [List.foldl_cons, ih]; cases c <;> rfl

theorem UWriter.calls_points (calls : List UCall) (w : UWriter) :
    (calls.foldl UWriter.call w).pointData = w.pointData ++ UCall.points calls := by
  induction calls generalizing w with
  | nil => simp [UCall.points]
  | cons c cs ih => rw [List.foldl_cons, ih]; cases c <;> simp [UWriter.call, UCall.points]

theorem UWriter.calls_cells (calls : List UCall) (w : UWriter) :
    (calls.foldl UWriter.call w).cellData = w.cellData ++ UCall.cells calls := by
  induction calls generalizing w with
  | nil => simp [UCall.cells]
  | cons c cs ih => rw [List.foldl_cons, ih]; cases c <;> simp [UWriter.call, UCall.cells]

theorem UWriter.calls_mesh (calls : List UCall) (w : UWriter) :
    (calls.foldl UWriter.call w).mesh = (UCall.meshes calls).getLast?.or w.mesh := by
  induction calls generalizing w with
  | nil => rfl
  | cons c cs ih =>
    rw [List.foldl_cons, ih]
    cases c with
    | buildMesh m =>
      simp only [UWriter.call, UCall.meshes, List.getLast?_cons]
      cases (UCall.meshes cs).getLast? <;> rfl
    | _ => rfl

theorem UWriter.toVTK_calls {w : UWriter} (calls : List UCall) (o : Objects) {r : Nat}
    (hr : (UCall.meshes calls).getLast? = some r) {stack : Nat} {h : Heap} :
    (calls.foldl UWriter.call w).toVTK o stack h =
      ((calls.foldl UWriter.call w).see o r >>= fun g => g.toVTK stack h) := by
  unfold UWriter.toVTK
  rw [UWriter.calls_mesh, hr]
  rfl

theorem UWriter.see_ok {w : UWriter} (calls : List UCall) (o : Objects) {r : Nat} {m : UMesh}
    (hm : o.umesh r = some m) {pd cd : List DataArr} (hpd : Live o.arr (UCall.points calls) pd)
    (hcd : Live o.arr (UCall.cells calls) cd) (h1 : w.pointData = []) (h2 : w.cellData = []) :
    (calls.foldl UWriter.call w).see o r = .ok ⟨w.root, some m, pd, cd⟩ := by
  unfold UWriter.see
  rw [follow_some hm, UWriter.calls_root, UWriter.calls_points, UWriter.calls_cells, h1, h2]
  show (followAll _ (UCall.cells calls) >>= _) = _
  rw [followAll_live hcd]
  show (followAll _ (UCall.points calls) >>= _) = _
  rw [followAll_live hpd]
  rfl

theorem UWriter.fresh {h0 h : Heap} {w : UWriter} (hnew : UWriter.new h0 = (h, w)) (m : UMesh)
    (pd cd : List DataArr) (ha : ∀ a ∈ m.arrays ++ pd ++ cd, a.range.isSome) :
    UGrid.Fresh ⟨w.root, some m, pd, cd⟩ m h := by
  obtain ⟨rfl, rfl⟩ := Prod.mk.inj hnew
  exact ⟨rfl, if_pos rfl, Nat.lt_succ_self _, ha⟩

theorem PWriter.calls (calls : List UCall) (w : PWriter) :
    calls.foldl PWriter.call w = ⟨w.root, calls.foldl UWriter.call w.vtu⟩ := by
  induction calls generalizing w with
  | nil => rfl
  | cons c cs ih => rw [List.foldl_cons, ih]; rfl

theorem PWriter.toVTK_calls {w : PWriter} (calls : List UCall) (o : Objects) {r : Nat}
    (hr : (UCall.meshes calls).getLast? = some r) {rank size stack : Nat} {base : Text} {h : Heap} :
    (calls.foldl PWriter.call w).toVTK o rank size stack base h =
      ((calls.foldl UWriter.call w.vtu).see o r >>= fun g => PGrid.toVTK ⟨w.root, g⟩ rank size stack base h) := by
  unfold PWriter.toVTK
  rw [PWriter.calls, UWriter.calls_mesh, hr]
  rfl

theorem PWriter.fresh {h0 h : Heap} {w : PWriter} (hnew : PWriter.new h0 = (h, w)) (m : UMesh)
    (pd cd : List DataArr) (ha : ∀ a ∈ m.arrays ++ pd ++ cd, a.range.isSome) :
    PGrid.Fresh ⟨w.root, ⟨w.vtu.root, some m, pd, cd⟩⟩ m h := by
  obtain ⟨rfl, rfl⟩ := Prod.mk.inj hnew
  refine ⟨⟨rfl, ?_, Nat.lt_succ_of_lt (Nat.lt_succ_self _), ha⟩, if_pos rfl, Nat.lt_succ_self _,
    Nat.succ_ne_self _⟩
  exact (if_neg (Nat.ne_of_lt (Nat.lt_succ_self _))).trans (if_pos rfl)

theorem RWriter.calls_root (calls : List RCall) (w : RWriter) : (calls.foldl RWriter.call w).root = w.root := by
  induction calls generalizing w with
  | nil => rfl
  | cons c cs ih => rw [List.foldl_cons, ih]; cases c <;> rfl

theorem RWriter.calls_points (calls : List RCall) (w : RWriter) :
    (calls.foldl RWriter.call w).pointData = w.pointData ++ RCall.points calls := by
  induction calls generalizing w with
  | nil => simp [RCall.points]
  | cons c cs ih => rw [List.foldl_cons, ih]; cases c <;> simp [RWriter.call, RCall.points]

theorem RWriter.calls_cells (calls : List RCall) (w : RWriter) :
    (calls.foldl RWriter.call w).cellData = w.cellData ++ RCall.cells calls := by
  induction calls generalizing w with
  | nil => simp [RCall.cells]
  | cons c cs ih => rw [List.foldl_cons, ih]; cases c <;> simp [RWriter.call, RCall.cells]

theorem RWriter.calls_coords (calls : List RCall) (w : RWriter) :
    (calls.foldl RWriter.call w).coords = w.coords ++ ((RCall.meshes calls).map Prod.snd).flatten := by
  induction calls generalizing w with
  | nil => simp [RCall.meshes]
  | cons c cs ih => rw [List.foldl_cons, ih]; cases c <;> simp [RWriter.call, RCall.meshes]

theorem RWriter.calls_mesh (calls : List RCall) (w : RWriter) :
    (calls.foldl RWriter.call w).mesh = ((RCall.meshes calls).map Prod.fst).getLast?.or w.mesh := by
  induction calls generalizing w with
  | nil => rfl
  | cons c cs ih =>
    rw [List.foldl_cons, ih]
    cases c with
    | buildMesh m =>
      simp only [RWriter.call, RCall.meshes, List.map_cons, List.getLast?_cons]
      cases ((RCall.meshes cs).map Prod.fst).getLast? <;> rfl
    | _ => rfl

theorem RWriter.toVTK_calls {w : RWriter} (calls : List RCall) (o : Objects) {r : Nat}
    (hr : ((RCall.meshes calls).map Prod.fst).getLast? = some r) {whole extent : Text}
    (hm : o.rmesh r = some (whole, extent)) {co pd cd : List DataArr}
    (hco : LiveCoords o ((RCall.meshes calls).map Prod.snd).flatten co)
    (hpd : Live o.arr (RCall.points calls) pd) (hcd : Live o.arr (RCall.cells calls) cd)
    (h0 : w.coords = []) (h1 : w.pointData = [] ∧ w.cellData = []) {stack : Nat} {h : Heap} :
    (calls.foldl RWriter.call w).toVTK o stack h =
      RGrid.toVTK ⟨w.root, some (whole, extent), co, pd, cd⟩ stack h := by
  unfold RWriter.toVTK
  rw [RWriter.calls_mesh, hr, RWriter.calls_root, RWriter.calls_points, RWriter.calls_cells,
    RWriter.calls_coords, h0, h1.1, h1.2]
  show (follow o.rmesh r >>= _) = _
  rw [follow_some hm]
  show (followAll _ (RCall.cells calls) >>= _) = _
  rw [followAll_live hcd]
  show (followAll _ (RCall.points calls) >>= _) = _
  rw [followAll_live hpd]
  show (followCoords o ([] ++ _) >>= _) = _
  rw [List.nil_append, followCoords_live hco]
  rfl

theorem RWriter.fresh {h0 h : Heap} {w : RWriter} (hnew : RWriter.new h0 = (h, w)) (whole extent : Text)
    (co pd cd : List DataArr) (ha : ∀ a ∈ co ++ pd ++ cd, a.range.isSome) :
    RGrid.Fresh ⟨w.root, some (whole, extent), co, pd, cd⟩ whole extent h := by
  obtain ⟨rfl, rfl⟩ := Prod.mk.inj hnew
  exact ⟨rfl, if_pos rfl, Nat.lt_succ_self _, ha⟩

theorem RCall.meshes_three (calls : List RCall) : ∀ p ∈ RCall.meshes calls, p.2.length = 3 := by
  induction calls with
  | nil => intro p hp; cases hp
  | cons c cs ih =>
    cases c with
    | buildMesh m x y z =>
      intro p hp
      rcases List.mem_cons.1 hp with rfl | hp
      · rfl
      · exact ih p hp
    | _ => exact ih

theorem flatten_three {α : Type} : ∀ l : List (Nat × List α), (∀ p ∈ l, p.2.length = 3) →
    (l.map Prod.snd).flatten.length = 3 * l.length
  | [], _ => rfl
  | p :: l, h => by
    have := flatten_three l (fun q hq => h q (by simp [hq]))
    have := h p (by simp)
    simp only [List.map_cons, List.flatten_cons, List.length_append, List.length_cons]
    omega

/-- The number of coordinates can be seen in the document. -/
theorem coords_of_doc {whole extent : Text} {co co' pd cd : List DataArr}
    (h : (rectilinearDoc whole extent co pd cd).trimmed = (rectilinearDoc whole extent co' pd cd).trimmed) :
    co.length = co'.length := by
  have := congrArg (fun t : XTree => t.children.flatMap (fun g => g.children.flatMap (fun p =>
    (p.children.getLast?.map (fun c => c.children.length)).toList))) h
  simpa [rectilinearDoc, fileElement, XTree.trimmed, XTree.children] using this

end EF
