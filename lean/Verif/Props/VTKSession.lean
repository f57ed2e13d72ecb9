import Verif.Proofs.VTKSession

/-!
# C55: A VTK file describes what its writer was given

True for unstructured writers and for parallel ones.  For rectilinear writers it is false:
`C55_rectilinear_wrong`.  A second mesh replaces the first, but its coordinates are written after those of
the first.
-/

namespace EF

/-- An unstructured writer writes the last mesh it was given and all data arrays in the order they were
added, as they are when the file is written. -/
theorem C55_unstructured (calls : List UCall) (o : Objects) (h h0 : Heap) (w : UWriter)
    (hnew : UWriter.new h0 = (h, w)) (r : Nat) (hr : (UCall.meshes calls).getLast? = some r)
    (m : UMesh) (hm : o.umesh r = some m) (pd cd : List DataArr)
    (hpd : Live o.arr (UCall.points calls) pd) (hcd : Live o.arr (UCall.cells calls) cd)
    (hc : m.Clean) (ha : Writable (m.arrays ++ pd ++ cd)) (stack : Nat) (hs : 5 ≤ stack) :
    ∃ h' text, (calls.foldl UWriter.call w).toVTK o stack h = .ok (h', text) ∧
      readXML text = some (unstructuredDoc m pd cd).trimmed := by
  have hw := UWriter.fresh hnew m pd cd (fun a h => (ha a h).1)
  obtain ⟨h', e, _⟩ := hw.run hs
  refine ⟨h', _, ?_, readXML_text _ (unstructuredDoc_legal hc.npoints hc.ncells hc.arrays
    (fun a h => (ha a (by simp [h])).2) (fun a h => (ha a (by simp [h])).2))⟩
  rw [UWriter.toVTK_calls calls o hr, UWriter.see_ok calls o hm hpd hcd (by obtain ⟨rfl, rfl⟩ := Prod.mk.inj hnew; rfl)
    (by obtain ⟨rfl, rfl⟩ := Prod.mk.inj hnew; rfl)]
  exact e

/-- The same for the piece of a rank written by a parallel writer. -/
theorem C55_parallel (calls : List UCall) (o : Objects) (h h0 : Heap) (w : PWriter)
    (hnew : PWriter.new h0 = (h, w)) (r : Nat) (hr : (UCall.meshes calls).getLast? = some r)
    (m : UMesh) (hm : o.umesh r = some m) (pd cd : List DataArr)
    (hpd : Live o.arr (UCall.points calls) pd) (hcd : Live o.arr (UCall.cells calls) cd)
    (hc : m.Clean) (ha : Writable (m.arrays ++ pd ++ cd)) (rank size stack : Nat) (hs : 5 ≤ stack)
    (base : Text) (hb : '%' ∉ base) :
    ∃ h' name text more, (calls.foldl PWriter.call w).toVTK o rank size stack base h =
        .ok (h', (name, text) :: more) ∧
      readXML text = some (unstructuredDoc m pd cd).trimmed := by
  have hw := PWriter.fresh hnew m pd cd (fun a h => (ha a h).1)
  obtain ⟨h', e, _⟩ := hw.run hb rank size hs
  refine ⟨h', _, _, _, Eq.trans ?_ e, readXML_text _ (unstructuredDoc_legal hc.npoints hc.ncells hc.arrays
    (fun a h => (ha a (by simp [h])).2) (fun a h => (ha a (by simp [h])).2))⟩
  rw [PWriter.toVTK_calls calls o hr, UWriter.see_ok calls o hm hpd hcd (by obtain ⟨rfl, rfl⟩ := Prod.mk.inj hnew; rfl)
    (by obtain ⟨rfl, rfl⟩ := Prod.mk.inj hnew; rfl)]
  rfl

/-- A rectilinear writer that was given one mesh writes it, with its coordinates and all data. -/
theorem C55_rectilinear_partial (calls : List RCall) (o : Objects) (h h0 : Heap) (w : RWriter)
    (hnew : RWriter.new h0 = (h, w)) (r : Nat) (x y z : Option Nat)
    (hr : RCall.meshes calls = [(r, [x, y, z])]) (whole extent : Text) (hm : o.rmesh r = some (whole, extent))
    (co pd cd : List DataArr) (hco : LiveCoords o [x, y, z] co)
    (hpd : Live o.arr (RCall.points calls) pd) (hcd : Live o.arr (RCall.cells calls) cd)
    (hx : Plain whole) (hy : Plain extent) (ha : Writable (co ++ pd ++ cd)) (stack : Nat) (hs : 5 ≤ stack) :
    ∃ h' text, (calls.foldl RWriter.call w).toVTK o stack h = .ok (h', text) ∧
      readXML text = some (rectilinearDoc whole extent co pd cd).trimmed := by
  have hw := RWriter.fresh hnew whole extent co pd cd (fun a h => (ha a h).1)
  obtain ⟨h', e, _⟩ := hw.run hs
  refine ⟨h', _, ?_, readXML_text _ (rectilinearDoc_legal hx hy (fun a h => (ha a (by simp [h])).2)
    (fun a h => (ha a (by simp [h])).2) (fun a h => (ha a (by simp [h])).2))⟩
  rw [RWriter.toVTK_calls calls o (r := r) (by rw [hr]; rfl) hm (by rw [hr]; exact hco) hpd hcd
    (by obtain ⟨rfl, rfl⟩ := Prod.mk.inj hnew; rfl)
    (by obtain ⟨rfl, rfl⟩ := Prod.mk.inj hnew; exact ⟨rfl, rfl⟩)]
  exact e

/-- A rectilinear writer that was given several meshes writes the last one with the coordinates of all. -/
theorem C55_rectilinear_actual (calls : List RCall) (o : Objects) (h h0 : Heap) (w : RWriter)
    (hnew : RWriter.new h0 = (h, w)) (r : Nat) (last : List (Option Nat))
    (hr : (RCall.meshes calls).getLast? = some (r, last)) (whole extent : Text)
    (hm : o.rmesh r = some (whole, extent)) (co pd cd : List DataArr)
    (hco : LiveCoords o ((RCall.meshes calls).map Prod.snd).flatten co)
    (hpd : Live o.arr (RCall.points calls) pd) (hcd : Live o.arr (RCall.cells calls) cd)
    (hx : Plain whole) (hy : Plain extent) (ha : Writable (co ++ pd ++ cd)) (stack : Nat) (hs : 5 ≤ stack) :
    ∃ h' text, (calls.foldl RWriter.call w).toVTK o stack h = .ok (h', text) ∧
      readXML text = some (rectilinearDoc whole extent co pd cd).trimmed := by
  have hw := RWriter.fresh hnew whole extent co pd cd (fun a h => (ha a h).1)
  obtain ⟨h', e, _⟩ := hw.run hs
  refine ⟨h', _, ?_, readXML_text _ (rectilinearDoc_legal hx hy (fun a h => (ha a (by simp [h])).2)
    (fun a h => (ha a (by simp [h])).2) (fun a h => (ha a (by simp [h])).2))⟩
  rw [RWriter.toVTK_calls calls o (r := r) (by rw [List.getLast?_map, hr]; rfl) hm hco hpd hcd
    (by obtain ⟨rfl, rfl⟩ := Prod.mk.inj hnew; rfl)
    (by obtain ⟨rfl, rfl⟩ := Prod.mk.inj hnew; exact ⟨rfl, rfl⟩)]
  exact e

/-- So its file is never the document of the last mesh when there were two or more. -/
theorem C55_rectilinear_wrong (calls : List RCall) (o : Objects) (h h0 : Heap) (w : RWriter)
    (hnew : RWriter.new h0 = (h, w)) (r : Nat) (last : List (Option Nat))
    (hr : (RCall.meshes calls).getLast? = some (r, last)) (h2 : 2 ≤ (RCall.meshes calls).length)
    (whole extent : Text) (hm : o.rmesh r = some (whole, extent)) (co pd cd lastCo : List DataArr)
    (hco : LiveCoords o ((RCall.meshes calls).map Prod.snd).flatten co) (hlast : LiveCoords o last lastCo)
    (hpd : Live o.arr (RCall.points calls) pd) (hcd : Live o.arr (RCall.cells calls) cd)
    (hx : Plain whole) (hy : Plain extent) (ha : Writable (co ++ pd ++ cd)) (stack : Nat) (hs : 5 ≤ stack) :
    ∃ h' text, (calls.foldl RWriter.call w).toVTK o stack h = .ok (h', text) ∧
      readXML text ≠ some (rectilinearDoc whole extent lastCo pd cd).trimmed := by
  obtain ⟨h', text, e, hread⟩ := C55_rectilinear_actual calls o h h0 w hnew r last hr whole extent hm co pd cd
    hco hpd hcd hx hy ha stack hs
  refine ⟨h', text, e, ?_⟩
  rw [hread]
  intro hc
  have hl := coords_of_doc (Option.some.inj hc)
  have h1 : lastCo.length = last.length := by
    have := congrArg List.length hlast
    simpa [LiveCoords] using this.symm
  have h3 : co.length = ((RCall.meshes calls).map Prod.snd).flatten.length := by
    have := congrArg List.length hco
    rw [List.length_map, List.length_map] at this
    exact this.symm
  have h4 := RCall.meshes_three calls
  have h5 : last.length = 3 := h4 _ (List.mem_of_getLast? hr)
  have h6 := flatten_three _ h4
  omega

/-- Without a mesh nothing is written, whatever data were added. -/
theorem C55_incomplete (calls : List UCall) (rcalls : List RCall) (h : Heap) (o : Objects)
    (hu : UCall.meshes calls = []) (hr : RCall.meshes rcalls = []) (stack : Nat) :
    (calls.foldl UWriter.call (UWriter.new h).2).toVTK o stack (UWriter.new h).1 = .throw .invalidArgument ∧
      (rcalls.foldl RWriter.call (RWriter.new h).2).toVTK o stack (RWriter.new h).1 =
        .throw .invalidArgument := by
  constructor
  · unfold UWriter.toVTK
    rw [UWriter.calls_mesh, hu]
    rfl
  · unfold RWriter.toVTK
    rw [RWriter.calls_mesh, hr]
    rfl

/-- The writers hold on to the arrays themselves: if one of them is gone at the time of the write, the
behaviour is undefined. -/
theorem C55_lifetime_actual (calls : List UCall) (h : Heap) (o : Objects) (r : Nat)
    (hr : (UCall.meshes calls).getLast? = some r)
    (hgone : o.umesh r = none ∨ ∃ a, a ∈ UCall.points calls ++ UCall.cells calls ∧ o.arr a = none)
    (stack : Nat) :
    (calls.foldl UWriter.call (UWriter.new h).2).toVTK o stack (UWriter.new h).1 = .ub := by
  rw [UWriter.toVTK_calls calls o hr]
  have : UWriter.see (calls.foldl UWriter.call (UWriter.new h).2) o r = .ub := by
    unfold UWriter.see follow
    rcases hgone with hg | ⟨a, ha, hg⟩
    · rw [hg]; rfl
    · cases hm : o.umesh r with
      | none => rfl
      | some m =>
        show (followAll _ _ >>= _) = _
        rw [UWriter.calls_cells, UWriter.calls_points]
        rcases List.mem_append.1 ha with ha | ha
        · rcases followAll_cases o.arr (UCall.cells calls) with hb | ⟨xs, hb⟩
          · rw [show (UWriter.new h).2.cellData ++ UCall.cells calls = UCall.cells calls from rfl, hb]; rfl
          · rw [show (UWriter.new h).2.cellData ++ UCall.cells calls = UCall.cells calls from rfl, hb]
            show (followAll _ (UCall.points calls) >>= _) = _
            rw [followAll_gone o.arr hg ha]; rfl
        · rw [show (UWriter.new h).2.cellData ++ UCall.cells calls = UCall.cells calls from rfl,
            followAll_gone o.arr hg ha]; rfl
  rw [this]
  rfl

/-! ## Cases -/

def emptyHeap : Heap := ⟨fun _ => none, 0⟩

def sampleArr (name : Text) : DataArr := ⟨"Float64".toList, name, "1".toList, "ascii".toList, some ("0".toList, "1".toList), "0 1 ".toList⟩

def sampleObjects : Objects where
  arr := fun a => if a < 4 then some (sampleArr ['a', Char.ofNat (48 + a)]) else none
  rmesh := fun a => if a < 2 then some ("0 1 0 1".toList, [Char.ofNat (48 + a)]) else none
  umesh := fun a => if a < 2 then
      some ⟨[Char.ofNat (48 + a)], "1".toList, sampleArr "p".toList, sampleArr "c".toList, sampleArr "o".toList, sampleArr "t".toList⟩
    else none

theorem sampleArr_clean {name : Text} (hn : Plain name) : (sampleArr name).range.isSome ∧ (sampleArr name).Clean := by
  refine ⟨rfl, ?_⟩
  have p1 : Plain "Float64".toList := by unfold Plain; decide
  have p2 : Plain "1".toList := by unfold Plain; decide
  have p3 : Plain "ascii".toList := by unfold Plain; decide
  have p4 : Plain "0 1 ".toList := by unfold Plain; decide
  have p5 : Plain "0".toList := by unfold Plain; decide
  refine ⟨p1, hn, p2, p3, p4, ?_⟩
  rintro r hr
  obtain rfl := Option.some.inj hr
  exact ⟨p5, p2⟩

def sampleCalls : List UCall := [.addCellData 2, .buildMesh 0, .addPointData 1, .buildMesh 1, .addCellData 3]

def sampleRCalls : List RCall := [.buildMesh 0 (some 0) none none, .buildMesh 1 (some 1) none none]

/-- Two meshes and two arrays given to an unstructured writer: the second mesh is written. -/
example : ∃ h' text, (sampleCalls.foldl
      UWriter.call (UWriter.new emptyHeap).2).toVTK sampleObjects 5 (UWriter.new emptyHeap).1 = .ok (h', text) ∧
    readXML text = some (unstructuredDoc ⟨"1".toList, "1".toList, sampleArr "p".toList, sampleArr "c".toList, sampleArr "o".toList, sampleArr "t".toList⟩
      [sampleArr "a1".toList] [sampleArr "a2".toList, sampleArr "a3".toList]).trimmed := by
  refine C55_unstructured sampleCalls sampleObjects _ emptyHeap _ rfl 1 rfl _ rfl _ _ (by unfold Live; rfl)
    (by unfold Live; rfl)
    ⟨by unfold Plain; decide, by unfold Plain; decide, ?_⟩ ?_ 5 le_rfl
  · intro a ha
    simp only [UMesh.arrays, List.mem_cons, List.not_mem_nil, or_false] at ha
    rcases ha with rfl | rfl | rfl | rfl <;> exact (sampleArr_clean (by unfold Plain; decide)).2
  · intro a ha
    simp only [UMesh.arrays, List.mem_cons, List.mem_append, List.not_mem_nil, or_false] at ha
    rcases ha with ((rfl | rfl | rfl | rfl) | rfl) | rfl | rfl <;> exact sampleArr_clean (by unfold Plain; decide)

/-- The same calls on a rectilinear writer: six coordinates. -/
example : ∃ h' text, (sampleRCalls.foldl
      RWriter.call (RWriter.new emptyHeap).2).toVTK sampleObjects 5 (RWriter.new emptyHeap).1 = .ok (h', text) ∧
    readXML text ≠ some (rectilinearDoc "0 1 0 1".toList "1".toList
      [sampleArr "a1".toList, emptyArr, emptyArr] [] []).trimmed := by
  have he : emptyArr.range.isSome ∧ emptyArr.Clean := by
    refine ⟨rfl, ?_⟩
    unfold DataArr.Clean emptyArr
    refine ⟨by unfold Plain; decide, by unfold Plain; decide, by unfold Plain; decide, by unfold Plain; decide,
      by unfold Plain; decide, ?_⟩
    rintro r hr
    obtain rfl := Option.some.inj hr
    exact ⟨by unfold Plain; decide, by unfold Plain; decide⟩
  refine C55_rectilinear_wrong sampleRCalls sampleObjects _ emptyHeap _ rfl 1 [some 1, none, none] rfl (by decide) _ _ rfl
    [sampleArr "a0".toList, emptyArr, emptyArr, sampleArr "a1".toList, emptyArr, emptyArr] [] []
    [sampleArr "a1".toList, emptyArr, emptyArr] (by unfold LiveCoords; rfl)
    (by unfold LiveCoords; rfl) (by unfold Live; rfl) (by unfold Live; rfl) (by unfold Plain; decide)
    (by unfold Plain; decide) ?_ 5 le_rfl
  intro a ha
  simp only [List.mem_cons, List.mem_append, List.not_mem_nil, or_false] at ha
  rcases ha with rfl | rfl | rfl | rfl | rfl | rfl <;>
    first | exact he | exact sampleArr_clean (by unfold Plain; decide)

end EF
