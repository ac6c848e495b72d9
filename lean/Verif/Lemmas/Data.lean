import Verif.Lemmas.Frame

/-! # `get_data`, `get_gradient` and `set_data` as list operations (any arithmetic) -/

set_option linter.unusedSectionVars false

namespace Isotope
variable {F : Type}

theorem primGrad_length (h h' : Heap F) (c : PrimCell) : (primGrad h' c).length = (primData h c).length := by
  cases c <;> rfl

theorem primData_length (h h' : Heap F) (c : PrimCell) : (primData h' c).length = (primData h c).length := by
  cases c <;> rfl

section
variable [Num F]

theorem getNDofs_eq (h : Heap F) (s : Sketch) : getNDofs h s = (s.cells.flatMap (primData h)).length := by
  unfold getNDofs Sketch.cells
  suffices ∀ (l : List (Nat × PrimCell)) n, l.foldl (fun n kp => n + (primData h kp.2).length) n =
      n + ((l.map (·.2)).flatMap (primData h)).length by simpa using this s.prims 0
  intro l
  induction l with
  | nil => simp
  | cons kp l ih => intro n; simp only [List.foldl_cons, ih, List.map_cons, List.flatMap_cons, List.length_append]; omega

theorem getNDofs_congr (h h' : Heap F) (s : Sketch) : getNDofs h' s = getNDofs h s := by
  unfold getNDofs
  congr 1
  funext n kp
  rw [primData_length h h']

theorem blit_append (pre rest block : List F) :
    blit (pre ++ rest) pre.length block = pre ++ block ++ rest.drop block.length := by
  unfold blit
  rw [List.take_left, List.drop_append]
  simp

/-- the copying loop concatenates the blocks -/
theorem blitFold (f : PrimCell → List F) (l : List (Nat × PrimCell)) (pre rest : List F)
    (hr : rest.length = ((l.map (·.2)).flatMap f).length) :
    (l.foldl (fun (st : List F × Nat) kp => (blit st.1 st.2 (f kp.2), st.2 + (f kp.2).length))
      (pre ++ rest, pre.length)).1 = pre ++ (l.map (·.2)).flatMap f := by
  induction l generalizing pre rest with
  | nil => simp at hr; simp [hr]
  | cons kp l ih =>
    simp only [List.foldl_cons, blit_append]
    have := ih (pre ++ f kp.2) (rest.drop (f kp.2).length) (by
      simp only [List.map_cons, List.flatMap_cons, List.length_append] at hr
      simp only [List.length_drop]; omega)
    simpa [List.append_assoc] using this

theorem getData_eq (h : Heap F) (s : Sketch) : getData h s = s.cells.flatMap (primData h) := by
  have := blitFold (primData h) s.prims [] (zerosVec (getNDofs h s)) (by
    simp [zerosVec, getNDofs_eq, Sketch.cells])
  simpa [getData, Sketch.cells] using this

theorem getData_length (h : Heap F) (s : Sketch) : (getData h s).length = getNDofs h s := by
  rw [getData_eq, getNDofs_eq]

theorem flatMap_primGrad_length (h h' : Heap F) (cs : List PrimCell) :
    (cs.flatMap (primGrad h')).length = (cs.flatMap (primData h)).length := by
  induction cs with
  | nil => rfl
  | cons c cs ih => simp only [List.flatMap_cons, List.length_append, ih, primGrad_length h h' c]

theorem flatMap_primData_length (h h' : Heap F) (cs : List PrimCell) :
    (cs.flatMap (primData h')).length = (cs.flatMap (primData h)).length := by
  induction cs with
  | nil => rfl
  | cons c cs ih => simp only [List.flatMap_cons, List.length_append, ih, primData_length h h' c]

theorem jacobianRow_eq (h : Heap F) (s : Sketch) : jacobianRow h s = s.cells.flatMap (primGrad h) := by
  have := blitFold (primGrad h) s.prims [] (zerosVec (getNDofs h s)) (by
    simp only [zerosVec, getNDofs_eq, List.length_replicate]
    exact (flatMap_primGrad_length h h s.cells).symm)
  simpa [jacobianRow, Sketch.cells] using this

theorem collect_fold (h : Heap F) (l : List (Nat × PrimCell)) (st : List F × Nat) :
    l.foldlM (m := Option)
      (fun (st : List F × Nat) kp =>
        if (primGrad h kp.2).all Num.isFinite then
          some (blit st.1 st.2 (primGrad h kp.2), st.2 + (primGrad h kp.2).length)
        else none) st =
    if ((l.map (·.2)).flatMap (primGrad h)).all Num.isFinite then
      some (l.foldl (fun (st : List F × Nat) kp =>
        (blit st.1 st.2 (primGrad h kp.2), st.2 + (primGrad h kp.2).length)) st)
    else none := by
  induction l generalizing st with
  | nil => simp
  | cons kp l ih =>
    simp only [List.foldlM_cons, List.map_cons, List.flatMap_cons, List.all_append, List.foldl_cons]
    by_cases hc : (primGrad h kp.2).all Num.isFinite
    · simp only [hc, if_true, Option.bind_eq_bind, Option.bind_some, ih, Bool.true_and]
    · simp only [hc, if_false, Option.bind_eq_bind, Option.bind_none, Bool.false_and, Bool.false_eq_true]

theorem collectGradient_eq (h : Heap F) (s : Sketch) :
    collectGradient h s =
      if (s.cells.flatMap (primGrad h)).all Num.isFinite then some (s.cells.flatMap (primGrad h)) else none := by
  unfold collectGradient
  rw [collect_fold]
  have := jacobianRow_eq h s
  unfold jacobianRow at this
  change (if (s.cells.flatMap (primGrad h)).all Num.isFinite then _ else none : Option (List F × Nat)).map _ = _
  split
  · rw [Option.map_some, this]
  · rfl

/-! ## `set_data` -/

theorem primSetData_ok (h : Heap F) (c : PrimCell) (d : List F) (hl : d.length = (primData h c).length)
    (hf : d.all Num.isFinite = true) : ∃ h', primSetData h c d = .ok h' ∧ primData h' c = d := by
  cases c with
  | point a =>
    match d, hl with
    | [x, y], _ => exact ⟨h.setPoint a { h.points a with data := ⟨x, y⟩ }, by simp only [primSetData, hf, if_true], by simp [primData, Heap.setPoint]⟩
  | line a =>
    match d, hl with
    | [], _ => exact ⟨h, rfl, rfl⟩
  | arc a =>
    match d, hl with
    | [x, y, z], _ => exact ⟨h.setArc a { h.arcs a with data := ⟨x, y, z⟩ }, by simp only [primSetData, hf, if_true], by simp [primData, Heap.setArc]⟩
  | circle a =>
    match d, hl with
    | [x], _ => exact ⟨h.setCircle a { h.circles a with radius := x }, by simp only [primSetData, hf, if_true], by simp [primData, Heap.setCircle]⟩

theorem primSetData_panic (h : Heap F) (c : PrimCell) (d : List F) (hl : d.length = (primData h c).length)
    (hf : d.all Num.isFinite = false) : primSetData h c d = .error h := by
  cases c with
  | point a => simp [primSetData, hf]
  | line a =>
    match d, hl with
    | [], _ => simp at hf
  | arc a => simp [primSetData, hf]
  | circle a => simp [primSetData, hf]

/-- What `primSetData` does outside of its cell, on success. -/
theorem primSetData_ok_frame {h h' : Heap F} {c : PrimCell} {d : List F} (e : primSetData h c d = .ok h') :
    SameRefs h h' ∧ (∀ x, primGrad h' x = primGrad h x) ∧ ∀ x, x ≠ c → primData h' x = primData h x := by
  have := primSetData_frame h c d; rw [e] at this; exact this

theorem setDataLoop_ok (d : List F) (kps : List (Nat × PrimCell)) (i : Nat) (h : Heap F)
    (hn : (kps.map (·.2)).Nodup) (hl : (d.drop i).length = ((kps.map (·.2)).flatMap (primData h)).length)
    (hf : (d.drop i).all Num.isFinite = true) :
    ∃ h', setDataLoop d kps i h = .ok h' ∧ (kps.map (·.2)).flatMap (primData h') = d.drop i ∧
      ∀ x, x ∉ kps.map (·.2) → primData h' x = primData h x := by
  induction kps generalizing i h with
  | nil =>
    refine ⟨h, rfl, ?_, fun _ _ => rfl⟩
    have hl' : d.drop i = [] := List.eq_nil_of_length_eq_zero (by simpa using hl)
    simp [hl']
  | cons kp kps ih =>
    simp only [List.map_cons, List.nodup_cons] at hn
    simp only [List.map_cons, List.flatMap_cons, List.length_append] at hl
    have hsplit := List.take_append_drop (primData h kp.2).length (d.drop i)
    obtain ⟨h1, e1, p1⟩ := primSetData_ok h kp.2 ((d.drop i).take (primData h kp.2).length)
      (by rw [List.length_take]; omega) (by
        rw [List.all_eq_true] at hf ⊢; intro x hx; exact hf x (List.mem_of_mem_take hx))
    have fr := primSetData_ok_frame e1
    have hdd : d.drop (i + (primData h kp.2).length) = (d.drop i).drop (primData h kp.2).length := by
      rw [List.drop_drop]
    obtain ⟨h2, e2, p2, f2⟩ := ih (i + (primData h kp.2).length) h1 hn.2
      (by rw [hdd, List.length_drop, flatMap_primData_length h h1]; omega)
      (by rw [hdd]; rw [List.all_eq_true] at hf ⊢; intro x hx; exact hf x (List.mem_of_mem_drop hx))
    refine ⟨h2, ?_, ?_, ?_⟩
    · unfold setDataLoop; simp only [e1, e2]
    · simp only [List.map_cons, List.flatMap_cons, p2, f2 kp.2 hn.1, p1, hdd, hsplit]
    · intro x hx
      simp only [List.map_cons, List.mem_cons, not_or] at hx
      rw [f2 x hx.2, fr.2.2 x hx.1]

theorem setDataLoop_panic (d : List F) (kps : List (Nat × PrimCell)) (i : Nat) (h : Heap F)
    (hn : (kps.map (·.2)).Nodup) (hl : (d.drop i).length = ((kps.map (·.2)).flatMap (primData h)).length)
    (hf : (d.drop i).all Num.isFinite = false) :
    ∃ pre kp post h', kps = pre ++ kp :: post ∧ setDataLoop d kps i h = .error h' ∧
      (pre.map (·.2)).flatMap (primData h') = (d.drop i).take ((pre.map (·.2)).flatMap (primData h)).length ∧
      ((pre.map (·.2)).flatMap (primData h')).all Num.isFinite = true ∧
      ((((d.drop i).drop ((pre.map (·.2)).flatMap (primData h)).length)).take (primData h kp.2).length).all
        Num.isFinite = false ∧
      ∀ x, x ∉ pre.map (·.2) → primData h' x = primData h x := by
  induction kps generalizing i h with
  | nil =>
    have hl' : d.drop i = [] := List.eq_nil_of_length_eq_zero (by simpa using hl)
    simp [hl'] at hf
  | cons kp kps ih =>
    simp only [List.map_cons, List.nodup_cons] at hn
    simp only [List.map_cons, List.flatMap_cons, List.length_append] at hl
    have hsplit := List.take_append_drop (primData h kp.2).length (d.drop i)
    have hlt : ((d.drop i).take (primData h kp.2).length).length = (primData h kp.2).length := by
      rw [List.length_take]; omega
    cases hb : ((d.drop i).take (primData h kp.2).length).all Num.isFinite with
    | false =>
      refine ⟨[], kp, kps, h, rfl, ?_, by simp, by simp, by simpa using hb, fun _ _ => rfl⟩
      unfold setDataLoop; simp only [primSetData_panic h kp.2 _ hlt hb]
    | true =>
      obtain ⟨h1, e1, p1⟩ := primSetData_ok h kp.2 _ hlt hb
      have fr := primSetData_ok_frame e1
      have hdd : d.drop (i + (primData h kp.2).length) = (d.drop i).drop (primData h kp.2).length := by
        rw [List.drop_drop]
      obtain ⟨pre, kq, post, h2, e0, e2, p2, q2, r2, f2⟩ := ih (i + (primData h kp.2).length) h1 hn.2
        (by rw [hdd, List.length_drop, flatMap_primData_length h h1]; omega)
        (by
          rw [hdd]; rw [← hsplit, List.all_append, hb, Bool.true_and] at hf; exact hf)
      have hpre : kp.2 ∉ pre.map (·.2) := by
        intro hm; apply hn.1; rw [e0, List.map_append]; exact List.mem_append_left _ hm
      refine ⟨kp :: pre, kq, post, h2, by rw [e0]; rfl, ?_, ?_, ?_, ?_, ?_⟩
      · unfold setDataLoop; simp only [e1, e2]
      · simp only [List.map_cons, List.flatMap_cons, List.length_append, p2, f2 kp.2 hpre, p1, hdd]
        rw [flatMap_primData_length h h1, List.take_add]
      · simp only [List.map_cons, List.flatMap_cons, List.all_append, q2, f2 kp.2 hpre, p1, hb, Bool.and_self]
      · rw [hdd, flatMap_primData_length h h1] at r2
        simp only [List.map_cons, List.flatMap_cons, List.length_append]
        rw [← List.drop_drop, ← primData_length h h1 kq.2]; exact r2
      · intro x hx
        simp only [List.map_cons, List.mem_cons, not_or] at hx
        rw [f2 x hx.2, fr.2.2 x hx.1]

end
end Isotope
