import Verif.Lemmas.BorrowSketch

/-!
# Borrow flags: decomposition
-/

namespace Isotope
variable {F : Type} [Num F] {fl : Flags} (sh : PrimSh fl) (h : Heap F)
include sh

theorem bPointEq_eq (p q : Nat) : bPointEq p q ⟨h, fl⟩ = .ok ((h.points p).beq (h.points q)) ⟨h, fl⟩ :=
  withShared_read (sh _) (withShared_read (sh.bump _ _) rfl)

theorem bSegEq_eq (a b : Segment F) : bSegEq a b ⟨h, fl⟩ = .ok (a.beq h b) ⟨h, fl⟩ := by
  cases a with
  | line s e =>
    cases b with
    | line s' e' =>
      refine bind_read (bPointEq_eq sh h _ _) ?_
      simp only [Segment.beq, ite_apply_B, pure_apply]
      by_cases k : (h.points s).beq (h.points s') = true
      · rw [if_pos k, k, bPointEq_eq sh h]; rfl
      · rw [if_neg k]
        simp only [Bool.not_eq_true] at k
        rw [k]; rfl
    | arc a' => rfl
  | arc a =>
    cases b with
    | line s' e' => rfl
    | arc a' => exact bind_read (bPointEq_eq sh h _ _) rfl

theorem bSegStart_eq (a : Segment F) : bSegStart a ⟨h, fl⟩ = .ok (a.getStart h) ⟨h, fl⟩ := by
  cases a with
  | line s e => exact bPoint_eq sh h _
  | arc a => exact bArcStartPoint_eq sh h _

theorem bSegEnd_eq (a : Segment F) : bSegEnd a ⟨h, fl⟩ = .ok (a.getEnd h) ⟨h, fl⟩ := by
  cases a with
  | line s e => exact bPoint_eq sh h _
  | arc a => exact bArcEndPoint_eq sh h _

theorem bSegStartAngle_eq (a : Segment F) : bSegStartAngle a ⟨h, fl⟩ = .ok (a.startAngle h) ⟨h, fl⟩ := by
  cases a with
  | line s e => exact bind_read (bPoint_eq sh h _) (bind_read (bPoint_eq sh h _) rfl)
  | arc a => rfl

theorem bSegEndAngle_eq (a : Segment F) : bSegEndAngle a ⟨h, fl⟩ = .ok (a.endAngle h) ⟨h, fl⟩ := by
  cases a with
  | line s e => exact bSegStartAngle_eq sh h (.line s e)
  | arc a => rfl

theorem bContinues_eq (a b : Segment F) : bContinues a b ⟨h, fl⟩ = .ok (a.continues h b) ⟨h, fl⟩ :=
  bind_read (bSegEnd_eq sh h _) (bind_read (bSegStart_eq sh h _) rfl)

theorem bEqOrRev_eq (a b : Segment F) : bEqOrRev a b ⟨h, fl⟩ = .ok (a.equalsOrReverseEquals h b) ⟨h, fl⟩ := by
  refine bind_read (bSegEq_eq sh h _ _) ?_
  simp only [Segment.equalsOrReverseEquals, Segment.reverseEquals, ite_apply_B, pure_apply, bSegEq_eq sh h]
  cases a.beq h b <;> rfl

theorem bCandidates_eq (cur : Segment F) (used : List Nat) (thisEnd : F) (l : List (Nat × Segment F)) :
    bCandidates cur used thisEnd l ⟨h, fl⟩ = .ok (l.filterMap (fun is =>
      if used.contains is.1 then none
      else if is.2.continues h cur && !is.2.equalsOrReverseEquals h cur then
        some (is, angleDifference thisEnd (is.2.startAngle h))
      else none)) ⟨h, fl⟩ := by
  induction l with
  | nil => rfl
  | cons is l ih =>
    unfold bCandidates
    rw [List.filterMap_cons]
    simp only [ite_apply_B]
    by_cases k : used.contains is.1 = true
    · simp only [k, if_true]; exact ih
    · simp only [k]
      refine bind_read (bContinues_eq sh h _ _) ?_
      simp only [ite_apply_B]
      by_cases k2 : is.2.continues h cur = true
      · simp only [k2, if_true, Bool.true_and]
        refine bind_read (bEqOrRev_eq sh h _ _) ?_
        simp only [ite_apply_B]
        by_cases k3 : is.2.equalsOrReverseEquals h cur = true
        · simp only [k3, if_true]; exact ih
        · simp only [k3]
          exact bind_read (bSegStartAngle_eq sh h _) (bind_read ih rfl)
      · simp only [k2, Bool.false_and]
        exact ih

theorem bFindNext_eq (segs : List (Segment F)) (cur : Segment F) (used : List Nat) :
    bFindNext segs cur used ⟨h, fl⟩ = .ok (findNextSegment h segs cur used) ⟨h, fl⟩ := by
  refine bind_read (bSegEndAngle_eq sh h _) (bind_read (bCandidates_eq sh h _ _ _ _) ?_)
  unfold findNextSegment nextCandidates
  simp only
  cases (enumFrom 0 segs).filterMap (fun is =>
      if used.contains is.1 then none
      else if is.2.continues h cur && !is.2.equalsOrReverseEquals h cur then
        some (is, angleDifference (Num.rem (cur.endAngle h + Num.pi) ((2.0 : F) * Num.pi)) (is.2.startAngle h))
      else none) <;> rfl

theorem bRingWalk_eq (segs : List (Segment F)) (used : List Nat) (startPt : Vec2 F) (n : Nat) :
    ∀ (cur : Nat × Segment F) (acc : List (Nat × Segment F)),
      bRingWalk segs used startPt n cur acc ⟨h, fl⟩ = .ok (ringWalk h segs used startPt n cur acc) ⟨h, fl⟩ := by
  induction n with
  | zero => intros; rfl
  | succ n ih =>
    intro cur acc
    unfold bRingWalk ringWalk
    refine bind_read (bSegEnd_eq sh h _) ?_
    simp only [ite_apply_B]
    split
    · rfl
    · refine bind_read (bFindNext_eq sh h _ _ _) ?_
      cases findNextSegment h segs cur.2 used with
      | none => rfl
      | some nxt => exact ih _ _

theorem bRingLoop_eq (segs : List (Segment F)) (l : List (Nat × Segment F)) :
    ∀ (used : List Nat) (rings : List (List (Nat × Segment F))),
      bRingLoop segs l used rings ⟨h, fl⟩ = .ok (ringLoop h segs l used rings) ⟨h, fl⟩ := by
  induction l with
  | nil => intros; rfl
  | cons is l ih =>
    intro used rings
    unfold bRingLoop ringLoop
    simp only [ite_apply_B]
    split
    · exact ih _ _
    · refine bind_read (bSegStart_eq sh h _) (bind_read (bRingWalk_eq sh h _ _ _ _ _ _) ?_)
      cases ringWalk h segs used (is.2.getStart h) (segs.length - 1) is [] with
      | none => exact ih _ _
      | some ring => exact ih _ _

omit [Num F] in
theorem bInitSegments_eq (kps : List (Nat × PrimCell)) :
    bInitSegments kps ⟨h, fl⟩ = .ok (kps.filterMap (fun kp =>
      match kp.2 with
      | .line l => some (Segment.line (h.lines l).start (h.lines l).stop)
      | .arc a => some (.arc (h.arcs a))
      | _ => none)) ⟨h, fl⟩ := by
  induction kps with
  | nil => rfl
  | cons kp kps ih =>
    obtain ⟨k, p⟩ := kp
    cases p with
    | point a => exact ih
    | line a => exact bind_read (withShared_read (v := h.lines a) (sh _) rfl) (bind_read ih rfl)
    | arc a => exact bind_read (withShared_read (v := h.arcs a) (sh _) rfl) (bind_read ih rfl)
    | circle a => exact ih

omit [Num F] in
theorem bCircleRings_eq (kps : List (Nat × PrimCell)) :
    bCircleRings kps ⟨h, fl⟩ = .ok (kps.filterMap (fun kp =>
      match kp.2 with
      | .circle c => some (Ring.circle (h.circles c))
      | _ => none)) ⟨h, fl⟩ := by
  induction kps with
  | nil => rfl
  | cons kp kps ih =>
    obtain ⟨k, p⟩ := kp
    cases p with
    | point a => exact ih
    | line a => exact ih
    | arc a => exact ih
    | circle a => exact bind_read (withShared_read (v := h.circles a) (sh _) rfl) (bind_read ih rfl)

theorem bSignedArea_eq (r : Ring F) : bSignedArea r ⟨h, fl⟩ = .ok (r.signedArea h) ⟨h, fl⟩ := by
  cases r with
  | circle c => rfl
  | segments segs =>
    refine bind_read (foldlM_read _ (fun area (sg : Segment F) =>
      area + ((sg.getStart h).x * (sg.getEnd h).y - (sg.getEnd h).x * (sg.getStart h).y)) ?_ _ _) rfl
    exact fun _ _ => bind_read (bSegStart_eq sh h _) (bind_read (bSegEnd_eq sh h _) rfl)

theorem bAreas_eq (l : List (Ring F)) :
    bAreas l ⟨h, fl⟩ = .ok (l.map (fun r => (r, r.signedArea h))) ⟨h, fl⟩ := by
  induction l with
  | nil => rfl
  | cons r l ih => exact bind_read (bSignedArea_eq sh h r) (bind_read ih rfl)

theorem bFindRings_eq (s : Sketch) : bFindRings s ⟨h, fl⟩ = .ok (findRings h s) ⟨h, fl⟩ := by
  refine bind_read (bInitSegments_eq sh h _) (bind_read (bRingLoop_eq sh h _ _ _ _)
    (bind_read (bCircleRings_eq sh h _) (bind_read (bAreas_eq sh h _) ?_)))
  have hs : ∀ l : List (Ring F),
      ((l.map (fun r => (r, r.signedArea h))).mergeSort (fun a b => Num.totalLe a.2 b.2)) =
        (l.mergeSort (fun a b => Num.totalLe (a.signedArea h) (b.signedArea h))).map (fun r => (r, r.signedArea h)) :=
    fun l => (List.map_mergeSort (r := fun a b => Num.totalLe (a.signedArea h) (b.signedArea h))
      (s := fun a b => Num.totalLe a.2 b.2) (f := fun r : Ring F => (r, r.signedArea h)) (fun _ _ _ _ => rfl)).symm
  simp only [pure_apply, hs, findRings, List.filter_map, List.map_map, Function.comp_def, List.map_id']
  rfl

theorem bRingPolygon_eq (r : Ring F) : bRingPolygon r ⟨h, fl⟩ = .ok (r.asPolygon h) ⟨h, fl⟩ := by
  cases r with
  | circle c => exact withShared_read (sh _) rfl
  | segments segs =>
    refine bind_read (mapM_read _ (fun sg : Segment F => ((sg.getStart h).x, (sg.getStart h).y)) ?_ _) rfl
    exact fun _ => bind_read (bSegStart_eq sh h _) rfl

set_option linter.unusedSectionVars false in
mutual
theorem bFacePolygon_eq (f : Face F) : bFacePolygon f ⟨h, fl⟩ = .ok (f.asPolygon h) ⟨h, fl⟩ := by
  cases f with
  | mk e hs =>
    rw [bFacePolygon]
    exact bind_read (bRingPolygon_eq sh h e) (bind_read (bHoles_eq hs) rfl)
theorem bHoles_eq (fs : List (Face F)) :
    bHoles fs ⟨h, fl⟩ = .ok (fs.map (fun hole => closeRing (hole.exterior.asPolygon h).exterior)) ⟨h, fl⟩ := by
  cases fs with
  | nil => rfl
  | cons f fs =>
    rw [bHoles]
    exact bind_read (bFacePolygon_eq f) (bind_read (bHoles_eq fs) rfl)
end

theorem bGetFaces_eq (g : Geo F) (s : Sketch) : bGetFaces g s ⟨h, fl⟩ = .ok (getFaces g h s) ⟨h, fl⟩ := by
  refine bind_read (bFindRings_eq sh h s) ?_
  unfold getFaces findFaces
  simp only [ite_apply_B, pure_apply]
  split
  · rfl
  · exact bind_read (mapM_read _ _ (bRingPolygon_eq sh h) _) rfl

/-- result of a call that may panic and does not change the heap -/
theorem bFacesToRemove_eq (g : Geo F) (olds : List (Polygon F)) (l : List (Nat × Face F)) :
    bFacesToRemove g olds l ⟨h, fl⟩ =
      (match facesToRemove g h olds l with | none => Res.panic ⟨h, fl⟩ | some x => .ok x ⟨h, fl⟩) := by
  induction l with
  | nil => rfl
  | cons x l ih =>
    obtain ⟨i, f⟩ := x
    unfold bFacesToRemove facesToRemove
    refine bind_read (bFacePolygon_eq sh h f) ?_
    cases g.interiorPoint (f.asPolygon h) with
    | none => rfl
    | some pt =>
      simp only
      rw [bind_apply, ih]
      cases facesToRemove g h olds l <;> rfl

theorem bMergeFaces_eq (g : Geo F) (faces : List (Face F)) :
    bMergeFaces g faces ⟨h, fl⟩ =
      (match mergeFaces g h faces with | none => Res.panic ⟨h, fl⟩ | some x => .ok x ⟨h, fl⟩) := by
  refine bind_read (mapM_read _ _ (bFacePolygon_eq sh h) _) ?_
  unfold mergeFaces
  rw [bind_apply, bFacesToRemove_eq sh h]
  cases facesToRemove g h (faces.map (Face.asPolygon h)) (enumFrom 0 faces) <;> rfl

theorem bGetMergedFaces_eq (g : Geo F) (s : Sketch) :
    bGetMergedFaces g s ⟨h, fl⟩ =
      (match getMergedFaces g h s with | none => Res.panic ⟨h, fl⟩ | some x => .ok x ⟨h, fl⟩) :=
  bind_read (bGetFaces_eq sh h g s) (bMergeFaces_eq sh h g _)

end Isotope
