import Verif.Props.Serde
import Verif.Lemmas.Hist
import Verif.Props.Loss

/-!
# Rings and faces of a loaded sketch (C53)

The decomposition compares points by value, so it does not notice that a loaded sketch shares nothing.
-/

namespace Isotope
variable {F : Type} [Num F]

section
variable {h h' : Heap F}

/-- the two segments are written the same -/
abbrev SegEq (h h' : Heap F) (a a' : Segment F) : Prop := saveSegment h a = saveSegment h' a'

theorem SegEq.facts {a a' : Segment F} (e : SegEq h h' a a') :
    a.getStart h = a'.getStart h' ∧ a.getEnd h = a'.getEnd h' ∧ a.startAngle h = a'.startAngle h' ∧
    a.endAngle h = a'.endAngle h' ∧ SegEq h h' a.reverse a'.reverse := by
  cases a <;> cases a' <;> simp only [SegEq, saveSegment, reduceCtorEq] at e
  · simp only [DSegment.line.injEq, DLine.mk.injEq] at e
    simp [Segment.getStart, Segment.getEnd, Segment.startAngle, Segment.endAngle, Segment.reverse, SegEq, saveSegment, e.1, e.2]
  · simp only [DSegment.arc.injEq] at e
    obtain ⟨e1, e2⟩ := saveArc_eq e
    simp only [saveArc, DArc.mk.injEq] at e
    simp [Segment.getStart, Segment.getEnd, Segment.startAngle, Segment.endAngle, Segment.reverse, SegEq, saveSegment, e1, e2,
      Arc.startAngle, Arc.endAngle, Arc.reverse, Arc.new, Arc.radius, saveArc, e]

theorem SegEq.beq {a a' b b' : Segment F} (e : SegEq h h' a a') (f : SegEq h h' b b') : a.beq h b = a'.beq h' b' := by
  cases a <;> cases a' <;> simp only [SegEq, saveSegment, reduceCtorEq] at e <;>
    cases b <;> cases b' <;> simp only [SegEq, saveSegment, reduceCtorEq] at f
  · simp only [DSegment.line.injEq, DLine.mk.injEq] at e f
    simp only [Segment.beq, e.1, e.2, f.1, f.2]
  · rfl
  · rfl
  · simp only [DSegment.arc.injEq, saveArc, DArc.mk.injEq] at e f
    obtain ⟨e1, e2, e3, e4⟩ := e
    obtain ⟨f1, f2, f3, f4⟩ := f
    simp only [Segment.beq, Arc.beq, e1, e2, e3, e4, f1, f2, f3, f4]

theorem SegEq.eqOrRev {a a' b b' : Segment F} (e : SegEq h h' a a') (f : SegEq h h' b b') :
    a.equalsOrReverseEquals h b = a'.equalsOrReverseEquals h' b' := by
  unfold Segment.equalsOrReverseEquals Segment.reverseEquals
  rw [e.beq f, e.beq f.facts.2.2.2.2]

theorem SegEq.continues {a a' b b' : Segment F} (e : SegEq h h' a a') (f : SegEq h h' b b') :
    a.continues h b = a'.continues h' b' := by
  unfold Segment.continues
  rw [f.facts.2.1, e.facts.1]

theorem SegEq.turn {a a' b b' : Segment F} (e : SegEq h h' a a') (f : SegEq h h' b b') : turn h a b = turn h' a' b' := by
  unfold Isotope.turn
  rw [e.facts.2.2.2.1, f.facts.2.2.1]

omit [Num F] in
theorem forall₂_get {α β : Type} {R : α → β → Prop} {l : List α} {m : List β} (H : List.Forall₂ R l m) {i : Nat} {a : α} {b : β}
    (ha : l[i]? = some a) (hb : m[i]? = some b) : R a b := by
  induction H generalizing i with
  | nil => simp at ha
  | cons hab _ ih =>
    cases i with
    | zero => simp only [List.getElem?_cons_zero, Option.some.injEq] at ha hb; subst ha hb; exact hab
    | succ i => exact ih (by simpa using ha) (by simpa using hb)

theorem sim_of_save {l l' : List (Segment F)} (H : List.Forall₂ (SegEq h h') l l') : Sim h l h' l' :=
  ⟨H.length_eq, fun ha ha' hb hb' => (forall₂_get H hb hb').continues (forall₂_get H ha ha'),
   fun ha ha' hb hb' _ => (forall₂_get H hb hb').eqOrRev (forall₂_get H ha ha'),
   fun ha ha' hb hb' hc hc' _ _ => by
    rw [(forall₂_get H ha ha').turn (forall₂_get H hb hb'), (forall₂_get H ha ha').turn (forall₂_get H hc hc')]⟩

theorem initSegments_save {s s' : Sketch} (e : saveSketch h s = saveSketch h' s') :
    List.Forall₂ (SegEq h h') (initSegments h s) (initSegments h' s') := by
  have := save_prims e
  unfold initSegments
  clear e
  revert this
  generalize s.prims = l
  generalize s'.prims = m
  intro H
  induction H with
  | nil => exact .nil
  | @cons a b l m hab _ ih =>
    obtain ⟨k, c⟩ := a
    obtain ⟨k', c'⟩ := b
    obtain ⟨rfl, e⟩ := hab
    simp only at e
    rw [List.filterMap_cons, List.filterMap_cons]
    cases c <;> cases c' <;> simp only [savePrim, reduceCtorEq] at e <;> simp only
    · exact ih
    · refine .cons ?_ ih
      simpa [SegEq, saveSegment, saveLine] using e
    · refine .cons ?_ ih
      simpa [SegEq, saveSegment] using e
    · exact ih

theorem allSegments_save {s s' : Sketch} (e : saveSketch h s = saveSketch h' s') :
    List.Forall₂ (SegEq h h') (allSegments h s) (allSegments h' s') := by
  have H := initSegments_save e
  unfold allSegments
  have R : List.Forall₂ (SegEq h h') ((initSegments h s).map Segment.reverse) ((initSegments h' s').map Segment.reverse) := by
    rw [List.forall₂_map_left_iff, List.forall₂_map_right_iff]
    exact H.imp fun _ _ hab => hab.facts.2.2.2.2
  exact List.rel_append H R

/-- the two rings are written the same -/
abbrev RingEq (h h' : Heap F) (a a' : Ring F) : Prop := saveRing h a = saveRing h' a'

omit [Num F] in
theorem forall₂_picks {α β : Type} {R : α → β → Prop} {l : List α} {m : List β} (H : List.Forall₂ R l m) (is : List Nat) :
    List.Forall₂ R (is.filterMap (fun i => l[i]?)) (is.filterMap (fun i => m[i]?)) := by
  induction is with
  | nil => exact .nil
  | cons i is ih =>
    rw [List.filterMap_cons, List.filterMap_cons]
    have hlen := H.length_eq
    cases ha : l[i]? with
    | none =>
      have : m[i]? = none := by rw [List.getElem?_eq_none_iff] at ha ⊢; omega
      rw [this]; exact ih
    | some a =>
      have hi := (List.getElem?_eq_some_iff.1 ha).1
      obtain ⟨b, hb⟩ : ∃ b, m[i]? = some b := ⟨_, List.getElem?_eq_getElem (by omega)⟩
      rw [hb]
      exact .cons (forall₂_get H ha hb) ih

omit [Num F] in
theorem map_eq_of_forall₂ {α β γ : Type} {f : α → γ} {g : β → γ} {l : List α} {m : List β}
    (H : List.Forall₂ (fun a b => f a = g b) l m) : l.map f = m.map g := by
  induction H with
  | nil => rfl
  | cons hab _ ih => rw [List.map_cons, List.map_cons, hab, ih]

omit [Num F] in
theorem forall₂_sort {α β : Type} {R : α → β → Prop} {r : α → α → Bool} {r' : β → β → Bool} {l : List α} {m : List β}
    (H : List.Forall₂ R l m) (hr : ∀ a b a' b', R a a' → R b b' → r a b = r' a' b') :
    List.Forall₂ R (l.mergeSort r) (m.mergeSort r') := by
  obtain ⟨z, hz, e1, e2⟩ : ∃ z : List (α × β), (∀ p ∈ z, R p.1 p.2) ∧ z.map (·.1) = l ∧ z.map (·.2) = m := by
    clear hr
    induction H with
    | nil => exact ⟨[], by simp, rfl, rfl⟩
    | @cons a b l m hab _ ih =>
      obtain ⟨z, hz, e1, e2⟩ := ih
      refine ⟨(a, b) :: z, ?_, by rw [List.map_cons, e1], by rw [List.map_cons, e2]⟩
      intro p hp
      rcases List.mem_cons.1 hp with rfl | hp
      · exact hab
      · exact hz p hp
  subst e1 e2
  have a1 := List.map_mergeSort (r := fun p q : α × β => r p.1 q.1) (s := r) (f := fun p => p.1) (l := z) (fun _ _ _ _ => rfl)
  have a2 := List.map_mergeSort (r := fun p q : α × β => r p.1 q.1) (s := r') (f := fun p => p.2) (l := z)
    (fun p hp q hq => hr _ _ _ _ (hz p hp) (hz q hq))
  rw [← a1, ← a2, List.forall₂_map_left_iff, List.forall₂_map_right_iff]
  refine List.forall₂_same.2 fun p hp => hz p ?_
  exact (List.mergeSort_perm _ _).mem_iff.1 hp

omit [Num F] in
theorem forall₂_filter' {α β : Type} {R : α → β → Prop} {p : α → Bool} {q : β → Bool} {l : List α} {m : List β}
    (H : List.Forall₂ R l m) (hp : ∀ a b, R a b → p a = q b) : List.Forall₂ R (l.filter p) (m.filter q) := by
  induction H with
  | nil => exact .nil
  | cons hab _ ih =>
    rw [List.filter_cons, List.filter_cons, hp _ _ hab]
    split
    · exact .cons hab ih
    · exact ih

theorem tracedRings_save {s s' : Sketch} (e : saveSketch h s = saveSketch h' s') :
    (tracedRings h s).1 = (tracedRings h' s').1 ∧
    List.Forall₂ (RingEq h h') ((tracedRings h s).2.map fun r => Ring.segments (r.map (·.2)))
      ((tracedRings h' s').2.map fun r => Ring.segments (r.map (·.2))) := by
  have H := allSegments_save e
  obtain ⟨r1, r2⟩ := (sim_of_save H).rings
  refine ⟨r1, ?_⟩
  have r2 : (tracedRings h s).2.map (fun l => l.map fun x => x.1) = (tracedRings h' s').2.map (fun l => l.map fun x => x.1) := r2
  have t1 := traced_of_indices (h := h) (s := s) rfl
  have t2 := traced_of_indices (h := h') (s := s') r2.symm
  have f : ∀ (l : List (List (Nat × Segment F))), (l.map fun r => Ring.segments (r.map (·.2))) =
      (l.map (fun r => r.map (·.2))).map Ring.segments := fun l => by rw [List.map_map]; rfl
  rw [f, f, t1, t2]
  generalize (tracedRings h s).2.map (fun l => l.map (·.1)) = is
  rw [List.forall₂_map_left_iff, List.forall₂_map_right_iff, List.forall₂_map_left_iff, List.forall₂_map_right_iff]
  refine List.forall₂_same.2 fun l _ => ?_
  have := map_eq_of_forall₂ (forall₂_picks H l)
  simp only [RingEq, saveRing]
  rw [this]

theorem circleRings_save {s s' : Sketch} (e : saveSketch h s = saveSketch h' s') :
    List.Forall₂ (RingEq h h') (circleRings h s) (circleRings h' s') := by
  have := save_prims e
  unfold circleRings
  clear e
  revert this
  generalize s.prims = l
  generalize s'.prims = m
  intro H
  induction H with
  | nil => exact .nil
  | @cons a b l m hab _ ih =>
    obtain ⟨k, c⟩ := a
    obtain ⟨k', c'⟩ := b
    obtain ⟨rfl, e⟩ := hab
    simp only at e
    rw [List.filterMap_cons, List.filterMap_cons]
    cases c <;> cases c' <;> simp only [savePrim, reduceCtorEq] at e <;> simp only
    · exact ih
    · exact ih
    · exact ih
    · refine .cons ?_ ih
      simpa [RingEq, saveRing] using e

theorem RingEq.area {a a' : Ring F} (e : RingEq h h' a a') : a.signedArea h = a'.signedArea h' := by
  cases a <;> cases a' <;> simp only [RingEq, saveRing, reduceCtorEq] at e
  · simp only [DRing.circle.injEq, saveCircle, DCircle.mk.injEq] at e
    simp only [Ring.signedArea, e.2.1]
  · simp only [DRing.segments.injEq] at e
    have H := forall₂_of_map e
    simp only [Ring.signedArea]
    congr 1
    clear e
    generalize (0.0 : F) = z
    induction H generalizing z with
    | nil => rfl
    | cons hab _ ih =>
      have := SegEq.facts hab
      rw [List.foldl_cons, List.foldl_cons, ih, this.1, this.2.1]

theorem RingEq.poly {a a' : Ring F} (e : RingEq h h' a a') : a.asPolygon h = a'.asPolygon h' := by
  cases a <;> cases a' <;> simp only [RingEq, saveRing, reduceCtorEq] at e
  · simp only [DRing.circle.injEq, saveCircle, DCircle.mk.injEq] at e
    simp only [Ring.asPolygon, e.1, e.2.1]
  · simp only [DRing.segments.injEq] at e
    have H := forall₂_of_map e
    simp only [Ring.asPolygon]
    congr 1
    exact map_eq_of_forall₂ (H.imp fun _ _ hab => by rw [(SegEq.facts hab).1])

theorem findRings_save {s s' : Sketch} (e : saveSketch h s = saveSketch h' s') :
    List.Forall₂ (RingEq h h') (findRings h s).1 (findRings h' s').1 ∧
    List.Forall₂ (SegEq h h') (findRings h s).2 (findRings h' s').2 := by
  obtain ⟨t1, t2⟩ := tracedRings_save e
  constructor
  · have U : List.Forall₂ (RingEq h h') (unsortedRings h s) (unsortedRings h' s') := List.rel_append t2 (circleRings_save e)
    exact forall₂_filter' (forall₂_sort U fun a b a' b' ha hb => by rw [ha.area, hb.area]) fun a b hab => by rw [hab.area]
  · simp only [findRings, unusedSegments, ← t1]
    have H := initSegments_save e
    generalize (tracedRings h s).1 = u
    generalize initSegments h s = l at H
    generalize initSegments h' s' = m at H
    have : ∀ n, List.Forall₂ (SegEq h h') ((enumFrom n l).filterMap fun is => if u.contains is.1 then none else some is.2)
        ((enumFrom n m).filterMap fun is => if u.contains is.1 then none else some is.2) := by
      induction H with
      | nil => intro n; exact .nil
      | cons hab _ ih =>
        intro n
        simp only [enumFrom, List.filterMap_cons]
        by_cases c : u.contains n = true
        · rw [if_pos c, if_pos c]; exact ih (n + 1)
        · rw [if_neg c, if_neg c]; exact .cons hab (ih (n + 1))
    exact this 0

omit [Num F] in
theorem saveFaces_eq (h : Heap F) (fs : List (Face F)) : saveFaces h fs = fs.map (saveFace h) := by
  induction fs with
  | nil => rfl
  | cons f fs ih => rw [saveFaces, ih]; rfl

omit [Num F] in
theorem saveFace_eq (h : Heap F) (f : Face F) : saveFace h f = .mk (saveRing h f.exterior) (f.holes.map (saveFace h)) := by
  cases f
  rw [saveFace, saveFaces_eq]
  rfl

omit [Num F] in
theorem addHoleAt_save {fs fs' : List (Face F)} (e : fs.map (saveFace h) = fs'.map (saveFace h')) (p : Nat × Nat) :
    (addHoleAt fs p).map (saveFace h) = (addHoleAt fs' p).map (saveFace h') := by
  have get : ∀ i : Nat, (fs[i]?).map (saveFace h) = (fs'[i]?).map (saveFace h') := fun i => by
    rw [← List.getElem?_map, ← List.getElem?_map, e]
  have g1 := get p.1
  have g2 := get p.2
  unfold addHoleAt
  cases a2 : fs[p.2]? <;> cases b2 : fs'[p.2]? <;> rw [a2, b2] at g2 <;> simp at g2
  · simpa using e
  · cases a1 : fs[p.1]? <;> cases b1 : fs'[p.1]? <;> rw [a1, b1] at g1 <;> simp at g1
    · simpa using e
    · simp only
      rw [List.map_set, List.map_set, e]
      congr 1
      rw [saveFace_eq, saveFace_eq] at g1
      rw [saveFace_eq, saveFace_eq]
      simp only [DFace.mk.injEq] at g1
      simp [Face.addHole, Face.exterior, Face.holes, g2]
      exact ⟨g1.1, g1.2⟩

theorem findFaces_save (g : Geo F) {s s' : Sketch} (e : saveSketch h s = saveSketch h' s') :
    (findFaces g h s).1.map (saveFace h) = (findFaces g h' s').1.map (saveFace h') := by
  obtain ⟨R, -⟩ := findRings_save e
  have hp : (findRings h s).1.map (Ring.asPolygon h) = (findRings h' s').1.map (Ring.asPolygon h') :=
    map_eq_of_forall₂ (R.imp fun _ _ hab => hab.poly)
  have hf : ((findRings h s).1.map Face.fromRing).map (saveFace h) = ((findRings h' s').1.map Face.fromRing).map (saveFace h') := by
    rw [List.map_map, List.map_map]
    refine map_eq_of_forall₂ (R.imp fun a b hab => ?_)
    have hab : saveRing h a = saveRing h' b := hab
    simp [saveFace_eq, Face.fromRing, Face.exterior, Face.holes, hab]
  have hem : (findRings h s).1.isEmpty = (findRings h' s').1.isEmpty := by
    have := R.length_eq
    rw [Bool.eq_iff_iff, List.isEmpty_iff_length_eq_zero, List.isEmpty_iff_length_eq_zero, this]
  unfold findFaces
  dsimp only
  rw [hem, hp]
  split
  · exact hf
  · generalize whatContainsWhat g ((findRings h' s').1.map (Ring.asPolygon h')) = ps
    generalize (findRings h s).1.map Face.fromRing = fs at hf
    generalize (findRings h' s').1.map Face.fromRing = fs' at hf
    induction ps generalizing fs fs' with
    | nil => exact hf
    | cons p ps ih => exact ih _ _ (addHoleAt_save hf p)

theorem facePoly_save {f f' : Face F} (e : saveFace h f = saveFace h' f') : f.asPolygon h = f'.asPolygon h' := by
  rw [saveFace_eq, saveFace_eq] at e
  simp only [DFace.mk.injEq] at e
  unfold Face.asPolygon
  rw [RingEq.poly e.1]
  congr 1
  refine map_eq_of_forall₂ ((forall₂_of_map e.2).imp fun a b hab => ?_)
  rw [saveFace_eq, saveFace_eq] at hab
  simp only [DFace.mk.injEq] at hab
  rw [RingEq.poly hab.1]

theorem mergeFaces_save (g : Geo F) {fs fs' : List (Face F)} (e : fs.map (saveFace h) = fs'.map (saveFace h')) :
    (mergeFaces g h fs).map (List.map (saveFace h)) = (mergeFaces g h' fs').map (List.map (saveFace h')) := by
  have H := forall₂_of_map e
  have hp : fs.map (Face.asPolygon h) = fs'.map (Face.asPolygon h') := map_eq_of_forall₂ (H.imp fun _ _ hab => facePoly_save hab)
  have hr : ∀ olds n, facesToRemove g h olds (enumFrom n fs) = facesToRemove g h' olds (enumFrom n fs') := by
    intro olds
    clear hp e
    induction H with
    | nil => intro n; rfl
    | cons hab _ ih =>
      intro n
      simp only [enumFrom, facesToRemove]
      rw [facePoly_save hab, ih (n + 1)]
  unfold mergeFaces
  rw [hp, hr]
  cases facesToRemove g h' (fs'.map (Face.asPolygon h')) (enumFrom 0 fs') with
  | none => rfl
  | some l =>
    simp only [Option.map_some, Option.some.injEq]
    generalize (l.mergeSort fun a b => decide (a ≤ b)).reverse = is
    clear hr hp H
    induction is generalizing fs fs' with
    | nil => exact e
    | cons i is ih =>
      refine ih ?_
      rw [← List.eraseIdx_map, ← List.eraseIdx_map, e]

end

/-- **C53.** A loaded sketch has the same rings, unused segments, faces and merged faces: written out again, they are the
same documents, whatever `geo` computes. -/
theorem C53_faces (g : Geo F) (h : Heap F) (s : Sketch) (hs : KeysIncrease s.prims) (h0 : Heap F) :
    let h' := (loadSketch h0 (saveSketch h s)).1
    let s' := (loadSketch h0 (saveSketch h s)).2
    (findRings h' s').1.map (saveRing h') = (findRings h s).1.map (saveRing h) ∧
    (findRings h' s').2.map (saveSegment h') = (findRings h s).2.map (saveSegment h) ∧
    (getFaces g h' s').map (saveFace h') = (getFaces g h s).map (saveFace h) ∧
    (getMergedFaces g h' s').map (List.map (saveFace h')) = (getMergedFaces g h s).map (List.map (saveFace h)) := by
  intro h' s'
  have e := C53_save_load h s hs h0
  obtain ⟨r, u⟩ := findRings_save e
  have f := findFaces_save g e
  exact ⟨map_eq_of_forall₂ r, map_eq_of_forall₂ u, f, mergeFaces_save g f⟩

/-- **C53.** The sketch of every history can be saved: its keys increase. -/
theorem C53_history (pinv : PInv F) (ops : List (Op F)) (hlen : ops.length < 2 ^ 64) :
    KeysIncrease (run pinv World.init ops).2.sketch.prims := (Inv.run pinv ops hlen).sorted

/-- two points, a line between them, a circle around the first of them and a horizontal distance between them -/
def serdeHeap : Heap F :=
  { (Heap.empty : Heap F) with
    points := fun i => if i = 0 then ⟨⟨0.0, 0.0⟩, ⟨0.0, 0.0⟩⟩ else ⟨⟨1.0, 0.0⟩, ⟨0.0, 0.0⟩⟩
    lines := fun _ => ⟨0, 1⟩, circles := fun _ => ⟨0, 1.0, 0.0⟩, cons := fun _ => .horizDist 0 1 1.0
    nPoints := 2, nLines := 1, nCircles := 1, nCons := 1 }
/-- the sketch with these primitives and this constraint -/
def serdeSketch : Sketch := ⟨[(0, .point 0), (1, .point 1), (2, .line 0), (3, .circle 0)], 4, [0]⟩

/-- The keys increase.  Loaded, the sketch has the same ids; its line and its circle refer to new points, its constraint to
two others. -/
example : KeysIncrease serdeSketch.prims ∧
    let l := loadSketch (serdeHeap : Heap F) (saveSketch serdeHeap serdeSketch)
    l.2.prims = [(0, .point 2), (1, .point 3), (2, .line 1), (3, .circle 1)] ∧ l.2.cons = [1] ∧
    l.1.lines 1 = ⟨4, 5⟩ ∧ (l.1.circles 1).center = 6 ∧ l.1.cons 1 = .horizDist 7 8 1.0 := by
  refine ⟨by simp [KeysIncrease, serdeSketch], ?_⟩
  simp [serdeHeap, serdeSketch, Heap.empty, Heap.allocPoint, Heap.allocLine, Heap.allocCircle, Heap.allocCons, upd, mapInsert,
    Heap.setPoint, Heap.setLine, Heap.setCircle, Heap.setCons,
    loadSketch, saveSketch, loadPrims, loadConss, loadPrim, loadCons, loadConsBody, savePrim, saveCons, saveLine, saveCircle,
    loadLine, loadCircle]

/-- Moving the second point of the sketch itself changes its loss: the constraint acts on it. -/
example : getLossPerConstraint (serdeHeap : Heap XR) serdeSketch = [.fin 0] ∧
    ∃ h', setData (serdeHeap : Heap XR) serdeSketch [.fin 0, .fin 0, .fin 3, .fin 0, .fin 1] = .ok h' ∧
      getLossPerConstraint h' serdeSketch = [.fin 2] := by
  constructor
  · simp [getLossPerConstraint, serdeSketch, serdeHeap, lossValue, horizCurrent, ptData, upd]
    norm_num
  · simp [setData, serdeSketch, serdeHeap, getNDofs, primData, setDataLoop, primSetData, Heap.setPoint, Heap.setCircle,
      Heap.empty, Num.isFinite, XR.isFinite, upd]
    simp [getLossPerConstraint, lossValue, horizCurrent, ptData, upd]
    norm_num

end Isotope
