import Verif.Props.HardLeft
import Verif.Lemmas.Frame

/-!
# Rings and leftover gradients (C48)
-/

namespace Isotope

section
variable {F : Type} [Num F]

/-- a ring without the gradient a circle carries along -/
def Ring.plain : Ring F → Ring F
  | .circle c => .circle { c with grad := 0.0 }
  | .segments l => .segments l

/-- the vector has no NaN: it equals itself -/
def Vec2.SelfEq (v : Vec2 F) : Prop := v.beq v = true

theorem plain_area (h : Heap F) (r : Ring F) : r.plain.signedArea h = r.signedArea h := by cases r <;> rfl

theorem lines_traced {h h' : Heap F} {s : Sketch} (hg : GradOnly h h') (ha : ∀ a, PrimCell.arc a ∉ s.cells)
    (hself : ∀ l p, PrimCell.line l ∈ s.cells → (p = (h.lines l).start ∨ p = (h.lines l).stop) →
      (h.points p).data.SelfEq ∧ (h.points p).grad.SelfEq ∧ (h'.points p).grad.SelfEq)
    (hd : ∀ l l' p p', PrimCell.line l ∈ s.cells → PrimCell.line l' ∈ s.cells →
      (p = (h.lines l).start ∨ p = (h.lines l).stop) → (p' = (h.lines l').start ∨ p' = (h.lines l').stop) →
      (h.points p).data.beq (h.points p').data = true → p = p') :
    tracedRings h' s = tracedRings h s ∧ allSegments h' s = allSegments h s := by
  have hdata : ∀ p, (h'.points p).data = (h.points p).data := by
    intro p
    have := hg.2 (.point p)
    simp only [primData, List.cons.injEq, and_true] at this
    obtain ⟨e1, e2⟩ := this
    cases h1 : (h'.points p).data; cases h2 : (h.points p).data
    rw [h1, h2] at e1 e2
    simp_all
  have hseg : ∀ c ∈ s.cells, segmentOf h' c = segmentOf h c := by
    intro c hc
    cases c with
    | arc a => exact absurd hc (ha a)
    | line l => simp only [segmentOf, hg.1.lines]
    | _ => rfl
  have hdr : drawn h' s = drawn h s := by
    unfold drawn
    rw [List.flatMap_def, List.flatMap_def]
    exact congrArg List.flatten (List.map_congr_left hseg)
  have hall : allSegments h' s = allSegments h s := by rw [allSegments_eq, allSegments_eq, hdr]
  refine ⟨?_, hall⟩
  have hline : ∀ sg ∈ allSegments h s, ∃ l p q, PrimCell.line l ∈ s.cells ∧ sg = .line p q ∧
      (p = (h.lines l).start ∨ p = (h.lines l).stop) ∧ (q = (h.lines l).start ∨ q = (h.lines l).stop) := by
    have hone : ∀ sg ∈ drawn h s, ∃ l, PrimCell.line l ∈ s.cells ∧ sg = .line (h.lines l).start (h.lines l).stop := by
      intro sg hm
      obtain ⟨c, hc, hm⟩ := List.mem_flatMap.1 hm
      cases c with
      | arc a => exact absurd hc (ha a)
      | line l => exact ⟨l, hc, List.mem_singleton.1 hm⟩
      | _ => cases hm
    intro sg hm
    rw [allSegments_eq, List.mem_append, List.mem_map] at hm
    rcases hm with hm | ⟨d, hm, rfl⟩
    · obtain ⟨l, hl, rfl⟩ := hone sg hm
      exact ⟨l, _, _, hl, rfl, .inl rfl, .inr rfl⟩
    · obtain ⟨l, hl, rfl⟩ := hone d hm
      exact ⟨l, _, _, hl, rfl, .inr rfl, .inl rfl⟩
  have hpt : ∀ l l' p p', PrimCell.line l ∈ s.cells → PrimCell.line l' ∈ s.cells →
      (p = (h.lines l).start ∨ p = (h.lines l).stop) → (p' = (h.lines l').start ∨ p' = (h.lines l').stop) →
      (h'.points p).beq (h'.points p') = (h.points p).beq (h.points p') := by
    intro l l' p p' hl hl' hp hp'
    unfold Point2.beq
    rw [hdata, hdata]
    by_cases e : (h.points p).data.beq (h.points p').data = true
    · obtain rfl := hd l l' p p' hl hl' hp hp' e
      obtain ⟨-, h2, h3⟩ := hself l p hl hp
      rw [show (h'.points p).grad.beq (h'.points p).grad = true from h3,
        show (h.points p).grad.beq (h.points p).grad = true from h2]
    · simp only [Bool.not_eq_true] at e
      rw [e]; simp
  have hend : ∀ sg ∈ allSegments h s, sg.getEnd h' = sg.getEnd h ∧ sg.getStart h' = sg.getStart h ∧
      sg.startAngle h' = sg.startAngle h ∧ sg.endAngle h' = sg.endAngle h := by
    intro sg hm
    obtain ⟨l, p, q, -, rfl, -⟩ := hline sg hm
    simp only [Segment.getEnd, Segment.getStart, Segment.startAngle, Segment.endAngle, hdata, and_self]
  have sim : Sim h' (allSegments h s) h (allSegments h s) := by
    constructor
    · rfl
    · intro i j a b a' b' h1 h2 h3 h4
      rw [h1] at h2; rw [h3] at h4; cases h2; cases h4
      unfold Segment.continues
      rw [(hend a (List.mem_of_getElem? h1)).1, (hend b (List.mem_of_getElem? h3)).2.1]
    · intro i j a b a' b' h1 h2 h3 h4 _
      rw [h1] at h2; rw [h3] at h4; cases h2; cases h4
      obtain ⟨l, p, q, hl, rfl, hp, hq⟩ := hline a (List.mem_of_getElem? h1)
      obtain ⟨l', p', q', hl', rfl, hp', hq'⟩ := hline b (List.mem_of_getElem? h3)
      simp only [Segment.equalsOrReverseEquals, Segment.reverseEquals, Segment.reverse, Segment.beq]
      rw [hpt l' l p' p hl' hl hp' hp, hpt l' l q' q hl' hl hq' hq, hpt l' l p' q hl' hl hp' hq,
        hpt l' l q' p hl' hl hq' hp]
    · intro i j k a b c a' b' c' h1 h2 h3 h4 h5 h6 _ _
      rw [h1] at h2; rw [h3] at h4; rw [h5] at h6; cases h2; cases h4; cases h6
      unfold turn
      rw [(hend a (List.mem_of_getElem? h1)).2.2.2, (hend b (List.mem_of_getElem? h3)).2.2.1,
        (hend c (List.mem_of_getElem? h5)).2.2.1]
  obtain ⟨r1, r2⟩ := sim.rings
  have o1 := tracedRings_ok h' s
  have o2 := tracedRings_ok h s
  rw [hall] at o1
  have e1 : (tracedRings h' s).1 = (tracedRings h s).1 := by unfold tracedRings; rw [hall]; exact r1
  have e2 : (tracedRings h' s).2.map (fun l => l.map (·.1)) = (tracedRings h s).2.map (fun l => l.map (·.1)) := by
    unfold tracedRings; rw [hall]; exact r2
  refine Prod.ext e1 ?_
  have rec' : ∀ {hh : Heap F} {rs : List (List (Nat × Segment F))}, (∀ r ∈ rs, RingOk hh (allSegments h s) r) →
      rs = (rs.map (fun l => l.map (·.1))).map (fun l => l.filterMap (fun i => ((allSegments h s)[i]?).map (fun sg => (i, sg)))) := by
    intro hh rs hr
    rw [List.map_map]
    conv => lhs; rw [← List.map_id rs]
    apply List.map_congr_left
    intro r hrm
    have hm := (hr r hrm).mem
    clear hrm
    simp only [Function.comp, id]
    rw [List.filterMap_map]
    clear hr
    induction r with
    | nil => rfl
    | cons x r ih =>
      rw [List.filterMap_cons]
      simp only [Function.comp]
      rw [hm x (by simp)]
      simp only [Option.map_some]
      exact congrArg (x :: ·) (ih (fun y hy => hm y (by simp [hy])))
  rw [rec' o1.2.2, rec' o2.2.2, e2]

/-- **C48.** In a sketch without arcs in which different end points of lines lie at different places, the rings (apart from
the gradients that circles carry along) and the unused segments are the same before and after any change of gradients, as
long as no coordinate or gradient of an end point is NaN. -/
theorem C48_lines (h h' : Heap F) (s : Sketch) (hg : GradOnly h h') (ha : ∀ a, PrimCell.arc a ∉ s.cells)
    (hself : ∀ l p, PrimCell.line l ∈ s.cells → (p = (h.lines l).start ∨ p = (h.lines l).stop) →
      (h.points p).data.SelfEq ∧ (h.points p).grad.SelfEq ∧ (h'.points p).grad.SelfEq)
    (hd : ∀ l l' p p', PrimCell.line l ∈ s.cells → PrimCell.line l' ∈ s.cells →
      (p = (h.lines l).start ∨ p = (h.lines l).stop) → (p' = (h.lines l').start ∨ p' = (h.lines l').stop) →
      (h.points p).data.beq (h.points p').data = true → p = p') :
    (findRings h' s).1.map Ring.plain = (findRings h s).1.map Ring.plain ∧ (findRings h' s).2 = (findRings h s).2 := by
  obtain ⟨et, ea⟩ := lines_traced hg ha hself hd
  have hdata : ∀ p, (h'.points p).data = (h.points p).data := by
    intro p
    have := hg.2 (.point p)
    simp only [primData, List.cons.injEq, and_true] at this
    obtain ⟨e1, e2⟩ := this
    cases h1 : (h'.points p).data; cases h2 : (h.points p).data
    rw [h1, h2] at e1 e2
    simp_all
  have hci : ∀ c, (Ring.circle (h'.circles c) : Ring F).plain = (Ring.circle (h.circles c)).plain := by
    intro c
    have e1 := hg.1.circleCenter c
    have e2 := hg.2 (.circle c)
    simp only [primData, List.cons.injEq, and_true] at e2
    simp only [Ring.plain, e1, e2]
  have hun : (unsortedRings h' s).map Ring.plain = (unsortedRings h s).map Ring.plain := by
    unfold unsortedRings
    rw [et, List.map_append, List.map_append]
    congr 1
    unfold circleRings
    rw [List.map_filterMap, List.map_filterMap]
    congr 1
    funext kp
    cases kp.2 <;> simp [hci]
  have harea : ∀ r ∈ (unsortedRings h s).map Ring.plain, r.signedArea h' = r.signedArea h := by
    intro r hr
    obtain ⟨r, hm, rfl⟩ := List.mem_map.1 hr
    rw [plain_area, plain_area]
    cases r with
    | circle c => rfl
    | segments l =>
      have hl : ∀ sg ∈ l, ∃ p q, sg = .line p q := by
        unfold unsortedRings at hm
        rw [List.mem_append, List.mem_map] at hm
        rcases hm with ⟨t, ht, e⟩ | hm
        · cases e
          intro sg hsg
          obtain ⟨x, hx, rfl⟩ := List.mem_map.1 hsg
          have hmem := List.mem_of_getElem? (((tracedRings_ok h s).2.2 t ht).mem x hx)
          rw [allSegments_eq, List.mem_append, List.mem_map] at hmem
          have hone : ∀ sg ∈ drawn h s, ∃ p q, sg = .line p q := by
            intro sg hm
            obtain ⟨c, hc, hm⟩ := List.mem_flatMap.1 hm
            cases c with
            | arc a => exact absurd hc (ha a)
            | line l => exact ⟨_, _, List.mem_singleton.1 hm⟩
            | _ => cases hm
          rcases hmem with hm | ⟨d, hm, e⟩
          · exact hone _ hm
          · obtain ⟨p, q, rfl⟩ := hone _ hm
            exact ⟨q, p, e.symm⟩
        · obtain ⟨c, -, e⟩ := mem_circleRings.1 hm
          cases e
      simp only [Ring.signedArea]
      congr 1
      generalize (0.0 : F) = z
      clear hr hm
      induction l generalizing z with
      | nil => rfl
      | cons a l ih =>
        rw [List.foldl_cons, List.foldl_cons]
        obtain ⟨p, q, rfl⟩ := hl a (by simp)
        rw [show (Segment.line p q : Segment F).getStart h' = (Segment.line p q : Segment F).getStart h from hdata p,
          show (Segment.line p q : Segment F).getEnd h' = (Segment.line p q : Segment F).getEnd h from hdata q]
        exact ih (fun sg hsg => hl sg (by simp [hsg])) _
  constructor
  · unfold findRings
    dsimp only
    have step : ∀ hh : Heap F, (((unsortedRings hh s).mergeSort
          (fun a b => Num.totalLe (a.signedArea hh) (b.signedArea hh))).filter
          (fun r => gt (r.signedArea hh) (0.0 : F))).map Ring.plain =
        (((unsortedRings hh s).map Ring.plain).mergeSort
          (fun a b => Num.totalLe (a.signedArea hh) (b.signedArea hh))).filter (fun r => gt (r.signedArea hh) (0.0 : F)) := by
      intro hh
      rw [← List.map_mergeSort (f := Ring.plain) (r := fun a b => Num.totalLe (a.signedArea hh) (b.signedArea hh))
        (s := fun a b => Num.totalLe (a.signedArea hh) (b.signedArea hh)) (fun a _ b _ => by rw [plain_area, plain_area]),
        List.filter_map]
      congr 1
      apply List.filter_congr
      intro r _
      simp only [Function.comp, plain_area]
    have e1 := step h'
    have e2 := step h
    rw [e1, e2, hun]
    generalize hL : (unsortedRings h s).map Ring.plain = L at *
    have key := List.map_mergeSort (f := id) (l := L) (r := fun a b => Num.totalLe (a.signedArea h') (b.signedArea h'))
      (s := fun a b => Num.totalLe (a.signedArea h) (b.signedArea h))
      (fun a ha b hb => by rw [harea a ha, harea b hb]; rfl)
    rw [List.map_id, List.map_id] at key
    rw [key]
    apply List.filter_congr
    intro r hr
    rw [harea r (List.mem_mergeSort.1 hr)]
  · show unusedSegments h' s = unusedSegments h s
    unfold unusedSegments
    rw [et, initSegments_eq, initSegments_eq]
    have : drawn h' s = drawn h s := by
      unfold drawn
      rw [List.flatMap_def, List.flatMap_def]
      refine congrArg List.flatten (List.map_congr_left ?_)
      intro c hc
      cases c with
      | arc a => exact absurd hc (ha a)
      | line l => simp only [segmentOf, hg.1.lines]
      | _ => rfl
    rw [this]
end

/-! ## A face that vanishes -/

open XR

/-- `find_next_segment` when only one segment may follow -/
theorem findNext_only {F : Type} [Num F] {h : Heap F} {segs : List (Segment F)} {cur : Segment F} {used : List Nat} {i : Nat}
    {sg : Segment F} (hm : MayFollow h segs cur used i sg) (ho : ∀ j sj, MayFollow h segs cur used j sj → j = i) :
    findNextSegment h segs cur used = some (i, sg) := by
  cases e : findNextSegment h segs cur used with
  | none => exact absurd ⟨i, sg, hm⟩ (findNext_none.1 e)
  | some x =>
    have hx := findNext_some e
    have := ho _ _ hx
    have h1 := hx.1
    rw [this, hm.1] at h1
    cases h1
    rw [← this]

/-- `find_next_segment` when one segment is a harder left turn than all others -/
theorem findNext_hardest {h : Heap XR} {segs : List (Segment XR)} {cur : Segment XR} {used : List Nat} {i : Nat}
    {sg : Segment XR} {t : ℝ} (hm : MayFollow h segs cur used i sg) (ht : turn h cur sg = fin t)
    (ho : ∀ j sj, MayFollow h segs cur used j sj → j = i ∨ ∃ u : ℝ, turn h cur sj = fin u ∧ u < t) :
    findNextSegment h segs cur used = some (i, sg) := by
  cases e : findNextSegment h segs cur used with
  | none => exact absurd ⟨i, sg, hm⟩ (findNext_none.1 e)
  | some x =>
    have hx := findNext_some e
    have hi : x.1 = i := by
      rcases ho _ _ hx with hi | ⟨u, hu, hlt⟩
      · exact hi
      · have := C41_hardest_left_float h segs cur used x (fun j sj hj => by
          rcases ho _ _ hj with rfl | ⟨u, hu, -⟩
          · have := hm.1; rw [hj.1] at this; cases this; rw [ht]; simp
          · rw [hu]; simp) e i sg hm
        rw [ht, hu] at this
        simp at this
        linarith
    have h1 := hx.1
    rw [hi, hm.1] at h1
    cases h1
    rw [← hi]

/-- two lines and a quarter circle around the origin that enclose an area; a constraint asks the arc to end elsewhere -/
noncomputable def sliceHeap : Heap XR :=
  { drawing [(0, 0), (1, 0), (0, 1), (1 / 2, -1), (2, 0)] [(3, 1), (2, 3)]
      [⟨0, ⟨fin 1, fin (Real.pi / 2), fin 0⟩, ⟨fin 0, fin 0, fin 0⟩, false⟩] with
    cons := fun _ => .arcEnd 0 4
    nCons := 1 }

/-- all its primitives and the constraint -/
def sliceSketch : Sketch := ⟨[(0, .point 0), (1, .point 1), (2, .point 2), (3, .point 3), (4, .point 4), (5, .line 0),
  (6, .line 1), (7, .arc 0)], 8, [0]⟩

theorem slice_before : ∃ segs k, findRings sliceHeap sliceSketch = ([.segments segs], []) ∧
      List.Forall₂ (EndsAt sliceHeap) segs (edges ([(1 / 2, -1), (1, 0), (0, 1)].rotate k)) := by
  have ha : shoelace [(1 / 2, -1), (1, 0), (0, 1)] = 3 / 4 := by rw [C49_triangle]; norm_num
  have := C43_found sliceHeap sliceSketch [(1 / 2, -1), (1, 0), (0, 1)] (by simp) (by norm_num) (by
      refine ⟨[.line 3 1, .line 2 3, .arc (sliceHeap.arcs 0).reverse], ?_, ?_⟩
      · simp [drawn, sliceSketch, Sketch.cells, segmentOf, sliceHeap, drawing, Segment.reverse]
      · simp only [List.map_cons, List.map_nil, Segment.getStart, Segment.getEnd, sliceHeap, drawing, edges, Arc.startPoint,
          Arc.endPoint, Arc.radius, Arc.startAngle, Arc.endAngle, Arc.reverse, Arc.new]
        simp [toVec]
        exact .swap _ _ _)
    (by
      intro d hd
      simp [drawn, sliceSketch, Sketch.cells, segmentOf] at hd
      rcases hd with rfl | rfl | rfl
      · exact C43_way_back_line _ _ _ _ _ _ _ _ _ _ _ rfl rfl
      · exact C43_way_back_line _ _ _ _ _ _ _ _ _ _ _ rfl rfl
      · exact C43_way_back_arc _ _ _ _ _ _ _ _ _ rfl rfl rfl)
    (by simp [sliceSketch, Sketch.cells]) (by rw [ha]; norm_num)
  rw [ha] at this
  rwa [if_pos (by norm_num)] at this

/-- what matters about the heap after `get_gradient` -/
structure SliceAfter (h : Heap XR) (a b u v w : ℝ) : Prop where
  l0 : h.lines 0 = ⟨3, 1⟩
  l1 : h.lines 1 = ⟨2, 3⟩
  p0 : h.points 0 = ⟨⟨fin 0, fin 0⟩, ⟨fin a, fin b⟩⟩
  p1 : h.points 1 = ⟨⟨fin 1, fin 0⟩, ⟨fin 0, fin 0⟩⟩
  p2 : h.points 2 = ⟨⟨fin 0, fin 1⟩, ⟨fin 0, fin 0⟩⟩
  p3 : h.points 3 = ⟨⟨fin (1 / 2), fin (-1)⟩, ⟨fin 0, fin 0⟩⟩
  a0 : h.arcs 0 = ⟨0, ⟨fin 1, fin (Real.pi / 2), fin 0⟩, ⟨fin u, fin v, fin w⟩, false⟩
  hu : u ≠ 0

/-- the arc with its gradient -/
noncomputable def sliceArc (u v w : ℝ) : Segment XR :=
  .arc ⟨0, ⟨fin 1, fin (Real.pi / 2), fin 0⟩, ⟨fin u, fin v, fin w⟩, false⟩

/-- the reversed arc; its gradient is zero -/
noncomputable def sliceBack : Segment XR :=
  .arc ⟨0, ⟨fin 1, fin 0, fin (Real.pi / 2)⟩, ⟨fin 0, fin 0, fin 0⟩, true⟩

theorem pin_turn (k : ℤ) (h1 : 0 < k * (2 * Real.pi)) (h2 : k * (2 * Real.pi) < 2 * (2 * Real.pi)) : k = 1 := by
  have hp : (0 : ℝ) < 2 * Real.pi := by have := Real.pi_pos; positivity
  have h1 : (0 : ℝ) < k := by by_contra hc; nlinarith
  have h2 : (k : ℝ) < 2 := by nlinarith
  have h1 : 0 < k := by exact_mod_cast h1
  have h2 : k < 2 := by exact_mod_cast h2
  omega

section slice
variable {h : Heap XR} {a b u v w : ℝ} (S : SliceAfter h a b u v w)
include S

theorem SliceAfter.all : allSegments h sliceSketch =
    [.line 3 1, .line 2 3, sliceArc u v w, .line 1 3, .line 3 2, sliceBack] := by
  simp [allSegments, initSegments, sliceSketch, S.l0, S.l1, S.a0, Segment.reverse, Arc.reverse, Arc.new, sliceArc, sliceBack,
    Row3.zeros, Arc.radius, Arc.startAngle, Arc.endAngle]
  norm_num

theorem SliceAfter.starts :
    ((.line 3 1 : Segment XR).getStart h = ⟨fin (1 / 2), fin (-1)⟩ ∧ (.line 2 3 : Segment XR).getStart h = ⟨fin 0, fin 1⟩ ∧
    (sliceArc u v w).getStart h = ⟨fin 0, fin 1⟩ ∧ (.line 1 3 : Segment XR).getStart h = ⟨fin 1, fin 0⟩ ∧
    (.line 3 2 : Segment XR).getStart h = ⟨fin (1 / 2), fin (-1)⟩ ∧ sliceBack.getStart h = ⟨fin 1, fin 0⟩) ∧
    ((.line 3 1 : Segment XR).getEnd h = ⟨fin 1, fin 0⟩ ∧ (.line 2 3 : Segment XR).getEnd h = ⟨fin (1 / 2), fin (-1)⟩ ∧
    (sliceArc u v w).getEnd h = ⟨fin 1, fin 0⟩ ∧ (.line 1 3 : Segment XR).getEnd h = ⟨fin (1 / 2), fin (-1)⟩ ∧
    (.line 3 2 : Segment XR).getEnd h = ⟨fin 0, fin 1⟩ ∧ sliceBack.getEnd h = ⟨fin 0, fin 1⟩) := by
  simp [Segment.getStart, Segment.getEnd, sliceArc, sliceBack, Arc.startPoint, Arc.endPoint, Arc.radius, Arc.startAngle,
    Arc.endAngle, S.p0, S.p1, S.p2, S.p3]

/-- the way back along the arc is not recognised, the way back along the reversed arc is -/
theorem SliceAfter.arcs : (sliceArc u v w).beq h sliceBack = false ∧ (sliceArc u v w).beq h sliceBack.reverse = false ∧
    sliceBack.beq h (sliceArc u v w).reverse = true := by
  have h0 := S.hu
  refine ⟨?_, ?_, ?_⟩
  · simp [sliceArc, sliceBack, Segment.beq, Arc.beq]
  · simp [sliceArc, sliceBack, Segment.beq, Arc.beq, Segment.reverse, Arc.reverse, Arc.new, Row3.beq, Row3.zeros]
    norm_num
    tauto
  · simp [sliceArc, sliceBack, Segment.beq, Arc.beq, Segment.reverse, Arc.reverse, Arc.new, Row3.beq, Row3.zeros,
      Arc.radius, Arc.startAngle, Arc.endAngle, Point2.beq, Vec2.beq, S.p0]
    norm_num

theorem SliceAfter.lines : (.line 1 3 : Segment XR).beq h (.line 1 3) = true ∧ (.line 3 2 : Segment XR).beq h (.line 3 2) = true ∧
    (.line 2 3 : Segment XR).beq h (.line 2 3) = true ∧ (.line 3 1 : Segment XR).beq h (.line 3 1) = true ∧
    (.line 2 3 : Segment XR).beq h (.line 3 1) = false ∧ (.line 1 3 : Segment XR).beq h (sliceArc u v w) = false ∧
    (.line 1 3 : Segment XR).beq h (sliceArc u v w).reverse = false := by
  simp [Segment.beq, Point2.beq, Vec2.beq, S.p1, S.p2, S.p3, sliceArc, Segment.reverse]

omit S in
theorem slice_cases {cur sj : Segment XR} {used : List Nat} {j : Nat}
    (hm : MayFollow h [.line 3 1, .line 2 3, sliceArc u v w, .line 1 3, .line 3 2, sliceBack] cur used j sj) :
    (j = 0 ∧ sj = .line 3 1) ∨ (j = 1 ∧ sj = .line 2 3) ∨ (j = 2 ∧ sj = sliceArc u v w) ∨ (j = 3 ∧ sj = .line 1 3) ∨
    (j = 4 ∧ sj = .line 3 2) ∨ (j = 5 ∧ sj = sliceBack) := by
  have := hm.1
  match j, this with
  | 0, e | 1, e | 2, e | 3, e | 4, e | 5, e => simp at e; simp [e]
  | n + 6, e => simp at e

/-- after the first line comes the reversed arc -/
theorem SliceAfter.next0 :
    findNextSegment h [.line 3 1, .line 2 3, sliceArc u v w, .line 1 3, .line 3 2, sliceBack] (.line 3 1) [] =
      some (5, sliceBack) := by
  obtain ⟨⟨s0, s1, s2, s3, s4, s5⟩, e0, -⟩ := S.starts
  apply findNext_only
  · refine ⟨rfl, by simp, ?_, rfl, rfl⟩
    rw [e0, s5]; simp [Vec2.beq]
  · rintro j sj hm
    have hc := hm.2.2.1
    have hr := hm.2.2.2.2
    rw [e0] at hc
    rcases slice_cases hm with ⟨rfl, rfl⟩ | ⟨rfl, rfl⟩ | ⟨rfl, rfl⟩ | ⟨rfl, rfl⟩ | ⟨rfl, rfl⟩ | ⟨rfl, rfl⟩
    · rw [s0] at hc; simp [Vec2.beq] at hc
    · rw [s1] at hc; simp [Vec2.beq] at hc
    · rw [s2] at hc; simp [Vec2.beq] at hc
    · rw [Segment.reverse, S.lines.1] at hr; cases hr
    · rw [s4] at hc; simp [Vec2.beq] at hc
    · rfl

/-- after the reversed arc comes the arc itself, since it is not recognised as the way back -/
theorem SliceAfter.next5 :
    findNextSegment h [.line 3 1, .line 2 3, sliceArc u v w, .line 1 3, .line 3 2, sliceBack] sliceBack [] =
      some (2, sliceArc u v w) := by
  have hp := Real.pi_pos
  obtain ⟨⟨s0, s1, s2, s3, s4, s5⟩, e0, e1, e2, e3, e4, e5⟩ := S.starts
  have hback : Num.rem (sliceBack.endAngle h + Num.pi) ((2.0 : XR) * Num.pi) = fin (3 * Real.pi / 2) := by
    rw [sliceBack, Segment.endAngle, Arc.endAngle, lit2, pi_fin, add_fin, mul_fin]
    show XR.rem _ _ = _
    rw [XR.rem, if_neg (by positivity)]
    have e : (Real.pi / 2 + Real.pi) / (2 * Real.pi) = 3 / 4 := by field_simp; norm_num
    rw [e, trunc, if_neg (by norm_num), show ⌊(3 / 4 : ℝ)⌋ = 0 by norm_num]
    congr 1; push_cast; ring
  apply findNext_hardest (t := Real.pi)
  · refine ⟨rfl, by simp, ?_, S.arcs.1, S.arcs.2.1⟩
    rw [e5, s2]; simp [Vec2.beq]
  · unfold turn
    rw [hback, sliceArc, Segment.startAngle, Arc.startAngle]
    obtain ⟨d, k, e, l1, l2, hd⟩ := C42_angle_difference (3 * Real.pi / 2) (Real.pi / 2) (by linarith) (by linarith)
      (by linarith) (by linarith)
    rw [e, hd, pin_turn k (by linarith) (by linarith)]
    push_cast; ring_nf
  · rintro j sj hm
    have hc := hm.2.2.1
    rw [e5] at hc
    rcases slice_cases hm with ⟨rfl, rfl⟩ | ⟨rfl, rfl⟩ | ⟨rfl, rfl⟩ | ⟨rfl, rfl⟩ | ⟨rfl, rfl⟩ | ⟨rfl, rfl⟩
    · rw [s0] at hc; simp [Vec2.beq] at hc
    · right
      obtain ⟨θ, hθ, h1, h2⟩ : ∃ θ : ℝ, (.line 2 3 : Segment XR).startAngle h = fin θ ∧ -(Real.pi / 2) < θ ∧ θ < 0 := by
        refine ⟨Complex.arg ⟨1 / 2, -2⟩, ?_, ?_, ?_⟩
        · rw [Segment.startAngle, S.p2, S.p3]
          simp only [sub_fin, atan2_fin]
          norm_num
        · exact (abs_lt.1 (Complex.abs_arg_lt_pi_div_two_iff.2 (.inl (by norm_num)))).1
        · exact Complex.arg_neg_iff.2 (by norm_num)
      refine ⟨θ + Real.pi / 2, ?_, by linarith⟩
      unfold turn
      rw [hback, hθ]
      obtain ⟨d, k, e, l1, l2, hd⟩ := C42_angle_difference (3 * Real.pi / 2) θ (by linarith) (by linarith) (by linarith)
        (by linarith)
      rw [e, hd, pin_turn k (by linarith) (by linarith)]
      push_cast; ring_nf
    · exact .inl rfl
    · rw [s3] at hc; simp [Vec2.beq] at hc
    · rw [s4] at hc; simp [Vec2.beq] at hc
    · rw [s5] at hc; simp [Vec2.beq] at hc

/-- after the arc comes the reverse of the first line -/
theorem SliceAfter.next2 :
    findNextSegment h [.line 3 1, .line 2 3, sliceArc u v w, .line 1 3, .line 3 2, sliceBack] (sliceArc u v w) [] =
      some (3, .line 1 3) := by
  obtain ⟨⟨s0, s1, s2, s3, s4, s5⟩, e0, e1, e2, e3, e4, e5⟩ := S.starts
  apply findNext_only
  · refine ⟨rfl, by simp, ?_, rfl, rfl⟩
    rw [e2, s3]; simp [Vec2.beq]
  · rintro j sj hm
    have hc := hm.2.2.1
    have hr := hm.2.2.2.2
    rw [e2] at hc
    rcases slice_cases hm with ⟨rfl, rfl⟩ | ⟨rfl, rfl⟩ | ⟨rfl, rfl⟩ | ⟨rfl, rfl⟩ | ⟨rfl, rfl⟩ | ⟨rfl, rfl⟩
    · rw [s0] at hc; simp [Vec2.beq] at hc
    · rw [s1] at hc; simp [Vec2.beq] at hc
    · rw [s2] at hc; simp [Vec2.beq] at hc
    · rfl
    · rw [s4] at hc; simp [Vec2.beq] at hc
    · rw [S.arcs.2.2] at hr; cases hr

/-- the other two lines lead nowhere -/
theorem SliceAfter.next1 :
    findNextSegment h [.line 3 1, .line 2 3, sliceArc u v w, .line 1 3, .line 3 2, sliceBack] (.line 2 3) [0, 5, 2, 3] =
      none ∧
    findNextSegment h [.line 3 1, .line 2 3, sliceArc u v w, .line 1 3, .line 3 2, sliceBack] (.line 3 2) [0, 5, 2, 3] =
      none := by
  obtain ⟨⟨s0, s1, s2, s3, s4, s5⟩, e0, e1, e2, e3, e4, e5⟩ := S.starts
  obtain ⟨l1, l2, l3, l4, -⟩ := S.lines
  constructor
  all_goals
    rw [findNext_none]
    rintro ⟨j, sj, hm⟩
    have hn := hm.2.1
    have hc := hm.2.2.1
    have hs := hm.2.2.2.1
    have hr := hm.2.2.2.2
  · rw [e1] at hc
    rcases slice_cases hm with ⟨rfl, rfl⟩ | ⟨rfl, rfl⟩ | ⟨rfl, rfl⟩ | ⟨rfl, rfl⟩ | ⟨rfl, rfl⟩ | ⟨rfl, rfl⟩
    · simp at hn
    · rw [l3] at hs; cases hs
    · simp at hn
    · simp at hn
    · rw [Segment.reverse, l2] at hr; cases hr
    · simp at hn
  · rw [e4] at hc
    rcases slice_cases hm with ⟨rfl, rfl⟩ | ⟨rfl, rfl⟩ | ⟨rfl, rfl⟩ | ⟨rfl, rfl⟩ | ⟨rfl, rfl⟩ | ⟨rfl, rfl⟩
    · simp at hn
    · rw [Segment.reverse, l3] at hr; cases hr
    · simp at hn
    · simp at hn
    · rw [l2] at hs; cases hs
    · simp at hn

theorem SliceAfter.traced : tracedRings h sliceSketch =
    ([0, 5, 2, 3], [[(0, .line 3 1), (5, sliceBack), (2, sliceArc u v w), (3, .line 1 3)]]) := by
  obtain ⟨⟨s0, s1, s2, s3, s4, s5⟩, e0, e1, e2, e3, e4, e5⟩ := S.starts
  unfold tracedRings
  rw [S.all]
  have w0 : ringWalk h [.line 3 1, .line 2 3, sliceArc u v w, .line 1 3, .line 3 2, sliceBack] []
      ((.line 3 1 : Segment XR).getStart h) 5 (0, .line 3 1) [] =
      some [(0, .line 3 1), (5, sliceBack), (2, sliceArc u v w), (3, .line 1 3)] := by
    unfold ringWalk
    dsimp only
    rw [e0, s0, if_neg (by simp [Vec2.beq]), S.next0]
    dsimp only
    unfold ringWalk
    dsimp only
    rw [e5, if_neg (by simp [Vec2.beq]), S.next5]
    dsimp only
    unfold ringWalk
    dsimp only
    rw [e2, if_neg (by simp [Vec2.beq]), S.next2]
    dsimp only
    unfold ringWalk
    dsimp only
    rw [e3, if_pos (by simp [Vec2.beq])]
    rfl
  have w1 : ringWalk h [.line 3 1, .line 2 3, sliceArc u v w, .line 1 3, .line 3 2, sliceBack] [0, 5, 2, 3]
      ((.line 2 3 : Segment XR).getStart h) 5 (1, .line 2 3) [] = none := by
    unfold ringWalk
    dsimp only
    rw [e1, s1, if_neg (by simp [Vec2.beq]), S.next1.1]
  have w4 : ringWalk h [.line 3 1, .line 2 3, sliceArc u v w, .line 1 3, .line 3 2, sliceBack] [0, 5, 2, 3]
      ((.line 3 2 : Segment XR).getStart h) 5 (4, .line 3 2) [] = none := by
    unfold ringWalk
    dsimp only
    rw [e4, s4, if_neg (by simp [Vec2.beq]), S.next1.2]
  simp only [enumFrom, ringLoop, List.length_cons, List.length_nil]
  norm_num [w0, w1, w4]

theorem slice_after : findRings h sliceSketch = ([], [.line 2 3]) := by
  obtain ⟨⟨s0, s1, s2, s3, s4, s5⟩, e0, e1, e2, e3, e4, e5⟩ := S.starts
  refine Prod.ext ?_ ?_
  · have hu : unsortedRings h sliceSketch = [.segments [.line 3 1, sliceBack, sliceArc u v w, .line 1 3]] := by
      unfold unsortedRings; rw [S.traced]; rfl
    have area : (Ring.segments [.line 3 1, sliceBack, sliceArc u v w, .line 1 3]).signedArea h = fin 0 := by
      simp only [Ring.signedArea, List.foldl_cons, List.foldl_nil, s0, s2, s3, s5, e0, e2, e3, e5]
      simp
      norm_num [div_fin]
    unfold findRings
    rw [hu]
    dsimp only
    rw [List.mergeSort_singleton, List.filter_cons, area, lit0]
    simp
  · show unusedSegments _ _ = _
    unfold unusedSegments
    rw [S.traced]
    simp [initSegments, sliceSketch, enumFrom, S.l0, S.l1]

end slice

theorem slice_gradient : ∃ g h' a b u v w, getGradient sliceHeap sliceSketch = .ok (g, h') ∧ SliceAfter h' a b u v w := by
  have hz : zeroGrads sliceHeap sliceSketch = sliceHeap := by
    have z : (0.0 : ℝ) = 0 := by norm_num
    unfold zeroGrads sliceSketch
    simp only [List.foldl_cons, List.foldl_nil, primZeroGrad, Heap.setPoint, Heap.setArc, Vec2.zeros, Row3.zeros, sci, z]
    have e1 : ∀ (f : Nat → Point2 XR) (i : Nat), (f i).grad = ⟨fin 0, fin 0⟩ → upd f i { f i with grad := ⟨fin 0, fin 0⟩ } = f := by
      intro f i e
      funext j
      unfold upd
      split
      next hj => subst hj; rw [← e]
      next => rfl
    have e2 : ∀ (f : Nat → Arc XR) (i : Nat), (f i).grad = ⟨fin 0, fin 0, fin 0⟩ →
        upd f i { f i with grad := ⟨fin 0, fin 0, fin 0⟩ } = f := by
      intro f i e
      funext j
      unfold upd
      split
      next hj => subst hj; rw [← e]
      next => rfl
    rw [e1 _ 0 rfl, e1 _ 1 rfl, e1 _ 2 rfl, e1 _ 3 rfl, e1 _ 4 rfl, e2 _ 0 rfl]
  have hu : arcEndUpdate sliceHeap 0 4 = .ok
      ((sliceHeap.setPoint 0 ⟨⟨fin 0, fin 0⟩, ⟨fin (-1), fin 0⟩⟩).setArc 0 ⟨0, ⟨fin 1, fin (Real.pi / 2), fin 0⟩, ⟨fin (-1), fin 0, fin 0⟩, false⟩ |>.setPoint 4 ⟨⟨fin 2, fin 0⟩, ⟨fin 1, fin 0⟩⟩) := by
    simp [arcEndUpdate, sliceHeap, drawing, Arc.endPoint, ptData, Arc.radius, Arc.endAngle, Arc.endPointGradient, Vec2.mul25, toVec,
      arcAddGrad, pointAddGrad, Row5.allFinite, Vec2.allFinite]
    have z : (0.0 : ℝ) = 0 := by norm_num
    have o : (1.0 : ℝ) = 1 := by norm_num
    have v2 : ∀ a b c d : ℝ, (⟨fin a, fin b⟩ : Vec2 XR) + ⟨fin c, fin d⟩ = ⟨fin (a + c), fin (b + d)⟩ := fun _ _ _ _ => rfl
    have n2 : ∀ a b : ℝ, -(⟨fin a, fin b⟩ : Vec2 XR) = ⟨fin (-a), fin (-b)⟩ := fun _ _ => rfl
    have r3 : ∀ a b c d e f : ℝ, (⟨fin a, fin b, fin c⟩ : Row3 XR) + ⟨fin d, fin e, fin f⟩ =
      ⟨fin (a + d), fin (b + e), fin (c + f)⟩ := fun _ _ _ _ _ _ => rfl
    simp only [bind, Except.bind, Vec2.mul22, pointGradient, v2, n2, Heap.setPoint, Heap.setArc, upd, sci, mul_fin, add_fin,
      isFinite_fin, z, o, and_self, if_true]
    norm_num [r3, v2]
  unfold getGradient
  rw [hz]
  have hu' : updateAll sliceHeap sliceSketch.cons = arcEndUpdate sliceHeap 0 4 := by
    simp only [updateAll, sliceSketch, List.foldlM_cons, List.foldlM_nil]
    show (do let s' ← arcEndUpdate sliceHeap 0 4; pure s') = _
    simp
  rw [hu', hu]
  dsimp only
  generalize hh : Heap.setPoint _ 4 _ = h'
  have hc : ∃ g, collectGradient h' sliceSketch = some g := by
    subst hh
    unfold collectGradient sliceSketch
    simp [primGrad, Heap.setPoint, Heap.setArc, upd, sliceHeap, drawing]
  obtain ⟨g, hc⟩ := hc
  rw [hc]
  refine ⟨g, h', -1, 0, -1, 0, 0, rfl, ?_⟩
  subst hh
  constructor <;> simp [Heap.setPoint, Heap.setArc, upd, sliceHeap, drawing, toVec]

/-- **C48 (refutation).** A sketch in which `find_rings` finds a ring before `get_gradient` is called and none afterwards. -/
theorem C48_face_vanishes : ∃ (g : List XR) (h' : Heap XR) (segs : List (Segment XR)),
    getGradient sliceHeap sliceSketch = .ok (g, h') ∧ GradOnly sliceHeap h' ∧
    findRings sliceHeap sliceSketch = ([.segments segs], []) ∧ findRings h' sliceSketch = ([], [.line 2 3]) := by
  obtain ⟨g, h', a, b, u, v, w, e, S⟩ := slice_gradient
  obtain ⟨segs, k, e', -⟩ := slice_before
  have fr := getGradient_gradOnly sliceHeap sliceSketch
  rw [e] at fr
  exact ⟨g, h', segs, e, fr, e', slice_after S⟩

/-- the hypotheses of `C48_lines` can be met: the triangle, every point with gradient (1, 2) -/
example : let h' : Heap XR := { triHeap with points := fun i => { triHeap.points i with grad := ⟨fin 1, fin 2⟩ } }
    (findRings h' triSketch).1.map Ring.plain = (findRings triHeap triSketch).1.map Ring.plain ∧
    (findRings h' triSketch).2 = (findRings triHeap triSketch).2 := by
  apply C48_lines
  · exact ⟨⟨rfl, rfl, fun _ => rfl, fun _ => rfl, fun _ => rfl, rfl, rfl, rfl, rfl, rfl⟩, fun c => by cases c <;> rfl⟩
  · simp [triSketch, Sketch.cells]
  · intro l p _ _
    simp [Vec2.SelfEq, Vec2.beq, triHeap, drawing, toVec]
  · intro l l' p p' hl hl' hp hp' e
    simp only [triSketch, Sketch.cells, List.map_cons, List.map_nil, List.mem_cons, List.not_mem_nil, or_false, reduceCtorEq,
      false_or, PrimCell.line.injEq] at hl hl'
    rcases hl with rfl | rfl | rfl <;> rcases hl' with rfl | rfl | rfl <;> rcases hp with rfl | rfl <;>
      rcases hp' with rfl | rfl <;> first | rfl | (exfalso; revert e; simp [Vec2.beq, triHeap, drawing, toVec])

end Isotope
