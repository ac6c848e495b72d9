import Verif.Lemmas.Grid

/-!
# Unused segments (C44)
-/

namespace Isotope
variable {F : Type} [Num F]

/-- the chain never turns straight back: no segment is followed (by value) by itself or its reverse -/
def NoUTurn (h : Heap F) (segs : List (Segment F)) : Prop :=
  ∀ i a b, segs[i]? = some a → segs[i + 1]? = some b → b.beq h a = false ∧ b.beq h a.reverse = false

theorem RingOk.noUTurn {h : Heap F} {segs : List (Segment F)} {ring : List (Nat × Segment F)} (ok : RingOk h segs ring) :
    NoUTurn h (ring.map (·.2)) := by
  intro i a b ha hb
  rw [List.getElem?_map, Option.map_eq_some_iff] at ha hb
  obtain ⟨x, hx, rfl⟩ := ha
  obtain ⟨y, hy, rfl⟩ := hb
  have hl : i + 1 < ring.length := by
    by_contra hl
    rw [List.getElem?_eq_none (by omega)] at hy; cases hy
  have := List.isChain_iff_getElem.1 ok.noback i hl
  rw [List.getElem?_eq_getElem (by omega)] at hx
  rw [List.getElem?_eq_getElem hl] at hy
  cases hx; cases hy
  exact this

theorem mem_unused {h : Heap F} {s : Sketch} {sg : Segment F} :
    sg ∈ (findRings h s).2 ↔ ∃ i, (drawn h s)[i]? = some sg ∧ i ∉ (tracedRings h s).1 := by
  show sg ∈ unusedSegments h s ↔ _
  unfold unusedSegments
  rw [initSegments_eq, List.mem_filterMap]
  constructor
  · rintro ⟨⟨i, x⟩, hx, e⟩
    split at e
    · cases e
    next hc =>
      cases e
      exact ⟨i, mem_enum.1 hx, fun hm => hc (List.contains_iff_mem.2 hm)⟩
  · rintro ⟨i, hi, hn⟩
    exact ⟨(i, sg), mem_enum.2 hi, by rw [if_neg (fun hc => hn (List.contains_iff_mem.1 hc))]⟩

/-- **C44.** What is reported unused are lines and arcs of the sketch, as drawn, in order, each at most as often as drawn. -/
theorem C44_drawn (h : Heap F) (s : Sketch) : (findRings h s).2.Sublist (drawn h s) := by
  show (unusedSegments h s).Sublist _
  unfold unusedSegments
  rw [initSegments_eq]
  have e := enumFrom_map_snd (drawn h s) 0
  conv => rhs; rw [← e]
  generalize enumFrom 0 (drawn h s) = l
  induction l with
  | nil => exact .slnil
  | cons x l ih =>
    rw [List.filterMap_cons, List.map_cons]
    by_cases hc : (tracedRings h s).1.contains x.1 = true
    · rw [if_pos hc]; exact ih.cons _
    · rw [if_neg hc]; exact ih.cons_cons _

/-- **C44.** Every line or arc is reported unused, or lies on a closed chain of lines and arcs of the sketch (as drawn or
reversed) that never turns straight back. -/
theorem C44_unused (h : Heap F) (s : Sketch) (sg : Segment F) (hs : sg ∈ drawn h s) :
    sg ∈ (findRings h s).2 ∨
    ∃ segs, ClosedChain h segs ∧ NoUTurn h segs ∧ sg ∈ segs ∧
      segs.Subperm (drawn h s ++ (drawn h s).map Segment.reverse) := by
  obtain ⟨i, hi⟩ := List.mem_iff_getElem?.1 hs
  by_cases hu : i ∈ (tracedRings h s).1
  · right
    obtain ⟨h1, h2, h3⟩ := tracedRings_ok h s
    rw [h1] at hu
    obtain ⟨x, hx, rfl⟩ := List.mem_map.1 hu
    obtain ⟨r, hr, hxr⟩ := List.mem_flatten.1 hx
    refine ⟨r.map (·.2), (h3 r hr).closedChain, (h3 r hr).noUTurn, List.mem_map.2 ⟨x, hxr, ?_⟩, ?_⟩
    · have := (h3 r hr).mem x hxr
      rw [allSegments_eq, List.getElem?_append_left (by
        by_contra hl
        rw [List.getElem?_eq_none (by omega)] at hi; cases hi), hi] at this
      cases this; rfl
    · rw [← allSegments_eq]
      exact ((List.sublist_flatten_of_mem hr).map _).subperm.trans (traced_subperm h s)
  · exact .inl (mem_unused.2 ⟨i, hi, hu⟩)

/-- **C44.** If no two of the directed segments are the same, no ring goes along a segment reported unused in the direction
drawn. -/
theorem C44_not_in_ring (h : Heap F) (s : Sketch) (hd : (drawn h s ++ (drawn h s).map Segment.reverse).Nodup)
    (sg : Segment F) (hs : sg ∈ (findRings h s).2) (r : Ring F) (hr : r ∈ (findRings h s).1) : sg ∉ r.segs := by
  intro hm
  obtain ⟨i, hi, hu⟩ := mem_unused.1 hs
  obtain ⟨hr, -⟩ := mem_findRings.1 hr
  rcases hr with hc | ⟨t, ht, rfl⟩
  · obtain ⟨c, -, rfl⟩ := mem_circleRings.1 hc
    cases hm
  · obtain ⟨h1, h2, h3⟩ := tracedRings_ok h s
    obtain ⟨x, hx, e⟩ := List.mem_map.1 hm
    have hg := (h3 t ht).mem x hx
    rw [← allSegments_eq] at hd
    have hi' : (allSegments h s)[i]? = some sg := by
      rw [allSegments_eq, List.getElem?_append_left (by
        by_contra hl
        rw [List.getElem?_eq_none (by omega)] at hi; cases hi), hi]
    have : x.1 = i := by
      have b1 : x.1 < (allSegments h s).length := by
        by_contra hl
        rw [List.getElem?_eq_none (by omega)] at hg; cases hg
      exact (List.getElem?_inj b1 hd).1 (by rw [hg, hi', e])
    apply hu
    rw [h1, ← this]
    exact List.mem_map.2 ⟨x, List.mem_flatten.2 ⟨t, ht, hx⟩, rfl⟩

/-! ## Segments reported wrongly -/

open XR

/-- six points: the corners of a square and two points beside it -/
def cornerPts : List (Int × Int) := [(0, 0), (1, 0), (1, 1), (0, 1), (-1, 0), (2, 0)]

/-- a square, drawn counter-clockwise, and a line that ends at its first corner -/
noncomputable def spurHeap : Heap XR := drawing (realPts cornerPts) [(0, 1), (1, 2), (2, 3), (3, 0), (4, 0)] []

/-- its five points and five lines -/
def spurSketch : Sketch := ⟨[(0, .point 0), (1, .point 1), (2, .point 2), (3, .point 3), (4, .point 4), (5, .line 0),
  (6, .line 1), (7, .line 2), (8, .line 3), (9, .line 4)], 10, []⟩

/-- a square, drawn clockwise, and two lines that end at its lower corners -/
noncomputable def legsHeap : Heap XR := drawing (realPts cornerPts) [(0, 3), (3, 2), (2, 1), (1, 0), (4, 0), (5, 1)] []

/-- its six points and six lines -/
def legsSketch : Sketch := ⟨[(0, .point 0), (1, .point 1), (2, .point 2), (3, .point 3), (4, .point 4), (5, .point 5),
  (6, .line 0), (7, .line 1), (8, .line 2), (9, .line 3), (10, .line 4), (11, .line 5)], 12, []⟩

theorem findRings_single {F : Type} [Num F] {h : Heap F} {s : Sketch} {r : Ring F}
    (e : (unsortedRings h s).filter (fun r => gt (r.signedArea h) (0.0 : F)) = [r]) : (findRings h s).1 = [r] := by
  unfold findRings
  dsimp only
  rw [← List.perm_singleton, ← e]
  exact (List.mergeSort_perm _ _).filter _

theorem spur_traced : (tracedRings spurHeap spurSketch).1 = [0, 1, 2, 3, 4, 8, 7, 6, 5, 9] ∧
    (tracedRings spurHeap spurSketch).2.map (fun r => r.map (·.2)) =
      [[.line 0 1, .line 1 2, .line 2 3, .line 3 0], [.line 4 0, .line 0 3, .line 3 2, .line 2 1, .line 1 0, .line 0 4]] :=
  grid_traced cornerPts [(0, 1), (1, 2), (2, 3), (3, 0), (4, 0)] spurSketch
    [(0, 1), (1, 2), (2, 3), (3, 0), (4, 0), (1, 0), (2, 1), (3, 2), (0, 3), (0, 4)] rfl (by decide)
    [0, 1, 2, 3, 4, 8, 7, 6, 5, 9] [[0, 1, 2, 3], [4, 8, 7, 6, 5, 9]] (by decide)

theorem legs_traced : (tracedRings legsHeap legsSketch).1 = [6, 9, 8, 7] ∧
    (tracedRings legsHeap legsSketch).2.map (fun r => r.map (·.2)) = [[.line 3 0, .line 0 1, .line 1 2, .line 2 3]] :=
  grid_traced cornerPts [(0, 3), (3, 2), (2, 1), (1, 0), (4, 0), (5, 1)] legsSketch
    [(0, 3), (3, 2), (2, 1), (1, 0), (4, 0), (5, 1), (3, 0), (2, 3), (1, 2), (0, 1), (0, 4), (1, 5)] rfl (by decide)
    [6, 9, 8, 7] [[6, 9, 8, 7]] (by decide)

/-- **C44 (refutation).** A square with a line attached to a corner: the square is the only ring, the line is in no ring in
either direction, yet nothing is reported unused. -/
theorem C44_spur_not_reported :
    findRings spurHeap spurSketch = ([.segments [.line 0 1, .line 1 2, .line 2 3, .line 3 0]], []) ∧
    drawn spurHeap spurSketch = [.line 0 1, .line 1 2, .line 2 3, .line 3 0, .line 4 0] := by
  refine ⟨Prod.ext ?_ ?_, rfl⟩
  · have e : unsortedRings spurHeap spurSketch = [.segments [.line 0 1, .line 1 2, .line 2 3, .line 3 0],
        .segments [.line 4 0, .line 0 3, .line 3 2, .line 2 1, .line 1 0, .line 0 4]] := by
      unfold unsortedRings
      have := congrArg (List.map Ring.segments) spur_traced.2
      rw [List.map_map] at this
      exact congrArg (· ++ []) this
    have a1 : (Ring.segments [.line 0 1, .line 1 2, .line 2 3, .line 3 0]).signedArea spurHeap = fin 1 := by
      simp [Ring.signedArea, Segment.getStart, Segment.getEnd, spurHeap, drawing, realPts, cornerPts, toVec]
      norm_num [div_fin]
    have a2 : (Ring.segments [.line 4 0, .line 0 3, .line 3 2, .line 2 1, .line 1 0, .line 0 4]).signedArea spurHeap =
        fin (-1) := by
      simp [Ring.signedArea, Segment.getStart, Segment.getEnd, spurHeap, drawing, realPts, cornerPts, toVec]
      norm_num [div_fin]
    exact findRings_single (by rw [e, List.filter_cons, List.filter_cons, a1, a2, lit0]; simp)
  · show unusedSegments _ _ = _
    unfold unusedSegments
    rw [spur_traced.1]
    rfl

/-- **C44 (refutation).** A square drawn clockwise with two lines attached: its four lines make up the only ring, and all
four are reported unused. -/
theorem C44_ring_reported :
    findRings legsHeap legsSketch = ([.segments [.line 3 0, .line 0 1, .line 1 2, .line 2 3]],
      [.line 0 3, .line 3 2, .line 2 1, .line 1 0, .line 4 0, .line 5 1]) := by
  refine Prod.ext ?_ ?_
  · have e : unsortedRings legsHeap legsSketch = [.segments [.line 3 0, .line 0 1, .line 1 2, .line 2 3]] := by
      unfold unsortedRings
      have := congrArg (List.map Ring.segments) legs_traced.2
      rw [List.map_map] at this
      exact congrArg (· ++ []) this
    have a1 : (Ring.segments [.line 3 0, .line 0 1, .line 1 2, .line 2 3]).signedArea legsHeap = fin 1 := by
      simp [Ring.signedArea, Segment.getStart, Segment.getEnd, legsHeap, drawing, realPts, cornerPts, toVec]
      norm_num [div_fin]
    exact findRings_single (by rw [e, List.filter_cons, a1, lit0]; simp)
  · show unusedSegments _ _ = _
    unfold unusedSegments
    rw [legs_traced.1]
    rfl

/-- the hypotheses of `C44_not_in_ring` can be met, with a ring and with unused segments -/
example : (drawn legsHeap legsSketch ++ (drawn legsHeap legsSketch).map Segment.reverse).Nodup ∧
    (findRings legsHeap legsSketch).2 ≠ [] ∧ (findRings legsHeap legsSketch).1 ≠ [] := by
  rw [C44_ring_reported]
  refine ⟨?_, by simp, by simp⟩
  simp [drawn, legsSketch, Sketch.cells, segmentOf, legsHeap, drawing, Segment.reverse]

end Isotope
