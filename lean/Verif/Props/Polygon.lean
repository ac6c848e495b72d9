import Verif.Props.RingsExact
import Verif.Lemmas.Polygon

/-!
# A polygon is found (C43)
-/

namespace Isotope

section
variable {F : Type} [Num F]

theorem traced_of_cyc {h : Heap F} {s : Sketch} {vs : List (Vec2 F)} {idx : Bool → Nat → Nat}
    (c : Cyc h (allSegments h s) vs.length (vert vs) idx) :
    (findRings h s).2 = [] ∧ ∃ r1 r2 k1 k2, List.Forall₂ (Runs h) r1 (edges (vs.rotate k1)) ∧
      List.Forall₂ (Runs h) r2 (edges (vs.reverse.rotate k2)) ∧
      (findRings h s).1.Perm (([Ring.segments r1, Ring.segments r2] ++ circleRings h s).filter
        (fun r => (0.0 : F) <. r.signedArea h)) := by
  obtain ⟨o, j, j', -, -, e, hall⟩ := c.found
  refine ⟨?_, ?_⟩
  · show unusedSegments h s = []
    unfold unusedSegments
    rw [List.filterMap_eq_nil_iff]
    intro x hx
    have : x.1 < (allSegments h s).length := by
      have hx := mem_enum.1 hx
      unfold allSegments
      rw [List.length_append]
      by_contra hi
      rw [List.getElem?_eq_none (by omega)] at hx; cases hx
    have hm : x.1 ∈ (tracedRings h s).1 := hall x.1 this
    rw [if_pos (List.contains_iff_mem.2 hm)]
  · have hp := C40_nothing_lost h s
    have e' : (tracedRings h s).2 = _ := e
    rw [e'] at hp
    cases o
    · refine ⟨_, _, j', j, c.ring_runs true j', c.ring_runs false j, hp.trans ?_⟩
      apply List.Perm.filter
      simp only [List.map_cons, List.map_nil, Bool.not_false]
      exact (List.Perm.swap _ _ _).append_right _
    · exact ⟨_, _, j, j', c.ring_runs true j, c.ring_runs false j', hp⟩

theorem beq_line_ends {h : Heap F} {a b c d : Nat} (e : (Segment.line a b : Segment F).beq h (.line c d) = true) :
    (h.points a).data.beq (h.points c).data = true ∧ (h.points b).data.beq (h.points d).data = true := by
  simp only [Segment.beq, Point2.beq, Bool.and_eq_true] at e
  exact ⟨e.1.1, e.2.1⟩

/-- **C43.** In any arithmetic: lines that outline a polygon of at least three distinct vertices - drawn in any order, each
in any direction - are found: the walk traces exactly the two ways around the polygon and no segment is reported unused.
The rings returned are those of the two (and of the circles) with positive signed area.  No end point may have a NaN
gradient. -/
theorem C43_lines (h : Heap F) (s : Sketch) (vs : List (Vec2 F)) (h3 : 3 ≤ vs.length)
    (hv : ∀ i j (hi : i < vs.length) (hj : j < vs.length), vs[i].beq vs[j] = true ↔ i = j) (ho : Outline h s vs)
    (hl : ∀ d ∈ drawn h s, ∃ a b, d = .line a b ∧ (h.points a).grad.beq (h.points a).grad = true ∧
      (h.points b).grad.beq (h.points b).grad = true) :
    (findRings h s).2 = [] ∧ ∃ r1 r2 k1 k2, List.Forall₂ (Runs h) r1 (edges (vs.rotate k1)) ∧
      List.Forall₂ (Runs h) r2 (edges (vs.reverse.rotate k2)) ∧
      (findRings h s).1.Perm (([Ring.segments r1, Ring.segments r2] ++ circleRings h s).filter
        (fun r => (0.0 : F) <. r.signedArea h)) := by
  have hline : ∀ a ∈ allSegments h s, ∃ p q, a = .line p q := by
    intro a ha
    rw [allSegments_eq, List.mem_append, List.mem_map] at ha
    rcases ha with ha | ⟨d, hd, rfl⟩
    · obtain ⟨p, q, e, -⟩ := hl a ha; exact ⟨p, q, e⟩
    · obtain ⟨p, q, rfl, -⟩ := hl d hd; exact ⟨q, p, rfl⟩
  have hrefl : ∀ v ∈ vs, v.beq v = true := by
    intro v hvm
    obtain ⟨i, hi, rfl⟩ := List.mem_iff_getElem.1 hvm
    exact (hv i i hi hi).2 rfl
  have hends : ∀ d ∈ drawn h s, (d.getStart h).beq (d.getStart h) = true ∧ (d.getEnd h).beq (d.getEnd h) = true := by
    intro d hd
    obtain ⟨ds, hds, hp⟩ := ho
    obtain ⟨i, hi, rfl⟩ := List.mem_iff_getElem.1 hd
    have hi' : i < ds.length := by rw [hds.length_eq]; exact hi
    have hr := (List.forall₂_iff_get.1 hds).2 i hi' hi
    simp only [List.get_eq_getElem] at hr
    have hm : (ds[i].getStart h, ds[i].getEnd h) ∈ edges vs := by
      rw [← hp.mem_iff]; exact List.mem_map.2 ⟨_, List.getElem_mem hi', rfl⟩
    obtain ⟨m, hm, e⟩ := mem_edges.1 hm
    have e := Prod.ext_iff.1 e
    simp only at e
    have q1 : (ds[i].getStart h).beq (ds[i].getStart h) = true := by rw [e.1]; exact hrefl _ (List.getElem_mem _)
    have q2 : (ds[i].getEnd h).beq (ds[i].getEnd h) = true := by rw [e.2]; exact hrefl _ (List.getElem_mem _)
    rcases hr with hr | hr
    · rw [hr] at q1 q2; exact ⟨q1, q2⟩
    · rw [hr, (C47_swaps h _).1] at q1
      rw [hr, (C47_swaps h _).2] at q2
      exact ⟨q2, q1⟩
  obtain ⟨idx, c⟩ := cyc_of_outline h s vs h3 hv ho (by
      intro d hd
      obtain ⟨p, q, rfl, g1, g2⟩ := hl d hd
      obtain ⟨e1, e2⟩ := hends _ hd
      have e1 : (h.points p).data.beq (h.points p).data = true := e1
      have e2 : (h.points q).data.beq (h.points q).data = true := e2
      constructor <;> simp [Segment.reverse, Segment.beq, Point2.beq, g1, g2, e1, e2])
    (by
      intro a b ha hb e
      obtain ⟨p, q, rfl⟩ := hline a ha
      obtain ⟨p', q', rfl⟩ := hline b hb
      exact (beq_line_ends e).1)
    (by
      intro a b ha hb e
      obtain ⟨p, q, rfl⟩ := hline a ha
      obtain ⟨p', q', rfl⟩ := hline b hb
      exact (beq_line_ends e).2)
  exact traced_of_cyc c
end

/-! ## Exact arithmetic -/

open XR

theorem XR.eq_of_eq {a b : XR} (h : (a ==. b) = true) : a = b := by
  cases a <;> cases b <;> simp_all [Num.eq, XR.eq]

theorem Vec2.eq_of_beq {a b : Vec2 XR} (h : a.beq b = true) : a = b := by
  obtain ⟨a1, a2⟩ := a; obtain ⟨b1, b2⟩ := b
  simp only [Vec2.beq, Bool.and_eq_true] at h
  rw [XR.eq_of_eq h.1, XR.eq_of_eq h.2]

theorem Segment.ends_of_beq {h : Heap XR} {a b : Segment XR} (e : a.beq h b = true) :
    a.getStart h = b.getStart h ∧ a.getEnd h = b.getEnd h := by
  cases a with
  | line p q => cases b with
    | line p' q' =>
      obtain ⟨e1, e2⟩ := beq_line_ends e
      exact ⟨Vec2.eq_of_beq e1, Vec2.eq_of_beq e2⟩
    | arc b => cases e
  | arc a => cases b with
    | line p' q' => cases e
    | arc b =>
      simp only [Segment.beq, Arc.beq, Point2.beq, Row3.beq, Bool.and_eq_true] at e
      obtain ⟨⟨⟨e1, e2⟩, -⟩, -⟩ := e
      have c := Vec2.eq_of_beq e1.1
      have d : a.data = b.data := by
        obtain ⟨_, ⟨a0, a1, a2⟩, _, _⟩ := a
        obtain ⟨_, ⟨b0, b1, b2⟩, _, _⟩ := b
        simp only at e2 ⊢
        rw [XR.eq_of_eq e2.1.1, XR.eq_of_eq e2.1.2, XR.eq_of_eq e2.2]
      constructor <;> simp [Segment.getStart, Segment.getEnd, Arc.startPoint, Arc.endPoint, Arc.radius, Arc.startAngle, Arc.endAngle, c, d]

/-- a point of the plane as a vector of exact numbers -/
def toVec (v : ℝ × ℝ) : Vec2 XR := ⟨.fin v.1, .fin v.2⟩

theorem toVec_beq {v w : ℝ × ℝ} : (toVec v).beq (toVec w) = true ↔ v = w := by
  simp [toVec, Vec2.beq, Prod.ext_iff]

theorem runs_endsAt {h : Heap XR} {segs : List (Segment XR)} {vs : List (ℝ × ℝ)}
    (hr : List.Forall₂ (Runs h) segs (edges (vs.map toVec))) : List.Forall₂ (EndsAt h) segs (edges vs) := by
  have : edges (vs.map toVec) = (edges vs).map (fun e => (toVec e.1, toVec e.2)) := by
    unfold edges
    rw [← List.map_rotate, List.zip_map]; rfl
  rw [this, List.forall₂_map_right_iff] at hr
  exact hr.imp fun a e he => he

theorem shoelace_rotate (vs : List (ℝ × ℝ)) (k : Nat) : shoelace (vs.rotate k) = shoelace vs := by
  unfold shoelace
  have : edges (vs.rotate k) = (edges vs).rotate k := by
    unfold edges
    rw [List.rotate_rotate, Nat.add_comm, ← List.rotate_rotate]
    exact (List.zipWith_rotate_distrib _ _ _ _ (by simp)).symm
  rw [this, ((List.rotate_perm (edges vs) k).map _).sum_eq]

theorem shoelace_reverse (vs : List (ℝ × ℝ)) : shoelace vs.reverse = -shoelace vs := by
  cases vs with
  | nil => simp [shoelace, edges]
  | cons p vs =>
    have key : ∀ (ws : List (ℝ × ℝ)) (p q : ℝ × ℝ), pathSum p (ws.reverse ++ [q]) = -pathSum q (ws ++ [p]) := by
      intro ws
      induction ws with
      | nil => intro p q; simp [pathSum, cross]
      | cons w ws ih =>
        intro p q
        rw [List.reverse_cons, List.append_assoc, List.singleton_append, pathSum_append, ih]
        simp only [pathSum, List.cons_append, cross]; ring
    have e : (p :: vs).reverse = (p :: vs.reverse).rotate 1 := by simp
    rw [e, shoelace_rotate, shoelace_cons, shoelace_cons, key]; ring

theorem cyc_exact (h : Heap XR) (s : Sketch) (vs : List (ℝ × ℝ)) (h3 : 3 ≤ vs.length) (hv : vs.Nodup)
    (ho : Outline h s (vs.map toVec)) (hw : ∀ d ∈ drawn h s, WayBack h d) :
    ∃ idx, Cyc h (allSegments h s) (vs.map toVec).length (vert (vs.map toVec)) idx := by
  have hfin : ∀ a ∈ allSegments h s, ∃ v w, a.getStart h = toVec v ∧ a.getEnd h = toVec w := by
    have hd' : ∀ a ∈ drawn h s, ∃ v w, a.getStart h = toVec v ∧ a.getEnd h = toVec w := by
      intro d hd
      obtain ⟨ds, hds, hp⟩ := ho
      obtain ⟨i, hi, rfl⟩ := List.mem_iff_getElem.1 hd
      have hi' : i < ds.length := by rw [hds.length_eq]; exact hi
      have hr := (List.forall₂_iff_get.1 hds).2 i hi' hi
      simp only [List.get_eq_getElem] at hr
      have hm : (ds[i].getStart h, ds[i].getEnd h) ∈ edges (vs.map toVec) := by
        rw [← hp.mem_iff]; exact List.mem_map.2 ⟨_, List.getElem_mem hi', rfl⟩
      obtain ⟨m, hm, e⟩ := mem_edges.1 hm
      have e := Prod.ext_iff.1 e
      simp only [List.getElem_map] at e
      rcases hr with hr | hr
      · rw [hr] at e; exact ⟨_, _, e⟩
      · rw [hr, (C47_swaps h _).1, (C47_swaps h _).2] at e; exact ⟨_, _, e.2, e.1⟩
    intro a ha
    rw [allSegments_eq, List.mem_append, List.mem_map] at ha
    rcases ha with ha | ⟨d, hd, rfl⟩
    · exact hd' a ha
    · obtain ⟨v, w, h1, h2⟩ := hd' d hd
      exact ⟨w, v, by rw [(C47_swaps h d).1]; exact h2, by rw [(C47_swaps h d).2]; exact h1⟩
  refine cyc_of_outline h s (vs.map toVec) (by simpa using h3) ?_ ho hw ?_ ?_
  · intro i j hi hj
    rw [List.getElem_map, List.getElem_map, toVec_beq]
    exact hv.getElem_inj_iff
  · intro a b ha hb e
    obtain ⟨v, w, h1, h2⟩ := hfin b hb
    rw [(Segment.ends_of_beq e).1, h1]; exact toVec_beq.2 rfl
  · intro a b ha hb e
    obtain ⟨v, w, h1, h2⟩ := hfin b hb
    rw [(Segment.ends_of_beq e).2, (C47_swaps h b).2, h1]; exact toVec_beq.2 rfl

/-- **C43.** In exact arithmetic: if lines and arcs outline a polygon of at least three distinct vertices - drawn in any
order, each in any direction - whose shoelace area is not zero, then exactly one ring is found, it runs once around the
polygon, counter-clockwise, and no segment is reported unused.  (`WayBack`: see `C43_way_back_line`, `C43_way_back_arc`.) -/
theorem C43_found (h : Heap XR) (s : Sketch) (vs : List (ℝ × ℝ)) (h3 : 3 ≤ vs.length) (hv : vs.Nodup)
    (ho : Outline h s (vs.map toVec)) (hw : ∀ d ∈ drawn h s, WayBack h d) (hc : ∀ c, PrimCell.circle c ∉ s.cells)
    (ha : shoelace vs ≠ 0) :
    ∃ segs k, findRings h s = ([.segments segs], []) ∧
      List.Forall₂ (EndsAt h) segs (edges ((if 0 < shoelace vs then vs else vs.reverse).rotate k)) := by
  obtain ⟨idx, c⟩ := cyc_exact h s vs h3 hv ho hw
  obtain ⟨hu, r1, r2, k1, k2, e1, e2, hp⟩ := traced_of_cyc c
  have hcr : circleRings h s = [] := by
    rw [List.eq_nil_iff_forall_not_mem]
    intro r hr
    obtain ⟨c, hm, -⟩ := mem_circleRings.1 hr
    exact hc c hm
  rw [hcr, List.append_nil] at hp
  rw [← List.map_rotate] at e1
  rw [← List.map_reverse, ← List.map_rotate] at e2
  have e1 := runs_endsAt e1
  have e2 := runs_endsAt e2
  have a1 : (Ring.segments r1).signedArea h = fin (shoelace vs) := by rw [C49_shoelace h r1 _ e1, shoelace_rotate]
  have a2 : (Ring.segments r2).signedArea h = fin (-shoelace vs) := by
    rw [C49_shoelace h r2 _ e2, shoelace_rotate, shoelace_reverse]
  have hpair : ∀ l, (findRings h s).1 = l → findRings h s = (l, []) := fun l e => Prod.ext e hu
  rcases lt_or_gt_of_ne ha with hneg | hpos
  · refine ⟨r2, k2, hpair _ ?_, by rw [if_neg (by linarith)]; exact e2⟩
    simp only [List.filter_cons, a1, a2, lit0, lt_fin, List.filter_nil] at hp
    rw [if_neg (by simp; linarith), if_pos (by simp; linarith)] at hp
    exact List.perm_singleton.1 hp
  · refine ⟨r1, k1, hpair _ ?_, by rw [if_pos (by linarith)]; exact e1⟩
    simp only [List.filter_cons, a1, a2, lit0, lt_fin, List.filter_nil] at hp
    rw [if_pos (by simp; linarith), if_neg (by simp; linarith)] at hp
    exact List.perm_singleton.1 hp

/-- **C43.** A polygon of shoelace area zero (for instance a symmetric figure eight) yields no ring at all, yet none of its
segments is reported unused. -/
theorem C43_zero_area (h : Heap XR) (s : Sketch) (vs : List (ℝ × ℝ)) (h3 : 3 ≤ vs.length) (hv : vs.Nodup)
    (ho : Outline h s (vs.map toVec)) (hw : ∀ d ∈ drawn h s, WayBack h d) (hc : ∀ c, PrimCell.circle c ∉ s.cells)
    (ha : shoelace vs = 0) : findRings h s = ([], []) := by
  obtain ⟨idx, c⟩ := cyc_exact h s vs h3 hv ho hw
  obtain ⟨hu, r1, r2, k1, k2, e1, e2, hp⟩ := traced_of_cyc c
  have hcr : circleRings h s = [] := by
    rw [List.eq_nil_iff_forall_not_mem]
    intro r hr
    obtain ⟨c, hm, -⟩ := mem_circleRings.1 hr
    exact hc c hm
  rw [hcr, List.append_nil] at hp
  rw [← List.map_rotate] at e1
  rw [← List.map_reverse, ← List.map_rotate] at e2
  have e1 := runs_endsAt e1
  have e2 := runs_endsAt e2
  have a1 : (Ring.segments r1).signedArea h = fin (shoelace vs) := by rw [C49_shoelace h r1 _ e1, shoelace_rotate]
  have a2 : (Ring.segments r2).signedArea h = fin (-shoelace vs) := by
    rw [C49_shoelace h r2 _ e2, shoelace_rotate, shoelace_reverse]
  refine Prod.ext ?_ hu
  simp only [List.filter_cons, a1, a2, lit0, lt_fin, List.filter_nil, ha] at hp
  simpa using hp

/-- **C43.** The way back is recognised along every line whose end points have finite coordinates and gradients. -/
theorem C43_way_back_line (h : Heap XR) (a b : Nat) (x y x' y' u v u' v' : ℝ)
    (ha : h.points a = ⟨⟨fin x, fin y⟩, ⟨fin u, fin v⟩⟩) (hb : h.points b = ⟨⟨fin x', fin y'⟩, ⟨fin u', fin v'⟩⟩) :
    WayBack h (.line a b) := by
  constructor <;> simp [Segment.reverse, Segment.beq, Point2.beq, Vec2.beq, ha, hb]

/-- **C43.** The way back is recognised along every arc with finite data and zero gradient whose centre has finite coordinates and
gradient.  (Not if the gradient of the arc is not zero: C48.) -/
theorem C43_way_back_arc (h : Heap XR) (a : Arc XR) (x y u v r s t : ℝ) (hc : h.points a.center = ⟨⟨fin x, fin y⟩, ⟨fin u, fin v⟩⟩)
    (hd : a.data = ⟨fin r, fin s, fin t⟩) (hg : a.grad = ⟨fin 0, fin 0, fin 0⟩) : WayBack h (.arc a) := by
  constructor <;> simp [Segment.reverse, Segment.beq, Arc.beq, Point2.beq, Vec2.beq, Row3.beq, Arc.reverse, Arc.new, Arc.radius,
    Arc.startAngle, Arc.endAngle, hc, hd, hg, Row3.zeros]; norm_num

/-! ## Examples -/

/-- points at the given places, lines between the given points, arcs, all gradients zero -/
noncomputable def drawing (ps : List (ℝ × ℝ)) (ls : List (Nat × Nat)) (as : List (Arc XR)) : Heap XR :=
  { (Heap.empty : Heap XR) with
    points := fun i => ⟨toVec (ps.getD i (0, 0)), ⟨fin 0, fin 0⟩⟩
    lines := fun i => ⟨(ls.getD i (0, 0)).1, (ls.getD i (0, 0)).2⟩
    arcs := fun i => as.getD i ⟨0, ⟨fin 0, fin 0, fin 0⟩, ⟨fin 0, fin 0, fin 0⟩, false⟩
    nPoints := ps.length
    nLines := ls.length
    nArcs := as.length }

/-- a triangle, its lines drawn in no particular order and direction -/
noncomputable def triHeap : Heap XR := drawing [(0, 0), (4, 0), (0, 3)] [(1, 0), (2, 0), (1, 2)] []

/-- all its points and lines -/
def triSketch : Sketch := ⟨[(0, .point 0), (1, .point 1), (2, .point 2), (3, .line 0), (4, .line 1), (5, .line 2)], 6, []⟩

theorem tri_outline : Outline triHeap triSketch ([(0, 0), (4, 0), (0, 3)].map toVec) := by
  refine ⟨[.line 0 1, .line 2 0, .line 1 2], ?_, ?_⟩
  · simp [drawn, triSketch, Sketch.cells, segmentOf, triHeap, drawing, Segment.reverse]
  · simp only [List.map_cons, List.map_nil, Segment.getStart, Segment.getEnd, triHeap, drawing, edges]
    simp
    exact .swap _ _ _

theorem tri_way_back : ∀ d ∈ drawn triHeap triSketch, WayBack triHeap d := by
  intro d hd
  simp [drawn, triSketch, Sketch.cells, segmentOf] at hd
  rcases hd with rfl | rfl | rfl <;> exact C43_way_back_line _ _ _ _ _ _ _ _ _ _ _ rfl rfl

theorem tri_found : ∃ segs k, findRings triHeap triSketch = ([.segments segs], []) ∧
      List.Forall₂ (EndsAt triHeap) segs (edges ([(0, 0), (4, 0), (0, 3)].rotate k)) := by
  have ha : shoelace [(0, 0), (4, 0), (0, 3)] = 6 := by rw [C49_triangle]; norm_num
  have := C43_found triHeap triSketch [(0, 0), (4, 0), (0, 3)] (by simp) (by simp) tri_outline tri_way_back
    (by simp [triSketch, Sketch.cells]) (by rw [ha]; norm_num)
  rw [ha] at this
  rwa [if_pos (by norm_num)] at this

/-- a quarter of a disc: two lines and an arc -/
noncomputable def pieHeap : Heap XR := drawing [(0, 0), (1, 0), (0, 1)] [(0, 1), (2, 0)]
  [⟨0, ⟨fin 1, fin 0, fin (Real.pi / 2)⟩, ⟨fin 0, fin 0, fin 0⟩, false⟩]

/-- its primitives -/
def pieSketch : Sketch := ⟨[(0, .point 0), (1, .point 1), (2, .point 2), (3, .line 0), (4, .line 1), (5, .arc 0)], 6, []⟩

/-- the hypotheses of C43 can be met by a sketch with an arc -/
example : ∃ segs k, findRings pieHeap pieSketch = ([.segments segs], []) ∧
      List.Forall₂ (EndsAt pieHeap) segs (edges ([(0, 0), (1, 0), (0, 1)].rotate k)) := by
  have ha : shoelace [(0, 0), (1, 0), (0, 1)] = 1 / 2 := by rw [C49_triangle]; norm_num
  have := C43_found pieHeap pieSketch [(0, 0), (1, 0), (0, 1)] (by simp) (by simp) (by
      refine ⟨[.line 0 1, .line 2 0, .arc (pieHeap.arcs 0)], ?_, ?_⟩
      · simp [drawn, pieSketch, Sketch.cells, segmentOf, pieHeap, drawing, Segment.reverse]
      · simp only [List.map_cons, List.map_nil, Segment.getStart, Segment.getEnd, pieHeap, drawing, edges, Arc.startPoint,
          Arc.endPoint, Arc.radius, Arc.startAngle, Arc.endAngle]
        simp [toVec]
        exact .swap _ _ _)
    (by
      intro d hd
      simp [drawn, pieSketch, Sketch.cells, segmentOf] at hd
      rcases hd with rfl | rfl | rfl
      · exact C43_way_back_line _ _ _ _ _ _ _ _ _ _ _ rfl rfl
      · exact C43_way_back_line _ _ _ _ _ _ _ _ _ _ _ rfl rfl
      · exact C43_way_back_arc _ _ _ _ _ _ _ _ _ rfl rfl rfl)
    (by simp [pieSketch, Sketch.cells]) (by rw [ha]; norm_num)
  rw [ha] at this
  rwa [if_pos (by norm_num)] at this

/-- rings as in C38, C39 and C40 exist -/
example : ∃ r, r ∈ (findRings triHeap triSketch).1 := by
  obtain ⟨segs, k, e, -⟩ := tri_found
  rw [e]; exact ⟨_, List.mem_singleton.2 rfl⟩

end Isotope
