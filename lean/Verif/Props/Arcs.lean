import Verif.Lemmas.GridArc
import Verif.Lemmas.Float
import Verif.Props.Unused
import Verif.Props.Faces

/-!
# Arcs in rings and faces (C69)
-/

namespace Isotope

section
variable {F : Type}

/-! ## The side to which arcs bulge -/

/-- the arc without its direction -/
def Arc.unsided (a : Arc F) : Arc F := { a with clockwise := false }

/-- the segment without the direction of its arc -/
def Segment.unsided : Segment F → Segment F
  | .line s e => .line s e
  | .arc a => .arc a.unsided

/-- the ring without the direction of its arcs -/
def Ring.unsided : Ring F → Ring F
  | .circle c => .circle c
  | .segments l => .segments (l.map Segment.unsided)

/-- the face without the direction of its arcs -/
def Face.unsided : Face F → Face F
  | .mk e hs => .mk e.unsided (hs.attach.map (fun x => x.1.unsided))
termination_by f => f
decreasing_by
  have := x.2
  decreasing_tactic

theorem Face.unsided_eq (f : Face F) : f.unsided = .mk f.exterior.unsided (f.holes.map Face.unsided) := by
  cases f with
  | mk e hs =>
    rw [Face.unsided]
    simp only [Face.exterior, Face.holes]
    congr 1
    exact List.attach_map_val (f := Face.unsided)

/-- the two heaps differ in nothing but the direction of arcs -/
def SidesOnly (h h' : Heap F) : Prop :=
  h'.points = h.points ∧ h'.lines = h.lines ∧ h'.circles = h.circles ∧ ∀ i, (h'.arcs i).unsided = (h.arcs i).unsided

variable [Num F]

/-- the two arcs have the same centre, radius and end angles (the latter in either order) -/
def Coincide (h : Heap F) (a b : Arc F) : Prop :=
  (h.points a.center).data.beq (h.points b.center).data = true ∧ (a.radius ==. b.radius) = true ∧
    (((a.startAngle ==. b.startAngle) = true ∧ (a.endAngle ==. b.endAngle) = true) ∨
     ((a.startAngle ==. b.endAngle) = true ∧ (a.endAngle ==. b.startAngle) = true))

end

section
variable {F : Type} [Num F]

theorem Segment.unsided_reverse (a b : Segment F) (e : a.unsided = b.unsided) :
    a.reverse.unsided = b.reverse.unsided := by
  cases a with
  | line => cases b with
    | line => cases e; rfl
    | arc => cases e
  | arc a => cases b with
    | line => cases e
    | arc b =>
      simp only [Segment.unsided, Segment.arc.injEq, Arc.unsided, Arc.mk.injEq] at e
      simp only [Segment.reverse, Segment.unsided, Arc.reverse, Arc.new, Arc.unsided, Arc.radius, Arc.startAngle, Arc.endAngle,
        e.1, e.2.1]

theorem Segment.unsided_ends (h h' : Heap F) (hp : h'.points = h.points) (a b : Segment F) (e : a.unsided = b.unsided) :
    a.getStart h' = b.getStart h ∧ a.getEnd h' = b.getEnd h ∧ a.startAngle h' = b.startAngle h ∧
      a.endAngle h' = b.endAngle h := by
  cases a with
  | line => cases b with
    | line => cases e; simp [Segment.getStart, Segment.getEnd, Segment.startAngle, Segment.endAngle, hp]
    | arc => cases e
  | arc a => cases b with
    | line => cases e
    | arc b =>
      simp only [Segment.unsided, Segment.arc.injEq, Arc.unsided, Arc.mk.injEq] at e
      simp only [Segment.getStart, Segment.getEnd, Segment.startAngle, Segment.endAngle, Arc.startPoint, Arc.endPoint,
        Arc.startAngle, Arc.endAngle, Arc.radius, e.1, e.2.1, hp, and_self]

theorem Segment.ends_unsided (h : Heap F) (a : Segment F) : a.unsided.getStart h = a.getStart h ∧
    a.unsided.getEnd h = a.getEnd h := by cases a <;> exact ⟨rfl, rfl⟩

theorem Ring.area_unsided (h h' : Heap F) (hp : h'.points = h.points) (r : Ring F) :
    r.unsided.signedArea h = r.signedArea h' := by
  cases r with
  | circle c => rfl
  | segments l =>
    simp only [Ring.unsided, Ring.signedArea]
    rw [List.foldl_map]
    congr 1
    congr 1
    funext x sg
    rw [(Segment.ends_unsided h sg).1, (Segment.ends_unsided h sg).2, (Segment.unsided_ends h h' hp sg sg rfl).1,
      (Segment.unsided_ends h h' hp sg sg rfl).2.1]

theorem Ring.polygon_unsided (h h' : Heap F) (hp : h'.points = h.points) (r : Ring F) :
    r.unsided.asPolygon h = r.asPolygon h' := by
  cases r with
  | circle c => simp only [Ring.unsided, Ring.asPolygon, hp]
  | segments l =>
    simp only [Ring.unsided, Ring.asPolygon]
    rw [List.map_map]
    congr 1
    apply List.map_congr_left
    intro sg _
    simp only [Function.comp]
    rw [(Segment.ends_unsided h sg).1, (Segment.unsided_ends h h' hp sg sg rfl).1]

/-- the same segment of the two drawings: an arc runs as drawn or the other way (`rev`) -/
inductive Twin (h h' : Heap F) (s : Sketch) : Segment F → Segment F → Prop
  | line (a b : Nat) : Twin h h' s (.line a b) (.line a b)
  | arc (i : Nat) (rev : Bool) (g : Row3 F) : PrimCell.arc i ∈ s.cells →
    Twin h h' s
      (.arc ⟨(h.arcs i).center, if rev then (h.arcs i).reverse.data else (h.arcs i).data, g, (h.arcs i).clockwise ^^ rev⟩)
      (.arc ⟨(h.arcs i).center, if rev then (h.arcs i).reverse.data else (h.arcs i).data, g, (h'.arcs i).clockwise ^^ rev⟩)

omit [Num F] in
theorem SidesOnly.arc {h h' : Heap F} (hs : SidesOnly h h') (i : Nat) : h'.arcs i =
    ⟨(h.arcs i).center, (h.arcs i).data, (h.arcs i).grad, (h'.arcs i).clockwise⟩ := by
  have := hs.2.2.2 i
  simp only [Arc.unsided, Arc.mk.injEq, and_true] at this
  rw [← this.1, ← this.2.1, ← this.2.2]

theorem Twin.reverse {h h' : Heap F} {s : Sketch} {a b : Segment F} (t : Twin h h' s a b) :
    Twin h h' s a.reverse b.reverse := by
  cases t with
  | line a b => exact .line b a
  | arc i rev g hi =>
    have := Twin.arc (h := h) (h' := h') (s := s) i (!rev) Row3.zeros hi
    cases rev
    · simpa [Segment.reverse, Arc.reverse, Arc.new, Arc.radius, Arc.startAngle, Arc.endAngle] using this
    · simpa [Segment.reverse, Arc.reverse, Arc.new, Arc.radius, Arc.startAngle, Arc.endAngle] using this

theorem drawn_twin {h h' : Heap F} (hs : SidesOnly h h') (s : Sketch) :
    List.Forall₂ (Twin h h' s) (drawn h s) (drawn h' s) := by
  unfold drawn
  have key : ∀ l : List PrimCell, (∀ c ∈ l, c ∈ s.cells) →
      List.Forall₂ (Twin h h' s) (l.flatMap (segmentOf h)) (l.flatMap (segmentOf h')) := by
    intro l
    induction l with
    | nil => intro _; exact .nil
    | cons c l ih =>
      intro hm
      simp only [List.flatMap_cons]
      refine List.rel_append ?_ (ih (fun c hc => hm c (by simp [hc])))
      cases c with
      | point p => exact .nil
      | line l => simp only [segmentOf, hs.2.1]; exact .cons (.line _ _) .nil
      | arc a =>
        have := Twin.arc (h := h) (h' := h') (s := s) a false (h.arcs a).grad (hm _ (by simp))
        simp only [Bool.false_eq_true, if_false, Bool.xor_false] at this
        rw [← hs.arc a] at this
        exact .cons this .nil
      | circle c => exact .nil
  exact key _ (fun _ h => h)

theorem allSegments_twin {h h' : Heap F} (hs : SidesOnly h h') (s : Sketch) :
    List.Forall₂ (Twin h h' s) (allSegments h s) (allSegments h' s) := by
  have hd := drawn_twin hs s
  rw [allSegments_eq, allSegments_eq]
  refine List.rel_append hd ?_
  rw [List.forall₂_map_left_iff, List.forall₂_map_right_iff]
  exact hd.imp (fun _ _ t => t.reverse)

theorem Twin.unsided {h h' : Heap F} {s : Sketch} {a b : Segment F} (t : Twin h h' s a b) : b.unsided = a.unsided := by
  cases t <;> rfl

theorem Twin.beq {h h' : Heap F} (hp : h'.points = h.points) {s : Sketch}
    (hd : ∀ i j, PrimCell.arc i ∈ s.cells → PrimCell.arc j ∈ s.cells → Coincide h (h.arcs i) (h.arcs j) →
      ((h'.arcs i).clockwise = (h'.arcs j).clockwise ↔ (h.arcs i).clockwise = (h.arcs j).clockwise))
    {a b a' b' : Segment F} (ta : Twin h h' s a a') (tb : Twin h h' s b b') : a.beq h b = a'.beq h' b' := by
  have fin : ∀ (p q r : Bool) (u v u' v' : Bool), (p = true → q = true → (u' = v' ↔ u = v)) →
      (p && q && r && (u == v)) = (p && q && r && (u' == v')) := by
    intro p q r u v u' v' hh
    cases p <;> cases q <;> simp at hh ⊢
    rw [Bool.eq_iff_iff]; simp [hh]
  cases ta with
  | line => cases tb <;> simp [Segment.beq, hp]
  | arc i ri gi hi =>
    cases tb with
    | line => rfl
    | arc j rj gj hj =>
      have := hd i j hi hj
      simp only [Segment.beq, Arc.beq, hp]
      refine fin _ _ _ _ _ _ _ fun k1 k2 => ?_
      have c : Coincide h (h.arcs i) (h.arcs j) := by
        simp only [Point2.beq, Bool.and_eq_true] at k1
        refine ⟨k1.1, ?_⟩
        cases ri <;> cases rj <;>
          simp only [Bool.false_eq_true, if_false, if_true, Arc.reverse, Arc.new, Row3.beq, Bool.and_eq_true] at k2 <;>
          simp only [Arc.radius, Arc.startAngle, Arc.endAngle] at * <;> tauto
      have := this c
      revert this
      cases ri <;> cases rj <;> cases (h.arcs i).clockwise <;> cases (h'.arcs i).clockwise <;>
        cases (h.arcs j).clockwise <;> cases (h'.arcs j).clockwise <;> simp

theorem Twin.sim {h h' : Heap F} (hs : SidesOnly h h') {s : Sketch}
    (hd : ∀ i j, PrimCell.arc i ∈ s.cells → PrimCell.arc j ∈ s.cells → Coincide h (h.arcs i) (h.arcs j) →
      ((h'.arcs i).clockwise = (h'.arcs j).clockwise ↔ (h.arcs i).clockwise = (h.arcs j).clockwise)) :
    Sim h (allSegments h s) h' (allSegments h' s) := by
  have tw := allSegments_twin hs s
  have get : ∀ {i : Nat} {a a' : Segment F}, (allSegments h s)[i]? = some a → (allSegments h' s)[i]? = some a' →
      Twin h h' s a a' := by
    intro i a a' h1 h2
    obtain ⟨l1, e1⟩ := List.getElem?_eq_some_iff.1 h1
    obtain ⟨l2, e2⟩ := List.getElem?_eq_some_iff.1 h2
    have := (List.forall₂_iff_get.1 tw).2 i l1 l2
    simp only [List.get_eq_getElem, e1, e2] at this
    exact this
  have geo : ∀ {a a' : Segment F}, Twin h h' s a a' → a'.getStart h' = a.getStart h ∧ a'.getEnd h' = a.getEnd h ∧
      a'.startAngle h' = a.startAngle h ∧ a'.endAngle h' = a.endAngle h :=
    fun t => Segment.unsided_ends h h' hs.1 _ _ t.unsided
  constructor
  · exact tw.length_eq
  · intro i j a b a' b' ha ha' hb hb'
    unfold Segment.continues
    rw [(geo (get ha ha')).2.1, (geo (get hb hb')).1]
  · intro i j a b a' b' ha ha' hb hb' _
    unfold Segment.equalsOrReverseEquals Segment.reverseEquals
    rw [(get hb hb').beq hs.1 hd (get ha ha'), (get hb hb').beq hs.1 hd (get ha ha').reverse]
  · intro i j k a b c a' b' c' ha ha' hb hb' hc hc' _ _
    unfold turn
    rw [(geo (get ha ha')).2.2.2, (geo (get hb hb')).2.2.1, (geo (get hc hc')).2.2.1]

theorem rings_unsided {h h' : Heap F} (hs : SidesOnly h h') {s : Sketch}
    (hd : ∀ i j, PrimCell.arc i ∈ s.cells → PrimCell.arc j ∈ s.cells → Coincide h (h.arcs i) (h.arcs j) →
      ((h'.arcs i).clockwise = (h'.arcs j).clockwise ↔ (h.arcs i).clockwise = (h.arcs j).clockwise)) :
    (unsortedRings h' s).map Ring.unsided = (unsortedRings h s).map Ring.unsided ∧
    (unusedSegments h' s).map Segment.unsided = (unusedSegments h s).map Segment.unsided := by
  have sim := (Twin.sim hs hd).rings
  have uns : ∀ {l l' : List (Segment F)}, List.Forall₂ (Twin h h' s) l l' →
      l'.map Segment.unsided = l.map Segment.unsided := by
    intro l l' t
    induction t with
    | nil => rfl
    | cons t _ ih => simp only [List.map_cons, ih, t.unsided]
  have ha := uns (allSegments_twin hs s)
  have hi : (initSegments h' s).map Segment.unsided = (initSegments h s).map Segment.unsided := by
    rw [initSegments_eq, initSegments_eq]; exact uns (drawn_twin hs s)
  constructor
  · unfold unsortedRings
    rw [List.map_append, List.map_append]
    congr 1
    · have e := traced_of_indices (h := h) (s := s) rfl
      have e' : (tracedRings h' s).2.map (fun r => r.map (·.2)) = ((tracedRings h s).2.map (fun l => l.map (·.1))).map
          (fun l => l.filterMap (fun i => (allSegments h' s)[i]?)) := traced_of_indices sim.2.symm
      have lift : ∀ t : List (List (Nat × Segment F)), (t.map (fun r => Ring.segments (r.map (·.2)))).map Ring.unsided =
          (t.map (fun r => r.map (·.2))).map (fun l => Ring.segments (l.map Segment.unsided)) := by
        intro t; simp only [List.map_map]; rfl
      rw [lift, lift, e, e', List.map_map (f := fun l => List.filterMap (fun i => (allSegments h' s)[i]?) l),
        List.map_map (f := fun l => List.filterMap (fun i => (allSegments h s)[i]?) l)]
      apply List.map_congr_left
      intro l _
      simp only [Function.comp]
      congr 1
      rw [List.map_filterMap, List.map_filterMap]
      congr 1
      funext i
      rw [← List.getElem?_map, ← List.getElem?_map, ha]
    · congr 1
      unfold circleRings
      rw [hs.2.2.1]
  · unfold unusedSegments
    have : (tracedRings h' s).1 = (tracedRings h s).1 := sim.1.symm
    rw [this]
    generalize (tracedRings h s).1 = used
    have key : ∀ (k : Nat) (l l' : List (Segment F)), l'.map Segment.unsided = l.map Segment.unsided →
        ((enumFrom k l').filterMap (fun is => if used.contains is.1 then none else some is.2)).map Segment.unsided =
        ((enumFrom k l).filterMap (fun is => if used.contains is.1 then none else some is.2)).map Segment.unsided := by
      intro k l
      induction l generalizing k with
      | nil => intro l' e; simp only [List.map_nil, List.map_eq_nil_iff] at e; subst e; rfl
      | cons a l ih =>
        intro l' e
        cases l' with
        | nil => cases e
        | cons a' l' =>
          simp only [List.map_cons, List.cons.injEq] at e
          simp only [enumFrom, List.filterMap_cons]
          have := ih (k + 1) l' e.2
          split <;> simp_all
    exact key 0 _ _ hi

/-- **C69.** To which side the arcs bulge makes no difference to the decomposition: change the direction of any arcs (of
arcs that coincide, all or none), and the same rings, faces and unused segments come out, in the same order, with the same
areas and the same polygons. -/
theorem C69_either_side {h h' : Heap F} (hs : SidesOnly h h') (s : Sketch)
    (hd : ∀ i j, PrimCell.arc i ∈ s.cells → PrimCell.arc j ∈ s.cells → Coincide h (h.arcs i) (h.arcs j) →
      ((h'.arcs i).clockwise = (h'.arcs j).clockwise ↔ (h.arcs i).clockwise = (h.arcs j).clockwise)) :
    (findRings h' s).1.map Ring.unsided = (findRings h s).1.map Ring.unsided ∧
    (findRings h' s).2.map Segment.unsided = (findRings h s).2.map Segment.unsided ∧
    (findRings h' s).1.map (Ring.signedArea h') = (findRings h s).1.map (Ring.signedArea h) ∧
    (findRings h' s).1.map (Ring.asPolygon h') = (findRings h s).1.map (Ring.asPolygon h) ∧
    ∀ g : Geo F, (getFaces g h' s).map Face.unsided = (getFaces g h s).map Face.unsided ∧
      (getFaces g h' s).map (Face.asPolygon h') = (getFaces g h s).map (Face.asPolygon h) := by
  obtain ⟨e1, e2⟩ := rings_unsided hs hd
  have sorted : ∀ k : Heap F, k.points = h.points → (findRings k s).1.map Ring.unsided =
      (((unsortedRings k s).map Ring.unsided).mergeSort
        (fun a b => Num.totalLe (a.signedArea h) (b.signedArea h))).filter (fun r => gt (r.signedArea h) (0.0 : F)) := by
    intro k hk
    unfold findRings
    dsimp only
    rw [← List.map_mergeSort (r := fun a b => Num.totalLe (a.signedArea k) (b.signedArea k)), List.filter_map]
    · congr 1
      apply List.filter_congr
      intro r _
      simp only [Function.comp]
      rw [Ring.area_unsided h k hk]
    · intro a _ b _
      rw [Ring.area_unsided h k hk, Ring.area_unsided h k hk]
  have er : (findRings h' s).1.map Ring.unsided = (findRings h s).1.map Ring.unsided := by
    rw [sorted h' hs.1, sorted h rfl, e1]
  have comp : ∀ {α : Type} (f f' : Ring F → α) (k : Ring F → α), (∀ r, k r.unsided = f r) → (∀ r, k r.unsided = f' r) →
      (findRings h' s).1.map f' = (findRings h s).1.map f := by
    intro α f f' k h1 h2
    have := congrArg (List.map k) er
    rw [List.map_map, List.map_map] at this
    rw [show f' = k ∘ Ring.unsided from (funext h2).symm, show f = k ∘ Ring.unsided from (funext h1).symm, this]
  have ep := comp (Ring.asPolygon h) (Ring.asPolygon h') (Ring.asPolygon h) (Ring.polygon_unsided h h rfl)
    (Ring.polygon_unsided h h' hs.1)
  refine ⟨er, e2, comp _ _ (Ring.signedArea h) (Ring.area_unsided h h rfl) (Ring.area_unsided h h' hs.1), ep, fun g => ?_⟩
  have add : ∀ (W : List (Nat × Nat)) (fs : List (Face F)),
      (W.foldl addHoleAt fs).map Face.unsided = W.foldl addHoleAt (fs.map Face.unsided) := by
    intro W
    induction W with
    | nil => intro fs; rfl
    | cons p W ih =>
      intro fs
      rw [List.foldl_cons, List.foldl_cons, ih]
      congr 1
      unfold addHoleAt
      rw [List.getElem?_map, List.getElem?_map]
      cases fs[p.2]? with
      | none => rfl
      | some small =>
        cases fs[p.1]? with
        | none => rfl
        | some big =>
          simp only [Option.map_some]
          rw [List.map_set]
          congr 1
          rw [Face.unsided_eq, Face.addHole, Face.addHole, Face.unsided_eq big]
          simp [Face.exterior, Face.holes]
  have from_ : ∀ l : List (Ring F), (l.map Face.fromRing).map Face.unsided = (l.map Ring.unsided).map Face.fromRing := by
    intro l
    rw [List.map_map, List.map_map]
    apply List.map_congr_left
    intro r _
    simp only [Function.comp, Face.unsided_eq]
    simp [Face.fromRing, Face.exterior, Face.holes]
  have ef : (getFaces g h' s).map Face.unsided = (getFaces g h s).map Face.unsided := by
    rw [findFaces_eq, findFaces_eq]
    rw [add, add, from_, from_, er, ep]
  refine ⟨ef, ?_⟩
  have poly : ∀ k : Heap F, k.points = h.points → ∀ f : Face F, f.unsided.asPolygon h = f.asPolygon k := by
    intro k hk f
    rw [Face.unsided_eq]
    unfold Face.asPolygon
    simp only [Face.exterior, Face.holes]
    rw [Ring.polygon_unsided h k hk]
    congr 1
    rw [List.map_map]
    apply List.map_congr_left
    intro f' _
    simp only [Function.comp]
    rw [Face.unsided_eq]
    simp only [Face.exterior]
    have := Ring.polygon_unsided h k hk f'.exterior
    cases f'
    simp only [Face.exterior] at this ⊢
    rw [this]
  have := congrArg (List.map (Face.asPolygon h)) ef
  rw [List.map_map, List.map_map] at this
  rw [show Face.asPolygon h' = Face.asPolygon h ∘ Face.unsided from (funext (poly h' hs.1)).symm, this]
  apply List.map_congr_left
  intro f _
  exact poly h rfl f

end

/-! ## Rings of one or two segments -/

/-- in this arithmetic a way there and back encloses nothing -/
class NoSliver (F : Type) [Num F] : Prop where
  one : ∀ a b a' b' : F, (a' ==. a) = true → (b' ==. b) = true →
    gt (((0.0 : F) + (a * b' - a' * b)) / (2.0 : F)) (0.0 : F) = false
  two : ∀ a b c d a' b' c' d' : F, (a' ==. a) = true → (b' ==. b) = true → (c ==. c') = true → (d ==. d') = true →
    gt (((0.0 : F) + (a * d - c * b) + (c' * b' - a' * d')) / (2.0 : F)) (0.0 : F) = false

theorem three_segments {F : Type} [Num F] [NoSliver F] (h : Heap F) (s : Sketch) (r : Ring F) (hr : r ∈ (findRings h s).1) :
    (∃ c, PrimCell.circle c ∈ s.cells ∧ r = .circle (h.circles c)) ∨ 3 ≤ r.segs.length := by
  have hpos := (mem_findRings.1 hr).2
  rcases C38_closed_chain h s r hr with hc | ⟨segs, rfl, ⟨hne, hc⟩, -⟩
  · exact .inl hc
  right
  show 3 ≤ segs.length
  match segs, hne, hc, hpos with
  | [], hne, _, _ => exact absurd rfl hne
  | [x], _, hc, hpos =>
    exfalso
    have h0 := hc 0 x x rfl (by simp)
    simp only [Vec2.beq, Bool.and_eq_true] at h0
    have := NoSliver.one _ _ _ _ h0.1 h0.2
    simp only [Ring.signedArea, List.foldl_cons, List.foldl_nil] at hpos
    rw [this] at hpos
    cases hpos
  | [x, y], _, hc, hpos =>
    exfalso
    have h0 := hc 0 x y rfl rfl
    have h1 := hc 1 y x rfl (by simp)
    simp only [Vec2.beq, Bool.and_eq_true] at h0 h1
    have := NoSliver.two _ _ _ _ _ _ _ _ h1.1 h1.2 h0.1 h0.2
    simp only [Ring.signedArea, List.foldl_cons, List.foldl_nil] at hpos
    rw [this] at hpos
    cases hpos
  | _ :: _ :: _ :: _, _, _, _ => simp

section
open XR

theorem XR.not_pos_half {x : XR} (h : x = fin 0 ∨ x = nan) : gt (x / (2.0 : XR)) (0.0 : XR) = false := by
  rw [lit0, lit2]
  rcases h with rfl | rfl
  · rw [div_fin, if_neg (by norm_num)]; simp [gt]
  · rfl

theorem XR.of_eq {x y : XR} (h : (x ==. y) = true) : x = y := by
  cases x <;> cases y <;> simp_all [Num.eq, XR.eq]

theorem XR.sub_self' (x : XR) : x - x = fin 0 ∨ x - x = nan := by
  cases x with
  | fin a => left; rw [sub_fin, sub_self]
  | pinf => right; rfl
  | ninf => right; rfl
  | nan => right; rfl

theorem XR.sub_sub' (x y : XR) : (x - y) + (y - x) = fin 0 ∨ (x - y) + (y - x) = nan := by
  cases x <;> cases y <;> first | (right; rfl) | skip
  left; rw [sub_fin, sub_fin, add_fin]; congr 1; ring

theorem XR.zero_add' (x : XR) : (0.0 : XR) + x = x := by
  rw [lit0]
  cases x with
  | fin a => rw [add_fin, zero_add]
  | pinf => rfl
  | ninf => rfl
  | nan => rfl

instance : NoSliver XR where
  one a b a' b' h1 h2 := by
    rw [XR.of_eq h1, XR.of_eq h2, XR.zero_add']
    exact XR.not_pos_half (XR.sub_self' _)
  two a b c d a' b' c' d' h1 h2 h3 h4 := by
    rw [XR.of_eq h1, XR.of_eq h2, XR.of_eq h3, XR.of_eq h4, XR.zero_add']
    exact XR.not_pos_half (XR.sub_sub' _ _)

end

namespace Val
open Round

/-- equal up to the sign of zero -/
def Eqv (a b : Val) : Prop := a.isNan = b.isNan ∧ a.ext = b.ext

/-- opposite up to the sign of zero -/
def Opp (a b : Val) : Prop := a.isNan = b.isNan ∧ a.ext = -b.ext

theorem Eqv.refl (a : Val) : Eqv a a := ⟨rfl, rfl⟩

theorem Eqv.symm {a b : Val} (h : Eqv a b) : Eqv b a := ⟨h.1.symm, h.2.symm⟩

theorem Eqv.trans {a b c : Val} (h : Eqv a b) (k : Eqv b c) : Eqv a c := ⟨h.1.trans k.1, h.2.trans k.2⟩

/-- a zero -/
def zero (s : Bool) : Val := num s ⟨0, Rep.zero⟩

theorem zero_ext (s : Bool) : (zero s).ext = 0 := by cases s <;> simp [zero, ext, sgn]

theorem Eqv.cases {a b : Val} (h : Eqv a b) : (∃ s t, a = zero s ∧ b = zero t) ∨ a = b := by
  obtain ⟨h1, h2⟩ := h
  cases a with
  | nan => cases b <;> simp_all [isNan]
  | inf s =>
    right
    cases b with
    | nan => simp [isNan] at h1
    | inf t => cases s <;> cases t <;> simp_all [ext]
    | num t n => cases s <;> simp [ext] at h2
  | num s m =>
    cases b with
    | nan => simp [isNan] at h1
    | inf t => cases t <;> simp [ext] at h2
    | num t n =>
      obtain ⟨m, hm⟩ := m
      obtain ⟨n, hn⟩ := n
      have e : sgn s m = sgn t n := EReal.coe_eq_coe_iff.1 h2
      have e' : m = n := by rw [← sgn_rep s hm, ← sgn_rep t hn, e]
      subst e'
      by_cases hz : m = 0
      · subst hz
        exact .inl ⟨s, t, rfl, rfl⟩
      · right
        have : s = t := by
          cases s <;> cases t <;> simp [sgn] at e ⊢
          · exact hz (by linarith)
          · exact hz (by linarith)
        rw [this]

theorem pack_zero (s : Bool) : pack s 0 = zero s := pack_rep s ⟨0, Rep.zero⟩

theorem mul_zero_eqv (s t : Bool) (b : Val) : Eqv (mul (zero s) b) (mul (zero t) b) ∧ Eqv (mul b (zero s)) (mul b (zero t)) := by
  cases b with
  | nan => exact ⟨Eqv.refl _, Eqv.refl _⟩
  | inf a => simp only [zero, mul, if_true]; exact ⟨Eqv.refl _, Eqv.refl _⟩
  | num a m =>
    have e : ∀ s, mul (zero s) (num a m) = zero (s ^^ a) ∧ mul (num a m) (zero s) = zero (a ^^ s) := by
      intro s
      constructor
      · show pack _ _ = _; rw [zero_mul, pack_zero]
      · show pack _ _ = _; rw [mul_zero, pack_zero]
    rw [(e s).1, (e s).2, (e t).1, (e t).2]
    exact ⟨⟨rfl, by rw [zero_ext, zero_ext]⟩, ⟨rfl, by rw [zero_ext, zero_ext]⟩⟩

theorem Eqv.mul {a a' b b' : Val} (h : Eqv a a') (k : Eqv b b') : Eqv (mul a b) (mul a' b') := by
  have h1 : Eqv (Val.mul a b) (Val.mul a' b) := by
    rcases h.cases with ⟨s, t, rfl, rfl⟩ | rfl
    · exact (mul_zero_eqv s t b).1
    · exact Eqv.refl _
  have h2 : Eqv (Val.mul a' b) (Val.mul a' b') := by
    rcases k.cases with ⟨s, t, rfl, rfl⟩ | rfl
    · exact (mul_zero_eqv s t a').2
    · exact Eqv.refl _
  exact h1.trans h2

theorem R_neg (x : ℝ) : R (-x) = -R x := by
  have hm : mag (-x) = mag x := by unfold mag; rw [abs_neg]
  have h0 : mag 0 = 0 := by simpa using mag_rep Rep.zero
  rw [R_eq, R_eq, hm]
  rcases lt_trichotomy x 0 with h | rfl | h
  · rw [if_neg (by linarith), if_pos h, neg_neg]
  · simp [h0]
  · rw [if_pos (by linarith), if_neg (by linarith)]

theorem sgn_not (s : Bool) (m : ℝ) : sgn (!s) m = -sgn s m := by cases s <;> simp [sgn]

theorem Eqv.sub {p p' q q' : Val} (h : Eqv p p') (k : Eqv q q') : Opp (add p q.neg) (add q' p'.neg) := by
  obtain ⟨h1, h2⟩ := h
  obtain ⟨k1, k2⟩ := k
  cases p with
  | nan =>
    cases p' with
    | nan => cases q <;> cases q' <;> exact ⟨rfl, by simp [add, neg, ext]⟩
    | inf => cases h1
    | num => cases h1
  | inf a =>
    cases p' with
    | nan => cases h1
    | num s m => cases a <;> simp [ext] at h2
    | inf a' =>
      have : a' = a := by cases a <;> cases a' <;> simp_all [ext]
      subst this
      cases q with
      | nan => cases q' <;> first | exact ⟨rfl, by simp [add, neg, ext]⟩ | cases k1
      | inf b =>
        cases q' with
        | nan => cases k1
        | num s m => cases b <;> simp [ext] at k2
        | inf b' =>
          have : b' = b := by cases b <;> cases b' <;> simp_all [ext]
          subst this
          cases a' <;> cases b' <;> exact ⟨rfl, by simp [add, neg, ext]⟩
      | num s m =>
        cases q' with
        | nan => cases k1
        | inf b => cases b <;> simp [ext] at k2
        | num s' m' => cases a' <;> exact ⟨rfl, by simp [add, neg, ext]⟩
  | num s m =>
    cases p' with
    | nan => cases h1
    | inf b => cases b <;> simp [ext] at h2
    | num s' m' =>
      have e1 : sgn s m.1 = sgn s' m'.1 := EReal.coe_eq_coe_iff.1 h2
      cases q with
      | nan => cases q' <;> first | exact ⟨rfl, by simp [add, neg, ext]⟩ | cases k1
      | inf b =>
        cases q' with
        | nan => cases k1
        | num s m => cases b <;> simp [ext] at k2
        | inf b' =>
          have : b' = b := by cases b <;> cases b' <;> simp_all [ext]
          subst this
          cases b' <;> exact ⟨rfl, by simp [add, neg, ext]⟩
      | num t n =>
        cases q' with
        | nan => cases k1
        | inf b => cases b <;> simp [ext] at k2
        | num t' n' =>
          have e2 : sgn t n.1 = sgn t' n'.1 := EReal.coe_eq_coe_iff.1 k2
          simp only [neg]
          refine ⟨by rw [add_num_not_nan, add_num_not_nan], ?_⟩
          rw [ext_add_num, ext_add_num, sgn_not, sgn_not, e1, e2, ← R_neg]
          congr 1; ring

/-- NaN or a zero -/
def Null (a : Val) : Prop := a.isNan = true ∨ a.ext = 0

theorem Opp.add {x y : Val} (h : Opp x y) : Null (add x y) := by
  obtain ⟨h1, h2⟩ := h
  cases x with
  | nan => exact .inl rfl
  | inf a =>
    cases y with
    | nan => exact .inl rfl
    | inf b =>
      have : a ≠ b := by rintro rfl; cases a <;> simp [ext] at h2
      simp only [Val.add, if_neg this]; exact .inl rfl
    | num s m =>
      exfalso
      cases a <;> simp only [ext, Bool.false_eq_true, if_false, if_true] at h2
      · rw [← EReal.coe_neg] at h2; exact EReal.coe_ne_top _ h2.symm
      · rw [← EReal.coe_neg] at h2; exact EReal.coe_ne_bot _ h2.symm
  | num s m =>
    cases y with
    | nan => exact .inl rfl
    | inf a => exfalso; cases a <;> simp [ext] at h2
    | num t n =>
      right
      have e : sgn s m.1 = -sgn t n.1 := by
        simp only [ext] at h2
        rw [← EReal.coe_neg] at h2
        exact EReal.coe_eq_coe_iff.1 h2
      rw [ext_add_num, e, neg_add_cancel]
      simpa [sgn] using R_sgn false Rep.zero

theorem zero_add_eqv (x : Val) : Eqv (add (zero false) x) x := by
  cases x with
  | nan => exact Eqv.refl _
  | inf a => exact Eqv.refl _
  | num s m =>
    refine ⟨add_num_not_nan _ _ _ _, ?_⟩
    unfold zero
    rw [ext_add_num]
    simp only [sgn, Bool.false_eq_true, if_false, zero_add]
    exact R_sgn s m.2

theorem Null.div {x y : Val} (h : Null x) (hy : Null y → False) : Null (div x y) := by
  rcases h with h | h
  · cases x with
    | nan => exact .inl rfl
    | inf => cases h
    | num => cases h
  · cases x with
    | nan => exact .inl rfl
    | inf a => cases a <;> simp [ext] at h
    | num s m =>
      have h0 : sgn s m.1 = 0 := by simpa [ext] using h
      have : m.1 = 0 := by rw [← sgn_rep s m.2, h0, abs_zero]
      cases y with
      | nan => exact .inl rfl
      | inf a => right; exact zero_ext _
      | num t n =>
        have hn : n.1 ≠ 0 := by
          intro hn
          exact hy (.inr (by simp [ext, sgn, hn]))
        simp only [Val.div, if_neg hn, this, zero_div, pack_zero]
        right; exact zero_ext _

end Val

section
open Val Round
variable {lm : Libm}

theorem B64.eqv {x y : B64 lm} (h : (x ==. y) = true) : Eqv x.v y.v := by
  obtain ⟨h1, h2, h3⟩ := (B64.eq_iff x y).1 h
  exact ⟨h1.trans h2.symm, h3⟩

theorem B64.not_pos_half {x : B64 lm} (h : Null x.v) : gt (x / (2.0 : B64 lm)) (0.0 : B64 lm) = false := by
  unfold gt
  rw [B64.zero_lt_iff]
  have h2 : ¬Null ((2.0 : B64 lm).v) := by
    have e : (2.0 : B64 lm).v = num false ⟨2, by simpa using rep_pow 1 (by norm_num) (by norm_num)⟩ := by
      rw [B64.lit_v, ← pack_rep]
      congr 1
      norm_num
    rw [e]
    rintro (k | k)
    · cases k
    · have : ((2 : ℝ) : EReal) = ((0 : ℝ) : EReal) := by simp [ext, sgn] at k
      rw [EReal.coe_eq_coe_iff] at this
      norm_num at this
  rcases h.div h2 with k | k
  · exact .inl k
  · exact .inr (by rw [B64.div_v, k])

theorem Val.Eqv.null {x y : Val} (h : Eqv x y) (k : Null y) : Null x := by
  unfold Null; rw [h.1, h.2]; exact k

theorem zero_add_eqv' (x : B64 lm) : Eqv ((0.0 : B64 lm) + x).v x.v := by
  rw [B64.add_v, B64.zero_v]
  exact zero_add_eqv x.v

theorem Val.Eqv.opp {p q : Val} (h : Eqv p q) : Opp p q.neg := by
  obtain ⟨h1, h2⟩ := h
  constructor
  · rw [h1]; cases q <;> rfl
  · rw [h2]
    cases q with
    | nan => simp [neg, ext]
    | inf a => cases a <;> simp [neg, ext]
    | num s m => simp only [neg, ext, sgn_not]; rw [← EReal.coe_neg, neg_neg]

instance : NoSliver (B64 lm) where
  one a b a' b' h1 h2 := by
    apply B64.not_pos_half
    have e := (B64.eqv h1).symm.mul (B64.eqv h2)
    exact (zero_add_eqv' _).null e.opp.add
  two a b c d a' b' c' d' h1 h2 h3 h4 := by
    apply B64.not_pos_half
    have e := ((B64.eqv h1).symm.mul (B64.eqv h4)).sub ((B64.eqv h3).mul (B64.eqv h2).symm)
    have k := zero_add_eqv' (lm := lm) (a * d - c * b)
    exact Opp.add ⟨k.1.trans e.1, k.2.trans e.2⟩

end

/-- **C69.** In exact arithmetic, every ring is a circle or has at least three segments. -/
theorem C69_three_segments (h : Heap XR) (s : Sketch) (r : Ring XR) (hr : r ∈ (findRings h s).1) :
    (∃ c, PrimCell.circle c ∈ s.cells ∧ r = .circle (h.circles c)) ∨ 3 ≤ r.segs.length := three_segments h s r hr

/-- **C69.** So it is in `f64` arithmetic, whatever rounding does.  In particular the area between an arc and its chord,
or between two arcs with the same end points, is never a face. -/
theorem C69_three_segments_binary64 {lm : Libm} (h : Heap (B64 lm)) (s : Sketch) (r : Ring (B64 lm))
    (hr : r ∈ (findRings h s).1) :
    (∃ c, PrimCell.circle c ∈ s.cells ∧ r = .circle (h.circles c)) ∨ 3 ≤ r.segs.length := three_segments h s r hr

/-! ## The wrong turn -/

section
open XR

/-- a centre and the corners of a box -/
def domePts : List (Int × Int) := [(0, 0), (-1, 0), (-1, -1), (1, -1), (1, 0)]

/-- the three lower sides of the box, its lid, and the upper half circle above the lid -/
noncomputable def domeHeap : Heap XR := drawing (realPts domePts) [(1, 2), (2, 3), (3, 4), (1, 4)]
  [⟨0, ⟨fin 1, fin 0, fin Real.pi⟩, ⟨fin 0, fin 0, fin 0⟩, false⟩]

/-- the half circle was added before the lines -/
def domeFirst : Sketch := ⟨[(0, .point 0), (1, .point 1), (2, .point 2), (3, .point 3), (4, .point 4), (5, .arc 0),
  (6, .line 0), (7, .line 1), (8, .line 2), (9, .line 3)], 10, []⟩

/-- the half circle was added after the lines -/
def domeLast : Sketch := ⟨[(0, .point 0), (1, .point 1), (2, .point 2), (3, .point 3), (4, .point 4), (5, .line 0),
  (6, .line 1), (7, .line 2), (8, .line 3), (9, .arc 0)], 10, []⟩

/-- the half circle -/
noncomputable def domeArc : Segment XR := .arc ⟨0, ⟨fin 1, fin 0, fin Real.pi⟩, ⟨fin 0, fin 0, fin 0⟩, false⟩

theorem domeArc_eq : domeArc = (GSeg.arc 0 1 0 2 false 0).xr := by
  simp [domeArc, GSeg.xr]

theorem domeFirst_traced : (tracedRings domeHeap domeFirst).1 = [0, 1, 2, 3, 4, 8, 7, 6, 5, 9] ∧
    (tracedRings domeHeap domeFirst).2.map (fun r => r.map (·.2)) =
      [[domeArc, .line 1 2, .line 2 3, .line 3 4], [.line 1 4, .line 4 3, .line 3 2, .line 2 1],
       [domeArc.reverse, .line 4 1]] := by
  have := GSeg.traced domePts [(1, 2), (2, 3), (3, 4), (1, 4)]
    [⟨0, ⟨fin 1, fin 0, fin Real.pi⟩, ⟨fin 0, fin 0, fin 0⟩, false⟩] domeFirst
    [.arc 0 1 0 2 false 0, .line 1 2, .line 2 3, .line 3 4, .line 1 4, .arc 0 1 2 0 true 0, .line 2 1, .line 3 2, .line 4 3,
      .line 4 1] (by
      show [domeArc, .line 1 2, .line 2 3, .line 3 4, .line 1 4, domeArc.reverse, .line 2 1, .line 3 2, .line 4 3,
        .line 4 1] = _
      rw [domeArc_eq, ← GSeg.xr_reverse]
      rfl) (by decide) [0, 1, 2, 3, 4, 8, 7, 6, 5, 9] [[0, 1, 2, 3], [4, 8, 7, 6], [5, 9]] (by decide)
  rw [domeArc_eq, ← GSeg.xr_reverse]
  exact this

theorem domeLast_traced : (tracedRings domeHeap domeLast).1 = [0, 1, 2, 8, 3, 4, 5, 9, 7, 6] ∧
    (tracedRings domeHeap domeLast).2.map (fun r => r.map (·.2)) =
      [[.line 1 2, .line 2 3, .line 3 4, .line 4 1], [.line 1 4, domeArc],
       [.line 2 1, domeArc.reverse, .line 4 3, .line 3 2]] := by
  have := GSeg.traced domePts [(1, 2), (2, 3), (3, 4), (1, 4)]
    [⟨0, ⟨fin 1, fin 0, fin Real.pi⟩, ⟨fin 0, fin 0, fin 0⟩, false⟩] domeLast
    [.line 1 2, .line 2 3, .line 3 4, .line 1 4, .arc 0 1 0 2 false 0, .line 2 1, .line 3 2, .line 4 3,
      .line 4 1, .arc 0 1 2 0 true 0] (by
      show [.line 1 2, .line 2 3, .line 3 4, .line 1 4, domeArc, .line 2 1, .line 3 2, .line 4 3,
        .line 4 1, domeArc.reverse] = _
      rw [domeArc_eq, ← GSeg.xr_reverse]
      rfl) (by decide) [0, 1, 2, 8, 3, 4, 5, 9, 7, 6] [[0, 1, 2, 8], [3, 4], [5, 9, 7, 6]] (by decide)
  rw [domeArc_eq, ← GSeg.xr_reverse]
  exact this

/-- **C69 (refutation).** The walk turns by the direction from the centre of an arc, not by the direction in which the arc
runs, so it can leave an arc into the wrong segment, and which faces are found depends on the order in which the segments
were added.  A box and a half disc on its lid: with the half circle added first, the only face is the outline of both, and
the lid is in no face although nothing is reported unused; with the half circle added last, the only face is the box. -/
theorem C69_wrong_turn :
    findRings domeHeap domeFirst = ([.segments [domeArc, .line 1 2, .line 2 3, .line 3 4]], []) ∧
    findRings domeHeap domeLast = ([.segments [.line 1 2, .line 2 3, .line 3 4, .line 4 1]], []) ∧
    (drawn domeHeap domeFirst).Perm (drawn domeHeap domeLast) := by
  have ends : domeArc.getStart domeHeap = ⟨fin 1, fin 0⟩ ∧ domeArc.getEnd domeHeap = ⟨fin (-1), fin 0⟩ ∧
      domeArc.reverse.getStart domeHeap = ⟨fin (-1), fin 0⟩ ∧ domeArc.reverse.getEnd domeHeap = ⟨fin 1, fin 0⟩ := by
    simp [domeArc, domeHeap, drawing, Segment.getStart, Segment.getEnd, Segment.reverse, Arc.reverse, Arc.new, Arc.startPoint,
      Arc.endPoint, Arc.radius, Arc.startAngle, Arc.endAngle, toVec, realPts, domePts]
  have lend : ∀ a b, (Segment.line a b : Segment XR).getStart domeHeap = toVec ((realPts domePts).getD a (0, 0)) ∧
      (Segment.line a b : Segment XR).getEnd domeHeap = toVec ((realPts domePts).getD b (0, 0)) := fun a b => ⟨rfl, rfl⟩
  have unsorted : ∀ s T, (tracedRings domeHeap s).2.map (fun r => r.map (·.2)) = T → circleRings domeHeap s = [] →
      unsortedRings domeHeap s = T.map Ring.segments := by
    intro s T e hc
    unfold unsortedRings
    rw [hc, ← e, List.map_map, List.append_nil]
    rfl
  refine ⟨Prod.ext ?_ ?_, Prod.ext ?_ ?_, ?_⟩
  · apply findRings_single
    rw [unsorted _ _ domeFirst_traced.2 rfl, lit0]
    have a1 : (Ring.segments [domeArc, .line 1 2, .line 2 3, .line 3 4]).signedArea domeHeap = fin 2 := by
      simp only [Ring.signedArea, List.foldl_cons, List.foldl_nil, ends, lend, realPts_getD, toVec, domePts]
      simp
      norm_num [div_fin]
    have a2 : (Ring.segments [.line 1 4, .line 4 3, .line 3 2, .line 2 1]).signedArea domeHeap = fin (-2) := by
      simp only [Ring.signedArea, List.foldl_cons, List.foldl_nil, lend, realPts_getD, toVec, domePts]
      simp
      norm_num [div_fin]
    have a3 : (Ring.segments [domeArc.reverse, .line 4 1]).signedArea domeHeap = fin 0 := by
      simp only [Ring.signedArea, List.foldl_cons, List.foldl_nil, ends, lend, realPts_getD, toVec, domePts]
      simp
      norm_num [div_fin]
    simp [a1, a2, a3, gt]
  · show unusedSegments _ _ = _
    unfold unusedSegments
    rw [domeFirst_traced.1]
    rfl
  · apply findRings_single
    rw [unsorted _ _ domeLast_traced.2 rfl, lit0]
    have a1 : (Ring.segments [.line 1 2, .line 2 3, .line 3 4, .line 4 1]).signedArea domeHeap = fin 2 := by
      simp only [Ring.signedArea, List.foldl_cons, List.foldl_nil, lend, realPts_getD, toVec, domePts]
      simp
      norm_num [div_fin]
    have a2 : (Ring.segments [.line 2 1, domeArc.reverse, .line 4 3, .line 3 2]).signedArea domeHeap = fin (-2) := by
      simp only [Ring.signedArea, List.foldl_cons, List.foldl_nil, ends, lend, realPts_getD, toVec, domePts]
      simp
      norm_num [div_fin]
    have a3 : (Ring.segments [.line 1 4, domeArc]).signedArea domeHeap = fin 0 := by
      simp only [Ring.signedArea, List.foldl_cons, List.foldl_nil, ends, lend, realPts_getD, toVec, domePts]
      simp
      norm_num [div_fin]
    simp [a1, a2, a3, gt]
  · show unusedSegments _ _ = _
    unfold unusedSegments
    rw [domeLast_traced.1]
    rfl
  · show List.Perm [domeArc, .line 1 2, .line 2 3, .line 3 4, .line 1 4] [.line 1 2, .line 2 3, .line 3 4, .line 1 4, domeArc]
    exact List.perm_append_comm (l₁ := [domeArc])

/-- the half circle below the lid instead -/
noncomputable def domeDown : Heap XR := { domeHeap with arcs := fun i => { domeHeap.arcs i with clockwise := true } }

/-- the hypotheses of `C69_either_side` can be met, with a ring that contains an arc, and those of `C69_three_segments` -/
example : SidesOnly domeHeap domeDown ∧ domeHeap.arcs 0 ≠ domeDown.arcs 0 ∧
    (∀ i j, PrimCell.arc i ∈ domeFirst.cells → PrimCell.arc j ∈ domeFirst.cells →
      Coincide domeHeap (domeHeap.arcs i) (domeHeap.arcs j) →
      ((domeDown.arcs i).clockwise = (domeDown.arcs j).clockwise ↔
        (domeHeap.arcs i).clockwise = (domeHeap.arcs j).clockwise)) ∧
    Ring.segments [domeArc, .line 1 2, .line 2 3, .line 3 4] ∈ (findRings domeHeap domeFirst).1 := by
  refine ⟨⟨rfl, rfl, rfl, fun i => rfl⟩, ?_, ?_, by rw [C69_wrong_turn.1]; simp⟩
  · intro e
    have := congrArg Arc.clockwise e
    simp [domeDown, domeHeap, drawing] at this
  · intro i j hi hj _
    simp [domeFirst, Sketch.cells] at hi hj
    subst hi; subst hj
    simp

end
end Isotope
