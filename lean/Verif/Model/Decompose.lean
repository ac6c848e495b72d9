import Verif.Model.Sketch

/-!
# Decomposition into rings and faces

Models `src/decompose/{mod,segment,ring,face}.rs`.  Segments and rings are clones that still hold `Rc` handles of points,
so every query takes the heap.  The external crate `geo` is represented by `Geo`, a record of arbitrary functions.
-/

namespace Isotope
variable {F : Type}

/-- `Segment` (`src/decompose/segment.rs:6-10`).  `line start stop` is a cloned `Line` (its two handles). -/
inductive Segment (F : Type) where
  | line (start stop : Nat)
  | arc (a : Arc F)

/-- `Ring` (`src/decompose/ring.rs:10-14`). -/
inductive Ring (F : Type) where
  | circle (c : Circle F)
  | segments (segs : List (Segment F))

/-- `Face` (`src/decompose/face.rs:6-10`). -/
inductive Face (F : Type) where
  | mk (exterior : Ring F) (holes : List (Face F))

/-- `geo::Polygon`: exterior and interior closed line strings. -/
structure Polygon (F : Type) where
  exterior : List (F × F)
  interiors : List (List (F × F))

/-- The functions of the `geo` crate used in `src/decompose/mod.rs:5` (`Contains`, `InteriorPoint`): arbitrary. -/
structure Geo (F : Type) where
  /-- `bigger.contains(smaller)` (`mod.rs:93`) -/
  containsPoly : Polygon F → Polygon F → Bool
  /-- `polygon.contains(&point)` (`mod.rs:47`) -/
  containsPoint : Polygon F → F × F → Bool
  /-- `polygon.interior_point()` (`mod.rs:42`) -/
  interiorPoint : Polygon F → Option (F × F)

section
variable [Num F]

/-! ## `PartialEq` (derived, by value) -/

/-- derived `PartialEq` of `Point2` (`src/primitives/point2.rs:9`): position **and** gradient. -/
def Point2.beq (a b : Point2 F) : Bool := a.data.beq b.data && a.grad.beq b.grad

/-- derived `PartialEq` of `Arc` (`src/primitives/arc.rs:12`): center by value, data, gradient, direction. -/
def Arc.beq (h : Heap F) (a b : Arc F) : Bool :=
  (h.points a.center).beq (h.points b.center) && a.data.beq b.data && a.grad.beq b.grad && (a.clockwise == b.clockwise)

/-- derived `PartialEq` of `Circle` (`src/primitives/circle.rs:12`). -/
def Circle.beq (h : Heap F) (a b : Circle F) : Bool :=
  (h.points a.center).beq (h.points b.center) && (a.radius ==. b.radius) && (a.grad ==. b.grad)

namespace Segment

/-- derived `PartialEq` of `Segment` (`src/decompose/segment.rs:6`). -/
def beq (h : Heap F) : Segment F → Segment F → Bool
  | .line s e, .line s' e' => (h.points s).beq (h.points s') && (h.points e).beq (h.points e')
  | .arc a, .arc a' => a.beq h a'
  | _, _ => false

/-- `Segment::get_start` (`segment.rs:13-18`). -/
def getStart (h : Heap F) : Segment F → Vec2 F
  | .line s _ => (h.points s).data
  | .arc a => a.startPoint h

/-- `Segment::get_end` (`segment.rs:20-25`). -/
def getEnd (h : Heap F) : Segment F → Vec2 F
  | .line _ e => (h.points e).data
  | .arc a => a.endPoint h

/-- `Segment::reverse` (`segment.rs:27-34`). -/
def reverse : Segment F → Segment F
  | .line s e => .line e s
  | .arc a => .arc a.reverse

/-- `Segment::continues` (`segment.rs:36-39`): `self` continues `prior`. -/
def continues (h : Heap F) (self prior : Segment F) : Bool := (prior.getEnd h).beq (self.getStart h)

/-- `Segment::connects` (`segment.rs:41-44`). -/
def connects (h : Heap F) (self prior : Segment F) : Bool :=
  (prior.getEnd h).beq (self.getStart h) || (prior.getEnd h).beq (self.getEnd h)

/-- `Segment::start_angle` (`segment.rs:46-55`). -/
def startAngle (h : Heap F) : Segment F → F
  | .line s e =>
    Num.atan2 ((h.points e).data.y - (h.points s).data.y) ((h.points e).data.x - (h.points s).data.x)
  | .arc a => a.startAngle

/-- `Segment::end_angle` (`segment.rs:57-62`). -/
def endAngle (h : Heap F) : Segment F → F
  | .line s e => (Segment.line s e : Segment F).startAngle h
  | .arc a => a.endAngle

/-- `Segment::reverse_equals` (`segment.rs:64-66`). -/
def reverseEquals (h : Heap F) (a b : Segment F) : Bool := a.beq h b.reverse

/-- `Segment::equals_or_reverse_equals` (`segment.rs:68-70`). -/
def equalsOrReverseEquals (h : Heap F) (a b : Segment F) : Bool := a.beq h b || a.reverseEquals h b

end Segment

/-! ## Angles -/

/-- `angle_difference` (`src/decompose/mod.rs:233-257`). -/
def angleDifference (a0 a1 : F) : F :=
  let a0 := if gt a0 (Num.tau : F) then a0 - Num.tau else a0
  let a0 := if a0 <. (0.0 : F) then a0 + Num.tau else a0
  let a1 := if gt a1 (Num.tau : F) then a1 - Num.tau else a1
  let a1 := if a1 <. (0.0 : F) then a1 + Num.tau else a1
  let d := a1 - a0
  let d := if gt d (Num.tau : F) then d - Num.tau else d
  let d := if d <. (0.0 : F) then d + Num.tau else d
  d

/-! ## Rings -/

/-- `Iterator::enumerate` from a given index. -/
def enumFrom {α : Type} : Nat → List α → List (Nat × α)
  | _, [] => []
  | n, a :: as => (n, a) :: enumFrom (n + 1) as

/-- `matches` of `find_next_segment` (`src/decompose/mod.rs:209-225`): unused segments that continue `cur` and are not
`cur` itself or its reverse, with the turning angle. -/
def nextCandidates (h : Heap F) (segs : List (Segment F)) (cur : Segment F) (used : List Nat) :
    List ((Nat × Segment F) × F) :=
  let thisEnd := Num.rem (cur.endAngle h + Num.pi) ((2.0 : F) * Num.pi)
  (enumFrom 0 segs).filterMap (fun is =>
    if used.contains is.1 then none
    else if is.2.continues h cur && !is.2.equalsOrReverseEquals h cur then
      some (is, angleDifference thisEnd (is.2.startAngle h))
    else none)

/-- `find_next_segment` (`mod.rs:204-231`): `reduce` keeps the later of two candidates unless the earlier is strictly
larger. -/
def findNextSegment (h : Heap F) (segs : List (Segment F)) (cur : Segment F) (used : List Nat) :
    Option (Nat × Segment F) :=
  match nextCandidates h segs cur used with
  | [] => none
  | m :: ms => some (ms.foldl (fun a b => if gt a.2 b.2 then a else b) m).1

/-- Inner loop of `find_rings` (`mod.rs:146-160`): `n` rounds left, current `(index, segment)`, segments pushed so far.
`some ring` when the walk came back to `startPt`, `none` when it stopped otherwise. -/
def ringWalk (h : Heap F) (segs : List (Segment F)) (used : List Nat) (startPt : Vec2 F) :
    Nat → Nat × Segment F → List (Nat × Segment F) → Option (List (Nat × Segment F))
  | 0, _, _ => none
  | n + 1, cur, acc =>
    let acc' := acc ++ [cur]
    if (cur.2.getEnd h).beq startPt then some acc'
    else
      match findNextSegment h segs cur.2 used with
      | none => none
      | some nxt => ringWalk h segs used startPt n nxt acc'

/-- Outer loop of `find_rings` (`mod.rs:136-161`): entries still to visit, used indices, rings found. -/
def ringLoop (h : Heap F) (segs : List (Segment F)) :
    List (Nat × Segment F) → List Nat → List (List (Nat × Segment F)) → List Nat × List (List (Nat × Segment F))
  | [], used, rings => (used, rings)
  | is :: rest, used, rings =>
    if used.contains is.1 then ringLoop h segs rest used rings
    else
      match ringWalk h segs used (is.2.getStart h) (segs.length - 1) is [] with
      | none => ringLoop h segs rest used rings
      | some ring => ringLoop h segs rest (used ++ ring.map (·.1)) (rings ++ [ring])

/-- `init_segments` (`mod.rs:113-122`). -/
def initSegments (h : Heap F) (s : Sketch) : List (Segment F) :=
  s.prims.filterMap (fun kp =>
    match kp.2 with
    | .line l => some (.line (h.lines l).start (h.lines l).stop)
    | .arc a => some (.arc (h.arcs a))
    | _ => none)

/-- `all_segments` (`mod.rs:124-131`). -/
def allSegments (h : Heap F) (s : Sketch) : List (Segment F) :=
  initSegments h s ++ (initSegments h s).map Segment.reverse

/-- `circles` (`mod.rs:182-189`). -/
def circleRings (h : Heap F) (s : Sketch) : List (Ring F) :=
  s.prims.filterMap (fun kp =>
    match kp.2 with
    | .circle c => some (.circle (h.circles c))
    | _ => none)

/-- `Ring::signed_area` (`src/decompose/ring.rs:17-30`); `powi(2)` is one multiplication. -/
def Ring.signedArea (h : Heap F) : Ring F → F
  | .circle c => c.radius * c.radius * Num.pi
  | .segments segs =>
    segs.foldl (fun area sg =>
      let s := sg.getStart h
      let e := sg.getEnd h
      area + (s.x * e.y - e.x * s.y)) (0.0 : F) / (2.0 : F)

/-- Rings traced by the walk, with segment indices, in discovery order, and the used indices. -/
def tracedRings (h : Heap F) (s : Sketch) : List Nat × List (List (Nat × Segment F)) :=
  ringLoop h (allSegments h s) (enumFrom 0 (allSegments h s)) [] []

/-- `unused_segments` (`mod.rs:163-173`). -/
def unusedSegments (h : Heap F) (s : Sketch) : List (Segment F) :=
  (enumFrom 0 (initSegments h s)).filterMap (fun is => if (tracedRings h s).1.contains is.1 then none else some is.2)

/-- all rings before sorting (`mod.rs:175-190`) -/
def unsortedRings (h : Heap F) (s : Sketch) : List (Ring F) :=
  (tracedRings h s).2.map (fun r => Ring.segments (r.map (·.2))) ++ circleRings h s

/-- `find_rings` (`mod.rs:112-202`); `sort_by` is stable (`List.mergeSort`). -/
def findRings (h : Heap F) (s : Sketch) : List (Ring F) × List (Segment F) :=
  let sorted := (unsortedRings h s).mergeSort (fun a b => Num.totalLe (a.signedArea h) (b.signedArea h))
  (sorted.filter (fun r => gt (r.signedArea h) (0.0 : F)), unusedSegments h s)

/-- `Ring::adjacent_edges` (`ring.rs:32-53`). -/
def Ring.adjacentEdges (h : Heap F) : Ring F → Ring F → Option (List Nat × List Nat)
  | .segments as, .segments bs =>
    let pairs := (enumFrom 0 as).flatMap (fun ia =>
      (enumFrom 0 bs).filterMap (fun ib => if ia.2.reverseEquals h ib.2 then some (ia.1, ib.1) else none))
    if pairs.isEmpty then none else some (pairs.map (·.1), pairs.map (·.2))
  | _, _ => none

/-- `PartialEq for Ring` (`ring.rs:90-104`). -/
def Ring.beq (h : Heap F) : Ring F → Ring F → Bool
  | .circle a, .circle b => a.beq h b
  | .segments as, .segments bs => as.length == bs.length && (as.zip bs).all (fun p => p.1.beq h p.2)
  | _, _ => false

/-! ## Polygons and faces -/

/-- `Polygon::new` of `geo` closes its line strings: the first point is appended if it differs from the last. -/
def closeRing (ps : List (F × F)) : List (F × F) :=
  match ps.head?, ps.getLast? with
  | some a, some b => if (a.1 ==. b.1) && (a.2 ==. b.2) then ps else ps ++ [a]
  | _, _ => ps

/-- `Polygon::new(exterior, interiors)` (geo-types). -/
def Polygon.new (ext : List (F × F)) (ints : List (List (F × F))) : Polygon F := ⟨closeRing ext, ints.map closeRing⟩

/-- `Ring::as_polygon` (`ring.rs:55-87`). -/
def Ring.asPolygon (h : Heap F) : Ring F → Polygon F
  | .circle c =>
    Polygon.new ((List.range 36).map (fun i =>
      let angle := Num.ofNat i / Num.ofNat 36 * (Num.tau : F)
      ((h.points c.center).data.x + c.radius * Num.cos angle,
       (h.points c.center).data.y + c.radius * Num.sin angle))) []
  | .segments segs => Polygon.new (segs.map (fun sg => ((sg.getStart h).x, (sg.getStart h).y))) []

namespace Face
/-- the field `exterior` -/
def exterior : Face F → Ring F
  | .mk e _ => e
/-- the field `holes` -/
def holes : Face F → List (Face F)
  | .mk _ hs => hs
/-- `Face::from_ring` (`face.rs:13-18`). -/
def fromRing (r : Ring F) : Face F := .mk r []
/-- `Face::add_hole` (`face.rs:20-22`). -/
def addHole (f hole : Face F) : Face F := .mk f.exterior (f.holes ++ [hole])
/-- `Face::as_polygon` (`face.rs:24-32`).  `h.as_polygon().exterior()` of a hole is the (re-closed) exterior of its ring,
whatever the holes of the hole are, so the recursion of the Rust code is not needed. -/
def asPolygon (h : Heap F) (f : Face F) : Polygon F :=
  Polygon.new (f.exterior.asPolygon h).exterior
    (f.holes.map (fun hole => closeRing (hole.exterior.asPolygon h).exterior))
end Face

/-- Inner loop of the containment search (`mod.rs:90-99`): position, *within the slice* `polygons[i+1..]`, of the first
polygon that contains `small`. -/
def firstContainer (g : Geo F) (small : Polygon F) : Nat → List (Polygon F) → Option Nat
  | _, [] => none
  | j, big :: bigs => if g.containsPoly big small then some j else firstContainer g small (j + 1) bigs

/-- `what_contains_what` (`mod.rs:85-100`): pairs (bigger, smaller) exactly as pushed. -/
def whatContainsWhat (g : Geo F) (polys : List (Polygon F)) : List (Nat × Nat) :=
  (enumFrom 0 (polys.take (polys.length - 1))).filterMap (fun ip =>
    match firstContainer g ip.2 0 (polys.drop (ip.1 + 1)) with
    | some j => some (j, ip.1)
    | none => none)

/-- One step of the loop that adds holes (`mod.rs:103-107`); indices are always in range. -/
def addHoleAt (faces : List (Face F)) (p : Nat × Nat) : List (Face F) :=
  match faces[p.2]?, faces[p.1]? with
  | some small, some big => faces.set p.1 (big.addHole small)
  | _, _ => faces

/-- `find_faces` (`mod.rs:72-110`). -/
def findFaces (g : Geo F) (h : Heap F) (s : Sketch) : List (Face F) × List (Segment F) :=
  let ru := findRings h s
  let faces := ru.1.map Face.fromRing
  if ru.1.isEmpty then (faces, ru.2)
  else ((whatContainsWhat g (ru.1.map (Ring.asPolygon h))).foldl addHoleAt faces, ru.2)

/-- `decompose_sketch` (`mod.rs:18-26`) and `Sketch::get_faces` (`src/sketch/mod.rs:369-371`). -/
def getFaces (g : Geo F) (h : Heap F) (s : Sketch) : List (Face F) := (findFaces g h s).1

/-- The loop of `merge_faces` that selects the faces to remove (`mod.rs:37-57`); `none` is the panic of `expect`. -/
def facesToRemove (g : Geo F) (h : Heap F) (olds : List (Polygon F)) : List (Nat × Face F) → Option (List Nat)
  | [] => some []
  | (i, f) :: rest =>
    match g.interiorPoint (f.asPolygon h) with
    | none => none
    | some pt =>
      match facesToRemove g h olds rest with
      | none => none
      | some l => some (if olds.any (fun o => g.containsPoint o pt) then l else i :: l)

/-- `merge_faces` (`mod.rs:28-70`). -/
def mergeFaces (g : Geo F) (h : Heap F) (faces : List (Face F)) : Option (List (Face F)) :=
  match facesToRemove g h (faces.map (Face.asPolygon h)) (enumFrom 0 faces) with
  | none => none
  | some l =>
    some (((l.mergeSort (fun a b => decide (a ≤ b))).reverse).foldl (fun fs i => fs.eraseIdx i) faces)

/-- `Sketch::get_merged_faces` (`src/sketch/mod.rs:373-375`). -/
def getMergedFaces (g : Geo F) (h : Heap F) (s : Sketch) : Option (List (Face F)) := mergeFaces g h (getFaces g h s)

end
end Isotope
