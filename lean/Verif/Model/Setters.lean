import Verif.Model.Api

/-!
# Setters

Every `set_*` method of the primitives and constraints, except `Point2::set_x`, `Point2::set_y` (`Model/Prim.lean`) and
`PrimitiveLike::set_data`.  None of them checks its argument.  `Setter.run` makes a call on an object of the heap; `none`
means that the method does not exist for the type of the object, so that no Rust program contains the call.
-/

namespace Isotope
variable {F : Type}

/-- `Circle::set_center` (`src/primitives/circle.rs:34-36`). -/
def Circle.setCenter (c : Circle F) (p : Nat) : Circle F := { c with center := p }
/-- `Circle::set_radius` (`circle.rs:46-48`). -/
def Circle.setRadius (c : Circle F) (r : F) : Circle F := { c with radius := r }
/-- `Line::set_start` (`src/primitives/line.rs:35-37`). -/
def Line.setStart (l : Line) (p : Nat) : Line := { l with start := p }
/-- `Line::set_end` (`line.rs:47-49`). -/
def Line.setEnd (l : Line) (p : Nat) : Line := { l with stop := p }
/-- `Arc::set_center` (`src/primitives/arc.rs:54-56`). -/
def Arc.setCenter (a : Arc F) (p : Nat) : Arc F := { a with center := p }
/-- `Arc::set_radius` (`arc.rs:66-68`). -/
def Arc.setRadius (a : Arc F) (r : F) : Arc F := { a with data := { a.data with a0 := r } }
/-- `Arc::set_start_angle` (`arc.rs:78-80`). -/
def Arc.setStartAngle (a : Arc F) (x : F) : Arc F := { a with data := { a.data with a1 := x } }
/-- `Arc::set_end_angle` (`arc.rs:90-92`). -/
def Arc.setEndAngle (a : Arc F) (x : F) : Arc F := { a with data := { a.data with a2 := x } }
/-- `Arc::set_clockwise` (`arc.rs:102-104`). -/
def Arc.setClockwise (a : Arc F) (b : Bool) : Arc F := { a with clockwise := b }

namespace Constraint

/-- `set_line1` of `PerpendicularLines` (`src/constraints/lines/perpendicular_lines.rs:32-34`), `ParallelLines`
(`parallel_lines.rs:32-34`) and `EqualLength` (`equal_length.rs:31-33`). -/
def setLine1 (l : Nat) : Constraint F → Option (Constraint F)
  | .perp _ l2 => some (.perp l l2)
  | .parallel _ l2 => some (.parallel l l2)
  | .eqLen _ l2 => some (.eqLen l l2)
  | _ => none

/-- `set_line2` of `PerpendicularLines` (`perpendicular_lines.rs:40-42`), `ParallelLines` (`parallel_lines.rs:40-42`) and
`EqualLength` (`equal_length.rs:39-41`). -/
def setLine2 (l : Nat) : Constraint F → Option (Constraint F)
  | .perp l1 _ => some (.perp l1 l)
  | .parallel l1 _ => some (.parallel l1 l)
  | .eqLen l1 _ => some (.eqLen l1 l)
  | _ => none

/-- `set_line` of `VerticalLine` (`src/constraints/lines/vertical_line.rs:31-33`) and `HorizontalLine`
(`horizontal_line.rs:31-33`). -/
def setLine (l : Nat) : Constraint F → Option (Constraint F)
  | .vertLine _ => some (.vertLine l)
  | .horizLine _ => some (.horizLine l)
  | _ => none

/-- `set_point1` of `AngleBetweenPoints` (`src/constraints/angle_between_points.rs:45-47`),
`EuclidianDistanceBetweenPoints` (`src/constraints/distance/euclidian_distance_between_points.rs:42-44`),
`HorizontalDistanceBetweenPoints` (`horizontal_distance_between_points.rs:43-45`) and `VerticalDistanceBetweenPoints`
(`vertical_distance_between_points.rs:43-45`). -/
def setPoint1 (p : Nat) : Constraint F → Option (Constraint F)
  | .angle _ p2 m d => some (.angle p p2 m d)
  | .euclid _ p2 d => some (.euclid p p2 d)
  | .horizDist _ p2 d => some (.horizDist p p2 d)
  | .vertDist _ p2 d => some (.vertDist p p2 d)
  | _ => none

/-- `set_point2` of `AngleBetweenPoints` (`angle_between_points.rs:53-55`), `EuclidianDistanceBetweenPoints`
(`euclidian_distance_between_points.rs:50-52`), `HorizontalDistanceBetweenPoints`
(`horizontal_distance_between_points.rs:51-53`) and `VerticalDistanceBetweenPoints`
(`vertical_distance_between_points.rs:51-53`). -/
def setPoint2 (p : Nat) : Constraint F → Option (Constraint F)
  | .angle p1 _ m d => some (.angle p1 p m d)
  | .euclid p1 _ d => some (.euclid p1 p d)
  | .horizDist p1 _ d => some (.horizDist p1 p d)
  | .vertDist p1 _ d => some (.vertDist p1 p d)
  | _ => none

/-- `AngleBetweenPoints::set_middle_point` (`angle_between_points.rs:61-63`). -/
def setMiddlePoint (p : Nat) : Constraint F → Option (Constraint F)
  | .angle p1 p2 _ d => some (.angle p1 p2 p d)
  | _ => none

/-- `AngleBetweenPoints::set_desired_angle` (`angle_between_points.rs:69-71`) and `set_desired_distance` of the three
distances (`euclidian_distance_between_points.rs:58-60`, `horizontal_distance_between_points.rs:59-61`,
`vertical_distance_between_points.rs:59-61`): unlike `new`, no assertion. -/
def setDesired (d : F) : Constraint F → Option (Constraint F)
  | .angle p1 p2 m _ => some (.angle p1 p2 m d)
  | .euclid p1 p2 _ => some (.euclid p1 p2 d)
  | .horizDist p1 p2 _ => some (.horizDist p1 p2 d)
  | .vertDist p1 p2 _ => some (.vertDist p1 p2 d)
  | _ => none

/-- `FixPoint::set_desired_pos` (`src/constraints/fix_point.rs:42-44`): unlike `new`, no assertion. -/
def setDesiredPos (d : Vec2 F) : Constraint F → Option (Constraint F)
  | .fix p _ => some (.fix p d)
  | _ => none

/-- `set_point` of `FixPoint` (`fix_point.rs:34-36`), `ArcStartPointCoincident`
(`src/constraints/coincident/arc_start_point_coincident.rs:40-42`) and `ArcEndPointCoincident`
(`arc_end_point_coincident.rs:40-42`). -/
def setPoint (p : Nat) : Constraint F → Option (Constraint F)
  | .fix _ d => some (.fix p d)
  | .arcStart a _ => some (.arcStart a p)
  | .arcEnd a _ => some (.arcEnd a p)
  | _ => none

/-- `set_arc` of `ArcStartPointCoincident` (`arc_start_point_coincident.rs:32-34`) and `ArcEndPointCoincident`
(`arc_end_point_coincident.rs:32-34`). -/
def setArc (a : Nat) : Constraint F → Option (Constraint F)
  | .arcStart _ p => some (.arcStart a p)
  | .arcEnd _ p => some (.arcEnd a p)
  | _ => none

end Constraint

/-- a setter with its argument -/
inductive SetterCall (F : Type) where
  | circleCenter (p : Nat)
  | circleRadius (r : F)
  | lineStart (p : Nat)
  | lineEnd (p : Nat)
  | arcCenter (p : Nat)
  | arcRadius (r : F)
  | arcStartAngle (x : F)
  | arcEndAngle (x : F)
  | arcClockwise (b : Bool)
  | line1 (l : Nat)
  | line2 (l : Nat)
  | line (l : Nat)
  | point1 (p : Nat)
  | point2 (p : Nat)
  | middlePoint (p : Nat)
  | desired (d : F)
  | desiredPos (d : Vec2 F)
  | point (p : Nat)
  | arc (a : Nat)

/-- the object a setter is called on -/
inductive Target where
  | line (a : Nat)
  | arc (a : Nat)
  | circle (a : Nat)
  | cons (k : Nat)
deriving DecidableEq

/-- the constraint setters -/
def SetterCall.onCons : SetterCall F → Constraint F → Option (Constraint F)
  | .line1 l => Constraint.setLine1 l
  | .line2 l => Constraint.setLine2 l
  | .line l => Constraint.setLine l
  | .point1 p => Constraint.setPoint1 p
  | .point2 p => Constraint.setPoint2 p
  | .middlePoint p => Constraint.setMiddlePoint p
  | .desired d => Constraint.setDesired d
  | .desiredPos d => Constraint.setDesiredPos d
  | .point p => Constraint.setPoint p
  | .arc a => Constraint.setArc a
  | _ => fun _ => none

/-- `target.borrow_mut().set_*(argument)`: the heap afterwards, `none` if there is no such method on the target. -/
def SetterCall.run (h : Heap F) : Target → SetterCall F → Option (Heap F)
  | .circle c, .circleCenter p => some (h.setCircle c ((h.circles c).setCenter p))
  | .circle c, .circleRadius r => some (h.setCircle c ((h.circles c).setRadius r))
  | .line l, .lineStart p => some (h.setLine l ((h.lines l).setStart p))
  | .line l, .lineEnd p => some (h.setLine l ((h.lines l).setEnd p))
  | .arc a, .arcCenter p => some (h.setArc a ((h.arcs a).setCenter p))
  | .arc a, .arcRadius r => some (h.setArc a ((h.arcs a).setRadius r))
  | .arc a, .arcStartAngle x => some (h.setArc a ((h.arcs a).setStartAngle x))
  | .arc a, .arcEndAngle x => some (h.setArc a ((h.arcs a).setEndAngle x))
  | .arc a, .arcClockwise b => some (h.setArc a ((h.arcs a).setClockwise b))
  | .cons k, call => (call.onCons (h.cons k)).map (h.setCons k)
  | _, _ => none

end Isotope
