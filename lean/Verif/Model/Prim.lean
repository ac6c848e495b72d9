import Verif.Num

/-!
# Primitives and the heap

Models `src/primitives/{mod,point2,line,arc,circle}.rs`.

`Rc<RefCell<T>>` is an address (`Nat`) into the component of `Heap` for `T`.  Rust's type system guarantees that a
handle always points to a live object of its type, so the heap components are total functions; the counters record how
many objects have been allocated and give `Rc::new` a fresh address.  `RefCell` borrow flags are not part of the heap
(see property C58 for a separate model of them).
-/

namespace Isotope
variable {F : Type}

/-- `nalgebra::Vector2<f64>` (also used for 1x2 row matrices). -/
structure Vec2 (F : Type) where
  x : F
  y : F

/-- 1x4 row matrix (`SMatrix<f64, 1, 4>`). -/
structure Row4 (F : Type) where
  a0 : F
  a1 : F
  a2 : F
  a3 : F

/-- 1x5 row matrix (`SMatrix<f64, 1, 5>`). -/
structure Row5 (F : Type) where
  a0 : F
  a1 : F
  a2 : F
  a3 : F
  a4 : F

/-- 1x3 row matrix (`SMatrix<f64, 1, 3>`); also `SVector<f64, 3>`. -/
structure Row3 (F : Type) where
  a0 : F
  a1 : F
  a2 : F

/-- 2xn matrix given by its two rows. -/
structure Mat2 (R : Type) where
  r0 : R
  r1 : R

section arith
variable [Num F]

instance : Add (Vec2 F) := ⟨fun a b => ⟨a.x + b.x, a.y + b.y⟩⟩
instance : Sub (Vec2 F) := ⟨fun a b => ⟨a.x - b.x, a.y - b.y⟩⟩
instance : Neg (Vec2 F) := ⟨fun a => ⟨-a.x, -a.y⟩⟩

namespace Vec2
/-- `Vector2::zeros()`. -/
def zeros : Vec2 F := ⟨0.0, 0.0⟩
/-- scalar * row. -/
def smul (a : F) (v : Vec2 F) : Vec2 F := ⟨a * v.x, a * v.y⟩
/-- row / scalar. -/
def sdiv (v : Vec2 F) (a : F) : Vec2 F := ⟨v.x / a, v.y / a⟩
/-- `Vector2::dot`. -/
def dot (a b : Vec2 F) : F := a.x * b.x + a.y * b.y
/-- `norm_squared`. -/
def normSq (a : Vec2 F) : F := a.x * a.x + a.y * a.y
/-- `norm` (nalgebra: square root of `norm_squared`). -/
def norm (a : Vec2 F) : F := Num.sqrt (normSq a)
/-- `normalize` (nalgebra: division by the norm, no zero check; `perpendicular_lines.rs:143-148` tests that it gives NaN). -/
def normalize (a : Vec2 F) : Vec2 F := sdiv a (norm a)
/-- `==` on `Vector2<f64>`: component-wise IEEE equality. -/
def beq (a b : Vec2 F) : Bool := (a.x ==. b.x) && (a.y ==. b.y)
/-- `.iter().all(|x| x.is_finite())`. -/
def allFinite (a : Vec2 F) : Bool := Num.isFinite a.x && Num.isFinite a.y
end Vec2

def Row3.zeros : Row3 F := ⟨0.0, 0.0, 0.0⟩
def Row3.beq (a b : Row3 F) : Bool := (a.a0 ==. b.a0) && (a.a1 ==. b.a1) && (a.a2 ==. b.a2)
instance : Add (Row3 F) := ⟨fun a b => ⟨a.a0 + b.a0, a.a1 + b.a1, a.a2 + b.a2⟩⟩
instance : Sub (Row4 F) := ⟨fun a b => ⟨a.a0 - b.a0, a.a1 - b.a1, a.a2 - b.a2, a.a3 - b.a3⟩⟩
def Row3.allFinite (a : Row3 F) : Bool := Num.isFinite a.a0 && Num.isFinite a.a1 && Num.isFinite a.a2
def Row4.allFinite (a : Row4 F) : Bool :=
  Num.isFinite a.a0 && Num.isFinite a.a1 && Num.isFinite a.a2 && Num.isFinite a.a3
def Row5.allFinite (a : Row5 F) : Bool :=
  Num.isFinite a.a0 && Num.isFinite a.a1 && Num.isFinite a.a2 && Num.isFinite a.a3 && Num.isFinite a.a4

instance {R : Type} [Sub R] : Sub (Mat2 R) := ⟨fun a b => ⟨a.r0 - b.r0, a.r1 - b.r1⟩⟩

/-- 1x2 row times 2x2 matrix. -/
def Vec2.mul22 (r : Vec2 F) (m : Mat2 (Vec2 F)) : Vec2 F :=
  ⟨r.x * m.r0.x + r.y * m.r1.x, r.x * m.r0.y + r.y * m.r1.y⟩
/-- 1x2 row times 2x4 matrix. -/
def Vec2.mul24 (r : Vec2 F) (m : Mat2 (Row4 F)) : Row4 F :=
  ⟨r.x * m.r0.a0 + r.y * m.r1.a0, r.x * m.r0.a1 + r.y * m.r1.a1,
   r.x * m.r0.a2 + r.y * m.r1.a2, r.x * m.r0.a3 + r.y * m.r1.a3⟩
/-- 1x2 row times 2x5 matrix. -/
def Vec2.mul25 (r : Vec2 F) (m : Mat2 (Row5 F)) : Row5 F :=
  ⟨r.x * m.r0.a0 + r.y * m.r1.a0, r.x * m.r0.a1 + r.y * m.r1.a1,
   r.x * m.r0.a2 + r.y * m.r1.a2, r.x * m.r0.a3 + r.y * m.r1.a3, r.x * m.r0.a4 + r.y * m.r1.a4⟩

end arith

/-! ## Objects -/

/-- `Point2` (`src/primitives/point2.rs:12-15`). -/
structure Point2 (F : Type) where
  data : Vec2 F
  grad : Vec2 F

/-- `Line` (`src/primitives/line.rs:16-20`); the zero-sized field `empty` is dropped. -/
structure Line where
  start : Nat
  stop : Nat
deriving DecidableEq

/-- `Arc` (`src/primitives/arc.rs:15-21`); `data = [radius, start_angle, end_angle]`. -/
structure Arc (F : Type) where
  center : Nat
  data : Row3 F
  grad : Row3 F
  clockwise : Bool

/-- `Circle` (`src/primitives/circle.rs:15-19`); the 1-vectors `data`, `gradient` are scalars. -/
structure Circle (F : Type) where
  center : Nat
  radius : F
  grad : F

/-- `PrimitiveCell` (`src/primitives/mod.rs:51-56`).  Its `PartialEq` is `ptr::eq` on the pointee
(`mod.rs:87-91`), modelled by equality of kind and address. -/
inductive PrimCell where
  | point (a : Nat)
  | line (a : Nat)
  | arc (a : Nat)
  | circle (a : Nat)
deriving DecidableEq, Repr

/-- The twelve constraint objects (`src/constraints/mod.rs:29-44` and the files below it). -/
inductive Constraint (F : Type) where
  /-- `src/constraints/angle_between_points.rs:17-23` -/
  | angle (p1 p2 mid : Nat) (desired : F)
  /-- `src/constraints/coincident/arc_end_point_coincident.rs:18-21` -/
  | arcEnd (arc point : Nat)
  /-- `src/constraints/coincident/arc_start_point_coincident.rs:18-21` -/
  | arcStart (arc point : Nat)
  /-- `src/constraints/distance/euclidian_distance_between_points.rs:17-22` -/
  | euclid (p1 p2 : Nat) (desired : F)
  /-- `src/constraints/distance/horizontal_distance_between_points.rs:18-23` -/
  | horizDist (p1 p2 : Nat) (desired : F)
  /-- `src/constraints/distance/vertical_distance_between_points.rs:18-23` -/
  | vertDist (p1 p2 : Nat) (desired : F)
  /-- `src/constraints/fix_point.rs:18-22` -/
  | fix (p : Nat) (desired : Vec2 F)
  /-- `src/constraints/lines/equal_length.rs:17-20` -/
  | eqLen (l1 l2 : Nat)
  /-- `src/constraints/lines/horizontal_line.rs:18-20` -/
  | horizLine (l : Nat)
  /-- `src/constraints/lines/vertical_line.rs:18-20` -/
  | vertLine (l : Nat)
  /-- `src/constraints/lines/parallel_lines.rs:18-21` -/
  | parallel (l1 l2 : Nat)
  /-- `src/constraints/lines/perpendicular_lines.rs:18-21` -/
  | perp (l1 l2 : Nat)

/-- All live objects.  `ConstraintCell` (`src/constraints/mod.rs:68-89`) is an address into `cons`: the enum tag of a
cell is determined by the type of its pointee, and `PartialEq` is `ptr::eq` (`mod.rs:144-148`). -/
structure Heap (F : Type) where
  points : Nat → Point2 F
  lines : Nat → Line
  arcs : Nat → Arc F
  circles : Nat → Circle F
  cons : Nat → Constraint F
  nPoints : Nat
  nLines : Nat
  nArcs : Nat
  nCircles : Nat
  nCons : Nat

/-! An effectful call that returns `()` is modelled by a value of `Except (Heap F) (Heap F)`: `ok h` is normal return
with heap `h`; `error h` is a panic, `h` being the heap a `catch_unwind` caller would find. -/

/-- Function update, the only way the heap is written. -/
def upd {α : Type} (f : Nat → α) (a : Nat) (v : α) : Nat → α := fun b => if b = a then v else f b

namespace Heap
/-- write a point object -/
def setPoint (h : Heap F) (a : Nat) (p : Point2 F) : Heap F := { h with points := upd h.points a p }
/-- write a line object -/
def setLine (h : Heap F) (a : Nat) (p : Line) : Heap F := { h with lines := upd h.lines a p }
/-- write an arc object -/
def setArc (h : Heap F) (a : Nat) (p : Arc F) : Heap F := { h with arcs := upd h.arcs a p }
/-- write a circle object -/
def setCircle (h : Heap F) (a : Nat) (p : Circle F) : Heap F := { h with circles := upd h.circles a p }
/-- write a constraint object -/
def setCons (h : Heap F) (a : Nat) (c : Constraint F) : Heap F := { h with cons := upd h.cons a c }

/-- `Rc::new(RefCell::new(p))` for a point. -/
def allocPoint (h : Heap F) (p : Point2 F) : Nat × Heap F :=
  (h.nPoints, { h.setPoint h.nPoints p with nPoints := h.nPoints + 1 })
/-- `Rc::new(RefCell::new(l))` for a line. -/
def allocLine (h : Heap F) (p : Line) : Nat × Heap F :=
  (h.nLines, { h.setLine h.nLines p with nLines := h.nLines + 1 })
/-- `Rc::new(RefCell::new(a))` for an arc. -/
def allocArc (h : Heap F) (p : Arc F) : Nat × Heap F :=
  (h.nArcs, { h.setArc h.nArcs p with nArcs := h.nArcs + 1 })
/-- `Rc::new(RefCell::new(c))` for a circle. -/
def allocCircle (h : Heap F) (p : Circle F) : Nat × Heap F :=
  (h.nCircles, { h.setCircle h.nCircles p with nCircles := h.nCircles + 1 })
/-- `Rc::new(RefCell::new(c))` for a constraint. -/
def allocCons (h : Heap F) (p : Constraint F) : Nat × Heap F :=
  (h.nCons, { h.setCons h.nCons p with nCons := h.nCons + 1 })
end Heap

section
variable [Num F]

/-! ## `Point2` -/

/-- `Point2::new` (`src/primitives/point2.rs:18-23`): no finiteness check. -/
def Point2.new (x y : F) : Point2 F := ⟨⟨x, y⟩, Vec2.zeros⟩

/-- `Point2::point_gradient` (`point2.rs:37-39`): the 2x2 identity. -/
def pointGradient : Mat2 (Vec2 F) := ⟨⟨1.0, 0.0⟩, ⟨0.0, 1.0⟩⟩

/-- `Point2::set_x` (`point2.rs:41-44`). -/
def pointSetX (h : Heap F) (a : Nat) (x : F) : Except (Heap F) (Heap F) :=
  if Num.isFinite x then
    .ok (h.setPoint a { h.points a with data := ⟨x, (h.points a).data.y⟩ })
  else .error h

/-- `Point2::set_y` (`point2.rs:46-49`). -/
def pointSetY (h : Heap F) (a : Nat) (y : F) : Except (Heap F) (Heap F) :=
  if Num.isFinite y then
    .ok (h.setPoint a { h.points a with data := ⟨(h.points a).data.x, y⟩ })
  else .error h

/-- `Point2::add_to_gradient` (`point2.rs:51-55`). -/
def pointAddGrad (h : Heap F) (a : Nat) (g : Vec2 F) : Except (Heap F) (Heap F) :=
  if g.allFinite then
    .ok (h.setPoint a { h.points a with grad := (h.points a).grad + g })
  else .error h

/-! ## `Line` -/

/-- `Line::start_gradient` (`src/primitives/line.rs:39-41`). -/
def lineStartGradient : Mat2 (Row4 F) := ⟨⟨1.0, 0.0, 0.0, 0.0⟩, ⟨0.0, 1.0, 0.0, 0.0⟩⟩
/-- `Line::end_gradient` (`line.rs:51-53`). -/
def lineEndGradient : Mat2 (Row4 F) := ⟨⟨0.0, 0.0, 1.0, 0.0⟩, ⟨0.0, 0.0, 0.0, 1.0⟩⟩

/-- `Line::add_to_gradient` (`line.rs:55-64`). -/
def lineAddGrad (h : Heap F) (l : Nat) (g : Row4 F) : Except (Heap F) (Heap F) :=
  if g.allFinite then do
    let h1 ← pointAddGrad h (h.lines l).start ⟨g.a0, g.a1⟩
    pointAddGrad h1 (h1.lines l).stop ⟨g.a2, g.a3⟩
  else .error h

/-! ## `Arc` -/

/-- `Arc::new` (`src/primitives/arc.rs:24-38`): no finiteness check. -/
def Arc.new (center : Nat) (radius : F) (clockwise : Bool) (startAngle endAngle : F) : Arc F :=
  ⟨center, ⟨radius, startAngle, endAngle⟩, Row3.zeros, clockwise⟩

namespace Arc
/-- `Arc::radius` (`arc.rs:62-64`). -/
def radius (a : Arc F) : F := a.data.a0
/-- `Arc::start_angle` (`arc.rs:74-76`). -/
def startAngle (a : Arc F) : F := a.data.a1
/-- `Arc::end_angle` (`arc.rs:86-88`). -/
def endAngle (a : Arc F) : F := a.data.a2
/-- `Arc::reverse` (`arc.rs:40-48`): the gradient of the new arc is zero. -/
def reverse (a : Arc F) : Arc F := Arc.new a.center a.radius (!a.clockwise) a.endAngle a.startAngle
/-- `Arc::start_point` (`arc.rs:106-114`). -/
def startPoint (h : Heap F) (a : Arc F) : Vec2 F :=
  ⟨(h.points a.center).data.x + a.radius * Num.cos a.startAngle,
   (h.points a.center).data.y + a.radius * Num.sin a.startAngle⟩
/-- `Arc::end_point` (`arc.rs:134-141`). -/
def endPoint (h : Heap F) (a : Arc F) : Vec2 F :=
  ⟨(h.points a.center).data.x + a.radius * Num.cos a.endAngle,
   (h.points a.center).data.y + a.radius * Num.sin a.endAngle⟩
/-- `Arc::start_point_gradient` (`arc.rs:116-132`). -/
def startPointGradient (a : Arc F) : Mat2 (Row5 F) :=
  ⟨⟨1.0, 0.0, Num.cos a.startAngle, -a.radius * Num.sin a.startAngle, 0.0⟩,
   ⟨0.0, 1.0, Num.sin a.startAngle, a.radius * Num.cos a.startAngle, 0.0⟩⟩
/-- `Arc::end_point_gradient` (`arc.rs:143-159`). -/
def endPointGradient (a : Arc F) : Mat2 (Row5 F) :=
  ⟨⟨1.0, 0.0, Num.cos a.endAngle, 0.0, -a.radius * Num.sin a.endAngle⟩,
   ⟨0.0, 1.0, Num.sin a.endAngle, 0.0, a.radius * Num.cos a.endAngle⟩⟩
end Arc

/-- `Arc::add_to_gradient` (`arc.rs:161-168`). -/
def arcAddGrad (h : Heap F) (a : Nat) (g : Row5 F) : Except (Heap F) (Heap F) :=
  if g.allFinite then do
    let h1 ← pointAddGrad h (h.arcs a).center ⟨g.a0, g.a1⟩
    .ok (h1.setArc a { h1.arcs a with grad := (h1.arcs a).grad + ⟨g.a2, g.a3, g.a4⟩ })
  else .error h

/-! ## `Circle` -/

/-- `Circle::new` (`src/primitives/circle.rs:22-28`). -/
def Circle.new (center : Nat) (radius : F) : Circle F := ⟨center, radius, 0.0⟩

/-- `Circle::add_to_gradient` (`circle.rs:54-61`); called by no constraint. -/
def circleAddGrad (h : Heap F) (a : Nat) (g : Row3 F) : Except (Heap F) (Heap F) :=
  if g.allFinite then do
    let h1 ← pointAddGrad h (h.circles a).center ⟨g.a0, g.a1⟩
    .ok (h1.setCircle a { h1.circles a with grad := (h1.circles a).grad + g.a2 })
  else .error h

/-! ## `PrimitiveLike` -/

/-- `PrimitiveLike::references` (`point2.rs:59-61`, `line.rs:68-73`, `arc.rs:172-174`, `circle.rs:65-67`). -/
def primRefs (h : Heap F) : PrimCell → List PrimCell
  | .point _ => []
  | .line l => [.point (h.lines l).start, .point (h.lines l).stop]
  | .arc a => [.point (h.arcs a).center]
  | .circle c => [.point (h.circles c).center]

/-- `PrimitiveLike::get_data` (`point2.rs:67-69`, `line.rs:79-82`, `arc.rs:180-182`, `circle.rs:73-75`). -/
def primData (h : Heap F) : PrimCell → List F
  | .point a => [(h.points a).data.x, (h.points a).data.y]
  | .line _ => []
  | .arc a => [(h.arcs a).data.a0, (h.arcs a).data.a1, (h.arcs a).data.a2]
  | .circle c => [(h.circles c).radius]

/-- `PrimitiveLike::get_gradient` (`point2.rs:76-78`, `line.rs:88-91`, `arc.rs:184-186`, `circle.rs:82-84`). -/
def primGrad (h : Heap F) : PrimCell → List F
  | .point a => [(h.points a).grad.x, (h.points a).grad.y]
  | .line _ => []
  | .arc a => [(h.arcs a).grad.a0, (h.arcs a).grad.a1, (h.arcs a).grad.a2]
  | .circle c => [(h.circles c).grad]

/-- `PrimitiveLike::zero_gradient` (`point2.rs:63-65`, `line.rs:75-77`, `arc.rs:176-178`, `circle.rs:69-71`). -/
def primZeroGrad (h : Heap F) : PrimCell → Heap F
  | .point a => h.setPoint a { h.points a with grad := Vec2.zeros }
  | .line _ => h
  | .arc a => h.setArc a { h.arcs a with grad := Row3.zeros }
  | .circle c => h.setCircle c { h.circles c with grad := 0.0 }

/-- `PrimitiveLike::set_data` (`point2.rs:71-74`, `line.rs:84-86`, `arc.rs:188-191`, `circle.rs:77-80`).  A slice of the
wrong length makes `from_row_slice`/`copy_from` panic; `Line` ignores its argument. -/
def primSetData (h : Heap F) (p : PrimCell) (d : List F) : Except (Heap F) (Heap F) :=
  match p with
  | .point a =>
    if d.all Num.isFinite then
      match d with
      | [x, y] => .ok (h.setPoint a { h.points a with data := ⟨x, y⟩ })
      | _ => .error h
    else .error h
  | .line _ => .ok h
  | .arc a =>
    if d.all Num.isFinite then
      match d with
      | [r, s, e] => .ok (h.setArc a { h.arcs a with data := ⟨r, s, e⟩ })
      | _ => .error h
    else .error h
  | .circle c =>
    if d.all Num.isFinite then
      match d with
      | [r] => .ok (h.setCircle c { h.circles c with radius := r })
      | _ => .error h
    else .error h

end
end Isotope
