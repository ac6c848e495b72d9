import Verif.Model.Decompose

/-!
# Serialisation

`Sketch`, every primitive and every constraint derive `Serialize` and `Deserialize` (`src/sketch/mod.rs:24`,
`src/primitives/{point2.rs:9,line.rs:13,arc.rs:12,circle.rs:12,mod.rs:48}`, `src/constraints/mod.rs:65` and the files below
it); no field is skipped.  `Cargo.toml:9` turns on the feature `rc` of serde: an `Rc` (and a `RefCell`) is written as its
contents, and every `Rc` that is read is a new object.  The document is therefore a tree of values.  That the wire format
keeps every number, string and list is assumed (it is the business of the format crate, not of this repository).
-/

namespace Isotope
variable {F : Type}

/-- a serialised `Line` (`src/primitives/line.rs:13-20`; the zero-sized field `empty` is dropped) -/
structure DLine (F : Type) where
  start : Point2 F
  stop : Point2 F

/-- a serialised `Arc` (`src/primitives/arc.rs:12-21`) -/
structure DArc (F : Type) where
  center : Point2 F
  data : Row3 F
  grad : Row3 F
  clockwise : Bool

/-- a serialised `Circle` (`src/primitives/circle.rs:12-19`) -/
structure DCircle (F : Type) where
  center : Point2 F
  radius : F
  grad : F

/-- a serialised `PrimitiveCell` (`src/primitives/mod.rs:48-56`) -/
inductive DPrim (F : Type) where
  | point (p : Point2 F)
  | line (l : DLine F)
  | arc (a : DArc F)
  | circle (c : DCircle F)

/-- a serialised `ConstraintCell` (`src/constraints/mod.rs:65-89` and the structs of the twelve kinds) -/
inductive DCons (F : Type) where
  | angle (p1 p2 mid : Point2 F) (desired : F)
  | arcEnd (arc : DArc F) (point : Point2 F)
  | arcStart (arc : DArc F) (point : Point2 F)
  | euclid (p1 p2 : Point2 F) (desired : F)
  | horizDist (p1 p2 : Point2 F) (desired : F)
  | vertDist (p1 p2 : Point2 F) (desired : F)
  | fix (p : Point2 F) (desired : Vec2 F)
  | eqLen (l1 l2 : DLine F)
  | horizLine (l : DLine F)
  | vertLine (l : DLine F)
  | parallel (l1 l2 : DLine F)
  | perp (l1 l2 : DLine F)

/-- a serialised `Sketch` (`src/sketch/mod.rs:24-29`) -/
structure Doc (F : Type) where
  prims : List (Nat × DPrim F)
  nextId : Nat
  cons : List (DCons F)

/-! ## `Serialize` (derived) -/

/-- `Serialize for Line` (derived, `src/primitives/line.rs:13`) -/
def saveLine (h : Heap F) (l : Line) : DLine F := ⟨h.points l.start, h.points l.stop⟩
/-- `Serialize for Arc` (derived, `src/primitives/arc.rs:12`) -/
def saveArc (h : Heap F) (a : Arc F) : DArc F := ⟨h.points a.center, a.data, a.grad, a.clockwise⟩
/-- `Serialize for Circle` (derived, `src/primitives/circle.rs:12`) -/
def saveCircle (h : Heap F) (c : Circle F) : DCircle F := ⟨h.points c.center, c.radius, c.grad⟩

/-- `Serialize for PrimitiveCell` (derived, `src/primitives/mod.rs:48`) -/
def savePrim (h : Heap F) : PrimCell → DPrim F
  | .point a => .point (h.points a)
  | .line l => .line (saveLine h (h.lines l))
  | .arc a => .arc (saveArc h (h.arcs a))
  | .circle c => .circle (saveCircle h (h.circles c))

/-- `Serialize for ConstraintCell` and the constraint structs (derived, `src/constraints/mod.rs:65`) -/
def saveCons (h : Heap F) : Constraint F → DCons F
  | .angle p1 p2 mid d => .angle (h.points p1) (h.points p2) (h.points mid) d
  | .arcEnd a p => .arcEnd (saveArc h (h.arcs a)) (h.points p)
  | .arcStart a p => .arcStart (saveArc h (h.arcs a)) (h.points p)
  | .euclid p1 p2 d => .euclid (h.points p1) (h.points p2) d
  | .horizDist p1 p2 d => .horizDist (h.points p1) (h.points p2) d
  | .vertDist p1 p2 d => .vertDist (h.points p1) (h.points p2) d
  | .fix p d => .fix (h.points p) d
  | .eqLen l m => .eqLen (saveLine h (h.lines l)) (saveLine h (h.lines m))
  | .horizLine l => .horizLine (saveLine h (h.lines l))
  | .vertLine l => .vertLine (saveLine h (h.lines l))
  | .parallel l m => .parallel (saveLine h (h.lines l)) (saveLine h (h.lines m))
  | .perp l m => .perp (saveLine h (h.lines l)) (saveLine h (h.lines m))

/-- `Serialize for Sketch` (derived, `src/sketch/mod.rs:24`) -/
def saveSketch (h : Heap F) (s : Sketch) : Doc F :=
  ⟨s.prims.map (fun kp => (kp.1, savePrim h kp.2)), s.nextId, s.cons.map (fun c => saveCons h (h.cons c))⟩

/-- a serialised `Segment` (`src/decompose/segment.rs:6-10`) -/
inductive DSegment (F : Type) where
  | line (l : DLine F)
  | arc (a : DArc F)

/-- a serialised `Ring` (`src/decompose/ring.rs:10-14`) -/
inductive DRing (F : Type) where
  | circle (c : DCircle F)
  | segments (segs : List (DSegment F))

/-- a serialised `Face` (`src/decompose/face.rs:6-10`) -/
inductive DFace (F : Type) where
  | mk (exterior : DRing F) (holes : List (DFace F))

/-- `Serialize for Segment` (derived, `src/decompose/segment.rs:6`) -/
def saveSegment (h : Heap F) : Segment F → DSegment F
  | .line s e => .line ⟨h.points s, h.points e⟩
  | .arc a => .arc (saveArc h a)

/-- `Serialize for Ring` (derived, `src/decompose/ring.rs:10`) -/
def saveRing (h : Heap F) : Ring F → DRing F
  | .circle c => .circle (saveCircle h c)
  | .segments segs => .segments (segs.map (saveSegment h))

mutual
/-- `Serialize for Face` (derived, `src/decompose/face.rs:6`) -/
def saveFace (h : Heap F) : Face F → DFace F
  | .mk e holes => .mk (saveRing h e) (saveFaces h holes)
/-- `Serialize for Vec<Face>` -/
def saveFaces (h : Heap F) : List (Face F) → List (DFace F)
  | [] => []
  | f :: fs => saveFace h f :: saveFaces h fs
end

/-! ## `Deserialize` (derived): every `Rc` read is a new object -/

/-- an `Rc<RefCell<Line>>` is read: two new points, one new line -/
def loadLine (h : Heap F) (l : DLine F) : Nat × Heap F :=
  let a := h.allocPoint l.start
  let b := a.2.allocPoint l.stop
  b.2.allocLine ⟨a.1, b.1⟩

/-- an `Rc<RefCell<Arc>>` is read: a new centre, a new arc -/
def loadArc (h : Heap F) (x : DArc F) : Nat × Heap F :=
  let a := h.allocPoint x.center
  a.2.allocArc ⟨a.1, x.data, x.grad, x.clockwise⟩

/-- an `Rc<RefCell<Circle>>` is read: a new centre, a new circle -/
def loadCircle (h : Heap F) (x : DCircle F) : Nat × Heap F :=
  let a := h.allocPoint x.center
  a.2.allocCircle ⟨a.1, x.radius, x.grad⟩

/-- a `PrimitiveCell` is read -/
def loadPrim (h : Heap F) : DPrim F → PrimCell × Heap F
  | .point p => (.point (h.allocPoint p).1, (h.allocPoint p).2)
  | .line l => (.line (loadLine h l).1, (loadLine h l).2)
  | .arc a => (.arc (loadArc h a).1, (loadArc h a).2)
  | .circle c => (.circle (loadCircle h c).1, (loadCircle h c).2)

/-- the fields of a constraint are read, in the order in which they are declared -/
def loadConsBody (h : Heap F) : DCons F → Constraint F × Heap F
  | .angle p1 p2 mid d =>
    let a := h.allocPoint p1
    let b := a.2.allocPoint p2
    let c := b.2.allocPoint mid
    (.angle a.1 b.1 c.1 d, c.2)
  | .arcEnd x p =>
    let a := loadArc h x
    let b := a.2.allocPoint p
    (.arcEnd a.1 b.1, b.2)
  | .arcStart x p =>
    let a := loadArc h x
    let b := a.2.allocPoint p
    (.arcStart a.1 b.1, b.2)
  | .euclid p1 p2 d =>
    let a := h.allocPoint p1
    let b := a.2.allocPoint p2
    (.euclid a.1 b.1 d, b.2)
  | .horizDist p1 p2 d =>
    let a := h.allocPoint p1
    let b := a.2.allocPoint p2
    (.horizDist a.1 b.1 d, b.2)
  | .vertDist p1 p2 d =>
    let a := h.allocPoint p1
    let b := a.2.allocPoint p2
    (.vertDist a.1 b.1 d, b.2)
  | .fix p d =>
    let a := h.allocPoint p
    (.fix a.1 d, a.2)
  | .eqLen l m =>
    let a := loadLine h l
    let b := loadLine a.2 m
    (.eqLen a.1 b.1, b.2)
  | .horizLine l =>
    let a := loadLine h l
    (.horizLine a.1, a.2)
  | .vertLine l =>
    let a := loadLine h l
    (.vertLine a.1, a.2)
  | .parallel l m =>
    let a := loadLine h l
    let b := loadLine a.2 m
    (.parallel a.1 b.1, b.2)
  | .perp l m =>
    let a := loadLine h l
    let b := loadLine a.2 m
    (.perp a.1 b.1, b.2)

/-- a `ConstraintCell` is read -/
def loadCons (h : Heap F) (d : DCons F) : Nat × Heap F := (loadConsBody h d).2.allocCons (loadConsBody h d).1

/-- the entries of the map are read (`BTreeMap::deserialize` inserts them one by one) -/
def loadPrims : List (Nat × DPrim F) → List (Nat × PrimCell) → Heap F → List (Nat × PrimCell) × Heap F
  | [], m, h => (m, h)
  | (k, d) :: rest, m, h => loadPrims rest (mapInsert k (loadPrim h d).1 m) (loadPrim h d).2

/-- the entries of the queue are read -/
def loadConss : List (DCons F) → Heap F → List Nat × Heap F
  | [], h => ([], h)
  | d :: rest, h =>
    let r := loadConss rest (loadCons h d).2
    ((loadCons h d).1 :: r.1, r.2)

/-- `Deserialize for Sketch` (derived, `src/sketch/mod.rs:24`), in a program whose live objects are `h` -/
def loadSketch (h : Heap F) (d : Doc F) : Heap F × Sketch :=
  let p := loadPrims d.prims [] h
  let c := loadConss d.cons p.2
  (c.2, ⟨p.1, d.nextId, c.1⟩)

end Isotope
