import Verif.Model.Solver

/-!
# Histories of API calls

One `World` = the heap plus one sketch.  `Op` enumerates the state-changing calls a client of the crate can make;
`step` runs one of them.  Queries (`get_data`, `get_loss`, `get_faces`, …) take `&self` and, in the model, return no new
heap, so they need no `Op`.
-/

namespace Isotope
variable {F : Type}

/-- heap + sketch -/
structure World (F : Type) where
  heap : Heap F
  sketch : Sketch

/-- the solver to run -/
inductive SolverKind (F : Type) where
  | gd (p : GDParams F)
  | bfgs (p : BFGSParams F)
  | gn (p : GNParams F)
  | lm (p : LMParams F)

/-- State-changing calls.  `new*` is `Rc::new(RefCell::new(T::new(..)))`; `write*` is any assignment through
`borrow_mut()` to an existing object, which covers every setter (`set_x`, `set_radius`, `set_start`, `set_desired_*`, …,
and the public fields of `Arc`). -/
inductive Op (F : Type) where
  | newPoint (x y : F)
  | newLine (start stop : Nat)
  | newArc (center : Nat) (radius : F) (clockwise : Bool) (startAngle endAngle : F)
  | newCircle (center : Nat) (radius : F)
  | newCons (c : Constraint F)
  | writePoint (a : Nat) (p : Point2 F)
  | writeLine (a : Nat) (l : Line)
  | writeArc (a : Nat) (x : Arc F)
  | writeCircle (a : Nat) (x : Circle F)
  | writeCons (a : Nat) (c : Constraint F)
  | addPrimitive (p : PrimCell)
  | addPoint2 (x y : F)
  | addLine (start stop : Nat)
  | addArc (center : Nat) (radius : F) (clockwise : Bool) (startAngle endAngle : F)
  | addConstraint (c : Nat)
  | constrainPerpendicularLines (l1 l2 : Nat)
  | constrainParallelLines (l1 l2 : Nat)
  | constrainDistanceEuclidean (p1 p2 : Nat) (d : F)
  | constrainFixPoint (p : Nat) (pos : Vec2 F)
  | constrainAngleBetweenPoints (p1 p2 mid : Nat) (angle : F)
  | deletePrimitive (id : Nat)
  | deleteConstraint (c : Nat)
  | setData (d : List F)
  | getGradient
  | getJacobian
  | checkGradients (eps : F) (c : Nat) (checkEps : F)
  | solve (k : SolverKind F)

/-- What a call returns. -/
inductive Out (F : Type) where
  | unit
  | addr (a : Nat)
  | id (n : Nat)
  | err (e : Err)
  | vec (v : List F)
  | mat (m : List (List F))
  | solved (r : SolveRes)
  | panic
  /-- the call mentions a handle that does not exist: no Rust program can make it -/
  | illTyped

/-- a cell that has been allocated -/
def PrimCell.live (h : Heap F) : PrimCell → Bool
  | .point a => decide (a < h.nPoints)
  | .line a => decide (a < h.nLines)
  | .arc a => decide (a < h.nArcs)
  | .circle a => decide (a < h.nCircles)

/-- two constraint objects of the same Rust type -/
def Constraint.sameKind : Constraint F → Constraint F → Bool
  | .angle .., .angle .. => true
  | .arcEnd .., .arcEnd .. => true
  | .arcStart .., .arcStart .. => true
  | .euclid .., .euclid .. => true
  | .horizDist .., .horizDist .. => true
  | .vertDist .., .vertDist .. => true
  | .fix .., .fix .. => true
  | .eqLen .., .eqLen .. => true
  | .horizLine .., .horizLine .. => true
  | .vertLine .., .vertLine .. => true
  | .parallel .., .parallel .. => true
  | .perp .., .perp .. => true
  | _, _ => false

section
variable [Num F]

/-- `Sketch::add_point2` (`src/sketch/mod.rs:54-58`). -/
def addPoint2 (w : World F) (x y : F) : Out F × World F :=
  let r := w.heap.allocPoint (Point2.new x y)
  match w.sketch.addPrimitive r.2 (.point r.1) with
  | (.error e, s) => (.err e, ⟨r.2, s⟩)
  | (.ok _, s) => (.addr r.1, ⟨r.2, s⟩)

/-- `Sketch::add_line` (`mod.rs:60-68`). -/
def addLine (w : World F) (start stop : Nat) : Out F × World F :=
  let r := w.heap.allocLine ⟨start, stop⟩
  match w.sketch.addPrimitive r.2 (.line r.1) with
  | (.error e, s) => (.err e, ⟨r.2, s⟩)
  | (.ok _, s) => (.addr r.1, ⟨r.2, s⟩)

/-- `Sketch::add_arc` (`mod.rs:70-87`). -/
def addArc (w : World F) (center : Nat) (radius : F) (cw : Bool) (sa ea : F) : Out F × World F :=
  let r := w.heap.allocArc (Arc.new center radius cw sa ea)
  match w.sketch.addPrimitive r.2 (.arc r.1) with
  | (.error e, s) => (.err e, ⟨r.2, s⟩)
  | (.ok _, s) => (.addr r.1, ⟨r.2, s⟩)

/-- The `constrain_*` helpers (`mod.rs:89-151`): build the object (its `new` may assert), then `add_constraint`. -/
def constrain (w : World F) (c : Constraint F) : Out F × World F :=
  if consNewOk c then
    let r := w.heap.allocCons c
    match w.sketch.addConstraint r.2 r.1 with
    | (.error e, s) => (.err e, ⟨r.2, s⟩)
    | (.ok _, s) => (.addr r.1, ⟨r.2, s⟩)
  else (.panic, w)

/-- `Solver::solve` (`src/solvers/mod.rs:12-14`), dynamic dispatch. -/
def runSolver (pinv : PInv F) (k : SolverKind F) (h : Heap F) (s : Sketch) : SolveOut F :=
  match k with
  | .gd p => gdSolve p h s
  | .bfgs p => bfgsSolve p h s
  | .gn p => gnSolve pinv p h s
  | .lm p => lmSolve pinv p h s

/-- handles a call mentions, all of which must exist for the call to be expressible -/
def Op.live (w : World F) : Op F → Bool
  | .newLine s e | .addLine s e => (PrimCell.point s).live w.heap && (PrimCell.point e).live w.heap
  | .newArc c _ _ _ _ | .addArc c _ _ _ _ => (PrimCell.point c).live w.heap
  | .newCircle c _ => (PrimCell.point c).live w.heap
  | .newCons c => (consRefs c).all (fun r => r.live w.heap)
  | .writePoint a _ => (PrimCell.point a).live w.heap
  | .writeLine a l =>
    (PrimCell.line a).live w.heap && (PrimCell.point l.start).live w.heap && (PrimCell.point l.stop).live w.heap
  | .writeArc a x => (PrimCell.arc a).live w.heap && (PrimCell.point x.center).live w.heap
  | .writeCircle a x => (PrimCell.circle a).live w.heap && (PrimCell.point x.center).live w.heap
  | .writeCons a c =>
    decide (a < w.heap.nCons) && (w.heap.cons a).sameKind c && (consRefs c).all (fun r => r.live w.heap)
  | .addPrimitive p => p.live w.heap
  | .addConstraint c | .deleteConstraint c | .checkGradients _ c _ => decide (c < w.heap.nCons)
  | .constrainPerpendicularLines l1 l2 | .constrainParallelLines l1 l2 =>
    (PrimCell.line l1).live w.heap && (PrimCell.line l2).live w.heap
  | .constrainDistanceEuclidean p1 p2 _ => (PrimCell.point p1).live w.heap && (PrimCell.point p2).live w.heap
  | .constrainFixPoint p _ => (PrimCell.point p).live w.heap
  | .constrainAngleBetweenPoints p1 p2 m _ =>
    (PrimCell.point p1).live w.heap && (PrimCell.point p2).live w.heap && (PrimCell.point m).live w.heap
  | .newPoint _ _ | .addPoint2 _ _ | .deletePrimitive _ | .setData _ | .getGradient | .getJacobian | .solve _ => true

/-- One call (see the functions it refers to for the source lines). -/
def step (pinv : PInv F) (w : World F) (op : Op F) : Out F × World F :=
  if !op.live w then (.illTyped, w) else
  match op with
  | .newPoint x y => let r := w.heap.allocPoint (Point2.new x y); (.addr r.1, ⟨r.2, w.sketch⟩)
  | .newLine s e => let r := w.heap.allocLine ⟨s, e⟩; (.addr r.1, ⟨r.2, w.sketch⟩)
  | .newArc c r cw sa ea => let r := w.heap.allocArc (Arc.new c r cw sa ea); (.addr r.1, ⟨r.2, w.sketch⟩)
  | .newCircle c r => let r := w.heap.allocCircle (Circle.new c r); (.addr r.1, ⟨r.2, w.sketch⟩)
  | .newCons c =>
    if consNewOk c then let r := w.heap.allocCons c; (.addr r.1, ⟨r.2, w.sketch⟩) else (.panic, w)
  | .writePoint a p => (.unit, ⟨w.heap.setPoint a p, w.sketch⟩)
  | .writeLine a l => (.unit, ⟨w.heap.setLine a l, w.sketch⟩)
  | .writeArc a x => (.unit, ⟨w.heap.setArc a x, w.sketch⟩)
  | .writeCircle a x => (.unit, ⟨w.heap.setCircle a x, w.sketch⟩)
  | .writeCons a c => (.unit, ⟨w.heap.setCons a c, w.sketch⟩)
  | .addPrimitive p =>
    match w.sketch.addPrimitive w.heap p with
    | (.error e, s) => (.err e, ⟨w.heap, s⟩)
    | (.ok n, s) => (.id n, ⟨w.heap, s⟩)
  | .addPoint2 x y => Isotope.addPoint2 w x y
  | .addLine s e => Isotope.addLine w s e
  | .addArc c r cw sa ea => Isotope.addArc w c r cw sa ea
  | .addConstraint c =>
    match w.sketch.addConstraint w.heap c with
    | (.error e, s) => (.err e, ⟨w.heap, s⟩)
    | (.ok _, s) => (.unit, ⟨w.heap, s⟩)
  | .constrainPerpendicularLines l1 l2 => constrain w (.perp l1 l2)
  | .constrainParallelLines l1 l2 => constrain w (.parallel l1 l2)
  | .constrainDistanceEuclidean p1 p2 d => constrain w (.euclid p1 p2 d)
  | .constrainFixPoint p pos => constrain w (.fix p pos)
  | .constrainAngleBetweenPoints p1 p2 m a => constrain w (.angle p1 p2 m a)
  | .deletePrimitive id =>
    match w.sketch.deletePrimitive id with
    | (.error e, s) => (.err e, ⟨w.heap, s⟩)
    | (.ok _, s) => (.unit, ⟨w.heap, s⟩)
  | .deleteConstraint c =>
    match w.sketch.deleteConstraint c with
    | (.error e, s) => (.err e, ⟨w.heap, s⟩)
    | (.ok _, s) => (.unit, ⟨w.heap, s⟩)
  | .setData d =>
    match Isotope.setData w.heap w.sketch d with
    | .error h => (.panic, ⟨h, w.sketch⟩)
    | .ok h => (.unit, ⟨h, w.sketch⟩)
  | .getGradient =>
    match Isotope.getGradient w.heap w.sketch with
    | .error h => (.panic, ⟨h, w.sketch⟩)
    | .ok (g, h) => (.vec g, ⟨h, w.sketch⟩)
  | .getJacobian =>
    match Isotope.getJacobian w.heap w.sketch with
    | .error h => (.panic, ⟨h, w.sketch⟩)
    | .ok (m, h) => (.mat m, ⟨h, w.sketch⟩)
  | .checkGradients eps c ce =>
    match Isotope.checkGradients w.heap w.sketch eps c ce with
    | .error h => (.panic, ⟨h, w.sketch⟩)
    | .ok h => (.unit, ⟨h, w.sketch⟩)
  | .solve k =>
    let o := runSolver pinv k w.heap w.sketch
    (.solved o.res, ⟨o.heap, w.sketch⟩)

/-- Run a history; returns the outputs in order and the final world.  Execution goes on after a panic (a client may catch
it), which only adds behaviours. -/
def run (pinv : PInv F) (w : World F) : List (Op F) → List (Out F) × World F
  | [] => ([], w)
  | op :: ops =>
    let r := step pinv w op
    let rest := run pinv r.2 ops
    (r.1 :: rest.1, rest.2)

/-- an arbitrary object of each kind at addresses never allocated -/
def Heap.empty : Heap F :=
  ⟨fun _ => Point2.new 0.0 0.0, fun _ => ⟨0, 0⟩, fun _ => Arc.new 0 0.0 false 0.0 0.0, fun _ => Circle.new 0 0.0,
   fun _ => .horizLine 0, 0, 0, 0, 0, 0⟩

/-- program start: no objects, `Sketch::new()` -/
def World.init : World F := ⟨Heap.empty, Sketch.new⟩

end
end Isotope
