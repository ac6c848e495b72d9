import Verif.Model.Api
import Verif.Model.Decompose

/-!
# Dynamic borrow checking

The heap of `Verif.Model.Prim` has no `RefCell` borrow flags.  This file models the library a second time, now with the
flags: every `borrow()` / `borrow_mut()` of the Rust source is a `withShared` / `withExcl`, held for as long as the guard
(`Ref` / `RefMut`) lives in the source.  Values are computed by the expressions of the first model.

`Debug` printing and `Serialize` of a `RefCell` use `try_borrow` and cannot panic; they are not repeated here.  The
`clone()` of a `Line`, `Arc` or `Circle` clones `Rc` handles and borrows nothing but the cell itself.
-/

namespace Isotope
variable {F : Type}

/-- a `RefCell` of the crate: `Rc<RefCell<_>>` of a primitive or of a constraint (`src/primitives/mod.rs:51-56`,
`src/constraints/mod.rs:68-89`) -/
inductive Cell where
  | prim (p : PrimCell)
  | cons (c : Nat)
deriving DecidableEq

/-- `core::cell::BorrowFlag` of every cell: `0` free, `n > 0` shared borrows, `-1` exclusively borrowed. -/
abbrev Flags := Cell → Int

/-- heap and flags -/
structure BSt (F : Type) where
  heap : Heap F
  flags : Flags

/-- How a call ends: normally, with a panic of the library (failed assertion, `expect`, wrong slice length), or with the
panic `already borrowed` / `already mutably borrowed` of `RefCell`. -/
inductive Res (F α : Type) where
  | ok (a : α) (s : BSt F)
  | panic (s : BSt F)
  | clash

/-- a call that may borrow cells -/
def B (F α : Type) := BSt F → Res F α

namespace B
/-- return -/
def pure {α : Type} (a : α) : B F α := fun s => .ok a s
/-- sequencing; a panic skips the rest -/
def bind {α β : Type} (m : B F α) (k : α → B F β) : B F β := fun s =>
  match m s with
  | .ok a s' => k a s'
  | .panic s' => .panic s'
  | .clash => .clash
end B

instance : Monad (B F) where
  pure := B.pure
  bind := B.bind

/-- read the heap: the caller has to hold a borrow of what it looks at -/
def heapB : B F (Heap F) := fun s => .ok s.heap s
/-- write the heap, or panic -/
def effB (g : Heap F → Except (Heap F) (Heap F)) : B F Unit := fun s =>
  match g s.heap with
  | .ok h => .ok () ⟨h, s.flags⟩
  | .error h => .panic ⟨h, s.flags⟩
/-- `assert!` -/
def assertB (b : Bool) : B F Unit := fun s => if b then .ok () s else .panic s
/-- any other panic -/
def panicB {α : Type} : B F α := fun s => .panic s

/-- change one flag -/
def bump (fl : Flags) (c : Cell) (d : Int) : Flags := fun c' => if c' = c then fl c' + d else fl c'

/-- drop a guard, also when unwinding -/
def dropGuard {α : Type} (c : Cell) (d : Int) : Res F α → Res F α
  | .ok a s => .ok a ⟨s.heap, bump s.flags c d⟩
  | .panic s => .panic ⟨s.heap, bump s.flags c d⟩
  | .clash => .clash

/-- `let guard = cell.borrow(); body` (`RefCell::borrow` panics when the cell is exclusively borrowed) -/
def withShared {α : Type} (c : Cell) (body : B F α) : B F α := fun s =>
  if s.flags c < 0 then .clash
  else dropGuard c (-1) (body ⟨s.heap, bump s.flags c 1⟩)

/-- `let guard = cell.borrow_mut(); body` (`RefCell::borrow_mut` panics when the cell is borrowed in any way) -/
def withExcl {α : Type} (c : Cell) (body : B F α) : B F α := fun s =>
  if s.flags c ≠ 0 then .clash
  else dropGuard c 1 (body ⟨s.heap, bump s.flags c (-1)⟩)

section
variable [Num F]

/-! ## Primitives -/

/-- `point.borrow().data()` (`src/primitives/point2.rs:33-35`). -/
def bPoint (p : Nat) : B F (Vec2 F) := withShared (.prim (.point p)) do return ptData (← heapB) p
/-- `point.borrow().x()` -/
def bPointX (p : Nat) : B F F := withShared (.prim (.point p)) do return (ptData (← heapB) p).x
/-- `point.borrow().y()` -/
def bPointY (p : Nat) : B F F := withShared (.prim (.point p)) do return (ptData (← heapB) p).y
/-- `point.borrow().point_gradient()` -/
def bPointGradient (p : Nat) : B F (Mat2 (Vec2 F)) := withShared (.prim (.point p)) do return pointGradient
/-- `line.borrow().start().borrow().data()`: the temporary `line.borrow()` lives until the end of the statement. -/
def bLineStart (l : Nat) : B F (Vec2 F) :=
  withShared (.prim (.line l)) do bPoint ((← heapB).lines l).start
/-- `line.borrow().end().borrow().data()` -/
def bLineEnd (l : Nat) : B F (Vec2 F) :=
  withShared (.prim (.line l)) do bPoint ((← heapB).lines l).stop
/-- `line.borrow().start_gradient()` -/
def bLineStartGradient (l : Nat) : B F (Mat2 (Row4 F)) := withShared (.prim (.line l)) do return lineStartGradient
/-- `line.borrow().end_gradient()` -/
def bLineEndGradient (l : Nat) : B F (Mat2 (Row4 F)) := withShared (.prim (.line l)) do return lineEndGradient
/-- `Arc::start_point` (`src/primitives/arc.rs:106-114`): the center is borrowed twice, one after the other. -/
def bArcStartPoint (a : Arc F) : B F (Vec2 F) := do
  let x ← bPointX a.center
  let y ← bPointY a.center
  return ⟨x + a.radius * Num.cos a.startAngle, y + a.radius * Num.sin a.startAngle⟩
/-- `Arc::end_point` (`arc.rs:134-141`). -/
def bArcEndPoint (a : Arc F) : B F (Vec2 F) := do
  let x ← bPointX a.center
  let y ← bPointY a.center
  return ⟨x + a.radius * Num.cos a.endAngle, y + a.radius * Num.sin a.endAngle⟩
/-- `arc.borrow().start_point()` -/
def bArcStart (a : Nat) : B F (Vec2 F) := withShared (.prim (.arc a)) do bArcStartPoint ((← heapB).arcs a)
/-- `arc.borrow().end_point()` -/
def bArcEnd (a : Nat) : B F (Vec2 F) := withShared (.prim (.arc a)) do bArcEndPoint ((← heapB).arcs a)
/-- `arc.borrow().start_point_gradient()` -/
def bArcStartGradient (a : Nat) : B F (Mat2 (Row5 F)) :=
  withShared (.prim (.arc a)) do return ((← heapB).arcs a).startPointGradient
/-- `arc.borrow().end_point_gradient()` -/
def bArcEndGradient (a : Nat) : B F (Mat2 (Row5 F)) :=
  withShared (.prim (.arc a)) do return ((← heapB).arcs a).endPointGradient

/-- `point.borrow_mut().add_to_gradient(g)` (`point2.rs:51-55`). -/
def bPointAdd (p : Nat) (g : Vec2 F) : B F Unit :=
  withExcl (.prim (.point p)) (effB (fun h => pointAddGrad h p g))
/-- `line.borrow_mut().add_to_gradient(g)` (`line.rs:55-64`): the line stays exclusively borrowed while its points are. -/
def bLineAdd (l : Nat) (g : Row4 F) : B F Unit :=
  withExcl (.prim (.line l)) do
    assertB g.allFinite
    bPointAdd ((← heapB).lines l).start ⟨g.a0, g.a1⟩
    bPointAdd ((← heapB).lines l).stop ⟨g.a2, g.a3⟩
/-- `arc.borrow_mut().add_to_gradient(g)` (`arc.rs:161-168`). -/
def bArcAdd (a : Nat) (g : Row5 F) : B F Unit :=
  withExcl (.prim (.arc a)) do
    assertB g.allFinite
    bPointAdd ((← heapB).arcs a).center ⟨g.a0, g.a1⟩
    effB (fun h => .ok (h.setArc a { h.arcs a with grad := (h.arcs a).grad + ⟨g.a2, g.a3, g.a4⟩ }))
/-- `circle.borrow_mut().add_to_gradient(g)` (`circle.rs:54-61`). -/
def bCircleAdd (a : Nat) (g : Row3 F) : B F Unit :=
  withExcl (.prim (.circle a)) do
    assertB g.allFinite
    bPointAdd ((← heapB).circles a).center ⟨g.a0, g.a1⟩
    effB (fun h => .ok (h.setCircle a { h.circles a with grad := (h.circles a).grad + g.a2 }))

/-- `primitive.borrow().get_data()`, copied while the guard lives -/
def bPrimData (p : PrimCell) : B F (List F) := withShared (.prim p) do return primData (← heapB) p
/-- `primitive.borrow().get_gradient()` -/
def bPrimGrad (p : PrimCell) : B F (List F) := withShared (.prim p) do return primGrad (← heapB) p
/-- `primitive.borrow_mut().zero_gradient()` -/
def bPrimZero (p : PrimCell) : B F Unit := withExcl (.prim p) (effB (fun h => .ok (primZeroGrad h p)))
/-- `primitive.borrow_mut().set_data(d)` -/
def bPrimSet (p : PrimCell) (d : List F) : B F Unit := withExcl (.prim p) (effB (fun h => primSetData h p d))

/-! ## Constraints: the bodies of `loss_value` and `update_gradient` (`&self` / `&mut self` is borrowed by the caller) -/

/-- `AngleBetweenPoints::current_angle` (`src/constraints/angle_between_points.rs:73-94`). -/
def bCurrentAngle (p1 p2 mid : Nat) : B F F := do
  let point1 ← bPoint p1
  let point2 ← bPoint p2
  let middle ← bPoint mid
  let d1 := point1 - middle
  let d2 := point2 - middle
  let dotProduct := d1.dot d2
  let norm1 := d1.norm
  let norm2 := d2.norm
  if Num.abs norm1 <. (1e-6 : F) || Num.abs norm2 <. (1e-6 : F) then return 0.0
  else
    let cosTheta := dotProduct / (norm1 * norm2)
    if !Num.isFinite cosTheta then return 0.0
    else return Num.acos (clamp cosTheta (-1.0) 1.0)

/-- `loss_value` of the twelve kinds (source lines: `lossValue`). -/
def bLoss : Constraint F → B F F
  | .angle p1 p2 mid desired => do
    let theta ← bCurrentAngle p1 p2 mid
    return (0.5 : F) * (theta - desired) * (theta - desired)
  | .arcEnd a p => do
    let e ← bArcEnd a
    let q ← bPoint p
    let dx := e.x - q.x
    let dy := e.y - q.y
    return (0.5 : F) * (dx * dx + dy * dy)
  | .arcStart a p => do
    let e ← bArcStart a
    let q ← bPoint p
    let dx := e.x - q.x
    let dy := e.y - q.y
    return (0.5 : F) * (dx * dx + dy * dy)
  | .euclid p1 p2 desired => do
    let q1 ← bPoint p1
    let q2 ← bPoint p2
    let err := (q1 - q2).norm - desired
    return (0.5 : F) * err * err
  | .horizDist p1 p2 desired => do
    let q1 ← bPoint p1
    let q2 ← bPoint p2
    let err := (q2.x - q1.x) - desired
    return (0.5 : F) * err * err
  | .vertDist p1 p2 desired => do
    let q1 ← bPoint p1
    let q2 ← bPoint p2
    let err := (q2.y - q1.y) - desired
    return (0.5 : F) * err * err
  | .fix p desired => do
    let q ← bPoint p
    return (0.5 : F) * (q - desired).normSq
  | .eqLen l1 l2 => do
    let start1 ← bLineStart l1
    let end1 ← bLineEnd l1
    let start2 ← bLineStart l2
    let end2 ← bLineEnd l2
    let difference := (end1 - start1).norm - (end2 - start2).norm
    return (0.5 : F) * difference * difference
  | .horizLine l => do
    let s ← bLineStart l
    let e ← bLineEnd l
    let dy := e.y - s.y
    return (0.5 : F) * dy * dy
  | .vertLine l => do
    let s ← bLineStart l
    let e ← bLineEnd l
    let dx := e.x - s.x
    return (0.5 : F) * dx * dx
  | .parallel l1 l2 => do
    let start1 ← bLineStart l1
    let end1 ← bLineEnd l1
    let start2 ← bLineStart l2
    let end2 ← bLineEnd l2
    let dir1 := (end1 - start1).normalize
    let dir2 := (end2 - start2).normalize
    if !Num.isFinite dir1.x || !Num.isFinite dir1.y || !Num.isFinite dir2.x || !Num.isFinite dir2.y then return 0.0
    else
      let crossProduct := dir1.x * dir2.y - dir1.y * dir2.x
      return (0.5 : F) * crossProduct * crossProduct
  | .perp l1 l2 => do
    let start1 ← bLineStart l1
    let end1 ← bLineEnd l1
    let start2 ← bLineStart l2
    let end2 ← bLineEnd l2
    let dir1 := (end1 - start1).normalize
    let dir2 := (end2 - start2).normalize
    if !Num.isFinite dir1.x || !Num.isFinite dir1.y || !Num.isFinite dir2.x || !Num.isFinite dir2.y then return 0.0
    else
      let dotProduct := dir1.dot dir2
      return (0.5 : F) * dotProduct * dotProduct

/-- `AngleBetweenPoints::update_gradient` (`angle_between_points.rs:112-174`). -/
def bAngleUpdate (p1 p2 mid : Nat) (desired : F) : B F Unit := do
  let point1 ← bPoint p1
  let point2 ← bPoint p2
  let middle ← bPoint mid
  let d1 := point1 - middle
  let d2 := point2 - middle
  let dotProduct := d1.dot d2
  let norm1 := d1.norm
  let norm2 := d2.norm
  if Num.abs norm1 <. (1e-6 : F) || Num.abs norm2 <. (1e-6 : F) then return ()
  else
    let cosTheta := dotProduct / (norm1 * norm2)
    let theta := Num.acos (clamp cosTheta (-1.0) 1.0)
    if !Num.isFinite theta then return ()
    else
      let gradPoint1 ← bPointGradient p1
      let gradPoint2 ← bPointGradient p2
      let gradMiddle ← bPointGradient mid
      let gradDotFromD1 := d2
      let gradDotFromD2 := d1
      let gradNormFromD1 := d1.sdiv norm1
      let gradNormToD2 := d2.sdiv norm2
      let gradCosFromDot := (1.0 : F) / (norm1 * norm2)
      let gradCosFromNorm1 := -dotProduct / (norm1 * norm1 * norm2)
      let gradCosFromNorm2 := -dotProduct / (norm1 * norm2 * norm2)
      let gradThetaFromCos := -(1.0 : F) / Num.sqrt (fmax ((1.0 : F) - cosTheta * cosTheta) 0.0)
      if !Num.isFinite gradThetaFromCos then return ()
      else
        let gradLoss := theta - desired
        let gradFromD1 :=
          (gradDotFromD1.smul (gradLoss * gradThetaFromCos * gradCosFromDot)) +
          (gradNormFromD1.smul (gradLoss * gradThetaFromCos * gradCosFromNorm1))
        let gradFromD2 :=
          (gradDotFromD2.smul (gradLoss * gradThetaFromCos * gradCosFromDot)) +
          (gradNormToD2.smul (gradLoss * gradThetaFromCos * gradCosFromNorm2))
        bPointAdd p1 (gradFromD1.mul22 gradPoint1)
        bPointAdd p2 (gradFromD2.mul22 gradPoint2)
        bPointAdd mid ((-gradFromD1).mul22 gradMiddle - gradFromD2.mul22 gradMiddle)

/-- common part of `parallel_lines.rs:70-121` and `perpendicular_lines.rs:70-119`: the reads, the guard, and the two
writes; `g1`, `g2` give the derivative rows from the two normalised directions -/
def bTwoLineUpdate (l1 l2 : Nat) (g1 g2 : Vec2 F → Vec2 F → Vec2 F) : B F Unit := do
  let start1 ← bLineStart l1
  let end1 ← bLineEnd l1
  let start2 ← bLineStart l2
  let end2 ← bLineEnd l2
  let dir1 := end1 - start1
  let dir1Norm := dir1.normalize
  let dir2 := end2 - start2
  let dir2Norm := dir2.normalize
  if !Num.isFinite dir1Norm.x || !Num.isFinite dir1Norm.y || !Num.isFinite dir2Norm.x || !Num.isFinite dir2Norm.y
  then return ()
  else
    let gradStart1 ← bLineStartGradient l1
    let gradEnd1 ← bLineEndGradient l1
    let gradStart2 ← bLineStartGradient l2
    let gradEnd2 ← bLineEndGradient l2
    bLineAdd l1 (((g1 dir1Norm dir2Norm).mul22 (normalizeJacobian dir1)).mul24 (gradEnd1 - gradStart1))
    bLineAdd l2 (((g2 dir1Norm dir2Norm).mul22 (normalizeJacobian dir2)).mul24 (gradEnd2 - gradStart2))

/-- `update_gradient` of the twelve kinds (source lines: the `*Update` functions). -/
def bUpdate : Constraint F → B F Unit
  | .angle p1 p2 mid desired => bAngleUpdate p1 p2 mid desired
  | .arcEnd a p => do
    let e ← bArcEnd a
    let point ← bPoint p
    let gradientConstraint : Vec2 F := ⟨e.x - point.x, e.y - point.y⟩
    let gradArc ← bArcEndGradient a
    let gradPoint ← bPointGradient p
    bArcAdd a (gradientConstraint.mul25 gradArc)
    bPointAdd p ((-gradientConstraint).mul22 gradPoint)
  | .arcStart a p => do
    let e ← bArcStart a
    let point ← bPoint p
    let gradientConstraint : Vec2 F := ⟨e.x - point.x, e.y - point.y⟩
    let gradArc ← bArcStartGradient a
    let gradPoint ← bPointGradient p
    bArcAdd a (gradientConstraint.mul25 gradArc)
    bPointAdd p ((-gradientConstraint).mul22 gradPoint)
  | .euclid p1 p2 desired => do
    let q1 ← bPoint p1
    let q2 ← bPoint p2
    let d := q1 - q2
    let distance := d.norm
    let err := distance - desired
    if distance <. (1e-6 : F) then return ()
    else
      let gradFromD := (d.sdiv distance).smul (err * (1.0 : F))
      let gradPoint1 ← bPointGradient p1
      let gradPoint2 ← bPointGradient p2
      bPointAdd p1 (gradFromD.mul22 gradPoint1)
      bPointAdd p2 ((-gradFromD).mul22 gradPoint2)
  | .horizDist p1 p2 desired => do
    let q1 ← bPoint p1
    let q2 ← bPoint p2
    let err := (q2 - q1).x - desired
    let gradFromD := (⟨1.0, 0.0⟩ : Vec2 F).smul (err * (1.0 : F))
    let gradPoint1 ← bPointGradient p1
    let gradPoint2 ← bPointGradient p2
    bPointAdd p1 ((-gradFromD).mul22 gradPoint1)
    bPointAdd p2 (gradFromD.mul22 gradPoint2)
  | .vertDist p1 p2 desired => do
    let q1 ← bPoint p1
    let q2 ← bPoint p2
    let err := (q2 - q1).y - desired
    let gradFromD := (⟨0.0, 1.0⟩ : Vec2 F).smul (err * (1.0 : F))
    let gradPoint1 ← bPointGradient p1
    let gradPoint2 ← bPointGradient p2
    bPointAdd p1 ((-gradFromD).mul22 gradPoint1)
    bPointAdd p2 (gradFromD.mul22 gradPoint2)
  | .fix p desired => do
    let q ← bPoint p
    bPointAdd p (q - desired)
  | .eqLen l1 l2 => do
    let start1 ← bLineStart l1
    let end1 ← bLineEnd l1
    let start2 ← bLineStart l2
    let end2 ← bLineEnd l2
    let d1 := end1 - start1
    let d2 := end2 - start2
    let difference := d1.norm - d2.norm
    let gradStart1 ← bLineStartGradient l1
    let gradEnd1 ← bLineEndGradient l1
    let gradStart2 ← bLineStartGradient l2
    let gradEnd2 ← bLineEndGradient l2
    bLineAdd l1 (((d1.sdiv d1.norm).smul difference).mul24 (gradEnd1 - gradStart1))
    bLineAdd l2 ((((-d2).sdiv d2.norm).smul difference).mul24 (gradEnd2 - gradStart2))
  | .horizLine l => do
    let s ← bLineStart l
    let e ← bLineEnd l
    let gradientConstraint : Vec2 F := ⟨0.0, e.y - s.y⟩
    let gradStart ← bLineStartGradient l
    let gradEnd ← bLineEndGradient l
    bLineAdd l ((-gradientConstraint).mul24 gradStart)
    bLineAdd l (gradientConstraint.mul24 gradEnd)
  | .vertLine l => do
    let s ← bLineStart l
    let e ← bLineEnd l
    let gradientConstraint : Vec2 F := ⟨e.x - s.x, 0.0⟩
    let gradStart ← bLineStartGradient l
    let gradEnd ← bLineEndGradient l
    bLineAdd l ((-gradientConstraint).mul24 gradStart)
    bLineAdd l (gradientConstraint.mul24 gradEnd)
  | .parallel l1 l2 =>
    bTwoLineUpdate l1 l2
      (fun n1 n2 => (⟨n2.y, -n2.x⟩ : Vec2 F).smul (n1.x * n2.y - n1.y * n2.x))
      (fun n1 n2 => (⟨-n1.y, n1.x⟩ : Vec2 F).smul (n1.x * n2.y - n1.y * n2.x))
  | .perp l1 l2 =>
    bTwoLineUpdate l1 l2 (fun n1 n2 => n2.smul (n1.dot n2)) (fun n1 n2 => n1.smul (n1.dot n2))

/-! ## Sketch (`src/sketch/mod.rs`) -/

/-- `Sketch::add_primitive` (`mod.rs:36-52`): the guard of `primitive.borrow()` lives through the loop; `==` on
`PrimitiveCell` compares addresses and borrows nothing. -/
def bAddPrimitive (s : Sketch) (p : PrimCell) : B F (Except Err Nat × Sketch) := do
  let missing ← withShared (.prim p) do return (primRefs (← heapB) p).any (fun r => !s.hasPrim r)
  if missing then return (.error .missingSketchReferences, s)
  else if s.hasPrim p then return (.error .primitiveAlreadyInSketch, s)
  else
    let s' : Sketch :=
      { s with prims := mapInsert s.nextId p s.prims, nextId := (s.nextId + 1) % u64Size }
    return (.ok ((s'.nextId + (u64Size - 1)) % u64Size), s')

/-- `Sketch::add_constraint` (`mod.rs:157-172`). -/
def bAddConstraint (s : Sketch) (c : Nat) : B F (Except Err Unit × Sketch) := do
  let missing ← withShared (.cons c) do return (consRefs ((← heapB).cons c)).any (fun r => !s.hasPrim r)
  if missing then return (.error .missingSketchReferences, s)
  else if s.cons.any (fun c' => decide (c' = c)) then return (.error .constraintAlreadyInSketch, s)
  else return (.ok (), { s with cons := s.cons ++ [c] })

/-- `Sketch::get_n_dofs` (`mod.rs:205-211`). -/
def bNDofs (s : Sketch) : B F Nat :=
  s.prims.foldlM (fun n kp => do return n + (← bPrimData kp.2).length) 0

/-- `Sketch::get_data` (`mod.rs:213-224`): the guard `p` lives through the body of the loop. -/
def bGetData (s : Sketch) : B F (List F) := do
  let n ← bNDofs s
  let st ← s.prims.foldlM
    (fun (st : List F × Nat) kp => withShared (.prim kp.2) do
      let d := primData (← heapB) kp.2
      return (blit st.1 st.2 d, st.2 + d.length))
    (zerosVec n, 0)
  return st.1

/-- `constraint.borrow().loss_value()` -/
def bConsLoss (c : Nat) : B F F := withShared (.cons c) do bLoss ((← heapB).cons c)
/-- `constraint.borrow_mut().update_gradient()` -/
def bConsUpdate (c : Nat) : B F Unit := withExcl (.cons c) do bUpdate ((← heapB).cons c)

/-- `Sketch::get_loss` (`mod.rs:226-232`). -/
def bGetLoss (s : Sketch) : B F F := s.cons.foldlM (fun loss c => do return loss + (← bConsLoss c)) (0.0 : F)

/-- `for primitive in …: primitive.borrow_mut().zero_gradient()` (`mod.rs:235-237`, `272-274`) -/
def bZeroAll : List (Nat × PrimCell) → B F Unit
  | [] => return ()
  | kp :: kps => do
    bPrimZero kp.2
    bZeroAll kps

/-- `for constraint in …: constraint.borrow_mut().update_gradient()` (`mod.rs:239-241`) -/
def bUpdateAll : List Nat → B F Unit
  | [] => return ()
  | c :: cs => do
    bConsUpdate c
    bUpdateAll cs

/-- `Sketch::get_gradient` (`mod.rs:234-258`). -/
def bGetGradient (s : Sketch) : B F (List F) := do
  bZeroAll s.prims
  bUpdateAll s.cons
  let n ← bNDofs s
  let st ← s.prims.foldlM
    (fun (st : List F × Nat) kp => withShared (.prim kp.2) do
      let g := primGrad (← heapB) kp.2
      assertB (g.all Num.isFinite)
      return (blit st.1 st.2 g, st.2 + g.length))
    (zerosVec n, 0)
  return st.1

/-- `Sketch::get_loss_per_constraint` (`mod.rs:260-266`). -/
def bGetLossPerConstraint (s : Sketch) : B F (List F) := s.cons.mapM bConsLoss

/-- the loop over the constraints of `get_jacobian` (`mod.rs:270-288`) -/
def bJacobianRows (s : Sketch) (n : Nat) : List Nat → B F (List (List F))
  | [] => return []
  | c :: cs => do
    bZeroAll s.prims
    bConsUpdate c
    let row ← s.prims.foldlM
      (fun (st : List F × Nat) kp => withShared (.prim kp.2) do
        let g := primGrad (← heapB) kp.2
        return (blit st.1 st.2 g, st.2 + g.length))
      (zerosVec n, 0)
    let rows ← bJacobianRows s n cs
    return row.1 :: rows

/-- `Sketch::get_jacobian` (`mod.rs:268-290`). -/
def bGetJacobian (s : Sketch) : B F (List (List F)) := do
  let n ← bNDofs s
  bJacobianRows s n s.cons

/-- the loop of `set_data` (`mod.rs:294-299`) -/
def bSetDataLoop (data : List F) : List (Nat × PrimCell) → Nat → B F Unit
  | [], _ => return ()
  | kp :: kps, i => do
    let n := (← bPrimData kp.2).length
    bPrimSet kp.2 ((data.drop i).take n)
    bSetDataLoop data kps (i + n)

/-- `Sketch::set_data` (`mod.rs:292-300`). -/
def bSetData (s : Sketch) (data : List F) : B F Unit := do
  let n ← bNDofs s
  assertB (decide (data.length = n))
  bSetDataLoop data s.prims 0

/-- inner loop of `check_gradients` (`mod.rs:320-333`) -/
def bCheckPrimLoop (c : Nat) (eps closs : F) (p : PrimCell) (orig : List F) : List Nat → B F (List F)
  | [] => return []
  | i :: is => do
    bPrimSet p (orig.set i (orig.getD i 0.0 + eps))
    let newLoss ← bConsLoss c
    bPrimSet p orig
    let g ← bCheckPrimLoop c eps closs p orig is
    return (newLoss - closs) / eps :: g

/-- outer loop of `check_gradients` (`mod.rs:314-341`) -/
def bCheckPrims (c : Nat) (eps closs checkEps : F) : List (Nat × PrimCell) → B F Unit
  | [] => return ()
  | kp :: kps => do
    let orig ← bPrimData kp.2
    let analytical ← bPrimGrad kp.2
    let n := (← bPrimData kp.2).length
    assertB (decide (n = analytical.length))
    let numerical ← bCheckPrimLoop c eps closs kp.2 orig (List.range n)
    assertB (normL (List.zipWith (· - ·) numerical analytical) <. checkEps)
    bCheckPrims c eps closs checkEps kps

/-- `Sketch::check_gradients` (`mod.rs:303-342`). -/
def bCheckGradients (s : Sketch) (eps : F) (c : Nat) (checkEps : F) : B F Unit := do
  let _ ← bGetGradient s
  let closs ← bConsLoss c
  bCheckPrims c eps closs checkEps s.prims

/-- `Sketch::get_all_points` (`mod.rs:345-356`): `p.borrow()` is a temporary of the `if let` scrutinee and lives through
both branches. -/
def bGetAllPoints : List (Nat × PrimCell) → B F (List (Nat × Point2 F))
  | [] => return []
  | kp :: kps => do
    let r ← withShared (.prim kp.2) do
      let h ← heapB
      match kp.2 with
      | .point a => return some (kp.1, h.points a)
      | _ => return none
    let rest ← bGetAllPoints kps
    match r with
    | some x => return x :: rest
    | none => return rest

/-! ## Solvers (`src/solvers/*.rs`): clients of the sketch, without `RefCell` code of their own -/

/-- the loop of `line_search_wolfe` (`src/solvers/line_search.rs:29-46`) -/
def bLsLoop (s : Sketch) (direction x0 : List F) (loss m : F) : Nat → F → B F (LSRes F)
  | 0, _ => return .searchFailed
  | n + 1, alpha => do
    bSetData s (vadd x0 (vscale alpha direction))
    let newLoss ← bGetLoss s
    if newLoss <=. loss + wolfeC1 * alpha * m then
      let newGradient ← bGetGradient s
      if ge (dotV newGradient direction) (wolfeC2 * m) then return .ok alpha
      else bLsLoop s direction x0 loss m n (alpha * (1.5 : F))
    else bLsLoop s direction x0 loss m n (alpha * (0.5 : F))

/-- `line_search_wolfe` (`line_search.rs:17-48`) -/
def bLineSearch (s : Sketch) (direction gradient : List F) : B F (LSRes F) := do
  let m := dotV gradient direction
  if ge m (0.0 : F) then return .notDescent
  else
    let x0 ← bGetData s
    let loss ← bGetLoss s
    bLsLoop s direction x0 loss m lsMaxIter (1.0 : F)

/-- the loop of `GradientBasedSolver::solve` (`src/solvers/gradient_based_solver.rs:45-67`) -/
def bGdLoop (p : GDParams F) (s : Sketch) : Nat → List F → F → F → B F SolveRes
  | 0, _, _, _ => return .ok
  | n + 1, gradient, gradNorm, loss =>
    if gradNorm <. p.minGrad then return .ok
    else if loss <. p.minLoss then return .ok
    else do
      let data ← bGetData s
      let direction := vneg gradient
      match ← bLineSearch s direction gradient with
      | .notDescent => return .err .notDescentDirection
      | .searchFailed => return .err .searchFailed
      | .panic => panicB
      | .ok alpha =>
        bSetData s (axpy data alpha direction)
        let loss' ← bGetLoss s
        let gradient' ← bGetGradient s
        bGdLoop p s n gradient' (normL gradient') loss'

/-- `GradientBasedSolver::solve` (`gradient_based_solver.rs:39-69`) -/
def bGdSolve (p : GDParams F) (s : Sketch) : B F SolveRes := do
  let gradient ← bGetGradient s
  let loss ← bGetLoss s
  bGdLoop p s p.maxIterations gradient (normL gradient) loss

/-- the loop of `BFGSSolver::solve` (`src/solvers/bfgs_solver.rs:50-115`) -/
def bBfgsLoop (p : BFGSParams F) (s : Sketch) (nd : Nat) :
    (fuel : Nat) → (reset : Bool) → List (List F) → List F → B F SolveRes
  | 0, _, _, _ => return .ok
  | n + 1, reset, hm, data => do
    let loss ← bGetLoss s
    if loss <. p.minLoss then return .ok
    else
      let gradient ← bGetGradient s
      if !gradient.all Num.isFinite then return .err .nonFiniteGradient
      else if uniformNorm gradient <. p.gradientThreshold then return .ok
      else
        let dir := matVec (matNeg hm) gradient
        if !dir.all Num.isFinite then return .err .nonFiniteDirection
        else
          match ← bLineSearch s dir gradient with
          | .panic => panicB
          | .notDescent => return .err .notDescentDirection
          | .searchFailed =>
            match reset with
            | true => return .err .failedTwice
            | false => bBfgsLoop p s nd (n + 1) true (identity nd) data
          | .ok alpha =>
            let st := vscale alpha dir
            let newData := vadd data st
            bSetData s newData
            let newGradient ← bGetGradient s
            let y := vsub newGradient gradient
            bBfgsLoop p s nd n false (bfgsUpdate hm st y) newData
termination_by fuel reset => (fuel, if reset then 0 else 1)

/-- `BFGSSolver::solve` (`bfgs_solver.rs:41-118`) -/
def bBfgsSolve (p : BFGSParams F) (s : Sketch) : B F SolveRes := do
  let data ← bGetData s
  bBfgsLoop p s data.length p.maxIterations false (identity data.length) data

/-- the common loop of `GaussNewtonSolver::solve` (`gauss_newton_solver.rs:45-61`) and `LevenbergMarquardtSolver::solve`
(`levenberg_marquardt.rs:55-72`) -/
def bNewtonLoop (pinv : PInv F) (minLoss stepSize eps : F) (normal : Nat → List (List F) → List (List F)) (s : Sketch) :
    Nat → F → B F SolveRes
  | 0, _ => return .ok
  | n + 1, lossSum =>
    if gt lossSum minLoss then do
      let data ← bGetData s
      let losses ← bGetLossPerConstraint s
      let jac ← bGetJacobian s
      match pinv (normal data.length jac) eps with
      | .panic => panicB
      | .err => return .err .pseudoInverse
      | .ok pi =>
        let upd := (matVec (matMul jac.length pi (transpose data.length jac)) losses).map (· * stepSize)
        bSetData s (vsub data upd)
        bNewtonLoop pinv minLoss stepSize eps normal s n (sumL losses)
    else return .ok

/-- `Solver::solve`, dynamic dispatch (`src/solvers/mod.rs:12-14`) -/
def bRunSolver (pinv : PInv F) (k : SolverKind F) (s : Sketch) : B F SolveRes :=
  match k with
  | .gd p => bGdSolve p s
  | .bfgs p => bBfgsSolve p s
  | .gn p => bNewtonLoop pinv p.minLoss p.stepSize p.pinvEps gnNormal s p.maxIterations Num.inf
  | .lm p => bNewtonLoop pinv p.minLoss p.stepSize p.pinvEps (lmNormal p.beta) s p.maxIterations Num.inf

/-! ## Decomposition (`src/decompose/*.rs`) -/

/-- `==` on `Rc<RefCell<Point2>>`: both cells are borrowed at the same time (`*self.borrow() == *other.borrow()`). -/
def bPointEq (p q : Nat) : B F Bool :=
  withShared (.prim (.point p)) (withShared (.prim (.point q)) do
    let h ← heapB
    return (h.points p).beq (h.points q))

/-- derived `PartialEq` of `Segment`, `Line`, `Arc` (`segment.rs:6`, `line.rs:13`, `arc.rs:12`): fields in order, `&&`
stops at the first difference. -/
def bSegEq : Segment F → Segment F → B F Bool
  | .line s e, .line s' e' => do
    let b ← bPointEq s s'
    if b then bPointEq e e' else return false
  | .arc a, .arc a' => do
    let b ← bPointEq a.center a'.center
    return (b && a.data.beq a'.data && a.grad.beq a'.grad && (a.clockwise == a'.clockwise))
  | _, _ => return false

/-- `Segment::get_start` (`segment.rs:13-18`) -/
def bSegStart : Segment F → B F (Vec2 F)
  | .line s _ => bPoint s
  | .arc a => bArcStartPoint a
/-- `Segment::get_end` (`segment.rs:20-25`) -/
def bSegEnd : Segment F → B F (Vec2 F)
  | .line _ e => bPoint e
  | .arc a => bArcEndPoint a
/-- `Segment::start_angle` (`segment.rs:46-55`) -/
def bSegStartAngle : Segment F → B F F
  | .line s e => do
    let start ← bPoint s
    let stop ← bPoint e
    return Num.atan2 (stop.y - start.y) (stop.x - start.x)
  | .arc a => return a.startAngle
/-- `Segment::end_angle` (`segment.rs:57-62`) -/
def bSegEndAngle : Segment F → B F F
  | .line s e => bSegStartAngle (.line s e)
  | .arc a => return a.endAngle
/-- `Segment::continues` (`segment.rs:36-39`) -/
def bContinues (self prior : Segment F) : B F Bool := do
  let e ← bSegEnd prior
  let s ← bSegStart self
  return e.beq s
/-- `Segment::equals_or_reverse_equals` (`segment.rs:64-70`) -/
def bEqOrRev (a b : Segment F) : B F Bool := do
  let e ← bSegEq a b
  if e then return true else bSegEq a b.reverse

/-- the loop of `find_next_segment` (`src/decompose/mod.rs:212-225`) -/
def bCandidates (cur : Segment F) (used : List Nat) (thisEnd : F) :
    List (Nat × Segment F) → B F (List ((Nat × Segment F) × F))
  | [] => return []
  | is :: rest =>
    if used.contains is.1 then bCandidates cur used thisEnd rest
    else do
      let c ← bContinues is.2 cur
      if c then
        let e ← bEqOrRev is.2 cur
        if e then bCandidates cur used thisEnd rest
        else
          let a ← bSegStartAngle is.2
          let ms ← bCandidates cur used thisEnd rest
          return (is, angleDifference thisEnd a) :: ms
      else bCandidates cur used thisEnd rest

/-- `find_next_segment` (`mod.rs:204-231`) -/
def bFindNext (segs : List (Segment F)) (cur : Segment F) (used : List Nat) : B F (Option (Nat × Segment F)) := do
  let a ← bSegEndAngle cur
  let ms ← bCandidates cur used (Num.rem (a + Num.pi) ((2.0 : F) * Num.pi)) (enumFrom 0 segs)
  match ms with
  | [] => return none
  | m :: ms => return some (ms.foldl (fun a b => if gt a.2 b.2 then a else b) m).1

/-- inner loop of `find_rings` (`mod.rs:146-160`) -/
def bRingWalk (segs : List (Segment F)) (used : List Nat) (startPt : Vec2 F) :
    Nat → Nat × Segment F → List (Nat × Segment F) → B F (Option (List (Nat × Segment F)))
  | 0, _, _ => return none
  | n + 1, cur, acc => do
    let e ← bSegEnd cur.2
    if e.beq startPt then return some (acc ++ [cur])
    else
      match ← bFindNext segs cur.2 used with
      | none => return none
      | some nxt => bRingWalk segs used startPt n nxt (acc ++ [cur])

/-- outer loop of `find_rings` (`mod.rs:136-161`) -/
def bRingLoop (segs : List (Segment F)) :
    List (Nat × Segment F) → List Nat → List (List (Nat × Segment F)) → B F (List Nat × List (List (Nat × Segment F)))
  | [], used, rings => return (used, rings)
  | is :: rest, used, rings =>
    if used.contains is.1 then bRingLoop segs rest used rings
    else do
      let startPt ← bSegStart is.2
      match ← bRingWalk segs used startPt (segs.length - 1) is [] with
      | none => bRingLoop segs rest used rings
      | some ring => bRingLoop segs rest (used ++ ring.map (·.1)) (rings ++ [ring])

/-- `init_segments` (`mod.rs:113-122`): `l.borrow().clone()`, `a.borrow().clone()` -/
def bInitSegments : List (Nat × PrimCell) → B F (List (Segment F))
  | [] => return []
  | (_, .line l) :: kps => do
    let x ← withShared (.prim (.line l)) do return (← heapB).lines l
    let rest ← bInitSegments kps
    return .line x.start x.stop :: rest
  | (_, .arc a) :: kps => do
    let x ← withShared (.prim (.arc a)) do return (← heapB).arcs a
    let rest ← bInitSegments kps
    return .arc x :: rest
  | _ :: kps => bInitSegments kps

/-- `circles` (`mod.rs:182-189`): `c.borrow().clone()` -/
def bCircleRings : List (Nat × PrimCell) → B F (List (Ring F))
  | [] => return []
  | (_, .circle c) :: kps => do
    let x ← withShared (.prim (.circle c)) do return (← heapB).circles c
    let rest ← bCircleRings kps
    return .circle x :: rest
  | _ :: kps => bCircleRings kps

/-- `Ring::signed_area` (`ring.rs:17-30`) -/
def bSignedArea : Ring F → B F F
  | .circle c => return c.radius * c.radius * Num.pi
  | .segments segs => do
    let area ← segs.foldlM (fun area sg => do
      let s ← bSegStart sg
      let e ← bSegEnd sg
      return area + (s.x * e.y - e.x * s.y)) (0.0 : F)
    return area / (2.0 : F)

/-- the areas the comparator of `sort_by` and the filter compute (`mod.rs:193-198`), each once -/
def bAreas : List (Ring F) → B F (List (Ring F × F))
  | [] => return []
  | r :: rs => do
    let a ← bSignedArea r
    let rest ← bAreas rs
    return (r, a) :: rest

/-- `find_rings` (`mod.rs:112-202`).  The sort compares precomputed areas; in the source the comparator computes them
again for every comparison, which borrows the same cells in the same way. -/
def bFindRings (s : Sketch) : B F (List (Ring F) × List (Segment F)) := do
  let init ← bInitSegments s.prims
  let all := init ++ init.map Segment.reverse
  let tr ← bRingLoop all (enumFrom 0 all) [] []
  let unused := (enumFrom 0 init).filterMap (fun is => if tr.1.contains is.1 then none else some is.2)
  let circles ← bCircleRings s.prims
  let areas ← bAreas (tr.2.map (fun r => Ring.segments (r.map (·.2))) ++ circles)
  let sorted := areas.mergeSort (fun a b => Num.totalLe a.2 b.2)
  return ((sorted.filter (fun ra => gt ra.2 (0.0 : F))).map (·.1), unused)

/-- `Ring::as_polygon` (`ring.rs:55-87`): the guard of the centre lives through the loop. -/
def bRingPolygon : Ring F → B F (Polygon F)
  | .circle c => withShared (.prim (.point c.center)) do
    let h ← heapB
    return Polygon.new ((List.range 36).map (fun i =>
      let angle := Num.ofNat i / Num.ofNat 36 * (Num.tau : F)
      ((h.points c.center).data.x + c.radius * Num.cos angle,
       (h.points c.center).data.y + c.radius * Num.sin angle))) []
  | .segments segs => do
    let pts ← segs.mapM (fun sg => do
      let s ← bSegStart sg
      return (s.x, s.y))
    return Polygon.new pts []

mutual
/-- `Face::as_polygon` (`face.rs:24-32`), with the recursion into the holes. -/
def bFacePolygon : Face F → B F (Polygon F)
  | .mk e hs => do
    let ext ← bRingPolygon e
    let holes ← bHoles hs
    return Polygon.new ext.exterior holes
/-- `self.holes.iter().map(|h| h.as_polygon().exterior().clone())` (`face.rs:27-30`) -/
def bHoles : List (Face F) → B F (List (List (F × F)))
  | [] => return []
  | f :: fs => do
    let p ← bFacePolygon f
    let rest ← bHoles fs
    return p.exterior :: rest
end

/-- `find_faces` / `get_faces` (`mod.rs:18-26`, `72-110`) -/
def bGetFaces (g : Geo F) (s : Sketch) : B F (List (Face F)) := do
  let ru ← bFindRings s
  let faces := ru.1.map Face.fromRing
  if ru.1.isEmpty then return faces
  else
    let polys ← ru.1.mapM bRingPolygon
    return (whatContainsWhat g polys).foldl addHoleAt faces

/-- the loop of `merge_faces` (`mod.rs:37-57`) -/
def bFacesToRemove (g : Geo F) (olds : List (Polygon F)) : List (Nat × Face F) → B F (List Nat)
  | [] => return []
  | (i, f) :: rest => do
    let p ← bFacePolygon f
    match g.interiorPoint p with
    | none => panicB
    | some pt =>
      let l ← bFacesToRemove g olds rest
      return (if olds.any (fun o => g.containsPoint o pt) then l else i :: l)

/-- `merge_faces` (`mod.rs:28-70`) -/
def bMergeFaces (g : Geo F) (faces : List (Face F)) : B F (List (Face F)) := do
  let olds ← faces.mapM bFacePolygon
  let l ← bFacesToRemove g olds (enumFrom 0 faces)
  return ((l.mergeSort (fun a b => decide (a ≤ b))).reverse).foldl (fun fs i => fs.eraseIdx i) faces

/-- `Sketch::get_merged_faces` (`src/sketch/mod.rs:373-375`) -/
def bGetMergedFaces (g : Geo F) (s : Sketch) : B F (List (Face F)) := do
  let faces ← bGetFaces g s
  bMergeFaces g faces

end
end Isotope
