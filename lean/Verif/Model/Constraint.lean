import Verif.Model.Prim

/-!
# Constraints

Models `src/constraints/**`: for each of the twelve kinds `references`, `loss_value` and `update_gradient`.
Intermediate values keep the names of the Rust source; unused ones (`_loss`) are dropped.
-/

namespace Isotope
variable {F : Type} [Num F]

/-- `point.borrow().data()`. -/
def ptData (h : Heap F) (p : Nat) : Vec2 F := (h.points p).data
/-- `line.borrow().start().borrow().data()`. -/
def lineStart (h : Heap F) (l : Nat) : Vec2 F := ptData h (h.lines l).start
/-- `line.borrow().end().borrow().data()`. -/
def lineEnd (h : Heap F) (l : Nat) : Vec2 F := ptData h (h.lines l).stop

/-- `ConstraintLike::references` for each kind (`angle_between_points.rs:98-104`, `arc_end_point_coincident.rs:46-51`,
`arc_start_point_coincident.rs:46-51`, `euclidian_…:72-77`, `horizontal_distance…:72-77`, `vertical_distance…:72-77`,
`fix_point.rs:48-50`, `equal_length.rs:45-50`, `horizontal_line.rs:37-39`, `vertical_line.rs:37-39`,
`parallel_lines.rs:46-51`, `perpendicular_lines.rs:46-51`). -/
def consRefs : Constraint F → List PrimCell
  | .angle p1 p2 mid _ => [.point p1, .point p2, .point mid]
  | .arcEnd a p => [.arc a, .point p]
  | .arcStart a p => [.arc a, .point p]
  | .euclid p1 p2 _ => [.point p1, .point p2]
  | .horizDist p1 p2 _ => [.point p1, .point p2]
  | .vertDist p1 p2 _ => [.point p1, .point p2]
  | .fix p _ => [.point p]
  | .eqLen l1 l2 => [.line l1, .line l2]
  | .horizLine l => [.line l]
  | .vertLine l => [.line l]
  | .parallel l1 l2 => [.line l1, .line l2]
  | .perp l1 l2 => [.line l1, .line l2]

/-! ## Angle (`src/constraints/angle_between_points.rs`) -/

/-- `AngleBetweenPoints::current_angle` (`angle_between_points.rs:73-94`). -/
def currentAngle (h : Heap F) (p1 p2 mid : Nat) : F :=
  let d1 := ptData h p1 - ptData h mid
  let d2 := ptData h p2 - ptData h mid
  let dotProduct := d1.dot d2
  let norm1 := d1.norm
  let norm2 := d2.norm
  if Num.abs norm1 <. (1e-6 : F) || Num.abs norm2 <. (1e-6 : F) then 0.0
  else
    let cosTheta := dotProduct / (norm1 * norm2)
    if !Num.isFinite cosTheta then 0.0
    else Num.acos (clamp cosTheta (-1.0) 1.0)

/-- `AngleBetweenPoints::update_gradient` (`angle_between_points.rs:112-174`). -/
def angleUpdate (h : Heap F) (p1 p2 mid : Nat) (desired : F) : Except (Heap F) (Heap F) :=
  let d1 := ptData h p1 - ptData h mid
  let d2 := ptData h p2 - ptData h mid
  let dotProduct := d1.dot d2
  let norm1 := d1.norm
  let norm2 := d2.norm
  if Num.abs norm1 <. (1e-6 : F) || Num.abs norm2 <. (1e-6 : F) then .ok h
  else
    let cosTheta := dotProduct / (norm1 * norm2)
    let theta := Num.acos (clamp cosTheta (-1.0) 1.0)
    if !Num.isFinite theta then .ok h
    else
      let gradDotFromD1 := d2
      let gradDotFromD2 := d1
      let gradNormFromD1 := d1.sdiv norm1
      let gradNormToD2 := d2.sdiv norm2
      let gradCosFromDot := (1.0 : F) / (norm1 * norm2)
      let gradCosFromNorm1 := -dotProduct / (norm1 * norm1 * norm2)
      let gradCosFromNorm2 := -dotProduct / (norm1 * norm2 * norm2)
      let gradThetaFromCos := -(1.0 : F) / Num.sqrt (fmax ((1.0 : F) - cosTheta * cosTheta) 0.0)
      if !Num.isFinite gradThetaFromCos then .ok h
      else
        let gradLoss := theta - desired
        let gradFromD1 :=
          (gradDotFromD1.smul (gradLoss * gradThetaFromCos * gradCosFromDot)) +
          (gradNormFromD1.smul (gradLoss * gradThetaFromCos * gradCosFromNorm1))
        let gradFromD2 :=
          (gradDotFromD2.smul (gradLoss * gradThetaFromCos * gradCosFromDot)) +
          (gradNormToD2.smul (gradLoss * gradThetaFromCos * gradCosFromNorm2))
        do
          let h1 ← pointAddGrad h p1 (gradFromD1.mul22 pointGradient)
          let h2 ← pointAddGrad h1 p2 (gradFromD2.mul22 pointGradient)
          pointAddGrad h2 mid ((-gradFromD1).mul22 pointGradient - gradFromD2.mul22 pointGradient)

/-! ## Coincident (`src/constraints/coincident/*.rs`) -/

/-- `ArcEndPointCoincident::update_gradient` (`arc_end_point_coincident.rs:61-78`). -/
def arcEndUpdate (h : Heap F) (a p : Nat) : Except (Heap F) (Heap F) :=
  let arcEnd := (h.arcs a).endPoint h
  let point := ptData h p
  let dx := arcEnd.x - point.x
  let dy := arcEnd.y - point.y
  let gradientConstraint : Vec2 F := ⟨dx, dy⟩
  let gradArc := (h.arcs a).endPointGradient
  do
    let h1 ← arcAddGrad h a (gradientConstraint.mul25 gradArc)
    pointAddGrad h1 p ((-gradientConstraint).mul22 pointGradient)

/-- `ArcStartPointCoincident::update_gradient` (`arc_start_point_coincident.rs:61-78`). -/
def arcStartUpdate (h : Heap F) (a p : Nat) : Except (Heap F) (Heap F) :=
  let arcStart := (h.arcs a).startPoint h
  let point := ptData h p
  let dx := arcStart.x - point.x
  let dy := arcStart.y - point.y
  let gradientConstraint : Vec2 F := ⟨dx, dy⟩
  let gradArc := (h.arcs a).startPointGradient
  do
    let h1 ← arcAddGrad h a (gradientConstraint.mul25 gradArc)
    pointAddGrad h1 p ((-gradientConstraint).mul22 pointGradient)

/-! ## Distances (`src/constraints/distance/*.rs`) -/

/-- `EuclidianDistanceBetweenPoints::current_distance` (`euclidian_distance_between_points.rs:62-68`). -/
def euclidCurrent (h : Heap F) (p1 p2 : Nat) : F := (ptData h p1 - ptData h p2).norm
/-- `HorizontalDistanceBetweenPoints::current_distance` (`horizontal_distance_between_points.rs:63-68`). -/
def horizCurrent (h : Heap F) (p1 p2 : Nat) : F := (ptData h p2).x - (ptData h p1).x
/-- `VerticalDistanceBetweenPoints::current_distance` (`vertical_distance_between_points.rs:63-68`). -/
def vertCurrent (h : Heap F) (p1 p2 : Nat) : F := (ptData h p2).y - (ptData h p1).y

/-- `EuclidianDistanceBetweenPoints::update_gradient` (`euclidian_distance_between_points.rs:85-116`). -/
def euclidUpdate (h : Heap F) (p1 p2 : Nat) (desired : F) : Except (Heap F) (Heap F) :=
  let d := ptData h p1 - ptData h p2
  let distance := d.norm
  let err := distance - desired
  if distance <. (1e-6 : F) then .ok h
  else
    let gradDistanceFromD := d.sdiv distance
    let gradFromD := gradDistanceFromD.smul (err * (1.0 : F))
    do
      let h1 ← pointAddGrad h p1 (gradFromD.mul22 pointGradient)
      pointAddGrad h1 p2 ((-gradFromD).mul22 pointGradient)

/-- `HorizontalDistanceBetweenPoints::update_gradient` (`horizontal_distance_between_points.rs:85-113`). -/
def horizUpdate (h : Heap F) (p1 p2 : Nat) (desired : F) : Except (Heap F) (Heap F) :=
  let d := ptData h p2 - ptData h p1
  let err := d.x - desired
  let gradFromD := (⟨1.0, 0.0⟩ : Vec2 F).smul (err * (1.0 : F))
  do
    let h1 ← pointAddGrad h p1 ((-gradFromD).mul22 pointGradient)
    pointAddGrad h1 p2 (gradFromD.mul22 pointGradient)

/-- `VerticalDistanceBetweenPoints::update_gradient` (`vertical_distance_between_points.rs:85-113`). -/
def vertUpdate (h : Heap F) (p1 p2 : Nat) (desired : F) : Except (Heap F) (Heap F) :=
  let d := ptData h p2 - ptData h p1
  let err := d.y - desired
  let gradFromD := (⟨0.0, 1.0⟩ : Vec2 F).smul (err * (1.0 : F))
  do
    let h1 ← pointAddGrad h p1 ((-gradFromD).mul22 pointGradient)
    pointAddGrad h1 p2 (gradFromD.mul22 pointGradient)

/-! ## Fix (`src/constraints/fix_point.rs`) -/

/-- `FixPoint::update_gradient` (`fix_point.rs:58-64`). -/
def fixUpdate (h : Heap F) (p : Nat) (desired : Vec2 F) : Except (Heap F) (Heap F) :=
  pointAddGrad h p (ptData h p - desired)

/-! ## Lines (`src/constraints/lines/*.rs`) -/

/-- `EqualLength::update_gradient` (`equal_length.rs:65-93`). -/
def eqLenUpdate (h : Heap F) (l1 l2 : Nat) : Except (Heap F) (Heap F) :=
  let d1 := lineEnd h l1 - lineStart h l1
  let d2 := lineEnd h l2 - lineStart h l2
  let difference := d1.norm - d2.norm
  let gradDifferenceFromD1 := d1.sdiv d1.norm
  let gradDifferenceFromD2 := (-d2).sdiv d2.norm
  do
    let h1 ← lineAddGrad h l1
      ((gradDifferenceFromD1.smul difference).mul24 (lineEndGradient - lineStartGradient))
    lineAddGrad h1 l2
      ((gradDifferenceFromD2.smul difference).mul24 (lineEndGradient - lineStartGradient))

/-- `HorizontalLine::update_gradient` (`horizontal_line.rs:48-64`). -/
def horizLineUpdate (h : Heap F) (l : Nat) : Except (Heap F) (Heap F) :=
  let dy := (lineEnd h l).y - (lineStart h l).y
  let gradientConstraint : Vec2 F := ⟨0.0, dy⟩
  do
    let h1 ← lineAddGrad h l ((-gradientConstraint).mul24 lineStartGradient)
    lineAddGrad h1 l (gradientConstraint.mul24 lineEndGradient)

/-- `VerticalLine::update_gradient` (`vertical_line.rs:48-64`). -/
def vertLineUpdate (h : Heap F) (l : Nat) : Except (Heap F) (Heap F) :=
  let dx := (lineEnd h l).x - (lineStart h l).x
  let gradientConstraint : Vec2 F := ⟨dx, 0.0⟩
  do
    let h1 ← lineAddGrad h l ((-gradientConstraint).mul24 lineStartGradient)
    lineAddGrad h1 l (gradientConstraint.mul24 lineEndGradient)

/-- The matrix `(I - d dᵀ / ‖d‖²) / ‖d‖` (`parallel_lines.rs:96-99`, `perpendicular_lines.rs:94-97`). -/
def normalizeJacobian (d : Vec2 F) : Mat2 (Vec2 F) :=
  ⟨⟨((1.0 : F) - d.x * d.x / d.normSq) / d.norm, ((0.0 : F) - d.x * d.y / d.normSq) / d.norm⟩,
   ⟨((0.0 : F) - d.y * d.x / d.normSq) / d.norm, ((1.0 : F) - d.y * d.y / d.normSq) / d.norm⟩⟩

/-- `ParallelLines::update_gradient` (`parallel_lines.rs:70-121`). -/
def parallelUpdate (h : Heap F) (l1 l2 : Nat) : Except (Heap F) (Heap F) :=
  let dir1 := lineEnd h l1 - lineStart h l1
  let dir1Norm := dir1.normalize
  let dir2 := lineEnd h l2 - lineStart h l2
  let dir2Norm := dir2.normalize
  if !Num.isFinite dir1Norm.x || !Num.isFinite dir1Norm.y || !Num.isFinite dir2Norm.x || !Num.isFinite dir2Norm.y
  then .ok h
  else
    let crossProduct := dir1Norm.x * dir2Norm.y - dir1Norm.y * dir2Norm.x
    let gradCrossFromDir1 : Vec2 F := ⟨dir2Norm.y, -dir2Norm.x⟩
    let gradCrossFromDir2 : Vec2 F := ⟨-dir1Norm.y, dir1Norm.x⟩
    do
      let h1 ← lineAddGrad h l1
        (((gradCrossFromDir1.smul crossProduct).mul22 (normalizeJacobian dir1)).mul24
          (lineEndGradient - lineStartGradient))
      lineAddGrad h1 l2
        (((gradCrossFromDir2.smul crossProduct).mul22 (normalizeJacobian dir2)).mul24
          (lineEndGradient - lineStartGradient))

/-- `PerpendicularLines::update_gradient` (`perpendicular_lines.rs:70-119`). -/
def perpUpdate (h : Heap F) (l1 l2 : Nat) : Except (Heap F) (Heap F) :=
  let dir1 := lineEnd h l1 - lineStart h l1
  let dir1Norm := dir1.normalize
  let dir2 := lineEnd h l2 - lineStart h l2
  let dir2Norm := dir2.normalize
  if !Num.isFinite dir1Norm.x || !Num.isFinite dir1Norm.y || !Num.isFinite dir2Norm.x || !Num.isFinite dir2Norm.y
  then .ok h
  else
    let dotProduct := dir1Norm.dot dir2Norm
    let gradDotFromDir1 := dir2Norm
    let gradDotFromDir2 := dir1Norm
    do
      let h1 ← lineAddGrad h l1
        (((gradDotFromDir1.smul dotProduct).mul22 (normalizeJacobian dir1)).mul24
          (lineEndGradient - lineStartGradient))
      lineAddGrad h1 l2
        (((gradDotFromDir2.smul dotProduct).mul22 (normalizeJacobian dir2)).mul24
          (lineEndGradient - lineStartGradient))

/-! ## Dispatch -/

/-- `ConstraintLike::loss_value` for each kind: `angle_between_points.rs:106-110`, `arc_end_point_coincident.rs:53-59`,
`arc_start_point_coincident.rs:53-59`, `euclidian_…:79-83`, `horizontal_distance…:79-83`, `vertical_distance…:79-83`,
`fix_point.rs:52-56`, `equal_length.rs:52-63`, `horizontal_line.rs:41-46`, `vertical_line.rs:41-46`,
`parallel_lines.rs:53-68`, `perpendicular_lines.rs:53-68`. -/
def lossValue (h : Heap F) : Constraint F → F
  | .angle p1 p2 mid desired =>
    let theta := currentAngle h p1 p2 mid
    (0.5 : F) * (theta - desired) * (theta - desired)
  | .arcEnd a p =>
    let e := (h.arcs a).endPoint h
    let dx := e.x - (ptData h p).x
    let dy := e.y - (ptData h p).y
    (0.5 : F) * (dx * dx + dy * dy)
  | .arcStart a p =>
    let e := (h.arcs a).startPoint h
    let dx := e.x - (ptData h p).x
    let dy := e.y - (ptData h p).y
    (0.5 : F) * (dx * dx + dy * dy)
  | .euclid p1 p2 desired =>
    let err := euclidCurrent h p1 p2 - desired
    (0.5 : F) * err * err
  | .horizDist p1 p2 desired =>
    let err := horizCurrent h p1 p2 - desired
    (0.5 : F) * err * err
  | .vertDist p1 p2 desired =>
    let err := vertCurrent h p1 p2 - desired
    (0.5 : F) * err * err
  | .fix p desired =>
    let d := ptData h p - desired
    (0.5 : F) * d.normSq
  | .eqLen l1 l2 =>
    let d1 := lineEnd h l1 - lineStart h l1
    let d2 := lineEnd h l2 - lineStart h l2
    let difference := d1.norm - d2.norm
    (0.5 : F) * difference * difference
  | .horizLine l =>
    let dy := (lineEnd h l).y - (lineStart h l).y
    (0.5 : F) * dy * dy
  | .vertLine l =>
    let dx := (lineEnd h l).x - (lineStart h l).x
    (0.5 : F) * dx * dx
  | .parallel l1 l2 =>
    let dir1 := (lineEnd h l1 - lineStart h l1).normalize
    let dir2 := (lineEnd h l2 - lineStart h l2).normalize
    if !Num.isFinite dir1.x || !Num.isFinite dir1.y || !Num.isFinite dir2.x || !Num.isFinite dir2.y then 0.0
    else
      let crossProduct := dir1.x * dir2.y - dir1.y * dir2.x
      (0.5 : F) * crossProduct * crossProduct
  | .perp l1 l2 =>
    let dir1 := (lineEnd h l1 - lineStart h l1).normalize
    let dir2 := (lineEnd h l2 - lineStart h l2).normalize
    if !Num.isFinite dir1.x || !Num.isFinite dir1.y || !Num.isFinite dir2.x || !Num.isFinite dir2.y then 0.0
    else
      let dotProduct := dir1.dot dir2
      (0.5 : F) * dotProduct * dotProduct

/-- `ConstraintLike::update_gradient`, dynamic dispatch (`src/constraints/mod.rs:19-24`). -/
def updateGradient (h : Heap F) : Constraint F → Except (Heap F) (Heap F)
  | .angle p1 p2 mid desired => angleUpdate h p1 p2 mid desired
  | .arcEnd a p => arcEndUpdate h a p
  | .arcStart a p => arcStartUpdate h a p
  | .euclid p1 p2 desired => euclidUpdate h p1 p2 desired
  | .horizDist p1 p2 desired => horizUpdate h p1 p2 desired
  | .vertDist p1 p2 desired => vertUpdate h p1 p2 desired
  | .fix p desired => fixUpdate h p desired
  | .eqLen l1 l2 => eqLenUpdate h l1 l2
  | .horizLine l => horizLineUpdate h l
  | .vertLine l => vertLineUpdate h l
  | .parallel l1 l2 => parallelUpdate h l1 l2
  | .perp l1 l2 => perpUpdate h l1 l2

/-- Precondition asserted by the constructors: `FixPoint::new` (`fix_point.rs:26`), `AngleBetweenPoints::new`
(`angle_between_points.rs:32`), the three distance constructors (line 30/31 of their files).  The other `new` assert
nothing. -/
def consNewOk : Constraint F → Bool
  | .angle _ _ _ d => Num.isFinite d
  | .euclid _ _ d => Num.isFinite d
  | .horizDist _ _ d => Num.isFinite d
  | .vertDist _ _ d => Num.isFinite d
  | .fix _ d => d.allFinite
  | _ => true

end Isotope
