import Verif.Model.Api
import Verif.Model.Decompose

/-!
# The model run on `Float`

Not proofs: the model is executed on IEEE doubles and the unit tests of `/repo` are replayed against it, as evidence that
the transcription is faithful.  Each `#guard` names the Rust test it repeats.
-/

namespace Isotope.Test

/-- sign-magnitude order key of a double (`f64::total_cmp`) -/
def key (x : Float) : Int :=
  let b := x.toBits.toNat
  if b < 2 ^ 63 then (b : Int) else -((b : Int) - 2 ^ 63) - 1

instance : Num Float where
  add := Float.add
  sub := Float.sub
  mul := Float.mul
  div := Float.div
  neg := Float.neg
  rem a b := a - b * (if a / b < 0 then (a / b).ceil else (a / b).floor)
  abs := Float.abs
  sqrt := Float.sqrt
  cos := Float.cos
  sin := Float.sin
  acos := Float.acos
  atan2 := Float.atan2
  ofSci := Float.ofScientific
  ofNat := Float.ofNat
  pi := 3.141592653589793
  tau := 6.283185307179586
  inf := 1.0 / 0.0
  lt a b := a < b
  le a b := a <= b
  eq a b := a == b
  isFinite := Float.isFinite
  totalLe a b := key a ≤ key b

/-- `DMatrix::pseudo_inverse` for invertible matrices (Gauss-Jordan with pivoting), enough for Levenberg-Marquardt. -/
def inv (m : List (List Float)) : List (List Float) := Id.run do
  let n := m.length
  let mut a : Array (Array Float) := (m.zip (identity (F := Float) n)).map (fun p => (p.1 ++ p.2).toArray) |>.toArray
  for c in [0:n] do
    let mut piv := c
    for r in [c:n] do
      if (a[r]!)[c]!.abs > (a[piv]!)[c]!.abs then piv := r
    let rowp := a[piv]!
    a := a.set! piv a[c]!
    let d := rowp[c]!
    let rowc := rowp.map (· / d)
    a := a.set! c rowc
    for r in [0:n] do
      if r != c then
        let f := (a[r]!)[c]!
        a := a.set! r ((a[r]!).zipWith (fun x y => x - f * y) rowc)
  return (a.map (fun r => (r.toList.drop n))).toList

def pinv : PInv Float := fun m _ => .ok (inv m)

abbrev W := World Float

def okOut : Out Float → Bool
  | .unit | .addr _ | .id _ | .vec _ | .mat _ | .solved .ok => true
  | _ => false

/-- run a history; all calls must succeed -/
def runOk (ops : List (Op Float)) : Option W :=
  let r := run pinv World.init ops
  if r.1.all okOut then some r.2 else none

def lossBelow (c : Nat) (eps : Float) (w : Option W) : Bool :=
  match w with
  | some w => lossValue w.heap (w.heap.cons c) < eps
  | none => false

def near (w : W) (p : Nat) (x y eps : Float) : Bool :=
  ((w.heap.points p).data - ⟨x, y⟩ : Vec2 Float).norm < eps

def gd : Op Float := .solve (.gd GDParams.default)
def bfgs : Op Float := .solve (.bfgs BFGSParams.default)

-- `test_fix_point` (src/constraints/fix_point.rs:85-104)
#guard lossBelow 0 0.001 <| runOk [.addPoint2 1.0 0.0, .constrainFixPoint 0 ⟨1.0, 1.0⟩, .checkGradients 1e-6 0 1e-6, gd]
-- `test_euclidian_distance_between_points`
#guard lossBelow 0 0.001 <| runOk
  [.addPoint2 1.0 0.0, .addPoint2 0.0 1.0, .constrainDistanceEuclidean 0 1 3.0, .checkGradients 1e-6 0 1e-6, gd]
-- `test_horizontal_distance_between_points`
#guard lossBelow 0 0.001 <| runOk
  [.addPoint2 1.0 0.0, .addPoint2 0.0 1.0, .newCons (.horizDist 0 1 (-3.0)), .addConstraint 0,
   .checkGradients 1e-6 0 1e-6, gd]
-- `test_vertical_distance_between_points`
#guard lossBelow 0 0.001 <| runOk
  [.addPoint2 1.0 0.0, .addPoint2 0.0 1.0, .newCons (.vertDist 0 1 3.0), .addConstraint 0,
   .checkGradients 1e-6 0 1e-6, gd]
-- `test_angle_between_points`, `test_specific_case`
#guard lossBelow 0 0.001 <| runOk
  [.addPoint2 1.0 0.0, .addPoint2 0.0 1.0, .addPoint2 0.0 0.0,
   .constrainAngleBetweenPoints 0 1 2 (3.141592653589793 / 4.0), .checkGradients 1e-6 0 1e-6, gd]
#guard lossBelow 0 0.001 <| runOk
  [.addPoint2 0.7805516932908316 (-0.00782612334736288), .addPoint2 1.22103191002294 0.004601914768224987,
   .addPoint2 0.013589691730458502 (-0.10039941813640837),
   .constrainAngleBetweenPoints 0 1 2 (3.141592653589793 / 2.0), .checkGradients 1e-6 0 1e-4, gd]
-- `test_arc_end_point_coincident`, `test_arc_start_point_coincident`
#guard (match runOk
  [.addPoint2 0.0 0.0, .addArc 0 1.0 false 0.0 3.141592653589793, .addPoint2 3.0 4.0, .addPoint2 5.0 6.0, .addLine 1 2,
   .newCons (.arcEnd 0 1), .addConstraint 0, .checkGradients 1e-6 0 1e-5, gd] with
  | some w => near w 1 ((w.heap.arcs 0).endPoint w.heap).x ((w.heap.arcs 0).endPoint w.heap).y 1e-6
  | none => false)
#guard (match runOk
  [.addPoint2 0.0 0.0, .addArc 0 1.0 false 0.0 3.141592653589793, .addPoint2 3.0 4.0, .addPoint2 5.0 6.0, .addLine 1 2,
   .newCons (.arcStart 0 2), .addConstraint 0, .checkGradients 1e-6 0 1e-5, gd] with
  | some w => near w 2 ((w.heap.arcs 0).startPoint w.heap).x ((w.heap.arcs 0).startPoint w.heap).y 1e-6
  | none => false)

def twoLines (a b c d e f g i : Float) : List (Op Float) :=
  [.newPoint a b, .newPoint c d, .newLine 0 1, .addPrimitive (.point 0), .addPrimitive (.point 1), .addPrimitive (.line 0),
   .newPoint e f, .newPoint g i, .newLine 2 3, .addPrimitive (.point 2), .addPrimitive (.point 3), .addPrimitive (.line 1)]

-- `test_equal_length`, `test_parallel_line`, `test_perpendicular_line`, `test_horizontal_line`, `test_vertical_line`
#guard lossBelow 0 0.001 <| runOk <| twoLines 3.0 4.0 5.0 6.0 0.0 4.0 10.0 6.0 ++
  [.newCons (.eqLen 0 1), .addConstraint 0, .checkGradients 1e-6 0 1e-6, gd]
#guard lossBelow 0 0.001 <| runOk <| twoLines 3.0 4.0 5.0 6.0 0.0 4.0 5.0 6.0 ++
  [.newCons (.parallel 0 1), .addConstraint 0, .checkGradients 1e-6 0 1e-6, gd]
#guard lossBelow 0 0.01 <| runOk <| twoLines 3.0 4.0 5.0 6.0 0.0 4.0 5.0 6.0 ++
  [.newCons (.perp 0 1), .addConstraint 0, .checkGradients 1e-6 0 1e-6, gd]
#guard lossBelow 0 1e-12 <| runOk
  [.addPoint2 3.0 4.0, .addPoint2 5.0 6.0, .addLine 0 1, .newCons (.horizLine 0), .addConstraint 0,
   .checkGradients 1e-6 0 1e-6, gd]
#guard lossBelow 0 1e-12 <| runOk
  [.addPoint2 3.0 4.0, .addPoint2 5.0 6.0, .addLine 0 1, .newCons (.vertLine 0), .addConstraint 0,
   .checkGradients 1e-6 0 1e-6, gd]

-- `test_rectangle_axis_aligned` (src/examples/test_rectangle_axis_aligned.rs)
#guard (match runOk
  ([.newPoint 0.0 0.0, .newPoint 0.0 0.0, .newPoint 0.0 0.0, .newPoint 0.0 0.0,
    .addPrimitive (.point 0), .addPrimitive (.point 1), .addPrimitive (.point 2), .addPrimitive (.point 3),
    .newLine 0 1, .newLine 1 2, .newLine 2 3, .newLine 3 0,
    .addPrimitive (.line 0), .addPrimitive (.line 1), .addPrimitive (.line 2), .addPrimitive (.line 3),
    .newCons (.fix 0 ⟨0.0, 0.0⟩), .addConstraint 0, .newCons (.horizLine 0), .addConstraint 1,
    .newCons (.horizLine 2), .addConstraint 2, .newCons (.vertLine 1), .addConstraint 3,
    .newCons (.vertLine 3), .addConstraint 4, .newCons (.horizDist 0 1 2.0), .addConstraint 5,
    .newCons (.vertDist 0 3 3.0), .addConstraint 6, bfgs]) with
  | some w => near w 0 0.0 0.0 1e-8 && near w 1 2.0 0.0 1e-8 && near w 2 2.0 3.0 1e-8 && near w 3 0.0 3.0 1e-8
  | none => false)

/-- `RotatedRectangleDemo::new` (src/examples/test_rectangle_rotated.rs:25-81) -/
def rotated : List (Op Float) :=
  [.addPoint2 0.0 0.1, .addPoint2 0.3 0.0, .addPoint2 0.3 0.3, .addPoint2 0.1 0.3, .addPoint2 1.0 0.0,
   .addLine 0 1, .addLine 1 2, .addLine 2 3, .addLine 3 0,
   .constrainFixPoint 0 ⟨0.0, 0.0⟩, .constrainPerpendicularLines 0 1, .constrainPerpendicularLines 1 2,
   .constrainPerpendicularLines 2 3, .constrainDistanceEuclidean 0 1 2.0, .constrainDistanceEuclidean 0 3 3.0,
   .constrainFixPoint 4 ⟨1.0, 0.0⟩, .constrainAngleBetweenPoints 4 1 0 (3.141592653589793 / 4.0)]

/-- `RotatedRectangleDemo::check` (src/examples/test_rectangle_rotated.rs:83-149) -/
def checkRotated (eps : Float) (w : Option W) : Bool :=
  match w with
  | none => false
  | some w =>
    let s2 : Float := Float.sqrt 2.0
    let h : Float := s2 / 2.0
    let b := (w.heap.points 1).data
    let c := (w.heap.points 2).data
    near w 4 1.0 0.0 eps && near w 0 0.0 0.0 eps &&
    (if b.y < 0.0 then
      near w 1 s2 (-s2) eps &&
      (if c.y < b.y then near w 2 (-h) (-5.0 * h) eps && near w 3 (-3.0 * h) (-3.0 * h) eps
       else near w 2 (5.0 * h) h eps && near w 3 (3.0 * h) (3.0 * h) eps)
    else
      near w 1 s2 s2 eps &&
      (if c.y > b.y then near w 2 (-h) (5.0 * h) eps && near w 3 (-3.0 * h) (3.0 * h) eps
       else near w 2 (5.0 * h) (-h) eps && near w 3 (3.0 * h) (-3.0 * h) eps))

-- `test_bfgs_solver`, `test_rectangle_rotated`
#guard checkRotated 1e-5 (runOk (rotated ++ [bfgs]))
-- `test_levenberg_marquardt_solver`
#guard checkRotated 1e-1 (runOk (rotated ++ [.solve (.lm ⟨1000, 1e-10, 1e-1, 1e-6, 1e-5⟩)]))

def poly (pts : List (Float × Float)) (lines : List (Nat × Nat)) : Option W :=
  runOk (pts.map (fun p => .addPoint2 p.1 p.2) ++ lines.map (fun l => .addLine l.1 l.2))

-- `test_find_rings_none`
#guard (match poly [(0, 0), (1, 0), (1, 1)] [(0, 1), (1, 2)] with
  | some w => (findRings w.heap w.sketch).1.length == 0 && (findRings w.heap w.sketch).2.length == 2
  | none => false)
-- `test_find_rings_one`
#guard (match poly [(0, 0), (1, 0), (1, 1)] [(0, 1), (1, 2), (2, 0)] with
  | some w => (findRings w.heap w.sketch).1.length == 1 && (findRings w.heap w.sketch).2.length == 0
  | none => false)
-- `test_find_rings_multiple`
#guard (match poly [(-1, 0), (0, 1), (1, 0), (0, -1), (2, 0), (3, 0)]
    [(0, 1), (1, 2), (2, 3), (3, 0), (1, 4), (4, 3), (1, 5), (5, 3)] with
  | some w =>
    (findRings w.heap w.sketch).2.length == 0 &&
    (findRings w.heap w.sketch).1.map (fun r => (r.asPolygon w.heap).exterior) ==
      [[(0, 1), (1, 0), (0, -1), (2, 0), (0, 1)], [(0, 1), (2, 0), (0, -1), (3, 0), (0, 1)],
       [(0, 1), (-1, 0), (0, -1), (1, 0), (0, 1)]]
  | none => false)

-- `test_references_have_to_be_added_beforehand`, `test_primitive_cannot_be_added_twice`,
-- `test_constraint_references_have_to_be_added_beforehand`, `test_constraint_cannot_be_added_twice`
#guard (runOk [.newPoint 0.0 0.0, .newArc 0 1.0 true 0.0 1.0, .addPrimitive (.arc 0)]).isNone
#guard (runOk [.newPoint 0.0 0.0, .addPrimitive (.point 0), .addPrimitive (.point 0)]).isNone
#guard (runOk [.newPoint 0.0 0.0, .newArc 0 1.0 true 0.0 1.0, .addPrimitive (.point 0), .newCons (.arcEnd 0 0),
  .addConstraint 0]).isNone
#guard (runOk [.addPoint2 0.0 0.0, .addArc 0 1.0 true 0.0 1.0, .newCons (.arcEnd 0 0), .addConstraint 0,
  .addConstraint 0]).isNone
-- `test_data_and_grad_functions`
#guard (runOk (rotated ++ [.getGradient, .getJacobian])).isSome
-- `test_zero_vec_normalized_does_not_panic`
#guard ((Vec2.zeros : Vec2 Float).normalize).x.isNaN && ((Vec2.zeros : Vec2 Float).normalize).y.isNaN

end Isotope.Test
