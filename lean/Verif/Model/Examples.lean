import Verif.Model.Api

/-!
# The example sketches and the benchmark

Models `src/examples/test_rectangle_axis_aligned.rs`, `src/examples/test_rectangle_rotated.rs` and
`benches/solvers/{main,stairs_with_lines_benchmark,circle_with_lines_benchmark}.rs`.

`none` is a panic (a failed `unwrap`, an index out of bounds, an arithmetic overflow) or a returned `Err`.  The sources write
`add_primitive(PrimitiveCell::Point2(Rc::new(RefCell::new(Point2::new(x, y)))))` where the model calls `addPoint2`, which does
exactly that (`src/sketch/mod.rs:54-58`); likewise for lines and constraints.  Printing and time measurement are dropped.
-/

namespace Isotope
variable {F : Type}

/-- `.unwrap()` or `?` on the result of an `add_*` or `constrain_*` call -/
def unwrapAddr : Out F × World F → Option (Nat × World F)
  | (.addr a, w) => some (a, w)
  | _ => none

/-- `for i in 0..n` over a loop state, stopping at a panic -/
def forLoop {σ : Type} (body : Nat → σ → Option σ) : Nat → σ → Option σ
  | 0, st => some st
  | n + 1, st => (forLoop body n st).bind (body n)

/-- a benchmark object: the sketch (with the heap it lives in) and `point_references`
(`stairs_with_lines_benchmark.rs:109-112`, `circle_with_lines_benchmark.rs:102-105`) -/
structure Bench (F : Type) where
  world : World F
  points : List Nat

section
variable [Num F]

/-! ## Stairs (`benches/solvers/stairs_with_lines_benchmark.rs`) -/

/-- body of the first loop (`stairs_with_lines_benchmark.rs:37-44`) -/
def stairsPoint (_i : Nat) (st : World F × List Nat) : Option (World F × List Nat) := do
  let (p, w) ← unwrapAddr (addPoint2 st.1 0.0 0.0)
  return (w, st.2 ++ [p])

/-- body of the second loop (`stairs_with_lines_benchmark.rs:53-99`) -/
def stairsStep (points : List Nat) (i : Nat) (w : World F) : Option (World F) := do
  let p ← points[i]?
  let q ← points[i + 1]?
  let (l, w) ← unwrapAddr (addLine w p q)
  if i % 2 = 0 then
    let (_, w) ← unwrapAddr (constrain w (.horizDist p q 0.8))
    let (_, w) ← unwrapAddr (constrain w (.horizLine l))
    return w
  else
    let (_, w) ← unwrapAddr (constrain w (.vertDist p q 0.8))
    let (_, w) ← unwrapAddr (constrain w (.vertLine l))
    return w

/-- `StairsWithLinesBenchmarkFactory::new_benchmark` (`stairs_with_lines_benchmark.rs:33-106`).  For `n = 0` indexing panics
before `n - 1` is computed. -/
def stairsNew (n : Nat) : Option (Bench F) := do
  let (w, points) ← forLoop stairsPoint n (World.init, [])
  let p0 ← points[0]?
  let (_, w) ← unwrapAddr (constrain w (.fix p0 ⟨0.0, 0.0⟩))
  let w ← forLoop (stairsStep points) (n - 1) w
  return ⟨w, points⟩

/-- the test of one point in both `check` functions (`stairs_with_lines_benchmark.rs:117-122`,
`circle_with_lines_benchmark.rs:111-116`): true means the point passes -/
def pointPasses (h : Heap F) (p : Nat) (trueX trueY eps : F) : Bool :=
  !(gt (Num.abs ((h.points p).data.x - trueX)) eps || gt (Num.abs ((h.points p).data.y - trueY)) eps)

/-- `StairsWithLinesBenchmark::check` (`stairs_with_lines_benchmark.rs:115-125`); panics for an empty list -/
def stairsCheck (h : Heap F) (points : List Nat) (eps : F) : Option Bool :=
  if points.length = 0 then none
  else some ((List.range (points.length - 1)).all fun i =>
    pointPasses h (points.getD i 0) (Num.ofNat ((i + 1) / 2) * 0.8) (Num.ofNat (i / 2) * 0.8) eps)

/-! ## Circle (`benches/solvers/circle_with_lines_benchmark.rs`) -/

/-- `circle` (`circle_with_lines_benchmark.rs:18-26`) -/
def circlePoints (n : Nat) : List (Vec2 F) :=
  (List.range n).map fun i => ⟨Num.ofNat ((i + 1) / 2) * 0.8, Num.ofNat (i / 2) * 0.8⟩

/-- nalgebra's `Matrix::angle` (0 if a vector is zero, otherwise the arc cosine of the clamped cosine) -/
def vecAngle (a b : Vec2 F) : F :=
  if (a.norm ==. (0.0 : F)) || (b.norm ==. (0.0 : F)) then 0.0
  else Num.acos (clamp (a.dot b / (a.norm * b.norm)) (-1.0) 1.0)

/-- body of the first loop (`circle_with_lines_benchmark.rs:37-44`) -/
def circlePoint (n i : Nat) (st : World F × List Nat) : Option (World F × List Nat) := do
  let (p, w) ← unwrapAddr (addPoint2 st.1 0.0 (Num.ofNat i / Num.ofNat n))
  return (w, st.2 ++ [p])

/-- body of the second loop (`circle_with_lines_benchmark.rs:46-56`) -/
def circleFix (refs : List (Vec2 F)) (points : List Nat) (i : Nat) (w : World F) : Option (World F) := do
  let p ← points[i]?
  let r ← refs[i]?
  let (_, w) ← unwrapAddr (constrain w (.fix p ⟨r.x, r.y⟩))
  return w

/-- body of the third loop (`circle_with_lines_benchmark.rs:58-93`) -/
def circleStep (n : Nat) (refs : List (Vec2 F)) (points : List Nat) (i : Nat) (w : World F) : Option (World F) := do
  let p ← points[i]?
  let q ← points[i + 1]?
  let (_, w) ← unwrapAddr (addLine w p q)
  let rp ← refs[i]?
  let rq ← refs[i + 1]?
  let (_, w) ← unwrapAddr (constrain w (.euclid p q (rq - rp).norm))
  let rprev ← refs[(i + n - 1) % n]?
  let prev ← points[(i + n - 1) % n]?
  let (_, w) ← unwrapAddr (constrain w (.angle q prev p (vecAngle (rq - rp) (rprev - rp))))
  return w

/-- `CirclesWithLinesBenchmarkFactory::new_benchmark` (`circle_with_lines_benchmark.rs:31-99`).  For `n = 0` the expression
`n - 1` panics in a debug build; in a release build it wraps and the loop panics when it indexes `point_references`. -/
def circleNew (n : Nat) : Option (Bench F) := do
  let refs : List (Vec2 F) := circlePoints n
  let (w, points) ← forLoop (circlePoint n) n (World.init, [])
  let w ← forLoop (circleFix refs points) n w
  if n = 0 then none
  let w ← forLoop (circleStep n refs points) (n - 1) w
  return ⟨w, points⟩

/-- `CirclesWithLinesBenchmark::check` (`circle_with_lines_benchmark.rs:108-119`) -/
def circleCheck (h : Heap F) (points : List Nat) (eps : F) : Bool :=
  (List.range points.length).all fun i =>
    pointPasses h (points.getD i 0) ((circlePoints points.length : List (Vec2 F)).getD i ⟨0.0, 0.0⟩).x
      ((circlePoints points.length : List (Vec2 F)).getD i ⟨0.0, 0.0⟩).y eps

/-- one run of the benchmark: `solver.solve(..).unwrap()`, then `check` and `get_loss` (`benches/solvers/main.rs:83-86`);
the tolerance in the source is `1e-6`, `check` is a method of the benchmark -/
def benchRun (pinv : PInv F) (k : SolverKind F) (check : Heap F → Option Bool) (b : Bench F) : Option (Bool × F) :=
  let o := runSolver pinv k b.world.heap b.world.sketch
  match o.res with
  | .ok => (check o.heap).map fun solved => (solved, getLoss o.heap b.world.sketch)
  | _ => none

/-! ## Rectangles (`src/examples`) -/

/-- four corners and, for the rotated rectangle, the reference point -/
structure Rectangle (F : Type) where
  world : World F
  a : Nat
  b : Nat
  c : Nat
  d : Nat
  ref : Nat

/-- the sketch of `test_rectangle_axis_aligned` (`src/examples/test_rectangle_axis_aligned.rs:24-109`); it has no reference
point, `ref` repeats `a` -/
def axisNew : Option (Rectangle F) := do
  let (a, w) ← unwrapAddr (addPoint2 World.init (0.0 : F) 0.0)
  let (b, w) ← unwrapAddr (addPoint2 w 0.0 0.0)
  let (c, w) ← unwrapAddr (addPoint2 w 0.0 0.0)
  let (d, w) ← unwrapAddr (addPoint2 w 0.0 0.0)
  let (la, w) ← unwrapAddr (addLine w a b)
  let (lb, w) ← unwrapAddr (addLine w b c)
  let (lc, w) ← unwrapAddr (addLine w c d)
  let (ld, w) ← unwrapAddr (addLine w d a)
  let (_, w) ← unwrapAddr (constrain w (.fix a ⟨0.0, 0.0⟩))
  let (_, w) ← unwrapAddr (constrain w (.horizLine la))
  let (_, w) ← unwrapAddr (constrain w (.horizLine lc))
  let (_, w) ← unwrapAddr (constrain w (.vertLine lb))
  let (_, w) ← unwrapAddr (constrain w (.vertLine ld))
  let (_, w) ← unwrapAddr (constrain w (.horizDist a b 2.0))
  let (_, w) ← unwrapAddr (constrain w (.vertDist a d 3.0))
  return ⟨w, a, b, c, d, a⟩

/-- `(point.borrow().data() - Vector2::new(x, y)).norm()` -/
def distTo (h : Heap F) (p : Nat) (x y : F) : F := ((h.points p).data - ⟨x, y⟩).norm

/-- the four assertions of the test (`test_rectangle_axis_aligned.rs:121-124`) -/
def axisAsserts (r : Rectangle F) (h : Heap F) : Bool :=
  (distTo h r.a 0.0 0.0 <. (1e-8 : F)) && (distTo h r.b 2.0 0.0 <. (1e-8 : F)) &&
  (distTo h r.c 2.0 3.0 <. (1e-8 : F)) && (distTo h r.d 0.0 3.0 <. (1e-8 : F))

/-- `RotatedRectangleDemo::new` (`src/examples/test_rectangle_rotated.rs:25-82`); `f64::to_radians(45.0)` is
`45.0 * (PI / 180.0)` -/
def rotatedNew : Option (Rectangle F) := do
  let (a, w) ← unwrapAddr (addPoint2 World.init (0.0 : F) 0.1)
  let (b, w) ← unwrapAddr (addPoint2 w 0.3 0.0)
  let (c, w) ← unwrapAddr (addPoint2 w 0.3 0.3)
  let (d, w) ← unwrapAddr (addPoint2 w 0.1 0.3)
  let (ref, w) ← unwrapAddr (addPoint2 w 1.0 0.0)
  let (la, w) ← unwrapAddr (addLine w a b)
  let (lb, w) ← unwrapAddr (addLine w b c)
  let (lc, w) ← unwrapAddr (addLine w c d)
  let (ld, w) ← unwrapAddr (addLine w d a)
  let (_, w) ← unwrapAddr (constrain w (.fix a ⟨0.0, 0.0⟩))
  let (_, w) ← unwrapAddr (constrain w (.perp la lb))
  let (_, w) ← unwrapAddr (constrain w (.perp lb lc))
  let (_, w) ← unwrapAddr (constrain w (.perp lc ld))
  let (_, w) ← unwrapAddr (constrain w (.euclid a b 2.0))
  let (_, w) ← unwrapAddr (constrain w (.euclid a d 3.0))
  let (_, w) ← unwrapAddr (constrain w (.fix ref ⟨1.0, 0.0⟩))
  let (_, w) ← unwrapAddr (constrain w (.angle ref b a ((45.0 : F) * (Num.pi / 180.0))))
  return ⟨w, a, b, c, d, ref⟩

/-- `RotatedRectangleDemo::check` (`test_rectangle_rotated.rs:84-153`); `true` is `Ok(())` -/
def rotatedCheck (r : Rectangle F) (h : Heap F) (eps : F) : Bool :=
  let pb := (h.points r.b).data
  let pc := (h.points r.c).data
  let s2 := Num.sqrt (2.0 : F)
  let s22 := s2 / 2.0
  if ge (distTo h r.ref 1.0 0.0) eps then false
  else if ge (distTo h r.a 0.0 0.0) eps then false
  else if pb.y <. (0.0 : F) then
    if ge (distTo h r.b s2 (-s2)) eps then false
    else if pc.y <. pb.y then
      if ge (distTo h r.c (-s22) (-(5.0 : F) * s22)) eps then false
      else if ge (distTo h r.d (-(3.0 : F) * s22) (-(3.0 : F) * s22)) eps then false
      else true
    else
      if ge (distTo h r.c ((5.0 : F) * s22) s22) eps then false
      else if ge (distTo h r.d ((3.0 : F) * s22) ((3.0 : F) * s22)) eps then false
      else true
  else
    if ge (distTo h r.b s2 s2) eps then false
    else if gt pc.y pb.y then
      if ge (distTo h r.c (-s22) ((5.0 : F) * s22)) eps then false
      else if ge (distTo h r.d (-(3.0 : F) * s22) ((3.0 : F) * s22)) eps then false
      else true
    else
      if ge (distTo h r.c ((5.0 : F) * s22) (-s22)) eps then false
      else if ge (distTo h r.d ((3.0 : F) * s22) (-(3.0 : F) * s22)) eps then false
      else true

end
end Isotope
