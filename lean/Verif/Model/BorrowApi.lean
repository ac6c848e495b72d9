import Verif.Model.Borrow

/-!
# Client programs with dynamic borrow checking

`bstep` is `step` (`Verif.Model.Api`) over the instrumented functions of `Verif.Model.Borrow`; `brun` runs a list of
calls and queries.  A client that catches a panic goes on with the state the unwinding left behind.
-/

namespace Isotope
variable {F : Type}

/-- read-only calls -/
inductive Query (F : Type) where
  | getNDofs
  | getData
  | getLoss
  | getLossPerConstraint
  | getAllPoints
  | getFaces (g : Geo F)
  | getMergedFaces (g : Geo F)

/-- their results -/
inductive QOut (F : Type) where
  | nat (n : Nat)
  | num (x : F)
  | vec (v : List F)
  | points (l : List (Nat × Point2 F))
  | faces (l : List (Face F))
  | panic

/-- `Rc::new(RefCell::new(..))` and other heap changes that touch no existing cell: a new cell is not borrowed -/
def allocB (g : Heap F → Nat × Heap F) : B F Nat := fun s => .ok (g s.heap).1 ⟨(g s.heap).2, s.flags⟩

section
variable [Num F]

/-- a query, uninstrumented -/
def ask (h : Heap F) (s : Sketch) : Query F → QOut F
  | .getNDofs => .nat (Isotope.getNDofs h s)
  | .getData => .vec (Isotope.getData h s)
  | .getLoss => .num (Isotope.getLoss h s)
  | .getLossPerConstraint => .vec (Isotope.getLossPerConstraint h s)
  | .getAllPoints => .points (Isotope.getAllPoints h s)
  | .getFaces g => .faces (Isotope.getFaces g h s)
  | .getMergedFaces g =>
    match Isotope.getMergedFaces g h s with
    | none => .panic
    | some l => .faces l

/-- a query, instrumented -/
def bask (s : Sketch) : Query F → B F (QOut F)
  | .getNDofs => do return .nat (← bNDofs s)
  | .getData => do return .vec (← bGetData s)
  | .getLoss => do return .num (← bGetLoss s)
  | .getLossPerConstraint => do return .vec (← bGetLossPerConstraint s)
  | .getAllPoints => do return .points (← bGetAllPoints s.prims)
  | .getFaces g => do return .faces (← bGetFaces g s)
  | .getMergedFaces g => do return .faces (← bGetMergedFaces g s)

/-- `add_point2`, `add_line`, `add_arc` (`src/sketch/mod.rs:54-87`): a new cell, then `add_primitive` -/
def bAddNew (s : Sketch) (g : Heap F → Nat × Heap F) (cell : Nat → PrimCell) : B F (Out F × Sketch) := do
  let a ← allocB g
  match ← bAddPrimitive s (cell a) with
  | (.error e, s') => return (.err e, s')
  | (.ok _, s') => return (.addr a, s')

/-- `constrain_*` (`mod.rs:89-151`): the assertions of the constructor, a new cell, then `add_constraint` -/
def bConstrain (s : Sketch) (c : Constraint F) : B F (Out F × Sketch) := do
  assertB (consNewOk c)
  let a ← allocB (fun h => h.allocCons c)
  match ← bAddConstraint s a with
  | (.error e, s') => return (.err e, s')
  | (.ok _, s') => return (.addr a, s')

/-- one state-changing call -/
def bstep (pinv : PInv F) (s : Sketch) (op : Op F) : B F (Out F × Sketch) := do
  let h ← heapB
  if !op.live ⟨h, s⟩ then return (.illTyped, s)
  else
    match op with
    | .newPoint x y => return (.addr (← allocB (fun h => h.allocPoint (Point2.new x y))), s)
    | .newLine a e => return (.addr (← allocB (fun h => h.allocLine ⟨a, e⟩)), s)
    | .newArc c r cw sa ea => return (.addr (← allocB (fun h => h.allocArc (Arc.new c r cw sa ea))), s)
    | .newCircle c r => return (.addr (← allocB (fun h => h.allocCircle (Circle.new c r))), s)
    | .newCons c => do
      assertB (consNewOk c)
      return (.addr (← allocB (fun h => h.allocCons c)), s)
    | .writePoint a p => do
      withExcl (.prim (.point a)) (effB (fun h => .ok (h.setPoint a p)))
      return (.unit, s)
    | .writeLine a l => do
      withExcl (.prim (.line a)) (effB (fun h => .ok (h.setLine a l)))
      return (.unit, s)
    | .writeArc a x => do
      withExcl (.prim (.arc a)) (effB (fun h => .ok (h.setArc a x)))
      return (.unit, s)
    | .writeCircle a x => do
      withExcl (.prim (.circle a)) (effB (fun h => .ok (h.setCircle a x)))
      return (.unit, s)
    | .writeCons a c => do
      withExcl (.cons a) (effB (fun h => .ok (h.setCons a c)))
      return (.unit, s)
    | .addPrimitive p => do
      match ← bAddPrimitive s p with
      | (.error e, s') => return (.err e, s')
      | (.ok n, s') => return (.id n, s')
    | .addPoint2 x y => bAddNew s (fun h => h.allocPoint (Point2.new x y)) .point
    | .addLine a e => bAddNew s (fun h => h.allocLine ⟨a, e⟩) .line
    | .addArc c r cw sa ea => bAddNew s (fun h => h.allocArc (Arc.new c r cw sa ea)) .arc
    | .addConstraint c => do
      match ← bAddConstraint s c with
      | (.error e, s') => return (.err e, s')
      | (.ok _, s') => return (.unit, s')
    | .constrainPerpendicularLines l1 l2 => bConstrain s (.perp l1 l2)
    | .constrainParallelLines l1 l2 => bConstrain s (.parallel l1 l2)
    | .constrainDistanceEuclidean p1 p2 d => bConstrain s (.euclid p1 p2 d)
    | .constrainFixPoint p pos => bConstrain s (.fix p pos)
    | .constrainAngleBetweenPoints p1 p2 m a => bConstrain s (.angle p1 p2 m a)
    | .deletePrimitive id =>
      match s.deletePrimitive id with
      | (.error e, s') => return (.err e, s')
      | (.ok _, s') => return (.unit, s')
    | .deleteConstraint c =>
      match s.deleteConstraint c with
      | (.error e, s') => return (.err e, s')
      | (.ok _, s') => return (.unit, s')
    | .setData d => do
      bSetData s d
      return (.unit, s)
    | .getGradient => do return (.vec (← bGetGradient s), s)
    | .getJacobian => do return (.mat (← bGetJacobian s), s)
    | .checkGradients eps c ce => do
      bCheckGradients s eps c ce
      return (.unit, s)
    | .solve k => do return (.solved (← bRunSolver pinv k s), s)

/-- one thing a client does -/
inductive Act (F : Type) where
  | op (o : Op F)
  | query (q : Query F)

/-- what it observes -/
inductive Obs (F : Type) where
  | op (o : Out F)
  | query (o : QOut F)

/-- the uninstrumented client program -/
def play (pinv : PInv F) (w : World F) : List (Act F) → List (Obs F) × World F
  | [] => ([], w)
  | .op o :: as =>
    let r := step pinv w o
    let rest := play pinv r.2 as
    (.op r.1 :: rest.1, rest.2)
  | .query q :: as =>
    let rest := play pinv w as
    (.query (ask w.heap w.sketch q) :: rest.1, rest.2)

/-- the instrumented client program; `none`: a borrow panic happened.  A library panic is caught: the sketch is the one
before the call (no call changes it before it panics), heap and flags are what unwinding left. -/
def bplay (pinv : PInv F) (s : Sketch) (st : BSt F) : List (Act F) → Option (List (Obs F) × Sketch × BSt F)
  | [] => some ([], s, st)
  | .op o :: as =>
    match bstep pinv s o st with
    | .clash => none
    | .ok (out, s') st' => (bplay pinv s' st' as).map (fun r => (.op out :: r.1, r.2))
    | .panic st' => (bplay pinv s st' as).map (fun r => (.op (panicOut o) :: r.1, r.2))
  | .query q :: as =>
    match bask s q st with
    | .clash => none
    | .ok out st' => (bplay pinv s st' as).map (fun r => (.query out :: r.1, r.2))
    | .panic st' => (bplay pinv s st' as).map (fun r => (.query .panic :: r.1, r.2))
where
  /-- `step` reports a panicking solver as `solved panic` -/
  panicOut : Op F → Out F
    | .solve _ => .solved .panic
    | _ => .panic

end
end Isotope
