import Verif.Model.Api

/-!
# Vocabulary of the property statements

Small definitions used in the statements of the theorems, independent of how the model computes.
-/

namespace Isotope
variable {F : Type}

/-- Everything except coordinates and gradients is the same: which points a line, arc or circle refers to, arc
orientation, all constraint objects, and the set of allocated objects. -/
structure SameRefs (h h' : Heap F) : Prop where
  lines : h'.lines = h.lines
  cons : h'.cons = h.cons
  arcCenter : ∀ a, (h'.arcs a).center = (h.arcs a).center
  arcClockwise : ∀ a, (h'.arcs a).clockwise = (h.arcs a).clockwise
  circleCenter : ∀ a, (h'.circles a).center = (h.circles a).center
  nPoints : h'.nPoints = h.nPoints
  nLines : h'.nLines = h.nLines
  nArcs : h'.nArcs = h.nArcs
  nCircles : h'.nCircles = h.nCircles
  nCons : h'.nCons = h.nCons

/-- Only gradients may differ: same references and the same coordinates for every primitive, in the sketch or not. -/
def GradOnly (h h' : Heap F) : Prop := SameRefs h h' ∧ ∀ c, primData h' c = primData h c

/-- Only coordinates of primitives of the sketch may differ: same references, same gradients, and the same coordinates
for every primitive outside the sketch. -/
def DataOnly (s : Sketch) (h h' : Heap F) : Prop :=
  SameRefs h h' ∧ (∀ c, primGrad h' c = primGrad h c) ∧ ∀ c, c ∉ s.cells → primData h' c = primData h c

/-- Only gradients and coordinates of primitives of the sketch may differ. -/
def MovesOnly (s : Sketch) (h h' : Heap F) : Prop :=
  SameRefs h h' ∧ ∀ c, c ∉ s.cells → primData h' c = primData h c

/-- the heap in which a call ends, by return or by panic -/
def endHeap {α : Type} : Except (Heap F) (α × Heap F) → Heap F
  | .ok r => r.2
  | .error h => h

/-- the heap in which a call without result ends, by return or by panic -/
def endHeap' : Except (Heap F) (Heap F) → Heap F
  | .ok h => h
  | .error h => h

/-! ## Histories -/

/-- the state after the first `t` calls of a history, from program start -/
def stateAt [Num F] (pinv : PInv F) (ops : List (Op F)) (t : Nat) : World F :=
  (run pinv World.init (ops.take t)).2

/-- `Ran pinv ops t op out`: the `t`-th call (from 0) of the history is `op` and it returned `out` -/
def Ran [Num F] (pinv : PInv F) (ops : List (Op F)) (t : Nat) (op : Op F) (out : Out F) : Prop :=
  ops[t]? = some op ∧ (run pinv World.init ops).1[t]? = some out

/-- the primitive a call has put into the sketch, judged from the call and what it returned -/
def added : Op F → Out F → Option PrimCell
  | .addPrimitive p, .id _ => some p
  | .addPoint2 .., .addr a => some (.point a)
  | .addLine .., .addr a => some (.line a)
  | .addArc .., .addr a => some (.arc a)
  | _, _ => none

/-- the id a call has deleted, judged from the call and what it returned -/
def deleted : Op F → Out F → Option Nat
  | .deletePrimitive id, .unit => some id
  | _, _ => none

/-- the primitives added by a log of calls and outputs, in order -/
def addedList (log : List (Op F × Out F)) : List PrimCell := log.filterMap (fun x => added x.1 x.2)
/-- the ids deleted by a log of calls and outputs, in order -/
def deletedList (log : List (Op F × Out F)) : List Nat := log.filterMap (fun x => deleted x.1 x.2)

/-- calls and outputs of a history from program start -/
def logOf [Num F] (pinv : PInv F) (ops : List (Op F)) : List (Op F × Out F) :=
  ops.zip (run pinv World.init ops).1

/-- the primitives stored in the fields of a primitive -/
def primFields (h : Heap F) : PrimCell → List PrimCell
  | .point _ => []
  | .line l => [.point (h.lines l).start, .point (h.lines l).stop]
  | .arc a => [.point (h.arcs a).center]
  | .circle c => [.point (h.circles c).center]

/-- the primitives stored in the fields of a constraint -/
def consFields : Constraint F → List PrimCell
  | .angle p1 p2 mid _ => [.point p1, .point p2, .point mid]
  | .arcEnd a p | .arcStart a p => [.arc a, .point p]
  | .euclid p1 p2 _ | .horizDist p1 p2 _ | .vertDist p1 p2 _ => [.point p1, .point p2]
  | .fix p _ => [.point p]
  | .eqLen l1 l2 | .parallel l1 l2 | .perp l1 l2 => [.line l1, .line l2]
  | .horizLine l | .vertLine l => [.line l]

/-- `references` of a primitive gives what its fields hold -/
@[simp] theorem primRefs_eq (h : Heap F) (p : PrimCell) : primRefs h p = primFields h p := by cases p <;> rfl
/-- `references` of a constraint gives what its fields hold -/
@[simp] theorem consRefs_eq (c : Constraint F) : consRefs c = consFields c := by cases c <;> rfl

/-- every primitive mentioned by a primitive or by a constraint of the sketch is in the sketch -/
def Closed (w : World F) : Prop :=
  (∀ c ∈ w.sketch.cells, ∀ r ∈ primFields w.heap c, r ∈ w.sketch.cells) ∧
  (∀ k ∈ w.sketch.cons, ∀ r ∈ consFields (w.heap.cons k), r ∈ w.sketch.cells)

/-! ## Constraints -/

/-- the desired values stored in a constraint -/
def consParams : Constraint F → List F
  | .angle _ _ _ d => [d]
  | .euclid _ _ d => [d]
  | .horizDist _ _ d => [d]
  | .vertDist _ _ d => [d]
  | .fix _ d => [d.x, d.y]
  | _ => []

/-- the primitives a constraint looks at: those it references and those these reference -/
def consDeps (h : Heap F) (c : Constraint F) : List PrimCell := consFields c ++ (consFields c).flatMap (primFields h)

/-- all numbers a constraint looks at are finite -/
def FiniteCons [Num F] (h : Heap F) (c : Constraint F) : Prop :=
  (∀ p ∈ consDeps h c, ∀ x ∈ primData h p, Num.isFinite x = true) ∧ ∀ x ∈ consParams c, Num.isFinite x = true

/-- all coordinates of the sketch and all parameters of its constraints are finite -/
def FiniteSketch [Num F] (h : Heap F) (s : Sketch) : Prop :=
  (∀ x ∈ getData h s, Num.isFinite x = true) ∧ ∀ k ∈ s.cons, ∀ x ∈ consParams (h.cons k), Num.isFinite x = true

/-! ## Solver runs -/

/-- the step size after the given changes: start with 1.0, multiply by 1.5 (`true`) or 0.5 (`false`) -/
def alphaOf [Num F] (l : List Bool) : F := l.foldl (fun a b => a * (if b then (1.5 : F) else 0.5)) (1.0 : F)

/-- A list of accepted steps leads from `h` to `h'`: nothing but gradients changes between the end of one step and the
start of the next, before the first one and after the last one. -/
def Leads : Heap F → List (StepRec F) → Heap F → Prop
  | h, [], h' => GradOnly h h'
  | h, r :: rs, h' => GradOnly h r.pre ∧ Leads r.post rs h'

/-- Order laws of rounded arithmetic that the monotonicity theorems need.  They hold for IEEE binary64 with
round-to-nearest (`x ≤ y`, `x < y` are false when a side is NaN), and for the exact numbers `XR` (proved in
`Verif/XRLaws.lean`). -/
class FloatLaws (F : Type) [Num F] : Prop where
  /-- `<=` is transitive -/
  le_trans : ∀ x y z : F, (x <=. y) = true → (y <=. z) = true → (x <=. z) = true
  /-- adding something not positive does not increase (if `z` is NaN the first hypothesis fails) -/
  le_of_le_add : ∀ x y z : F, (x <=. y + z) = true → ((0.0 : F) <. z) = false → (x <=. y) = true
  /-- positive times something not `>= 0` is not positive -/
  mul_not_pos : ∀ a b : F, ((0.0 : F) <. a) = true → ((0.0 : F) <=. b) = false → ((0.0 : F) <. a * b) = false
  /-- the step sizes of the line search neither underflow nor overflow -/
  alpha_pos : ∀ l : List Bool, l.length < 15 → ((0.0 : F) <. (1e-4 : F) * alphaOf l) = true
  /-- `1.0 * x` is `x` -/
  one_mul : ∀ x : F, (1.0 : F) * x = x
  /-- addition commutes -/
  add_comm : ∀ x y : F, x + y = y + x

end Isotope
