import Verif.Spec
import Verif.XR
import Mathlib.Analysis.InnerProductSpace.PiL2
import Mathlib.Geometry.Euclidean.Angle.Unoriented.Affine
import Mathlib.LinearAlgebra.Matrix.PosDef

/-!
# Vocabulary of the property statements in exact arithmetic
-/

namespace Isotope

/-- a point of the plane -/
noncomputable def pt (x y : ℝ) : EuclideanSpace ℝ (Fin 2) := !₂[x, y]

/-- the point object `p` has the finite coordinates `x`, `y` -/
def PointAt (h : Heap XR) (p : Nat) (x y : ℝ) : Prop := (h.points p).data = ⟨.fin x, .fin y⟩

/-- the arc object `a` has centre `cx`, `cy`, radius `r`, start angle `t0` and end angle `t1`, all finite -/
def ArcAt (h : Heap XR) (a : Nat) (cx cy r t0 t1 : ℝ) : Prop :=
  PointAt h (h.arcs a).center cx cy ∧ (h.arcs a).data = ⟨.fin r, .fin t0, .fin t1⟩

/-- the line object `l` goes from `x1`, `y1` to `x2`, `y2`, all finite -/
def LineAt (h : Heap XR) (l : Nat) (x1 y1 x2 y2 : ℝ) : Prop :=
  PointAt h (h.lines l).start x1 y1 ∧ PointAt h (h.lines l).stop x2 y2

/-- where a point object is, for finite coordinates -/
noncomputable def ptOf (h : Heap XR) (p : Nat) : EuclideanSpace ℝ (Fin 2) :=
  pt (h.points p).data.x.toReal (h.points p).data.y.toReal

/-- a line object whose end points differ -/
def ProperLine (h : Heap XR) (l : Nat) : Prop := ptOf h (h.lines l).start ≠ ptOf h (h.lines l).stop

/-- `q - p` and `r - p` are not parallel -/
def NotCollinear (p q r : EuclideanSpace ℝ (Fin 2)) : Prop :=
  (q 0 - p 0) * (r 1 - p 1) ≠ (q 1 - p 1) * (r 0 - p 0)

/-- The constraint is not in a degenerate position: points with a desired distance are at least `1e-6` apart, the arms of
an angle are longer than `1e-6` and not parallel, lines to be compared have positive length. -/
def Regular (h : Heap XR) : Constraint XR → Prop
  | .angle p1 p2 mid _ => 1e-6 < dist (ptOf h p1) (ptOf h mid) ∧ 1e-6 < dist (ptOf h p2) (ptOf h mid) ∧
      NotCollinear (ptOf h mid) (ptOf h p1) (ptOf h p2)
  | .euclid p1 p2 _ => 1e-6 ≤ dist (ptOf h p1) (ptOf h p2)
  | .eqLen l m => ProperLine h l ∧ ProperLine h m
  | .parallel l m => ProperLine h l ∧ ProperLine h m
  | .perp l m => ProperLine h l ∧ ProperLine h m
  | _ => True

/-- the loss after `set_data(v)` -/
noncomputable def lossAfter (h : Heap XR) (s : Sketch) (v : Fin (getNDofs h s) → ℝ) : ℝ :=
  match setData h s (List.ofFn (fun i => XR.fin (v i))) with
  | .ok h' => (getLoss h' s).toReal
  | .error _ => 0

/-- the `i`-th entry of `get_loss_per_constraint` after `set_data(v)` -/
noncomputable def entryAfter (h : Heap XR) (s : Sketch) (i : Nat) (v : Fin (getNDofs h s) → ℝ) : ℝ :=
  match setData h s (List.ofFn (fun i => XR.fin (v i))) with
  | .ok h' => ((getLossPerConstraint h' s).getD i (.fin 0)).toReal
  | .error _ => 0

/-- the linear form with coefficients `g` -/
noncomputable def linForm {n : Nat} (g : Fin n → ℝ) : (Fin n → ℝ) →L[ℝ] ℝ :=
  ∑ i, g i • ContinuousLinearMap.proj (R := ℝ) (φ := fun _ => ℝ) i

/-- a vector of reals as a `DVector` -/
noncomputable def vec {n : Nat} (v : Fin n → ℝ) : List XR := List.ofFn (fun i => XR.fin (v i))

/-- a matrix of reals as a `DMatrix` -/
noncomputable def mat {n m : Nat} (A : Matrix (Fin n) (Fin m) ℝ) : List (List XR) := List.ofFn (fun i => vec (A i))

/-- What is assumed of nalgebra's `pseudo_inverse` where a theorem needs its result: for a non-empty square matrix of finite
numbers it returns a square matrix of finite numbers of the same size. -/
def GoodPInv (pinv : PInv XR) : Prop :=
  ∀ (n : Nat) (A : Matrix (Fin n) (Fin n) ℝ) (eps : XR), 0 < n → ∃ B : Matrix (Fin n) (Fin n) ℝ, pinv (mat A) eps = .ok (mat B)

/-- Weaker: *if* `pseudo_inverse` of a square matrix of finite numbers returns `Ok`, the result is a square matrix of finite
numbers of the same size. -/
def RealPInv (pinv : PInv XR) : Prop :=
  ∀ (n : Nat) (A : Matrix (Fin n) (Fin n) ℝ) (eps : XR) (m : List (List XR)), pinv (mat A) eps = .ok m →
    ∃ B : Matrix (Fin n) (Fin n) ℝ, m = mat B

/-- half the sum of the squares of the losses after `set_data(v)` -/
noncomputable def halfSquares (h : Heap XR) (s : Sketch) (v : Fin (getNDofs h s) → ℝ) : ℝ :=
  (∑ i ∈ Finset.range s.cons.length, entryAfter h s i v ^ 2) / 2

/-- constraints that ask for a value of one coordinate difference -/
def IsDiff : Constraint XR → Prop
  | .horizDist .. | .vertDist .. | .horizLine _ | .vertLine _ => True
  | _ => False

/-- how far such a constraint is from being satisfied, with sign -/
noncomputable def diffError (h : Heap XR) : Constraint XR → ℝ
  | .horizDist p1 p2 d => ptOf h p2 0 - ptOf h p1 0 - d.toReal
  | .vertDist p1 p2 d => ptOf h p2 1 - ptOf h p1 1 - d.toReal
  | .horizLine l => ptOf h (h.lines l).stop 1 - ptOf h (h.lines l).start 1
  | .vertLine l => ptOf h (h.lines l).stop 0 - ptOf h (h.lines l).start 0
  | _ => 0

/-- the difference as a formal combination of coordinates; `(p, 0)` is the x and `(p, 1)` the y coordinate of point `p` -/
noncomputable def diffForm (h : Heap XR) : Constraint XR → (Nat × Fin 2 →₀ ℝ)
  | .horizDist p1 p2 _ => .single (p2, 0) 1 - .single (p1, 0) 1
  | .vertDist p1 p2 _ => .single (p2, 1) 1 - .single (p1, 1) 1
  | .horizLine l => .single ((h.lines l).stop, 1) 1 - .single ((h.lines l).start, 1) 1
  | .vertLine l => .single ((h.lines l).stop, 0) 1 - .single ((h.lines l).start, 0) 1
  | _ => 0

/-- every constraint of the sketch asks for a coordinate difference, and the differences are linearly independent: no
constraint repeats, or follows from, the others -/
def IndependentDiffs (h : Heap XR) (s : Sketch) : Prop :=
  (∀ k ∈ s.cons, IsDiff (h.cons k)) ∧
  LinearIndependent ℝ (fun i : Fin s.cons.length => diffForm h (h.cons (s.cons.get i)))

/-- whenever `pseudo_inverse` is applied to `JᵀJ` of the sketch in heap `h`, what it returns is a generalised inverse -/
def InvertsAt (pinv : PInv XR) (eps : XR) (h : Heap XR) (s : Sketch) : Prop :=
  ∀ (n m : Nat) (J : Matrix (Fin n) (Fin m) ℝ) (h' : Heap XR) (P : Matrix (Fin m) (Fin m) ℝ),
    getJacobian h s = .ok (mat J, h') → pinv (mat (J.transpose * J)) eps = .ok (mat P) →
    J.transpose * J * P * (J.transpose * J) = J.transpose * J

end Isotope
