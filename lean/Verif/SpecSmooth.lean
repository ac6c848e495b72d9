import Verif.SpecReal
import Mathlib.Data.Matrix.Mul

/-!
# Vocabulary for statements about gradient descent far from a solution
-/

namespace Isotope

open Matrix in
/-- At the positions with loss at most `L` no constraint is degenerate, and the gradient changes at most `M` times as fast as the
position. -/
structure SmoothBelow (h : Heap XR) (s : Sketch) (L M : ℝ) : Prop where
  regular : ∀ (v : Fin (getNDofs h s) → ℝ) (h' : Heap XR), lossAfter h s v ≤ L → setData h s (vec v) = .ok h' →
    ∀ k ∈ s.cons, Regular h' (h'.cons k)
  lip : ∀ v w g g' : Fin (getNDofs h s) → ℝ, lossAfter h s v ≤ L → lossAfter h s w ≤ L →
    HasFDerivAt (lossAfter h s) (linForm g) v → HasFDerivAt (lossAfter h s) (linForm g') w →
    (g - g') ⬝ᵥ (g - g') ≤ M ^ 2 * ((v - w) ⬝ᵥ (v - w))

open Matrix in
/-- At the positions with loss at most `L` the square of the gradient is at least `2 * mu` times the loss. -/
def SteepBelow (h : Heap XR) (s : Sketch) (L mu : ℝ) : Prop :=
  ∀ v g : Fin (getNDofs h s) → ℝ, lossAfter h s v ≤ L → HasFDerivAt (lossAfter h s) (linForm g) v →
    2 * mu * lossAfter h s v ≤ g ⬝ᵥ g

/-- the sum of the squares of what `get_gradient` returns -/
noncomputable def slopeSq (h : Heap XR) (s : Sketch) : ℝ :=
  match getGradient h s with
  | .ok (g, _) => (g.map (fun x => x.toReal ^ 2)).sum
  | .error _ => 0

/-! ## Sketches made of distances and fixed points -/

/-- constraints between at most two points: fixed points, horizontal, vertical and Euclidean distances, horizontal and vertical lines -/
def IsPlain : Constraint XR → Prop
  | .fix .. | .horizDist .. | .vertDist .. | .horizLine _ | .vertLine _ | .euclid .. => True
  | _ => False

/-- the points such a constraint is about -/
def ends (h : Heap XR) : Constraint XR → List Nat
  | .fix p _ => [p]
  | .horizDist p1 p2 _ => [p2, p1]
  | .vertDist p1 p2 _ => [p2, p1]
  | .horizLine l => [(h.lines l).stop, (h.lines l).start]
  | .vertLine l => [(h.lines l).stop, (h.lines l).start]
  | .euclid p1 p2 _ => [p1, p2]
  | _ => []

/-- Every constraint of the list is about a point that no earlier one is about, and its points are different. -/
def Grown (h : Heap XR) (ks : List Nat) : Prop :=
  ∀ pre k post, ks = pre ++ k :: post → (ends h (h.cons k)).Nodup ∧
    ∃ p ∈ ends h (h.cons k), ∀ j ∈ pre, p ∉ ends h (h.cons j)

/-- The constraints can be put in an order in which each brings in a new point: the graph of the points, joined by the constraints,
has no circuits, also not through fixed points. -/
def IsForest (h : Heap XR) (s : Sketch) : Prop :=
  (∀ k ∈ s.cons, IsPlain (h.cons k)) ∧ ∃ ks, ks.Perm s.cons ∧ Grown h ks

/-- A desired Euclidean distance is so large that points with a loss of at most `L` are at least `r` apart. -/
def RoomFor (r L : ℝ) : Constraint XR → Prop
  | .euclid _ _ d => r ≤ d.toReal ∧ 2 * L ≤ (d.toReal - r) ^ 2
  | _ => True

/-- how fast the gradient of a constraint changes at most, if points with a desired distance are at least `r` apart -/
noncomputable def stiffness (r : ℝ) : Constraint XR → ℝ
  | .euclid _ _ d => 2 * (1 + d.toReal / r)
  | _ => 2

end Isotope
