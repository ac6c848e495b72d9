import Verif.SpecStill
import Verif.XR

/-!
# Vocabulary: turning a sketch about a point
-/

namespace Isotope

/-- The part of a primitive in turning the sketch about the point `(u, v)` when the heap `h` becomes `h'`: for a point the cross product of its
place, seen from `(u, v)`, and its movement, for an arc the changes of its two angles. -/
noncomputable def primTurn (u v : ℝ) (h h' : Heap XR) : PrimCell → ℝ
  | .point a => ((h.points a).data.x.toReal - u) * ((h'.points a).data.y.toReal - (h.points a).data.y.toReal) -
      ((h.points a).data.y.toReal - v) * ((h'.points a).data.x.toReal - (h.points a).data.x.toReal)
  | .arc a => ((h'.arcs a).data.a1.toReal - (h.arcs a).data.a1.toReal) + ((h'.arcs a).data.a2.toReal - (h.arcs a).data.a2.toReal)
  | .line _ => 0
  | .circle _ => 0

/-- the sum over all primitives of the sketch -/
noncomputable def turning (s : Sketch) (u v : ℝ) (h h' : Heap XR) : ℝ := (s.cells.map (primTurn u v h h')).sum

/-- The turning force about `(u, v)` on a primitive, by the gradients in `h`: for a point the cross product of its place, seen from `(u, v)`, and
its gradient, for an arc the gradients of its two angles. -/
noncomputable def primTorque (u v : ℝ) (h : Heap XR) : PrimCell → ℝ
  | .point a => ((h.points a).data.x.toReal - u) * (h.points a).grad.y.toReal - ((h.points a).data.y.toReal - v) * (h.points a).grad.x.toReal
  | .arc a => (h.arcs a).grad.a1.toReal + (h.arcs a).grad.a2.toReal
  | .line _ => 0
  | .circle _ => 0

/-- The constraint does not refer to a place or to a direction of the plane. -/
def Undirected (c : Constraint XR) : Prop :=
  (∀ p d, c ≠ .fix p d) ∧ (∀ p q d, c ≠ .horizDist p q d) ∧ (∀ p q d, c ≠ .vertDist p q d) ∧ (∀ l, c ≠ .horizLine l) ∧ ∀ l, c ≠ .vertLine l

/-- The constraint does not refer to a place or to a direction, or fixes a point which is at `(u, v)`. -/
def HoldsAt (u v : ℝ) (h : Heap XR) (c : Constraint XR) : Prop :=
  Undirected c ∨ ∃ p d, c = .fix p d ∧ (h.points p).data.x.toReal = u ∧ (h.points p).data.y.toReal = v

end Isotope
