import Verif.SpecLeft

/-!
# Vocabulary of the property statements about adding lines and points to a drawing
-/

namespace Isotope

/-- Seen from the corner `p` of the polygon `vs`, the point `q` lies inside the corner: turning left from the side that arrives at `p`,
one comes first to the side that leaves `p` and then to `q`. -/
def PointsInto (vs : List (ℝ × ℝ)) (p q : ℝ × ℝ) : Prop :=
  ∀ a c, (a, p) ∈ edges vs → (p, c) ∈ edges vs → leftTurn a p c < leftTurn a p q

/-- a strictly convex polygon, counter-clockwise: any three corners form a counter-clockwise triangle -/
def ConvexAround (vs : List (ℝ × ℝ)) : Prop :=
  3 ≤ vs.length ∧ ∀ x y z : ℝ × ℝ, [x, y, z].Sublist vs → 0 < (y.1 - x.1) * (z.2 - x.2) - (z.1 - x.1) * (y.2 - x.2)

open Classical in
/-- the polygon `vs` with the point `m` put in between the neighbours `a` and `b`, if it has the side from `a` to `b` or from `b` to `a` -/
noncomputable def withPoint (a b m : ℝ × ℝ) (vs : List (ℝ × ℝ)) : List (ℝ × ℝ) :=
  (edges vs).flatMap (fun e => if e = (a, b) ∨ e = (b, a) then [e.1, m] else [e.1])

/-- `m` lies on the line from `a` to `b`, strictly between its ends -/
def Between (a b m : ℝ × ℝ) : Prop :=
  ∃ t : ℝ, 0 < t ∧ t < 1 ∧ m = (a.1 + t * (b.1 - a.1), a.2 + t * (b.2 - a.2))

end Isotope
