import Verif.SpecTorque

/-!
# Vocabulary: the spread of a sketch
-/

namespace Isotope

/-- the square of the distance of a point from `(u, v)`; other primitives have no place of their own -/
noncomputable def primSpread (u v : ℝ) (h : Heap XR) : PrimCell → ℝ
  | .point a => ((h.points a).data.x.toReal - u) ^ 2 + ((h.points a).data.y.toReal - v) ^ 2
  | _ => 0

/-- The spread of the sketch about `(u, v)`: the sum of the squares of the distances of all its points from there. -/
noncomputable def spreadAbout (s : Sketch) (u v : ℝ) (h : Heap XR) : ℝ := (s.cells.map (primSpread u v h)).sum

/-- the square of the way a point goes when `h` becomes `h'` -/
noncomputable def primWalk (h h' : Heap XR) : PrimCell → ℝ
  | .point a => ((h'.points a).data.x.toReal - (h.points a).data.x.toReal) ^ 2 + ((h'.points a).data.y.toReal - (h.points a).data.y.toReal) ^ 2
  | _ => 0

/-- the sum of the squares of the ways of all points of the sketch -/
noncomputable def walkSq (s : Sketch) (h h' : Heap XR) : ℝ := (s.cells.map (primWalk h h')).sum

/-- the square of the distance of two points -/
noncomputable def primApart (h : Heap XR) : PrimCell → PrimCell → ℝ
  | .point a, .point b => ((h.points a).data.x.toReal - (h.points b).data.x.toReal) ^ 2 +
      ((h.points a).data.y.toReal - (h.points b).data.y.toReal) ^ 2
  | _, _ => 0

/-- the sum of the squares of the distances of all pairs of points of the sketch -/
noncomputable def apartSq (s : Sketch) (h : Heap XR) : ℝ := (s.cells.map fun c => (s.cells.map (primApart h c)).sum).sum

/-- The constraint is about directions only, not about sizes or places. -/
def ScaleFree (c : Constraint XR) : Prop :=
  (∃ p q m d, c = .angle p q m d) ∨ (∃ l m, c = .parallel l m) ∨ ∃ l m, c = .perp l m

end Isotope
