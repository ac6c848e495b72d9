import Verif.SpecReal

/-!
# Vocabulary: constraints that share no coordinate
-/

namespace Isotope

/-- the coordinates a constraint between points and lines depends on; `(p, 0)` is the x and `(p, 1)` the y coordinate of point `p` -/
def coordsUsed (h : Heap XR) : Constraint XR → List (Nat × Fin 2)
  | .fix p _ => [(p, 0), (p, 1)]
  | .euclid p1 p2 _ => [(p1, 0), (p1, 1), (p2, 0), (p2, 1)]
  | .horizDist p1 p2 _ => [(p1, 0), (p2, 0)]
  | .vertDist p1 p2 _ => [(p1, 1), (p2, 1)]
  | .horizLine l => [((h.lines l).start, 1), ((h.lines l).stop, 1)]
  | .vertLine l => [((h.lines l).start, 0), ((h.lines l).stop, 0)]
  | .eqLen l m => [((h.lines l).start, 0), ((h.lines l).start, 1), ((h.lines l).stop, 0), ((h.lines l).stop, 1),
      ((h.lines m).start, 0), ((h.lines m).start, 1), ((h.lines m).stop, 0), ((h.lines m).stop, 1)]
  | _ => []

/-- no coordinate is used by two constraints of the sketch, or twice by one -/
def NoSharing (h : Heap XR) (s : Sketch) : Prop := (s.cons.flatMap fun k => coordsUsed h (h.cons k)).Nodup

/-- a point is to be at a place -/
def FixOnly (_ : Heap XR) : Constraint XR → Prop
  | .fix .. => True
  | _ => False

/-- A difference of coordinates or a distance is asked for; in the second case the points are neither (nearly) in the same place nor
more than twice as far from each other as desired. -/
def PairOnly (h : Heap XR) : Constraint XR → Prop
  | .horizDist .. | .vertDist .. | .horizLine _ | .vertLine _ => True
  | .euclid p1 p2 d => 1e-6 ≤ dist (ptOf h p1) (ptOf h p2) ∧ 1e-6 ≤ d.toReal ∧ dist (ptOf h p1) (ptOf h p2) ≤ 2 * d.toReal
  | _ => False

/-- two lines, neither of length 0, are to be of equal length -/
def LengthOnly (h : Heap XR) : Constraint XR → Prop
  | .eqLen l m => ProperLine h l ∧ ProperLine h m
  | _ => False

/-- All constraints are of one of the three sorts.  `lam` is the number of coordinates (of points on a line through them) that share
the error: 1 if a point is to be at a place, 2 for a distance, 4 for two lengths. -/
def OneSort (h : Heap XR) (s : Sketch) (lam : ℝ) : Prop :=
  (lam = 1 ∧ ∀ k ∈ s.cons, FixOnly h (h.cons k)) ∨ (lam = 2 ∧ ∀ k ∈ s.cons, PairOnly h (h.cons k)) ∨
    (lam = 4 ∧ ∀ k ∈ s.cons, LengthOnly h (h.cons k))

end Isotope
