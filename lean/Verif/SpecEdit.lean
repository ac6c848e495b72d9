import Verif.SpecNearest
import Verif.Model.Setters

/-!
# Vocabulary: editing the desired values of constraints
-/

namespace Isotope

/-- the constraint `c'` is `c` with other desired values -/
def Redimensioned (c c' : Constraint XR) : Prop :=
  c' = c ∨ (∃ d, c.setDesired d = some c') ∨ ∃ d, c.setDesiredPos d = some c'

/-- the heaps differ only in desired values of constraints -/
structure EditedTo (h h' : Heap XR) : Prop where
  points : h'.points = h.points
  lines : h'.lines = h.lines
  arcs : h'.arcs = h.arcs
  circles : h'.circles = h.circles
  cons : ∀ k, Redimensioned (h.cons k) (h'.cons k)

/-- the sum of the squares of the changes of the desired values of a constraint -/
def editSq (c c' : Constraint XR) : ℝ := (List.zipWith (fun a b : XR => (b.toReal - a.toReal) ^ 2) (consParams c) (consParams c')).sum

/-- how far the desired values in a sketch have been changed: the root of the sum of the squares -/
noncomputable def editSize (h h' : Heap XR) (s : Sketch) : ℝ := Real.sqrt (s.cons.map fun k => editSq (h.cons k) (h'.cons k)).sum

/-- the distance between two lists of coordinates -/
noncomputable def dist2 {n : Nat} (x z : Fin n → ℝ) : ℝ := Real.sqrt (distSq x z)

end Isotope
