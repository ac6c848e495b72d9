import Verif.SpecAlike

/-!
# Vocabulary: the unit of length
-/

namespace Isotope

/-- the constraint in another unit of length: places and distances times `c` -/
noncomputable def Constraint.inUnit (c : ℝ) : Constraint XR → Constraint XR
  | .fix p d => .fix p ⟨.fin c * d.x, .fin c * d.y⟩
  | .euclid p q d => .euclid p q (.fin c * d)
  | .horizDist p q d => .horizDist p q (.fin c * d)
  | .vertDist p q d => .vertDist p q (.fin c * d)
  | k => k

/-- Everything in another unit of length (centimetres instead of metres: `c = 100`): coordinates of points, radii, stored gradients, and
what the constraints ask for. -/
noncomputable def Heap.inUnit (h : Heap XR) (c : ℝ) : Heap XR :=
  { h with
    points := fun a => ⟨⟨.fin c * (h.points a).data.x, .fin c * (h.points a).data.y⟩, ⟨.fin c * (h.points a).grad.x, .fin c * (h.points a).grad.y⟩⟩
    arcs := fun a => { h.arcs a with
      data := ⟨.fin c * (h.arcs a).data.a0, (h.arcs a).data.a1, (h.arcs a).data.a2⟩
      grad := ⟨.fin c * (h.arcs a).grad.a0, (h.arcs a).grad.a1, (h.arcs a).grad.a2⟩ }
    circles := fun a => { h.circles a with radius := .fin c * (h.circles a).radius, grad := .fin c * (h.circles a).grad }
    cons := fun k => (h.cons k).inUnit c }

/-- constraints whose loss is half the square of a length that is not cut off anywhere -/
def Constraint.IsLength : Constraint XR → Prop
  | .fix .. => True
  | .horizDist .. => True
  | .vertDist .. => True
  | .horizLine .. => True
  | .vertLine .. => True
  | .eqLen .. => True
  | _ => False

/-- the sketch has no arcs -/
def NoArcs (s : Sketch) : Prop := ∀ a, PrimCell.arc a ∉ s.cells

/-- all constraints of the sketch are about lengths -/
def Lengths (s : Sketch) (h : Heap XR) : Prop := ∀ k ∈ s.cons, (h.cons k).IsLength

end Isotope
