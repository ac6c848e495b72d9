import Verif.Spec
import Verif.SpecRing

/-!
# Vocabulary: gradients that are not NaN
-/

namespace Isotope
variable {F : Type} [Num F]

/-- no gradient of a primitive is NaN: all equal themselves -/
def GradsSelf (h : Heap F) : Prop := ∀ c, ∀ x ∈ primGrad h c, (x ==. x) = true

/-- Zero is not NaN, and adding a finite number to a number that is not NaN does not give NaN.  They hold for `f64`. -/
class AddSelf (F : Type) [Num F] : Prop where
  zero : ((0.0 : F) ==. 0.0) = true
  add : ∀ a b : F, (a ==. a) = true → Num.isFinite b = true → (a + b ==. a + b) = true

/-- a call that writes a whole primitive through its cell writes no NaN gradient (the gradient is private and zero in a new primitive) -/
def Op.cleanWrite : Op F → Prop
  | .writePoint _ p => p.grad.beq p.grad = true
  | .writeArc _ a => a.grad.beq a.grad = true
  | .writeCircle _ c => (c.grad ==. c.grad) = true
  | _ => True

/-- The lines and arcs of the sketch are the lines of a closed loop through the point objects `ps`, in any order and each in one of the
two directions (where the points are does not matter). -/
def ClosedBy (h : Heap F) (s : Sketch) (ps : List Nat) : Prop :=
  ∃ es : List (Nat × Nat), es.Perm (edges ps) ∧
    List.Forall₂ (fun e sg => sg = Segment.line e.1 e.2 ∨ sg = Segment.line e.2 e.1) es (drawn h s)

/-- distance of two points of the plane -/
noncomputable def span (p q : ℝ × ℝ) : ℝ := √((p.1 - q.1) ^ 2 + (p.2 - q.2) ^ 2)

/-- length of the closed polygon `vs` -/
noncomputable def perimeter (vs : List (ℝ × ℝ)) : ℝ := ((edges vs).map (fun e => span e.1 e.2)).sum

end Isotope
