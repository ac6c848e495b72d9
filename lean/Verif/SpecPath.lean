import Verif.SpecEdit
import Verif.SpecSmooth

/-!
# Vocabulary: how far a solver moves a sketch
-/

namespace Isotope

/-- At the positions with loss at most `L` no constraint is degenerate. -/
def RegularBelow (h : Heap XR) (s : Sketch) (L : ℝ) : Prop :=
  ∀ (v : Fin (getNDofs h s) → ℝ) (h' : Heap XR), lossAfter h s v ≤ L → setData h s (vec v) = .ok h' → ∀ k ∈ s.cons, Regular h' (h'.cons k)

/-- the distance between the coordinates before and after a step of a solver -/
noncomputable def stepLength (s : Sketch) (r : StepRec XR) : ℝ :=
  Real.sqrt (List.zipWith (fun a b : XR => (b.toReal - a.toReal) ^ 2) (getData r.pre s) (getData r.post s)).sum

/-- the length of the way the coordinates of a sketch go in the steps of a solver -/
noncomputable def travel (s : Sketch) (steps : List (StepRec XR)) : ℝ := (steps.map (stepLength s)).sum

/-- the desired Euclidean distances are not negative -/
def NonnegDist : Constraint XR → Prop
  | .euclid _ _ d => 0 ≤ d.toReal
  | _ => True

end Isotope
