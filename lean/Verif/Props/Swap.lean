import Verif.Lemmas.Swap
import Verif.Props.MoveBy

/-!
# C105: the same drawing in other words

`SameMeaning` and `Restated` are in `SpecSwap.lean`, `SameRun` in `SpecAlike.lean`.
-/

namespace Isotope
open XR

/-- **C105.** In exact arithmetic it does not matter to any solver in which order a constraint names its two points, its two lines or the two
arms of its angle (with the opposite desired distance for a horizontal or vertical distance), nor which of its two points a line starts from:
from two descriptions of the same drawing, with any parameters and any pseudo-inverse, and whatever gradients are left over, the runs have
the same result, as many steps and line searches, the same step sizes and (for BFGS) matrices, and the same coordinates before and after each
step and at the end; if the one panics so does the other. -/
theorem C105_restated (pinv : PInv XR) (k : SolverKind XR) {h h' : Heap XR} (r : Restated h h') (s : Sketch) :
    SameRun Restated Restated Eq (runSolver pinv k h s) (runSolver pinv k h' s) := by
  cases k with
  | gd q => exact (alike_restated s).gd rfl q r
  | bfgs q => exact (alike_restated s).bfgs (fun e => by rw [e]) q r
  | gn q => exact newton_restated s _ pinv _ _ _ _ _ r
  | lm q => exact newton_restated s _ pinv _ _ _ _ _ r

/-- **C105.** The queries give the same answers: loss, losses of the constraints, gradient and Jacobian (or both panic). -/
theorem C105_queries {h h' : Heap XR} (r : Restated h h') (s : Sketch) :
    getLoss h' s = getLoss h s ∧ getLossPerConstraint h' s = getLossPerConstraint h s ∧
    ((∃ h1 h2, getGradient h s = .error h1 ∧ getGradient h' s = .error h2) ∨
      ∃ g h1 h2, getGradient h s = .ok (g, h1) ∧ getGradient h' s = .ok (g, h2)) ∧
    ((∃ h1 h2, getJacobian h s = .error h1 ∧ getJacobian h' s = .error h2) ∨
      ∃ j h1 h2, getJacobian h s = .ok (j, h1) ∧ getJacobian h' s = .ok (j, h2)) := by
  refine ⟨(loss_restated r s).symm, losses_restated r s, ?_, ?_⟩
  · have q := gradient_restated r s
    generalize getGradient h s = e at q
    generalize getGradient h' s = e' at q
    cases q with
    | error _ => exact .inl ⟨_, _, rfl, rfl⟩
    | ok e _ => subst e; exact .inr ⟨_, _, _, rfl, rfl⟩
  · have q := jacobian_restated r s
    generalize getJacobian h s = e at q
    generalize getJacobian h' s = e' at q
    cases q with
    | error _ => exact .inl ⟨_, _, rfl, rfl⟩
    | ok e _ => subst e; exact .inr ⟨_, _, _, rfl, rfl⟩

/-- `C105_restated`: a corner whose sides are to be equally long and perpendicular and whose ends are to be three apart horizontally -/
noncomputable def cornerHeap : Heap XR where
  points := fun a => ⟨if a = 0 then ⟨fin 0, fin 0⟩ else if a = 1 then ⟨fin 2, fin 1⟩ else ⟨fin 1, fin 4⟩, ⟨fin 0, fin 0⟩⟩
  lines := fun l => if l = 0 then ⟨0, 1⟩ else ⟨1, 2⟩
  arcs := fun _ => ⟨0, ⟨fin 1, fin 0, fin 0⟩, ⟨fin 0, fin 0, fin 0⟩, false⟩
  circles := fun _ => ⟨0, fin 1, fin 0⟩
  cons := fun k => if k = 0 then .perp 0 1 else if k = 1 then .eqLen 0 1 else if k = 2 then .horizDist 0 2 (fin 3) else .angle 0 2 1 (fin 1)
  nPoints := 3
  nLines := 2
  nArcs := 1
  nCircles := 1
  nCons := 4

/-- the same corner: the first side runs the other way and the constraints name their objects in the opposite order -/
noncomputable def cornerAgain : Heap XR :=
  { cornerHeap with
    lines := fun l => if l = 0 then ⟨1, 0⟩ else ⟨1, 2⟩
    cons := fun k => if k = 0 then .perp 1 0 else if k = 1 then .eqLen 1 0 else if k = 2 then .horizDist 2 0 (-fin 3) else .angle 2 0 1 (fin 1) }

theorem cornerAgain_restated : Restated cornerHeap cornerAgain where
  data := fun c => by cases c <;> rfl
  lines := fun l => by
    by_cases e : l = 0
    · subst e; exact .inr rfl
    · refine .inl ?_
      simp [cornerHeap, cornerAgain, e]
  arcCenter := fun _ => rfl
  arcClockwise := fun _ => rfl
  circleCenter := fun _ => rfl
  cons := fun k => by
    match k with
    | 0 => exact .perp 0 1
    | 1 => exact .eqLen 0 1
    | 2 => exact .horizDist 0 2 (fin 3)
    | n + 3 => exact .angle 0 2 1 (fin 1)

example (pinv : PInv XR) (k : SolverKind XR) :
    SameRun Restated Restated Eq (runSolver pinv k cornerHeap ⟨[(0, .point 0), (1, .point 1), (2, .point 2)], 3, [0, 1, 2, 3]⟩)
      (runSolver pinv k cornerAgain ⟨[(0, .point 0), (1, .point 1), (2, .point 2)], 3, [0, 1, 2, 3]⟩) :=
  C105_restated pinv k cornerAgain_restated _

end Isotope
