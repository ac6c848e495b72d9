import Verif.Lemmas.AnyOrder
import Verif.Props.MoveBy

/-!
# C86: the order of the constraints does not matter to the solvers

`GradOnly` is in `Spec.lean`, `SameRun` in `SpecAlike.lean`.
-/

namespace Isotope
open XR

/-- **C86.** In exact arithmetic the order in which the constraints were added to a sketch does not matter to any solver, and neither do
gradients left over in the primitives: from states with the same coordinates, with any parameters and any pseudo-inverse, the runs have the
same result, as many steps and line searches, the same step sizes and (for BFGS) matrices, and the same coordinates before and after each
step and at the end; if the one panics so does the other. -/
theorem C86_any_order (pinv : PInv XR) (k : SolverKind XR) {h h' : Heap XR} (g : GradOnly h h') (s : Sketch) {cs : List Nat}
    (p : s.cons.Perm cs) : SameRun GradOnly GradOnly Eq (runSolver pinv k h s) (runSolver pinv k h' { s with cons := cs }) := by
  cases k with
  | gd q => exact (alike_perm s p).gd rfl q g
  | bfgs q => exact (alike_perm s p).bfgs (fun e => by rw [e]) q g
  | gn q => exact newton_perm s p _ (fun nd _ _ ρ w => matMul_transpose_perm w ρ nd) pinv _ _ _ _ _ g
  | lm q => exact newton_perm s p _ (fun nd _ _ ρ w => by unfold lmNormal; rw [matMul_transpose_perm w ρ nd]) pinv _ _ _ _ _ g

/-- two constraints, in the order in which they were added and in the opposite order, with gradients left over -/
example (pinv : PInv XR) (k : SolverKind XR) (h : Heap XR) :
    SameRun GradOnly GradOnly Eq (runSolver pinv k h ⟨[(0, .point 0), (1, .point 1)], 2, [0, 1]⟩)
      (runSolver pinv k (h.setPoint 0 { h.points 0 with grad := ⟨fin 3, fin 4⟩ }) ⟨[(0, .point 0), (1, .point 1)], 2, [1, 0]⟩) :=
  C86_any_order pinv k (setPointGrad_gradOnly h 0 _) ⟨[(0, .point 0), (1, .point 1)], 2, [0, 1]⟩ (.swap ..)

end Isotope
