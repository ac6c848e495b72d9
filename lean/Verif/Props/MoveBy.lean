import Verif.Lemmas.MoveBy
import Verif.Lemmas.ExRun

/-!
# C85: where a sketch lies does not matter to the solvers

`Heap.moveBy` and `SameRun` are in `SpecAlike.lean`.
-/

namespace Isotope
open XR

/-- **C85.** In exact arithmetic every solver treats a sketch and the same sketch moved by `(tx, ty)` - all points and the desired places
of all `FixPoint` constraints - alike: from any state, with any parameters and any pseudo-inverse, the two runs have the same result, as
many steps and line searches, the same step sizes and (for BFGS) matrices, and before and after each step and at the end the one sketch is
the other moved by `(tx, ty)`; if the one panics so does the other. -/
theorem C85_anywhere (pinv : PInv XR) (k : SolverKind XR) (h : Heap XR) (s : Sketch) (tx ty : ℝ) :
    SameRun (fun h h' => h' = h.moveBy tx ty) (fun h h' => h' = h.moveBy tx ty) Eq (runSolver pinv k h s) (runSolver pinv k (h.moveBy tx ty) s) := by
  cases k with
  | gd p => exact (alike_move tx ty s).gd rfl p rfl
  | bfgs p => exact (alike_move tx ty s).bfgs (Shifted.length tx ty) p rfl
  | gn p => exact newton_move tx ty h s ..
  | lm p => exact newton_move tx ty h s ..

/-- gradient descent takes the point from `(0, 0)` to `(3, 4)` in one step, and from `(2, 5)` to `(5, 9)` when everything is moved by
`(2, 5)` -/
example (pinv : PInv XR) : (runSolver pinv (.gd ⟨10, 1e-14, 1e-10⟩) (fixHeap 3 4 0 0 0 0) fixSketch).res = .ok ∧
    (runSolver pinv (.gd ⟨10, 1e-14, 1e-10⟩) ((fixHeap 3 4 0 0 0 0).moveBy 2 5) fixSketch).res = .ok ∧
    ptData (runSolver pinv (.gd ⟨10, 1e-14, 1e-10⟩) ((fixHeap 3 4 0 0 0 0).moveBy 2 5) fixSketch).heap 0 = ⟨fin 5, fin 9⟩ := by
  have e := fix_gdSolve (x := 3) (y := 4) (a := 0) (b := 0) (u := 0) (v := 0) 9 (by norm_num)
  have q := C85_anywhere pinv (.gd ⟨10, 1e-14, 1e-10⟩) (fixHeap 3 4 0 0 0 0) fixSketch 2 5
  have e' : runSolver pinv (.gd ⟨10, 1e-14, 1e-10⟩) (fixHeap 3 4 0 0 0 0) fixSketch = _ := e
  refine ⟨by rw [e'], by rw [← q.res, e'], ?_⟩
  rw [q.heap (by rw [e']; simp), e']
  simp only [ptData, moveBy_points, Point2.moveBy, fixHeap, upd, if_true, add_fin]
  norm_num

end Isotope
