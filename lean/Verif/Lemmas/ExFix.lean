import Verif.Model.Api
import Verif.XR

/-!
# A small example sketch: one point with a `FixPoint` constraint

Used in the `example`s beside the theorems about solvers.
-/

namespace Isotope
open XR

/-- point 0 at `(a, b)` with gradient `(u, v)`, constraint 0 fixing it to `(x, y)` -/
noncomputable def fixHeap (x y a b u v : ℝ) : Heap XR :=
  { (Heap.empty : Heap XR) with
    points := upd Heap.empty.points 0 ⟨⟨fin a, fin b⟩, ⟨fin u, fin v⟩⟩
    cons := upd Heap.empty.cons 0 (.fix 0 ⟨fin x, fin y⟩)
    nPoints := 1
    nCons := 1 }

/-- the sketch with that point and that constraint -/
def fixSketch : Sketch := ⟨[(0, .point 0)], 1, [0]⟩

theorem upd_upd {α : Type} (f : Nat → α) (i : Nat) (a b : α) : upd (upd f i a) i b = upd f i b := by
  funext j; simp only [upd]; split <;> rfl

variable (x y a b u v : ℝ)

theorem fixSketch_nodup : fixSketch.cells.Nodup := by simp [fixSketch, Sketch.cells]

theorem fix_data : getData (fixHeap x y a b u v) fixSketch = [fin a, fin b] := by
  simp [getData, getNDofs, fixSketch, fixHeap, primData, zerosVec, blit, upd]

theorem fix_loss : getLoss (fixHeap x y a b u v) fixSketch = fin (((a - x) ^ 2 + (b - y) ^ 2) / 2) := by
  simp [getLoss, fixSketch, fixHeap, lossValue, ptData, Vec2.normSq, upd]
  show XR.fin _ = _
  norm_num
  ring

theorem fix_losses : getLossPerConstraint (fixHeap x y a b u v) fixSketch = [fin (((a - x) ^ 2 + (b - y) ^ 2) / 2)] := by
  simp [getLossPerConstraint, fixSketch, fixHeap, lossValue, ptData, Vec2.normSq, upd]
  show XR.fin _ = _
  norm_num
  ring

theorem fix_setData (c d : ℝ) :
    setData (fixHeap x y a b u v) fixSketch [fin c, fin d] = .ok (fixHeap x y c d u v) := by
  simp [setData, setDataLoop, fixSketch, fixHeap, primData, primSetData, getNDofs, upd_upd, Heap.setPoint]
  simp [upd]

theorem fix_gradient : getGradient (fixHeap x y a b u v) fixSketch =
    .ok ([fin (a - x), fin (b - y)], fixHeap x y a b (a - x) (b - y)) := by
  have h1 : ∀ a b c d : ℝ, (⟨fin a, fin b⟩ : Vec2 XR) - ⟨fin c, fin d⟩ = ⟨fin (a - c), fin (b - d)⟩ := by
    intro a b c d; show Vec2.mk _ _ = _; rw [sub_fin, sub_fin]
  have h2 : ∀ a b c d : ℝ, (⟨fin a, fin b⟩ : Vec2 XR) + ⟨fin c, fin d⟩ = ⟨fin (a + c), fin (b + d)⟩ := fun _ _ _ _ => rfl
  have z : (0.0 : ℝ) = 0 := by norm_num
  have hz : zeroGrads (fixHeap x y a b u v) fixSketch = fixHeap x y a b 0 0 := by
    simp [fixSketch, fixHeap, zeroGrads, primZeroGrad, Heap.setPoint, Vec2.zeros, upd_upd, z]
    simp [upd]
  have hu : updateAll (fixHeap x y a b 0 0) fixSketch.cons = .ok (fixHeap x y a b (a - x) (b - y)) := by
    have e : updateGradient (fixHeap x y a b 0 0) ((fixHeap x y a b 0 0).cons 0) = .ok (fixHeap x y a b (a - x) (b - y)) := by
      show fixUpdate _ _ _ = _
      unfold fixUpdate pointAddGrad
      have : ptData (fixHeap x y a b 0 0) 0 = ⟨fin a, fin b⟩ := rfl
      have hp : (fixHeap x y a b 0 0).points 0 = ⟨⟨fin a, fin b⟩, ⟨fin 0, fin 0⟩⟩ := rfl
      rw [this, h1, if_pos (by simp [Vec2.allFinite])]
      simp only [hp, h2, zero_add]
      simp [fixHeap, Heap.setPoint, upd_upd]
    simp only [fixSketch, updateAll, List.foldlM_cons, List.foldlM_nil, e]
    rfl
  unfold getGradient
  rw [hz, hu]
  simp [fixSketch, fixHeap, collectGradient, primGrad, getNDofs, primData, zerosVec, blit, upd]

end Isotope
