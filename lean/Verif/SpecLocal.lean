import Verif.SpecReal
import Mathlib.Data.Matrix.Mul

/-!
# Vocabulary for statements about the neighbourhood of a solution
-/

namespace Isotope

/-- `Regular`, with room to move: points with a desired distance are more than `1e-6` apart. -/
def SafelyRegular (h : Heap XR) (c : Constraint XR) : Prop :=
  Regular h c ∧ match c with
    | .euclid p1 p2 _ => 1e-6 < dist (ptOf h p1) (ptOf h p2)
    | _ => True

open Matrix in
/-- Near the data vector `z` the loss is squeezed between two parabolas: there is a solution near enough that twice the loss is at
least `mu` times the squared distance from it, and twice the loss is at most `M` times the squared distance from `z`. -/
structure SqueezedNear (h : Heap XR) (s : Sketch) (z : Fin (getNDofs h s) → ℝ) (mu M : ℝ) : Prop where
  low : ∃ δ > 0, ∀ v, (∀ i, |v i - z i| < δ) → ∃ v0, lossAfter h s v0 = 0 ∧ mu * ((v - v0) ⬝ᵥ (v - v0)) ≤ 2 * lossAfter h s v
  high : ∃ δ > 0, ∀ v, (∀ i, |v i - z i| < δ) → 2 * lossAfter h s v ≤ M * ((v - z) ⬝ᵥ (v - z))

end Isotope
