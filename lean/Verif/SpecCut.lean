import Verif.SpecReal

/-!
# Vocabulary: the cut-off of `pseudo_inverse`
-/

namespace Isotope
open XR
open Matrix

/-- nalgebra's `pseudo_inverse(eps)` (via the singular value decomposition) in exact arithmetic, for the matrices Gauss-Newton
and Levenberg-Marquardt apply it to: on a symmetric positive semidefinite matrix the singular values are the eigenvalues;
those above `eps` are inverted, the others are replaced by 0. An eigenvector `x` of `A` for `w` is mapped to `x / w` or to 0. -/
def CutPInv (pinv : PInv XR) : Prop :=
  ∀ (n : Nat) (A : Matrix (Fin n) (Fin n) ℝ) (ε : ℝ), 0 < n → A.transpose = A → (∀ x, 0 ≤ x ⬝ᵥ (A *ᵥ x)) → 0 ≤ ε →
    ∃ P : Matrix (Fin n) (Fin n) ℝ, pinv (mat A) (fin ε) = .ok (mat P) ∧
      ∀ (x : Fin n → ℝ) (w : ℝ), A *ᵥ x = w • x → P *ᵥ x = (if ε < w then w⁻¹ else 0) • x

/-- every constraint of the sketch asks for a difference of two different coordinates, and no coordinate occurs in two of
them -/
def DisjointDiffs (h : Heap XR) (s : Sketch) : Prop :=
  (∀ k ∈ s.cons, IsDiff (h.cons k) ∧ diffForm h (h.cons k) ≠ 0) ∧
  s.cons.Pairwise fun k k' => Disjoint (diffForm h (h.cons k)).support (diffForm h (h.cons k')).support

end Isotope
