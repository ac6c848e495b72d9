import Verif.SpecReal

/-!
# Vocabulary: the positions of a sketch where its loss is least
-/

namespace Isotope

/-- the coordinates `z` give the sketch the least loss it can have -/
def Best (h : Heap XR) (s : Sketch) (z : Fin (getNDofs h s) → ℝ) : Prop :=
  IsLeast (Set.range (lossAfter h s)) (lossAfter h s z)

/-- the square of the distance between two lists of coordinates -/
def distSq {n : Nat} (x z : Fin n → ℝ) : ℝ := ∑ i, (x i - z i) ^ 2

/-- among the coordinates with least loss, `z` are nearest to `q` -/
def Nearest (h : Heap XR) (s : Sketch) (q z : Fin (getNDofs h s) → ℝ) : Prop :=
  Best h s z ∧ ∀ z', Best h s z' → distSq q z ≤ distSq q z'

/-- nothing but coordinates and gradients differs between the heaps `h` and `H`, and from the coordinates `q` to those in `H`, the squares of the distances to all coordinates with least loss have changed by the
same amount -/
def Straight (h : Heap XR) (s : Sketch) (q : Fin (getNDofs h s) → ℝ) (H : Heap XR) : Prop :=
  SameRefs h H ∧ ∃ x : Fin (getNDofs h s) → ℝ, getData H s = vec x ∧
    ∀ z z', Best h s z → Best h s z' → distSq q z - distSq x z = distSq q z' - distSq x z'

end Isotope
