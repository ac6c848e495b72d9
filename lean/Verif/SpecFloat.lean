import Verif.Lemmas.Float
import Verif.Model.Constraint
import Mathlib.Analysis.SpecialFunctions.Trigonometric.Inverse

/-!
# Vocabulary: constraints met up to a tolerance, in binary64
-/

namespace Isotope

variable {lm : Libm}

/-- the mathematical library computes `cos`, `sin` and `acos` with an absolute error of at most `κ`; the cosine of an infinity or
of NaN is not finite -/
structure Libm.Accurate (lm : Libm) (κ : ℝ) : Prop where
  cos : ∀ (x : B64 lm) (φ : ℝ), x.Is φ → ∃ c, (Num.cos x).Is c ∧ |c - Real.cos φ| ≤ κ
  cosInf : ∀ x : B64 lm, Num.isFinite x = false → Num.isFinite (Num.cos x) = false
  sin : ∀ (x : B64 lm) (φ : ℝ), x.Is φ → ∃ s, (Num.sin x).Is s ∧ |s - Real.sin φ| ≤ κ
  acos : ∀ (x : B64 lm) (c : ℝ), x.Is c → |c| ≤ 1 → ∃ θ, (Num.acos x).Is θ ∧ |θ - Real.arccos c| ≤ κ

/-- point `p` has the finite coordinates `x`, `y` -/
def At (h : Heap (B64 lm)) (p : Nat) (x y : ℝ) : Prop := (h.points p).data.x.Is x ∧ (h.points p).data.y.Is y

/-- neither tiny nor huge -/
def Ordinary (l : ℝ) : Prop := 2 ^ (-400 : ℤ) ≤ l ∧ l ≤ 2 ^ (400 : ℤ)

/-- what the constraint demands holds in the reals up to `τ` and up to the rounding of the coordinates themselves; `κ` is the
error of the mathematical library -/
def Within (h : Heap (B64 lm)) (τ κ : ℝ) : Constraint (B64 lm) → Prop
  | .fix p d => ∃ x y a b, At h p x y ∧ d.x.Is a ∧ d.y.Is b ∧ √((x - a) ^ 2 + (y - b) ^ 2) ≤ τ
  | .horizDist p q d => ∃ x x' D, (h.points p).data.x.Is x ∧ (h.points q).data.x.Is x' ∧ d.Is D ∧
      |x' - x - D| ≤ τ + 2 ^ (-53 : ℤ) * |x' - x|
  | .vertDist p q d => ∃ y y' D, (h.points p).data.y.Is y ∧ (h.points q).data.y.Is y' ∧ d.Is D ∧
      |y' - y - D| ≤ τ + 2 ^ (-53 : ℤ) * |y' - y|
  | .euclid p q d => ∃ x y x' y' D, At h p x y ∧ At h q x' y' ∧ d.Is D ∧
      |√((x - x') ^ 2 + (y - y') ^ 2) - D| ≤ τ + 2 ^ (-50 : ℤ) * √((x - x') ^ 2 + (y - y') ^ 2)
  | .horizLine l => ∃ y y', (h.points (h.lines l).start).data.y.Is y ∧ (h.points (h.lines l).stop).data.y.Is y' ∧ |y' - y| ≤ τ
  | .vertLine l => ∃ x x', (h.points (h.lines l).start).data.x.Is x ∧ (h.points (h.lines l).stop).data.x.Is x' ∧ |x' - x| ≤ τ
  | .eqLen l m => ∃ x y x' y' z w z' w', At h (h.lines l).start x y ∧ At h (h.lines l).stop x' y' ∧
      At h (h.lines m).start z w ∧ At h (h.lines m).stop z' w' ∧
      |√((x' - x) ^ 2 + (y' - y) ^ 2) - √((z' - z) ^ 2 + (w' - w) ^ 2)| ≤
        τ + 2 ^ (-50 : ℤ) * (√((x' - x) ^ 2 + (y' - y) ^ 2) + √((z' - z) ^ 2 + (w' - w) ^ 2))
  | .arcEnd a p => ∃ u v r φ x y, At h (h.arcs a).center u v ∧ (h.arcs a).radius.Is r ∧ (h.arcs a).endAngle.Is φ ∧ At h p x y ∧
      √((u + r * Real.cos φ - x) ^ 2 + (v + r * Real.sin φ - y) ^ 2) ≤
        τ + 2 ^ (-51 : ℤ) * (|u| + |v|) + (2 ^ (-49 : ℤ) + 2 * κ) * |r|
  | .arcStart a p => ∃ u v r φ x y, At h (h.arcs a).center u v ∧ (h.arcs a).radius.Is r ∧ (h.arcs a).startAngle.Is φ ∧ At h p x y ∧
      √((u + r * Real.cos φ - x) ^ 2 + (v + r * Real.sin φ - y) ^ 2) ≤
        τ + 2 ^ (-51 : ℤ) * (|u| + |v|) + (2 ^ (-49 : ℤ) + 2 * κ) * |r|
  | .parallel l m => ∀ x y x' y' z w z' w', At h (h.lines l).start x y → At h (h.lines l).stop x' y' →
      At h (h.lines m).start z w → At h (h.lines m).stop z' w' →
      ∀ L M, L = √((x' - x) ^ 2 + (y' - y) ^ 2) → M = √((z' - z) ^ 2 + (w' - w) ^ 2) → Ordinary L → Ordinary M →
        |((x' - x) * (w' - w) - (y' - y) * (z' - z)) / (L * M)| ≤ τ + 2 ^ (-47 : ℤ)
  | .perp l m => ∀ x y x' y' z w z' w', At h (h.lines l).start x y → At h (h.lines l).stop x' y' →
      At h (h.lines m).start z w → At h (h.lines m).stop z' w' →
      ∀ L M, L = √((x' - x) ^ 2 + (y' - y) ^ 2) → M = √((z' - z) ^ 2 + (w' - w) ^ 2) → Ordinary L → Ordinary M →
        |((x' - x) * (z' - z) + (y' - y) * (w' - w)) / (L * M)| ≤ τ + 2 ^ (-47 : ℤ)
  | .angle p q o d => ∃ D, d.Is D ∧ ∀ x y z w u v, At h p x y → At h q z w → At h o u v →
      ∀ L M, L = √((x - u) ^ 2 + (y - v) ^ 2) → M = √((z - u) ^ 2 + (w - v) ^ 2) → 2 ^ (-18 : ℤ) ≤ L → L ≤ 2 ^ (400 : ℤ) →
        2 ^ (-18 : ℤ) ≤ M → M ≤ 2 ^ (400 : ℤ) →
        |((x - u) * (z - u) + (y - v) * (w - v)) / (L * M) - Real.cos D| ≤ τ + κ + 2 ^ (-47 : ℤ)

end Isotope
