import Verif.SpecNear
import Mathlib.Analysis.SpecialFunctions.Trigonometric.Inverse

/-!
# Vocabulary: by how much a constraint is missed
-/

namespace Isotope

variable {lm : Libm}

/-- by how much the points, lines and arcs, taken as real geometry, miss what the constraint demands -/
noncomputable def missOf (h : Heap (B64 lm)) : Constraint (B64 lm) → ℝ
  | .fix p d => √((xOf h p - d.x.real) ^ 2 + (yOf h p - d.y.real) ^ 2)
  | .horizDist p q d => |xOf h q - xOf h p - d.real|
  | .vertDist p q d => |yOf h q - yOf h p - d.real|
  | .euclid p q d => |distOf h p q - d.real|
  | .horizLine l => |yOf h (h.lines l).stop - yOf h (h.lines l).start|
  | .vertLine l => |xOf h (h.lines l).stop - xOf h (h.lines l).start|
  | .eqLen l m => |lenOf h l - lenOf h m|
  | .parallel l m =>
    |(xOf h (h.lines l).stop - xOf h (h.lines l).start) * (yOf h (h.lines m).stop - yOf h (h.lines m).start) -
      (yOf h (h.lines l).stop - yOf h (h.lines l).start) * (xOf h (h.lines m).stop - xOf h (h.lines m).start)| / (lenOf h l * lenOf h m)
  | .perp l m =>
    |(xOf h (h.lines l).stop - xOf h (h.lines l).start) * (xOf h (h.lines m).stop - xOf h (h.lines m).start) +
      (yOf h (h.lines l).stop - yOf h (h.lines l).start) * (yOf h (h.lines m).stop - yOf h (h.lines m).start)| / (lenOf h l * lenOf h m)
  | .angle p q o d =>
    |Real.arccos (((xOf h p - xOf h o) * (xOf h q - xOf h o) + (yOf h p - yOf h o) * (yOf h q - yOf h o)) /
      (distOf h p o * distOf h q o)) - d.real|
  | .arcEnd a p =>
    √((xOf h (h.arcs a).center + (h.arcs a).radius.real * Real.cos (h.arcs a).endAngle.real - xOf h p) ^ 2 +
      (yOf h (h.arcs a).center + (h.arcs a).radius.real * Real.sin (h.arcs a).endAngle.real - yOf h p) ^ 2)
  | .arcStart a p =>
    √((xOf h (h.arcs a).center + (h.arcs a).radius.real * Real.cos (h.arcs a).startAngle.real - xOf h p) ^ 2 +
      (yOf h (h.arcs a).center + (h.arcs a).radius.real * Real.sin (h.arcs a).startAngle.real - yOf h p) ^ 2)

/-- how much rounding may add to that: about `2e-14` times the numbers that go into it, when the library functions are accurate to the
last digits (`κ ≈ 2^-53`) -/
noncomputable def roundoff (κ : ℝ) (h : Heap (B64 lm)) (c : Constraint (B64 lm)) : ℝ :=
  80 * (2 ^ (-53 : ℤ) + κ) * ((spanOf h c + 2 ^ (-100 : ℤ)) * badness h c)

end Isotope
