import Verif.SpecNear
import Verif.Props.Linear

/-!
# Vocabulary: runs of gradient descent in binary64 on linear sketches
-/

namespace Isotope

variable {lm : Libm}

/-- one more than twice the number of constraints plus the number of coordinates -/
def sizeOf64 (h : Heap (B64 lm)) (s : Sketch) : ℝ := 1 + 2 * (s.cons.length : ℝ) + (getNDofs h s : ℝ)

/-- all coordinates of the sketch and all parameters of its constraints are finite, with magnitude at most `B` -/
def Bounded (h : Heap (B64 lm)) (s : Sketch) (B : ℝ) : Prop :=
  (∀ x ∈ getData h s, ∃ r : ℝ, x.Is r ∧ |r| ≤ B) ∧ ∀ k ∈ s.cons, ∀ x ∈ consParams (h.cons k), ∃ r : ℝ, x.Is r ∧ |r| ≤ B

/-- The conditioning of the sketch, its size and the number of iterations are such that binary64 has digits enough: `X` is what
the coordinates may grow to in `K` iterations from coordinates of at most `B` with the loss `L0`; `ml` is the loss to be reached. -/
structure Suited (h : Heap (B64 lm)) (s : Sketch) (mu M B X L0 ml : ℝ) (K : Nat) : Prop where
  /-- the step sizes that the line search tries reach far enough -/
  mu_le : mu ≤ M
  lo : 0.121 ≤ mu * 1.5 ^ 14
  hi : M ≤ 1.9 * 2 ^ 14
  /-- the sketch is not too large for its conditioning -/
  conditioning : 2 ^ (-30 : ℤ) * sizeOf64 h s ^ 2 * (1 + M) ≤ mu
  /-- the coordinates stay within `X` -/
  bounded : Bounded h s B
  reach : 3 * (B + 4 * √(2 * L0) * (√M + 1 / √mu)) ≤ X
  one_le : 1 ≤ X
  le : X ≤ 2 ^ (100 : ℤ)
  /-- the loss to be reached is above the noise -/
  pos : 0 < ml
  accuracy : 2 ^ (-38 : ℤ) * √(sizeOf64 h s) * (1 + √M) * (1 + M) * X ≤ mu * √ml
  /-- the rounding errors of all iterations together are small -/
  steps : 2 ^ (-48 : ℤ) * K * sizeOf64 h s ^ 2 * (1 + √M / √mu) * (1 + 1 / √mu) ≤ 1

end Isotope
