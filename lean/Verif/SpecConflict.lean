import Verif.Lemmas.Linear

/-!
# Vocabulary for conflicting constraints

`README.md:112-126`: constraints in conflict are to be recognised by their loss.
-/

namespace Isotope

/-- Points placed at `q` (`q p 0` is x, `q p 1` is y) meet a constraint on coordinates. -/
def MetBy (h : Heap XR) (q : Nat → Fin 2 → ℝ) : Constraint XR → Prop
  | .fix p d => q p 0 = d.x.toReal ∧ q p 1 = d.y.toReal
  | .horizDist p1 p2 d => q p2 0 - q p1 0 = d.toReal
  | .vertDist p1 p2 d => q p2 1 - q p1 1 = d.toReal
  | .horizLine l => q (h.lines l).stop 1 = q (h.lines l).start 1
  | .vertLine l => q (h.lines l).stop 0 = q (h.lines l).start 0
  | _ => True

/-- The constraints in `T` can all be met at once. -/
def Compatible (h : Heap XR) (T : Set Nat) : Prop := ∃ q, ∀ k ∈ T, MetBy h q (h.cons k)

/-- `get_gradient` returns zeros: gradient descent and BFGS have nowhere to go. -/
def AtRest (h : Heap XR) (s : Sketch) : Prop :=
  ∃ g h', getGradient h s = .ok (g, h') ∧ ∀ x ∈ g, x = XR.fin 0

/-- A set of constraints that cannot all be met, although they can as soon as any one of them is left out. -/
def MinimalConflict (h : Heap XR) (T : Set Nat) : Prop := ¬Compatible h T ∧ ∀ j ∈ T, Compatible h (T \ {j})

end Isotope
