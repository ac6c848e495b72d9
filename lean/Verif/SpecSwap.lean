import Verif.Spec
import Verif.XR

/-!
# Vocabulary: saying the same thing with other words
-/

namespace Isotope

/-- The two constraints say the same: they are equal, or they name the same two points, lines or arms of an angle in the opposite order (for a
horizontal or vertical distance, which has a sign, with the opposite distance). -/
inductive SameMeaning : Constraint XR → Constraint XR → Prop
  | same (c : Constraint XR) : SameMeaning c c
  | angle (p q mid : Nat) (d : XR) : SameMeaning (.angle p q mid d) (.angle q p mid d)
  | euclid (p q : Nat) (d : XR) : SameMeaning (.euclid p q d) (.euclid q p d)
  | horizDist (p q : Nat) (d : XR) : SameMeaning (.horizDist p q d) (.horizDist q p (-d))
  | vertDist (p q : Nat) (d : XR) : SameMeaning (.vertDist p q d) (.vertDist q p (-d))
  | eqLen (l m : Nat) : SameMeaning (.eqLen l m) (.eqLen m l)
  | parallel (l m : Nat) : SameMeaning (.parallel l m) (.parallel m l)
  | perp (l m : Nat) : SameMeaning (.perp l m) (.perp m l)

/-- The two heaps describe the same drawing: same coordinates and same centres of arcs and circles, every line is the same or runs from end to
start, every constraint says the same; gradients may differ. -/
structure Restated (h h' : Heap XR) : Prop where
  data : ∀ c, primData h' c = primData h c
  lines : ∀ l, h'.lines l = h.lines l ∨ h'.lines l = ⟨(h.lines l).stop, (h.lines l).start⟩
  arcCenter : ∀ a, (h'.arcs a).center = (h.arcs a).center
  arcClockwise : ∀ a, (h'.arcs a).clockwise = (h.arcs a).clockwise
  circleCenter : ∀ a, (h'.circles a).center = (h.circles a).center
  cons : ∀ k, SameMeaning (h.cons k) (h'.cons k)

end Isotope
