import Verif.SpecStill
import Verif.XR

/-!
# Vocabulary: groups of points without a hold
-/

namespace Isotope

/-- the x-coordinate of the centre of gravity of the points `P` -/
noncomputable def centreX (P : List Nat) (h : Heap XR) : ℝ := (P.map fun a => (h.points a).data.x.toReal).sum / P.length
/-- the y-coordinate -/
noncomputable def centreY (P : List Nat) (h : Heap XR) : ℝ := (P.map fun a => (h.points a).data.y.toReal).sum / P.length

/-- The constraint does not notice when the points `P` are moved together: it is not a `FixPoint`, and looks only at points of `P` or at none of
them. -/
def Heedless (P : List Nat) (h : Heap XR) (c : Constraint XR) : Prop :=
  ((∀ p d, c ≠ .fix p d) ∧ ∀ a, .point a ∈ consDeps h c → a ∈ P) ∨ ∀ a ∈ P, .point a ∉ consDeps h c

/-- The constraint does not notice when the points `P` are moved together to the right: it is as above or looks at y-coordinates only. -/
def LooseX (P : List Nat) (h : Heap XR) (c : Constraint XR) : Prop :=
  Heedless P h c ∨ (∃ p q d, c = .vertDist p q d) ∨ ∃ l, c = .horizLine l
/-- Nor when they are moved up: it is as above or looks at x-coordinates only. -/
def LooseY (P : List Nat) (h : Heap XR) (c : Constraint XR) : Prop :=
  Heedless P h c ∨ (∃ p q d, c = .horizDist p q d) ∨ ∃ l, c = .vertLine l

/-- before and after every step and, unless the run panics, at the end the number is what it was at the start -/
def Conserves (f : Heap XR → ℝ) (h : Heap XR) (o : SolveOut XR) : Prop :=
  (o.res ≠ .panic → f o.heap = f h) ∧ ∀ st ∈ o.steps, f st.pre = f h ∧ f st.post = f h

end Isotope
