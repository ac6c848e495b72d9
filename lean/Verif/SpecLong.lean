import Verif.SpecReal

/-!
# Vocabulary: long lines
-/

namespace Isotope

/-- the length of the line object `l` -/
noncomputable def lineLen (h : Heap XR) (l : Nat) : ℝ := dist (ptOf h (h.lines l).start) (ptOf h (h.lines l).stop)

/-- Every constraint of the sketch demands that two lines be perpendicular or parallel, and each line in such a demand is at least `len`
long. -/
def AllLong (h : Heap XR) (s : Sketch) (len : ℝ) : Prop :=
  ∀ k ∈ s.cons, ∃ l m, (h.cons k = .perp l m ∨ h.cons k = .parallel l m) ∧ len ≤ lineLen h l ∧ len ≤ lineLen h m

end Isotope
