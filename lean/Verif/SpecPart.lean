import Verif.Spec
import Verif.Model.Solver

/-!
# Vocabulary: a part of a sketch
-/

namespace Isotope
variable {F : Type}

/-- `s` is a part of the sketch `u` that is not connected to the rest of it: the primitives and constraints of `s` are among
those of `u`, and the other constraints of `u` look at no primitive of `s` -/
structure Sketch.PartOf (h : Heap F) (s u : Sketch) : Prop where
  cells : ∀ c ∈ s.cells, c ∈ u.cells
  cons : ∃ rest, u.cons.Perm (s.cons ++ rest) ∧ ∀ k ∈ rest, ∀ c ∈ consDeps h (h.cons k), c ∉ s.cells

/-- the primitives of the sketch have the same coordinates in both heaps -/
def SameData (s : Sketch) (h h' : Heap F) : Prop := ∀ c ∈ s.cells, primData h' c = primData h c

/-- A run of a solver on a sketch and a run on a part of it, side by side: the `i`-th step of both starts from and leads to the same
coordinates of the part; if the run on the whole sketch returns `Ok`, so does the one on the part, with at most as many steps,
and if it has made as many, the part is left at the same coordinates. -/
structure PartRun (s : Sketch) (o o' : SolveOut F) : Prop where
  steps : ∀ (i : Nat) (r r' : StepRec F), o.steps[i]? = some r → o'.steps[i]? = some r' →
    SameData s r.pre r'.pre ∧ SameData s r.post r'.post
  ok : o.res = .ok → o'.res = .ok
  fewer : o.res = .ok → o'.steps.length ≤ o.steps.length
  final : o.res = .ok → o'.steps.length = o.steps.length → SameData s o.heap o'.heap

end Isotope
