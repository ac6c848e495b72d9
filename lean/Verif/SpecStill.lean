import Verif.SpecPart
import Verif.SpecAlike
import Verif.Model.Api

/-!
# Vocabulary: a sketch made of two sketches
-/

namespace Isotope
variable {F : Type}

/-- the primitives and the constraints of the sketch `u` are those of `s` and those of `t`, in any order -/
structure Sketch.MadeOf (u s t : Sketch) : Prop where
  cells : u.cells.Perm (s.cells ++ t.cells)
  cons : u.cons.Perm (s.cons ++ t.cons)

/-- the constraints of the sketch look only at primitives of the sketch -/
def Sketch.Covers (h : Heap F) (s : Sketch) : Prop := ∀ k ∈ s.cons, ∀ c ∈ consDeps h (h.cons k), c ∈ s.cells

/-- every constraint of the sketch has the loss 0, and the gradient can be computed (it cannot for an `EqualLength` of a line of length
0) -/
def Satisfied (h : Heap XR) (s : Sketch) : Prop :=
  (∀ k ∈ s.cons, lossValue h (h.cons k) = .fin 0) ∧ ∃ q, getGradient h s = .ok q

/-- the same coordinates everywhere, and those of `s` as in `h` -/
def AlikeKeeping (h : Heap XR) (s : Sketch) (h1 h2 : Heap XR) : Prop := GradOnly h1 h2 ∧ SameData s h h1

/-- the Gauss-Newton and Levenberg-Marquardt solver with a real step size, cut-off and damping; the other solvers with any parameters -/
def SolverKind.Exact : SolverKind XR → Prop
  | .gn p => (∃ σ, p.stepSize = .fin σ) ∧ ∃ ε, p.pinvEps = .fin ε ∧ 0 ≤ ε
  | .lm p => (∃ σ, p.stepSize = .fin σ) ∧ (∃ ε, p.pinvEps = .fin ε ∧ 0 ≤ ε) ∧ ∃ β, p.beta = .fin β ∧ 0 ≤ β
  | _ => True

end Isotope
