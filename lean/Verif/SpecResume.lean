import Verif.Model.Api

/-!
# Vocabulary: iteration limits, and solving again
-/

namespace Isotope
variable {F : Type}

/-- the same solver with another limit on the number of iterations (the field `max_iterations` of the four solvers) -/
def SolverKind.withMax (n : Nat) : SolverKind F → SolverKind F
  | .gd p => .gd { p with maxIterations := n }
  | .bfgs p => .bfgs { p with maxIterations := n }
  | .gn p => .gn { p with maxIterations := n }
  | .lm p => .lm { p with maxIterations := n }

/-- two calls one after the other: the steps and line searches of both, the result and the end of the second -/
def SolveOut.followedBy (o o' : SolveOut F) : SolveOut F :=
  ⟨o'.res, o'.heap, o.steps ++ o'.steps, o.searches + o'.searches, o.failed + o'.failed⟩

end Isotope
