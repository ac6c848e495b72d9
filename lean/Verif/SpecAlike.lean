import Verif.Model.Solver
import Verif.XR
import Verif.Lemmas.Exact
import Mathlib.Data.List.Forall2

/-!
# Vocabulary: runs of solvers side by side
-/

namespace Isotope
variable {F : Type}

/-- The two solver runs go alike: they have the same result, the same number of line searches and failed line searches and equally many
steps, of the same sizes; the relation `R` holds between the heaps before and after corresponding steps and at the end - after a panic only
`E` - and (for BFGS) `M` between the matrices. -/
structure SameRun (R E : Heap F → Heap F → Prop) (M : List (List F) → List (List F) → Prop) (o o' : SolveOut F) : Prop where
  res : o.res = o'.res
  heap : o.res ≠ .panic → R o.heap o'.heap
  panicked : o.res = .panic → E o.heap o'.heap
  searches : o.searches = o'.searches
  failed : o.failed = o'.failed
  steps : List.Forall₂ (fun r r' => R r.pre r'.pre ∧ r.alpha = r'.alpha ∧ R r.post r'.post ∧ M r.mat r'.mat) o.steps o'.steps

/-- the constraint for a sketch moved by `(tx, ty)`: the desired place of a `FixPoint` moves along -/
noncomputable def Constraint.moveBy (tx ty : ℝ) : Constraint XR → Constraint XR
  | .fix p d => .fix p ⟨d.x + .fin tx, d.y + .fin ty⟩
  | c => c

/-- everything moved by `(tx, ty)`: all points and the desired places of all `FixPoint` constraints -/
noncomputable def Heap.moveBy (h : Heap XR) (tx ty : ℝ) : Heap XR :=
  { h with
    points := fun a => { h.points a with data := ⟨(h.points a).data.x + .fin tx, (h.points a).data.y + .fin ty⟩ }
    cons := fun k => (h.cons k).moveBy tx ty }

/-- the matrix `m` with rows and columns in the order `L`, and with rows and columns in the order `L'` -/
def Reordered (L L' : List Dof) (A A' : List (List XR)) : Prop :=
  ∃ m : Dof → Dof → XR, A = L.map (fun i => L.map (m i)) ∧ A' = L'.map (fun i => L'.map (m i))

/-- two outcomes of the pseudo-inverse correspond -/
def SamePInv (L L' : List Dof) : PInvRes XR → PInvRes XR → Prop
  | .ok P, .ok P' => Reordered L L' P P'
  | .err, .err => True
  | .panic, .panic => True
  | _, _ => False

/-- the pseudo-inverse of a matrix with rows and columns in another order is the pseudo-inverse with rows and columns in that order -/
def FollowsOrder (pinv : PInv XR) : Prop :=
  ∀ (L L' : List Dof) (A A' : List (List XR)) (eps : XR), L.Nodup → L.Perm L' → Reordered L L' A A' →
    SamePInv L L' (pinv A eps) (pinv A' eps)

end Isotope
