import Verif.Model.Sketch

/-!
# Solvers

Models `src/solvers/*.rs`.  Vectors (`DVector`) are lists, matrices (`DMatrix`) are lists of rows.  `usize` loop counters
become fuel (`max_iterations - iterations`).  Each solver also returns *ghost* information (the list of accepted steps
and the number of line searches) that no decision depends on.
-/

namespace Isotope
variable {F : Type} [Num F]

/-! ## Dense linear algebra (nalgebra) -/

/-- `&a + &b` -/
def vadd (a b : List F) : List F := List.zipWith (· + ·) a b
/-- `&a - &b` -/
def vsub (a b : List F) : List F := List.zipWith (· - ·) a b
/-- `k * &a` -/
def vscale (k : F) (a : List F) : List F := a.map (k * ·)
/-- `-&a` -/
def vneg (a : List F) : List F := a.map (- ·)
/-- `y.axpy(k, &x, 1.0)`: `y_i := k * x_i + 1.0 * y_i`. -/
def axpy (y : List F) (k : F) (x : List F) : List F := List.zipWith (fun yi xi => k * xi + (1.0 : F) * yi) y x
/-- `m * &v` -/
def matVec (m : List (List F)) (v : List F) : List F := m.map (fun row => dotL row v)
/-- `-(&m)` -/
def matNeg (m : List (List F)) : List (List F) := m.map vneg
/-- `DMatrix::identity(n, n)` -/
def identity (n : Nat) : List (List F) :=
  (List.range n).map (fun i => (List.range n).map (fun j => if i = j then (1.0 : F) else 0.0))
/-- `m.ger(k, x, y, 1.0)`: `m_ij := (k * y_j) * x_i + 1.0 * m_ij`. -/
def ger (m : List (List F)) (k : F) (x y : List F) : List (List F) :=
  List.zipWith (fun row xi => List.zipWith (fun mij yj => (k * yj) * xi + (1.0 : F) * mij) row y) m x
/-- `m.transpose()` for a matrix with `n` columns -/
def transpose (n : Nat) (m : List (List F)) : List (List F) :=
  (List.range n).map (fun j => m.map (fun row => row.getD j 0.0))
/-- `a * b` where `b` has `n` columns -/
def matMul (n : Nat) (a b : List (List F)) : List (List F) :=
  a.map (fun row => (List.range n).map (fun j => dotL row (b.map (fun r => r.getD j 0.0))))
/-- `&a + &b` on matrices -/
def matAdd (a b : List (List F)) : List (List F) := List.zipWith vadd a b
/-- `k * &a` on matrices -/
def matScale (k : F) (a : List (List F)) : List (List F) := a.map (vscale k)
/-- `apply_norm(&UniformNorm)` -/
def uniformNorm (v : List F) : F := v.foldl (fun acc a => fmax acc (Num.abs a)) (0.0 : F)
/-- `losses.sum()` -/
def sumL (v : List F) : F := v.foldl (· + ·) (0.0 : F)

/-! ## Line search -/

/-- `WOLFE_C1` (`src/solvers/line_search.rs:13`). -/
def wolfeC1 : F := 1e-4
/-- `WOLFE_C2` (`line_search.rs:14`). -/
def wolfeC2 : F := 0.9
/-- `MAX_ITER` (`line_search.rs:15`). -/
def lsMaxIter : Nat := 15

/-- Outcome of `line_search_wolfe`: `Ok(alpha)`, the two `LineSearchError`s, or a panic. -/
inductive LSRes (F : Type) where
  | ok (alpha : F)
  | notDescent
  | searchFailed
  | panic

/-- The loop of `line_search_wolfe` (`line_search.rs:29-46`); the first argument counts the remaining rounds. -/
def lsLoop (s : Sketch) (direction x0 : List F) (loss m : F) : Nat → F → Heap F → LSRes F × Heap F
  | 0, _, h => (.searchFailed, h)
  | n + 1, alpha, h =>
    match setData h s (vadd x0 (vscale alpha direction)) with
    | .error h' => (.panic, h')
    | .ok h1 =>
      let newLoss := getLoss h1 s
      if newLoss <=. loss + wolfeC1 * alpha * m then
        match getGradient h1 s with
        | .error h' => (.panic, h')
        | .ok (newGradient, h2) =>
          let curvature := dotV newGradient direction
          if ge curvature (wolfeC2 * m) then (.ok alpha, h2)
          else lsLoop s direction x0 loss m n (alpha * (1.5 : F)) h2
      else lsLoop s direction x0 loss m n (alpha * (0.5 : F)) h1

/-- `line_search_wolfe` (`line_search.rs:17-48`). -/
def lineSearch (h : Heap F) (s : Sketch) (direction gradient : List F) : LSRes F × Heap F :=
  let m := dotV gradient direction
  if ge m (0.0 : F) then (.notDescent, h)
  else lsLoop s direction (getData h s) (getLoss h s) m lsMaxIter (1.0 : F) h

/-! ## Solver results -/

/-- The errors a solver returns (as `Box<dyn Error>`). -/
inductive SolveErr where
  | notDescentDirection
  | searchFailed
  /-- "gradient contains non-finite values" (`bfgs_solver.rs:58`) -/
  | nonFiniteGradient
  /-- "search direction contains non-finite values" (`bfgs_solver.rs:67`) -/
  | nonFiniteDirection
  /-- "bfgs: line search failed twice in a row" (`bfgs_solver.rs:78`) -/
  | failedTwice
  /-- error string of `pseudo_inverse` -/
  | pseudoInverse
deriving DecidableEq, Repr

/-- `Result<(), Box<dyn Error>>` or a panic. -/
inductive SolveRes where
  | ok
  | err (e : SolveErr)
  | panic
deriving DecidableEq, Repr

/-- Ghost record of one accepted step: heap at the start of the iteration, step size, heap at its end, and (BFGS only) the
matrix at its end. -/
structure StepRec (F : Type) where
  pre : Heap F
  alpha : F
  post : Heap F
  mat : List (List F)

/-- Result, final heap, and ghost information of a solver run: `steps` are the accepted steps in order, `searches` the
number of line searches started, `failed` the number of line searches that ended with `SearchFailed`. -/
structure SolveOut (F : Type) where
  res : SolveRes
  heap : Heap F
  steps : List (StepRec F)
  searches : Nat
  failed : Nat

/-- ghost bookkeeping: prepend an accepted step (with its line search) -/
def SolveOut.cons (r : StepRec F) (o : SolveOut F) : SolveOut F :=
  { o with steps := r :: o.steps, searches := o.searches + 1 }
/-- ghost bookkeeping: count a failed line search -/
def SolveOut.addSearch (o : SolveOut F) : SolveOut F := { o with searches := o.searches + 1, failed := o.failed + 1 }

/-! ## Gradient descent -/

/-- `GradientBasedSolver` (`src/solvers/gradient_based_solver.rs:8-12`). -/
structure GDParams (F : Type) where
  maxIterations : Nat
  minLoss : F
  minGrad : F

/-- `GradientBasedSolver::new` (`gradient_based_solver.rs:21-27`). -/
def GDParams.default : GDParams F := ⟨10000, 1e-14, 1e-10⟩

/-- The loop of `GradientBasedSolver::solve` (`gradient_based_solver.rs:45-67`). -/
def gdLoop (p : GDParams F) (s : Sketch) : Nat → Heap F → List F → F → F → SolveOut F
  | 0, h, _, _, _ => ⟨.ok, h, [], 0, 0⟩
  | n + 1, h, gradient, gradNorm, loss =>
    if gradNorm <. p.minGrad then ⟨.ok, h, [], 0, 0⟩
    else if loss <. p.minLoss then ⟨.ok, h, [], 0, 0⟩
    else
      let data := getData h s
      let direction := vneg gradient
      match lineSearch h s direction gradient with
      | (.notDescent, h') => ⟨.err .notDescentDirection, h', [], 1, 0⟩
      | (.searchFailed, h') => ⟨.err .searchFailed, h', [], 1, 1⟩
      | (.panic, h') => ⟨.panic, h', [], 1, 0⟩
      | (.ok alpha, h1) =>
        match setData h1 s (axpy data alpha direction) with
        | .error h' => ⟨.panic, h', [], 1, 0⟩
        | .ok h2 =>
          let loss' := getLoss h2 s
          match getGradient h2 s with
          | .error h' => ⟨.panic, h', [], 1, 0⟩
          | .ok (gradient', h3) =>
            (gdLoop p s n h3 gradient' (normL gradient') loss').cons ⟨h, alpha, h3, []⟩

/-- `GradientBasedSolver::solve` (`gradient_based_solver.rs:39-69`). -/
def gdSolve (p : GDParams F) (h : Heap F) (s : Sketch) : SolveOut F :=
  match getGradient h s with
  | .error h' => ⟨.panic, h', [], 0, 0⟩
  | .ok (gradient, h1) => gdLoop p s p.maxIterations h1 gradient (normL gradient) (getLoss h1 s)

/-! ## BFGS -/

/-- `BFGSSolver` (`src/solvers/bfgs_solver.rs:10-14`). -/
structure BFGSParams (F : Type) where
  maxIterations : Nat
  minLoss : F
  gradientThreshold : F

/-- `BFGSSolver::new` (`bfgs_solver.rs:23-29`). -/
def BFGSParams.default : BFGSParams F := ⟨1000, 1e-16, 1e-8⟩

/-- `s_dot_y` with its guard (`bfgs_solver.rs:97-101`). -/
def guardedSy (s y : List F) : F :=
  let sDotY := dotV s y
  if Num.abs sDotY <. (1e-16 : F) then sDotY + (1e-6 : F) else sDotY

/-- The inverse-Hessian update (`bfgs_solver.rs:103-112`). -/
def bfgsUpdate (hm : List (List F)) (s y : List F) : List (List F) :=
  let sDotY := guardedSy s y
  let hy := matVec hm y
  let factor := (sDotY + dotV y hy) / (sDotY * sDotY)
  let h1 := ger hm factor s s
  let hysFactor := -(1.0 : F) / sDotY
  let h2 := ger h1 hysFactor hy s
  ger h2 hysFactor s hy

/-- The loop of `BFGSSolver::solve` (`bfgs_solver.rs:50-115`).  Arguments after the sketch: remaining iterations
(`max_iterations - iterations`), `recently_reset`, `h` (the matrix), `data`, and the heap.  The `continue` after a failed
line search does not consume an iteration; it sets `recently_reset`, so the recursion is on the pair. -/
def bfgsLoop (p : BFGSParams F) (s : Sketch) (nd : Nat) :
    (fuel : Nat) → (reset : Bool) → List (List F) → List F → Heap F → SolveOut F
  | 0, _, _, _, h => ⟨.ok, h, [], 0, 0⟩
  | n + 1, reset, hm, data, h =>
    if getLoss h s <. p.minLoss then ⟨.ok, h, [], 0, 0⟩
    else
      match getGradient h s with
      | .error h' => ⟨.panic, h', [], 0, 0⟩
      | .ok (gradient, h1) =>
        if !gradient.all Num.isFinite then ⟨.err .nonFiniteGradient, h1, [], 0, 0⟩
        else if uniformNorm gradient <. p.gradientThreshold then ⟨.ok, h1, [], 0, 0⟩
        else
          let dir := matVec (matNeg hm) gradient
          if !dir.all Num.isFinite then ⟨.err .nonFiniteDirection, h1, [], 0, 0⟩
          else
            match lineSearch h1 s dir gradient with
            | (.panic, h') => ⟨.panic, h', [], 1, 0⟩
            | (.notDescent, h') => ⟨.err .notDescentDirection, h', [], 1, 0⟩
            | (.searchFailed, h') =>
              match reset with
              | true => ⟨.err .failedTwice, h', [], 1, 1⟩
              | false => (bfgsLoop p s nd (n + 1) true (identity nd) data h').addSearch
            | (.ok alpha, h2) =>
              let st := vscale alpha dir
              let newData := vadd data st
              match setData h2 s newData with
              | .error h' => ⟨.panic, h', [], 1, 0⟩
              | .ok h3 =>
                match getGradient h3 s with
                | .error h' => ⟨.panic, h', [], 1, 0⟩
                | .ok (newGradient, h4) =>
                  let y := vsub newGradient gradient
                  (bfgsLoop p s nd n false (bfgsUpdate hm st y) newData h4).cons ⟨h, alpha, h4, bfgsUpdate hm st y⟩
termination_by fuel reset => (fuel, if reset then 0 else 1)

/-- `BFGSSolver::solve` (`bfgs_solver.rs:41-118`). -/
def bfgsSolve (p : BFGSParams F) (h : Heap F) (s : Sketch) : SolveOut F :=
  let data := getData h s
  bfgsLoop p s data.length p.maxIterations false (identity data.length) data h

/-! ## Gauss-Newton and Levenberg-Marquardt -/

/-- Outcome of nalgebra's `pseudo_inverse`: `Ok`, `Err`, or a panic (nalgebra asserts that the matrix is not empty). -/
inductive PInvRes (F : Type) where
  | ok (m : List (List F))
  | err
  | panic

/-- `DMatrix::pseudo_inverse(eps)` of nalgebra, not modelled: an arbitrary function. -/
abbrev PInv (F : Type) := List (List F) → F → PInvRes F

/-- `GaussNewtonSolver` (`src/solvers/gauss_newton_solver.rs:7-12`). -/
structure GNParams (F : Type) where
  maxIterations : Nat
  minLoss : F
  stepSize : F
  pinvEps : F

/-- `GaussNewtonSolver::new` (`gauss_newton_solver.rs:21-28`). -/
def GNParams.default : GNParams F := ⟨10000, 1e-6, 1e-3, 1e-6⟩

/-- `LevenbergMarquardtSolver` (`src/solvers/levenberg_marquardt.rs:9-15`). -/
structure LMParams (F : Type) where
  maxIterations : Nat
  minLoss : F
  stepSize : F
  pinvEps : F
  beta : F

/-- `LevenbergMarquardtSolver::new` (`levenberg_marquardt.rs:24-32`). -/
def LMParams.default : LMParams F := ⟨1000, 1e-10, 1e-1, 1e-6, 1e-5⟩

/-- Common loop of `GaussNewtonSolver::solve` (`gauss_newton_solver.rs:45-61`) and `LevenbergMarquardtSolver::solve`
(`levenberg_marquardt.rs:55-72`); the two bodies differ only in the matrix handed to `pseudo_inverse`, given by `normal`
(arguments: number of columns, Jacobian). -/
def newtonLoop (pinv : PInv F) (minLoss stepSize eps : F) (normal : Nat → List (List F) → List (List F)) (s : Sketch) :
    Nat → F → Heap F → SolveOut F
  | 0, _, h => ⟨.ok, h, [], 0, 0⟩
  | n + 1, lossSum, h =>
    if gt lossSum minLoss then
      let data := getData h s
      let losses := getLossPerConstraint h s
      let lossSum' := sumL losses
      match getJacobian h s with
      | .error h' => ⟨.panic, h', [], 0, 0⟩
      | .ok (jac, h1) =>
        let nd := data.length
        match pinv (normal nd jac) eps with
        | .panic => ⟨.panic, h1, [], 0, 0⟩
        | .err => ⟨.err .pseudoInverse, h1, [], 0, 0⟩
        | .ok pi =>
          let upd := (matVec (matMul jac.length pi (transpose nd jac)) losses).map (· * stepSize)
          match setData h1 s (vsub data upd) with
          | .error h' => ⟨.panic, h', [], 0, 0⟩
          | .ok h2 =>
            let o := newtonLoop pinv minLoss stepSize eps normal s n lossSum' h2
            { o with steps := ⟨h, stepSize, h2, []⟩ :: o.steps }
    else ⟨.ok, h, [], 0, 0⟩

/-- `jacobian.transpose() * jacobian` (`gauss_newton_solver.rs:51`). -/
def gnNormal (nd : Nat) (jac : List (List F)) : List (List F) := matMul nd (transpose nd jac) jac

/-- `jacobian.transpose() * jacobian + beta * I` (`levenberg_marquardt.rs:61-62`). -/
def lmNormal (beta : F) (nd : Nat) (jac : List (List F)) : List (List F) :=
  matAdd (matMul nd (transpose nd jac) jac) (matScale beta (identity nd))

/-- `GaussNewtonSolver::solve` (`gauss_newton_solver.rs:41-63`). -/
def gnSolve (pinv : PInv F) (p : GNParams F) (h : Heap F) (s : Sketch) : SolveOut F :=
  newtonLoop pinv p.minLoss p.stepSize p.pinvEps gnNormal s p.maxIterations Num.inf h

/-- `LevenbergMarquardtSolver::solve` (`levenberg_marquardt.rs:51-74`). -/
def lmSolve (pinv : PInv F) (p : LMParams F) (h : Heap F) (s : Sketch) : SolveOut F :=
  newtonLoop pinv p.minLoss p.stepSize p.pinvEps (lmNormal p.beta) s p.maxIterations Num.inf h

end Isotope
