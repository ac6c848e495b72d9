import Verif.Lemmas.Resume
import Verif.Props.Damped
import Verif.Lemmas.ExRun

/-!
# C95: iteration limits, and solving again

In any arithmetic.  A limit on the number of iterations only cuts a run off; gradient descent and (with a proviso) the Newton-type solvers,
stopped by their limit and called again, go on as if they had not been stopped.
-/

namespace Isotope
variable {F : Type} [Num F]

theorem solver_cuts (pinv : PInv F) (k : SolverKind F) (h : Heap F) (s : Sketch) {n m : Nat} (hnm : n ≤ m) :
    Cuts n (runSolver pinv (k.withMax n) h s) (runSolver pinv (k.withMax m) h s) ∨
    ((runSolver pinv (k.withMax n) h s).steps = [] ∧ runSolver pinv (k.withMax m) h s = runSolver pinv (k.withMax n) h s) := by
  obtain ⟨d, rfl⟩ := Nat.exists_eq_add_of_le hnm
  cases k with
  | gd p =>
    simp only [SolverKind.withMax, runSolver, gdSolve]
    cases getGradient h s with
    | error h' => exact .inr ⟨rfl, rfl⟩
    | ok r => exact .inl (gd_cuts { p with maxIterations := n } { p with maxIterations := n + d } rfl rfl s n d ..)
  | bfgs p => exact .inl (bfgs_cuts { p with maxIterations := n } { p with maxIterations := n + d } rfl rfl s _ n d ..)
  | gn p => exact .inl (newton_cuts pinv _ _ _ _ s n d ..)
  | lm p => exact .inl (newton_cuts pinv _ _ _ _ s n d ..)

/-- **C95.** A run limited to `n` iterations consists of the first `n` steps of the run with a higher limit. -/
theorem C95_limit (pinv : PInv F) (k : SolverKind F) (h : Heap F) (s : Sketch) {n m : Nat} (hnm : n ≤ m) :
    (runSolver pinv (k.withMax n) h s).steps = (runSolver pinv (k.withMax m) h s).steps.take n := by
  rcases solver_cuts pinv k h s hnm with c | ⟨c, e⟩
  · exact c.steps
  · rw [e, c, List.take_nil]

/-- **C95.** If it makes fewer than `n` steps, or ends with an error or a panic, a higher limit changes nothing at all: same result, same
end, same steps and line searches. -/
theorem C95_early (pinv : PInv F) (k : SolverKind F) (h : Heap F) (s : Sketch) {n m : Nat} (hnm : n ≤ m)
    (he : (runSolver pinv (k.withMax n) h s).steps.length < n ∨ (runSolver pinv (k.withMax n) h s).res ≠ .ok) :
    runSolver pinv (k.withMax m) h s = runSolver pinv (k.withMax n) h s := by
  rcases solver_cuts pinv k h s hnm with c | ⟨c, e⟩
  · exact c.early he
  · exact e

/-- **C95.** If the run with the higher limit makes an `n`-th step, the run limited to `n` returns `Ok` and leaves everything - coordinates and
gradients - as the longer run has it after that step. -/
theorem C95_where (pinv : PInv F) (k : SolverKind F) (h : Heap F) (s : Sketch) {n m : Nat} (hnm : n ≤ m) (hn : n ≠ 0) (r : StepRec F)
    (hr : (runSolver pinv (k.withMax m) h s).steps[n - 1]? = some r) :
    (runSolver pinv (k.withMax n) h s).res = .ok ∧ (runSolver pinv (k.withMax n) h s).heap = r.post := by
  rcases solver_cuts pinv k h s hnm with c | ⟨c, e⟩
  · exact c.last r hn hr
  · rw [e, c] at hr
    cases hr

/-- **C95.** Gradients left over from earlier calls do not influence a solver. -/
theorem C95_leftover (pinv : PInv F) (k : SolverKind F) {h h' : Heap F} (g : GradOnly h h') (s : Sketch) :
    SameRun GradOnly GradOnly Eq (runSolver pinv k h s) (runSolver pinv k h' s) := by
  cases k with
  | gd p => exact (alike_leftover s).gd rfl p g
  | bfgs p => exact (alike_leftover s).bfgs (fun e => by rw [e]) p g
  | gn p => exact newton_leftover s _ pinv _ _ _ _ _ g
  | lm p => exact newton_leftover s _ pinv _ _ _ _ _ g

/-- **C95.** Gradient descent limited to `n` iterations, if it returns `Ok`, and then called again with limit `m`, does what one call with limit
`n + m` does: same result, same steps and line searches, same coordinates throughout. -/
theorem C95_gd_resume (p : GDParams F) (h : Heap F) (s : Sketch) (n m : Nat) (hok : (gdSolve { p with maxIterations := n } h s).res = .ok) :
    SameRun GradOnly GradOnly Eq (gdSolve { p with maxIterations := n + m } h s)
      ((gdSolve { p with maxIterations := n } h s).followedBy
        (gdSolve { p with maxIterations := m } (gdSolve { p with maxIterations := n } h s).heap s)) := by
  have e0 : ∀ n h1, gdSolve { p with maxIterations := n } h1 s = match getGradient h1 s with
      | .error h' => ⟨.panic, h', [], 0, 0⟩
      | .ok (gradient, h1) => gdLoop p s n h1 gradient (normL gradient) (getLoss h1 s) := by
    intro n h1
    unfold gdSolve
    cases getGradient h1 s with
    | error h' => rfl
    | ok r => exact gdLoop_params p { p with maxIterations := n } rfl rfl s n ..
  cases e : getGradient h s with
  | error h' => rw [e0, e] at hok; cases hok
  | ok r =>
    have e1 : ∀ n, gdSolve { p with maxIterations := n } h s = gdLoop p s n r.2 r.1 (normL r.1) (getLoss r.2 s) := by
      intro n; rw [e0, e]
    rw [e1] at hok
    rw [e1, e1]
    exact gd_resume p s n m e hok

/-- **C95.** Gauss-Newton limited to `n` iterations, if it returns `Ok`, and then called again with limit `m`, does exactly what one call with
limit `n + m` does, unless that call returns `Ok` with no more than `n` steps. -/
theorem C95_gn_resume (pinv : PInv F) (p : GNParams F) (h : Heap F) (s : Sketch) (n m : Nat) (hinf : gt Num.inf p.minLoss = true)
    (hok : (gnSolve pinv { p with maxIterations := n } h s).res = .ok)
    (hgo : (gnSolve pinv { p with maxIterations := n + m } h s).res = .ok →
      n < (gnSolve pinv { p with maxIterations := n + m } h s).steps.length) :
    gnSolve pinv { p with maxIterations := n + m } h s = (gnSolve pinv { p with maxIterations := n } h s).followedBy
      (gnSolve pinv { p with maxIterations := m } (gnSolve pinv { p with maxIterations := n } h s).heap s) :=
  newton_resume pinv p.minLoss p.stepSize p.pinvEps gnNormal s hinf n m hinf h hok hgo

/-- **C95.** Levenberg-Marquardt too. -/
theorem C95_lm_resume (pinv : PInv F) (p : LMParams F) (h : Heap F) (s : Sketch) (n m : Nat) (hinf : gt Num.inf p.minLoss = true)
    (hok : (lmSolve pinv { p with maxIterations := n } h s).res = .ok)
    (hgo : (lmSolve pinv { p with maxIterations := n + m } h s).res = .ok →
      n < (lmSolve pinv { p with maxIterations := n + m } h s).steps.length) :
    lmSolve pinv { p with maxIterations := n + m } h s = (lmSolve pinv { p with maxIterations := n } h s).followedBy
      (lmSolve pinv { p with maxIterations := m } (lmSolve pinv { p with maxIterations := n } h s).heap s) :=
  newton_resume pinv p.minLoss p.stepSize p.pinvEps (lmNormal p.beta) s hinf n m hinf h hok hgo

/-- **C95.** The proviso is needed: a Newton-type solver never finishes without a step, not even where it has finished before. If it returns
`Ok` it has moved the sketch at least once. -/
theorem C95_newton_moves (pinv : PInv F) (h : Heap F) (s : Sketch) :
    (∀ p : GNParams F, gt Num.inf p.minLoss = true → p.maxIterations ≠ 0 → (gnSolve pinv p h s).res = .ok → (gnSolve pinv p h s).steps ≠ []) ∧
    (∀ p : LMParams F, gt Num.inf p.minLoss = true → p.maxIterations ≠ 0 → (lmSolve pinv p h s).res = .ok → (lmSolve pinv p h s).steps ≠ []) := by
  have H : ∀ (ml σ eps : F) (normal : Nat → List (List F) → List (List F)) (n : Nat), gt Num.inf ml = true → n ≠ 0 →
      (newtonLoop pinv ml σ eps normal s n Num.inf h).res = .ok → (newtonLoop pinv ml σ eps normal s n Num.inf h).steps ≠ [] := by
    intro ml σ eps normal n hi hn
    obtain ⟨n, rfl⟩ := Nat.exists_eq_succ_of_ne_zero hn
    rw [newtonLoop, if_pos hi]
    dsimp only
    cases getJacobian h s with
    | error _ => exact nofun
    | ok r =>
      dsimp only
      cases pinv _ eps with
      | panic => exact nofun
      | err => exact nofun
      | ok pi =>
        dsimp only
        cases setData r.2 s _ with
        | error _ => exact nofun
        | ok h2 =>
          intro _
          exact List.cons_ne_nil _ _
  exact ⟨fun p hi hn => H _ _ _ _ _ hi hn, fun p hi hn => H _ _ _ _ _ hi hn⟩

/-- **C95.** BFGS that returned `Ok` before its limit and is called again, with any limit, returns `Ok` at once and moves nothing. -/
theorem C95_bfgs_again (p : BFGSParams F) (h : Heap F) (s : Sketch) (hok : (bfgsSolve p h s).res = .ok)
    (hlt : (bfgsSolve p h s).steps.length < p.maxIterations) (m : Nat) :
    (bfgsSolve { p with maxIterations := m } (bfgsSolve p h s).heap s).res = .ok ∧
    (bfgsSolve { p with maxIterations := m } (bfgsSolve p h s).heap s).steps = [] ∧
    (bfgsSolve { p with maxIterations := m } (bfgsSolve p h s).heap s).searches = 0 ∧
    GradOnly (bfgsSolve p h s).heap (bfgsSolve { p with maxIterations := m } (bfgsSolve p h s).heap s).heap := by
  rcases bfgs_done p s _ _ _ _ _ h hok hlt with hl | ⟨h1, g, eg, hf, hu⟩
  · rw [C36_bfgs_stays { p with maxIterations := m } (bfgsSolve p h s).heap s hl]
    exact ⟨rfl, rfl, rfl, .refl _⟩
  · obtain ⟨h2, e2⟩ := C23_gradient_idempotent h1 (bfgsSolve p h s).heap s g eg
    exact C36_bfgs_stays_gradient { p with maxIterations := m } (bfgsSolve p h s).heap h2 s g e2 (List.all_eq_true.1 hf) hu

/-! ## Examples -/

section Examples
open XR

/-- C95_gd_resume: one step, then up to five more, which are not needed -/
example : SameRun GradOnly GradOnly Eq (gdSolve ⟨1 + 5, 1e-14, 1e-10⟩ (fixHeap 3 4 0 0 0 0) fixSketch)
    ((gdSolve ⟨1, 1e-14, 1e-10⟩ (fixHeap 3 4 0 0 0 0) fixSketch).followedBy
      (gdSolve ⟨5, 1e-14, 1e-10⟩ (gdSolve ⟨1, 1e-14, 1e-10⟩ (fixHeap 3 4 0 0 0 0) fixSketch).heap fixSketch)) ∧
    (gdSolve ⟨1, 1e-14, 1e-10⟩ (fixHeap 3 4 0 0 0 0) fixSketch).steps.length = 1 := by
  have e := fix_gdSolve (x := 3) (y := 4) (a := 0) (b := 0) (u := 0) (v := 0) 0 (by norm_num)
  exact ⟨C95_gd_resume ⟨1, 1e-14, 1e-10⟩ _ _ 1 5 (by rw [e]), by rw [e]; rfl⟩

/-- C95_bfgs_again -/
example : (bfgsSolve ⟨100, 1e-16, 1e-8⟩ (fixHeap 3 4 0 0 0 0) fixSketch).res = .ok ∧
    (bfgsSolve ⟨100, 1e-16, 1e-8⟩ (fixHeap 3 4 0 0 0 0) fixSketch).steps.length < 100 := by
  obtain ⟨M, e⟩ := fix_bfgsSolve (x := 3) (y := 4) (a := 0) (b := 0) 0 0 99 (by norm_num) (by norm_num)
  rw [e]
  simp

/-- C95_lm_resume: with default parameters two points that should be 1 apart keep the solver going for all of its 1000 iterations, and it does
not matter whether they are made in one call or in two -/
example : lmSolve cutPInv .default (rodsHeap 1 1) (rods 1) =
    (lmSolve cutPInv { LMParams.default with maxIterations := 400 } (rodsHeap 1 1) (rods 1)).followedBy
      (lmSolve cutPInv { LMParams.default with maxIterations := 600 }
        (lmSolve cutPInv { LMParams.default with maxIterations := 400 } (rodsHeap 1 1) (rods 1)).heap (rods 1)) := by
  obtain ⟨a, b, -⟩ := C76_default_fails cutPInv_real cutPInv_good cutPInv_cut (rods_nodup 1) (rods_closed 1 1)
    (rods_finite 1 1) (rods_disjoint 1 1) 0 (by simp [rods]) (by rw [rods_error]; norm_num)
  refine C95_lm_resume cutPInv .default (rodsHeap 1 1) (rods 1) 400 600 (by simp [gt, LMParams.default, Num.inf]; rfl) ?_ fun _ => ?_
  · exact lm_diffs_ok cutPInv_good _ (rods_nodup 1) (rods_closed 1 1) (rods_finite 1 1) (rods_disjoint 1 1) (by simp [rods]) 1e-1 1e-5
      (by simp only [LMParams.default, sci]) (by simp only [LMParams.default, sci])
  · show 400 < (lmSolve cutPInv .default (rodsHeap 1 1) (rods 1)).steps.length
    rw [b]
    norm_num

/-- C95_where: the first 400 of these 1000 steps -/
example : ∃ r, (runSolver cutPInv ((SolverKind.lm LMParams.default).withMax 1000) (rodsHeap 1 1) (rods 1)).steps[400 - 1]? = some r := by
  obtain ⟨a, b, -⟩ := C76_default_fails cutPInv_real cutPInv_good cutPInv_cut (rods_nodup 1) (rods_closed 1 1)
    (rods_finite 1 1) (rods_disjoint 1 1) 0 (by simp [rods]) (by rw [rods_error]; norm_num)
  have : 400 - 1 < (runSolver cutPInv ((SolverKind.lm LMParams.default).withMax 1000) (rodsHeap 1 1) (rods 1)).steps.length := by
    show 400 - 1 < (lmSolve cutPInv .default (rodsHeap 1 1) (rods 1)).steps.length
    rw [b]
    norm_num
  exact ⟨_, List.getElem?_eq_getElem this⟩

/-- C95_early: a run that ends after one of ten steps -/
example (pinv : PInv XR) : (runSolver pinv ((SolverKind.gd ⟨0, 1e-14, 1e-10⟩).withMax 10) (fixHeap 3 4 0 0 0 0) fixSketch).steps.length < 10 := by
  have e := fix_gdSolve (x := 3) (y := 4) (a := 0) (b := 0) (u := 0) (v := 0) 9 (by norm_num)
  show (gdSolve ⟨10, 1e-14, 1e-10⟩ (fixHeap 3 4 0 0 0 0) fixSketch).steps.length < 10
  rw [e]
  simp

end Examples

end Isotope
