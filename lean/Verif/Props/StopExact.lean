import Verif.Props.Solver
import Verif.Props.Data
import Verif.Props.Newton
import Verif.Props.Cut
import Verif.Lemmas.LinearBFGS
import Verif.Lemmas.ExRun

/-!
# What the tests of the solvers mean in exact arithmetic (C26, C29, C30, C34, C36)

The theorems of these properties for any arithmetic compare what `dot`, `norm`, `apply_norm(&UniformNorm)` and `sum` of nalgebra
return.  Here are the same facts with real inner products, lengths, absolute values and sums.
-/

namespace Isotope
open XR
open Matrix

variable {h : Heap XR} {s : Sketch}

/-- a gradient that was returned is a vector of reals -/
theorem gradient_real {h1 : Heap XR} {g : List XR} (e : getGradient h s = .ok (g, h1)) :
    ∃ v : Fin (getNDofs h s) → ℝ, g = vec v := by
  obtain ⟨gf, gl⟩ := getGradient_vec e
  exact exists_vec' gf gl

/-- **C26.** In exact arithmetic: `NotDescentDirection` means that the inner product of gradient and direction is not negative. -/
theorem C26_not_descent_exact {n : Nat} (g d : Fin n → ℝ) (h' : Heap XR) :
    lineSearch h s (vec d) (vec g) = (.notDescent, h') ↔ 0 ≤ ∑ i, g i * d i ∧ h' = h := by
  rw [C26_not_descent, dotV_vec, zero_lit, le_fin, decide_eq_true_eq]
  rfl

/-- **C26.** In exact arithmetic: an accepted step size is positive, the sketch is at `x + alpha d`, the loss has fallen by at least
`1e-4 alpha |g . d|`, and the slope along `d` has risen to at least nine tenths of what it was. -/
theorem C26_accepted_exact (hn : s.cells.Nodup) {g d x : Fin (getNDofs h s) → ℝ} {alpha : XR} {h' : Heap XR} (hx : getData h s = vec x)
    (e : lineSearch h s (vec d) (vec g) = (.ok alpha, h')) :
    ∃ a : ℝ, alpha = fin a ∧ 0 < a ∧ (∑ i, g i * d i) < 0 ∧ getData h' s = vec (fun i => x i + a * d i) ∧
      (∀ L L' : ℝ, getLoss h s = fin L → getLoss h' s = fin L' → L' ≤ L + 1e-4 * a * ∑ i, g i * d i) ∧
      ∃ (g' : Fin (getNDofs h s) → ℝ) (h'' : Heap XR), getGradient h' s = .ok (vec g', h'') ∧
        0.9 * (∑ i, g i * d i) ≤ ∑ i, g' i * d i := by
  obtain ⟨h1, ⟨l, -, hl⟩, h2, h3, g', h'', h4, h5⟩ := C26_accepted h h' s hn _ _ alpha e
  have ha : ∃ a : ℝ, alphaOf (F := XR) l = fin a ∧ 0 < a := by
    unfold alphaOf
    rw [show (1.0 : XR) = fin 1 from one_lit]
    suffices hh : ∀ (l : List Bool) (b : ℝ), 0 < b → ∃ a : ℝ, l.foldl (fun a b => a * (if b then (1.5 : XR) else 0.5)) (fin b) = fin a ∧ 0 < a from
      hh l 1 one_pos
    intro l
    induction l with
    | nil => exact fun b hb => ⟨b, rfl, hb⟩
    | cons c l ih =>
      intro b hb
      rw [List.foldl_cons]
      cases c
      · simp only [Bool.false_eq_true, if_false, sci, mul_fin]
        exact ih _ (by positivity)
      · simp only [if_true, sci, mul_fin]
        exact ih _ (by positivity)
  obtain ⟨a, ea, ha⟩ := ha
  rw [ea] at hl
  subst hl
  rw [dotV_vec] at h1 h3 h5
  obtain ⟨v, rfl⟩ := gradient_real h4
  have hnd : getNDofs h' s = getNDofs h s := getNDofs_congr h h' s
  revert v
  rw [hnd]
  intro v h4 h5
  refine ⟨a, rfl, ha, ?_, ?_, fun L L' eL eL' => ?_, v, h'', h4, ?_⟩
  · rw [zero_lit, le_fin, decide_eq_false_iff_not, not_le] at h1
    exact h1
  · rw [h2, hx]
    unfold vec
    apply List.ext_getElem (by simp)
    intro i a1 a2
    simp
  · rw [eL, eL'] at h3
    simp only [sci, mul_fin, add_fin, le_fin, decide_eq_true_eq] at h3
    exact h3
  · simp only [dotV_vec, sci, mul_fin, le_fin, decide_eq_true_eq] at h5
    exact h5

/-- **C29.** In exact arithmetic: if gradient descent returns `Ok`, the length of the final gradient is less than `min_grad`, or the
final loss is less than `min_loss`, or exactly `max_iterations` steps were made. -/
theorem C29_stop_exact (n : Nat) (ml : XR) (mg : ℝ) (hr : (gdSolve ⟨n, ml, fin mg⟩ h s).res = .ok) :
    (∃ (g : Fin (getNDofs h s) → ℝ) (h' : Heap XR), getGradient (gdSolve ⟨n, ml, fin mg⟩ h s).heap s = .ok (vec g, h') ∧
      Real.sqrt (∑ i, g i ^ 2) < mg) ∨
    (getLoss (gdSolve ⟨n, ml, fin mg⟩ h s).heap s <. ml) = true ∨ (gdSolve ⟨n, ml, fin mg⟩ h s).steps.length = n := by
  obtain ⟨-, h2⟩ := (C29_stop ⟨n, ml, fin mg⟩ h s).2 hr
  rcases h2 with ⟨g, h', e, hg⟩ | h2
  · left
    have hnd : getNDofs (gdSolve ⟨n, ml, fin mg⟩ h s).heap s = getNDofs h s := getNDofs_congr h _ s
    obtain ⟨v, rfl⟩ := gradient_real e
    revert v
    rw [hnd]
    intro v e hg
    refine ⟨v, h', e, ?_⟩
    rw [normL_vec, lt_fin, decide_eq_true_eq] at hg
    simp only [pow_two]
    exact hg
  · exact .inr h2

/-- **C30.** In exact arithmetic: if BFGS returns `Ok`, the final loss is less than `min_loss`, or every partial derivative in the final
gradient is less than the threshold in absolute value, or exactly `max_iterations` steps were made. -/
theorem C30_stop_exact (n : Nat) (ml : XR) {t : ℝ} (ht : 0 < t) (hr : (bfgsSolve ⟨n, ml, fin t⟩ h s).res = .ok) :
    (getLoss (bfgsSolve ⟨n, ml, fin t⟩ h s).heap s <. ml) = true ∨
    (∃ (g : Fin (getNDofs h s) → ℝ) (h' : Heap XR), getGradient (bfgsSolve ⟨n, ml, fin t⟩ h s).heap s = .ok (vec g, h') ∧
      ∀ i, |g i| < t) ∨
    (bfgsSolve ⟨n, ml, fin t⟩ h s).steps.length = n := by
  rcases C30_stop ⟨n, ml, fin t⟩ h s hr with h2 | ⟨g, h', e, hg⟩ | h2
  · exact .inl h2
  · right; left
    have hnd : getNDofs (bfgsSolve ⟨n, ml, fin t⟩ h s).heap s = getNDofs h s := getNDofs_congr h _ s
    obtain ⟨v, rfl⟩ := gradient_real e
    revert v
    rw [hnd]
    intro v e hg
    obtain ⟨u, eu, hu⟩ := uniformNorm_vec v
    refine ⟨v, h', e, (hu t ht).1 ?_⟩
    rw [eu, lt_fin, decide_eq_true_eq] at hg
    exact hg
  · exact .inr (.inr h2)

theorem sumL_vec {n : Nat} (l : Fin n → ℝ) : sumL (vec l) = fin (∑ i, l i) := by
  have key : ∀ (L : List ℝ) (a : ℝ), (L.map fin).foldl (· + ·) (fin a) = fin (a + L.sum) := by
    intro L
    induction L with
    | nil => intro a; simp
    | cons z L ih =>
      intro a
      rw [List.map_cons, List.foldl_cons, add_fin, ih, List.sum_cons, add_assoc]
  have : vec l = (List.ofFn l).map fin := by simp [vec, List.map_ofFn, Function.comp_def]
  unfold sumL
  rw [this, zero_lit, key, List.sum_ofFn, zero_add]

/-- **C34.** In exact arithmetic: if Gauss-Newton, started with at least one iteration and a real `min_loss`, returns `Ok`, then it made
exactly `max_iterations` steps, or before its last step the losses summed to at most `min_loss`. -/
theorem C34_gn_stop_exact {pinv : PInv XR} (hp : RealPInv pinv) (hn : s.cells.Nodup) (hc : Closed ⟨h, s⟩) (hf : FiniteSketch h s)
    (n : Nat) (ml σ : ℝ) (eps : XR) (hr : (gnSolve pinv ⟨n, fin ml, fin σ, eps⟩ h s).res = .ok) :
    (gnSolve pinv ⟨n, fin ml, fin σ, eps⟩ h s).steps.length = n ∨
    ∃ (r : StepRec XR) (l : Fin s.cons.length → ℝ), (gnSolve pinv ⟨n, fin ml, fin σ, eps⟩ h s).steps.getLast? = some r ∧
      getLossPerConstraint r.pre s = vec l ∧ ∑ i, l i ≤ ml := by
  rcases C34_gn_stop pinv _ h s hr with ⟨-, h2⟩ | h2 | ⟨r, h2, h3⟩
  · cases (show true = false from h2)
  · exact .inl h2
  · obtain ⟨J, P, x0, x1, l, h', -, el, -⟩ := C59_gauss_newton hp _ hn hc hf σ rfl r (List.mem_of_getLast? h2)
    refine .inr ⟨r, l, h2, el, ?_⟩
    rw [el, sumL_vec, lt_fin, decide_eq_false_iff_not, not_lt] at h3
    exact h3

/-- **C34.** The same for Levenberg-Marquardt. -/
theorem C34_lm_stop_exact {pinv : PInv XR} (hp : RealPInv pinv) (hn : s.cells.Nodup) (hc : Closed ⟨h, s⟩) (hf : FiniteSketch h s)
    (n : Nat) (ml σ β : ℝ) (eps : XR) (hr : (lmSolve pinv ⟨n, fin ml, fin σ, eps, fin β⟩ h s).res = .ok) :
    (lmSolve pinv ⟨n, fin ml, fin σ, eps, fin β⟩ h s).steps.length = n ∨
    ∃ (r : StepRec XR) (l : Fin s.cons.length → ℝ), (lmSolve pinv ⟨n, fin ml, fin σ, eps, fin β⟩ h s).steps.getLast? = some r ∧
      getLossPerConstraint r.pre s = vec l ∧ ∑ i, l i ≤ ml := by
  rcases C34_lm_stop pinv _ h s hr with ⟨-, h2⟩ | h2 | ⟨r, h2, h3⟩
  · cases (show true = false from h2)
  · exact .inl h2
  · obtain ⟨J, P, A, x0, x1, l, h', -, el, -⟩ := C59_levenberg_marquardt hp _ hn hc hf σ β rfl rfl r (List.mem_of_getLast? h2)
    refine .inr ⟨r, l, h2, el, ?_⟩
    rw [el, sumL_vec, lt_fin, decide_eq_false_iff_not, not_lt] at h3
    exact h3

/-- **C36.** In exact arithmetic: gradient descent does not move a sketch whose gradient is shorter than `min_grad`. -/
theorem C36_gd_stays_exact (n : Nat) (ml : XR) {mg : ℝ} {g : Fin (getNDofs h s) → ℝ} {h1 : Heap XR}
    (hg : getGradient h s = .ok (vec g, h1)) (small : Real.sqrt (∑ i, g i ^ 2) < mg) :
    (gdSolve ⟨n, ml, fin mg⟩ h s).res = .ok ∧ (gdSolve ⟨n, ml, fin mg⟩ h s).steps = [] ∧
      GradOnly h (gdSolve ⟨n, ml, fin mg⟩ h s).heap := by
  have := C36_gd_stays ⟨n, ml, fin mg⟩ h h1 s _ hg (.inl (by
    rw [normL_vec, lt_fin, decide_eq_true_eq]
    simp only [pow_two] at small
    exact small))
  exact ⟨this.1, this.2.1, this.2.2.2⟩

/-- **C36.** In exact arithmetic: BFGS does not move a sketch whose partial derivatives are all less than the threshold in absolute
value. -/
theorem C36_bfgs_stays_exact (n : Nat) (ml : XR) {t : ℝ} (ht : 0 < t) {g : Fin (getNDofs h s) → ℝ} {h1 : Heap XR}
    (hg : getGradient h s = .ok (vec g, h1)) (small : ∀ i, |g i| < t) :
    (bfgsSolve ⟨n, ml, fin t⟩ h s).res = .ok ∧ (bfgsSolve ⟨n, ml, fin t⟩ h s).steps = [] ∧
      GradOnly h (bfgsSolve ⟨n, ml, fin t⟩ h s).heap := by
  obtain ⟨u, eu, hu⟩ := uniformNorm_vec g
  have := C36_bfgs_stays_gradient ⟨n, ml, fin t⟩ h h1 s _ hg (List.all_eq_true.1 (getGradient_vec hg).1) (by
    rw [eu, lt_fin, decide_eq_true_eq]
    exact (hu t ht).2 small)
  exact ⟨this.1, this.2.1, this.2.2.2⟩

/-! ## Examples -/

/-- C26_not_descent_exact: the gradient itself is not a direction of descent. -/
example : (0 : ℝ) ≤ ∑ i, (![3, 4] : Fin 2 → ℝ) i * (![3, 4] : Fin 2 → ℝ) i := by simp; norm_num

/-- C26_accepted_exact: a line search that accepts a step (the vectors have the length of the sketch). -/
example : getData (fixHeap 3 4 0 0 0 0) fixSketch = vec ![0, 0] ∧
    lineSearch (fixHeap 3 4 0 0 0 0) fixSketch (vec ![3, 4]) (vec ![-3, -4]) = (.ok (fin 1), fixHeap 3 4 3 4 0 0) := by
  refine ⟨by rw [fix_data]; simp [vec], ?_⟩
  have := fix_lineSearch (x := 3) (y := 4) (a := 0) (b := 0) 0 0 (by norm_num)
  simpa [vec] using this

/-- C29_stop_exact: a run that returns `Ok` after one step. -/
example : (gdSolve ⟨100, fin 1e-14, fin 1e-10⟩ (fixHeap 3 4 0 0 0 0) fixSketch).res = .ok :=
  congrArg (·.res) (fix_gdSolve (x := 3) (y := 4) (a := 0) (b := 0) 0 0 99 (by norm_num))

/-- C30_stop_exact: a run that returns `Ok` after one step. -/
example : (bfgsSolve ⟨100, fin 1e-16, fin 1e-8⟩ (fixHeap 3 4 0 0 0 0) fixSketch).res = .ok :=
  congrArg (·.res) (fix_bfgsSolve (x := 3) (y := 4) (a := 0) (b := 0) 0 0 99 (by norm_num) (by norm_num)).choose_spec

/-- C34_gn_stop_exact, C34_lm_stop_exact: runs that return `Ok`. -/
example : RealPInv genPInv ∧ (gnSolve genPInv ⟨100, fin 1e-6, fin 1e-3, fin 1e-6⟩ (fixHeap 0 0 1 0 0 0) fixSketch).res = .ok ∧
    (lmSolve genPInv ⟨100, fin 1e-10, fin 0.1, fin 1e-6, fin 1e-5⟩ (fixHeap 0 0 1 0 0 0) fixSketch).res = .ok := by
  refine ⟨genPInv_real, ?_, ?_⟩
  · exact C34_gn_ok genPInv_good _ fixSketch_nodup (fix_closed 0 0 1 0 0 0) (fix_finite 0 0 1 0 0 0) 1e-3 rfl
      (by rw [fix_nDofs]; norm_num) (by simp [fixSketch, fixHeap, upd])
  · exact C34_lm_ok genPInv_good _ fixSketch_nodup (fix_closed 0 0 1 0 0 0) (fix_finite 0 0 1 0 0 0) 0.1 1e-5 rfl rfl
      (by rw [fix_nDofs]; norm_num) (by simp [fixSketch, fixHeap, upd])

/-- C36_gd_stays_exact, C36_bfgs_stays_exact: a point not quite where it is to be fixed, left there because of generous tolerances. -/
example : getGradient (fixHeap 3 4 3 4.5 0 0) fixSketch = .ok (vec ![0, 0.5], fixHeap 3 4 3 4.5 0 0.5) ∧
    Real.sqrt (∑ i, (![0, 0.5] : Fin 2 → ℝ) i ^ 2) < 1 ∧ ∀ i, |(![0, 0.5] : Fin 2 → ℝ) i| < 1 := by
  refine ⟨?_, ?_, fun i => ?_⟩
  · rw [fix_gradient]; norm_num [vec]
  · rw [Real.sqrt_lt' one_pos]; simp; norm_num
  · fin_cases i <;> norm_num

end Isotope
