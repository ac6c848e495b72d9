import Verif.Lemmas.Solver
import Verif.XRLaws

/-!
# Solvers in any arithmetic (C26, C28-C30, C33, C34)
-/

namespace Isotope
variable {F : Type} [Num F]

/-! ## C26 -/

/-- **C26.** `NotDescentDirection` is returned exactly if the gradient does not point against the direction, and then
nothing at all has changed. -/
theorem C26_not_descent (h h' : Heap F) (s : Sketch) (dir g : List F) :
    lineSearch h s dir g = (.notDescent, h') ↔ ((0.0 : F) <=. dotV g dir) = true ∧ h' = h := by
  unfold lineSearch
  dsimp only
  split
  next hm =>
    constructor
    · intro e; cases e; exact ⟨hm, rfl⟩
    · rintro ⟨-, rfl⟩; rfl
  next hm =>
    constructor
    · intro e; exact absurd e (lsLoop_not_descent _ _ _ _ _ _ _ _ _)
    · rintro ⟨hm', -⟩; exact absurd hm' hm

/-- **C26.** If the line search returns `alpha`, then `alpha` is 1.0 multiplied by fewer than 15 factors 0.5 or 1.5, the
sketch is at `x0 + alpha * d`, and there the sufficient decrease and the curvature condition hold, as computed. -/
theorem C26_accepted (h h' : Heap F) (s : Sketch) (hn : s.cells.Nodup) (dir g : List F) (alpha : F)
    (e : lineSearch h s dir g = (.ok alpha, h')) :
    ((0.0 : F) <=. dotV g dir) = false ∧
    (∃ l : List Bool, l.length < 15 ∧ alpha = alphaOf l) ∧
    getData h' s = List.zipWith (fun x d => x + alpha * d) (getData h s) dir ∧
    (getLoss h' s <=. getLoss h s + (1e-4 : F) * alpha * dotV g dir) = true ∧
    ∃ g' h'', getGradient h' s = .ok (g', h'') ∧ ((0.9 : F) * dotV g dir <=. dotV g' dir) = true := by
  obtain ⟨hm, l, hl, ea, acc⟩ := lineSearch_ok e
  obtain ⟨f1, f2, f3⟩ := acc.facts hn
  refine ⟨hm, ⟨l, hl, ea⟩, ?_, f2, f3⟩
  rw [f1, vadd, vscale, List.zipWith_map_right]

/-- **C26.** If the line search gives up, the sketch is left at the fifteenth trial point, which violates one of the two
conditions. -/
theorem C26_failed (h h' : Heap F) (s : Sketch) (hn : s.cells.Nodup) (dir g : List F)
    (e : lineSearch h s dir g = (.searchFailed, h')) :
    ∃ l : List Bool, l.length = 14 ∧
      getData h' s = List.zipWith (fun x d => x + alphaOf l * d) (getData h s) dir ∧
      ((getLoss h' s <=. getLoss h s + (1e-4 : F) * alphaOf l * dotV g dir) = false ∨
        ∃ g' h'', getGradient h' s = .ok (g', h'') ∧ ((0.9 : F) * dotV g dir <=. dotV g' dir) = false) := by
  unfold lineSearch at e
  dsimp only at e
  split at e
  · cases e
  next hm =>
    obtain ⟨l, hl, h0, h1, e1, r⟩ := lsLoop_failed _ _ _ _ _ 14 _ _ _ e
    refine ⟨l, hl, ?_, ?_⟩
    · have hd : getData h1 s = List.zipWith (fun x d => x + alphaOf l * d) (getData h s) dir := by
        rw [C12_roundtrip h0 h1 s _ hn e1, vadd, vscale, List.zipWith_map_right]; rfl
      rcases r with ⟨-, rfl⟩ | ⟨g', eg, -⟩
      · exact hd
      · rw [(getGradient_frame eg).getData]; exact hd
    · rcases r with ⟨r, rfl⟩ | ⟨g', eg, r⟩
      · exact .inl r
      · obtain ⟨h'', e2⟩ := C23_gradient_idempotent h1 h' s g' eg
        exact .inr ⟨g', h'', e2, r⟩

/-! ## C28 -/

/-- **C28.** Every accepted step of gradient descent satisfies sufficient decrease: the loss where the step ends is at
most the loss where it started plus `1e-4 * alpha * (gradient . direction)`, and at most the loss where it started. -/
theorem C28_sufficient_decrease [FloatLaws F] (p : GDParams F) (h : Heap F) (s : Sketch) (hn : s.cells.Nodup) :
    ∀ r ∈ (gdSolve p h s).steps, ∃ g h0, getGradient r.pre s = .ok (g, h0) ∧
      getData r.post s = List.zipWith (fun x d => x + r.alpha * d) (getData r.pre s) (vneg g) ∧
      (getLoss r.post s <=. getLoss r.pre s + (1e-4 : F) * r.alpha * dotV g (vneg g)) = true ∧
      (getLoss r.post s <=. getLoss r.pre s) = true := by
  intro r hr
  obtain ⟨g, h0, h1, h2, g', e0, e1, e2, e3⟩ := (gdSolve_run p h s).2.1 r hr
  obtain ⟨hm, l, hl, ea, acc⟩ := lineSearch_ok e1
  obtain ⟨f1, f2, f3⟩ := acc.facts hn
  have hax : axpy (getData r.pre s) r.alpha (vneg g) = vadd (getData r.pre s) (vscale r.alpha (vneg g)) := by
    unfold axpy vadd vscale
    rw [List.zipWith_map_right]
    congr 1
    funext x d
    rw [FloatLaws.one_mul, FloatLaws.add_comm]
  rw [hax, ← f1] at e2
  have h21 : h2 = h1 := setData_same hn e2
  subst h21
  have fr := getGradient_frame e3
  refine ⟨g, h0, e0, ?_, ?_, ?_⟩
  · rw [fr.getData, f1, vadd, vscale, List.zipWith_map_right]
  · rw [fr.getLoss]; exact f2
  · rw [fr.getLoss]
    refine FloatLaws.le_of_le_add _ _ _ f2 (FloatLaws.mul_not_pos _ _ ?_ hm)
    rw [ea]; exact FloatLaws.alpha_pos l hl

theorem leads_decrease [FloatLaws F] (s : Sketch) (l : List (StepRec F)) (h h' : Heap F) (hl : Leads h l h')
    (hd : ∀ r ∈ l, (getLoss r.post s <=. getLoss r.pre s) = true) :
    (l = [] ∧ GradOnly h h') ∨ (getLoss h' s <=. getLoss h s) = true := by
  induction l generalizing h with
  | nil => exact .inl ⟨rfl, hl⟩
  | cons r l ih =>
    right
    have h1 := hd r (by simp)
    rw [hl.1.getLoss] at h1
    rcases ih _ hl.2 fun r hr => hd r (by simp [hr]) with ⟨-, g⟩ | h2
    · rw [g.getLoss]; exact h1
    · exact FloatLaws.le_trans _ _ _ h2 h1

/-- **C28.** If gradient descent returns `Ok`, then either no step was made and no coordinate changed, or the loss is at
most the loss before. -/
theorem C28_monotone [FloatLaws F] (p : GDParams F) (h : Heap F) (s : Sketch) (hn : s.cells.Nodup)
    (hr : (gdSolve p h s).res = .ok) :
    ((gdSolve p h s).steps = [] ∧ GradOnly h (gdSolve p h s).heap) ∨
      (getLoss (gdSolve p h s).heap s <=. getLoss h s) = true := by
  refine leads_decrease s _ _ _ ((gdSolve_run p h s).2.2 hr).1 fun r hr => ?_
  obtain ⟨_, _, _, _, _, h4⟩ := C28_sufficient_decrease p h s hn r hr
  exact h4

/-! ## C29 -/

/-- **C29.** Gradient descent makes at most `max_iterations` steps; if it returns `Ok`, the accepted steps lead from the
initial to the final state and the final gradient norm is `< min_grad`, or the final loss is `< min_loss`, or exactly
`max_iterations` steps were made. -/
theorem C29_stop (p : GDParams F) (h : Heap F) (s : Sketch) :
    (gdSolve p h s).steps.length ≤ p.maxIterations ∧
    ((gdSolve p h s).res = .ok → Leads h (gdSolve p h s).steps (gdSolve p h s).heap ∧
      ((∃ g h', getGradient (gdSolve p h s).heap s = .ok (g, h') ∧ (normL g <. p.minGrad) = true) ∨
        (getLoss (gdSolve p h s).heap s <. p.minLoss) = true ∨ (gdSolve p h s).steps.length = p.maxIterations)) :=
  ⟨(gdSolve_run p h s).1, (gdSolve_run p h s).2.2⟩

/-! ## C30 -/

/-- **C30.** BFGS makes at most `max_iterations` steps and at most `2 * max_iterations` line searches. -/
theorem C30_terminates (p : BFGSParams F) (h : Heap F) (s : Sketch) :
    (bfgsSolve p h s).steps.length ≤ p.maxIterations ∧ (bfgsSolve p h s).searches ≤ 2 * p.maxIterations := by
  obtain ⟨h1, -, h3⟩ := bfgsLoop_count p s (getData h s).length p.maxIterations false (identity (getData h s).length)
    (getData h s) h
  exact ⟨h1, le_trans h3 (by simp)⟩

/-- **C30.** If BFGS returns `Ok` then the final loss is `< min_loss`, or every entry of the final gradient is below the
threshold, or exactly `max_iterations` steps were made. -/
theorem C30_stop (p : BFGSParams F) (h : Heap F) (s : Sketch) (hr : (bfgsSolve p h s).res = .ok) :
    (getLoss (bfgsSolve p h s).heap s <. p.minLoss) = true ∨
    (∃ g h', getGradient (bfgsSolve p h s).heap s = .ok (g, h') ∧ (uniformNorm g <. p.gradientThreshold) = true) ∨
    (bfgsSolve p h s).steps.length = p.maxIterations :=
  bfgsLoop_stop p s _ _ _ _ _ _ hr

/-! ## C33 -/

/-- **C33.** In a run without failed line search every step of BFGS satisfies sufficient
decrease. -/
theorem C33_sufficient_decrease [FloatLaws F] (p : BFGSParams F) (h : Heap F) (s : Sketch) (hn : s.cells.Nodup)
    (hf : (bfgsSolve p h s).failed = 0) :
    ∀ r ∈ (bfgsSolve p h s).steps, ∃ g dir h0, getGradient r.pre s = .ok (g, h0) ∧
      getData r.post s = List.zipWith (fun x d => x + r.alpha * d) (getData r.pre s) dir ∧
      ((0.0 : F) <=. dotV g dir) = false ∧
      (getLoss r.post s <=. getLoss r.pre s + (1e-4 : F) * r.alpha * dotV g dir) = true ∧
      (getLoss r.post s <=. getLoss r.pre s) = true := by
  intro r hr'
  obtain ⟨g, h0, dir, h1, h2, g', e0, e1, e2, e3⟩ := (bfgsLoop_run p s hn _ _ _ _ _ _ rfl hf).2 r hr'
  obtain ⟨hm, l, hl, ea, acc⟩ := lineSearch_ok e1
  have fr0 := getGradient_frame e0
  rw [fr0.getData, fr0.getLoss] at acc
  obtain ⟨f1, f2, f3⟩ := acc.facts hn
  rw [← f1] at e2
  have h21 : h2 = h1 := setData_same hn e2
  subst h21
  have fr := getGradient_frame e3
  refine ⟨g, dir, h0, e0, ?_, hm, ?_, ?_⟩
  · rw [fr.getData, f1, vadd, vscale, List.zipWith_map_right]
  · rw [fr.getLoss]; exact f2
  · rw [fr.getLoss]
    refine FloatLaws.le_of_le_add _ _ _ f2 (FloatLaws.mul_not_pos _ _ ?_ hm)
    rw [ea]; exact FloatLaws.alpha_pos l hl

/-- **C33.** If BFGS returns `Ok` and no line search failed, then either no step was made and no coordinate changed, or the
loss is at most the loss before. -/
theorem C33_monotone [FloatLaws F] (p : BFGSParams F) (h : Heap F) (s : Sketch) (hn : s.cells.Nodup)
    (hr : (bfgsSolve p h s).res = .ok) (hf : (bfgsSolve p h s).failed = 0) :
    ((bfgsSolve p h s).steps = [] ∧ GradOnly h (bfgsSolve p h s).heap) ∨
      (getLoss (bfgsSolve p h s).heap s <=. getLoss h s) = true := by
  refine leads_decrease s _ _ _ ((bfgsLoop_run p s hn _ _ _ _ _ _ rfl hf).1 hr) fun r hr' => ?_
  obtain ⟨_, _, _, _, _, _, _, h4⟩ := C33_sufficient_decrease p h s hn hf r hr'
  exact h4

/-! ## C34 -/

/-- **C34.** Gauss-Newton makes at most `max_iterations` steps, whatever `pseudo_inverse` returns. -/
theorem C34_gn_terminates (pinv : PInv F) (p : GNParams F) (h : Heap F) (s : Sketch) :
    (gnSolve pinv p h s).steps.length ≤ p.maxIterations := newtonLoop_count _ _ _ _ _ _ _ _ _

/-- **C34.** Levenberg-Marquardt makes at most `max_iterations` steps, whatever `pseudo_inverse` returns. -/
theorem C34_lm_terminates (pinv : PInv F) (p : LMParams F) (h : Heap F) (s : Sketch) :
    (lmSolve pinv p h s).steps.length ≤ p.maxIterations := newtonLoop_count _ _ _ _ _ _ _ _ _

theorem newtonLoop_stop (pinv : PInv F) (ml b c : F) (nrm : Nat → List (List F) → List (List F)) (s : Sketch) (n : Nat)
    (ls : F) (h : Heap F) (hr : (newtonLoop pinv ml b c nrm s n ls h).res = .ok) :
    ((newtonLoop pinv ml b c nrm s n ls h).steps = [] ∧ (ml <. ls) = false) ∨
    (newtonLoop pinv ml b c nrm s n ls h).steps.length = n ∨
    ∃ r, (newtonLoop pinv ml b c nrm s n ls h).steps.getLast? = some r ∧
      (ml <. sumL (getLossPerConstraint r.pre s)) = false := by
  induction n generalizing ls h with
  | zero => exact .inr (.inl rfl)
  | succ n ih =>
    unfold newtonLoop at hr ⊢
    split at hr
    next hls =>
      rw [if_pos hls]
      dsimp only at hr ⊢
      split at hr
      · cases hr
      next jac h1 e =>
        split at hr
        · cases hr
        · cases hr
        next pi ep =>
          split at hr
          · cases hr
          next h2 es =>
            right
            rcases ih _ _ hr with ⟨i1, i2⟩ | i | ⟨r, i1, i2⟩
            · right
              rw [i1]
              exact ⟨_, rfl, i2⟩
            · left
              rw [List.length_cons, i]
            · right
              refine ⟨r, ?_, i2⟩
              rw [List.getLast?_cons, i1]; rfl
    next hls =>
      rw [if_neg hls]
      exact .inl ⟨rfl, by simpa [gt] using hls⟩

/-- **C34.** If Gauss-Newton returns `Ok`, then it made no step because `min_loss` is not below infinity, or exactly
`max_iterations` steps, or the sum of the losses *before* the last step was not above `min_loss`.  (Nothing is said of the
losses after the last step: the code does not look at them.) -/
theorem C34_gn_stop (pinv : PInv F) (p : GNParams F) (h : Heap F) (s : Sketch) (hr : (gnSolve pinv p h s).res = .ok) :
    ((gnSolve pinv p h s).steps = [] ∧ (p.minLoss <. Num.inf) = false) ∨
    (gnSolve pinv p h s).steps.length = p.maxIterations ∨
    ∃ r, (gnSolve pinv p h s).steps.getLast? = some r ∧ (p.minLoss <. sumL (getLossPerConstraint r.pre s)) = false :=
  newtonLoop_stop _ _ _ _ _ _ _ _ _ hr

/-- **C34.** The same for Levenberg-Marquardt. -/
theorem C34_lm_stop (pinv : PInv F) (p : LMParams F) (h : Heap F) (s : Sketch) (hr : (lmSolve pinv p h s).res = .ok) :
    ((lmSolve pinv p h s).steps = [] ∧ (p.minLoss <. Num.inf) = false) ∨
    (lmSolve pinv p h s).steps.length = p.maxIterations ∨
    ∃ r, (lmSolve pinv p h s).steps.getLast? = some r ∧ (p.minLoss <. sumL (getLossPerConstraint r.pre s)) = false :=
  newtonLoop_stop _ _ _ _ _ _ _ _ _ hr

theorem newtonLoop_leads (pinv : PInv F) (ml b c : F) (nrm : Nat → List (List F) → List (List F)) (s : Sketch) (n : Nat)
    (ls : F) (h : Heap F) (hr : (newtonLoop pinv ml b c nrm s n ls h).res ≠ .panic) :
    Leads h (newtonLoop pinv ml b c nrm s n ls h).steps (newtonLoop pinv ml b c nrm s n ls h).heap := by
  induction n generalizing ls h with
  | zero => exact .refl h
  | succ n ih =>
    unfold newtonLoop at hr ⊢
    split at hr
    next hls =>
      rw [if_pos hls]
      dsimp only at hr ⊢
      split at hr
      · exact absurd rfl hr
      next jac h1 e =>
        have g : GradOnly h h1 := by have := getJacobian_gradOnly h s; rwa [e] at this
        split at hr
        · exact absurd rfl hr
        · exact g
        next pi ep =>
          split at hr
          · exact absurd rfl hr
          next h2 es => exact ⟨.refl h, ih _ _ hr⟩
    next hls =>
      rw [if_neg hls]
      exact .refl h

/-- **C34.** The steps of Gauss-Newton lead from the first to the last state: between the end of a step and the start of the
next one no coordinate changes. -/
theorem C34_gn_leads (pinv : PInv F) (p : GNParams F) (h : Heap F) (s : Sketch) (hr : (gnSolve pinv p h s).res ≠ .panic) :
    Leads h (gnSolve pinv p h s).steps (gnSolve pinv p h s).heap := newtonLoop_leads _ _ _ _ _ _ _ _ _ hr

/-- **C34.** The same for Levenberg-Marquardt. -/
theorem C34_lm_leads (pinv : PInv F) (p : LMParams F) (h : Heap F) (s : Sketch) (hr : (lmSolve pinv p h s).res ≠ .panic) :
    Leads h (lmSolve pinv p h s).steps (lmSolve pinv p h s).heap := newtonLoop_leads _ _ _ _ _ _ _ _ _ hr

end Isotope
