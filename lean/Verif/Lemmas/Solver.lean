import Verif.Props.Data

/-!
# Solver runs, any arithmetic
-/

namespace Isotope
variable {F : Type} [Num F]

/-- one change of the step size -/
abbrev alphaStep (a : F) (b : Bool) : F := a * (if b then (1.5 : F) else 0.5)

/-- what is known when the line search accepts -/
structure Accepted (s : Sketch) (dir x0 : List F) (loss m a : F) (h' : Heap F) : Prop where
  ex : ∃ h0 h1 g', setData h0 s (vadd x0 (vscale a dir)) = .ok h1 ∧ (getLoss h1 s <=. loss + wolfeC1 * a * m) = true ∧
    getGradient h1 s = .ok (g', h') ∧ ge (dotV g' dir) (wolfeC2 * m) = true

theorem lsLoop_ok (s : Sketch) (dir x0 : List F) (loss m : F) (n : Nat) (alpha : F) (h h' : Heap F) (a : F)
    (e : lsLoop s dir x0 loss m n alpha h = (.ok a, h')) :
    ∃ l : List Bool, l.length < n ∧ a = l.foldl alphaStep alpha ∧ Accepted s dir x0 loss m a h' := by
  induction n generalizing alpha h with
  | zero => cases e
  | succ n ih =>
    unfold lsLoop at e
    cases e1 : setData h s (vadd x0 (vscale alpha dir)) with
    | error x => rw [e1] at e; cases e
    | ok h1 =>
      rw [e1] at e
      dsimp only at e
      split at e
      next hd =>
        cases e2 : getGradient h1 s with
        | error x => rw [e2] at e; cases e
        | ok r =>
          obtain ⟨g', h2⟩ := r
          rw [e2] at e
          dsimp only at e
          split at e
          next hcv => cases e; exact ⟨[], by simp, rfl, ⟨h, h1, g', e1, hd, e2, hcv⟩⟩
          next hcv =>
            obtain ⟨l, hl, ea, acc⟩ := ih _ _ e
            exact ⟨true :: l, by simpa using hl, by rw [ea]; rfl, acc⟩
      next hd =>
        obtain ⟨l, hl, ea, acc⟩ := ih _ _ e
        exact ⟨false :: l, by simpa using hl, by rw [ea]; rfl, acc⟩

theorem lsLoop_failed (s : Sketch) (dir x0 : List F) (loss m : F) (n : Nat) (alpha : F) (h h' : Heap F)
    (e : lsLoop s dir x0 loss m (n + 1) alpha h = (.searchFailed, h')) :
    ∃ l : List Bool, l.length = n ∧ ∃ h0 h1, setData h0 s (vadd x0 (vscale (l.foldl alphaStep alpha) dir)) = .ok h1 ∧
      (((getLoss h1 s <=. loss + wolfeC1 * l.foldl alphaStep alpha * m) = false ∧ h' = h1) ∨
        ∃ g', getGradient h1 s = .ok (g', h') ∧ ge (dotV g' dir) (wolfeC2 * m) = false) := by
  induction n generalizing alpha h with
  | zero =>
    unfold lsLoop at e
    cases e1 : setData h s (vadd x0 (vscale alpha dir)) with
    | error x => rw [e1] at e; cases e
    | ok h1 =>
      rw [e1] at e
      dsimp only at e
      split at e
      next hd =>
        cases e2 : getGradient h1 s with
        | error x => rw [e2] at e; cases e
        | ok r =>
          obtain ⟨g', h2⟩ := r
          rw [e2] at e
          dsimp only at e
          split at e
          next hcv => cases e
          next hcv => cases e; exact ⟨[], rfl, h, h1, e1, .inr ⟨g', e2, by simpa using hcv⟩⟩
      next hd => cases e; exact ⟨[], rfl, h, h', e1, .inl ⟨by simpa using hd, rfl⟩⟩
  | succ n ih =>
    unfold lsLoop at e
    cases e1 : setData h s (vadd x0 (vscale alpha dir)) with
    | error x => rw [e1] at e; cases e
    | ok h1 =>
      rw [e1] at e
      dsimp only at e
      split at e
      next hd =>
        cases e2 : getGradient h1 s with
        | error x => rw [e2] at e; cases e
        | ok r =>
          obtain ⟨g', h2⟩ := r
          rw [e2] at e
          dsimp only at e
          split at e
          next hcv => cases e
          next hcv =>
            obtain ⟨l, hl, r⟩ := ih _ _ e
            exact ⟨true :: l, by simpa using hl, r⟩
      next hd =>
        obtain ⟨l, hl, r⟩ := ih _ _ e
        exact ⟨false :: l, by simpa using hl, r⟩

theorem lsLoop_not_descent (s : Sketch) (dir x0 : List F) (loss m : F) (n : Nat) (alpha : F) (h h' : Heap F) :
    lsLoop s dir x0 loss m n alpha h ≠ (.notDescent, h') := by
  induction n generalizing alpha h with
  | zero => intro e; cases e
  | succ n ih =>
    intro e
    unfold lsLoop at e
    split at e
    · cases e
    · dsimp only at e
      split at e
      · split at e
        · cases e
        · split at e
          · cases e
          · exact ih _ _ e
      · exact ih _ _ e

theorem getGradient_frame {h h' : Heap F} {s : Sketch} {g : List F} (e : getGradient h s = .ok (g, h')) : GradOnly h h' := by
  have := getGradient_gradOnly h s
  rw [e] at this
  exact this

/-- writing back the data that a sketch has: nothing changes -/
theorem setData_same {h h' : Heap F} {s : Sketch} (hn : s.cells.Nodup) (e : setData h s (getData h s) = .ok h') : h' = h := by
  have := (C14_ok_iff h s hn (getData h s)).1 ⟨h', e⟩
  rw [C13_write_back h s hn (List.all_eq_true.2 this.2)] at e
  exact (Except.ok.inj e).symm

/-- the heap left by an accepting line search -/
theorem Accepted.facts {s : Sketch} {dir x0 : List F} {loss m a : F} {h' : Heap F} (hn : s.cells.Nodup)
    (acc : Accepted s dir x0 loss m a h') :
    getData h' s = vadd x0 (vscale a dir) ∧ (getLoss h' s <=. loss + wolfeC1 * a * m) = true ∧
    ∃ g' h'', getGradient h' s = .ok (g', h'') ∧ ge (dotV g' dir) (wolfeC2 * m) = true := by
  obtain ⟨h0, h1, g', e1, e2, e3, e4⟩ := acc.ex
  have fr := getGradient_frame e3
  refine ⟨?_, ?_, ?_⟩
  · rw [fr.getData, C12_roundtrip h0 h1 s _ hn e1]
  · rw [fr.getLoss]; exact e2
  · obtain ⟨h'', e⟩ := C23_gradient_idempotent h1 h' s g' e3
    exact ⟨g', h'', e, e4⟩

theorem lineSearch_ok {h h' : Heap F} {s : Sketch} {dir g : List F} {a : F} (e : lineSearch h s dir g = (.ok a, h')) :
    ge (dotV g dir) (0.0 : F) = false ∧ ∃ l : List Bool, l.length < 15 ∧ a = alphaOf l ∧
      Accepted s dir (getData h s) (getLoss h s) (dotV g dir) a h' := by
  unfold lineSearch at e
  dsimp only at e
  split at e
  · cases e
  next hm =>
    obtain ⟨l, hl, ea, acc⟩ := lsLoop_ok _ _ _ _ _ _ _ _ _ _ e
    exact ⟨by simpa using hm, l, hl, ea, acc⟩

omit [Num F] in
theorem Leads.trans_grad {h0 h h' : Heap F} {l : List (StepRec F)} (g : GradOnly h0 h) (hl : Leads h l h') : Leads h0 l h' := by
  cases l with
  | nil => exact g.trans hl
  | cons r rs => exact ⟨g.trans hl.1, hl.2⟩

/-- what one accepted step of gradient descent did -/
def GDStep (s : Sketch) (r : StepRec F) : Prop :=
  ∃ g h0 h1 h2 g', getGradient r.pre s = .ok (g, h0) ∧ lineSearch r.pre s (vneg g) g = (.ok r.alpha, h1) ∧
    setData h1 s (axpy (getData r.pre s) r.alpha (vneg g)) = .ok h2 ∧ getGradient h2 s = .ok (g', r.post)

theorem gdLoop_run (p : GDParams F) (s : Sketch) (n : Nat) (h0 h : Heap F) (g : List F) (e0 : getGradient h0 s = .ok (g, h)) :
    let o := gdLoop p s n h g (normL g) (getLoss h s)
    o.steps.length ≤ n ∧ (∀ r ∈ o.steps, GDStep s r) ∧
    (o.res = .ok → Leads h o.steps o.heap ∧
      ((∃ g' h', getGradient o.heap s = .ok (g', h') ∧ (normL g' <. p.minGrad) = true) ∨
        (getLoss o.heap s <. p.minLoss) = true ∨ o.steps.length = n)) := by
  induction n generalizing h0 h g with
  | zero => exact ⟨by simp [gdLoop], by simp [gdLoop], fun _ => ⟨GradOnly.refl h, .inr (.inr rfl)⟩⟩
  | succ n ih =>
    dsimp only
    unfold gdLoop
    obtain ⟨hh, eh⟩ := C23_gradient_idempotent h0 h s g e0
    split
    next hs => exact ⟨by simp, by simp, fun _ => ⟨GradOnly.refl h, .inl ⟨g, hh, eh, hs⟩⟩⟩
    next =>
      split
      next hs => exact ⟨by simp, by simp, fun _ => ⟨GradOnly.refl h, .inr (.inl hs)⟩⟩
      next =>
        dsimp only
        cases e1 : lineSearch h s (vneg g) g with
        | mk a h1 =>
          cases a with
          | notDescent => exact ⟨by simp, by simp, fun hr => by cases hr⟩
          | searchFailed => exact ⟨by simp, by simp, fun hr => by cases hr⟩
          | panic => exact ⟨by simp, by simp, fun hr => by cases hr⟩
          | ok alpha =>
            dsimp only
            cases e2 : setData h1 s (axpy (getData h s) alpha (vneg g)) with
            | error x => exact ⟨by simp, by simp, fun hr => by cases hr⟩
            | ok h2 =>
              dsimp only
              cases e3 : getGradient h2 s with
              | error x => exact ⟨by simp, by simp, fun hr => by cases hr⟩
              | ok r =>
                obtain ⟨g', h3⟩ := r
                dsimp only
                have hl : getLoss h2 s = getLoss h3 s := ((getGradient_frame e3).getLoss s).symm
                rw [hl]
                obtain ⟨i1, i2, i3⟩ := ih h2 h3 g' e3
                refine ⟨by simpa [SolveOut.cons] using i1, ?_, fun hr => ?_⟩
                · intro r hr
                  rcases List.mem_cons.1 hr with rfl | hr
                  · exact ⟨g, hh, h1, h2, g', eh, e1, e2, e3⟩
                  · exact i2 r hr
                · obtain ⟨j1, j2⟩ := i3 hr
                  refine ⟨⟨GradOnly.refl h, j1⟩, ?_⟩
                  rcases j2 with j2 | j2 | j2
                  · exact .inl j2
                  · exact .inr (.inl j2)
                  · exact .inr (.inr (by simp [SolveOut.cons, j2]))

theorem gdSolve_run (p : GDParams F) (h : Heap F) (s : Sketch) :
    (gdSolve p h s).steps.length ≤ p.maxIterations ∧ (∀ r ∈ (gdSolve p h s).steps, GDStep s r) ∧
    ((gdSolve p h s).res = .ok → Leads h (gdSolve p h s).steps (gdSolve p h s).heap ∧
      ((∃ g' h', getGradient (gdSolve p h s).heap s = .ok (g', h') ∧ (normL g' <. p.minGrad) = true) ∨
        (getLoss (gdSolve p h s).heap s <. p.minLoss) = true ∨ (gdSolve p h s).steps.length = p.maxIterations)) := by
  unfold gdSolve
  cases e : getGradient h s with
  | error x => exact ⟨by simp, by simp, fun hr => by cases hr⟩
  | ok r =>
    obtain ⟨g, h1⟩ := r
    dsimp only
    obtain ⟨i1, i2, i3⟩ := gdLoop_run p s p.maxIterations h h1 g e
    exact ⟨i1, i2, fun hr => ⟨(i3 hr).1.trans_grad (getGradient_frame e), (i3 hr).2⟩⟩

/-! ## BFGS -/

/-- what one accepted step of BFGS did in a run without failed line search -/
def BFGSStep (s : Sketch) (r : StepRec F) : Prop :=
  ∃ g h0 dir h1 h2 g', getGradient r.pre s = .ok (g, h0) ∧ lineSearch h0 s dir g = (.ok r.alpha, h1) ∧
    setData h1 s (vadd (getData r.pre s) (vscale r.alpha dir)) = .ok h2 ∧ getGradient h2 s = .ok (g', r.post)

theorem bfgsLoop_count (p : BFGSParams F) (s : Sketch) (nd : Nat) (n : Nat) (reset : Bool) (hm : List (List F))
    (data : List F) (h : Heap F) :
    (bfgsLoop p s nd n reset hm data h).steps.length ≤ n ∧
    (bfgsLoop p s nd n reset hm data h).steps.length ≤ (bfgsLoop p s nd n reset hm data h).searches ∧
    (bfgsLoop p s nd n reset hm data h).searches ≤ 2 * n - (if reset then 1 else 0) := by
  fun_induction bfgsLoop p s nd n reset hm data h with
  | case1 => simp
  | case10 n hm data h hl g h1 e _ _ dir _ h' e2 ih =>
    simp only [SolveOut.addSearch, if_true] at ih ⊢
    obtain ⟨i1, i2, i3⟩ := ih
    refine ⟨i1, by omega, ?_⟩
    simp only [Bool.false_eq_true, if_false]
    omega
  | case13 n reset hm data h hl g h1 e _ _ dir _ alpha h2 e2 st nd h3 e3 g' h4 e4 y ih =>
    simp only [SolveOut.cons, List.length_cons, Bool.false_eq_true, if_false] at ih ⊢
    obtain ⟨i1, i2, i3⟩ := ih
    refine ⟨by omega, by omega, ?_⟩
    split <;> omega
  | _ => simp <;> first | omega | (split <;> omega)

theorem bfgsLoop_stop (p : BFGSParams F) (s : Sketch) (nd : Nat) (n : Nat) (reset : Bool) (hm : List (List F))
    (data : List F) (h : Heap F) (hr : (bfgsLoop p s nd n reset hm data h).res = .ok) :
    (getLoss (bfgsLoop p s nd n reset hm data h).heap s <. p.minLoss) = true ∨
    (∃ g' h', getGradient (bfgsLoop p s nd n reset hm data h).heap s = .ok (g', h') ∧
      (uniformNorm g' <. p.gradientThreshold) = true) ∨
    (bfgsLoop p s nd n reset hm data h).steps.length = n := by
  revert hr
  fun_induction bfgsLoop p s nd n reset hm data h with
  | case1 => intro _; exact .inr (.inr rfl)
  | case2 n reset hm data h hl => intro _; exact .inl hl
  | case5 n reset hm data h hl g h1 e _ hu =>
    intro _
    obtain ⟨hh, eh⟩ := C23_gradient_idempotent h h1 s g e
    exact .inr (.inl ⟨g, hh, eh, hu⟩)
  | case10 n hm data h hl g h1 e _ _ dir _ h' e2 ih =>
    intro hr
    simp only [SolveOut.addSearch] at hr ⊢
    exact ih hr
  | case13 n reset hm data h hl g h1 e _ _ dir _ alpha h2 e2 st nd h3 e3 g' h4 e4 y ih =>
    intro hr
    simp only [SolveOut.cons, List.length_cons] at hr ⊢
    rcases ih hr with i | i | i
    · exact .inl i
    · exact .inr (.inl i)
    · exact .inr (.inr (by rw [i]))
  | _ => intro hr; cases hr

theorem bfgsLoop_run (p : BFGSParams F) (s : Sketch) (hn : s.cells.Nodup) (nd : Nat) (n : Nat) (reset : Bool)
    (hm : List (List F)) (data : List F) (h : Heap F) (hd : data = getData h s)
    (hf : (bfgsLoop p s nd n reset hm data h).failed = 0) :
    ((bfgsLoop p s nd n reset hm data h).res = .ok →
      Leads h (bfgsLoop p s nd n reset hm data h).steps (bfgsLoop p s nd n reset hm data h).heap) ∧
    ∀ r ∈ (bfgsLoop p s nd n reset hm data h).steps, BFGSStep s r := by
  revert hf hd
  fun_induction bfgsLoop p s nd n reset hm data h with
  | case1 => intro _ _; exact ⟨fun _ => GradOnly.refl _, by simp⟩
  | case2 => intro _ _; exact ⟨fun _ => GradOnly.refl _, by simp⟩
  | case5 n reset hm data h hl g h1 e =>
    intro _ _; exact ⟨fun _ => getGradient_frame e, by simp⟩
  | case10 n hm data h hl g h1 e _ _ dir _ h' e2 ih =>
    intro _ hf
    simp only [SolveOut.addSearch] at hf
    omega
  | case13 n reset hm data h hl g h1 e _ _ dir _ alpha h2 e2 st newData h3 e3 g' h4 e4 y ih =>
    intro hd hf
    simp only [SolveOut.cons] at hf ⊢
    have hd' : newData = getData h4 s := by
      rw [(getGradient_frame e4).getData, C12_roundtrip h2 h3 s _ hn e3]
    obtain ⟨i1, i2⟩ := ih hd' hf
    refine ⟨fun hr => ⟨GradOnly.refl h, i1 hr⟩, ?_⟩
    intro r hr
    rcases List.mem_cons.1 hr with rfl | hr
    · refine ⟨g, h1, dir, h2, h3, g', e, e2, ?_, e4⟩
      dsimp only
      rw [← hd]
      exact e3
    · exact i2 r hr
  | _ => intro _ hf; exact ⟨fun hr => (by cases hr), by simp⟩

theorem newtonLoop_count (pinv : PInv F) (a b c : F) (nrm : Nat → List (List F) → List (List F)) (s : Sketch) (n : Nat)
    (ls : F) (h : Heap F) : (newtonLoop pinv a b c nrm s n ls h).steps.length ≤ n := by
  induction n generalizing ls h with
  | zero => simp [newtonLoop]
  | succ n ih =>
    unfold newtonLoop
    split
    · dsimp only
      split
      · simp
      · split
        · simp
        · simp
        · split
          · simp
          · simpa using ih _ _
    · simp

end Isotope
