import Verif.SpecResume
import Verif.Lemmas.AnyOrder
import Verif.Props.Data

/-!
# Iteration limits, and solving again
-/

namespace Isotope
variable {F : Type} [Num F]

/-! ## Gradients left over -/

theorem gradient_leftover {h h' : Heap F} (g : GradOnly h h') (s : Sketch) :
    BothG GradOnly GradOnly Eq (getGradient h s) (getGradient h' s) := by
  have e := C23_gradient_independent h h' s g
  have g1 := getGradient_gradOnly h s
  have g2 := getGradient_gradOnly h' s
  generalize getGradient h s = r at *
  generalize getGradient h' s = r' at *
  cases r with
  | error a =>
    cases r' with
    | error b => exact .error (g1.symm.trans (g.trans g2))
    | ok b => cases e
  | ok a =>
    cases r' with
    | error b => cases e
    | ok b =>
      obtain ⟨a, ha⟩ := a
      obtain ⟨b, hb⟩ := b
      exact .ok (by injection e with e; exact e.symm) (g1.symm.trans (g.trans g2))

theorem alike_leftover (s : Sketch) : Alike s s GradOnly GradOnly (Eq (α := List F)) Eq (fun _ => True) where
  first := trivial
  shorter := fun _ => trivial
  longer := fun _ => trivial
  imp := fun h => h
  data := fun g => (g.getData s).symm
  set := by
    rintro h h' d _ g rfl
    exact gradOnly_set s s.cons d g
  loss := fun g => (g.getLoss s).symm
  grad := fun g => gradient_leftover g s
  dot := by rintro a _ b _ rfl rfl; rfl
  neg := by rintro a _ rfl; rfl
  add := by rintro x _ d _ k - rfl rfl; rfl
  axpy := by rintro x _ d _ k - rfl rfl; rfl

theorem newton_leftover (s : Sketch) (normal : Nat → List (List F) → List (List F))
    (pinv : PInv F) (ml σ eps : F) (n : Nat) (ls : F) {h h' : Heap F} (g : GradOnly h h') :
    SameRun GradOnly GradOnly Eq (newtonLoop pinv ml σ eps normal s n ls h) (newtonLoop pinv ml σ eps normal s n ls h') := by
  refine (alike_leftover s).newton (fun e => by rw [e]) (by rintro x _ u rfl; rfl) normal ?_ ?_ pinv ml trivial eps n ls g
  · intro h h' g
    rw [g.lossPer s]
  · intro h h' g
    obtain ⟨h1, g1, e1⟩ := jacobianRows_eq s s.cons h h (.refl h)
    obtain ⟨h2, g2, e2⟩ := jacobianRows_eq s s.cons h h' g
    unfold getJacobian
    rw [e1, e2]
    split
    · refine .ok ⟨rfl, fun pi => ?_⟩ (g1.symm.trans g2)
      rw [g.lossPer s]
    · exact .error (g1.symm.trans g2)

/-! ## Iteration limits -/

/-- what a run with at most `n` iterations (`o`) has to do with one with more (`o'`) -/
structure Cuts (n : Nat) (o o' : SolveOut F) : Prop where
  steps : o.steps = o'.steps.take n
  early : o.steps.length < n ∨ o.res ≠ .ok → o' = o
  last : ∀ r, n ≠ 0 → o'.steps[n - 1]? = some r → o.res = .ok ∧ o.heap = r.post

omit [Num F] in
theorem Cuts.same {n : Nat} {o : SolveOut F} (h : o.steps = []) : Cuts (n + 1) o o :=
  ⟨by rw [h]; rfl, fun _ => rfl, fun r _ e => by rw [h] at e; cases e⟩

omit [Num F] in
/-- the first step, after which the run goes on with `o` -/
theorem Cuts.step {n : Nat} {o o' q q' : SolveOut F} (r : StepRec F) (c : Cuts n o o') (h0 : n = 0 → o.res = .ok ∧ o.heap = r.post)
    (hs : q.steps = r :: o.steps) (hs' : q'.steps = r :: o'.steps) (hr : q.res = o.res) (hh : q.heap = o.heap)
    (he : o' = o → q' = q) : Cuts (n + 1) q q' := by
  refine ⟨by rw [hs, hs', List.take_succ_cons, c.steps], fun h => he (c.early ?_), fun r' _ e => ?_⟩
  · rw [hs, hr] at h
    simpa using h
  · rw [hs'] at e
    rw [hr, hh]
    cases n with
    | zero =>
      simp only [Nat.zero_add, Nat.sub_self, List.getElem?_cons_zero, Option.some.injEq] at e
      subst e
      exact h0 rfl
    | succ n =>
      simp only [Nat.add_sub_cancel, List.getElem?_cons_succ] at e
      exact c.last r' n.succ_ne_zero (by simpa using e)

omit [Num F] in
theorem cuts_zero {o o' : SolveOut F} (hs : o.steps = []) (hr : o.res = .ok) : Cuts 0 o o' :=
  ⟨by rw [hs]; rfl, fun h => by simp [hr] at h, fun _ h => absurd rfl h⟩

theorem gd_cuts (p q : GDParams F) (hl : q.minLoss = p.minLoss) (hg : q.minGrad = p.minGrad) (s : Sketch) (n m : Nat) (h : Heap F) (g : List F) (gn loss : F) :
    Cuts n (gdLoop p s n h g gn loss) (gdLoop q s (n + m) h g gn loss) := by
  induction n generalizing h g gn loss with
  | zero => exact cuts_zero rfl rfl
  | succ n ih =>
    rw [show n + 1 + m = (n + m) + 1 by omega]
    unfold gdLoop
    rw [hl, hg]
    split
    · exact .same rfl
    · split
      · exact .same rfl
      · dsimp only
        rcases lineSearch h s (vneg g) g with ⟨_ | _ | _ | _, h1⟩
        · dsimp only
          cases setData h1 s _ with
          | error h' => exact .same rfl
          | ok h2 =>
            dsimp only
            cases getGradient h2 s with
            | error h' => exact .same rfl
            | ok r =>
              dsimp only
              refine (ih r.2 r.1 _ _).step _ ?_ rfl rfl rfl rfl fun e => by rw [e]
              rintro rfl
              exact ⟨rfl, rfl⟩
        · exact .same rfl
        · exact .same rfl
        · exact .same rfl

theorem newton_cuts (pinv : PInv F) (ml σ eps : F) (normal : Nat → List (List F) → List (List F)) (s : Sketch) (n m : Nat) (ls : F) (h : Heap F) :
    Cuts n (newtonLoop pinv ml σ eps normal s n ls h) (newtonLoop pinv ml σ eps normal s (n + m) ls h) := by
  induction n generalizing h ls with
  | zero => exact cuts_zero rfl rfl
  | succ n ih =>
    rw [show n + 1 + m = (n + m) + 1 by omega]
    unfold newtonLoop
    split
    · dsimp only
      cases getJacobian h s with
      | error h' => exact .same rfl
      | ok r =>
        dsimp only
        cases pinv _ eps with
        | panic => exact .same rfl
        | err => exact .same rfl
        | ok pi =>
          dsimp only
          cases setData r.2 s _ with
          | error h' => exact .same rfl
          | ok h2 =>
            dsimp only
            refine (ih _ h2).step _ ?_ rfl rfl rfl rfl fun e => by rw [e]
            rintro rfl
            exact ⟨rfl, rfl⟩
    · exact .same rfl

omit [Num F] in
theorem Cuts.addSearch {n : Nat} {o o' : SolveOut F} (c : Cuts n o o') : Cuts n o.addSearch o'.addSearch :=
  ⟨c.steps, fun h => by rw [c.early h], c.last⟩

theorem bfgs_cuts (p q : BFGSParams F) (hl : q.minLoss = p.minLoss) (hg : q.gradientThreshold = p.gradientThreshold) (s : Sketch) (nd n m : Nat)
    (reset : Bool) (hm : List (List F)) (x : List F) (h : Heap F) :
    Cuts n (bfgsLoop p s nd n reset hm x h) (bfgsLoop q s nd (n + m) reset hm x h) := by
  induction n generalizing reset hm x h with
  | zero => exact cuts_zero (by unfold bfgsLoop; rfl) (by unfold bfgsLoop; rfl)
  | succ n ih =>
    rw [show n + 1 + m = (n + m) + 1 by omega]
    have key : ∀ (reset : Bool) (hm : List (List F)) (x : List F) (h : Heap F),
        (reset = false → ∀ h', Cuts (n + 1) (bfgsLoop p s nd (n + 1) true (identity nd) x h') (bfgsLoop q s nd (n + m + 1) true (identity nd) x h')) →
        Cuts (n + 1) (bfgsLoop p s nd (n + 1) reset hm x h) (bfgsLoop q s nd (n + m + 1) reset hm x h) := by
      intro reset hm x h hres
      rw [bfgsLoop, bfgsLoop, hl, hg]
      split
      · exact .same rfl
      · cases getGradient h s with
        | error h' => exact .same rfl
        | ok r =>
          dsimp only
          split
          · exact .same rfl
          · split
            · exact .same rfl
            · split
              · exact .same rfl
              · rcases lineSearch r.2 s _ r.1 with ⟨_ | _ | _ | _, h1⟩
                · dsimp only
                  cases setData h1 s _ with
                  | error h' => exact .same rfl
                  | ok h2 =>
                    dsimp only
                    cases getGradient h2 s with
                    | error h' => exact .same rfl
                    | ok r' =>
                      dsimp only
                      refine (ih false _ _ _).step _ ?_ rfl rfl rfl rfl fun e => by rw [e]
                      rintro rfl
                      constructor <;> (unfold bfgsLoop; rfl)
                · exact .same rfl
                · cases reset with
                  | true => exact .same rfl
                  | false => exact (hres rfl h1).addSearch
                · exact .same rfl
    exact key reset hm x h fun _ h' => key true _ _ h' nofun

/-! ## Going on -/

variable {R E : Heap F → Heap F → Prop} {M : List (List F) → List (List F) → Prop}

omit [Num F] in
/-- a step more in front of both -/
theorem SameRun.more {o o1 o2 q : SolveOut F} {r : StepRec F} {k : Nat} (c : SameRun R E M o (o1.followedBy o2))
    (hr : R r.pre r.pre ∧ R r.post r.post ∧ M r.mat r.mat) (hq : q = { o with steps := r :: o.steps, searches := o.searches + k }) :
    SameRun R E M q (({ o1 with steps := r :: o1.steps, searches := o1.searches + k } : SolveOut F).followedBy o2) := by
  subst hq
  refine ⟨c.res, c.heap, c.panicked, ?_, c.failed, .cons ⟨hr.1, rfl, hr.2.1, hr.2.2⟩ c.steps⟩
  have := c.searches
  simp only [SolveOut.followedBy] at this ⊢
  omega

theorem gdLoop_params (p q : GDParams F) (hl : q.minLoss = p.minLoss) (hg : q.minGrad = p.minGrad) (s : Sketch) (n : Nat) (h : Heap F)
    (g : List F) (gn loss : F) : gdLoop q s n h g gn loss = gdLoop p s n h g gn loss := by
  induction n generalizing h g gn loss with
  | zero => rfl
  | succ n ih =>
    unfold gdLoop
    rw [hl, hg]
    simp only [ih]

theorem gd_again {p : GDParams F} {s : Sketch} {m : Nat} {h h' : Heap F} {g : List F} (e : getGradient h' s = .ok (g, h)) :
    SameRun GradOnly GradOnly Eq (gdLoop p s m h g (normL g) (getLoss h s)) (gdSolve { p with maxIterations := m } h s) := by
  obtain ⟨h2, e2⟩ := C23_gradient_idempotent h' h s g e
  have fr2 : GradOnly h h2 := by have := getGradient_gradOnly h s; rwa [e2] at this
  unfold gdSolve
  rw [e2]
  dsimp only
  rw [fr2.getLoss s, gdLoop_params p { p with maxIterations := m } rfl rfl]
  exact (alike_leftover s).gdLoop rfl p m fr2 rfl _ _

/-- gradient descent stopped and called again goes on as if it had not been stopped -/
theorem gd_resume (p : GDParams F) (s : Sketch) (n m : Nat) {h h' : Heap F} {g : List F} (e : getGradient h' s = .ok (g, h))
    (hok : (gdLoop p s n h g (normL g) (getLoss h s)).res = .ok) :
    SameRun GradOnly GradOnly Eq (gdLoop p s (n + m) h g (normL g) (getLoss h s))
      ((gdLoop p s n h g (normL g) (getLoss h s)).followedBy
        (gdSolve { p with maxIterations := m } (gdLoop p s n h g (normL g) (getLoss h s)).heap s)) := by
  induction n generalizing h h' g with
  | zero =>
    have c := gd_again (p := p) (m := m) e
    rw [Nat.zero_add]
    exact ⟨c.res, c.heap, c.panicked, by simpa [SolveOut.followedBy, gdLoop] using c.searches,
      by simpa [SolveOut.followedBy, gdLoop] using c.failed, c.steps⟩
  | succ n ih =>
    -- a run that stops at once stops at once again
    have stop : ∀ n, gdLoop p s (n + 1) h g (normL g) (getLoss h s) = ⟨.ok, h, [], 0, 0⟩ →
        (∀ m, gdLoop p s m h g (normL g) (getLoss h s) = ⟨.ok, h, [], 0, 0⟩) →
        SameRun GradOnly GradOnly Eq (gdLoop p s (n + 1 + m) h g (normL g) (getLoss h s))
          ((gdLoop p s (n + 1) h g (normL g) (getLoss h s)).followedBy
            (gdSolve { p with maxIterations := m } (gdLoop p s (n + 1) h g (normL g) (getLoss h s)).heap s)) := by
      intro n e1 e2
      have c := gd_again (p := p) (m := m) e
      rw [e2 m] at c
      rw [e1, e2]
      exact ⟨c.res, c.heap, c.panicked, by simpa [SolveOut.followedBy] using c.searches,
        by simpa [SolveOut.followedBy] using c.failed, c.steps⟩
    by_cases h1 : (normL g <. p.minGrad) = true
    · refine stop n (by rw [gdLoop, if_pos h1]) fun m => ?_
      cases m with
      | zero => rfl
      | succ m => rw [gdLoop, if_pos h1]
    by_cases h2 : (getLoss h s <. p.minLoss) = true
    · refine stop n (by rw [gdLoop, if_neg h1, if_pos h2]) fun m => ?_
      cases m with
      | zero => rfl
      | succ m => rw [gdLoop, if_neg h1, if_pos h2]
    clear stop
    rw [show n + 1 + m = (n + m) + 1 by omega]
    rw [gdLoop, if_neg h1, if_neg h2] at hok ⊢
    rw [gdLoop, if_neg h1, if_neg h2]
    dsimp only at hok ⊢
    generalize lineSearch h s (vneg g) g = r at hok ⊢
    rcases r with ⟨_ | _ | _ | _, k1⟩
    · dsimp only at hok ⊢
      cases e1 : setData k1 s (axpy (getData h s) _ (vneg g)) with
      | error k2 => rw [e1] at hok; cases hok
      | ok k2 =>
        rw [e1] at hok
        dsimp only at hok ⊢
        cases e2 : getGradient k2 s with
        | error k3 => rw [e2] at hok; cases hok
        | ok r =>
          obtain ⟨g', k3⟩ := r
          rw [e2] at hok
          dsimp only at hok ⊢
          have fr := getGradient_gradOnly k2 s
          rw [e2] at fr
          have el : getLoss k2 s = getLoss k3 s := (fr.getLoss s).symm
          rw [el] at hok ⊢
          exact SameRun.more (k := 1) (ih e2 hok) ⟨.refl _, .refl _, rfl⟩ rfl
    · cases hok
    · cases hok
    · cases hok

/-- a Newton-type solver does not remember anything but whether the loss before the last step was small -/
theorem newton_resume (pinv : PInv F) (ml σ eps : F) (normal : Nat → List (List F) → List (List F)) (s : Sketch)
    (hinf : gt Num.inf ml = true) (n m : Nat) {ls : F} (hls : gt ls ml = true) (h : Heap F)
    (hok : (newtonLoop pinv ml σ eps normal s n ls h).res = .ok)
    (hgo : (newtonLoop pinv ml σ eps normal s (n + m) ls h).res = .ok → n < (newtonLoop pinv ml σ eps normal s (n + m) ls h).steps.length) :
    newtonLoop pinv ml σ eps normal s (n + m) ls h =
      (newtonLoop pinv ml σ eps normal s n ls h).followedBy
        (newtonLoop pinv ml σ eps normal s m Num.inf (newtonLoop pinv ml σ eps normal s n ls h).heap) := by
  induction n generalizing ls h with
  | zero =>
    rw [Nat.zero_add] at hgo ⊢
    have e : newtonLoop pinv ml σ eps normal s 0 ls h = ⟨.ok, h, [], 0, 0⟩ := rfl
    rw [e]
    have e' : newtonLoop pinv ml σ eps normal s m ls h = newtonLoop pinv ml σ eps normal s m Num.inf h := by
      cases m with
      | zero => rfl
      | succ m => rw [newtonLoop, if_pos hls, newtonLoop, if_pos hinf]
    rw [e']
    simp [SolveOut.followedBy]
  | succ n ih =>
    rw [show n + 1 + m = (n + m) + 1 by omega] at hgo ⊢
    rw [newtonLoop, if_pos hls] at hok hgo ⊢
    rw [newtonLoop, if_pos hls]
    dsimp only at hok hgo ⊢
    cases e1 : getJacobian h s with
    | error k => rw [e1] at hok; cases hok
    | ok r =>
      obtain ⟨J, k1⟩ := r
      rw [e1] at hok hgo
      dsimp only at hok hgo ⊢
      cases e2 : pinv (normal (getData h s).length J) eps with
      | panic => rw [e2] at hok; cases hok
      | err => rw [e2] at hok; cases hok
      | ok pi =>
        rw [e2] at hok hgo
        dsimp only at hok hgo ⊢
        generalize setData k1 s _ = e3 at hok hgo ⊢
        cases e3 with
        | error k => cases hok
        | ok k2 =>
          dsimp only at hok hgo ⊢
          by_cases hl : gt (sumL (getLossPerConstraint h s)) ml = true
          · have := ih hl k2 hok fun e => by simpa using hgo e
            rw [this]
            rfl
          · -- the run would stop here
            have stop : ∀ j, newtonLoop pinv ml σ eps normal s j (sumL (getLossPerConstraint h s)) k2 = ⟨.ok, k2, [], 0, 0⟩ := by
              intro j
              cases j with
              | zero => rfl
              | succ j => rw [newtonLoop, if_neg hl]
            rw [stop] at hgo
            have := hgo rfl
            simp at this

/-- BFGS that stopped before its limit stops at once when called again -/
theorem bfgs_done (p : BFGSParams F) (s : Sketch) (nd n : Nat) (reset : Bool) (hm : List (List F)) (x : List F) (h : Heap F)
    (hok : (bfgsLoop p s nd n reset hm x h).res = .ok) (hlt : (bfgsLoop p s nd n reset hm x h).steps.length < n) :
    (getLoss (bfgsLoop p s nd n reset hm x h).heap s <. p.minLoss) = true ∨
    ∃ h1 g, getGradient h1 s = .ok (g, (bfgsLoop p s nd n reset hm x h).heap) ∧ g.all Num.isFinite = true ∧
      (uniformNorm g <. p.gradientThreshold) = true := by
  induction n generalizing reset hm x h with
  | zero => simp at hlt
  | succ n ih =>
    have key : ∀ (reset : Bool) (hm : List (List F)) (x : List F) (h : Heap F),
        (reset = false → ∀ h', (bfgsLoop p s nd (n + 1) true (identity nd) x h').res = .ok →
          (bfgsLoop p s nd (n + 1) true (identity nd) x h').steps.length < n + 1 →
          (getLoss (bfgsLoop p s nd (n + 1) true (identity nd) x h').heap s <. p.minLoss) = true ∨
          ∃ h1 g, getGradient h1 s = .ok (g, (bfgsLoop p s nd (n + 1) true (identity nd) x h').heap) ∧ g.all Num.isFinite = true ∧
            (uniformNorm g <. p.gradientThreshold) = true) →
        (bfgsLoop p s nd (n + 1) reset hm x h).res = .ok → (bfgsLoop p s nd (n + 1) reset hm x h).steps.length < n + 1 →
        (getLoss (bfgsLoop p s nd (n + 1) reset hm x h).heap s <. p.minLoss) = true ∨
        ∃ h1 g, getGradient h1 s = .ok (g, (bfgsLoop p s nd (n + 1) reset hm x h).heap) ∧ g.all Num.isFinite = true ∧
          (uniformNorm g <. p.gradientThreshold) = true := by
      intro reset hm x h hres
      rw [bfgsLoop]
      split
      · next hl => exact fun _ _ => .inl hl
      · cases eg : getGradient h s with
        | error h' => exact nofun
        | ok r =>
          dsimp only
          split
          · exact nofun
          · next hf =>
            split
            · next hu => exact fun _ _ => .inr ⟨h, r.1, eg, by simpa using hf, hu⟩
            · split
              · exact nofun
              · rcases lineSearch r.2 s _ r.1 with ⟨_ | _ | _ | _, h1⟩
                · dsimp only
                  cases setData h1 s _ with
                  | error h' => exact nofun
                  | ok h2 =>
                    dsimp only
                    cases getGradient h2 s with
                    | error h' => exact nofun
                    | ok r' =>
                      dsimp only
                      intro a b
                      exact ih false _ _ _ a (by simpa [SolveOut.cons] using b)
                · exact nofun
                · cases reset with
                  | true => exact nofun
                  | false => exact hres rfl h1
                · exact nofun
    exact key reset hm x h (fun _ h' => key true _ _ h' nofun) hok hlt

end Isotope
