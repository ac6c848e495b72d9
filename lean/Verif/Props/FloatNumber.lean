import Verif.Props.FloatOk

/-!
# The losses of a Newton run are numbers (C90)

Gauss-Newton and Levenberg-Marquardt would stop on a NaN loss and return `Ok`.  It does not happen unless a parameter of a constraint is
NaN: a constraint with a NaN loss makes `get_jacobian` panic.
-/

namespace Isotope
open Round Val

variable {lm : Libm}

theorem fin_num {x : B64 lm} (h : Num.isFinite x = true) : x.v.isNan = false := by
  obtain ⟨r, hr⟩ := B64.is_of_finite h
  exact hr.notNan

theorem half_sq_num {e : B64 lm} (h : e.v.isNan = false) : ((0.5 : B64 lm) * e * e).v.isNan = false := by
  have hh := B64.is_half (lm := lm)
  obtain ⟨s, m, e1, e2⟩ := hh
  have m0 : m.1 ≠ 0 := by
    intro h0; rw [h0] at e2; cases s <;> simp [sgn] at e2
  obtain ⟨v⟩ := e
  show ((Val.mul (0.5 : B64 lm).v v).mul v).isNan = false
  rw [e1]
  cases v with
  | nan => cases h
  | inf a => simp only [Val.mul, if_neg m0]; rfl
  | num a q =>
    simp only [Val.mul]
    unfold Val.pack
    split_ifs with h1
    · exact pack_not_nan _ _
    · dsimp only
      split_ifs with h2
      · exact absurd (by rw [h2, mul_zero, abs_zero, Rep.zero.rnd_eq]; exact (two_pos 0).trans (pow_lt_top (by norm_num))) h1
      · rfl

theorem mul_num {x y : B64 lm} (hx : Num.isFinite x = true) (hy : Num.isFinite y = true) : (x * y).v.isNan = false := by
  obtain ⟨_, s, m, e, -⟩ := B64.is_of_finite hx
  obtain ⟨_, s', m', e', -⟩ := B64.is_of_finite hy
  show (Val.mul x.v y.v).isNan = false
  rw [e, e']
  exact pack_not_nan _ _

theorem sub_num {x y : B64 lm} (hx : Num.isFinite x = true) (hy : y.v.isNan = false) : (x - y).v.isNan = false := by
  obtain ⟨_, s, m, e, -⟩ := B64.is_of_finite hx
  show (Val.add x.v y.v.neg).isNan = false
  rw [e]
  generalize y.v = v at hy
  cases v with
  | nan => cases hy
  | inf a => rfl
  | num a q => exact add_num_not_nan _ _ _ _

theorem plus_add_num {x y : B64 lm} (px : Plus x.v) (py : Plus y.v) (hx : x.v.isNan = false) (hy : y.v.isNan = false) :
    (x + y).v.isNan = false := by
  show (Val.add x.v y.v).isNan = false
  generalize x.v = u at *
  generalize y.v = v at *
  cases u with
  | nan => cases hx
  | inf a =>
    cases v with
    | nan => cases hy
    | inf b =>
      rcases px with px | px
      · cases px
      rcases py with py | py
      · cases py
      simp only [isNeg] at px py
      subst px py
      rfl
    | num b n => rfl
  | num a m =>
    cases v with
    | nan => cases hy
    | inf b => rfl
    | num b n => exact add_num_not_nan _ _ _ _

theorem half_sum_num {x y : B64 lm} (hx : Num.isFinite x = true) (hy : Num.isFinite y = true) :
    ((0.5 : B64 lm) * (x * x + y * y)).v.isNan = false := by
  have hh := B64.is_half (lm := lm)
  obtain ⟨s, m, e1, e2⟩ := hh
  have m0 : m.1 ≠ 0 := by
    intro h0; rw [h0] at e2; cases s <;> simp [sgn] at e2
  have := plus_add_num (x := x * x) (y := y * y) (plus_sq x.v) (plus_sq y.v) (mul_num hx hx) (mul_num hy hy)
  show (Val.mul (0.5 : B64 lm).v (x * x + y * y).v).isNan = false
  rw [e1]
  generalize (x * x + y * y).v = v at this
  cases v with
  | nan => cases this
  | inf a => simp only [Val.mul, if_neg m0]; rfl
  | num a q => exact pack_not_nan _ _

theorem B64.add_fins {x y : B64 lm} (h : Num.isFinite (x + y) = true) : Num.isFinite x = true ∧ Num.isFinite y = true := by
  obtain ⟨_, _, h1, h2, -⟩ := B64.add_fin h
  exact ⟨h1.isFinite, h2.isFinite⟩

theorem B64.mul_fins {x y : B64 lm} (h : Num.isFinite (x * y) = true) : Num.isFinite x = true ∧ Num.isFinite y = true := by
  obtain ⟨_, _, h1, h2, -⟩ := B64.mul_fin h
  exact ⟨h1.isFinite, h2.isFinite⟩

theorem B64.neg_fins {x : B64 lm} (h : Num.isFinite (-x) = true) : Num.isFinite x = true := by
  obtain ⟨_, h1⟩ := B64.is_of_finite h
  obtain ⟨v⟩ := x
  cases v with
  | nan => cases h
  | inf a => cases h
  | num a m => rfl

theorem row_fins {a b c d : B64 lm} (h : Num.isFinite (a * c + b * d) = true) : Num.isFinite a = true ∧ Num.isFinite b = true :=
  ⟨(B64.mul_fins (B64.add_fins h).1).1, (B64.mul_fins (B64.add_fins h).2).1⟩

theorem pointAddGrad_fins {h h' : Heap (B64 lm)} {a : Nat} {g : Vec2 (B64 lm)} (e : pointAddGrad h a g = .ok h') :
    Num.isFinite g.x = true ∧ Num.isFinite g.y = true := by
  unfold pointAddGrad at e
  split_ifs at e with hf
  simpa [Vec2.allFinite] using hf

theorem lineAddGrad_fins {h h' : Heap (B64 lm)} {a : Nat} {g : Row4 (B64 lm)} (e : lineAddGrad h a g = .ok h') :
    Num.isFinite g.a0 = true := by
  unfold lineAddGrad at e
  split_ifs at e with hf
  simp only [Row4.allFinite, Bool.and_eq_true] at hf
  tauto

theorem arcAddGrad_fins {h h' : Heap (B64 lm)} {a : Nat} {g : Row5 (B64 lm)} (e : arcAddGrad h a g = .ok h') :
    Num.isFinite g.a0 = true := by
  unfold arcAddGrad at e
  split_ifs at e with hf
  simp only [Row5.allFinite, Bool.and_eq_true] at hf
  tauto

theorem bind_ok {α β γ : Type} {x : Except α β} {f : β → Except α γ} {r : γ} (e : (x >>= f) = .ok r) : ∃ b, x = .ok b := by
  cases x with
  | error a => cases e
  | ok b => exact ⟨b, rfl⟩

/-- a constraint that did not make `update_gradient` panic has a loss that is a number -/
theorem loss_num {κ : ℝ} (hlm : lm.Accurate κ) {h h' : Heap (B64 lm)} {c : Constraint (B64 lm)} (e : updateGradient h c = .ok h')
    (hp : ∀ x ∈ consParams c, x.v.isNan = false) : (lossValue h c).v.isNan = false := by
  cases c with
  | fix p d =>
    obtain ⟨h1, h2⟩ := pointAddGrad_fins e
    exact half_sum_num h1 h2
  | angle p q o d =>
    refine half_sq_num (sub_num ?_ (hp d (by simp [consParams])))
    unfold currentAngle
    dsimp only
    split_ifs with h1 h2
    · exact B64.is_zero.isFinite
    · exact B64.is_zero.isFinite
    · obtain ⟨r, hr⟩ := B64.is_of_finite (by simpa using h2)
      obtain ⟨t, ht, ht1, -⟩ := clamp_near hr
      obtain ⟨θ, hθ, -⟩ := hlm.acos _ t ht ht1
      exact hθ.isFinite
  | euclid p q d =>
    refine half_sq_num ?_
    simp only [updateGradient, euclidUpdate] at e
    split_ifs at e with h1
    · refine sub_num ?_ (hp d (by simp [consParams]))
      obtain ⟨μ, hμ, -⟩ := micro_lt (lm := lm)
      obtain ⟨n, hn, -⟩ := (((plus_sq _).add (plus_sq _)).sqrt : Plus (ptData h p - ptData h q).norm.v).fin hμ h1
      exact hn.isFinite
    · obtain ⟨h2, e2⟩ := bind_ok e
      have h3 := (pointAddGrad_fins e2).1
      have h4 := (row_fins h3).1
      exact fin_num (B64.mul_fins (B64.mul_fins h4).1).1
  | horizDist p q d =>
    refine half_sq_num ?_
    obtain ⟨h2, e2⟩ := bind_ok e
    have h4 := B64.neg_fins (row_fins (pointAddGrad_fins e2).1).1
    exact fin_num (B64.mul_fins (B64.mul_fins h4).1).1
  | vertDist p q d =>
    refine half_sq_num ?_
    obtain ⟨h2, e2⟩ := bind_ok e
    have h4 := B64.neg_fins (row_fins (pointAddGrad_fins e2).1).1
    exact fin_num (B64.mul_fins (B64.mul_fins h4).1).1
  | horizLine l =>
    refine half_sq_num ?_
    obtain ⟨h2, e2⟩ := bind_ok e
    exact fin_num (B64.neg_fins (row_fins (lineAddGrad_fins e2)).2)
  | vertLine l =>
    refine half_sq_num ?_
    obtain ⟨h2, e2⟩ := bind_ok e
    exact fin_num (B64.neg_fins (row_fins (lineAddGrad_fins e2)).1)
  | eqLen l k =>
    refine half_sq_num ?_
    obtain ⟨h2, e2⟩ := bind_ok e
    exact fin_num (B64.mul_fins (row_fins (lineAddGrad_fins e2)).1).1
  | arcEnd a p =>
    obtain ⟨h2, e2⟩ := bind_ok e
    have := row_fins (arcAddGrad_fins e2)
    exact half_sum_num this.1 this.2
  | arcStart a p =>
    obtain ⟨h2, e2⟩ := bind_ok e
    have := row_fins (arcAddGrad_fins e2)
    exact half_sum_num this.1 this.2
  | parallel l k =>
    simp only [updateGradient, parallelUpdate] at e
    simp only [lossValue]
    split_ifs at e ⊢ with h1
    · exact B64.is_zero.notNan
    · obtain ⟨h2, e2⟩ := bind_ok e
      have h3 := (row_fins (lineAddGrad_fins e2)).1
      exact half_sq_num (fin_num (B64.mul_fins (row_fins h3).1).1)
  | perp l k =>
    simp only [updateGradient, perpUpdate] at e
    simp only [lossValue]
    split_ifs at e ⊢ with h1
    · exact B64.is_zero.notNan
    · obtain ⟨h2, e2⟩ := bind_ok e
      have h3 := (row_fins (lineAddGrad_fins e2)).1
      exact half_sq_num (fin_num (B64.mul_fins (row_fins h3).1).1)

theorem jacobianRows_ok {s : Sketch} : ∀ (cs : List Nat) (h : Heap (B64 lm)) {o}, jacobianRows s cs h = .ok o →
    ∀ c ∈ cs, ∃ h1 h2, GradOnly h h1 ∧ updateGradient h1 (h1.cons c) = .ok h2 := by
  intro cs
  induction cs with
  | nil => intro h o _ c hc; cases hc
  | cons a cs ih =>
    intro h o e c hc
    unfold jacobianRows at e
    dsimp only at e
    have g1 := zeroGrads_gradOnly h s
    cases e1 : updateGradient (zeroGrads h s) ((zeroGrads h s).cons a) with
    | error h2 => rw [e1] at e; cases e
    | ok h2 =>
      rw [e1] at e
      dsimp only at e
      cases e2 : jacobianRows s cs h2 with
      | error h3 => rw [e2] at e; cases e
      | ok o2 =>
        rcases List.mem_cons.1 hc with rfl | hc
        · exact ⟨_, _, g1, e1⟩
        · obtain ⟨k1, k2, g2, e3⟩ := ih h2 e2 c hc
          have g3 : GradOnly (zeroGrads h s) h2 := by
            have := updateGradient_gradOnly (zeroGrads h s) (zeroGrads h s) ((zeroGrads h s).cons a) (.refl _)
            rwa [e1] at this
          exact ⟨k1, k2, (g1.trans g3).trans g2, e3⟩

theorem total_num {κ : ℝ} (hlm : lm.Accurate κ) {h : Heap (B64 lm)} {s : Sketch} {o} (e : getJacobian h s = .ok o)
    (hp : ∀ k ∈ s.cons, ∀ x ∈ consParams (h.cons k), x.v.isNan = false) : (getLoss h s).v.isNan = false := by
  have each : ∀ k ∈ s.cons, (lossValue h (h.cons k)).v.isNan = false := by
    intro k hk
    obtain ⟨h1, h2, g, e1⟩ := jacobianRows_ok _ _ e k hk
    have hc : h1.cons k = h.cons k := by rw [g.1.cons]
    have := loss_num hlm e1 (by rw [hc]; exact hp k hk)
    rwa [hc, g.lossValue] at this
  unfold getLoss
  have : ∀ (l : List Nat) (a : B64 lm), Plus a.v → a.v.isNan = false → (∀ k ∈ l, (lossValue h (h.cons k)).v.isNan = false) →
      (l.foldl (fun loss c => loss + lossValue h (h.cons c)) a).v.isNan = false := by
    intro l
    induction l with
    | nil => intro a _ ha _; exact ha
    | cons k l ih =>
      intro a pa ha hl
      exact ih _ (pa.add (plus_loss h _)) (plus_add_num pa (plus_loss h _) ha (hl k (by simp))) fun j hj => hl j (by simp [hj])
  exact this _ _ (plus_lit _ _ _) B64.is_zero.notNan each

theorem newton_number {κ : ℝ} (hlm : lm.Accurate κ) (pinv : PInv (B64 lm)) (ml b c : B64 lm)
    (nrm : Nat → List (List (B64 lm)) → List (List (B64 lm))) (s : Sketch) (n : Nat) (ls : B64 lm) (h : Heap (B64 lm))
    (hp : ∀ k ∈ s.cons, ∀ x ∈ consParams (h.cons k), x.v.isNan = false) :
    ∀ r ∈ (newtonLoop pinv ml b c nrm s n ls h).steps, (getLoss r.pre s).v.isNan = false := by
  induction n generalizing ls h with
  | zero => intro r hr; simp [newtonLoop] at hr
  | succ n ih =>
    intro r hr
    unfold newtonLoop at hr
    split at hr
    · dsimp only at hr
      cases ej : getJacobian h s with
      | error h' => rw [ej] at hr; simp at hr
      | ok o =>
        obtain ⟨jac, h1⟩ := o
        have g1 : GradOnly h h1 := by have := getJacobian_gradOnly h s; rwa [ej] at this
        rw [ej] at hr
        dsimp only at hr
        cases ep : pinv (nrm (getData h s).length jac) c with
        | panic => rw [ep] at hr; simp at hr
        | err => rw [ep] at hr; simp at hr
        | ok P =>
          rw [ep] at hr
          dsimp only at hr
          split at hr
          · simp at hr
          · rename_i h2 es
            rcases List.mem_cons.1 hr with rfl | hr
            · exact total_num hlm ej hp
            · refine ih _ h2 ?_ r hr
              have := setData_dataOnly h1 s (vsub (getData h s) ((matVec (matMul jac.length P (transpose (getData h s).length jac))
                (getLossPerConstraint h s)).map (· * b)))
              rw [es] at this
              have hc : h2.cons = h.cons := by
                rw [show h2.cons = h1.cons from this.1.cons, g1.1.cons]
              rw [hc]
              exact hp
    · simp at hr

/-- **C90.** In binary64: when Gauss-Newton returns `Ok` after fewer than `max_iterations` steps and no parameter of a constraint is NaN,
then before the last step every constraint was met up to the tolerance. -/
theorem C90_gauss_newton_number {κ : ℝ} (hlm : lm.Accurate κ) (hκ : κ ≤ 1) (pinv : PInv (B64 lm)) (h : Heap (B64 lm)) (s : Sketch)
    (n : Nat) {ml σ e : B64 lm} {m : ℝ} (hml : ml.Is m) (hm : 2 ^ (-600 : ℤ) ≤ m)
    (hp : ∀ k ∈ s.cons, ∀ x ∈ consParams (h.cons k), x.v.isNan = false) (hr : (gnSolve pinv ⟨n, ml, σ, e⟩ h s).res = .ok)
    (hn : (gnSolve pinv ⟨n, ml, σ, e⟩ h s).steps.length ≠ n) :
    ∃ r, (gnSolve pinv ⟨n, ml, σ, e⟩ h s).steps.getLast? = some r ∧
      ∀ k ∈ s.cons, Within r.pre ((1 + 2 ^ (-50 : ℤ)) * √(2 * m)) κ (r.pre.cons k) := by
  rcases C90_gauss_newton hlm hκ pinv h s n hml hm hr with h1 | ⟨r, h1, h2 | h2⟩
  · exact absurd h1 hn
  · rw [newton_number hlm pinv ml σ e gnNormal s n Num.inf h hp r (List.mem_of_getLast? h1)] at h2
    cases h2
  · exact ⟨r, h1, h2⟩

/-- **C90.** The same for Levenberg-Marquardt. -/
theorem C90_levenberg_marquardt_number {κ : ℝ} (hlm : lm.Accurate κ) (hκ : κ ≤ 1) (pinv : PInv (B64 lm)) (h : Heap (B64 lm)) (s : Sketch)
    (n : Nat) {ml σ e β : B64 lm} {m : ℝ} (hml : ml.Is m) (hm : 2 ^ (-600 : ℤ) ≤ m)
    (hp : ∀ k ∈ s.cons, ∀ x ∈ consParams (h.cons k), x.v.isNan = false) (hr : (lmSolve pinv ⟨n, ml, σ, e, β⟩ h s).res = .ok)
    (hn : (lmSolve pinv ⟨n, ml, σ, e, β⟩ h s).steps.length ≠ n) :
    ∃ r, (lmSolve pinv ⟨n, ml, σ, e, β⟩ h s).steps.getLast? = some r ∧
      ∀ k ∈ s.cons, Within r.pre ((1 + 2 ^ (-50 : ℤ)) * √(2 * m)) κ (r.pre.cons k) := by
  rcases C90_levenberg_marquardt hlm hκ pinv h s n hml hm hr with h1 | ⟨r, h1, h2 | h2⟩
  · exact absurd h1 hn
  · rw [newton_number hlm pinv ml σ e (lmNormal β) s n Num.inf h hp r (List.mem_of_getLast? h1)] at h2
    cases h2
  · exact ⟨r, h1, h2⟩

/-- C90_gauss_newton_number, C90_levenberg_marquardt_number: the parameters of the sketch of the examples in `FloatOk` are numbers; one step
is made by both solvers there -/
example : ∀ k ∈ slackSketch.cons, ∀ x ∈ consParams ((slackHeap roundedLibm).cons k), x.v.isNan = false := by
  intro k hk x hx
  simp [slackSketch] at hk
  subst hk
  simp [slackHeap, upd, consParams] at hx
  subst hx
  exact B64.is_zero.notNan

end Isotope
