import Verif.Lemmas.FloatMet
import Verif.Lemmas.Bfgs
import Verif.Props.FloatPanic

/-!
# What `Ok` means in IEEE binary64 (C90)

The solvers compare computed losses and gradients with thresholds.  Here is what a passed test says about the real numbers that
the coordinates stand for: the errors of rounding are bounded, for every sketch and every heap.
-/

namespace Isotope
open Round Val

variable {lm : Libm}

/-- **C90.** In binary64: if the computed total loss is below a threshold `m` then every constraint is met up to
`(1 + 2^-50) √(2 m)` and up to the rounding of the coordinates it reads. -/
theorem C90_small_loss {κ : ℝ} (hlm : lm.Accurate κ) (hκ : κ ≤ 1) (h : Heap (B64 lm)) (s : Sketch) {ml : B64 lm} {m : ℝ}
    (hml : ml.Is m) (hm : 2 ^ (-600 : ℤ) ≤ m) (hlt : (getLoss h s <. ml) = true) :
    ∀ k ∈ s.cons, Within h ((1 + 2 ^ (-50 : ℤ)) * √(2 * m)) κ (h.cons k) := by
  intro k hk
  obtain ⟨t, ht, hle⟩ := loss_each hml hlt k hk
  exact met hlm hκ hm ht hle

/-! ## Gradients -/

theorem fmax_two {x y : B64 lm} {r t : ℝ} (hx : x.Is r) (hy : y.Is t) : (fmax x y).Is (max r t) := by
  unfold fmax
  have h1 : (x ==. x) = true := (hx.eq_iff hx).2 rfl
  rw [h1]
  split_ifs with h2
  · simp only [Bool.not_true, Bool.or_false, hx.lt_iff hy] at h2
    rw [max_eq_right h2.le]
    exact hy
  · simp only [Bool.not_true, Bool.or_false, hx.lt_iff hy] at h2
    rw [max_eq_left (not_lt.1 h2)]
    exact hx

theorem uniform_each {g : List (B64 lm)} (hg : ∀ x ∈ g, Num.isFinite x = true) {t : B64 lm} {T : ℝ} (ht : t.Is T)
    (hlt : (uniformNorm g <. t) = true) : ∀ x ∈ g, ∃ r, x.Is r ∧ |r| < T := by
  have key : ∀ (l : List (B64 lm)) (a : B64 lm) (α : ℝ), a.Is α → (∀ x ∈ l, Num.isFinite x = true) →
      ∃ V, (l.foldl (fun acc a => fmax acc (Num.abs a)) a).Is V ∧ α ≤ V ∧ ∀ x ∈ l, ∃ r, x.Is r ∧ |r| ≤ V := by
    intro l
    induction l with
    | nil => intro a α ha _; exact ⟨α, ha, le_rfl, by simp⟩
    | cons b l ih =>
      intro a α ha hf
      obtain ⟨β, hβ⟩ := B64.is_of_finite (hf b (by simp))
      obtain ⟨V, hV, h1, h2⟩ := ih _ _ (fmax_two ha hβ.abs) fun x hx => hf x (by simp [hx])
      refine ⟨V, hV, (le_max_left _ _).trans h1, ?_⟩
      intro x hx
      rcases List.mem_cons.1 hx with rfl | hx
      · exact ⟨β, hβ, (le_max_right _ _).trans h1⟩
      · exact h2 x hx
  obtain ⟨V, hV, -, h2⟩ := key g _ 0 B64.is_zero hg
  have hVT : V < T := (hV.lt_iff ht).1 hlt
  intro x hx
  obtain ⟨r, hr, hle⟩ := h2 x hx
  exact ⟨r, hr, by linarith⟩

/-- a number that is at most the value of a finite number -/
def AtMost (x y : B64 lm) : Prop := ∀ V, y.Is V → ∃ r, x.Is r ∧ r ≤ V

theorem atMost_add {x y : B64 lm} (hx : Plus x.v) (hy : Plus y.v) : AtMost x (x + y) ∧ AtMost y (x + y) := by
  have key : ∀ V, (x + y).Is V → ∃ r t, x.Is r ∧ y.Is t ∧ r ≤ V ∧ t ≤ V := by
    intro V hV
    obtain ⟨r, t, hr, ht, hs⟩ := B64.add_fin hV.isFinite
    have r0 := hx.nonneg hr
    have t0 := hy.nonneg ht
    rw [hV.unique hs]
    have k1 := rs_mono (show r ≤ r + t by linarith)
    have k2 := rs_mono (show t ≤ r + t by linarith)
    rw [rs_rep hr.rep] at k1
    rw [rs_rep ht.rep] at k2
    exact ⟨r, t, hr, ht, k1, k2⟩
  exact ⟨fun V hV => (key V hV).elim fun r ⟨_, hr, _, h, _⟩ => ⟨r, hr, h⟩, fun V hV => (key V hV).elim fun _ ⟨t, _, ht, _, h⟩ => ⟨t, ht, h⟩⟩

/-- a scalar product of a vector with itself loses no summand -/
theorem dot_each (g : List (B64 lm)) : Plus (dotV g g).v ∧ ∀ x ∈ g, AtMost (x * x) (dotV g g) := by
  have hz : ∀ x ∈ List.zipWith (· * ·) g g, Plus x.v := by
    intro x hx
    obtain ⟨i, hi, e⟩ := List.getElem_of_mem hx
    rw [← e, List.getElem_zipWith]
    exact plus_sq _
  have h0 : Plus (0.0 : B64 lm).v := .inr (isNeg_pack _ _)
  obtain ⟨h1, -, h3⟩ := dotLoop_each (fun x : B64 lm => Plus x.v) AtMost h0 (fun ha hb => ha.add hb) (fun _ V hV => ⟨V, hV, le_rfl⟩)
    (fun h1 h2 V hV => by
      obtain ⟨r, hr, h⟩ := h2 V hV
      obtain ⟨r', hr', h'⟩ := h1 r hr
      exact ⟨r', hr', h'.trans h⟩)
    (fun ha hb => (atMost_add ha hb).1) (fun ha hb => (atMost_add ha hb).2) 0.0 0.0 0.0 0.0 0.0 0.0 0.0 0.0 _
    (by simp only [List.forall_mem_cons]; exact ⟨h0, h0, h0, h0, h0, h0, h0, h0, by simp⟩) hz
  refine ⟨h1, fun x hx => h3 _ ?_⟩
  obtain ⟨i, hi, e⟩ := List.getElem_of_mem hx
  exact List.mem_iff_getElem.2 ⟨i, by simpa using hi, by rw [List.getElem_zipWith, e]⟩

theorem root_le {r V T : ℝ} (hT : 2 ^ (-300 : ℤ) ≤ T) (h1 : rs (r * r) ≤ V) (h2 : rs (√V) ≤ T) : |r| ≤ (1 + 4 * ulp) * T := by
  by_contra hc
  have hc := not_le.1 hc
  have hu := ulp_pos
  have T0 : 0 < T := (two_pos _).trans_le hT
  have hr : 2 ^ (-300 : ℤ) ≤ |r| := by nlinarith
  have e0 : (2 : ℝ) ^ (-600 : ℤ) = 2 ^ (-300 : ℤ) * 2 ^ (-300 : ℤ) := by rw [← zpow_add₀ (by norm_num)]; norm_num
  have h3 : 2 ^ (-600 : ℤ) ≤ |r| * |r| := by
    rw [e0]; exact mul_le_mul hr hr (two_pos _).le (abs_nonneg r)
  have h4 := abs_rs_lo (z := r * r) (by rw [abs_mul]; exact (two_le (by norm_num)).trans h3)
  rw [abs_of_nonneg (rs_nonneg (mul_self_nonneg r)), abs_mul] at h4
  have h5 : (1 - ulp) * |r| ≤ √V := by
    apply Real.le_sqrt_of_sq_le
    refine le_trans ?_ (h4.trans h1)
    have h0 : 0 ≤ |r| * |r| := mul_self_nonneg _
    have : ((1 - ulp) * |r|) ^ 2 = (1 - ulp) * ((1 - ulp) * (|r| * |r|)) := by ring
    rw [this]
    rw [ulp_eq]
    nlinarith
  have h6 : 2 ^ (-1022 : ℤ) ≤ |√V| := by
    rw [abs_of_nonneg (Real.sqrt_nonneg V)]
    refine le_trans ?_ h5
    have t1 := two_small (j := -1022) (k := -300) (by norm_num)
    rw [ulp_eq]
    have := two_pos (-300)
    generalize (2 : ℝ) ^ (-300 : ℤ) = z at *
    linarith
  have h7 := abs_rs_lo h6
  rw [abs_of_nonneg (rs_nonneg (Real.sqrt_nonneg V)), abs_of_nonneg (Real.sqrt_nonneg V)] at h7
  rw [ulp_eq] at *
  nlinarith

theorem Plus.sqrt {v : Val} (h : Plus v) : Plus v.sqrt := by
  cases v with
  | nan => exact .inl rfl
  | inf b =>
    rcases h with h | h
    · cases h
    · simp only [isNeg] at h
      subst h
      exact .inr rfl
  | num b q =>
    rcases h with h | h
    · cases h
    · simp only [isNeg] at h
      subst h
      simp only [Val.sqrt, Bool.false_eq_true, if_false]
      split_ifs
      · exact .inr rfl
      · exact .inr (isNeg_pack _ _)

theorem norm_each {g : List (B64 lm)} {t : B64 lm} {T : ℝ} (ht : t.Is T) (hT : 2 ^ (-300 : ℤ) ≤ T)
    (hlt : (normL g <. t) = true) : ∀ x ∈ g, ∃ r, x.Is r ∧ |r| ≤ (1 + 4 * ulp) * T := by
  obtain ⟨hpl, hx⟩ := dot_each g
  have hps : Plus (normL g).v := hpl.sqrt
  obtain ⟨n, hn, hnT⟩ := hps.fin ht hlt
  obtain ⟨V, hV, -, hs⟩ := B64.sqrt_fin hn.isFinite
  have hle : rs (√V) ≤ T := by rw [← hn.unique hs]; exact hnT.le
  intro x hxm
  obtain ⟨α, hα, hαV⟩ := hx x hxm V hV
  obtain ⟨c, c', hc, hc', hcc⟩ := B64.mul_fin hα.isFinite
  have ec := hc'.unique hc
  subst ec
  exact ⟨_, hc, root_le hT (by rw [← hα.unique hcc]; exact hαV) hle⟩

/-! ## The solvers -/

/-- **C90.** In binary64: when BFGS returns `Ok`, every constraint is met up to the tolerance, or every partial derivative is below
the threshold, or exactly `max_iterations` steps were made. -/
theorem C90_bfgs {κ : ℝ} (hlm : lm.Accurate κ) (hκ : κ ≤ 1) (h : Heap (B64 lm)) (s : Sketch) (n : Nat) {ml gt : B64 lm} {m t : ℝ}
    (hml : ml.Is m) (hm : 2 ^ (-600 : ℤ) ≤ m) (hgt : gt.Is t) (hr : (bfgsSolve ⟨n, ml, gt⟩ h s).res = .ok) :
    (∀ k ∈ s.cons, Within (bfgsSolve ⟨n, ml, gt⟩ h s).heap ((1 + 2 ^ (-50 : ℤ)) * √(2 * m)) κ
      ((bfgsSolve ⟨n, ml, gt⟩ h s).heap.cons k)) ∨
    (∃ g h', getGradient (bfgsSolve ⟨n, ml, gt⟩ h s).heap s = .ok (g, h') ∧ ∀ x ∈ g, ∃ r, x.Is r ∧ |r| < t) ∨
    (bfgsSolve ⟨n, ml, gt⟩ h s).steps.length = n := by
  rcases C30_stop _ h s hr with h1 | ⟨g, h', hg, h1⟩ | h1
  · exact .inl (C90_small_loss hlm hκ _ s hml hm h1)
  · exact .inr (.inl ⟨g, h', hg, uniform_each (by simpa using (getGradient_vec hg).1) hgt h1⟩)
  · exact .inr (.inr h1)

/-- **C90.** In binary64: when gradient descent returns `Ok`, every constraint is met up to the tolerance, or every partial derivative
is below the threshold (up to rounding), or exactly `max_iterations` steps were made. -/
theorem C90_gd {κ : ℝ} (hlm : lm.Accurate κ) (hκ : κ ≤ 1) (h : Heap (B64 lm)) (s : Sketch) (n : Nat) {ml mg : B64 lm} {m t : ℝ}
    (hml : ml.Is m) (hm : 2 ^ (-600 : ℤ) ≤ m) (hmg : mg.Is t) (ht : 2 ^ (-300 : ℤ) ≤ t)
    (hr : (gdSolve ⟨n, ml, mg⟩ h s).res = .ok) :
    (∀ k ∈ s.cons, Within (gdSolve ⟨n, ml, mg⟩ h s).heap ((1 + 2 ^ (-50 : ℤ)) * √(2 * m)) κ
      ((gdSolve ⟨n, ml, mg⟩ h s).heap.cons k)) ∨
    (∃ g h', getGradient (gdSolve ⟨n, ml, mg⟩ h s).heap s = .ok (g, h') ∧
      ∀ x ∈ g, ∃ r, x.Is r ∧ |r| ≤ (1 + 2 ^ (-51 : ℤ)) * t) ∨
    (gdSolve ⟨n, ml, mg⟩ h s).steps.length = n := by
  rcases ((C29_stop _ h s).2 hr).2 with ⟨g, h', hg, h1⟩ | h1 | h1
  · refine .inr (.inl ⟨g, h', hg, ?_⟩)
    have u4 : (2 : ℝ) ^ (-51 : ℤ) = 4 * ulp := by rw [ulp_eq]; norm_num
    rw [u4]
    exact norm_each hmg ht h1
  · exact .inl (C90_small_loss hlm hκ _ s hml hm h1)
  · exact .inr (.inr h1)

theorem sumL_getLoss {F : Type} [Num F] (h : Heap F) (s : Sketch) : sumL (getLossPerConstraint h s) = getLoss h s := by
  unfold sumL getLossPerConstraint getLoss
  rw [List.foldl_map]

theorem not_gt {x y : B64 lm} {m : ℝ} (hy : y.Is m) (hx : Plus x.v) (h : (y <. x) = false) :
    x.v.isNan = true ∨ ∃ r, x.Is r ∧ r ≤ m := by
  cases hn : x.v.isNan with
  | true => exact .inl rfl
  | false =>
    right
    rw [← Bool.not_eq_true, B64.lt_iff, hy.ext] at h
    obtain ⟨v⟩ := x
    cases v with
    | nan => cases hn
    | inf a =>
      rcases hx with hx | hx
      · cases hx
      · simp only [isNeg] at hx
        subst hx
        exact absurd ⟨hy.notNan, hn, EReal.coe_lt_top m⟩ h
    | num a q =>
      have hi : (⟨num a q⟩ : B64 lm).Is (sgn a q.1) := ⟨a, q, rfl, rfl⟩
      refine ⟨_, hi, ?_⟩
      by_contra hc
      rw [hi.ext] at h
      exact h ⟨hy.notNan, rfl, EReal.coe_lt_coe_iff.2 (not_le.1 hc)⟩

theorem newton_met {κ : ℝ} (hlm : lm.Accurate κ) (hκ : κ ≤ 1) (h : Heap (B64 lm)) (s : Sketch) {ml : B64 lm} {m : ℝ}
    (hml : ml.Is m) (hm : 2 ^ (-600 : ℤ) ≤ m) (hlt : (ml <. sumL (getLossPerConstraint h s)) = false) :
    (getLoss h s).v.isNan = true ∨ ∀ k ∈ s.cons, Within h ((1 + 2 ^ (-50 : ℤ)) * √(2 * m)) κ (h.cons k) := by
  rw [sumL_getLoss] at hlt
  have hp : Plus (getLoss h s).v := by
    unfold getLoss
    have : ∀ (l : List Nat) (a : B64 lm), Plus a.v → Plus (l.foldl (fun loss c => loss + lossValue h (h.cons c)) a).v := by
      intro l
      induction l with
      | nil => intro a ha; exact ha
      | cons k l ih => intro a ha; exact ih _ (ha.add (plus_loss h _))
    exact this _ _ (plus_lit _ _ _)
  refine (not_gt hml hp hlt).imp_right ?_
  rintro ⟨r, hr, hle⟩ k hk
  obtain ⟨V, α, h1, -, -, h4⟩ := fold_each h s.cons _ (plus_lit _ _ _) hr.isFinite
  have e : V = r := h1.unique hr
  obtain ⟨t, ht, hle'⟩ := h4 k hk
  exact met hlm hκ hm ht (by linarith)

/-- **C90.** In binary64: when Gauss-Newton returns `Ok` after fewer than `max_iterations` steps, then *before* the last step every
constraint was met up to the tolerance, or the total loss was NaN, whatever `pseudo_inverse` returned. -/
theorem C90_gauss_newton {κ : ℝ} (hlm : lm.Accurate κ) (hκ : κ ≤ 1) (pinv : PInv (B64 lm)) (h : Heap (B64 lm)) (s : Sketch) (n : Nat)
    {ml σ e : B64 lm} {m : ℝ} (hml : ml.Is m) (hm : 2 ^ (-600 : ℤ) ≤ m) (hr : (gnSolve pinv ⟨n, ml, σ, e⟩ h s).res = .ok) :
    (gnSolve pinv ⟨n, ml, σ, e⟩ h s).steps.length = n ∨
    ∃ r, (gnSolve pinv ⟨n, ml, σ, e⟩ h s).steps.getLast? = some r ∧ ((getLoss r.pre s).v.isNan = true ∨
      ∀ k ∈ s.cons, Within r.pre ((1 + 2 ^ (-50 : ℤ)) * √(2 * m)) κ (r.pre.cons k)) := by
  rcases C34_gn_stop pinv _ h s hr with ⟨-, h2⟩ | h2 | ⟨r, h2, h3⟩
  · rw [← Bool.not_eq_true, B64.lt_iff, hml.ext] at h2
    exact absurd ⟨hml.notNan, rfl, EReal.coe_lt_top m⟩ h2
  · exact .inl h2
  · exact .inr ⟨r, h2, newton_met hlm hκ _ s hml hm h3⟩

/-- **C90.** The same for Levenberg-Marquardt. -/
theorem C90_levenberg_marquardt {κ : ℝ} (hlm : lm.Accurate κ) (hκ : κ ≤ 1) (pinv : PInv (B64 lm)) (h : Heap (B64 lm)) (s : Sketch)
    (n : Nat) {ml σ e β : B64 lm} {m : ℝ} (hml : ml.Is m) (hm : 2 ^ (-600 : ℤ) ≤ m)
    (hr : (lmSolve pinv ⟨n, ml, σ, e, β⟩ h s).res = .ok) :
    (lmSolve pinv ⟨n, ml, σ, e, β⟩ h s).steps.length = n ∨
    ∃ r, (lmSolve pinv ⟨n, ml, σ, e, β⟩ h s).steps.getLast? = some r ∧ ((getLoss r.pre s).v.isNan = true ∨
      ∀ k ∈ s.cons, Within r.pre ((1 + 2 ^ (-50 : ℤ)) * √(2 * m)) κ (r.pre.cons k)) := by
  rcases C34_lm_stop pinv _ h s hr with ⟨-, h2⟩ | h2 | ⟨r, h2, h3⟩
  · rw [← Bool.not_eq_true, B64.lt_iff, hml.ext] at h2
    exact absurd ⟨hml.notNan, rfl, EReal.coe_lt_top m⟩ h2
  · exact .inl h2
  · exact .inr ⟨r, h2, newton_met hlm hκ _ s hml hm h3⟩

/-! ## The defaults -/

theorem Within.mono {h : Heap (B64 lm)} {τ τ' κ : ℝ} (hle : τ ≤ τ') {c : Constraint (B64 lm)} (hw : Within h τ κ c) : Within h τ' κ c := by
  cases c with
  | fix p d =>
    obtain ⟨x, y, a, b, h1, h2, h3, h4⟩ := hw
    exact ⟨x, y, a, b, h1, h2, h3, h4.trans hle⟩
  | horizDist p q d =>
    obtain ⟨x, x', D, h1, h2, h3, h4⟩ := hw
    exact ⟨x, x', D, h1, h2, h3, h4.trans (by linarith)⟩
  | vertDist p q d =>
    obtain ⟨x, x', D, h1, h2, h3, h4⟩ := hw
    exact ⟨x, x', D, h1, h2, h3, h4.trans (by linarith)⟩
  | euclid p q d =>
    obtain ⟨x, y, x', y', D, h1, h2, h3, h4⟩ := hw
    exact ⟨x, y, x', y', D, h1, h2, h3, h4.trans (by linarith)⟩
  | horizLine l =>
    obtain ⟨x, x', h1, h2, h3⟩ := hw
    exact ⟨x, x', h1, h2, h3.trans hle⟩
  | vertLine l =>
    obtain ⟨x, x', h1, h2, h3⟩ := hw
    exact ⟨x, x', h1, h2, h3.trans hle⟩
  | eqLen l m =>
    obtain ⟨x, y, x', y', z, w, z', w', h1, h2, h3, h4, h5⟩ := hw
    exact ⟨x, y, x', y', z, w, z', w', h1, h2, h3, h4, h5.trans (by linarith)⟩
  | arcEnd a p =>
    obtain ⟨u, v, r, φ, x, y, h1, h2, h3, h4, h5⟩ := hw
    exact ⟨u, v, r, φ, x, y, h1, h2, h3, h4, h5.trans (by linarith)⟩
  | arcStart a p =>
    obtain ⟨u, v, r, φ, x, y, h1, h2, h3, h4, h5⟩ := hw
    exact ⟨u, v, r, φ, x, y, h1, h2, h3, h4, h5.trans (by linarith)⟩
  | parallel l m =>
    intro x y x' y' z w z' w' h1 h2 h3 h4 L M hL hM oL oM
    exact (hw x y x' y' z w z' w' h1 h2 h3 h4 L M hL hM oL oM).trans (by linarith)
  | perp l m =>
    intro x y x' y' z w z' w' h1 h2 h3 h4 L M hL hM oL oM
    exact (hw x y x' y' z w z' w' h1 h2 h3 h4 L M hL hM oL oM).trans (by linarith)
  | angle p q o d =>
    obtain ⟨D, hD, hw⟩ := hw
    refine ⟨D, hD, ?_⟩
    intro x y z w u v h1 h2 h3 L M hL hM l0 l1 m0 m1
    exact (hw x y z w u v h1 h2 h3 L M hL hM l0 l1 m0 m1).trans (by linarith)

theorem lit_small (k e : Nat) {z : ℝ} (hz : z = OfScientific.ofScientific k true e) (h0 : 2 ^ (-100 : ℤ) ≤ z) (h1 : z ≤ 1) :
    ∃ m, (OfScientific.ofScientific k true e : B64 lm).Is m ∧ |m - z| ≤ ulp * z ∧ 2 ^ (-300 : ℤ) ≤ m ∧ 2 ^ (-600 : ℤ) ≤ m := by
  have z0 : 0 < z := (two_pos _).trans_le h0
  have ha : |z| = z := abs_of_pos z0
  have h2 := rs_err (z := z) (by rw [ha]; exact (two_le (by norm_num)).trans h0)
  rw [ha] at h2
  have h3 := rs_mono h0
  rw [rs_rep (by rw [abs_of_pos (two_pos _)]; exact rep_pow (-100) (by norm_num) (by norm_num))] at h3
  have hi : (OfScientific.ofScientific k true e : B64 lm).Is (rs z) := by
    rw [hz]
    exact B64.Is.lit k true e (by rw [← hz]; exact abs_rs_lt_top (k := 0) (by norm_num) (by norm_num) (by rw [ha]; simpa using h1))
      (by rw [← hz]; exact z0.le)
  exact ⟨_, hi, h2, (two_le (by norm_num)).trans h3, (two_le (by norm_num)).trans h3⟩

theorem tau_default {m z b : ℝ} (hm : |m - z| ≤ ulp * z) (hb : 0 ≤ b) (hz : 2.001 * z ≤ b ^ 2) (z0 : 0 ≤ z) :
    (1 + 2 ^ (-50 : ℤ)) * √(2 * m) ≤ 1.0001 * b := by
  have h1 := (abs_le.1 hm).2
  have h2 : √(2 * m) ≤ b := by
    rw [Real.sqrt_le_left hb]
    rw [ulp_eq] at h1
    linarith
  have h3 : (2 : ℝ) ^ (-50 : ℤ) ≤ 0.0001 := by norm_num
  have := Real.sqrt_nonneg (2 * m)
  nlinarith

/-- **C90.** The default BFGS solver: `Ok` means that every constraint is met up to `1.42e-8`, or every partial derivative is below
`1.001e-8`, or 1000 steps were made. -/
theorem C90_default_bfgs {κ : ℝ} (hlm : lm.Accurate κ) (hκ : κ ≤ 1) (h : Heap (B64 lm)) (s : Sketch)
    (hr : (bfgsSolve BFGSParams.default h s).res = .ok) :
    (∀ k ∈ s.cons, Within (bfgsSolve BFGSParams.default h s).heap 1.42e-8 κ ((bfgsSolve BFGSParams.default h s).heap.cons k)) ∨
    (∃ g h', getGradient (bfgsSolve BFGSParams.default h s).heap s = .ok (g, h') ∧ ∀ x ∈ g, ∃ r, x.Is r ∧ |r| < 1.001e-8) ∨
    (bfgsSolve BFGSParams.default h s).steps.length = 1000 := by
  obtain ⟨m, hm, hme, -, hm6⟩ := lit_small (lm := lm) 1 16 rfl (by norm_num) (by norm_num)
  obtain ⟨t, ht, hte, -, -⟩ := lit_small (lm := lm) 1 8 rfl (by norm_num) (by norm_num)
  rcases C90_bfgs hlm hκ h s 1000 hm hm6 ht hr with h1 | ⟨g, h', hg, h1⟩ | h1
  · refine .inl fun k hk => (h1 k hk).mono ((tau_default (b := 1.415e-8) hme (by norm_num) (by norm_num) (by norm_num)).trans ?_)
    norm_num
  · refine .inr (.inl ⟨g, h', hg, fun x hx => ?_⟩)
    obtain ⟨r, hr, hlt⟩ := h1 x hx
    refine ⟨r, hr, hlt.trans_le ?_⟩
    have := (abs_le.1 hte).2
    rw [ulp_eq] at this
    norm_num at this ⊢
    linarith
  · exact .inr (.inr h1)

/-- **C90.** The default gradient descent: `Ok` means that every constraint is met up to `1.42e-7`, or every partial derivative is at most
`1.001e-10`, or 10000 steps were made. -/
theorem C90_default_gd {κ : ℝ} (hlm : lm.Accurate κ) (hκ : κ ≤ 1) (h : Heap (B64 lm)) (s : Sketch)
    (hr : (gdSolve GDParams.default h s).res = .ok) :
    (∀ k ∈ s.cons, Within (gdSolve GDParams.default h s).heap 1.42e-7 κ ((gdSolve GDParams.default h s).heap.cons k)) ∨
    (∃ g h', getGradient (gdSolve GDParams.default h s).heap s = .ok (g, h') ∧ ∀ x ∈ g, ∃ r, x.Is r ∧ |r| ≤ 1.001e-10) ∨
    (gdSolve GDParams.default h s).steps.length = 10000 := by
  obtain ⟨m, hm, hme, -, hm6⟩ := lit_small (lm := lm) 1 14 rfl (by norm_num) (by norm_num)
  obtain ⟨t, ht, hte, ht3, -⟩ := lit_small (lm := lm) 1 10 rfl (by norm_num) (by norm_num)
  rcases C90_gd hlm hκ h s 10000 hm hm6 ht ht3 hr with h1 | ⟨g, h', hg, h1⟩ | h1
  · refine .inl fun k hk => (h1 k hk).mono ((tau_default (b := 1.415e-7) hme (by norm_num) (by norm_num) (by norm_num)).trans ?_)
    norm_num
  · refine .inr (.inl ⟨g, h', hg, fun x hx => ?_⟩)
    obtain ⟨r, hr, hlt⟩ := h1 x hx
    refine ⟨r, hr, hlt.trans ?_⟩
    have := (abs_le.1 hte).2
    rw [ulp_eq] at this
    norm_num at this ⊢
    linarith
  · exact .inr (.inr h1)

/-- **C90.** The default Gauss-Newton solver: `Ok` after fewer than 10000 steps means that every constraint was met up to `1.42e-3` before
the last step, or that the loss was NaN. -/
theorem C90_default_gauss_newton {κ : ℝ} (hlm : lm.Accurate κ) (hκ : κ ≤ 1) (pinv : PInv (B64 lm)) (h : Heap (B64 lm)) (s : Sketch)
    (hr : (gnSolve pinv GNParams.default h s).res = .ok) :
    (gnSolve pinv GNParams.default h s).steps.length = 10000 ∨
    ∃ r, (gnSolve pinv GNParams.default h s).steps.getLast? = some r ∧ ((getLoss r.pre s).v.isNan = true ∨
      ∀ k ∈ s.cons, Within r.pre 1.42e-3 κ (r.pre.cons k)) := by
  obtain ⟨m, hm, hme, -, hm6⟩ := lit_small (lm := lm) 1 6 rfl (by norm_num) (by norm_num)
  refine (C90_gauss_newton hlm hκ pinv h s 10000 hm hm6 hr).imp_right ?_
  rintro ⟨r, h1, h2⟩
  refine ⟨r, h1, h2.imp_right fun h2 k hk => (h2 k hk).mono
    ((tau_default (b := 1.415e-3) hme (by norm_num) (by norm_num) (by norm_num)).trans ?_)⟩
  norm_num

/-- **C90.** The default Levenberg-Marquardt solver: `Ok` after fewer than 1000 steps means that every constraint was met up to `1.42e-5`
before the last step, or that the loss was NaN. -/
theorem C90_default_levenberg_marquardt {κ : ℝ} (hlm : lm.Accurate κ) (hκ : κ ≤ 1) (pinv : PInv (B64 lm)) (h : Heap (B64 lm))
    (s : Sketch) (hr : (lmSolve pinv LMParams.default h s).res = .ok) :
    (lmSolve pinv LMParams.default h s).steps.length = 1000 ∨
    ∃ r, (lmSolve pinv LMParams.default h s).steps.getLast? = some r ∧ ((getLoss r.pre s).v.isNan = true ∨
      ∀ k ∈ s.cons, Within r.pre 1.42e-5 κ (r.pre.cons k)) := by
  obtain ⟨m, hm, hme, -, hm6⟩ := lit_small (lm := lm) 1 10 rfl (by norm_num) (by norm_num)
  refine (C90_levenberg_marquardt hlm hκ pinv h s 1000 hm hm6 hr).imp_right ?_
  rintro ⟨r, h1, h2⟩
  refine ⟨r, h1, h2.imp_right fun h2 k hk => (h2 k hk).mono
    ((tau_default (b := 1.415e-5) hme (by norm_num) (by norm_num) (by norm_num)).trans ?_)⟩
  norm_num

/-! ## Examples -/

/-- the hypothesis on the mathematical library is met by functions that round the exact results -/
theorem roundedLibm_accurate : roundedLibm.Accurate (2 ^ (-50 : ℤ)) := by
  have near : ∀ {z : ℝ}, |z| ≤ 4 → |rs z - z| ≤ 2 ^ (-50 : ℤ) := by
    intro z hz
    have h1 := rs_err' z
    have t1 := two_small (j := -1075) (k := -50) (by norm_num)
    rw [ulp8, ulp_eq] at *
    linarith
  refine ⟨?_, ?_, ?_, ?_⟩
  · rintro x φ ⟨s, m, e, rfl⟩
    have hb : |Real.cos (sgn s m.1)| ≤ 2 ^ (0 : ℤ) := by simpa using Real.abs_cos_le_one _
    refine ⟨_, B64.Is.pack (abs_rs_lt_top (by norm_num) (by norm_num) hb) (.inl rfl) ?_, near (by rw [zpow_zero] at hb; linarith)⟩
    show roundedLibm.cos x.v = _
    rw [e]; rfl
  · rintro ⟨v⟩ hx
    cases v with
    | nan => rfl
    | inf a => rfl
    | num a m => cases hx
  · rintro x φ ⟨s, m, e, rfl⟩
    have hb : |Real.sin (sgn s m.1)| ≤ 2 ^ (0 : ℤ) := by simpa using Real.abs_sin_le_one _
    refine ⟨_, B64.Is.pack (abs_rs_lt_top (by norm_num) (by norm_num) hb) (.inl rfl) ?_, near (by rw [zpow_zero] at hb; linarith)⟩
    show roundedLibm.sin x.v = _
    rw [e]; rfl
  · rintro x c ⟨s, m, e, rfl⟩ hc
    have h0 := Real.arccos_nonneg (sgn s m.1)
    have h4 : Real.arccos (sgn s m.1) ≤ 4 := (Real.arccos_le_pi _).trans Real.pi_le_four
    have hb : |Real.arccos (sgn s m.1)| ≤ 2 ^ (2 : ℤ) := by
      rw [abs_of_nonneg h0]
      norm_num
      linarith
    refine ⟨_, B64.Is.pack (a := false) (abs_rs_lt_top (by norm_num) (by norm_num) hb) (.inl (by simp [h0])) ?_,
      near (by rw [abs_of_nonneg h0]; exact h4)⟩
    show roundedLibm.acos x.v = _
    rw [e]
    exact if_pos hc

/-- the number `2^-30` -/
noncomputable def nano : B64 lm := ⟨num false ⟨2 ^ (-30 : ℤ), rep_pow _ (by norm_num) (by norm_num)⟩⟩

theorem nano_is : (nano : B64 lm).Is (2 ^ (-30 : ℤ)) := ⟨false, _, rfl, by simp [sgn]⟩

/-- a point that is `2^-30` to the right of where a constraint fixes it -/
noncomputable def slackHeap (lm : Libm) : Heap (B64 lm) :=
  { (Heap.empty : Heap (B64 lm)) with
    points := upd Heap.empty.points 0 (Point2.new nano 0.0)
    cons := upd Heap.empty.cons 0 (.fix 0 ⟨0.0, 0.0⟩)
    nPoints := 1
    nCons := 1 }
def slackSketch : Sketch := ⟨[(0, .point 0)], 1, [0]⟩

theorem slack_diff : ((nano : B64 lm) - 0.0).Is (2 ^ (-30 : ℤ)) ∧ ((0.0 : B64 lm) - 0.0).Is 0 := by
  have h1 := nano_is (lm := lm)
  have h2 := B64.is_zero (lm := lm)
  have k1 := h1.sub h2 (by rw [sub_zero, rs_rep h1.rep]; exact h1.rep.lt_top)
  have k2 := h2.sub h2 (by rw [sub_zero, rs_zero, abs_zero]; exact (two_pos 0).trans (pow_lt_top (by norm_num)))
  rw [sub_zero, rs_rep h1.rep] at k1
  rw [sub_zero, rs_zero] at k2
  exact ⟨k1, k2⟩

theorem slack_loss : (getLoss (slackHeap lm) slackSketch).Is (2 ^ (-61 : ℤ)) := by
  have z : ∀ k : ℤ, -1074 ≤ k → k ≤ 1023 → rs ((2 : ℝ) ^ k) = 2 ^ k ∧ |rs ((2 : ℝ) ^ k)| < top := by
    intro k h1 h2
    have := rs_rep (z := (2 : ℝ) ^ k) (by rw [abs_of_pos (two_pos _)]; exact rep_pow k h1 h2)
    rw [this, abs_of_pos (two_pos _)]
    exact ⟨rfl, pow_lt_top h2⟩
  have t0 : |rs (0 : ℝ)| < top := by rw [rs_zero, abs_zero]; exact (two_pos 0).trans (pow_lt_top (by norm_num))
  obtain ⟨h1, h2⟩ := slack_diff (lm := lm)
  have e1 : (2 : ℝ) ^ (-30 : ℤ) * 2 ^ (-30 : ℤ) = 2 ^ (-60 : ℤ) := by norm_num
  have e2 : (1 / 2 : ℝ) * 2 ^ (-60 : ℤ) = 2 ^ (-61 : ℤ) := by norm_num
  have k1 := h1.mul h1 (by rw [e1]; exact (z (-60) (by norm_num) (by norm_num)).2)
  rw [e1, (z (-60) (by norm_num) (by norm_num)).1] at k1
  have k2 := h2.mul h2 (by rw [mul_zero]; exact t0)
  rw [mul_zero, rs_zero] at k2
  have k3 := k1.add k2 (by rw [add_zero]; exact (z (-60) (by norm_num) (by norm_num)).2)
  rw [add_zero, (z (-60) (by norm_num) (by norm_num)).1] at k3
  have k4 := B64.is_half.mul k3 (by rw [e2]; exact (z (-61) (by norm_num) (by norm_num)).2)
  rw [e2, (z (-61) (by norm_num) (by norm_num)).1] at k4
  have k5 := B64.is_zero.add k4 (by rw [zero_add]; exact (z (-61) (by norm_num) (by norm_num)).2)
  rw [zero_add, (z (-61) (by norm_num) (by norm_num)).1] at k5
  exact k5

theorem slack_small (e : Nat) (he : 2 ^ (-60 : ℤ) ≤ (OfScientific.ofScientific 1 true e : ℝ)) (h1 : (OfScientific.ofScientific 1 true e : ℝ) ≤ 1) :
    (getLoss (slackHeap lm) slackSketch <. (OfScientific.ofScientific 1 true e : B64 lm)) = true ∧
    ((OfScientific.ofScientific 1 true e : B64 lm) <. getLoss (slackHeap lm) slackSketch) = false := by
  obtain ⟨m, hm, hme, -, -⟩ := lit_small (lm := lm) 1 e rfl ((two_le (by norm_num)).trans he) h1
  have : (2 : ℝ) ^ (-61 : ℤ) < m := by
    have h2 := (abs_le.1 hme).1
    rw [ulp_eq] at h2
    have h3 : (2 : ℝ) ^ (-61 : ℤ) = 2 ^ (-60 : ℤ) / 2 := by norm_num
    have h4 := two_pos (-60)
    rw [h3]
    generalize (2 : ℝ) ^ (-60 : ℤ) = z at *
    linarith
  refine ⟨(slack_loss.lt_iff hm).2 this, ?_⟩
  rw [← Bool.not_eq_true, hm.lt_iff slack_loss]
  linarith

/-- C90_bfgs, C90_default_bfgs: BFGS accepts a point that is off by `2^-30`; `C90_small_loss` applies as well -/
example : (bfgsSolve BFGSParams.default (slackHeap roundedLibm) slackSketch).res = .ok ∧
    ∀ k ∈ slackSketch.cons, Within (slackHeap roundedLibm) 1.42e-8 (2 ^ (-50 : ℤ)) ((slackHeap roundedLibm).cons k) := by
  have hs := (slack_small (lm := roundedLibm) 16 (by norm_num) (by norm_num)).1
  have e := C36_bfgs_stays BFGSParams.default _ _ hs
  refine ⟨by rw [e], ?_⟩
  obtain ⟨m, hm, hme, -, hm6⟩ := lit_small (lm := roundedLibm) 1 16 rfl (by norm_num) (by norm_num)
  intro k hk
  refine (C90_small_loss roundedLibm_accurate (by norm_num) _ _ hm hm6 hs k hk).mono
    ((tau_default (b := 1.415e-8) hme (by norm_num) (by norm_num) (by norm_num)).trans ?_)
  norm_num

theorem zero_mul_is {x : B64 lm} {r : ℝ} (h : x.Is r) : ((0.0 : B64 lm) * x).Is 0 := by
  have := B64.is_zero.mul h (by rw [zero_mul, rs_zero, abs_zero]; exact (two_pos 0).trans (pow_lt_top (by norm_num)))
  rwa [zero_mul, rs_zero] at this

theorem add_zero_is {x y : B64 lm} {r : ℝ} (h : x.Is r) (h' : y.Is 0) : (x + y).Is r := by
  have := h.add h' (by rw [add_zero, rs_rep h.rep]; exact h.rep.lt_top)
  rwa [add_zero, rs_rep h.rep] at this

theorem zero_add_is {x y : B64 lm} {r : ℝ} (h : x.Is 0) (h' : y.Is r) : (x + y).Is r := by
  have := h.add h' (by rw [zero_add, rs_rep h'.rep]; exact h'.rep.lt_top)
  rwa [zero_add, rs_rep h'.rep] at this

theorem slack_gradient : ∃ g h', getGradient (slackHeap lm) slackSketch = .ok (g, h') := by
  obtain ⟨h1, h2⟩ := slack_diff (lm := lm)
  have f3 := (zero_add_is B64.is_zero h1).isFinite
  have f4 := (zero_add_is B64.is_zero h2).isFinite
  have f1 := h1.isFinite
  have f2 := h2.isFinite
  have e : ({ x := nano, y := 0.0 } : Vec2 (B64 lm)) - { x := 0.0, y := 0.0 } = ⟨nano - 0.0, 0.0 - 0.0⟩ := rfl
  have e' : (Vec2.zeros : Vec2 (B64 lm)) + ⟨nano - 0.0, 0.0 - 0.0⟩ = ⟨0.0 + (nano - 0.0), 0.0 + (0.0 - 0.0)⟩ := rfl
  simp [getGradient, slackSketch, slackHeap, updateAll, collectGradient, upd, zeroGrads, primZeroGrad, Heap.setPoint, updateGradient, fixUpdate,
    pointAddGrad, Vec2.allFinite, ptData, Point2.new, primGrad, e, e', f1, f2, f3, f4, pure, Except.pure, bind, Except.bind]

/-- C90_gd, C90_default_gd: gradient descent accepts it as well -/
example : (gdSolve GDParams.default (slackHeap roundedLibm) slackSketch).res = .ok := by
  obtain ⟨g, h', e⟩ := slack_gradient (lm := roundedLibm)
  exact (C36_gd_stays GDParams.default _ _ _ _ e (.inr (slack_small (lm := roundedLibm) 14 (by norm_num) (by norm_num)).1)).1

theorem slack_jacobian : ∃ x y h', getJacobian (slackHeap lm) slackSketch = .ok ([[x, y]], h') ∧ x.Is (2 ^ (-30 : ℤ)) ∧ y.Is 0 ∧
    GradOnly (slackHeap lm) h' := by
  have hg := getJacobian_gradOnly (slackHeap lm) slackSketch
  obtain ⟨h1, h2⟩ := slack_diff (lm := lm)
  have f1 := h1.isFinite
  have f2 := h2.isFinite
  have e : ({ x := nano, y := 0.0 } : Vec2 (B64 lm)) - { x := 0.0, y := 0.0 } = ⟨nano - 0.0, 0.0 - 0.0⟩ := rfl
  have e' : (Vec2.zeros : Vec2 (B64 lm)) + ⟨nano - 0.0, 0.0 - 0.0⟩ = ⟨0.0 + (nano - 0.0), 0.0 + (0.0 - 0.0)⟩ := rfl
  have : ∃ h', getJacobian (slackHeap lm) slackSketch = .ok ([[0.0 + (nano - 0.0), 0.0 + (0.0 - 0.0)]], h') := by
    simp [getJacobian, slackSketch, slackHeap, jacobianRows, upd, zeroGrads, primZeroGrad, Heap.setPoint, updateGradient, fixUpdate, pointAddGrad,
      Vec2.allFinite, ptData, Point2.new, f1, f2, e, e', jacobianRow, primGrad, getNDofs, zerosVec, blit, primData]
  obtain ⟨h', e⟩ := this
  exact ⟨_, _, h', e, zero_add_is B64.is_zero h1, zero_add_is B64.is_zero h2, by rwa [e] at hg⟩

/-- the pseudo-inverse that drops every singular value -/
noncomputable def dropAll : PInv (B64 lm) := fun _ _ => .ok [[0.0, 0.0], [0.0, 0.0]]

theorem slack_newton (ml σ e : B64 lm) (nrm : Nat → List (List (B64 lm)) → List (List (B64 lm))) (n : Nat)
    (h1 : (ml <. Num.inf) = true) (h2 : (ml <. getLoss (slackHeap lm) slackSketch) = false) {t : ℝ} (hσ : σ.Is t) :
    (newtonLoop dropAll ml σ e nrm slackSketch (n + 2) Num.inf (slackHeap lm)).res = .ok ∧
      (newtonLoop dropAll ml σ e nrm slackSketch (n + 2) Num.inf (slackHeap lm)).steps.length = 1 := by
  obtain ⟨x, y, h', ej, hx, hy, hg⟩ := slack_jacobian (lm := lm)
  have hl := slack_loss (lm := lm)
  have hd : getData (slackHeap lm) slackSketch = [nano, 0.0] := by
    simp [getData, getNDofs, slackSketch, slackHeap, primData, zerosVec, blit, upd, Point2.new]
  have hlo : ∃ l, getLossPerConstraint (slackHeap lm) slackSketch = [l] ∧ Num.isFinite l = true := by
    refine ⟨_, rfl, ?_⟩
    obtain ⟨a, b, -, hb, -⟩ := B64.add_fin (x := 0.0) hl.isFinite
    exact hb.isFinite
  obtain ⟨l, hlo, hlf⟩ := hlo
  obtain ⟨lr, hlr⟩ := B64.is_of_finite hlf
  have g2 : gt (sumL (getLossPerConstraint (slackHeap lm) slackSketch)) ml = false := by rw [sumL_getLoss]; exact h2
  rw [show n + 2 = (n + 1) + 1 from rfl]
  unfold newtonLoop
  rw [if_pos (show gt Num.inf ml = true from h1)]
  dsimp only
  rw [ej]
  dsimp only [dropAll]
  rw [hd, hlo]
  have zz : ∀ {a b : B64 lm} {r t : ℝ}, a.Is r → b.Is t → ((0.0 : B64 lm) * a + 0.0 * b).Is 0 := fun ha hb =>
    add_zero_is (zero_mul_is ha) (zero_mul_is hb)
  have k0 := (zz hx hy)
  have : ∃ h2, setData h' slackSketch (vsub [nano, 0.0] ((matVec (matMul [[x, y]].length [[0.0, 0.0], [0.0, 0.0]]
      (transpose [(nano : B64 lm), 0.0].length [[x, y]])) [l]).map (· * σ))) = .ok h2 := by
    have k1 := k0.mul hlr (by rw [zero_mul, rs_zero, abs_zero]; exact (two_pos 0).trans (pow_lt_top (by norm_num)))
    rw [zero_mul, rs_zero] at k1
    have k2 := k1.mul hσ (by rw [zero_mul, rs_zero, abs_zero]; exact (two_pos 0).trans (pow_lt_top (by norm_num)))
    rw [zero_mul, rs_zero] at k2
    have k3 := (nano_is (lm := lm)).sub k2 (by rw [sub_zero, rs_rep (nano_is (lm := lm)).rep]; exact (nano_is (lm := lm)).rep.lt_top)
    have k4 := (B64.is_zero (lm := lm)).sub k2 (by rw [sub_zero, rs_rep (B64.is_zero (lm := lm)).rep]; exact (B64.is_zero (lm := lm)).rep.lt_top)
    have f3 := k3.isFinite
    have f4 := k4.isFinite
    simp [vsub, matVec, matMul, transpose, dotL, setData, setDataLoop, slackSketch, getNDofs, primData, primSetData, f3, f4, List.range_succ]
  obtain ⟨h2', e2⟩ := this
  rw [e2]
  dsimp only
  unfold newtonLoop
  rw [← hlo, g2]
  exact ⟨rfl, rfl⟩

/-- C90_gauss_newton, C90_default_gauss_newton, C90_levenberg_marquardt, C90_default_levenberg_marquardt: both solvers accept it after one step -/
example : (gnSolve dropAll GNParams.default (slackHeap roundedLibm) slackSketch).res = .ok ∧
    (gnSolve dropAll GNParams.default (slackHeap roundedLibm) slackSketch).steps.length = 1 ∧
    (lmSolve dropAll LMParams.default (slackHeap roundedLibm) slackSketch).res = .ok ∧
    (lmSolve dropAll LMParams.default (slackHeap roundedLibm) slackSketch).steps.length = 1 := by
  have inf_gt : ∀ e : Nat, 2 ^ (-100 : ℤ) ≤ (OfScientific.ofScientific 1 true e : ℝ) → (OfScientific.ofScientific 1 true e : ℝ) ≤ 1 →
      ((OfScientific.ofScientific 1 true e : B64 roundedLibm) <. Num.inf) = true ∧
        ∃ t, (OfScientific.ofScientific 1 true e : B64 roundedLibm).Is t := by
    intro e h0 h1
    obtain ⟨m, hm, -⟩ := lit_small (lm := roundedLibm) 1 e rfl h0 h1
    refine ⟨?_, m, hm⟩
    rw [B64.lt_iff, hm.ext]
    exact ⟨hm.notNan, rfl, EReal.coe_lt_top m⟩
  obtain ⟨a1, -⟩ := inf_gt 6 (by norm_num) (by norm_num)
  obtain ⟨-, t1, b1⟩ := inf_gt 3 (by norm_num) (by norm_num)
  obtain ⟨a2, -⟩ := inf_gt 10 (by norm_num) (by norm_num)
  obtain ⟨-, t2, b2⟩ := inf_gt 1 (by norm_num) (by norm_num)
  have c1 := slack_newton _ _ (1e-6) gnNormal 9998 a1 (slack_small (lm := roundedLibm) 6 (by norm_num) (by norm_num)).2 b1
  have c2 := slack_newton _ _ (1e-6) (lmNormal 1e-5) 998 a2 (slack_small (lm := roundedLibm) 10 (by norm_num) (by norm_num)).2 b2
  exact ⟨c1.1, c1.2, c2.1, c2.2⟩

end Isotope
