import Verif.Lemmas.FloatBound
import Verif.Props.Solver
import Verif.Props.Loss

/-!
# Properties in IEEE binary64 (C61)

The model run on `B64 lm`, i.e. with `f64` as IEEE 754 describes it and any mathematical library.
-/

namespace Isotope
open Round Val

variable {lm : Libm}

/-! ## Solvers -/

/-- **C61.** In binary64 gradient descent that returns `Ok` has not increased the loss (or has done nothing). -/
theorem C61_gd_monotone (p : GDParams (B64 lm)) (h : Heap (B64 lm)) (s : Sketch) (hn : s.cells.Nodup)
    (hr : (gdSolve p h s).res = .ok) :
    ((gdSolve p h s).steps = [] ∧ GradOnly h (gdSolve p h s).heap) ∨
      (getLoss (gdSolve p h s).heap s <=. getLoss h s) = true := C28_monotone p h s hn hr

/-- **C61.** In binary64 BFGS that returns `Ok` without a failed line search has not increased the loss (or has done
nothing). -/
theorem C61_bfgs_monotone (p : BFGSParams (B64 lm)) (h : Heap (B64 lm)) (s : Sketch) (hn : s.cells.Nodup)
    (hr : (bfgsSolve p h s).res = .ok) (hf : (bfgsSolve p h s).failed = 0) :
    ((bfgsSolve p h s).steps = [] ∧ GradOnly h (bfgsSolve p h s).heap) ∨
      (getLoss (bfgsSolve p h s).heap s <=. getLoss h s) = true := C33_monotone p h s hn hr hf

/-! ## Losses are not negative -/

/-- NaN or sign bit clear -/
def Plus (v : Val) : Prop := v.isNan = true ∨ v.isNeg = false

theorem isNeg_pack (a : Bool) (x : ℝ) : (pack a x).isNeg = a := by unfold pack; split_ifs <;> rfl

theorem isNeg_mul (a b : Val) : (a.mul b).isNan = true ∨ (a.mul b).isNeg = (a.isNeg ^^ b.isNeg) := by
  cases a <;> cases b <;> simp only [Val.mul, isNeg_pack] <;>
    first | exact .inl rfl | exact .inr rfl | (split_ifs <;> first | exact .inl rfl | exact .inr rfl)

theorem isNan_mul_left {a b : Val} (h : a.isNan = true) : (a.mul b).isNan = true := by
  cases a <;> first | rfl | cases h

theorem Plus.mul {a b : Val} (ha : Plus a) (hb : Plus b) : Plus (a.mul b) := by
  rcases ha with ha | ha
  · exact .inl (isNan_mul_left ha)
  · rcases hb with hb | hb
    · cases b <;> first | (cases a <;> exact .inl rfl) | cases hb
    · rcases isNeg_mul a b with h | h
      · exact .inl h
      · rw [ha, hb] at h; exact .inr h

theorem plus_sq (a : Val) : Plus (a.mul a) := by
  rcases isNeg_mul a a with h | h
  · exact .inl h
  · exact .inr (by simpa using h)

theorem Plus.add {a b : Val} (ha : Plus a) (hb : Plus b) : Plus (a.add b) := by
  cases a <;> cases b <;> simp only [Val.add] <;> first | exact .inl rfl | exact ha | exact hb | skip
  · split_ifs
    · exact ha
    · exact .inl rfl
  · rename_i s m t n
    rcases ha with ha | ha
    · cases ha
    rcases hb with hb | hb
    · cases hb
    simp only [isNeg] at ha hb
    subst ha hb
    have h1 := m.2.nonneg
    have h2 := n.2.nonneg
    split_ifs with h0
    · exact .inr rfl
    · refine .inr ?_
      rw [isNeg_pack]
      simp only [sgn]
      simpa using add_nonneg h1 h2

theorem plus_lit (m : Nat) (b : Bool) (e : Nat) : Plus (OfScientific.ofScientific m b e : B64 lm).v :=
  .inr (isNeg_pack _ _)

theorem plus_half_sq (e : B64 lm) : Plus ((0.5 : B64 lm) * e * e).v := by
  rw [B64.mul_v, B64.mul_v]
  have h5 : (0.5 : B64 lm).v.isNeg = false := isNeg_pack _ _
  rcases isNeg_mul (0.5 : B64 lm).v e.v with h | h
  · exact .inl (isNan_mul_left h)
  rw [h5] at h
  rcases isNeg_mul ((0.5 : B64 lm).v.mul e.v) e.v with h' | h'
  · exact .inl h'
  · rw [h] at h'
    exact .inr (by simpa using h')

theorem plus_loss (h : Heap (B64 lm)) (c : Constraint (B64 lm)) : Plus (lossValue h c).v := by
  cases c <;> simp only [lossValue]
  case arcEnd => exact (plus_lit _ _ _).mul ((plus_sq _).add (plus_sq _))
  case arcStart => exact (plus_lit _ _ _).mul ((plus_sq _).add (plus_sq _))
  case fix => exact (plus_lit _ _ _).mul ((plus_sq _).add (plus_sq _))
  case parallel => split; exacts [plus_lit _ _ _, plus_half_sq _]
  case perp => split; exacts [plus_lit _ _ _, plus_half_sq _]
  all_goals exact plus_half_sq _

theorem Plus.not_neg {x : B64 lm} (hx : Plus x.v) : (x <. (0.0 : B64 lm)) = false := by
  rw [← Bool.not_eq_true, B64.lt_iff, B64.zero_v]
  rintro ⟨h1, -, h3⟩
  rcases hx with h | h
  · rw [h] at h1; cases h1
  · obtain ⟨x⟩ := x
    cases x with
    | nan => simp [ext, sgn] at h3
    | inf a => simp only [isNeg] at h; subst h; simp [ext, sgn] at h3
    | num a m =>
      simp only [isNeg] at h
      subst h
      have := m.2.nonneg
      simp [ext, sgn, not_lt.2 this] at h3

/-- **C61.** In binary64 no loss is below zero, in any state of the heap. -/
theorem C61_nonneg (h : Heap (B64 lm)) (c : Constraint (B64 lm)) : (lossValue h c <. (0.0 : B64 lm)) = false :=
  (plus_loss h c).not_neg

/-- **C61.** In binary64 the total loss is never below zero. -/
theorem C61_total_nonneg (h : Heap (B64 lm)) (s : Sketch) : (getLoss h s <. (0.0 : B64 lm)) = false := by
  apply Plus.not_neg
  unfold getLoss
  have : ∀ (l : List Nat) (a : B64 lm), Plus a.v → Plus (l.foldl (fun loss c => loss + lossValue h (h.cons c)) a).v := by
    intro l
    induction l with
    | nil => intro a ha; exact ha
    | cons k l ih => intro a ha; exact ih _ (ha.add (plus_loss h _))
  exact this _ _ (plus_lit _ _ _)

/-! ## Zero loss -/

theorem rs_eq_zero {z : ℝ} : rs z = 0 ↔ |z| ≤ 2 ^ (-1075 : ℤ) := by
  rw [← abs_eq_zero, abs_rs, rnd_eq_zero (abs_nonneg z)]

/-- in binary64 a sum of squares is zero only if both numbers are tiny -/
theorem rs_sq_small {x : ℝ} (h : |x| ≤ 2 ^ (-538 : ℤ)) : rs (x * x) = 0 := by
  rw [rs_eq_zero, abs_mul]
  calc |x| * |x| ≤ 2 ^ (-538 : ℤ) * 2 ^ (-538 : ℤ) := mul_le_mul h h (abs_nonneg x) (two_pos _).le
    _ = 2 ^ (-1076 : ℤ) := by rw [← zpow_add₀ (by norm_num)]; norm_num
    _ ≤ 2 ^ (-1075 : ℤ) := zpow_le_zpow_right₀ (by norm_num) (by norm_num)

theorem rs_sq_large {x : ℝ} (h : 2 ^ (-536 : ℤ) ≤ |x|) : 2 ^ (-1072 : ℤ) ≤ |rs (x * x)| := by
  apply le_abs_rs (rep_pow _ (by norm_num) (by norm_num))
  rw [abs_mul]
  calc (2 : ℝ) ^ (-1072 : ℤ) = 2 ^ (-536 : ℤ) * 2 ^ (-536 : ℤ) := by rw [← zpow_add₀ (by norm_num)]; norm_num
    _ ≤ |x| * |x| := mul_le_mul h h (two_pos _).le (abs_nonneg x)

/-- **C61.** In binary64 a `FixPoint` constraint whose point is within `2^-538` of its target in both coordinates has loss
exactly zero, although the point need not be there. -/
theorem C61_fix_underflow (h : Heap (B64 lm)) (p : Nat) (X Y : B64 lm) (x y a b : ℝ)
    (hx : (h.points p).data.x.Is x) (hy : (h.points p).data.y.Is y) (ha : X.Is a) (hb : Y.Is b)
    (h1 : |x - a| ≤ 2 ^ (-538 : ℤ)) (h2 : |y - b| ≤ 2 ^ (-538 : ℤ)) :
    (lossValue h (.fix p ⟨X, Y⟩) ==. (0.0 : B64 lm)) = true := by
  have key : ∀ z : ℝ, |z| ≤ 2 ^ (-538 : ℤ) → rs (rs z * rs z) = 0 := fun z hz =>
    rs_sq_small (abs_rs_le (rep_pow _ (by norm_num) (by norm_num)) hz)
  have t0 : |rs 0| < top := by rw [rs_zero, abs_zero]; exact Rep.zero.lt_top
  have dx := hx.sub ha (abs_rs_lt_top (by norm_num) (by norm_num) h1)
  have dy := hy.sub hb (abs_rs_lt_top (by norm_num) (by norm_num) h2)
  have qx := dx.mul dx (by rw [key _ h1]; simpa using Rep.zero.lt_top)
  have qy := dy.mul dy (by rw [key _ h2]; simpa using Rep.zero.lt_top)
  rw [key _ h1] at qx
  rw [key _ h2] at qy
  have q := qx.add qy (by rw [add_zero]; exact t0)
  rw [add_zero, rs_zero] at q
  have l := B64.is_half.mul q (by rw [mul_zero]; exact t0)
  rw [mul_zero, rs_zero] at l
  exact (l.eq_iff B64.is_zero).2 rfl

/-- **C61.** Conversely, if in binary64 the loss of a `FixPoint` constraint is exactly zero, its point is within `2^-536` of
its target in both coordinates. -/
theorem C61_fix_zero (h : Heap (B64 lm)) (p : Nat) (X Y : B64 lm) (x y a b : ℝ)
    (hx : (h.points p).data.x.Is x) (hy : (h.points p).data.y.Is y) (ha : X.Is a) (hb : Y.Is b)
    (hl : (lossValue h (.fix p ⟨X, Y⟩) ==. (0.0 : B64 lm)) = true) :
    |x - a| < 2 ^ (-536 : ℤ) ∧ |y - b| < 2 ^ (-536 : ℤ) := by
  obtain ⟨x0, l0⟩ : ∃ e, (lossValue h (.fix p ⟨X, Y⟩)).v = num e ⟨0, Rep.zero⟩ := by
    rw [B64.eq_iff, B64.zero_v] at hl
    generalize (lossValue h (.fix p ⟨X, Y⟩)).v = v at hl
    obtain ⟨h1, -, h3⟩ := hl
    cases v with
    | nan => cases h1
    | inf a => cases a <;> simp [ext, sgn] at h3
    | num a m =>
      refine ⟨a, ?_⟩
      obtain ⟨m, hm⟩ := m
      have h3 : sgn a m = sgn false 0 := EReal.coe_eq_coe_iff.1 h3
      have : m = 0 := by cases a <;> simpa [sgn] using h3
      subst this
      rfl
  -- every intermediate result of a finite loss is finite
  have fin_mul : ∀ u v : B64 lm, (u * v).v.isFinite = true → u.v.isFinite = true ∧ v.v.isFinite = true := by
    rintro ⟨u⟩ ⟨v⟩ hh
    rw [B64.mul_v] at hh
    cases u <;> cases v <;> simp only [Val.mul] at hh <;> first | exact ⟨rfl, rfl⟩ | (split_ifs at hh <;> cases hh) | cases hh
  have fin_add : ∀ u v : B64 lm, (u + v).v.isFinite = true → u.v.isFinite = true ∧ v.v.isFinite = true := by
    rintro ⟨u⟩ ⟨v⟩ hh
    rw [B64.add_v] at hh
    cases u <;> cases v <;> simp only [Val.add] at hh <;> first | exact ⟨rfl, rfl⟩ | (split_ifs at hh <;> cases hh) | cases hh
  have pk : ∀ (u : B64 lm) (a : Bool) (z : ℝ), u.v = pack a z → u.v.isFinite = true → |rs z| < top := by
    intro u a z hu hf
    rw [abs_rs]
    by_contra hc
    rw [hu, Val.pack, dif_neg hc] at hf
    cases hf
  have addT : ∀ (u v : B64 lm) (r t : ℝ), u.Is r → v.Is t → (u + v).v.isFinite = true → |rs (r + t)| < top := by
    rintro u v r t ⟨s, m, e, rfl⟩ ⟨s', m', e', rfl⟩ hf
    by_cases h0 : sgn s m.1 + sgn s' m'.1 = 0
    · rw [h0, rs_zero, abs_zero]; exact Rep.zero.lt_top
    · refine pk (u + v) (decide (sgn s m.1 + sgn s' m'.1 < 0)) _ ?_ hf
      rw [B64.add_v, e, e']; simp only [Val.add]; rw [if_neg h0]
  have mulT : ∀ (u v : B64 lm) (r t : ℝ), u.Is r → v.Is t → (u * v).v.isFinite = true → |rs (r * t)| < top := by
    rintro u v r t ⟨s, m, e, rfl⟩ ⟨s', m', e', rfl⟩ hf
    rw [B64.Is.sgn_mul]
    refine pk (u * v) (s ^^ s') _ ?_ hf
    rw [B64.mul_v, e, e']
    simp only [Val.mul]
    exact B64.Is.pack_sgn _ _
  have f0 : (lossValue h (.fix p ⟨X, Y⟩)).v.isFinite = true := by rw [l0]; rfl
  change ((0.5 : B64 lm) * (((h.points p).data.x - X) * ((h.points p).data.x - X) +
    ((h.points p).data.y - Y) * ((h.points p).data.y - Y))).v.isFinite = true at f0
  change ((0.5 : B64 lm) * (((h.points p).data.x - X) * ((h.points p).data.x - X) +
    ((h.points p).data.y - Y) * ((h.points p).data.y - Y))).v = _ at l0
  have f1 := (fin_mul _ _ f0).2
  obtain ⟨f2, f3⟩ := fin_add _ _ f1
  have dx := hx.sub ha (by
    have := addT _ _ _ _ hx ha.neg (fin_mul _ _ f2).1
    rwa [← sub_eq_add_neg] at this)
  have dy := hy.sub hb (by
    have := addT _ _ _ _ hy hb.neg (fin_mul _ _ f3).1
    rwa [← sub_eq_add_neg] at this)
  have qx := dx.mul dx (mulT _ _ _ _ dx dx f2)
  have qy := dy.mul dy (mulT _ _ _ _ dy dy f3)
  have q := qx.add qy (addT _ _ _ _ qx qy f1)
  have l := B64.is_half.mul q (mulT _ _ _ _ B64.is_half q f0)
  have l' : ((0.5 : B64 lm) * (((h.points p).data.x - X) * ((h.points p).data.x - X) +
    ((h.points p).data.y - Y) * ((h.points p).data.y - Y))).Is 0 := ⟨x0, _, l0, by cases x0 <;> simp [sgn]⟩
  have z := l.unique l'
  rw [rs_eq_zero, abs_mul, abs_of_pos (by norm_num : (0 : ℝ) < 1 / 2)] at z
  have s1 : ∀ w : ℝ, 0 ≤ rs (w * w) := fun w => rs_nonneg (mul_self_nonneg w)
  have big : ∀ w : ℝ, |w| ≤ |rs (rs (x - a) * rs (x - a)) + rs (rs (y - b) * rs (y - b))| → Rep |w| →
      |w| < 2 ^ (-1072 : ℤ) := by
    intro w hw hr
    have h1 := le_abs_rs hr hw
    have h2 : (2 : ℝ) ^ (-1072 : ℤ) = 8 * 2 ^ (-1075 : ℤ) := by
      rw [show (-1072 : ℤ) = 3 + -1075 by norm_num, zpow_add₀ (by norm_num)]; norm_num
    rw [h2]
    have := two_pos (-1075)
    linarith
  have side : ∀ w : ℝ, |rs (rs w * rs w)| < 2 ^ (-1072 : ℤ) → |w| < 2 ^ (-536 : ℤ) := by
    intro w hw
    by_contra hc
    have := rs_sq_large (le_abs_rs (rep_pow _ (by norm_num) (by norm_num)) (not_lt.1 hc))
    linarith
  refine ⟨side _ (big _ ?_ qx.rep), side _ (big _ ?_ qy.rep)⟩
  · rw [abs_of_nonneg (s1 _), abs_of_nonneg (add_nonneg (s1 _) (s1 _))]
    linarith [s1 (rs (y - b))]
  · rw [abs_of_nonneg (s1 _), abs_of_nonneg (add_nonneg (s1 _) (s1 _))]
    linarith [s1 (rs (x - a))]

/-- a point `2^-600` away from its target: loss zero, not at the target -/
example : ∃ (h : Heap (B64 lm)) (X Y : B64 lm), (h.points 0).data.x ≠ X ∧
    (lossValue h (.fix 0 ⟨X, Y⟩) ==. (0.0 : B64 lm)) = true := by
  have e0 : (⟨num false ⟨0, Rep.zero⟩⟩ : B64 lm).Is 0 := ⟨false, _, rfl, by simp [sgn]⟩
  have e1 : (⟨num false ⟨2 ^ (-600 : ℤ), rep_pow _ (by norm_num) (by norm_num)⟩⟩ : B64 lm).Is (2 ^ (-600 : ℤ)) :=
    ⟨false, _, rfl, by simp [sgn]⟩
  refine ⟨(Heap.empty.allocPoint (Point2.new _ _)).2, _, _, ?_,
    C61_fix_underflow _ 0 _ _ (2 ^ (-600 : ℤ)) 0 0 0 e1 e0 e0 e0 ?_ ?_⟩
  · intro hh
    have h1 : (2 : ℝ) ^ (-600 : ℤ) = 0 := (show (B64.Is _ _) from e1).unique (by
      have h2 := e0
      rw [← hh] at h2
      exact h2)
    exact (two_pos _).ne' h1
  · rw [sub_zero, abs_of_pos (two_pos _)]
    exact zpow_le_zpow_right₀ (by norm_num) (by norm_num)
  · rw [sub_zero, abs_zero]; exact (two_pos _).le

end Isotope
