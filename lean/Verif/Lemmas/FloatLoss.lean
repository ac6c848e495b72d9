import Verif.Lemmas.FloatErr

/-!
# Rounding errors of losses and lengths
-/

namespace Isotope
open Round

theorem abs_rs_lo {z : ℝ} (h : 2 ^ (-1022 : ℤ) ≤ |z|) : (1 - ulp) * |z| ≤ |rs z| := by
  have h1 := rs_err h
  have h2 := abs_sub_abs_le_abs_sub z (rs z)
  rw [abs_sub_comm] at h2
  linarith

theorem abs_rs_hi (z : ℝ) : |rs z| ≤ (1 + ulp) * |z| + 2 ^ (-1075 : ℤ) := by
  have h1 := rs_err' z
  have h2 := abs_sub_abs_le_abs_sub (rs z) z
  linarith

theorem two_small {j k : ℤ} (h : j + 75 ≤ k) : (2 : ℝ) ^ j ≤ 1 / 37778931862957161709568 * 2 ^ k := by
  have h1 := two_le h
  rw [zpow_add₀ (by norm_num)] at h1
  norm_num at h1
  linarith

theorem two_next (k : ℤ) : (2 : ℝ) ^ (k + 1) = 2 * 2 ^ k := by
  rw [zpow_add₀ (by norm_num), zpow_one, mul_comm]

/-- half a computed square that is small -/
theorem half_sq_le {e m : ℝ} (hm : 2 ^ (-600 : ℤ) ≤ m) (h : rs (rs (1 / 2 * e) * e) ≤ m) :
    |e| ≤ (1 + 4 * ulp) * Real.sqrt (2 * m) := by
  by_contra hc
  have hc := not_le.1 hc
  have m0 : 0 < m := (two_pos _).trans_le hm
  have hB : Real.sqrt (2 * m) * Real.sqrt (2 * m) = 2 * m := Real.mul_self_sqrt (by linarith)
  have hB0 : 0 < Real.sqrt (2 * m) := Real.sqrt_pos.2 (by linarith)
  set B := Real.sqrt (2 * m)
  have hBl : 2 ^ (-300 : ℤ) ≤ B := by
    by_contra hh
    have hh := not_le.1 hh
    have : B * B < 2 ^ (-300 : ℤ) * 2 ^ (-300 : ℤ) := mul_lt_mul'' hh hh hB0.le hB0.le
    rw [← zpow_add₀ (by norm_num)] at this
    norm_num only at this hm
    linarith
  have hel : 2 ^ (-300 : ℤ) ≤ |e| := by
    have := ulp_pos
    nlinarith
  have e0 : 0 < |e| := (two_pos _).trans_le hel
  have h1 : (1 - ulp) * |1 / 2 * e| ≤ |rs (1 / 2 * e)| := abs_rs_lo (by
    rw [abs_mul, abs_of_pos (by norm_num : (0:ℝ) < 1 / 2)]
    have := two_small (j := -1022) (k := -300) (by norm_num)
    linarith [two_pos (-300)])
  have h2 : (1 - ulp) * |rs (1 / 2 * e) * e| ≤ |rs (rs (1 / 2 * e) * e)| := abs_rs_lo (by
    rw [abs_mul]
    rw [abs_mul, abs_of_pos (by norm_num : (0:ℝ) < 1 / 2), ulp_eq] at h1
    have : (2 : ℝ) ^ (-1022 : ℤ) ≤ (1 / 4 * 2 ^ (-300 : ℤ)) * 2 ^ (-300 : ℤ) := by
      rw [mul_assoc, ← zpow_add₀ (by norm_num)]
      have := two_small (j := -1022) (k := -300 + -300) (by norm_num)
      have h0 := two_pos (-300 + -300)
      generalize (2 : ℝ) ^ (-300 + -300 : ℤ) = z at *
      linarith
    refine this.trans (mul_le_mul ?_ hel (two_pos _).le (abs_nonneg _))
    linarith)
  have h3 : 0 ≤ rs (1 / 2 * e) * e := by
    rcases le_or_gt 0 e with h | h
    · exact mul_nonneg (rs_nonneg (by linarith)) h
    · have := rs_nonneg (z := -(1 / 2 * e)) (by linarith)
      rw [rs_neg] at this
      nlinarith
  rw [abs_of_nonneg (rs_nonneg h3), abs_mul] at h2
  rw [abs_mul, abs_of_pos (by norm_num : (0:ℝ) < 1 / 2)] at h1
  have h4 : (1 + 4 * ulp) * B * ((1 + 4 * ulp) * B) < |e| * |e| := by
    have : 0 < (1 + 4 * ulp) * B := mul_pos (by linarith [ulp_pos]) hB0
    exact mul_lt_mul'' hc hc this.le this.le
  have h5 : (1 - ulp) * ((1 - ulp) * (1 / 2 * |e|) * |e|) ≤ m :=
    (mul_le_mul_of_nonneg_left (mul_le_mul_of_nonneg_right h1 (abs_nonneg e)) (by rw [ulp_eq]; norm_num)).trans
      (h2.trans h)
  have h6 : (1 + 4 * ulp) * B * ((1 + 4 * ulp) * B) = (1 + 4 * ulp) * (1 + 4 * ulp) * (2 * m) := by rw [← hB]; ring
  rw [h6] at h4
  have h7 : (1 - ulp) * ((1 - ulp) * (1 / 2 * |e|) * |e|) = (1 - ulp) * (1 - ulp) * (1 / 2) * (|e| * |e|) := by ring
  rw [h7] at h5
  rw [ulp_eq] at h4 h5
  norm_num only at h4 h5
  linarith

/-- the computed sum of two squares, not tiny -/
theorem sum_sq_near {a b : ℝ} (h : 2 ^ (-1000 : ℤ) ≤ a * a + b * b) :
    |rs (rs (a * a) + rs (b * b)) - (a * a + b * b)| ≤ 3 * ulp * (a * a + b * b) := by
  have ha := rs_err' (a * a)
  have hb := rs_err' (b * b)
  have na := rs_nonneg (mul_self_nonneg a)
  have nb := rs_nonneg (mul_self_nonneg b)
  have hs := rs_err' (rs (a * a) + rs (b * b))
  rw [abs_of_nonneg (mul_self_nonneg a), abs_le] at ha
  rw [abs_of_nonneg (mul_self_nonneg b), abs_le] at hb
  rw [abs_of_nonneg (add_nonneg na nb), abs_le] at hs
  have ht := two_small (j := -1075) (k := -1000) (by norm_num)
  have ht0 := two_pos (-1075)
  generalize (2 : ℝ) ^ (-1075 : ℤ) = t at *
  generalize (2 : ℝ) ^ (-1000 : ℤ) = t' at *
  generalize a * a = A at *
  generalize b * b = B at *
  rw [ulp_eq] at *
  rw [abs_le]
  constructor <;> norm_num at * <;> linarith [ha.1, ha.2, hb.1, hb.2, hs.1, hs.2]

theorem sum_sq_small {a b : ℝ} (h : a * a + b * b ≤ 2 ^ (-1000 : ℤ)) :
    rs (rs (a * a) + rs (b * b)) ≤ 2 ^ (-999 : ℤ) := by
  have ha := rs_err' (a * a)
  have hb := rs_err' (b * b)
  have na := rs_nonneg (mul_self_nonneg a)
  have nb := rs_nonneg (mul_self_nonneg b)
  have hs := rs_err' (rs (a * a) + rs (b * b))
  rw [abs_of_nonneg (mul_self_nonneg a), abs_le] at ha
  rw [abs_of_nonneg (mul_self_nonneg b), abs_le] at hb
  rw [abs_of_nonneg (add_nonneg na nb), abs_le] at hs
  have ht := two_small (j := -1075) (k := -1000) (by norm_num)
  have hu : (2 : ℝ) ^ (-999 : ℤ) = 2 * 2 ^ (-1000 : ℤ) := by rw [← two_next]; norm_num
  rw [hu]
  have ht0 := two_pos (-1075)
  generalize (2 : ℝ) ^ (-1075 : ℤ) = t at *
  generalize (2 : ℝ) ^ (-1000 : ℤ) = t' at *
  generalize a * a = A at *
  generalize b * b = B at *
  rw [ulp_eq] at *
  norm_num at *
  linarith [ha.1, ha.2, hb.1, hb.2, hs.1, hs.2]

/-- half a computed sum of squares that is small -/
theorem half_sum_le {a b m : ℝ} (hm : 2 ^ (-600 : ℤ) ≤ m) (h : rs (1 / 2 * rs (rs (a * a) + rs (b * b))) ≤ m) :
    Real.sqrt (a * a + b * b) ≤ (1 + 4 * ulp) * Real.sqrt (2 * m) := by
  have m0 : 0 < m := (two_pos _).trans_le hm
  have q0 : 0 ≤ a * a + b * b := add_nonneg (mul_self_nonneg a) (mul_self_nonneg b)
  have hu : (0 : ℝ) ≤ 1 + 4 * ulp := by linarith [ulp_pos]
  rw [← Real.sqrt_sq hu, ← Real.sqrt_mul (sq_nonneg _)]
  apply Real.sqrt_le_sqrt
  by_contra hc
  have hc := not_le.1 hc
  have hl : 2 ^ (-600 : ℤ) ≤ a * a + b * b := by
    rw [ulp_eq] at hc
    norm_num only at hc hm ⊢
    linarith
  have h1 := sum_sq_near ((two_le (by norm_num)).trans hl)
  rw [abs_le] at h1
  have h2 := two_small (j := -1022) (k := -600) (by norm_num)
  have h2' := two_pos (-600)
  have h3 : 1 / 2 * (a * a + b * b) ≤ rs (rs (a * a) + rs (b * b)) := by
    have := h1.1
    rw [ulp_eq] at this
    linarith
  have h4 := abs_rs_lo (z := 1 / 2 * rs (rs (a * a) + rs (b * b))) (by
    rw [abs_of_nonneg (by linarith)]
    linarith)
  rw [abs_of_nonneg (rs_nonneg (by linarith)), abs_of_nonneg (by linarith)] at h4
  have h5 := h4.trans h
  have h6 := h1.1
  rw [ulp_eq] at *
  generalize a * a + b * b = q at *
  generalize rs (rs (a * a) + rs (b * b)) = w at *
  norm_num only at *
  linarith

/-- the computed length of a vector -/
theorem norm_near (a b : ℝ) :
    |rs (Real.sqrt (rs (rs (a * a) + rs (b * b)))) - Real.sqrt (a * a + b * b)| ≤
      4 * ulp * Real.sqrt (a * a + b * b) + 2 ^ (-498 : ℤ) := by
  have q0 : 0 ≤ a * a + b * b := add_nonneg (mul_self_nonneg a) (mul_self_nonneg b)
  have s0 : 0 ≤ rs (rs (a * a) + rs (b * b)) :=
    rs_nonneg (add_nonneg (rs_nonneg (mul_self_nonneg a)) (rs_nonneg (mul_self_nonneg b)))
  have hr := rs_err' (Real.sqrt (rs (rs (a * a) + rs (b * b))))
  rw [abs_of_nonneg (Real.sqrt_nonneg _), abs_le] at hr
  have ht0 := two_pos (-1075)
  rcases le_total (2 ^ (-1000 : ℤ)) (a * a + b * b) with h | h
  · have hn := sum_sq_near h
    have ht : (2 : ℝ) ^ (-1075 : ℤ) ≤ 2 ^ (-498 : ℤ) := two_le (by norm_num)
    generalize rs (rs (a * a) + rs (b * b)) = S at *
    generalize a * a + b * b = q at *
    have hN := Real.sqrt_nonneg q
    have hS := Real.sqrt_nonneg S
    rw [abs_le] at hn
    have k1 : Real.sqrt S ≤ (1 + 2 * ulp) * Real.sqrt q := by
      have hu : (0 : ℝ) ≤ 1 + 2 * ulp := by linarith [ulp_pos]
      rw [← Real.sqrt_sq hu, ← Real.sqrt_mul (sq_nonneg _)]
      apply Real.sqrt_le_sqrt
      have := hn.2
      rw [ulp_eq] at *
      norm_num only at *
      linarith
    have k2 : (1 - 2 * ulp) * Real.sqrt q ≤ Real.sqrt S := by
      have hu : (0 : ℝ) ≤ 1 - 2 * ulp := by rw [ulp_eq]; norm_num
      rw [← Real.sqrt_sq hu, ← Real.sqrt_mul (sq_nonneg _)]
      apply Real.sqrt_le_sqrt
      have := hn.1
      rw [ulp_eq] at *
      norm_num only at *
      linarith
    generalize Real.sqrt q = N at *
    generalize Real.sqrt S = M at *
    generalize (2 : ℝ) ^ (-1075 : ℤ) = t at *
    generalize (2 : ℝ) ^ (-498 : ℤ) = t' at *
    rw [ulp_eq] at *
    rw [abs_le]
    constructor <;> norm_num only at * <;> linarith [hr.1, hr.2]
  · have h1 := sum_sq_small h
    have k1 : Real.sqrt (rs (rs (a * a) + rs (b * b))) ≤ 2 ^ (-499 : ℤ) := by
      rw [← sqrt_two (-499)]
      exact Real.sqrt_le_sqrt (h1.trans (two_le (by norm_num)))
    have k2 : Real.sqrt (a * a + b * b) ≤ 2 ^ (-499 : ℤ) := by
      rw [← sqrt_two (-499)]
      exact Real.sqrt_le_sqrt (h.trans (two_le (by norm_num)))
    have ht := two_small (j := -1075) (k := -499) (by norm_num)
    have hu : (2 : ℝ) ^ (-498 : ℤ) = 2 * 2 ^ (-499 : ℤ) := by rw [← two_next]; norm_num
    rw [hu]
    have hN := Real.sqrt_nonneg (a * a + b * b)
    have hS := Real.sqrt_nonneg (rs (rs (a * a) + rs (b * b)))
    have hR := rs_nonneg hS
    generalize Real.sqrt (a * a + b * b) = N at *
    generalize Real.sqrt (rs (rs (a * a) + rs (b * b))) = M at *
    generalize (2 : ℝ) ^ (-1075 : ℤ) = t at *
    generalize (2 : ℝ) ^ (-499 : ℤ) = t' at *
    rw [ulp_eq] at *
    rw [abs_le]
    constructor <;> norm_num only at * <;> linarith [hr.1, hr.2]

/-- vectors that are near by component are near in length -/
theorem len_near {a b x y k : ℝ} (hk : 0 ≤ k) (ha : |a - x| ≤ k * |x|) (hb : |b - y| ≤ k * |y|) :
    |Real.sqrt (a * a + b * b) - Real.sqrt (x * x + y * y)| ≤ k * Real.sqrt (x * x + y * y) := by
  have lem : ∀ p q r t : ℝ, Real.sqrt ((p + r) * (p + r) + (q + t) * (q + t)) ≤
      Real.sqrt (p * p + q * q) + Real.sqrt (r * r + t * t) := by
    intro p q r t
    have A := Real.sqrt_nonneg (p * p + q * q)
    have B := Real.sqrt_nonneg (r * r + t * t)
    have A2 := Real.mul_self_sqrt (add_nonneg (mul_self_nonneg p) (mul_self_nonneg q))
    have B2 := Real.mul_self_sqrt (add_nonneg (mul_self_nonneg r) (mul_self_nonneg t))
    apply Real.sqrt_le_iff.2
    refine ⟨by linarith, ?_⟩
    have key : p * r + q * t ≤ Real.sqrt (p * p + q * q) * Real.sqrt (r * r + t * t) := by
      rw [← Real.sqrt_mul (add_nonneg (mul_self_nonneg p) (mul_self_nonneg q))]
      apply Real.le_sqrt_of_sq_le
      nlinarith [sq_nonneg (p * t - q * r)]
    nlinarith
  have sm : Real.sqrt ((a - x) * (a - x) + (b - y) * (b - y)) ≤ k * Real.sqrt (x * x + y * y) := by
    rw [← Real.sqrt_sq hk, ← Real.sqrt_mul (sq_nonneg _)]
    apply Real.sqrt_le_sqrt
    have h1 := mul_self_le_mul_self (abs_nonneg _) ha
    have h2 := mul_self_le_mul_self (abs_nonneg _) hb
    rw [abs_mul_abs_self] at h1 h2
    have e1 : k * |x| * (k * |x|) = k ^ 2 * (x * x) := by rw [← abs_mul_abs_self x]; ring
    have e2 : k * |y| * (k * |y|) = k ^ 2 * (y * y) := by rw [← abs_mul_abs_self y]; ring
    rw [e1] at h1
    rw [e2] at h2
    linarith
  rw [abs_le]
  constructor
  · have := lem a b (x - a) (y - b)
    rw [add_sub_cancel, add_sub_cancel] at this
    have e : (x - a) * (x - a) + (y - b) * (y - b) = (a - x) * (a - x) + (b - y) * (b - y) := by ring
    rw [e] at this
    linarith
  · have := lem x y (a - x) (b - y)
    rw [add_sub_cancel, add_sub_cancel] at this
    linarith

end Isotope
