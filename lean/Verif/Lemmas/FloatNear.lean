import Verif.Lemmas.FloatErr

/-!
# A calculus of rounding errors

`x.Ap η r A k m`: the binary64 number `x` is finite and differs from the real number `r` by at most `k * η * A`, where `A` is a
scale with `|r| ≤ A` between `2^-m` and `2^m`.  Every operation adds up the counts `k`.
-/

namespace Isotope
open Round Val

variable {lm : Libm}

/-- `x` is `r` up to `k * η * A` -/
def B64.Ap (η : ℝ) (x : B64 lm) (r A k : ℝ) (m : ℕ) : Prop :=
  ∃ v, x.Is v ∧ |v - r| ≤ k * η * A ∧ |r| ≤ A ∧ 2 ^ (-(m : ℤ)) ≤ A ∧ A ≤ 2 ^ (m : ℤ) ∧ 0 ≤ k

/-- what is asked of the unit of error -/
structure ErrUnit (η : ℝ) : Prop where
  lo : ulp ≤ η
  hi : η ≤ 2 ^ (-44 : ℤ)

theorem ErrUnit.pos {η : ℝ} (h : ErrUnit η) : 0 < η := ulp_pos.trans_le h.lo

theorem ErrUnit.small {η k : ℝ} (h : ErrUnit η) (h0 : 0 ≤ k) (hk : k ≤ 1048576) : 0 ≤ k * η ∧ k * η ≤ 1 / 16777216 := by
  refine ⟨mul_nonneg h0 h.pos.le, (mul_le_mul hk h.hi h.pos.le (by norm_num)).trans ?_⟩
  norm_num

namespace B64.Ap
variable {η : ℝ} {x y : B64 lm} {r t A B j k : ℝ} {m n : ℕ}

theorem scale_pos (h : x.Ap η r A k m) : 0 < A := by
  obtain ⟨v, -, -, -, h, -⟩ := h
  exact (two_pos _).trans_le h

theorem isFinite (h : x.Ap η r A k m) : Num.isFinite x = true := by
  obtain ⟨v, h, -⟩ := h
  exact h.isFinite

theorem bound (h : x.Ap η r A k m) : |r| ≤ A := by
  obtain ⟨v, -, -, h, -⟩ := h
  exact h

theorem of_is (h : x.Is r) (hr : |r| ≤ A) (h1 : 2 ^ (-(m : ℤ)) ≤ A) (h2 : A ≤ 2 ^ (m : ℤ)) : x.Ap η r A 0 m :=
  ⟨r, h, by simp, hr, h1, h2, le_rfl⟩

theorem mono (hη : ErrUnit η) (h : x.Ap η r A k m) (hA : A ≤ B) (hB : B ≤ 2 ^ (n : ℤ)) (j : ℝ) (hj : k ≤ j) (hn : m ≤ n) : x.Ap η r B j n := by
  have hA0 := h.scale_pos
  obtain ⟨v, h1, h2, h3, h4, h5, h6⟩ := h
  refine ⟨v, h1, h2.trans ?_, h3.trans hA, (two_le (by omega)).trans (h4.trans hA), hB, h6.trans hj⟩
  exact mul_le_mul (mul_le_mul_of_nonneg_right hj hη.pos.le) hA hA0.le (mul_nonneg (h6.trans hj) hη.pos.le)

/-- a larger count -/
theorem more (hη : ErrUnit η) (h : x.Ap η r A k m) (j : ℝ) (n : ℕ) (hj : k ≤ j) (hn : m ≤ n) : x.Ap η r A j n := by
  have h' := h
  obtain ⟨v, h1, h2, h3, h4, h5, h6⟩ := h'
  exact h.mono hη le_rfl (h5.trans (two_le (by omega))) j hj hn

/-- a smaller scale -/
theorem rescale (h : x.Ap η r A k m) (hr : |r| ≤ B) (c : ℝ) (hA : A ≤ c * B) (hη : ErrUnit η) (j : ℝ) (hj : c * k ≤ j)
    (h1 : 2 ^ (-(n : ℤ)) ≤ B) (h2 : B ≤ 2 ^ (n : ℤ)) (hc : 0 ≤ c) : x.Ap η r B j n := by
  obtain ⟨v, e1, e2, e3, e4, e5, e6⟩ := h
  refine ⟨v, e1, e2.trans ?_, hr, h1, h2, (mul_nonneg hc e6).trans hj⟩
  have hB : 0 < B := (two_pos _).trans_le h1
  calc k * η * A ≤ k * η * (c * B) := mul_le_mul_of_nonneg_left hA (mul_nonneg e6 hη.pos.le)
    _ = c * k * η * B := by ring
    _ ≤ j * η * B := mul_le_mul_of_nonneg_right (mul_le_mul_of_nonneg_right hj hη.pos.le) hB.le

theorem neg (h : x.Ap η r A k m) : (-x).Ap η (-r) A k m := by
  obtain ⟨v, h1, h2, h3, h4, h5, h6⟩ := h
  refine ⟨-v, h1.neg, ?_, by rwa [abs_neg], h4, h5, h6⟩
  rwa [show -v - -r = -(v - r) by ring, abs_neg]

theorem two_m {m : ℕ} : (2 : ℝ) ^ ((m + 1 : ℕ) : ℤ) = 2 * 2 ^ (m : ℤ) := by
  push_cast
  rw [zpow_add₀ (by norm_num)]
  ring

theorem add (hη : ErrUnit η) (hx : x.Ap η r A j m) (hy : y.Ap η t B k m) (n : ℕ) (l : ℝ) (hj : j + 2 ≤ l) (hk : k + 2 ≤ l) (hl : l ≤ 1048576)
    (hn : m < n) (hn' : n ≤ 1000) : (x + y).Ap η (r + t) (A + B) l n := by
  have hA := hx.scale_pos
  have hB := hy.scale_pos
  obtain ⟨v, x1, x2, x3, x4, x5, x6⟩ := hx
  obtain ⟨w, y1, y2, y3, y4, y5, y6⟩ := hy
  have hle : A + B ≤ 2 ^ (n : ℤ) := by
    have e : (2 : ℝ) ^ ((m + 1 : ℕ) : ℤ) ≤ 2 ^ (n : ℤ) := two_le (by omega)
    rw [two_m] at e
    linarith
  set c := max j k with hc
  have hcj : j ≤ c := le_max_left _ _
  have hck : k ≤ c := le_max_right _ _
  have hcl : c + 2 ≤ l := by rcases max_choice j k with e | e <;> rw [hc, e] <;> assumption
  obtain ⟨s0, s1⟩ := hη.small (x6.trans hcj) (by linarith)
  have e1 : |v - r| ≤ c * η * A := x2.trans (mul_le_mul_of_nonneg_right (mul_le_mul_of_nonneg_right hcj hη.pos.le) hA.le)
  have e2 : |w - t| ≤ c * η * B := y2.trans (mul_le_mul_of_nonneg_right (mul_le_mul_of_nonneg_right hck hη.pos.le) hB.le)
  have e3 : |v + w - (r + t)| ≤ c * η * (A + B) := by
    rw [show v + w - (r + t) = (v - r) + (w - t) by ring]
    refine (abs_add_le _ _).trans ?_
    linarith
  have e4 : |v + w| ≤ 2 * (A + B) := by
    have h1 : |v + w| ≤ |v + w - (r + t)| + |r + t| := by
      have := abs_add_le (v + w - (r + t)) (r + t)
      rwa [sub_add_cancel] at this
    have h2 := abs_add_le r t
    have h3 : c * η * (A + B) ≤ 1 * (A + B) := mul_le_mul_of_nonneg_right (by linarith) (by linarith)
    linarith
  have htop : |rs (v + w)| < top := by
    refine abs_rs_lt_top (k := ((n + 1 : ℕ) : ℤ)) (by omega) (by omega) (e4.trans ?_)
    rw [two_m]
    linarith
  refine ⟨_, x1.add y1 htop, ?_, (abs_add_le _ _).trans (add_le_add x3 y3), ?_, hle, by linarith⟩
  · have h1 := rs_add_err x1.rep y1.rep
    have h2 : |rs (v + w) - (r + t)| ≤ |rs (v + w) - (v + w)| + |v + w - (r + t)| := by
      have := abs_add_le (rs (v + w) - (v + w)) (v + w - (r + t))
      rwa [sub_add_sub_cancel] at this
    have h3 : ulp * |v + w| ≤ η * (2 * (A + B)) := mul_le_mul hη.lo e4 (abs_nonneg _) hη.pos.le
    have h4 : (c + 2) * η * (A + B) ≤ l * η * (A + B) :=
      mul_le_mul_of_nonneg_right (mul_le_mul_of_nonneg_right hcl hη.pos.le) (by linarith)
    nlinarith
  · have : (2 : ℝ) ^ (-(n : ℤ)) ≤ 2 ^ (-(m : ℤ)) := two_le (by omega)
    linarith

theorem sub (hη : ErrUnit η) (hx : x.Ap η r A j m) (hy : y.Ap η t B k m) (n : ℕ) (l : ℝ) (hj : j + 2 ≤ l) (hk : k + 2 ≤ l) (hl : l ≤ 1048576)
    (hn : m < n) (hn' : n ≤ 1000) : (x - y).Ap η (r - t) (A + B) l n := by
  rw [sub_eq_add_neg r t]
  exact hx.add hη hy.neg n l hj hk hl hn hn'

theorem mul_pow {m n : ℕ} (h1 : 2 ^ (-(m : ℤ)) ≤ A) (h2 : A ≤ 2 ^ (m : ℤ)) (h3 : 2 ^ (-(n : ℤ)) ≤ B) (h4 : B ≤ 2 ^ (n : ℤ)) (k : ℕ) (hk : m + n ≤ k) :
    2 ^ (-(k : ℤ)) ≤ A * B ∧ A * B ≤ 2 ^ (k : ℤ) := by
  constructor
  · refine le_trans ?_ (mul_le_mul h1 h3 (two_pos _).le ((two_pos _).le.trans h1))
    rw [← zpow_add₀ (by norm_num)]
    exact two_le (by omega)
  · refine (mul_le_mul h2 h4 ((two_pos _).le.trans h3) (two_pos _).le).trans ?_
    rw [← zpow_add₀ (by norm_num)]
    exact two_le (by omega)

/-- the rounding of an intermediate result -/
theorem round (hη : ErrUnit η) {z : ℝ} (hz : |z - r| ≤ (j + 1 / 4) * η * A) (hr : |r| ≤ A) (h1 : 2 ^ (-(n : ℤ)) ≤ A) (h2 : A ≤ 2 ^ (n : ℤ))
    (h0 : 0 ≤ j) (hj : j ≤ 1048576) (hn : n ≤ 1000) : |rs z| < top ∧ |rs z - r| ≤ (j + 2) * η * A := by
  have hA : 0 < A := (two_pos _).trans_le h1
  obtain ⟨s0, s1⟩ := hη.small h0 hj
  obtain ⟨s2, s3⟩ := hη.small (k := 1) (by norm_num) (by norm_num)
  have hz1 : |z| ≤ 5 / 4 * A := by
    have := abs_sub_abs_le_abs_sub z r
    have h3 : (j + 1 / 4) * η * A ≤ 1 / 4 * A := mul_le_mul_of_nonneg_right (by nlinarith) hA.le
    linarith
  have htiny : (2 : ℝ) ^ (-1075 : ℤ) ≤ 1 / 4 * η * A := by
    have h3 : (2 : ℝ) ^ (-(1000 : ℤ)) ≤ A := (two_le (by omega)).trans h1
    have h4 : (2 : ℝ) ^ (-53 : ℤ) ≤ η := hη.lo
    have h5 : (2 : ℝ) ^ (-1075 : ℤ) = 2 ^ (-22 : ℤ) * 2 ^ (-53 : ℤ) * 2 ^ (-1000 : ℤ) := by
      rw [← zpow_add₀ (by norm_num), ← zpow_add₀ (by norm_num)]; norm_num
    rw [h5]
    exact mul_le_mul (mul_le_mul (by norm_num) h4 (two_pos _).le (by norm_num)) h3 (two_pos _).le (mul_nonneg (by norm_num) hη.pos.le)
  constructor
  · refine abs_rs_lt_top (k := ((n + 1 : ℕ) : ℤ)) (by omega) (by omega) (hz1.trans ?_)
    rw [two_m]
    linarith
  · have h3 := rs_err' z
    have h4 : ulp * |z| ≤ η * (5 / 4 * A) := mul_le_mul hη.lo hz1 (abs_nonneg _) hη.pos.le
    have h5 : |rs z - r| ≤ |rs z - z| + |z - r| := by
      have := abs_add_le (rs z - z) (z - r)
      rwa [sub_add_sub_cancel] at this
    have : 0 < η * A := mul_pos hη.pos hA
    nlinarith

theorem mul (hη : ErrUnit η) (hx : x.Ap η r A j m) (hy : y.Ap η t B k n) (p : ℕ) (l : ℝ) (hl : j + k + 2 ≤ l) (hl' : l ≤ 1048576)
    (hp : m + n ≤ p) (hp' : p ≤ 1000) : (x * y).Ap η (r * t) (A * B) l p := by
  have hA := hx.scale_pos
  have hB := hy.scale_pos
  obtain ⟨v, x1, x2, x3, x4, x5, x6⟩ := hx
  obtain ⟨w, y1, y2, y3, y4, y5, y6⟩ := hy
  obtain ⟨p1, p2⟩ := mul_pow x4 x5 y4 y5 p hp
  have hAB : 0 < A * B := mul_pos hA hB
  obtain ⟨s0, s1⟩ := hη.small x6 (show j ≤ 1048576 by linarith)
  have hrt : |r * t| ≤ A * B := by rw [abs_mul]; exact mul_le_mul x3 y3 (abs_nonneg _) hA.le
  have e : |v * w - r * t| ≤ (j + k + 1 / 4) * η * (A * B) := by
    have h1 : |v * w - r * t| ≤ |v - r| * |w - t| + |v - r| * |t| + |r| * |w - t| := by
      rw [show v * w - r * t = (v - r) * (w - t) + (v - r) * t + r * (w - t) by ring]
      refine (abs_add_le _ _).trans ?_
      rw [abs_mul]
      have := abs_add_le ((v - r) * (w - t)) ((v - r) * t)
      rw [abs_mul, abs_mul] at this
      linarith
    have h2 : |v - r| * |w - t| ≤ (j * η * A) * (k * η * B) := mul_le_mul x2 y2 (abs_nonneg _) ((abs_nonneg _).trans x2)
    have h3 : |v - r| * |t| ≤ (j * η * A) * B := mul_le_mul x2 y3 (abs_nonneg _) ((abs_nonneg _).trans x2)
    have h4 : |r| * |w - t| ≤ A * (k * η * B) := mul_le_mul x3 y2 (abs_nonneg _) hA.le
    have h5 : (j * η) * (k * η) ≤ 1 / 4 * η := by
      have : (j * η) * k ≤ 1 / 16777216 * 1048576 := mul_le_mul s1 (by linarith) y6 (by norm_num)
      have := mul_le_mul_of_nonneg_right this hη.pos.le
      nlinarith [hη.pos]
    have h6 : (j * η * A) * (k * η * B) ≤ 1 / 4 * η * (A * B) := by
      calc (j * η * A) * (k * η * B) = (j * η) * (k * η) * (A * B) := by ring
        _ ≤ _ := mul_le_mul_of_nonneg_right h5 hAB.le
    nlinarith
  obtain ⟨f1, f2⟩ := round hη e hrt p1 p2 (add_nonneg x6 y6) (by linarith) hp'
  refine ⟨_, x1.mul y1 f1, f2.trans ?_, hrt, p1, p2, by linarith⟩
  exact mul_le_mul_of_nonneg_right (mul_le_mul_of_nonneg_right hl hη.pos.le) hAB.le

theorem inv_pow {m : ℕ} (h1 : 2 ^ (-(m : ℤ)) ≤ A) (h2 : A ≤ 2 ^ (m : ℤ)) : 2 ^ (-(m : ℤ)) ≤ A⁻¹ ∧ A⁻¹ ≤ 2 ^ (m : ℤ) := by
  have hA : 0 < A := (two_pos _).trans_le h1
  constructor
  · rw [zpow_neg]; exact inv_anti₀ hA h2
  · have := inv_anti₀ (two_pos _) h1
    rwa [zpow_neg, inv_inv] at this

theorem div (hη : ErrUnit η) (hx : x.Ap η r A j m) (hy : y.Ap η t t k n) (p : ℕ) (l : ℝ) (hl : j + k + 2 ≤ l) (hl' : l ≤ 1048576)
    (hp : m + n ≤ p) (hp' : p ≤ 1000) : (x / y).Ap η (r / t) (A / t) l p := by
  have hA := hx.scale_pos
  have ht := hy.scale_pos
  obtain ⟨v, x1, x2, x3, x4, x5, x6⟩ := hx
  obtain ⟨w, y1, y2, y3, y4, y5, y6⟩ := hy
  obtain ⟨i1, i2⟩ := inv_pow y4 y5
  obtain ⟨p1, p2⟩ := mul_pow x4 x5 i1 i2 p hp
  rw [← div_eq_mul_inv] at p1 p2
  have hq : 0 < A / t := div_pos hA ht
  obtain ⟨s0, s1⟩ := hη.small y6 (show k ≤ 1048576 by linarith)
  obtain ⟨s2, s3⟩ := hη.small (add_nonneg x6 y6) (show j + k ≤ 1048576 by linarith)
  have hw : (1 - k * η) * t ≤ w := by
    have := (abs_le.1 y2).1
    nlinarith
  have hw0 : 0 < w := lt_of_lt_of_le (mul_pos (by linarith) ht) hw
  have hrt : |r / t| ≤ A / t := by
    rw [abs_div, abs_of_pos ht]
    exact div_le_div_of_nonneg_right x3 ht.le
  have e : |v / w - r / t| ≤ (j + k + 1 / 4) * η * (A / t) := by
    have h1 : v / w - r / t = ((v - r) * t - r * (w - t)) / (w * t) := by field_simp; ring
    have h2 : |(v - r) * t - r * (w - t)| ≤ (j + k) * η * A * t := by
      refine (abs_sub _ _).trans ?_
      rw [abs_mul, abs_mul, abs_of_pos ht]
      have h3 : |v - r| * t ≤ (j * η * A) * t := mul_le_mul_of_nonneg_right x2 ht.le
      have h4 : |r| * |w - t| ≤ A * (k * η * t) := mul_le_mul x3 y2 (abs_nonneg _) hA.le
      nlinarith
    rw [h1, abs_div, abs_of_pos (mul_pos hw0 ht), div_le_iff₀ (mul_pos hw0 ht)]
    refine h2.trans ?_
    have h5 : (j + k) * η * A * t ≤ (j + k + 1 / 4) * η * (A / t) * ((1 - k * η) * t * t) := by
      have e1 : (j + k + 1 / 4) * η * (A / t) * ((1 - k * η) * t * t) = (j + k + 1 / 4) * (1 - k * η) * (η * A * t) := by
        field_simp
      have e2 : (j + k) * η * A * t = (j + k) * (η * A * t) := by ring
      rw [e1, e2]
      refine mul_le_mul_of_nonneg_right ?_ (by have := hη.pos; positivity)
      have : (j + k + 1 / 4) * (k * η) ≤ (1048576 + 1 / 4) * (1 / 16777216) :=
        mul_le_mul (by linarith) s1 s0 (by norm_num)
      nlinarith
    refine h5.trans ?_
    refine mul_le_mul_of_nonneg_left (mul_le_mul_of_nonneg_right hw ht.le) ?_
    have := hη.pos
    have : 0 ≤ j + k := add_nonneg x6 y6
    positivity
  obtain ⟨f1, f2⟩ := round hη e hrt p1 p2 (add_nonneg x6 y6) (by linarith) hp'
  refine ⟨_, x1.div y1 hw0.ne' f1, f2.trans ?_, hrt, p1, p2, by linarith⟩
  exact mul_le_mul_of_nonneg_right (mul_le_mul_of_nonneg_right hl hη.pos.le) hq.le

theorem sqrt (hη : ErrUnit η) (hx : x.Ap η r r k m) (l : ℝ) (hl : k + 2 ≤ l) (hl' : l ≤ 1048576) (hm : m ≤ 1000) :
    (Num.sqrt x).Ap η (Real.sqrt r) (Real.sqrt r) l m := by
  have hr := hx.scale_pos
  obtain ⟨v, x1, x2, x3, x4, x5, x6⟩ := hx
  obtain ⟨s0, s1⟩ := hη.small x6 (show k ≤ 1048576 by linarith)
  have hv : (1 - k * η) * r ≤ v := by
    have := (abs_le.1 x2).1
    nlinarith
  have hv0 : 0 < v := lt_of_lt_of_le (mul_pos (by linarith) hr) hv
  have hs : 0 < Real.sqrt r := Real.sqrt_pos.2 hr
  have e : |Real.sqrt v - Real.sqrt r| ≤ (k + 1 / 4) * η * Real.sqrt r := by
    have h1 : (Real.sqrt v - Real.sqrt r) * (Real.sqrt v + Real.sqrt r) = v - r := by
      have := Real.mul_self_sqrt hv0.le
      have := Real.mul_self_sqrt hr.le
      nlinarith
    have h2 : |Real.sqrt v - Real.sqrt r| * (Real.sqrt v + Real.sqrt r) ≤ k * η * r := by
      have h3 := x2
      rwa [← h1, abs_mul, abs_of_pos (add_pos_of_nonneg_of_pos (Real.sqrt_nonneg v) hs)] at h3
    have h3 : |Real.sqrt v - Real.sqrt r| * Real.sqrt r ≤ k * η * Real.sqrt r * Real.sqrt r := by
      have h4 := mul_nonneg (abs_nonneg (Real.sqrt v - Real.sqrt r)) (Real.sqrt_nonneg v)
      rw [mul_assoc, Real.mul_self_sqrt hr.le]
      linarith
    have h5 := le_of_mul_le_mul_right h3 hs
    have h6 : 0 < η * Real.sqrt r := mul_pos hη.pos hs
    nlinarith
  have p1 : 2 ^ (-(m : ℤ)) ≤ Real.sqrt r := by
    refine Real.le_sqrt_of_sq_le (le_trans ?_ x4)
    have : (2 : ℝ) ^ (-(m : ℤ)) ≤ 1 := by
      have := two_le (j := -(m : ℤ)) (k := 0) (by omega)
      simpa using this
    have h0 := (two_pos (-(m : ℤ))).le
    nlinarith
  have p2 : Real.sqrt r ≤ 2 ^ (m : ℤ) := by
    rw [Real.sqrt_le_left (two_pos _).le]
    refine x5.trans ?_
    have : (1 : ℝ) ≤ 2 ^ (m : ℤ) := by
      have := two_le (j := 0) (k := (m : ℤ)) (by omega)
      simpa using this
    nlinarith
  obtain ⟨f1, f2⟩ := round hη e (by rw [abs_of_pos hs]) p1 p2 x6 (by linarith) hm
  refine ⟨_, x1.sqrt hv0.le f1, f2.trans ?_, by rw [abs_of_pos hs], p1, p2, by linarith⟩
  exact mul_le_mul_of_nonneg_right (mul_le_mul_of_nonneg_right hl hη.pos.le) hs.le

/-- a difference of exact numbers -/
theorem sub_is (hη : ErrUnit η) (hx : x.Is r) (hy : y.Is t) (hA : |r - t| ≤ A) (h1 : 2 ^ (-(m : ℤ)) ≤ A) (h2 : A ≤ 2 ^ (m : ℤ))
    (hm : m ≤ 1000) : (x - y).Ap η (r - t) A 1 m := by
  have ht : |rs (r - t)| < top := abs_rs_lt_top (k := (m : ℤ)) (by omega) (by omega) (hA.trans h2)
  refine ⟨_, hx.sub hy ht, (rs_sub_err hx.rep hy.rep).trans ?_, hA, h1, h2, by norm_num⟩
  rw [one_mul]
  exact mul_le_mul hη.lo hA (abs_nonneg _) hη.pos.le

/-! ## Products with `0`, `1` and `-1` -/

theorem is_mul_one (hx : x.Is r) (hy : y.Is 1) : (x * y).Is r := by
  have e : rs (r * 1) = r := by rw [mul_one]; exact rs_rep hx.rep
  have := hx.mul hy (by rw [e]; exact hx.rep.lt_top)
  rwa [e] at this

theorem is_mul_neg_one (hx : x.Is r) (hy : y.Is (-1)) : (x * y).Is (-r) := by
  have e : rs (r * -1) = -r := by rw [mul_neg_one]; exact rs_rep (by rw [abs_neg]; exact hx.rep)
  have := hx.mul hy (by rw [e, abs_neg]; exact hx.rep.lt_top)
  rwa [e] at this

theorem is_mul_zero (hx : x.Is r) (hy : y.Is 0) : (x * y).Is 0 := by
  have e : rs (r * 0) = 0 := by rw [mul_zero, rs_zero]
  have := hx.mul hy (by rw [e, abs_zero]; exact Rep.zero.lt_top)
  rwa [e] at this

theorem is_add_zero (hx : x.Is r) (hy : y.Is 0) : (x + y).Is r := by
  have e : rs (r + 0) = r := by rw [add_zero]; exact rs_rep hx.rep
  have := hx.add hy (by rw [e]; exact hx.rep.lt_top)
  rwa [e] at this

theorem is_zero_add (hx : x.Is 0) (hy : y.Is r) : (x + y).Is r := by
  have e : rs (0 + r) = r := by rw [zero_add]; exact rs_rep hy.rep
  have := hx.add hy (by rw [e]; exact hy.rep.lt_top)
  rwa [e] at this

variable {a b : B64 lm} {s : ℝ}

/-- `x * 1 + y * 0` -/
theorem fst (hx : x.Ap η r A k m) (hy : y.Is t) (ha : a.Is 1) (hb : b.Is 0) : (x * a + y * b).Ap η r A k m := by
  obtain ⟨v, h1, h2⟩ := hx
  exact ⟨v, is_add_zero (is_mul_one h1 ha) (is_mul_zero hy hb), h2⟩

/-- `x * 0 + y * 1` -/
theorem snd (hx : x.Is t) (hy : y.Ap η r A k m) (ha : a.Is 0) (hb : b.Is 1) : (x * a + y * b).Ap η r A k m := by
  obtain ⟨v, h1, h2⟩ := hy
  exact ⟨v, is_zero_add (is_mul_zero hx ha) (is_mul_one h1 hb), h2⟩

/-- `x * -1 + y * 0` -/
theorem fst_neg (hx : x.Ap η r A k m) (hy : y.Is t) (ha : a.Is (-1)) (hb : b.Is 0) : (x * a + y * b).Ap η (-r) A k m := by
  obtain ⟨v, h1, h2⟩ := hx.neg
  obtain ⟨w, e1, -⟩ := hx
  have : v = -w := h1.unique e1.neg
  subst this
  exact ⟨_, is_add_zero (is_mul_neg_one e1 ha) (is_mul_zero hy hb), h2⟩

/-- `x * 0 + y * -1` -/
theorem snd_neg (hx : x.Is t) (hy : y.Ap η r A k m) (ha : a.Is 0) (hb : b.Is (-1)) : (x * a + y * b).Ap η (-r) A k m := by
  obtain ⟨v, h1, h2⟩ := hy.neg
  obtain ⟨w, e1, -⟩ := hy
  have : v = -w := h1.unique e1.neg
  subst this
  exact ⟨_, is_zero_add (is_mul_zero hx ha) (is_mul_neg_one e1 hb), h2⟩

/-- `x * 0 + y * 0` -/
theorem none (hx : x.Is t) (hy : y.Is s) (ha : a.Is 0) (hb : b.Is 0) (hA : 2 ^ (-(m : ℤ)) ≤ A) (hA' : A ≤ 2 ^ (m : ℤ)) (hk : 0 ≤ k) (hη : ErrUnit η) :
    (x * a + y * b).Ap η 0 A k m := by
  have h0 : 0 < A := (two_pos _).trans_le hA
  refine ⟨0, is_add_zero (is_mul_zero hx ha) (is_mul_zero hy hb), ?_, by simpa using h0.le, hA, hA', hk⟩
  rw [sub_self, abs_zero]
  exact mul_nonneg (mul_nonneg hk hη.pos.le) h0.le

theorem mul_one (hx : x.Ap η r A k m) (ha : a.Is 1) : (x * a).Ap η r A k m := by
  obtain ⟨v, h1, h2⟩ := hx
  exact ⟨v, is_mul_one h1 ha, h2⟩

theorem val (hx : x.Ap η r A k m) : ∃ v, x.Is v := by
  obtain ⟨v, h1, h2⟩ := hx
  exact ⟨v, h1⟩

end B64.Ap

theorem B64.is_sub_zero {x y : B64 lm} {r : ℝ} (hx : x.Is r) (hy : y.Is 0) : (x - y).Is r := by
  have := B64.Ap.is_add_zero hx (by have := hy.neg; rwa [neg_zero] at this)
  exact this

theorem B64.is_zero_sub {x y : B64 lm} {r : ℝ} (hx : x.Is 0) (hy : y.Is r) : (x - y).Is (-r) := B64.Ap.is_zero_add hx hy.neg

end Isotope
