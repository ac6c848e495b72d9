import Verif.SpecClear
import Verif.Lemmas.Left
import Verif.Lemmas.FloatNear
import Verif.Lemmas.FloatBound

/-!
# Turning angles in binary64
-/

namespace Isotope
open Round Val

variable {lm : Libm}

/-- equal up to `δ` and whole turns -/
def Cong (δ x y : ℝ) : Prop := ∃ k : ℤ, |x - y - k * (2 * Real.pi)| ≤ δ

theorem Cong.of_abs {δ x y : ℝ} (h : |x - y| ≤ δ) : Cong δ x y := ⟨0, by simpa using h⟩

theorem Cong.trans {δ δ' x y z : ℝ} (h : Cong δ x y) (h' : Cong δ' y z) : Cong (δ + δ') x z := by
  obtain ⟨k, hk⟩ := h
  obtain ⟨l, hl⟩ := h'
  refine ⟨k + l, ?_⟩
  have : x - z - ((k + l : ℤ) : ℝ) * (2 * Real.pi) = (x - y - k * (2 * Real.pi)) + (y - z - l * (2 * Real.pi)) := by push_cast; ring
  rw [this]
  exact (abs_add_le _ _).trans (add_le_add hk hl)

theorem Cong.mono {δ δ' x y : ℝ} (h : Cong δ x y) (hd : δ ≤ δ') : Cong δ' x y := by
  obtain ⟨k, hk⟩ := h
  exact ⟨k, hk.trans hd⟩

theorem Cong.sub {δ δ' x y z w : ℝ} (h : Cong δ x y) (h' : Cong δ' z w) : Cong (δ + δ') (x - z) (y - w) := by
  obtain ⟨k, hk⟩ := h
  obtain ⟨l, hl⟩ := h'
  refine ⟨k - l, ?_⟩
  have : x - z - (y - w) - ((k - l : ℤ) : ℝ) * (2 * Real.pi) = (x - y - k * (2 * Real.pi)) - (z - w - l * (2 * Real.pi)) := by push_cast; ring
  rw [this]
  exact (abs_sub _ _).trans (add_le_add hk hl)

theorem Cong.add_const {δ x y : ℝ} (h : Cong δ x y) (c : ℝ) : Cong δ (x + c) (y + c) := by
  obtain ⟨k, hk⟩ := h
  exact ⟨k, by rw [show x + c - (y + c) = x - y by ring]; exact hk⟩

theorem arcsin_le {t : ℝ} (h0 : 0 ≤ t) (h1 : t ≤ 1) : Real.arcsin t ≤ Real.pi / 2 * t := by
  have h := Real.mul_le_sin (Real.arcsin_nonneg.2 h0) (Real.arcsin_le_pi_div_two t)
  rw [Real.sin_arcsin (by linarith) h1] at h
  have hp := Real.pi_pos
  rw [div_mul_eq_mul_div, div_le_iff₀ hp] at h
  linarith

/-- a small relative change of a complex number changes its argument little -/
theorem arg_near {z w : ℂ} {u : ℝ} (hz : z ≠ 0) (h0 : 0 ≤ u) (hu : u ≤ 1 / 4) (hw : ‖w‖ ≤ u * ‖z‖) :
    z + w ≠ 0 ∧ Cong (3 * u) (Complex.arg (z + w)) (Complex.arg z) := by
  set q : ℂ := 1 + w / z with hq
  have e : z + w = z * q := by rw [hq]; field_simp
  have hn : ‖w / z‖ ≤ u := by rw [norm_div, div_le_iff₀ (norm_pos_iff.2 hz)]; exact hw
  have hre : 1 - u ≤ q.re := by
    have := (abs_le.1 ((Complex.abs_re_le_norm (w / z)).trans hn)).1
    rw [hq, Complex.add_re, Complex.one_re]; linarith
  have him : |q.im| ≤ u := by
    have := (Complex.abs_im_le_norm (w / z)).trans hn
    rw [hq, Complex.add_im, Complex.one_im, zero_add]; exact this
  have hq0 : q ≠ 0 := by intro h; rw [h, Complex.zero_re] at hre; linarith
  refine ⟨by rw [e]; exact mul_ne_zero hz hq0, ?_⟩
  have h2 := Complex.arg_mul_coe_angle hz hq0
  rw [← e, ← Real.Angle.coe_add] at h2
  obtain ⟨k, hk⟩ := Real.Angle.angle_eq_iff_two_pi_dvd_sub.1 h2
  refine ⟨k, ?_⟩
  have e2 : Complex.arg (z + w) - Complex.arg z - k * (2 * Real.pi) = Complex.arg q := by linarith
  rw [e2, Complex.arg_of_re_nonneg (by linarith)]
  have hnq : 1 - u ≤ ‖q‖ := hre.trans (Complex.re_le_norm q)
  have hpos : 0 < ‖q‖ := by linarith
  have ht : |q.im| / ‖q‖ ≤ 4 / 3 * u := by
    rw [div_le_iff₀ hpos]
    nlinarith
  have hp := Real.pi_lt_d2
  have key : Real.arcsin (|q.im| / ‖q‖) ≤ 3 * u := by
    refine (arcsin_le (by positivity) (by linarith)).trans ?_
    have h3 : 0 ≤ |q.im| / ‖q‖ := by positivity
    nlinarith
  rcases le_total 0 q.im with h4 | h4
  · rw [abs_of_nonneg h4] at key
    rw [abs_of_nonneg (Real.arcsin_nonneg.2 (by positivity))]
    exact key
  · rw [abs_of_nonpos h4, neg_div, Real.arcsin_neg] at key
    rw [abs_of_nonpos (Real.arcsin_nonpos.2 (div_nonpos_of_nonpos_of_nonneg h4 hpos.le))]
    exact key

theorem abs_le_of_sq {a b c d u : ℝ} (h0 : 0 ≤ u) (h1 : |a| ≤ u * |c|) (h2 : |b| ≤ u * |d|) : ‖(⟨a, b⟩ : ℂ)‖ ≤ u * ‖(⟨c, d⟩ : ℂ)‖ := by
  have e : ∀ x y : ℝ, ‖(⟨x, y⟩ : ℂ)‖ = √(x ^ 2 + y ^ 2) := by
    intro x y
    rw [Complex.norm_def, Complex.normSq_mk]; ring_nf
  rw [e, e]
  refine Real.sqrt_le_iff.2 ⟨by positivity, ?_⟩
  rw [mul_pow, Real.sq_sqrt (by positivity)]
  have k1 := pow_le_pow_left₀ (abs_nonneg a) h1 2
  have k2 := pow_le_pow_left₀ (abs_nonneg b) h2 2
  rw [mul_pow, sq_abs, sq_abs] at k1 k2
  linarith

/-- the direction of a line -/
theorem startAngle_near {h : Heap (B64 lm)} {κ : ℝ} (hl : lm.AtanAccurate κ) {a b : Nat} {p q : ℝ × ℝ} (ha : At h a p.1 p.2)
    (hb : At h b q.1 q.2) (bp : |p.1| ≤ 2 ^ (100 : ℤ) ∧ |p.2| ≤ 2 ^ (100 : ℤ)) (bq : |q.1| ≤ 2 ^ (100 : ℤ) ∧ |q.2| ≤ 2 ^ (100 : ℤ))
    (hne : p ≠ q) :
    ∃ θ, ((Segment.line a b : Segment (B64 lm)).startAngle h).Is θ ∧ |θ| ≤ Real.pi + κ ∧ Cong (κ + 3 * ulp) θ (direction p q) := by
  have htop : ∀ r t : ℝ, |r| ≤ 2 ^ (100 : ℤ) → |t| ≤ 2 ^ (100 : ℤ) → |rs (r - t)| < top := by
    intro r t hr ht
    refine abs_rs_lt_top (k := 101) (by norm_num) (by norm_num) ((abs_sub r t).trans ?_)
    refine (add_le_add hr ht).trans (le_of_eq ?_)
    norm_num
  have dx := hb.1.sub ha.1 (htop _ _ bq.1 bp.1)
  have dy := hb.2.sub ha.2 (htop _ _ bq.2 bp.2)
  have ex := rs_sub_err hb.1.rep ha.1.rep
  have ey := rs_sub_err hb.2.rep ha.2.rep
  have hz : (⟨q.1 - p.1, q.2 - p.2⟩ : ℂ) ≠ 0 := by
    intro e
    apply hne
    have h1 := congrArg Complex.re e
    have h2 := congrArg Complex.im e
    simp at h1 h2
    exact Prod.ext (by linarith) (by linarith)
  have hw := abs_le_of_sq ulp_pos.le ex ey
  obtain ⟨n0, hc⟩ := arg_near hz ulp_pos.le (by rw [ulp_eq]; norm_num) hw
  have es : (⟨q.1 - p.1, q.2 - p.2⟩ : ℂ) + ⟨rs (q.1 - p.1) - (q.1 - p.1), rs (q.2 - p.2) - (q.2 - p.2)⟩ =
      ⟨rs (q.1 - p.1), rs (q.2 - p.2)⟩ := by apply Complex.ext <;> simp
  rw [es] at n0 hc
  obtain ⟨θ, i1, i2, i3⟩ := hl _ _ _ _ dy dx (by
    by_contra hcon
    push Not at hcon
    apply n0
    apply Complex.ext
    · exact hcon.1
    · exact hcon.2)
  exact ⟨θ, i1, i2, Cong.trans i3 hc⟩

/-! ## Remainders and whole turns -/

theorem B64.Is.rem {x y : B64 lm} {r t : ℝ} (hx : x.Is r) (hy : y.Is t) (ht : 0 < t) (hb : t ≤ 2 ^ (100 : ℤ)) :
    ∃ v, (Num.rem x y).Is v ∧ v = rs (sgn (decide (r < 0)) (|r| - t * ⌊|r| / t⌋)) := by
  obtain ⟨s, m, e, rfl⟩ := hx
  obtain ⟨s', n, e', rfl⟩ := hy
  have hn : sgn s' n.1 = n.1 := by
    cases s'
    · rfl
    · exfalso
      have := n.2.nonneg
      have h2 : sgn true n.1 = -n.1 := rfl
      rw [h2] at ht; linarith
  rw [hn] at ht hb ⊢
  rw [sgn_rep s m.2]
  have hz0 : 0 ≤ m.1 - n.1 * ⌊m.1 / n.1⌋ := by
    have := Int.floor_le (m.1 / n.1)
    rw [le_div_iff₀ ht] at this
    linarith
  have hz1 : m.1 - n.1 * ⌊m.1 / n.1⌋ ≤ n.1 := by
    have := Int.lt_floor_add_one (m.1 / n.1)
    rw [div_lt_iff₀ ht] at this
    nlinarith
  have hv : (Num.rem x y).v = Val.pack s (m.1 - n.1 * ⌊m.1 / n.1⌋) := by
    show x.v.rem y.v = _
    rw [e, e']
    simp only [Val.rem]
    rw [if_neg ht.ne']
  rw [B64.Is.pack_sgn] at hv
  have habs : |sgn s (m.1 - n.1 * ⌊m.1 / n.1⌋)| = m.1 - n.1 * ⌊m.1 / n.1⌋ := by
    cases s
    · exact abs_of_nonneg hz0
    · show |-(_ : ℝ)| = _
      rw [abs_neg]; exact abs_of_nonneg hz0
  have hI := B64.Is.pack (x := Num.rem x y) (abs_rs_lt_top (k := 100) (by norm_num) (by norm_num) (by rw [habs]; exact hz1.trans hb))
    (B64.Is.decide_sgn hz0) hv
  by_cases h0 : m.1 = 0
  · refine ⟨_, hI, ?_⟩
    have z : ∀ b, sgn b (0 : ℝ) = 0 := by intro b; cases b <;> simp [sgn]
    rw [h0, zero_div, Int.floor_zero, Int.cast_zero, mul_zero, sub_zero, z, z]
  · refine ⟨_, hI, ?_⟩
    have : s = decide (sgn s m.1 < 0) := by
      rcases B64.Is.decide_sgn (s := s) m.2.nonneg with h | h
      · exact h
      · exfalso; apply h0; cases s
        · exact h
        · have h2 : sgn true m.1 = -m.1 := rfl
          rw [h2] at h; linarith
    rw [← this]

theorem pi_is : (Num.pi : B64 lm).Is (rs Real.pi) ∧ |rs Real.pi - Real.pi| ≤ 4 * ulp := by
  have h3 := Real.pi_gt_three
  have h4 := Real.pi_le_four
  constructor
  · exact B64.Is.pack (a := false) (abs_rs_lt_top (k := 2) (by norm_num) (by norm_num) (by rw [abs_of_pos (by linarith)]; norm_num; exact h4))
      (.inl (by simp [Real.pi_pos.le])) rfl
  · have := rs_err (z := Real.pi) (by
      rw [abs_of_pos (by linarith)]
      exact (two_le (by norm_num : (-1022 : ℤ) ≤ 0)).trans (by norm_num; linarith))
    rw [abs_of_pos Real.pi_pos] at this
    have := ulp_pos
    nlinarith

theorem tau_is : (Num.tau : B64 lm).Is (rs (2 * Real.pi)) ∧ |rs (2 * Real.pi) - 2 * Real.pi| ≤ 8 * ulp := by
  have h3 := Real.pi_gt_three
  have h4 := Real.pi_le_four
  constructor
  · exact B64.Is.pack (a := false) (abs_rs_lt_top (k := 3) (by norm_num) (by norm_num) (by
      rw [abs_of_pos (by linarith)]; norm_num; linarith))
      (.inl (by simp [Real.pi_pos.le])) rfl
  · have := rs_err (z := 2 * Real.pi) (by
      rw [abs_of_pos (by linarith)]
      exact (two_le (by norm_num : (-1022 : ℤ) ≤ 0)).trans (by norm_num; linarith))
    rw [abs_of_pos (show (0 : ℝ) < 2 * Real.pi by linarith)] at this
    have := ulp_pos
    nlinarith

/-- the two corrections by a whole turn -/
theorem wrap_near {x : B64 lm} {v ρ : ℝ} (hx : x.Is v) (hρ : 0 ≤ ρ) (hρ1 : ρ ≤ 1) (h1 : -(2 * Real.pi) - ρ ≤ v) (h2 : v ≤ 4 * Real.pi + ρ) :
    ∃ w, (let a0 := if gt x (Num.tau : B64 lm) then x - Num.tau else x
          (if a0 <. (0.0 : B64 lm) then a0 + Num.tau else a0)).Is w ∧ -ρ - 60 * ulp ≤ w ∧ w ≤ 2 * Real.pi + ρ + 60 * ulp ∧ Cong (60 * ulp) w v := by
  obtain ⟨t1, t2⟩ := tau_is (lm := lm)
  generalize rs (2 * Real.pi) = T at t1 t2
  have h3 := Real.pi_gt_three
  have h4 := Real.pi_le_four
  have hu := ulp_pos
  have hu1 : ulp ≤ 1 / 1000 := by rw [ulp_eq]; norm_num
  have t3 := abs_le.1 t2
  have top32 : ∀ z : ℝ, |z| ≤ 32 → |rs z| < top := fun z hz => abs_rs_lt_top (k := 5) (by norm_num) (by norm_num) (by norm_num; exact hz)
  -- first correction
  obtain ⟨v1, i1, l1, u1, k1, c1⟩ : ∃ v1, (if gt x (Num.tau : B64 lm) then x - Num.tau else x).Is v1 ∧ -(2 * Real.pi) - ρ ≤ v1 ∧
      v1 ≤ 2 * Real.pi + ρ + 25 * ulp ∧ (v1 < 0 → v1 = v) ∧ Cong (25 * ulp) v1 v := by
    by_cases hg : gt x (Num.tau : B64 lm) = true
    · rw [if_pos hg]
      have hlt : T < v := (t1.lt_iff hx).1 hg
      have hab : |v - T| ≤ 16 := by rw [abs_of_pos (by linarith)]; linarith
      refine ⟨_, hx.sub t1 (top32 _ (hab.trans (by norm_num))), ?_⟩
      have er := rs_sub_err hx.rep t1.rep
      have er2 : |rs (v - T) - (v - T)| ≤ 16 * ulp := er.trans (by nlinarith)
      have er3 := abs_le.1 er2
      have nn : 0 ≤ rs (v - T) := rs_nonneg (by linarith)
      refine ⟨by linarith, by linarith, fun h => absurd h (not_lt.2 nn), -1, ?_⟩
      rw [abs_le]; push_cast
      constructor <;> linarith
    · rw [if_neg hg]
      have hle : v ≤ T := by
        by_contra hc
        push Not at hc
        exact hg ((t1.lt_iff hx).2 hc)
      exact ⟨v, hx, h1, by linarith, fun _ => rfl, Cong.of_abs (by simp; exact hu.le)⟩
  show ∃ w, (if (if gt x (Num.tau : B64 lm) then x - Num.tau else x) <. (0.0 : B64 lm) then
    (if gt x (Num.tau : B64 lm) then x - Num.tau else x) + Num.tau else (if gt x (Num.tau : B64 lm) then x - Num.tau else x)).Is w ∧ _
  generalize (if gt x (Num.tau : B64 lm) then x - Num.tau else x) = y at i1
  have z0 := B64.is_zero (lm := lm)
  by_cases hg : (y <. (0.0 : B64 lm)) = true
  · rw [if_pos hg]
    have hlt : v1 < 0 := (i1.lt_iff z0).1 hg
    have hab : |v1 + T| ≤ 16 := by rw [abs_le]; constructor <;> linarith
    refine ⟨_, i1.add t1 (top32 _ (hab.trans (by norm_num))), ?_⟩
    have er := rs_add_err i1.rep t1.rep
    have er2 : |rs (v1 + T) - (v1 + T)| ≤ 16 * ulp := er.trans (by nlinarith)
    have er3 := abs_le.1 er2
    refine ⟨by linarith, by linarith, ?_⟩
    rw [k1 hlt] at *
    refine ⟨1, ?_⟩
    rw [abs_le]; push_cast
    constructor <;> linarith
  · rw [if_neg hg]
    have hle : 0 ≤ v1 := by
      by_contra hc
      push Not at hc
      exact hg ((i1.lt_iff z0).2 hc)
    exact ⟨v1, i1, by linarith, by linarith, c1.mono (by linarith)⟩

/-- the direction back along a segment, as computed -/
theorem back_near {x : B64 lm} {θ κ : ℝ} (hx : x.Is θ) (hκ : 0 ≤ κ) (hκ1 : κ ≤ 1 / 4) (hθ : |θ| ≤ Real.pi + κ) :
    ∃ v, (Num.rem (x + Num.pi) ((2.0 : B64 lm) * Num.pi)).Is v ∧ -κ - 60 * ulp ≤ v ∧ v ≤ 2 * Real.pi + κ + 60 * ulp ∧
      Cong (60 * ulp) v (θ + Real.pi) := by
  obtain ⟨p1, p2⟩ := pi_is (lm := lm)
  generalize rs Real.pi = P at p1 p2
  have h3 := Real.pi_gt_three
  have h4 := Real.pi_le_four
  have hu := ulp_pos
  have hu1 : ulp ≤ 1 / 1000 := by rw [ulp_eq]; norm_num
  have p3 := abs_le.1 p2
  have hθ' := abs_le.1 hθ
  have top32 : ∀ z : ℝ, |z| ≤ 32 → |rs z| < top := fun z hz => abs_rs_lt_top (k := 5) (by norm_num) (by norm_num) (by norm_num; exact hz)
  have hab : |θ + P| ≤ 10 := by rw [abs_le]; constructor <;> linarith
  have s1 := hx.add p1 (top32 _ (hab.trans (by norm_num)))
  have es : |rs (θ + P) - (θ + P)| ≤ 10 * ulp := (rs_add_err hx.rep p1.rep).trans (by nlinarith)
  generalize rs (θ + P) = S at s1 es
  have es' := abs_le.1 es
  have two : (2.0 : B64 lm).Is 2 := by
    have h := B64.Is.lit (lm := lm) 20 true 1 (by
      refine abs_rs_lt_top (k := 1) (by norm_num) (by norm_num) ?_
      norm_num) (by norm_num)
    have e : rs (OfScientific.ofScientific 20 true 1 : ℝ) = 2 := by
      rw [show (OfScientific.ofScientific 20 true 1 : ℝ) = 2 by norm_num]
      apply rs_rep
      have := rep_pow 1 (by norm_num) (by norm_num)
      simpa using this
    rwa [e] at h
  have hab2 : |2 * P| ≤ 10 := by rw [abs_le]; constructor <;> linarith
  have t1 := two.mul p1 (top32 _ (hab2.trans (by norm_num)))
  have et : |rs (2 * P) - 2 * P| ≤ 10 * ulp := (rs_err (z := 2 * P) (by
    rw [abs_of_pos (by linarith)]
    exact (two_le (by norm_num : (-1022 : ℤ) ≤ 0)).trans (by norm_num; linarith))).trans (by nlinarith)
  generalize rs (2 * P) = T at t1 et
  have et' := abs_le.1 et
  have hT : 0 < T := by linarith
  obtain ⟨v, i, hv⟩ := s1.rem t1 hT (by
    refine (show T ≤ 16 by linarith).trans ?_
    norm_num)
  refine ⟨v, i, ?_⟩
  have small : (2 : ℝ) ^ (-1075 : ℤ) ≤ ulp := by
    rw [show ulp = (2 : ℝ) ^ (-53 : ℤ) by rw [ulp_eq]; norm_num]
    exact two_le (by norm_num)
  -- the exact remainder
  obtain ⟨z, ez, f, ef, zl, zu⟩ : ∃ z, sgn (decide (S < 0)) (|S| - T * ⌊|S| / T⌋) = z ∧ ∃ f : ℤ, (f = 0 ∨ f = 1) ∧ z = S - T * f ∧ -κ - 20 * ulp ≤ z ∧ z ≤ T := by
    by_cases hs : S < 0
    · have e0 : ⌊|S| / T⌋ = 0 := by
        rw [Int.floor_eq_zero_iff, Set.mem_Ico, abs_of_neg hs]
        exact ⟨div_nonneg (by linarith) hT.le, by rw [div_lt_one hT]; linarith⟩
      refine ⟨_, rfl, 0, .inl rfl, ?_⟩
      rw [e0, abs_of_neg hs, decide_eq_true hs]
      simp only [sgn, Int.cast_zero, mul_zero, sub_zero]
      norm_num
      constructor <;> linarith
    · push Not at hs
      refine ⟨_, rfl, ⌊|S| / T⌋, ?_⟩
      rw [abs_of_nonneg hs, decide_eq_false (not_lt.2 hs)]
      have f1 := Int.floor_le (S / T)
      have f2 := Int.lt_floor_add_one (S / T)
      rw [le_div_iff₀ hT] at f1
      rw [div_lt_iff₀ hT] at f2
      have g1 : 0 ≤ ⌊S / T⌋ := Int.floor_nonneg.2 (div_nonneg hs hT.le)
      have g2 : ⌊S / T⌋ < 2 := by
        rw [Int.floor_lt, div_lt_iff₀ hT]; push_cast; linarith
      refine ⟨by omega, rfl, ?_, ?_⟩
      · simp only [sgn]; norm_num; linarith
      · simp only [sgn]; norm_num; linarith
  rw [ez] at hv
  have habz : |z| ≤ 10 := by rw [abs_le]; constructor <;> linarith
  have er : |rs z - z| ≤ 11 * ulp := (rs_err' z).trans (by nlinarith)
  rw [← hv] at er
  have er' := abs_le.1 er
  refine ⟨by linarith, by linarith, -f, ?_⟩
  rcases ef with rfl | rfl
  · rw [abs_le]; push_cast at *; constructor <;> linarith [zl]
  · rw [abs_le]; push_cast at *; constructor <;> linarith [zl]

/-- the turn from one line into another, as computed -/
theorem angle_near {x y : B64 lm} {θ φ κ : ℝ} (hx : x.Is θ) (hy : y.Is φ) (hκ : 0 ≤ κ) (hκ1 : κ ≤ 1 / 4) (hθ : |θ| ≤ Real.pi + κ)
    (hφ : |φ| ≤ Real.pi + κ) :
    ∃ d, (angleDifference (Num.rem (x + Num.pi) ((2.0 : B64 lm) * Num.pi)) y).Is d ∧ -κ - 400 * ulp ≤ d ∧ d ≤ 2 * Real.pi + κ + 400 * ulp ∧
      Cong (400 * ulp) d (φ - (θ + Real.pi)) := by
  have h3 := Real.pi_gt_three
  have h4 := Real.pi_le_four
  have hu := ulp_pos
  have hu1 : ulp ≤ 1 / 10000 := by rw [ulp_eq]; norm_num
  have hφ' := abs_le.1 hφ
  obtain ⟨v, i, l, u, c⟩ := back_near hx hκ hκ1 hθ
  generalize Num.rem (x + Num.pi) ((2.0 : B64 lm) * Num.pi) = b at i
  obtain ⟨w0, i0, l0, u0, c0⟩ := wrap_near (ρ := κ + 60 * ulp) i (by linarith) (by linarith) (by linarith) (by linarith)
  obtain ⟨w1, i1, l1, u1, c1⟩ := wrap_near (ρ := 0) hy le_rfl (by norm_num) (by linarith) (by linarith)
  unfold angleDifference
  dsimp only at i0 i1 ⊢
  generalize (if (if gt b (Num.tau : B64 lm) then b - Num.tau else b) <. (0.0 : B64 lm) then
    (if gt b (Num.tau : B64 lm) then b - Num.tau else b) + Num.tau else (if gt b (Num.tau : B64 lm) then b - Num.tau else b)) = B at i0 ⊢
  generalize (if (if gt y (Num.tau : B64 lm) then y - Num.tau else y) <. (0.0 : B64 lm) then
    (if gt y (Num.tau : B64 lm) then y - Num.tau else y) + Num.tau else (if gt y (Num.tau : B64 lm) then y - Num.tau else y)) = Y at i1 ⊢
  have hab : |w1 - w0| ≤ 10 := by rw [abs_le]; constructor <;> linarith
  have i2 := i1.sub i0 (abs_rs_lt_top (k := 5) (by norm_num) (by norm_num) (by norm_num; linarith))
  have e2 : |rs (w1 - w0) - (w1 - w0)| ≤ 10 * ulp := (rs_sub_err i1.rep i0.rep).trans (by nlinarith)
  generalize rs (w1 - w0) = W at i2 e2
  have e3 := abs_le.1 e2
  obtain ⟨d, i4, l4, u4, c4⟩ := wrap_near (ρ := κ + 200 * ulp) i2 (by linarith) (by linarith) (by linarith) (by linarith)
  refine ⟨d, i4, by linarith, by linarith, ?_⟩
  exact (c4.trans ((Cong.of_abs e2).trans (c1.sub (c0.trans c)))).mono (by linarith)

end Isotope
