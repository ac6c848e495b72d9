import Verif.B64Laws

/-!
# Calculus of finite binary64 operations

`x.Is r`: the `f64` `x` is finite and its value is the real number `r`.  Every operation is: compute exactly, then round
(`rs`), unless the result overflows.
-/

namespace Isotope
open Round Val

variable {lm : Libm}

/-- signed rounding -/
noncomputable def rs (z : ℝ) : ℝ := sgn (decide (z < 0)) (rnd |z|)

/-- finite, with value `r` -/
def B64.Is (x : B64 lm) (r : ℝ) : Prop := ∃ s m, x.v = num s m ∧ sgn s m.1 = r

theorem abs_rs (z : ℝ) : |rs z| = rnd |z| := by
  have := rnd_nonneg (abs_nonneg z)
  unfold rs sgn
  split_ifs <;> simp [abs_of_nonneg this]

theorem rs_rep {z : ℝ} (h : Rep |z|) : rs z = z := by rw [rs, h.rnd_eq, sgn_abs]

theorem rs_zero : rs 0 = 0 := rs_rep (by simpa using Rep.zero)

theorem rs_of_nonneg {z : ℝ} (h : 0 ≤ z) : rs z = rnd z := by
  unfold rs sgn; simp [not_lt.2 h, abs_of_nonneg h]

theorem rs_nonneg {z : ℝ} (h : 0 ≤ z) : 0 ≤ rs z := by rw [rs_of_nonneg h]; exact rnd_nonneg h

theorem rs_neg (z : ℝ) : rs (-z) = -rs z := by
  rcases lt_trichotomy z 0 with h | rfl | h
  · rw [rs_of_nonneg (by linarith), rs]; simp [h, sgn, abs_of_neg h]
  · simp [rs_zero]
  · rw [rs_of_nonneg h.le, rs]; simp [h, sgn, abs_of_pos h]

theorem abs_rs_mono {y z : ℝ} (h : |y| ≤ |z|) : |rs y| ≤ |rs z| := by
  rw [abs_rs, abs_rs]; exact rnd_mono (abs_nonneg y) h

theorem rs_mono {y z : ℝ} (h : y ≤ z) : rs y ≤ rs z := by
  rcases le_or_gt 0 y with h0 | h0
  · rw [rs_of_nonneg h0, rs_of_nonneg (h0.trans h)]; exact rnd_mono h0 h
  · rcases le_or_gt 0 z with h1 | h1
    · have h2 := rs_nonneg (z := -y) (by linarith)
      rw [rs_neg] at h2
      linarith [rs_nonneg h1]
    · have := rnd_mono (x := -z) (y := -y) (by linarith) (by linarith)
      rw [← rs_of_nonneg (by linarith), ← rs_of_nonneg (by linarith), rs_neg, rs_neg] at this
      linarith

theorem abs_rs_le {z b : ℝ} (hb : Rep b) (h : |z| ≤ b) : |rs z| ≤ b := by
  have := rnd_mono (abs_nonneg z) h
  rwa [hb.rnd_eq, ← abs_rs] at this

theorem le_abs_rs {z b : ℝ} (hb : Rep b) (h : b ≤ |z|) : b ≤ |rs z| := by
  have := rnd_mono hb.nonneg h
  rwa [hb.rnd_eq, ← abs_rs] at this

theorem rep_pow (k : ℤ) (h1 : -1074 ≤ k) (h2 : k ≤ 1023) : Rep (2 ^ k) := by
  by_cases h : k ≤ 971
  · exact ⟨1, k, by norm_num, h1, h, by simp⟩
  · refine ⟨2 ^ 52, k - 52, by norm_num, by omega, by omega, ?_⟩
    rw [zpow_sub₀ (by norm_num)]
    norm_num
    ring

theorem pow_lt_top {k : ℤ} (h : k ≤ 1023) : (2 : ℝ) ^ k < top := by
  unfold top
  exact zpow_lt_zpow_right₀ (by norm_num) (by omega)

namespace B64.Is
variable {x y : B64 lm} {r t : ℝ}

theorem rep (h : x.Is r) : Rep |r| := by
  obtain ⟨s, m, -, rfl⟩ := h
  rw [sgn_rep s m.2]
  exact m.2

theorem isFinite (h : x.Is r) : Num.isFinite x = true := by
  obtain ⟨s, m, e, -⟩ := h
  show x.v.isFinite = true
  rw [e]; rfl

theorem notNan (h : x.Is r) : x.v.isNan = false := by
  obtain ⟨s, m, e, -⟩ := h
  rw [e]; rfl

theorem ext (h : x.Is r) : x.v.ext = (r : EReal) := by
  obtain ⟨s, m, e, rfl⟩ := h
  rw [e]; rfl

theorem unique (h : x.Is r) (h' : x.Is t) : r = t := by
  have := h.ext.symm.trans h'.ext
  exact_mod_cast this

theorem pack {a : Bool} {z : ℝ} (hz : |rs z| < top) (ha : a = decide (z < 0) ∨ z = 0) (hx : x.v = Val.pack a z) :
    x.Is (rs z) := by
  rw [abs_rs] at hz
  unfold Val.pack at hx
  rw [dif_pos hz] at hx
  refine ⟨a, _, hx, ?_⟩
  rcases ha with rfl | rfl
  · rfl
  · simp [rs_zero, rnd_zero, sgn]

theorem neg (h : x.Is r) : (-x).Is (-r) := by
  obtain ⟨s, m, e, rfl⟩ := h
  refine ⟨!s, m, ?_, ?_⟩
  · rw [B64.neg_v, e]; rfl
  · cases s <;> simp [sgn]

theorem abs (h : x.Is r) : (Num.abs x).Is |r| := by
  obtain ⟨s, m, e, rfl⟩ := h
  refine ⟨false, m, ?_, ?_⟩
  · show x.v.abs = _
    rw [e]; rfl
  · rw [sgn_rep s m.2]; rfl

theorem add (h : x.Is r) (h' : y.Is t) (ht : |rs (r + t)| < top) : (x + y).Is (rs (r + t)) := by
  obtain ⟨s, m, e, rfl⟩ := h
  obtain ⟨s', m', e', rfl⟩ := h'
  by_cases h0 : sgn s m.1 + sgn s' m'.1 = 0
  · refine ⟨s && s', ⟨0, Rep.zero⟩, ?_, ?_⟩
    · rw [B64.add_v, e, e']; simp only [Val.add]; rw [if_pos h0]
    · rw [h0, rs_zero]; simp [sgn]
  · refine pack ht (.inl rfl) ?_
    rw [B64.add_v, e, e']
    simp only [Val.add]
    rw [if_neg h0]

theorem sub (h : x.Is r) (h' : y.Is t) (ht : |rs (r - t)| < top) : (x - y).Is (rs (r - t)) := by
  rw [sub_eq_add_neg] at *
  exact h.add h'.neg ht

theorem sgn_mul (s s' : Bool) (m m' : ℝ) : sgn s m * sgn s' m' = sgn (s ^^ s') (m * m') := by
  cases s <;> cases s' <;> simp [sgn]

theorem decide_sgn {s : Bool} {m : ℝ} (hm : 0 ≤ m) : s = decide (sgn s m < 0) ∨ sgn s m = 0 := by
  rcases hm.eq_or_lt with rfl | h
  · right; simp [sgn]
  · left; cases s <;> simp [sgn, h, h.le]

theorem pack_sgn (s : Bool) (m : ℝ) : Val.pack s m = Val.pack s (sgn s m) := by
  have : |sgn s m| = |m| := by cases s <;> simp [sgn]
  unfold Val.pack
  simp only [this]

theorem mul (h : x.Is r) (h' : y.Is t) (ht : |rs (r * t)| < top) : (x * y).Is (rs (r * t)) := by
  obtain ⟨s, m, e, rfl⟩ := h
  obtain ⟨s', m', e', rfl⟩ := h'
  have hm := mul_nonneg m.2.nonneg m'.2.nonneg
  rw [sgn_mul] at *
  refine pack ht (decide_sgn hm) ?_
  rw [B64.mul_v, e, e']
  simp only [Val.mul]
  exact pack_sgn _ _

theorem sgn_div (s s' : Bool) (m m' : ℝ) : sgn s m / sgn s' m' = sgn (s ^^ s') (m / m') := by
  cases s <;> cases s' <;> simp [sgn, div_neg, neg_div]

theorem div (h : x.Is r) (h' : y.Is t) (h0 : t ≠ 0) (ht : |rs (r / t)| < top) : (x / y).Is (rs (r / t)) := by
  obtain ⟨s, m, e, rfl⟩ := h
  obtain ⟨s', m', e', rfl⟩ := h'
  have hm := div_nonneg m.2.nonneg m'.2.nonneg
  have h1 : m'.1 ≠ 0 := by rintro h1; exact h0 (by simp [h1, sgn])
  rw [sgn_div] at *
  refine pack ht (decide_sgn hm) ?_
  rw [B64.div_v, e, e']
  simp only [Val.div]
  rw [if_neg h1]
  exact pack_sgn _ _

theorem sqrt (h : x.Is r) (h0 : 0 ≤ r) (ht : |rs (Real.sqrt r)| < top) : (Num.sqrt x).Is (rs (Real.sqrt r)) := by
  obtain ⟨s, m, e, rfl⟩ := h
  by_cases h1 : m.1 = 0
  · refine ⟨s, m, ?_, ?_⟩
    · show x.v.sqrt = _
      rw [e]; simp [Val.sqrt, h1]
    · simp [sgn, h1, rs_zero]
  · have : s = false := by
      cases s
      · rfl
      · exfalso
        have := m.2.nonneg
        have h2 : sgn true m.1 = -m.1 := rfl
        rw [h2] at h0
        exact h1 (by linarith)
    subst this
    refine pack ht (a := false) (.inl ?_) ?_
    · simp [Real.sqrt_nonneg]
    · show x.v.sqrt = _
      rw [e]; simp [Val.sqrt, h1, sgn]

theorem lit (m : Nat) (b : Bool) (e : Nat) (ht : |rs (OfScientific.ofScientific m b e : ℝ)| < top)
    (h0 : (0 : ℝ) ≤ OfScientific.ofScientific m b e) :
    (OfScientific.ofScientific m b e : B64 lm).Is (rs (OfScientific.ofScientific m b e)) :=
  pack ht (a := false) (.inl (by simp [h0])) rfl

theorem lt_iff (h : x.Is r) (h' : y.Is t) : (x <. y) = true ↔ r < t := by
  rw [B64.lt_iff, h.ext, h'.ext]
  simp [h.notNan, h'.notNan]

theorem le_iff (h : x.Is r) (h' : y.Is t) : (x <=. y) = true ↔ r ≤ t := by
  rw [B64.le_iff, h.ext, h'.ext]
  simp [h.notNan, h'.notNan]

theorem eq_iff (h : x.Is r) (h' : y.Is t) : (x ==. y) = true ↔ r = t := by
  rw [B64.eq_iff, h.ext, h'.ext]
  simp [h.notNan, h'.notNan]

end B64.Is

theorem B64.is_of_finite {x : B64 lm} (h : Num.isFinite x = true) : ∃ r, x.Is r := by
  obtain ⟨v⟩ := x
  cases v with
  | num s m => exact ⟨_, s, m, rfl, rfl⟩
  | _ => cases h

theorem B64.is_zero : (0.0 : B64 lm).Is 0 := ⟨false, ⟨0, Rep.zero⟩, B64.zero_v, rfl⟩
theorem B64.is_one : (1.0 : B64 lm).Is 1 := ⟨false, ⟨1, rep_one⟩, B64.one_v, rfl⟩

theorem rep_half : Rep (1 / 2) := by
  have := rep_two 1 (by norm_num)
  norm_num at this ⊢
  exact this

theorem B64.is_half : (0.5 : B64 lm).Is (1 / 2) := by
  refine ⟨false, ⟨1 / 2, rep_half⟩, ?_, rfl⟩
  rw [B64.lit_v, ← pack_rep]
  congr 1
  norm_num

/-! ## Underflow -/

theorem lastBit_small {y : ℝ} (h : y < 2 ^ (-1021 : ℤ)) : y ≤ 0 ∨ lastBit y = -1074 := by
  by_cases h0 : y ≤ 0
  · exact .inl h0
  · right
    have : Int.log 2 y < -1021 := (Int.lt_zpow_iff_log_lt (b := 2) (by norm_num) (not_le.1 h0)).1 (by exact_mod_cast h)
    unfold lastBit
    omega

theorem rnd_eq_zero {y : ℝ} (h0 : 0 ≤ y) : rnd y = 0 ↔ y ≤ 2 ^ (-1075 : ℤ) := by
  constructor
  · intro h
    by_contra hy
    have hy := not_le.1 hy
    have key : ∀ z : ℝ, 2 ^ (-1075 : ℤ) < z → z < 2 ^ (-1021 : ℤ) → rnd z ≠ 0 := by
      intro z h1 h2 h3
      have hz : 0 < z := (two_pos _).trans h1
      rcases lastBit_small h2 with h4 | h4
      · linarith
      unfold rnd at h3
      rw [h4] at h3
      have h5 : rhe (z / 2 ^ (-1074 : ℤ)) = 0 := by
        rcases mul_eq_zero.1 h3 with h5 | h5
        · exact_mod_cast h5
        · exact absurd h5 (two_pos _).ne'
      have h6 := rhe_near (z / 2 ^ (-1074 : ℤ))
      rw [h5, abs_le] at h6
      have h7 : 1 / 2 < z / 2 ^ (-1074 : ℤ) := by
        rw [lt_div_iff₀ (two_pos _)]
        refine lt_of_eq_of_lt ?_ h1
        rw [show (-1075 : ℤ) = -1 + -1074 by norm_num, zpow_add₀ (by norm_num)]
        norm_num
      push_cast at h6
      linarith [h6.1]
    by_cases h2 : y < 2 ^ (-1021 : ℤ)
    · exact key y hy h2 h
    · have := rnd_mono (two_pos _).le (not_lt.1 h2)
      rw [(rep_pow (-1021) (by norm_num) (by norm_num)).rnd_eq, h] at this
      linarith [two_pos (-1021)]
  · intro h
    rcases lastBit_small (y := y) (h.trans_lt (zpow_lt_zpow_right₀ (by norm_num) (by norm_num))) with h1 | h1
    · rw [le_antisymm h1 h0, rnd_zero]
    · unfold rnd
      rw [h1]
      have h2 : 0 ≤ y / 2 ^ (-1074 : ℤ) := div_nonneg h0 (two_pos _).le
      have h3 : y / 2 ^ (-1074 : ℤ) ≤ 1 / 2 := by
        rw [div_le_iff₀ (two_pos _)]
        refine h.trans_eq ?_
        rw [show (-1075 : ℤ) = -1 + -1074 by norm_num, zpow_add₀ (by norm_num)]
        norm_num
      have h4 : ⌊y / 2 ^ (-1074 : ℤ)⌋ = 0 := by rw [Int.floor_eq_zero_iff]; exact ⟨h2, by linarith⟩
      have h5 : Int.fract (y / 2 ^ (-1074 : ℤ)) = y / 2 ^ (-1074 : ℤ) := by unfold Int.fract; rw [h4]; simp
      have : rhe (y / 2 ^ (-1074 : ℤ)) = 0 := by
        unfold rhe
        rw [h5, h4]
        rcases h3.lt_or_eq with h6 | h6
        · rw [if_pos h6]
        · rw [h6]; simp
      rw [this]; simp

end Isotope
