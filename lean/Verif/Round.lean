import Mathlib.Data.Int.Log
import Mathlib.Algebra.Order.Floor.Ring
import Mathlib.Algebra.Order.Archimedean.Real.Basic
import Mathlib.Algebra.Ring.Int.Parity
import Mathlib.Tactic.NormNum
import Mathlib.Tactic.Linarith
import Mathlib.Tactic.Positivity
import Mathlib.Tactic.FieldSimp
import Mathlib.Tactic.Ring

/-!
# Rounding to binary64

Magnitudes of IEEE binary64: 53 significant bits, smallest exponent `-1074`, rounding to nearest, ties to even.  Everything
here is about real numbers; signs, infinities and NaN are in `Verif/B64.lean`.
-/

namespace Isotope.Round

/-- nearest integer, ties to even -/
noncomputable def rhe (q : ℝ) : ℤ :=
  if Int.fract q < 1 / 2 then ⌊q⌋ else if 1 / 2 < Int.fract q then ⌊q⌋ + 1 else if Even ⌊q⌋ then ⌊q⌋ else ⌊q⌋ + 1

/-- exponent of the last bit of numbers near `x` (IEEE 754-2019, 3.3: `q = max (e - 52) (-1074)`) -/
noncomputable def lastBit (x : ℝ) : ℤ := max (Int.log 2 x - 52) (-1074)

/-- rounding of a non-negative real, as if the exponent range were unbounded above -/
noncomputable def rnd (x : ℝ) : ℝ := rhe (x / 2 ^ lastBit x) * 2 ^ lastBit x

/-- magnitudes of finite binary64 numbers -/
def Rep (r : ℝ) : Prop := ∃ (n : ℕ) (e : ℤ), n < 2 ^ 53 ∧ -1074 ≤ e ∧ e ≤ 971 ∧ r = n * 2 ^ e

/-- the first power of two too large for binary64 -/
noncomputable def top : ℝ := 2 ^ (1024 : ℤ)

theorem rhe_int (n : ℤ) : rhe n = n := by simp [rhe]

theorem floor_le_rhe (q : ℝ) : ⌊q⌋ ≤ rhe q := by unfold rhe; split_ifs <;> omega
theorem rhe_le_floor (q : ℝ) : rhe q ≤ ⌊q⌋ + 1 := by unfold rhe; split_ifs <;> omega

theorem rhe_mono {p q : ℝ} (h : p ≤ q) : rhe p ≤ rhe q := by
  have hf := Int.floor_le_floor h
  rcases hf.lt_or_eq with h1 | h1
  · have := rhe_le_floor p
    have := floor_le_rhe q
    omega
  · have : Int.fract p ≤ Int.fract q := by
      unfold Int.fract; rw [h1]; linarith
    unfold rhe
    rw [← h1]
    split_ifs <;> first | omega | linarith

theorem rhe_near (q : ℝ) : |(rhe q : ℝ) - q| ≤ 1 / 2 := by
  have h0 := Int.fract_nonneg q
  have h1 := Int.fract_lt_one q
  have h2 : (⌊q⌋ : ℝ) = q - Int.fract q := by unfold Int.fract; ring
  rw [abs_le]
  unfold rhe
  split_ifs <;> push_cast <;> constructor <;> linarith

theorem two_pos (e : ℤ) : (0 : ℝ) < 2 ^ e := zpow_pos (by norm_num) e

theorem rnd_zero : rnd 0 = 0 := by
  have : rhe 0 = 0 := by simpa using rhe_int 0
  simp [rnd, this]

theorem rnd_nonneg {x : ℝ} (h : 0 ≤ x) : 0 ≤ rnd x := by
  unfold rnd
  refine mul_nonneg ?_ (two_pos _).le
  have := rhe_mono (p := ((0 : ℤ) : ℝ)) (q := x / 2 ^ lastBit x) (by simpa using div_nonneg h (two_pos _).le)
  rw [rhe_int] at this
  exact_mod_cast this

theorem lt_lastBit {x : ℝ} : x < 2 ^ (lastBit x + 53) := by
  refine (Int.lt_zpow_succ_log_self (b := 2) (by norm_num) x).trans_le ?_
  push_cast
  refine zpow_le_zpow_right₀ (by norm_num) ?_
  have := le_max_left (Int.log 2 x - 52) (-1074)
  unfold lastBit
  omega

theorem lastBit_le {x : ℝ} (h0 : 0 < x) (h : -1074 < lastBit x) : (2 : ℝ) ^ (lastBit x + 52) ≤ x := by
  have : lastBit x = Int.log 2 x - 52 := by
    unfold lastBit at *
    rcases max_choice (Int.log 2 x - 52) (-1074) with h1 | h1 <;> omega
  rw [this, sub_add_cancel]
  simpa using Int.zpow_log_le_self (b := 2) (by norm_num) h0

theorem lastBit_mono {x y : ℝ} (h0 : 0 < x) (h : x ≤ y) : lastBit x ≤ lastBit y := by
  unfold lastBit
  exact max_le_max (by have := Int.log_mono_right (b := 2) h0 h; omega) le_rfl

theorem rnd_mono {x y : ℝ} (h0 : 0 ≤ x) (h : x ≤ y) : rnd x ≤ rnd y := by
  rcases h0.eq_or_lt with rfl | h0
  · rw [rnd_zero]; exact rnd_nonneg h
  rcases (lastBit_mono h0 h).eq_or_lt with h1 | h1
  · unfold rnd
    rw [h1]
    refine mul_le_mul_of_nonneg_right ?_ (two_pos _).le
    exact_mod_cast rhe_mono (div_le_div_of_nonneg_right h (two_pos _).le)
  · have hx : rnd x ≤ 2 ^ (lastBit x + 53) := by
      unfold rnd
      rw [zpow_add₀ (by norm_num), mul_comm]
      refine mul_le_mul_of_nonneg_left ?_ (two_pos _).le
      have := rhe_mono (p := x / 2 ^ lastBit x) (q := ((2 ^ 53 : ℤ) : ℝ)) (by
        rw [div_le_iff₀ (two_pos _)]
        have := (lt_lastBit (x := x)).le
        rw [zpow_add₀ (by norm_num)] at this
        push_cast
        rw [mul_comm]
        exact_mod_cast this)
      rw [rhe_int] at this
      exact_mod_cast this
    have hy : (2 : ℝ) ^ (lastBit y + 52) ≤ rnd y := by
      unfold rnd
      rw [zpow_add₀ (by norm_num), mul_comm]
      refine mul_le_mul_of_nonneg_right ?_ (two_pos _).le
      have := rhe_mono (p := ((2 ^ 52 : ℤ) : ℝ)) (q := y / 2 ^ lastBit y) (by
        rw [le_div_iff₀ (two_pos _)]
        have := lastBit_le (h0.trans_le h) (by have := le_max_right (Int.log 2 x - 52) (-1074); unfold lastBit at *; omega)
        rw [zpow_add₀ (by norm_num)] at this
        push_cast
        rw [mul_comm]
        exact_mod_cast this)
      rw [rhe_int] at this
      exact_mod_cast this
    exact hx.trans ((zpow_le_zpow_right₀ (by norm_num) (by omega)).trans hy)

theorem Rep.nonneg {r : ℝ} (h : Rep r) : 0 ≤ r := by
  obtain ⟨n, e, -, -, -, rfl⟩ := h
  exact mul_nonneg (Nat.cast_nonneg n) (two_pos e).le

theorem Rep.lt_top {r : ℝ} (h : Rep r) : r < top := by
  obtain ⟨n, e, h1, -, h3, rfl⟩ := h
  have : (n : ℝ) < 2 ^ (53 : ℤ) := by exact_mod_cast h1
  calc (n : ℝ) * 2 ^ e < 2 ^ (53 : ℤ) * 2 ^ e := mul_lt_mul_of_pos_right this (two_pos e)
    _ = 2 ^ (53 + e) := by rw [zpow_add₀ (by norm_num)]
    _ ≤ top := zpow_le_zpow_right₀ (by norm_num) (by omega)

theorem Rep.zero : Rep 0 := ⟨0, 0, by norm_num, by norm_num, by norm_num, by simp⟩

/-- binary64 numbers are not changed by rounding -/
theorem Rep.rnd_eq {r : ℝ} (h : Rep r) : rnd r = r := by
  rcases h.nonneg.eq_or_lt with rfl | h0
  · exact rnd_zero
  obtain ⟨n, e, h1, h2, h3, rfl⟩ := h
  have hl : lastBit (n * 2 ^ e) ≤ e := by
    unfold lastBit
    refine max_le ?_ h2
    have : (n : ℝ) * 2 ^ e < ((2 : ℕ) : ℝ) ^ (53 + e) := by
      push_cast
      rw [zpow_add₀ (by norm_num)]
      refine mul_lt_mul_of_pos_right ?_ (two_pos e)
      exact_mod_cast h1
    have := (Int.lt_zpow_iff_log_lt (b := 2) (by norm_num) h0).1 this
    omega
  obtain ⟨k, hk⟩ := Int.eq_ofNat_of_zero_le (sub_nonneg.2 hl)
  have : (n : ℝ) * 2 ^ e / 2 ^ lastBit (n * 2 ^ e) = ((n * 2 ^ k : ℤ) : ℝ) := by
    rw [div_eq_iff (two_pos _).ne']
    have : e = k + lastBit (n * 2 ^ e) := by omega
    conv_lhs => rw [this]
    rw [zpow_add₀ (by norm_num)]
    push_cast
    rw [zpow_natCast]
    ring
  rw [rnd, this, rhe_int, ← this, div_mul_cancel₀ _ (two_pos _).ne']

/-- results of rounding are binary64 numbers unless they are too large -/
theorem rep_rnd {x : ℝ} (h0 : 0 ≤ x) (h : rnd x < top) : Rep (rnd x) := by
  have hn : 0 ≤ rhe (x / 2 ^ lastBit x) := by
    have := rhe_mono (p := ((0 : ℤ) : ℝ)) (q := x / 2 ^ lastBit x) (by simpa using div_nonneg h0 (two_pos _).le)
    rwa [rhe_int] at this
  obtain ⟨n, hn⟩ := Int.eq_ofNat_of_zero_le hn
  have hle : n ≤ 2 ^ 53 := by
    have := rhe_mono (p := x / 2 ^ lastBit x) (q := ((2 ^ 53 : ℤ) : ℝ)) (by
      rw [div_le_iff₀ (two_pos _)]
      have := (lt_lastBit (x := x)).le
      rw [zpow_add₀ (by norm_num)] at this
      push_cast
      rw [mul_comm]
      exact_mod_cast this)
    rw [rhe_int, hn] at this
    exact_mod_cast this
  have he : -1074 ≤ lastBit x := le_max_right _ _
  have hr : rnd x = n * 2 ^ lastBit x := by rw [rnd, hn]; simp
  by_cases hn0 : n = 0
  · rw [hr, hn0]; simpa using Rep.zero
  rcases hle.eq_or_lt with h1 | h1
  · rw [hr, h1] at h ⊢
    refine ⟨2 ^ 52, lastBit x + 1, by norm_num, by omega, ?_, ?_⟩
    · have : (2 : ℝ) ^ (53 + lastBit x) < 2 ^ (1024 : ℤ) := by
        rw [zpow_add₀ (by norm_num)]
        unfold top at h
        push_cast at h
        exact_mod_cast h
      have := (zpow_lt_zpow_iff_right₀ (by norm_num : (1 : ℝ) < 2)).1 this
      omega
    · rw [zpow_add₀ (by norm_num)]; push_cast; ring
  · refine ⟨n, lastBit x, h1, he, ?_, hr⟩
    by_cases h2 : lastBit x = -1074
    · omega
    have hx : 0 < x := by
      rcases h0.eq_or_lt with rfl | h0
      · rw [rnd_zero] at hr
        rcases mul_eq_zero.1 hr.symm with h3 | h3
        · exact absurd (by exact_mod_cast h3) hn0
        · exact absurd h3 (two_pos _).ne'
      · exact h0
    have h3 : (2 : ℝ) ^ (lastBit x + 52) ≤ rnd x := by
      have h4 := lastBit_le hx (by omega)
      have h9 : (2 : ℝ) ^ 52 ≤ n := by
        have := rhe_mono (p := ((2 ^ 52 : ℤ) : ℝ)) (q := x / 2 ^ lastBit x) (by
          rw [le_div_iff₀ (two_pos _)]
          rw [zpow_add₀ (by norm_num)] at h4
          push_cast
          rw [mul_comm]
          exact_mod_cast h4)
        rw [rhe_int, hn] at this
        exact_mod_cast this
      rw [hr, zpow_add₀ (by norm_num), mul_comm]
      refine mul_le_mul_of_nonneg_right ?_ (two_pos _).le
      exact_mod_cast h9
    have : (2 : ℝ) ^ (lastBit x + 52) < 2 ^ (1024 : ℤ) := h3.trans_lt h
    have := (zpow_lt_zpow_iff_right₀ (by norm_num : (1 : ℝ) < 2)).1 this
    omega

/-- the rounded value is at most half a unit in the last place away -/
theorem rnd_near (x : ℝ) : |rnd x - x| ≤ 2 ^ lastBit x / 2 := by
  have h1 := rhe_near (x / 2 ^ lastBit x)
  have h2 := two_pos (lastBit x)
  have : rnd x - x = (rhe (x / 2 ^ lastBit x) - x / 2 ^ lastBit x) * 2 ^ lastBit x := by
    rw [rnd]; field_simp
  rw [this, abs_mul, abs_of_pos h2]
  nlinarith

end Isotope.Round
