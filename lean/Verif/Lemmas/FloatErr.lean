import Verif.Lemmas.FloatBound
import Verif.Props.Float

/-!
# Rounding errors

The standard model of rounding error for binary64: relative error `2^-53`, absolute error `2^-1075` where the result is tiny, no
absolute error for sums.
-/

namespace Isotope
open Round Val

variable {lm : Libm}

/-- the unit roundoff -/
noncomputable def ulp : ℝ := 2 ^ (-53 : ℤ)

theorem ulp_pos : 0 < ulp := two_pos _

theorem ulp_eq : ulp = 1 / 9007199254740992 := by unfold ulp; norm_num

theorem rnd_err {y : ℝ} (h : 2 ^ (-1022 : ℤ) ≤ y) : |rnd y - y| ≤ ulp * y := by
  refine (rnd_near y).trans ?_
  have h0 : 0 < y := (two_pos _).trans_le h
  have hl : (2 : ℝ) ^ lastBit y ≤ 2 ^ (-52 : ℤ) * y := by
    by_cases h1 : -1074 < lastBit y
    · have := lastBit_le h0 h1
      rw [zpow_add₀ (by norm_num)] at this
      have e : (2 : ℝ) ^ (-52 : ℤ) * 2 ^ (52 : ℤ) = 1 := by rw [← zpow_add₀ (by norm_num)]; norm_num
      nlinarith [two_pos (-52), two_pos (lastBit y)]
    · have h2 : lastBit y = -1074 := le_antisymm (not_lt.1 h1) (le_max_right _ _)
      rw [h2, show (-1074 : ℤ) = -52 + -1022 by norm_num, zpow_add₀ (by norm_num)]
      exact mul_le_mul_of_nonneg_left h (two_pos _).le
  have e : ulp = 2 ^ (-52 : ℤ) / 2 := by
    unfold ulp
    rw [show (-53 : ℤ) = -52 + -1 by norm_num, zpow_add₀ (by norm_num)]
    norm_num
  rw [e, div_mul_eq_mul_div]
  exact div_le_div_of_nonneg_right hl (by norm_num)

theorem rnd_err' {y : ℝ} (h : 0 ≤ y) : |rnd y - y| ≤ ulp * y + 2 ^ (-1075 : ℤ) := by
  by_cases h1 : 2 ^ (-1022 : ℤ) ≤ y
  · exact (rnd_err h1).trans (by linarith [two_pos (-1075)])
  · have h2 := not_le.1 h1
    rcases h.eq_or_lt with rfl | h0
    · rw [rnd_zero]; simp
    refine (rnd_near y).trans ?_
    rcases lastBit_small (y := y) (h2.trans_le (two_le (by norm_num))) with h3 | h3
    · linarith
    · rw [h3, show (-1074 : ℤ) = 1 + -1075 by norm_num, zpow_add₀ (by norm_num)]
      have := mul_nonneg ulp_pos.le h
      norm_num
      exact this

theorem rs_sub (z : ℝ) : |rs z - z| = |rnd |z| - (|z|)| := by
  rcases lt_or_ge z 0 with h | h
  · have : rs z = -rnd |z| := by unfold rs sgn; simp [h]
    rw [this, abs_of_neg h, show -rnd (-z) - z = -(rnd (-z) - -z) by ring, abs_neg]
  · rw [rs_of_nonneg h, abs_of_nonneg h]

/-- relative error where the result is not tiny -/
theorem rs_err {z : ℝ} (h : 2 ^ (-1022 : ℤ) ≤ |z|) : |rs z - z| ≤ ulp * |z| := by
  rw [rs_sub]; exact rnd_err h

/-- error in general -/
theorem rs_err' (z : ℝ) : |rs z - z| ≤ ulp * |z| + 2 ^ (-1075 : ℤ) := by
  rw [rs_sub]; exact rnd_err' (abs_nonneg z)

/-- binary64 numbers are multiples of the smallest one -/
theorem rep_grid {r : ℝ} (h : Rep |r|) : ∃ N : ℤ, r = N * 2 ^ (-1074 : ℤ) := by
  obtain ⟨n, e, -, h2, -, e1⟩ := h
  obtain ⟨k, hk⟩ := Int.eq_ofNat_of_zero_le (show 0 ≤ e + 1074 by omega)
  have he : e = k + -1074 := by omega
  have : |r| = ((n * 2 ^ k : ℤ) : ℝ) * 2 ^ (-1074 : ℤ) := by
    rw [e1, he, zpow_add₀ (by norm_num), zpow_natCast]
    push_cast
    ring
  rcases abs_choice r with h | h
  · exact ⟨_, h ▸ this⟩
  · refine ⟨-(n * 2 ^ k : ℤ), ?_⟩
    rw [h] at this
    push_cast at this ⊢
    linarith

/-- sums have no absolute error -/
theorem rs_add_err {r t : ℝ} (hr : Rep |r|) (ht : Rep |t|) : |rs (r + t) - (r + t)| ≤ ulp * |r + t| := by
  by_cases h : 2 ^ (-1022 : ℤ) ≤ |r + t|
  · exact rs_err h
  · obtain ⟨N, hN⟩ := rep_grid hr
    obtain ⟨M, hM⟩ := rep_grid ht
    have e : r + t = ((N + M : ℤ) : ℝ) * 2 ^ (-1074 : ℤ) := by rw [hN, hM]; push_cast; ring
    have h1 : |r + t| = ((N + M).natAbs : ℝ) * 2 ^ (-1074 : ℤ) := by
      rw [e, abs_mul, abs_of_pos (two_pos _), Nat.cast_natAbs, Int.cast_abs]
    have hlt : ((N + M).natAbs : ℝ) < 2 ^ 52 := by
      have := not_le.1 h
      rw [h1, show (-1022 : ℤ) = 52 + -1074 by norm_num, zpow_add₀ (by norm_num)] at this
      have := lt_of_mul_lt_mul_right this (two_pos _).le
      exact_mod_cast this
    have hR : Rep |r + t| := by
      refine ⟨(N + M).natAbs, -1074, ?_, le_rfl, by norm_num, h1⟩
      have : (N + M).natAbs < 2 ^ 52 := by exact_mod_cast hlt
      omega
    rw [rs_rep hR, sub_self, abs_zero]
    exact mul_nonneg ulp_pos.le (abs_nonneg _)

theorem rs_sub_err {r t : ℝ} (hr : Rep |r|) (ht : Rep |t|) : |rs (r - t) - (r - t)| ≤ ulp * |r - t| := by
  rw [sub_eq_add_neg r t]
  exact rs_add_err hr (by rwa [abs_neg])

/-! ## Finite results have finite operands -/

theorem B64.lt_top_of_pack {x : B64 lm} {a : Bool} {z : ℝ} (hx : x.v = Val.pack a z) (hf : Num.isFinite x = true) : |rs z| < top := by
  rw [abs_rs]
  by_contra hh
  have hf : x.v.isFinite = true := hf
  rw [hx, Val.pack, dif_neg hh] at hf
  cases hf

theorem B64.add_fin {x y : B64 lm} (h : Num.isFinite (x + y) = true) :
    ∃ r t, x.Is r ∧ y.Is t ∧ (x + y).Is (rs (r + t)) := by
  have h' : (x.v.add y.v).isFinite = true := h
  obtain ⟨⟨s, m, ex⟩, ⟨s', m', ey⟩⟩ : (∃ s m, x.v = num s m) ∧ ∃ s m, y.v = num s m := by
    cases hx : x.v <;> cases hy : y.v <;> rw [hx, hy] at h' <;> simp only [Val.add] at h' <;>
      first | exact ⟨⟨_, _, rfl⟩, ⟨_, _, rfl⟩⟩ | (split_ifs at h' <;> cases h') | cases h'
  refine ⟨_, _, ⟨s, m, ex, rfl⟩, ⟨s', m', ey, rfl⟩, ?_⟩
  refine B64.Is.add ⟨s, m, ex, rfl⟩ ⟨s', m', ey, rfl⟩ ?_
  by_cases h0 : sgn s m.1 + sgn s' m'.1 = 0
  · rw [h0, rs_zero, abs_zero]; exact Rep.zero.lt_top
  · refine lt_top_of_pack (x := x + y) (a := decide (sgn s m.1 + sgn s' m'.1 < 0)) ?_ h
    rw [B64.add_v, ex, ey]
    simp only [Val.add]
    rw [if_neg h0]

theorem B64.sub_fin {x y : B64 lm} (h : Num.isFinite (x - y) = true) :
    ∃ r t, x.Is r ∧ y.Is t ∧ (x - y).Is (rs (r - t)) := by
  obtain ⟨r, t, h1, h2, h3⟩ := B64.add_fin (x := x) (y := -y) h
  refine ⟨r, -t, h1, ?_, ?_⟩
  · have := h2.neg
    obtain ⟨v⟩ := y
    have e : - -(⟨v⟩ : B64 lm) = ⟨v⟩ := by
      show (⟨v.neg.neg⟩ : B64 lm) = _
      cases v <;> simp [Val.neg]
    rwa [e] at this
  · rw [sub_neg_eq_add]; exact h3

theorem B64.mul_fin {x y : B64 lm} (h : Num.isFinite (x * y) = true) :
    ∃ r t, x.Is r ∧ y.Is t ∧ (x * y).Is (rs (r * t)) := by
  have h' : (x.v.mul y.v).isFinite = true := h
  obtain ⟨⟨s, m, ex⟩, ⟨s', m', ey⟩⟩ : (∃ s m, x.v = num s m) ∧ ∃ s m, y.v = num s m := by
    cases hx : x.v <;> cases hy : y.v <;> rw [hx, hy] at h' <;> simp only [Val.mul] at h' <;>
      first | exact ⟨⟨_, _, rfl⟩, ⟨_, _, rfl⟩⟩ | (split_ifs at h' <;> cases h') | cases h'
  refine ⟨_, _, ⟨s, m, ex, rfl⟩, ⟨s', m', ey, rfl⟩, ?_⟩
  refine B64.Is.mul ⟨s, m, ex, rfl⟩ ⟨s', m', ey, rfl⟩ ?_
  have : |rs (m.1 * m'.1)| < top := by
    refine lt_top_of_pack (x := x * y) (a := s ^^ s') ?_ h
    rw [B64.mul_v, ex, ey]
    rfl
  rw [abs_rs] at this ⊢
  rwa [abs_mul, sgn_rep s m.2, sgn_rep s' m'.2, ← abs_of_nonneg m.2.nonneg, ← abs_of_nonneg m'.2.nonneg, ← abs_mul]

theorem B64.sqrt_fin {x : B64 lm} (h : Num.isFinite (Num.sqrt x) = true) :
    ∃ r, x.Is r ∧ 0 ≤ r ∧ (Num.sqrt x).Is (rs (Real.sqrt r)) := by
  have h' : (x.v.sqrt).isFinite = true := h
  obtain ⟨s, m, ex⟩ : ∃ s m, x.v = num s m := by
    cases hx : x.v <;> rw [hx] at h' <;> simp only [Val.sqrt] at h' <;>
      first | exact ⟨_, _, rfl⟩ | (split_ifs at h' <;> cases h') | cases h'
  have h0 : 0 ≤ sgn s m.1 := by
    by_cases hm : m.1 = 0
    · cases s <;> simp [sgn, hm]
    · rw [ex] at h'
      simp only [Val.sqrt, if_neg hm] at h'
      cases s
      · exact m.2.nonneg
      · cases h'
  refine ⟨_, ⟨s, m, ex, rfl⟩, h0, B64.Is.sqrt ⟨s, m, ex, rfl⟩ h0 ?_⟩
  by_cases hm : m.1 = 0
  · have : sgn s m.1 = 0 := by cases s <;> simp [sgn, hm]
    rw [this, Real.sqrt_zero, rs_zero, abs_zero]; exact Rep.zero.lt_top
  · refine lt_top_of_pack (x := Num.sqrt x) (a := false) ?_ h
    show x.v.sqrt = _
    rw [ex] at h' ⊢
    simp only [Val.sqrt, if_neg hm] at h' ⊢
    cases s
    · rfl
    · cases h'

end Isotope
