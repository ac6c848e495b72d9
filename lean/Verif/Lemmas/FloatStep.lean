import Verif.Lemmas.FloatSearch

/-!
# Step sizes accepted in binary64 on a linear sketch
-/

namespace Isotope
open Round Val
open Matrix
variable {lm : Libm}

/-- step sizes on the way: halved so far because they were too large, or enlarged so far because they were too small -/
def Pace (a2 d2 α : ℝ) (j : Nat) : Prop :=
  (α = (1 / 2) ^ j ∧ (j = 0 ∨ 0.95 * a2 < α * d2)) ∨ (α = 1.5 ^ j ∧ (j = 0 ∨ α * d2 < 0.18 * a2))

namespace Pace
variable {a2 d2 α mu M : ℝ} {j : Nat}

theorem start : Pace a2 d2 1 0 := .inl ⟨by norm_num, .inl rfl⟩

theorem pos (p : Pace a2 d2 α j) : 0 < α := by
  rcases p with ⟨rfl, -⟩ | ⟨rfl, -⟩ <;> positivity

theorem rep (p : Pace a2 d2 α j) (hj : j ≤ 15) : Rep |α| := by
  rw [abs_of_pos p.pos]
  rcases p with ⟨rfl, -⟩ | ⟨rfl, -⟩
  · have := rep_pow (-j) (by omega) (by omega)
    rwa [_root_.zpow_neg, zpow_natCast, ← inv_pow, show (2 : ℝ)⁻¹ = 1 / 2 by norm_num] at this
  · refine ⟨3 ^ j, -j, ?_, by omega, by omega, ?_⟩
    · exact lt_of_le_of_lt (Nat.pow_le_pow_right (by norm_num) hj) (by norm_num)
    · rw [_root_.zpow_neg, zpow_natCast, ← inv_pow]
      push_cast
      rw [← mul_pow]
      norm_num

theorem ge (p : Pace a2 d2 α j) (hj : j ≤ 14) : 6e-5 ≤ α := by
  rcases p with ⟨rfl, -⟩ | ⟨rfl, -⟩
  · have : (1 / 2 : ℝ) ^ 14 ≤ (1 / 2) ^ j := pow_le_pow_of_le_one (by norm_num) (by norm_num) hj
    refine le_trans ?_ this
    norm_num
  · exact le_trans (by norm_num) (one_le_pow₀ (by norm_num : (1 : ℝ) ≤ 1.5))

theorem le (p : Pace a2 d2 α j) (hj : j ≤ 14) : α ≤ 2 ^ (10 : ℤ) := by
  rcases p with ⟨rfl, -⟩ | ⟨rfl, -⟩
  · exact (pow_le_one₀ (by norm_num) (by norm_num)).trans (by norm_num)
  · have : (1.5 : ℝ) ^ j ≤ 1.5 ^ 14 := pow_le_pow_right₀ (by norm_num) hj
    exact this.trans (by norm_num)

theorem not_done (p : Pace a2 d2 α 15) (h0 : 0 < a2) (hmu : 0.998 * mu * a2 ≤ d2) (hM : d2 ≤ M * a2) (lo : 0.121 ≤ mu * 1.5 ^ 14)
    (hi : M ≤ 1.9 * 2 ^ 14) : False := by
  rcases p with ⟨rfl, h | h⟩ | ⟨rfl, h | h⟩
  · cases h
  · have : M * a2 ≤ 1.9 * 2 ^ 14 * a2 := mul_le_mul_of_nonneg_right hi h0.le
    norm_num at *
    linarith
  · cases h
  · have : 0.121 * a2 ≤ mu * 1.5 ^ 14 * a2 := mul_le_mul_of_nonneg_right lo h0.le
    norm_num at *
    linarith

theorem low (p : Pace a2 d2 α j) (h0 : 0 < a2) (hM : d2 ≤ M * a2) (M0 : 0 < M) : 0.95 ≤ α * (1 + M) := by
  have a0 := p.pos
  have one : 1 ≤ α → 0.95 ≤ α * (1 + M) := fun h1 => by nlinarith
  rcases p with ⟨e, rfl | h⟩ | ⟨e, -⟩
  · exact one (by rw [e]; norm_num)
  · have h1 : α * d2 ≤ α * (M * a2) := mul_le_mul_of_nonneg_left hM a0.le
    have h2 : 0.95 * a2 ≤ α * M * a2 := by linarith
    have := le_of_mul_le_mul_right h2 h0
    linarith
  · exact one (by rw [e]; exact one_le_pow₀ (by norm_num))

theorem high (p : Pace a2 d2 α j) : α ≤ 1 ∨ α * d2 ≤ 0.18 * a2 := by
  rcases p with ⟨e, -⟩ | ⟨e, rfl | h⟩
  · exact .inl (by rw [e]; exact pow_le_one₀ (by norm_num) (by norm_num))
  · exact .inl (by rw [e]; norm_num)
  · exact .inr h.le

theorem half (p : Pace a2 d2 α j) (h0 : 0 < a2) (hr : 1.9 * a2 < α * d2) : Pace a2 d2 (α * (1 / 2)) (j + 1) := by
  have e0 : α = (1 / 2) ^ j := by
    rcases p with ⟨e, -⟩ | ⟨e, rfl | h⟩
    · exact e
    · rw [e]; norm_num
    · linarith
  exact .inl ⟨by rw [pow_succ, ← e0], .inr (by linarith)⟩

theorem more (p : Pace a2 d2 α j) (h0 : 0 < a2) (hr : α * d2 < 0.12 * a2) : Pace a2 d2 (α * 1.5) (j + 1) := by
  have e0 : α = 1.5 ^ j := by
    rcases p with ⟨e, rfl | h⟩ | ⟨e, -⟩
    · rw [e]; norm_num
    · linarith
    · exact e
  exact .inr ⟨by rw [pow_succ, ← e0], .inr (by linarith)⟩

end Pace

/-- a point of a run from which the next step starts: the noise is small against the residual, and there is room for the step -/
structure Ready (h : Heap (B64 lm)) (s : Sketch) (N X mu M : ℝ) (x : Fin (getNDofs h.exact s) → ℝ) : Prop where
  pos : 0 < vlen (rowMat h.exact s *ᵥ x - rowRhs h.exact s)
  eps : epsOf N X ≤ tol mu M * vlen (rowMat h.exact s *ᵥ x - rowRhs h.exact s)
  move : 2 * Real.sqrt M * Real.sqrt N * ulp * X ≤ tol mu M * vlen (rowMat h.exact s *ᵥ x - rowRhs h.exact s)
  room : ∀ i, |x i| + 1.01 * (Real.sqrt M + 1 / Real.sqrt mu) * vlen (rowMat h.exact s *ᵥ x - rowRhs h.exact s) ≤ X / 2

/-- sizes at the start of a line search -/
structure Scale (N mu M a r L : ℝ) : Prop where
  a_ge : 1e-24 ≤ a ^ 2
  a_le : a ^ 2 ≤ 2 ^ (400 : ℤ)
  L_le : L ≤ 2 ^ (500 : ℤ)
  rel : ∀ α, 0.95 ≤ α * (1 + M) → ulp * L ≤ 1e-7 * (α * a ^ 2)
  dot : 14 * N * ulp * (1.02 * (Real.sqrt M * r) * a) ≤ 1e-6 * a ^ 2
  own : 14 * N * ulp * (a * a) + N * 2 ^ (-1074 : ℤ) ≤ 1e-6 * a ^ 2
  tiny : N * 2 ^ (-1074 : ℤ) ≤ 1e-6 * a ^ 2

set_option maxHeartbeats 1000000 in
theorem scale {h : Heap (B64 lm)} {s : Sketch} {N X mu M : ℝ} (S : LinSet h s N X mu M) {x g : Fin (getNDofs h.exact s) → ℝ} {L : ℝ}
    (R : Ready h s N X mu M x) (b : Base (rowMat h.exact s) mu M (rowMat h.exact s *ᵥ x - rowRhs h.exact s) g L)
    (hg : ∀ i, |g i| ≤ 2 ^ (160 : ℤ)) :
    Scale N mu M (vlen g) (vlen (rowMat h.exact s *ᵥ x - rowRhs h.exact s)) L := by
  have u0 := ulp_pos
  have N1 := S.N_ge
  have N2 := S.N_le
  have X1 := S.X_ge
  have mu0 := S.mu_pos
  have muM := S.mu_le
  have M0 := S.M_pos
  have t0 := tol_pos mu0 muM
  have t1 := tol_mul mu0 muM
  have t2 := S.tol_ge
  have E := R.eps
  have nle := S.n_le
  have st := fun α => b.step_ge (α := α) mu0 muM
  obtain ⟨pos, a_pos, a_ge, a_le, -, -, -, loss, nonneg⟩ := b
  generalize vlen (rowMat h.exact s *ᵥ x - rowRhs h.exact s) = r at *
  have ua : ulp = 1 / 9007199254740992 := ulp_eq
  have sN : 1 ≤ Real.sqrt N := by rw [Real.one_le_sqrt]; exact N1
  have tu : ulp ≤ tol mu M / 2048 := by
    have : ulp * 1 ≤ ulp * N ^ 2 := mul_le_mul_of_nonneg_left (by nlinarith) u0.le
    norm_num at t2; linarith
  -- the residual
  have r1 : 8 * ulp ≤ tol mu M * r := by
    refine le_trans ?_ E
    unfold epsOf
    have : 1 * ulp * 1 ≤ Real.sqrt N * ulp * X := by gcongr
    linarith
  have r2 : 8 * ulp * 4096 * (1 + M) ≤ mu * r := by
    calc 8 * ulp * 4096 * (1 + M) = 8 * ulp * (4096 * (1 + M)) := by ring
      _ ≤ tol mu M * r * (4096 * (1 + M)) := mul_le_mul_of_nonneg_right r1 (by linarith)
      _ = tol mu M * (4096 * (1 + M)) * r := by ring
      _ = mu * r := by rw [t1]
  have r3 : 2 ^ (-38 : ℤ) ≤ r := by
    have : 2 ^ (-38 : ℤ) * (1 + M) ≤ r * (1 + M) := by
      calc 2 ^ (-38 : ℤ) * (1 + M) = 8 * ulp * 4096 * (1 + M) := by rw [ua]; norm_num
        _ ≤ mu * r := r2
        _ ≤ (1 + M) * r := mul_le_mul_of_nonneg_right (by linarith) pos.le
        _ = _ := by ring
    exact le_of_mul_le_mul_right this (by linarith)
  have smu := Real.mul_self_sqrt mu0.le
  have smu0 := Real.sqrt_pos.2 mu0
  have r4 : 0.999 * (mu * r ^ 2) ≤ vlen g ^ 2 := by
    calc 0.999 * (mu * r ^ 2) ≤ (0.9996 * (Real.sqrt mu * r)) ^ 2 := by
          rw [mul_pow, mul_pow, sq (Real.sqrt mu), smu]
          have : 0 ≤ mu * r ^ 2 := by positivity
          norm_num; linarith
      _ ≤ _ := pow_le_pow_left₀ (by positivity) a_ge 2
  have r5 : 2 ^ (-76 : ℤ) ≤ mu * r ^ 2 := by
    have h1 : 2 ^ (-38 : ℤ) ≤ mu * r := by
      refine le_trans ?_ r2
      rw [ua]
      have : (2 : ℝ) ^ (-38 : ℤ) = 8 * (1 / 9007199254740992) * 4096 * 1 := by norm_num
      rw [this]
      exact mul_le_mul_of_nonneg_left (by linarith) (by norm_num)
    calc (2 : ℝ) ^ (-76 : ℤ) = 2 ^ (-38 : ℤ) * 2 ^ (-38 : ℤ) := by norm_num
      _ ≤ mu * r * r := mul_le_mul h1 r3 (by positivity) (by positivity)
      _ = _ := by ring
  have ag : 1e-24 ≤ vlen g ^ 2 := by
    refine le_trans ?_ r4
    norm_num at r5 ⊢
    linarith
  have al : vlen g ^ 2 ≤ 2 ^ (336 : ℤ) := by
    have h1 := vlen_le_of_abs g (b := 2 ^ (160 : ℤ)) (by positivity) hg
    have h2 : vlen g ^ 2 ≤ (Real.sqrt (getNDofs h.exact s) * 2 ^ (160 : ℤ)) ^ 2 := pow_le_pow_left₀ (vlen_nonneg g) h1 2
    refine h2.trans ?_
    rw [mul_pow, Real.sq_sqrt (Nat.cast_nonneg _), ← zpow_natCast, ← _root_.zpow_mul]
    calc (getNDofs h.exact s : ℝ) * 2 ^ ((160 : ℤ) * (2 : ℕ)) ≤ 2 ^ (15 : ℤ) * 2 ^ (320 : ℤ) := by
          refine mul_le_mul (nle.trans (N2.trans (by norm_num))) (by norm_num) (by positivity) (by positivity)
      _ = 2 ^ (335 : ℤ) := by rw [two_mul_two]; norm_num
      _ ≤ _ := two_le (by norm_num)
  -- the loss
  have lt4 := (tol_facts mu0 muM).2.2
  have s2 : Real.sqrt (2 * L) ≤ 1.001 * r := by
    have h1 := (abs_le.1 loss).2
    have h2 : tol mu M * r ≤ 1 / 4096 * r := mul_le_mul_of_nonneg_right lt4 pos.le
    linarith
  have L2 : L ≤ 0.51 * r ^ 2 := by
    have h1 := Real.sq_sqrt (show 0 ≤ 2 * L by linarith)
    have h2 := pow_le_pow_left₀ (Real.sqrt_nonneg (2 * L)) s2 2
    rw [h1] at h2
    nlinarith
  have mulo : 4e-4 ≤ mu := by
    have := S.lo
    norm_num at this ⊢
    linarith
  refine ⟨ag, al.trans (two_le (by norm_num)), ?_, ?_, ?_, ?_, ?_⟩
  · have h1 : 4e-4 * r ^ 2 ≤ mu * r ^ 2 := mul_le_mul_of_nonneg_right mulo (sq_nonneg r)
    have h2 : L ≤ 2 ^ (12 : ℤ) * vlen g ^ 2 := by
      norm_num
      norm_num at h1 r4 L2
      nlinarith
    refine h2.trans ((mul_le_mul_of_nonneg_left al (by positivity)).trans ?_)
    rw [two_mul_two]
    exact two_le (by norm_num)
  · intro α hα
    have h1 := st α hα
    have h2 : ulp * L ≤ tol mu M / 2048 * (0.51 * r ^ 2) := mul_le_mul tu L2 nonneg (by linarith)
    have h3 : 0 ≤ tol mu M * r ^ 2 := by positivity
    norm_num at *
    nlinarith
  · have h1 : N * Real.sqrt M ≤ 2 ^ 15 * Real.sqrt mu := by
      have sM := Real.mul_self_sqrt M0.le
      apply le_of_sq_le_sq _ (by positivity)
      rw [mul_pow, mul_pow, Real.sq_sqrt M0.le, Real.sq_sqrt mu0.le]
      have := S.small
      norm_num at this ⊢
      nlinarith [sq_nonneg N]
    have h2 : N * Real.sqrt M * r * vlen g ≤ 2 ^ 15 * (Real.sqrt mu * r) * vlen g := by
      have := mul_le_mul_of_nonneg_right (mul_le_mul_of_nonneg_right h1 pos.le) a_pos.le
      linarith
    have h3 : Real.sqrt mu * r * vlen g ≤ 1.01 * vlen g * vlen g := by
      refine mul_le_mul_of_nonneg_right ?_ a_pos.le
      linarith
    rw [ua]
    norm_num at h2 h3 ⊢
    nlinarith
  · have h1 : (2 : ℝ) ^ (-1074 : ℤ) ≤ 1e-50 := (two_le (show (-1074 : ℤ) ≤ -200 by norm_num)).trans (by norm_num)
    have h0 : (0 : ℝ) < 2 ^ (-1074 : ℤ) := by positivity
    generalize (2 : ℝ) ^ (-1074 : ℤ) = δ at *
    have h2 : N * δ ≤ 2 ^ 15 * 1e-50 := mul_le_mul N2 h1 h0.le (by norm_num)
    have h3 : N * (vlen g * vlen g) ≤ 2 ^ 15 * (vlen g * vlen g) := mul_le_mul_of_nonneg_right N2 (by positivity)
    rw [ua]
    norm_num at *
    nlinarith
  · have h1 : (2 : ℝ) ^ (-1074 : ℤ) ≤ 1e-50 := (two_le (show (-1074 : ℤ) ≤ -200 by norm_num)).trans (by norm_num)
    have h0 : (0 : ℝ) < 2 ^ (-1074 : ℤ) := by positivity
    generalize (2 : ℝ) ^ (-1074 : ℤ) = δ at *
    have h2 : N * δ ≤ 2 ^ 15 * 1e-50 := mul_le_mul N2 h1 h0.le (by norm_num)
    norm_num at *
    linarith

end Isotope
