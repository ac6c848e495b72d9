import Mathlib.Analysis.Calculus.ContDiff.RCLike
import Mathlib.Analysis.Calculus.ContDiff.Comp
import Mathlib.Analysis.InnerProductSpace.Basic
import Mathlib.Tactic.Positivity
import Mathlib.Tactic.Linarith
import Mathlib.Tactic.FieldSimp

/-!
# Half a sum of squares near a zero

Near a zero of a smooth function `r` the function `|r|² / 2` and its gradient behave along the gradient like those of a parabola.
-/

namespace Isotope.Local
open scoped Topology RealInnerProductSpace
open Metric

variable {E F : Type} [NormedAddCommGroup E] [InnerProductSpace ℝ E] [NormedAddCommGroup F] [InnerProductSpace ℝ F]

/-- `r` and its derivative are within `ε` of the linear map `A` on the ball, and `g` is the gradient of `|r|² / 2` there -/
structure Near (r : E → F) (g : E → E) (A : E →L[ℝ] F) (z : E) (ε δ : ℝ) : Prop where
  strict : ∀ v ∈ ball z δ, ∀ w ∈ ball z δ, ‖r v - r w - A (v - w)‖ ≤ ε * ‖v - w‖
  deriv : ∀ v ∈ ball z δ, ∀ w, ‖fderiv ℝ r v w - A w‖ ≤ ε * ‖w‖
  grad : ∀ v ∈ ball z δ, ∀ w, ⟪g v, w⟫ = ⟪r v, fderiv ℝ r v w⟫

variable {r : E → F} {g : E → E} {z : E}

theorem exists_near (hr : ContDiffAt ℝ 1 r z) (hg : ∀ᶠ v in 𝓝 z, ∀ w, ⟪g v, w⟫ = ⟪r v, fderiv ℝ r v w⟫) {ε : ℝ} (hε : 0 < ε) :
    ∃ δ > 0, Near r g (fderiv ℝ r z) z ε δ := by
  have h1 := (hr.hasStrictFDerivAt one_ne_zero).isLittleO.def hε
  obtain ⟨d1, k1, h1⟩ := eventually_nhds_iff_ball.1 h1
  have h2 : ∀ᶠ v in 𝓝 z, ‖fderiv ℝ r v - fderiv ℝ r z‖ < ε := by
    have := (hr.continuousAt_fderiv one_ne_zero).eventually (ball_mem_nhds _ hε)
    filter_upwards [this] with v hv
    rwa [← dist_eq_norm]
  obtain ⟨d2, k2, h2⟩ := eventually_nhds_iff_ball.1 h2
  obtain ⟨d3, k3, h3⟩ := eventually_nhds_iff_ball.1 hg
  refine ⟨min d1 (min d2 d3), lt_min k1 (lt_min k2 k3), ?_, ?_, ?_⟩
  · intro v hv w hw
    refine h1 (v, w) ?_
    rw [← ball_prod_same]
    exact ⟨ball_subset_ball (min_le_left _ _) hv, ball_subset_ball (min_le_left _ _) hw⟩
  · intro v hv w
    have := h2 v (ball_subset_ball ((min_le_right _ _).trans (min_le_left _ _)) hv)
    calc ‖fderiv ℝ r v w - fderiv ℝ r z w‖ = ‖(fderiv ℝ r v - fderiv ℝ r z) w‖ := rfl
      _ ≤ ‖fderiv ℝ r v - fderiv ℝ r z‖ * ‖w‖ := ContinuousLinearMap.le_opNorm _ _
      _ ≤ ε * ‖w‖ := mul_le_mul_of_nonneg_right this.le (norm_nonneg _)
  · intro v hv
    exact h3 v (ball_subset_ball ((min_le_right _ _).trans (min_le_right _ _)) hv)

variable {A : E →L[ℝ] F} {ε δ σ K : ℝ}

/-- the gradient is large where the residual is -/
theorem Near.grad_ge (n : Near r g A z ε δ) (hε : 0 ≤ ε) (hσ : 0 < σ) {v v0 : E} (hv : v ∈ ball z δ) (hv0 : v0 ∈ ball z δ) (h0 : r v0 = 0)
    (hl : σ * ‖v - v0‖ ≤ ‖r v‖) : (σ - 2 * ε) * ‖r v‖ ≤ ‖g v‖ := by
  have e1 := n.strict v hv v0 hv0
  have e2 := n.deriv v hv (v - v0)
  have e3 := n.grad v hv (v - v0)
  rw [h0, sub_zero] at e1
  have e4 : ‖fderiv ℝ r v (v - v0) - r v‖ ≤ 2 * ε * ‖v - v0‖ := by
    calc ‖fderiv ℝ r v (v - v0) - r v‖ = ‖(fderiv ℝ r v (v - v0) - A (v - v0)) - (r v - A (v - v0))‖ := by congr 1; abel
      _ ≤ _ := norm_sub_le _ _
      _ ≤ 2 * ε * ‖v - v0‖ := by linarith
  have e5 : ⟪g v, v - v0⟫ = ‖r v‖ ^ 2 + ⟪r v, fderiv ℝ r v (v - v0) - r v⟫ := by
    rw [e3, inner_sub_right, real_inner_self_eq_norm_sq]; ring
  have e6 := (abs_le.1 (abs_real_inner_le_norm (r v) (fderiv ℝ r v (v - v0) - r v))).1
  have e7 := (abs_le.1 (abs_real_inner_le_norm (g v) (v - v0))).2
  have e8 : ‖r v‖ * ‖fderiv ℝ r v (v - v0) - r v‖ ≤ ‖r v‖ * (2 * ε * ‖v - v0‖) := mul_le_mul_of_nonneg_left e4 (norm_nonneg _)
  have n1 := norm_nonneg (r v)
  have n2 := norm_nonneg (v - v0)
  have n3 := norm_nonneg (g v)
  have key : ‖r v‖ ^ 2 ≤ (‖g v‖ + 2 * ε * ‖r v‖) * ‖v - v0‖ := by nlinarith
  have key2 : σ * ‖r v‖ ^ 2 ≤ (‖g v‖ + 2 * ε * ‖r v‖) * ‖r v‖ := by
    calc σ * ‖r v‖ ^ 2 ≤ σ * ((‖g v‖ + 2 * ε * ‖r v‖) * ‖v - v0‖) := mul_le_mul_of_nonneg_left key hσ.le
      _ = (‖g v‖ + 2 * ε * ‖r v‖) * (σ * ‖v - v0‖) := by ring
      _ ≤ _ := mul_le_mul_of_nonneg_left hl (by positivity)
  rcases n1.eq_or_lt with h | h
  · rw [← h, mul_zero]; exact n3
  · have : σ * ‖r v‖ ≤ ‖g v‖ + 2 * ε * ‖r v‖ := le_of_mul_le_mul_right (by nlinarith) h
    linarith

theorem Near.grad_le (n : Near r g A z ε δ) (hε : 0 ≤ ε) (hK : 0 ≤ K) (hA : ∀ w, ‖A w‖ ≤ K * ‖w‖) {v : E} (hv : v ∈ ball z δ) :
    ‖g v‖ ≤ (K + ε) * ‖r v‖ := by
  have e1 : ‖fderiv ℝ r v (g v)‖ ≤ (K + ε) * ‖g v‖ := by
    calc ‖fderiv ℝ r v (g v)‖ = ‖(fderiv ℝ r v (g v) - A (g v)) + A (g v)‖ := by congr 1; abel
      _ ≤ _ := norm_add_le _ _
      _ ≤ _ := by linarith [n.deriv v hv (g v), hA (g v)]
  have e2 : ‖g v‖ ^ 2 ≤ ‖r v‖ * ‖fderiv ℝ r v (g v)‖ := by
    rw [← real_inner_self_eq_norm_sq, n.grad v hv]
    exact real_inner_le_norm _ _
  have n1 := norm_nonneg (r v)
  have n3 := norm_nonneg (g v)
  rcases n3.eq_or_lt with h | h
  · rw [← h]; positivity
  · exact le_of_mul_le_mul_right (by nlinarith [mul_le_mul_of_nonneg_left e1 n1]) h

/-- the residual bends along the gradient -/
theorem Near.bend_ge (n : Near r g A z ε δ) {v : E} (hv : v ∈ ball z δ) (hσ : 0 < σ) (hl : σ * ‖r v‖ ≤ ‖g v‖) :
    (σ - ε) * ‖g v‖ ≤ ‖A (g v)‖ := by
  have e0 := n.deriv v hv (g v)
  have e1 : ‖fderiv ℝ r v (g v)‖ ≤ ε * ‖g v‖ + ‖A (g v)‖ := by
    calc ‖fderiv ℝ r v (g v)‖ = ‖(fderiv ℝ r v (g v) - A (g v)) + A (g v)‖ := by congr 1; abel
      _ ≤ _ := norm_add_le _ _
      _ ≤ _ := by linarith
  have e2 : ‖g v‖ ^ 2 ≤ ‖r v‖ * ‖fderiv ℝ r v (g v)‖ := by
    rw [← real_inner_self_eq_norm_sq, n.grad v hv]
    exact real_inner_le_norm _ _
  have n1 := norm_nonneg (fderiv ℝ r v (g v))
  have n3 := norm_nonneg (g v)
  rcases n3.eq_or_lt with h | h
  · rw [← h, mul_zero]; exact norm_nonneg _
  · have e3 : σ * ‖g v‖ ^ 2 ≤ ‖g v‖ * ‖fderiv ℝ r v (g v)‖ := by
      calc σ * ‖g v‖ ^ 2 ≤ σ * (‖r v‖ * ‖fderiv ℝ r v (g v)‖) := mul_le_mul_of_nonneg_left e2 hσ.le
        _ = (σ * ‖r v‖) * ‖fderiv ℝ r v (g v)‖ := by ring
        _ ≤ _ := mul_le_mul_of_nonneg_right hl n1
    have e4 : σ * ‖g v‖ ≤ ‖fderiv ℝ r v (g v)‖ := le_of_mul_le_mul_left (by nlinarith) h
    linarith

/-- the inner product of the residual with its linearised change along the gradient -/
theorem Near.cross (n : Near r g A z ε δ) {v : E} (hv : v ∈ ball z δ) : |⟪r v, A (g v)⟫ - ‖g v‖ ^ 2| ≤ ε * ‖r v‖ * ‖g v‖ := by
  have : ⟪r v, A (g v)⟫ - ‖g v‖ ^ 2 = -⟪r v, fderiv ℝ r v (g v) - A (g v)⟫ := by
    rw [← real_inner_self_eq_norm_sq, n.grad v hv, inner_sub_right]; ring
  rw [this, abs_neg]
  refine (abs_real_inner_le_norm _ _).trans ?_
  have := mul_le_mul_of_nonneg_left (n.deriv v hv (g v)) (norm_nonneg (r v))
  linarith

variable {T : ℝ}

/-- half the squared residual along the gradient -/
theorem Near.loss (n : Near r g A z ε δ) (hε : 0 ≤ ε) (hσ : 0 < σ) (hK : 0 ≤ K) (hA : ∀ w, ‖A w‖ ≤ K * ‖w‖) {v : E} (hv : v ∈ ball z δ)
    (hl : σ * ‖r v‖ ≤ ‖g v‖) {a : ℝ} (ha : 0 ≤ a) (haT : a ≤ T) (hw : v - a • g v ∈ ball z δ) :
    |‖r (v - a • g v)‖ ^ 2 - (‖r v‖ ^ 2 - 2 * a * ‖g v‖ ^ 2 + a ^ 2 * ‖A (g v)‖ ^ 2)| ≤
      a * ε * (4 / σ + 2 * T * K + T * ε) * ‖g v‖ ^ 2 := by
  have hs := n.strict _ hw v hv
  have e0 : v - a • g v - v = -(a • g v) := by abel
  rw [e0, norm_neg, norm_smul, Real.norm_of_nonneg ha, map_neg, map_smul] at hs
  obtain ⟨e, he⟩ : ∃ e, e = r (v - a • g v) - r v - -(a • A (g v)) := ⟨_, rfl⟩
  rw [← he] at hs
  have er : r (v - a • g v) = (r v - a • A (g v)) + e := by rw [he]; abel
  have x1 : ‖r (v - a • g v)‖ ^ 2 = ‖r v - a • A (g v)‖ ^ 2 + 2 * ⟪r v - a • A (g v), e⟫ + ‖e‖ ^ 2 := by
    rw [er, norm_add_sq_real]
  have x2 : ‖r v - a • A (g v)‖ ^ 2 = ‖r v‖ ^ 2 - 2 * a * ⟪r v, A (g v)⟫ + a ^ 2 * ‖A (g v)‖ ^ 2 := by
    rw [norm_sub_sq_real, inner_smul_right, norm_smul, Real.norm_of_nonneg ha]; ring
  have c := abs_le.1 (n.cross hv)
  have c2 := abs_le.1 (abs_real_inner_le_norm (r v - a • A (g v)) e)
  have c3 : ‖r v - a • A (g v)‖ ≤ ‖r v‖ + a * (K * ‖g v‖) := by
    refine (norm_sub_le _ _).trans ?_
    rw [norm_smul, Real.norm_of_nonneg ha]
    have := mul_le_mul_of_nonneg_left (hA (g v)) ha
    linarith
  have hR : ‖r v‖ ≤ ‖g v‖ / σ := by rw [le_div_iff₀ hσ]; linarith
  have n1 := norm_nonneg (r v)
  have n2 := norm_nonneg (g v)
  have n3 := norm_nonneg e
  have c4 : ‖r v - a • A (g v)‖ * ‖e‖ ≤ (‖r v‖ + a * (K * ‖g v‖)) * (ε * (a * ‖g v‖)) :=
    mul_le_mul c3 hs n3 (by positivity)
  have c5 : ‖e‖ ^ 2 ≤ (ε * (a * ‖g v‖)) ^ 2 := pow_le_pow_left₀ n3 hs 2
  rw [x1, x2]
  generalize ‖r v‖ = P at *
  generalize ‖g v‖ = G at *
  generalize ‖r v - a • A (g v)‖ * ‖e‖ = Q at *
  have b1 : a * ε * G * P ≤ a * ε * G * (G / σ) := mul_le_mul_of_nonneg_left hR (by positivity)
  have b2 : a * (a * ε * K * G ^ 2) ≤ T * (a * ε * K * G ^ 2) := mul_le_mul_of_nonneg_right haT (by positivity)
  have b3 : a * (a * ε ^ 2 * G ^ 2) ≤ T * (a * ε ^ 2 * G ^ 2) := mul_le_mul_of_nonneg_right haT (by positivity)
  have b4 : a * ε * (4 / σ + 2 * T * K + T * ε) * G ^ 2 =
      4 * (a * ε * G * (G / σ)) + 2 * (T * (a * ε * K * G ^ 2)) + T * (a * ε ^ 2 * G ^ 2) := by ring
  rw [b4]
  have d1 : 2 * a * (⟪r v, A (g v)⟫ - G ^ 2) ≤ 2 * a * (ε * P * G) := mul_le_mul_of_nonneg_left c.2 (by positivity)
  have d2 : 2 * a * -(ε * P * G) ≤ 2 * a * (⟪r v, A (g v)⟫ - G ^ 2) := mul_le_mul_of_nonneg_left c.1 (by positivity)
  have n4 := sq_nonneg ‖e‖
  rw [abs_le]
  constructor
  · nlinarith
  · nlinarith

/-- the slope along the gradient -/
theorem Near.slope (n : Near r g A z ε δ) (hε : 0 ≤ ε) (hσ : 0 < σ) (hK : 0 ≤ K) (hA : ∀ w, ‖A w‖ ≤ K * ‖w‖) {v : E} (hv : v ∈ ball z δ)
    (hl : σ * ‖r v‖ ≤ ‖g v‖) {a : ℝ} (ha : 0 ≤ a) (haT : a ≤ T) (hw : v - a • g v ∈ ball z δ) :
    |⟪g (v - a • g v), g v⟫ - (‖g v‖ ^ 2 - a * ‖A (g v)‖ ^ 2)| ≤ ε * (4 / σ + 2 * T * K + T * ε) * ‖g v‖ ^ 2 := by
  have hs := n.strict _ hw v hv
  have e0 : v - a • g v - v = -(a • g v) := by abel
  rw [e0, norm_neg, norm_smul, Real.norm_of_nonneg ha, map_neg, map_smul] at hs
  obtain ⟨e, he⟩ : ∃ e, e = r (v - a • g v) - r v - -(a • A (g v)) := ⟨_, rfl⟩
  rw [← he] at hs
  have er : r (v - a • g v) = (r v - a • A (g v)) + e := by rw [he]; abel
  have hd := n.deriv _ hw (g v)
  obtain ⟨f, hf⟩ : ∃ f, f = fderiv ℝ r (v - a • g v) (g v) - A (g v) := ⟨_, rfl⟩
  rw [← hf] at hd
  have ef : fderiv ℝ r (v - a • g v) (g v) = A (g v) + f := by rw [hf]; abel
  rw [n.grad _ hw, ef, er]
  have x1 : ⟪r v - a • A (g v) + e, A (g v) + f⟫ =
      ⟪r v, A (g v)⟫ - a * ‖A (g v)‖ ^ 2 + ⟪r v - a • A (g v), f⟫ + ⟪e, A (g v) + f⟫ := by
    rw [inner_add_left, inner_add_right, inner_sub_left, inner_smul_left, real_inner_self_eq_norm_sq]
    simp
  have c := abs_le.1 (n.cross hv)
  have c3 : ‖r v - a • A (g v)‖ ≤ ‖r v‖ + a * (K * ‖g v‖) := by
    refine (norm_sub_le _ _).trans ?_
    rw [norm_smul, Real.norm_of_nonneg ha]
    have := mul_le_mul_of_nonneg_left (hA (g v)) ha
    linarith
  have c4 : ‖A (g v) + f‖ ≤ K * ‖g v‖ + ε * ‖g v‖ := (norm_add_le _ _).trans (add_le_add (hA _) hd)
  have hR : ‖r v‖ ≤ ‖g v‖ / σ := by rw [le_div_iff₀ hσ]; linarith
  have n1 := norm_nonneg (r v)
  have n2 := norm_nonneg (g v)
  have c5 : ‖r v - a • A (g v)‖ * ‖f‖ ≤ (‖r v‖ + a * (K * ‖g v‖)) * (ε * ‖g v‖) :=
    mul_le_mul c3 hd (norm_nonneg _) (by positivity)
  have c6 : ‖e‖ * ‖A (g v) + f‖ ≤ (ε * (a * ‖g v‖)) * (K * ‖g v‖ + ε * ‖g v‖) :=
    mul_le_mul hs c4 (norm_nonneg _) (by positivity)
  have c7 := abs_le.1 (abs_real_inner_le_norm (r v - a • A (g v)) f)
  have c8 := abs_le.1 (abs_real_inner_le_norm e (A (g v) + f))
  rw [x1]
  generalize ‖r v‖ = P at *
  generalize ‖g v‖ = G at *
  generalize ‖r v - a • A (g v)‖ * ‖f‖ = Q at *
  generalize ‖e‖ * ‖A (g v) + f‖ = Q' at *
  have b1 : ε * G * P ≤ ε * G * (G / σ) := mul_le_mul_of_nonneg_left hR (by positivity)
  have b2 : a * (ε * K * G ^ 2) ≤ T * (ε * K * G ^ 2) := mul_le_mul_of_nonneg_right haT (by positivity)
  have b3 : a * (ε ^ 2 * G ^ 2) ≤ T * (ε ^ 2 * G ^ 2) := mul_le_mul_of_nonneg_right haT (by positivity)
  have b4 : ε * (4 / σ + 2 * T * K + T * ε) * G ^ 2 =
      4 * (ε * G * (G / σ)) + 2 * (T * (ε * K * G ^ 2)) + T * (ε ^ 2 * G ^ 2) := by ring
  rw [b4]
  have b5 : 0 ≤ ε * G * P := by positivity
  rw [abs_le]
  constructor
  · nlinarith
  · nlinarith

/-- Near a zero, along the gradient, half the squared residual is a parabola up to a relative error `η`. -/
theorem exists_tame (hr : ContDiffAt ℝ 1 r z) (h0 : r z = 0) (hg : ∀ᶠ v in 𝓝 z, ∀ w, ⟪g v, w⟫ = ⟪r v, fderiv ℝ r v w⟫)
    {σ' η : ℝ} (hσ' : 0 < σ') (hσ : σ' < σ) (hK : 0 ≤ K) (hT : 0 ≤ T) (hη : 0 < η)
    (hlow : ∀ U ∈ 𝓝 z, ∀ᶠ v in 𝓝 z, ∃ v0 ∈ U, r v0 = 0 ∧ σ * ‖v - v0‖ ≤ ‖r v‖)
    (hhigh : ∀ᶠ v in 𝓝 z, ‖r v‖ ≤ K * ‖v - z‖) :
    ∃ δ > 0, ∀ v ∈ ball z δ, σ' * ‖r v‖ ≤ ‖g v‖ ∧ ‖g v‖ ≤ (K + 1) * ‖r v‖ ∧
      σ' * ‖g v‖ ≤ ‖fderiv ℝ r z (g v)‖ ∧ ‖fderiv ℝ r z (g v)‖ ≤ K * ‖g v‖ ∧
      ∀ a, 0 ≤ a → a ≤ T → v - a • g v ∈ ball z δ →
        |‖r (v - a • g v)‖ ^ 2 - (‖r v‖ ^ 2 - 2 * a * ‖g v‖ ^ 2 + a ^ 2 * ‖fderiv ℝ r z (g v)‖ ^ 2)| ≤ a * η * ‖g v‖ ^ 2 ∧
        |⟪g (v - a • g v), g v⟫ - (‖g v‖ ^ 2 - a * ‖fderiv ℝ r z (g v)‖ ^ 2)| ≤ η * ‖g v‖ ^ 2 := by
  have hA : ∀ w, ‖fderiv ℝ r z w‖ ≤ K * ‖w‖ := by
    have hd : HasFDerivAt r (fderiv ℝ r z) z := (hr.differentiableAt one_ne_zero).hasFDerivAt
    have hn := hd.le_of_lip' hK (by simpa [h0] using hhigh)
    exact fun w => (ContinuousLinearMap.le_opNorm _ _).trans (mul_le_mul_of_nonneg_right hn (norm_nonneg _))
  obtain ⟨C, hC⟩ : ∃ C, C = 4 / σ' + 2 * T * K + T := ⟨_, rfl⟩
  have hCp : 0 < C := by rw [hC]; positivity
  obtain ⟨ε, hε, e1, e2, e3⟩ : ∃ ε > 0, ε ≤ 1 ∧ 3 * ε ≤ σ - σ' ∧ ε * C ≤ η := by
    refine ⟨min 1 (min ((σ - σ') / 3) (η / C)), ?_, min_le_left _ _, ?_, ?_⟩
    · have : 0 < (σ - σ') / 3 := by linarith
      positivity
    · have := (min_le_right 1 (min ((σ - σ') / 3) (η / C))).trans (min_le_left _ _)
      linarith
    · have := (min_le_right 1 (min ((σ - σ') / 3) (η / C))).trans (min_le_right _ _)
      rwa [le_div_iff₀ hCp] at this
  obtain ⟨d1, k1, n⟩ := exists_near hr hg hε
  obtain ⟨d2, k2, hl⟩ := eventually_nhds_iff_ball.1 (hlow _ (ball_mem_nhds z k1))
  have hsub : ∀ v ∈ ball z (min d1 d2), v ∈ ball z d1 := fun v hv => ball_subset_ball (min_le_left _ _) hv
  refine ⟨min d1 d2, lt_min k1 k2, fun v hv => ?_⟩
  obtain ⟨v0, m0, z0, l0⟩ := hl v (ball_subset_ball (min_le_right _ _) hv)
  have hσp : 0 < σ := hσ'.trans hσ
  have n1 := norm_nonneg (r v)
  have n2 := norm_nonneg (g v)
  have g1 := n.grad_ge hε.le hσp (hsub v hv) m0 z0 l0
  have g2 := n.grad_le hε.le hK hA (hsub v hv)
  have g3 : σ' * ‖r v‖ ≤ ‖g v‖ := (mul_le_mul_of_nonneg_right (by linarith) n1).trans g1
  have g4 := n.bend_ge (hsub v hv) (by linarith) g1
  refine ⟨g3, g2.trans (mul_le_mul_of_nonneg_right (by linarith) n1), (mul_le_mul_of_nonneg_right (by linarith) n2).trans g4, hA _,
    fun a ha haT hw => ⟨?_, ?_⟩⟩
  · refine (n.loss hε.le hσ' hK hA (hsub v hv) g3 ha haT (hsub _ hw)).trans ?_
    refine mul_le_mul_of_nonneg_right ?_ (sq_nonneg _)
    rw [mul_assoc]
    refine mul_le_mul_of_nonneg_left (le_trans (mul_le_mul_of_nonneg_left ?_ hε.le) e3) ha
    rw [hC]
    nlinarith
  · refine (n.slope hε.le hσ' hK hA (hsub v hv) g3 ha haT (hsub _ hw)).trans ?_
    refine mul_le_mul_of_nonneg_right (le_trans (mul_le_mul_of_nonneg_left ?_ hε.le) e3) (sq_nonneg _)
    rw [hC]
    nlinarith

end Isotope.Local
