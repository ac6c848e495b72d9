import Verif.Lemmas.Local
import Verif.Lemmas.LocalGD

/-!
# Near a solution without degenerate constraints the loss of a sketch is tame
-/

namespace Isotope
open XR
open Matrix
open scoped Topology RealInnerProductSpace
open Metric

variable {h : Heap XR} {s : Sketch}

theorem inner_toLp {n : Nat} (x y : Fin n → ℝ) : ⟪(WithLp.toLp 2 x : EuclideanSpace ℝ (Fin n)), WithLp.toLp 2 y⟫ = x ⬝ᵥ y := by
  rw [EuclideanSpace.inner_toLp_toLp, dotProduct_comm]
  simp

theorem len_sub {n : Nat} (x z : Fin n → ℝ) : len (x - z) = dist (WithLp.toLp 2 x : EuclideanSpace ℝ (Fin n)) (WithLp.toLp 2 z) := by
  rw [dist_eq_norm]; rfl

/-- a statement about all vectors that are coordinatewise near -/
theorem eventually_of_coords {n : Nat} {z : Fin n → ℝ} {P : (Fin n → ℝ) → Prop} (hP : ∃ δ > 0, ∀ v, (∀ i, |v i - z i| < δ) → P v) :
    ∀ᶠ v in 𝓝 (WithLp.toLp 2 z : EuclideanSpace ℝ (Fin n)), P v.ofLp := by
  obtain ⟨δ, hδ, hP⟩ := hP
  have hcont : ContinuousAt (fun v : EuclideanSpace ℝ (Fin n) => v.ofLp) (WithLp.toLp 2 z) :=
    (PiLp.continuous_ofLp 2 _).continuousAt
  filter_upwards [hcont.eventually (ball_mem_nhds z hδ)] with v hv
  refine hP _ fun i => ?_
  rw [← Real.dist_eq]
  exact lt_of_le_of_lt (dist_le_pi_dist _ _ i) hv

theorem coords_of_eventually {n : Nat} {z : Fin n → ℝ} {P : (Fin n → ℝ) → Prop}
    (hP : ∀ᶠ v in 𝓝 (WithLp.toLp 2 z : EuclideanSpace ℝ (Fin n)), P v.ofLp) : ∃ δ > 0, ∀ v, (∀ i, |v i - z i| < δ) → P v := by
  have hcont : ContinuousAt (fun v : Fin n → ℝ => (WithLp.toLp 2 v : EuclideanSpace ℝ (Fin n))) z :=
    (PiLp.continuous_toLp 2 _).continuousAt
  obtain ⟨δ, hδ, hb⟩ := eventually_nhds_iff_ball.1 (hcont.eventually hP)
  refine ⟨δ, hδ, fun v hv => hb v ?_⟩
  rw [mem_ball, dist_pi_lt_iff hδ]
  intro i
  rw [Real.dist_eq]
  exact hv i

theorem exists_sketch_tame (hn : s.cells.Nodup) (hc : Closed ⟨h, s⟩) (hf : FiniteSketch h s) {z : Fin (getNDofs h s) → ℝ}
    (hz : lossAfter h s z = 0) (hs : SafeAt h s z) {mu mu' M η : ℝ} (w : SqueezedNear h s z mu M) (hmu : 0 < mu') (hmu' : mu' < mu)
    (hM : 0 ≤ M) (hη : 0 < η) :
    ∃ δ > 0, ∃ B, 0 ≤ B ∧ Tame (lossAfter h s) (gradAt h s) z δ mu' M B η ∧ (∀ x, len (x - z) < δ → Good h s x) ∧
      ∀ e > 0, ∀ C, 0 ≤ C → ∃ d > 0, ∀ v, (∀ i, |v i - z i| < d) → len (v - z) + C * Real.sqrt (lossAfter h s v) < e := by
  obtain ⟨m, r, cr, er⟩ := exists_sketch_resid hn hc hf hs.good
  set Z : EuclideanSpace ℝ (Fin (getNDofs h s)) := WithLp.toLp 2 z with eZ
  have hcont : ContinuousAt (fun v : EuclideanSpace ℝ (Fin (getNDofs h s)) => v.ofLp) Z := (PiLp.continuous_ofLp 2 _).continuousAt
  have hgood : ∀ᶠ v in 𝓝 Z, Good h s v.ofLp := hcont.eventually hs.eventually_good
  have r0 : r Z = 0 := by
    have := er.self_of_nhds
    rw [eZ] at this ⊢
    rw [show (WithLp.toLp 2 z : EuclideanSpace ℝ (Fin (getNDofs h s))).ofLp = z from rfl, hz] at this
    have h2 : ‖r (WithLp.toLp 2 z)‖ ^ 2 = 0 := by linarith
    exact norm_eq_zero.1 (pow_eq_zero_iff two_ne_zero |>.1 h2)
  -- the gradient
  have hgrad : ∀ᶠ v in 𝓝 Z, ∀ u, ⟪(WithLp.toLp 2 (gradAt h s v.ofLp) : EuclideanSpace ℝ (Fin (getNDofs h s))), u⟫ = ⟪r v, fderiv ℝ r v u⟫ := by
    have hdiff : ∀ᶠ v in 𝓝 Z, DifferentiableAt ℝ r v := by
      filter_upwards [cr.eventually (by simp)] with v hv
      exact hv.differentiableAt one_ne_zero
    filter_upwards [hgood, er.eventually_nhds, hdiff] with v g1 e1 d1 u
    have a1 : HasFDerivAt (fun v : EuclideanSpace ℝ (Fin (getNDofs h s)) => lossAfter h s v.ofLp)
        ((linForm (gradAt h s v.ofLp)).comp (PiLp.continuousLinearEquiv 2 ℝ (fun _ : Fin (getNDofs h s) => ℝ)).toContinuousLinearMap) v :=
      (hasFDerivAt_lossAfter hn hc hf g1).comp v (PiLp.continuousLinearEquiv 2 ℝ (fun _ : Fin (getNDofs h s) => ℝ)).hasFDerivAt
    have a2 : HasFDerivAt (fun v => (1 / 2 : ℝ) * ‖r v‖ ^ 2) ((1 / 2 : ℝ) • (2 • (innerSL ℝ (r v)).comp (fderiv ℝ r v))) v :=
      (d1.hasFDerivAt.norm_sq).const_mul (1 / 2)
    have a3 : (fun v : EuclideanSpace ℝ (Fin (getNDofs h s)) => lossAfter h s v.ofLp) =ᶠ[𝓝 v] fun v => (1 / 2 : ℝ) * ‖r v‖ ^ 2 := by
      filter_upwards [e1] with y hy
      rw [hy]; ring
    have a4 := congrArg (fun f : EuclideanSpace ℝ (Fin (getNDofs h s)) →L[ℝ] ℝ => f u) (a1.unique (a2.congr_of_eventuallyEq a3))
    obtain ⟨u', rfl⟩ : ∃ u', u = WithLp.toLp 2 u' := ⟨u.ofLp, rfl⟩
    rw [inner_toLp]
    simp only [ContinuousLinearMap.comp_apply, _root_.smul_apply, innerSL_apply_apply] at a4
    have a5 : (linForm (gradAt h s v.ofLp)) u' = ⟪r v, fderiv ℝ r v (WithLp.toLp 2 u')⟫ := by
      refine Eq.trans ?_ (a4.trans ?_)
      · rfl
      · simp
    rw [← a5, linForm_apply]
    rfl
  -- the bounds
  have hmup : 0 < mu := hmu.trans hmu'
  have hlow : ∀ U ∈ 𝓝 Z, ∀ᶠ v in 𝓝 Z, ∃ v0 ∈ U, r v0 = 0 ∧ Real.sqrt mu * ‖v - v0‖ ≤ ‖r v‖ := by
    intro U hU
    obtain ⟨d, hd, hb⟩ := eventually_nhds_iff_ball.1 (er.and hU)
    have hrc : ContinuousAt (fun v => ‖v - Z‖ + ‖r v‖ / Real.sqrt mu) Z :=
      ((continuousAt_id.sub continuousAt_const).norm).add (cr.continuousAt.norm.div_const _)
    have hsmall : ∀ᶠ v in 𝓝 Z, ‖v - Z‖ + ‖r v‖ / Real.sqrt mu < d := by
      refine hrc.eventually (gt_mem_nhds ?_)
      simpa [r0] using hd
    filter_upwards [eventually_of_coords w.low, er, hsmall] with v hv e1 h1
    obtain ⟨v0, z0, l0⟩ := hv
    have k1 : Real.sqrt mu * ‖v - WithLp.toLp 2 v0‖ ≤ ‖r v‖ := by
      apply le_of_sq_le_sq _ (norm_nonneg _)
      rw [mul_pow, Real.sq_sqrt hmup.le]
      have : ‖v - WithLp.toLp 2 v0‖ ^ 2 = (v.ofLp - v0) ⬝ᵥ (v.ofLp - v0) := by
        rw [← len_sq]; rfl
      rw [this]
      linarith
    have k2 : (WithLp.toLp 2 v0 : EuclideanSpace ℝ (Fin (getNDofs h s))) ∈ ball Z d := by
      rw [mem_ball, dist_eq_norm]
      have : ‖v - WithLp.toLp 2 v0‖ ≤ ‖r v‖ / Real.sqrt mu := by
        rw [le_div_iff₀ (Real.sqrt_pos.2 hmup)]; linarith
      calc ‖WithLp.toLp 2 v0 - Z‖ = ‖(v - Z) - (v - WithLp.toLp 2 v0)‖ := by congr 1; abel
        _ ≤ ‖v - Z‖ + ‖v - WithLp.toLp 2 v0‖ := norm_sub_le _ _
        _ < d := by linarith
    obtain ⟨e2, u2⟩ := hb _ k2
    refine ⟨_, u2, ?_, k1⟩
    rw [show (WithLp.toLp 2 v0 : EuclideanSpace ℝ (Fin (getNDofs h s))).ofLp = v0 from rfl, z0] at e2
    have h2 : ‖r (WithLp.toLp 2 v0)‖ ^ 2 = 0 := by linarith
    exact norm_eq_zero.1 (pow_eq_zero_iff two_ne_zero |>.1 h2)
  have hhigh : ∀ᶠ v in 𝓝 Z, ‖r v‖ ≤ Real.sqrt M * ‖v - Z‖ := by
    filter_upwards [eventually_of_coords w.high, er] with v hv e1
    apply le_of_sq_le_sq _ (by positivity)
    rw [mul_pow, Real.sq_sqrt hM]
    have : ‖v - Z‖ ^ 2 = (v.ofLp - z) ⬝ᵥ (v.ofLp - z) := by
      rw [← len_sq]; rfl
    rw [this]
    linarith
  obtain ⟨d1, k1, ht⟩ := Local.exists_tame (T := 1.5 ^ 14) cr r0 hgrad (Real.sqrt_pos.2 hmu) (Real.sqrt_lt_sqrt hmu.le hmu') (Real.sqrt_nonneg M)
    (by positivity) hη hlow hhigh
  obtain ⟨d2, k2, hb⟩ := eventually_nhds_iff_ball.1 (er.and hgood)
  have hmem : ∀ x, len (x - z) < min d1 d2 → (WithLp.toLp 2 x : EuclideanSpace ℝ (Fin (getNDofs h s))) ∈ ball Z (min d1 d2) := by
    intro x hx
    rw [mem_ball, eZ, ← len_sub]; exact hx
  have hloss : ∀ x, len (x - z) < min d1 d2 → ‖r (WithLp.toLp 2 x)‖ ^ 2 = 2 * lossAfter h s x := by
    intro x hx
    have := (hb _ (ball_subset_ball (min_le_right _ _) (hmem x hx))).1
    rw [show (WithLp.toLp 2 x : EuclideanSpace ℝ (Fin (getNDofs h s))).ofLp = x from rfl] at this
    linarith
  refine ⟨min d1 d2, lt_min k1 k2, (Real.sqrt M + 1) * Real.sqrt 2, by positivity, ⟨?_, ?_, ?_, ?_⟩, ?_, ?_⟩
  · intro x hx
    have := hloss x hx
    have := sq_nonneg ‖r (WithLp.toLp 2 x)‖
    linarith
  · intro x hx
    have h1 := (ht _ (ball_subset_ball (min_le_left _ _) (hmem x hx))).1
    have h2 := pow_le_pow_left₀ (by positivity) h1 2
    rw [mul_pow, Real.sq_sqrt hmu.le, hloss x hx] at h2
    have : ‖(WithLp.toLp 2 (gradAt h s x) : EuclideanSpace ℝ (Fin (getNDofs h s)))‖ ^ 2 = gradAt h s x ⬝ᵥ gradAt h s x := len_sq _
    rw [show (WithLp.toLp 2 x : EuclideanSpace ℝ (Fin (getNDofs h s))).ofLp = x from rfl, this] at h2
    linarith
  · intro x hx
    have h1 := (ht _ (ball_subset_ball (min_le_left _ _) (hmem x hx))).2.1
    have h3 : ‖r (WithLp.toLp 2 x)‖ = Real.sqrt 2 * Real.sqrt (lossAfter h s x) := by
      rw [← Real.sqrt_mul (by norm_num), ← hloss x hx, Real.sqrt_sq (norm_nonneg _)]
    rw [h3] at h1
    rw [mul_assoc]
    exact h1
  · intro x hx hg
    obtain ⟨-, -, h3, h4, h5⟩ := ht _ (ball_subset_ball (min_le_left _ _) (hmem x hx))
    rw [show (WithLp.toLp 2 x : EuclideanSpace ℝ (Fin (getNDofs h s))).ofLp = x from rfl] at h3 h4 h5
    have hG := dot_self_pos hg
    have en : ‖(WithLp.toLp 2 (gradAt h s x) : EuclideanSpace ℝ (Fin (getNDofs h s)))‖ ^ 2 = gradAt h s x ⬝ᵥ gradAt h s x := len_sq _
    have h3' := pow_le_pow_left₀ (by positivity) h3 2
    have h4' := pow_le_pow_left₀ (by positivity) h4 2
    rw [mul_pow, Real.sq_sqrt hmu.le, en] at h3'
    rw [mul_pow, Real.sq_sqrt hM, en] at h4'
    refine ⟨‖fderiv ℝ r Z (WithLp.toLp 2 (gradAt h s x))‖ ^ 2 / (gradAt h s x ⬝ᵥ gradAt h s x), by rwa [le_div_iff₀ hG], by rwa [div_le_iff₀ hG], ?_⟩
    intro a ha haT hy
    have ey : (WithLp.toLp 2 x : EuclideanSpace ℝ (Fin (getNDofs h s))) - a • WithLp.toLp 2 (gradAt h s x) =
        WithLp.toLp 2 (x + a • -gradAt h s x) := by
      rw [← WithLp.toLp_smul, ← WithLp.toLp_sub, smul_neg, sub_eq_add_neg]
    have h5 := h5 a ha haT
    rw [ey] at h5
    obtain ⟨j1, j2⟩ := h5 (ball_subset_ball (min_le_left _ _) (hmem _ hy))
    rw [hloss _ hy, hloss x hx, en] at j1
    rw [show (WithLp.toLp 2 (x + a • -gradAt h s x) : EuclideanSpace ℝ (Fin (getNDofs h s))).ofLp = x + a • -gradAt h s x from rfl,
      inner_toLp, en] at j2
    rw [div_mul_cancel₀ _ hG.ne']
    exact ⟨j1, j2⟩
  · intro x hx
    exact (hb _ (ball_subset_ball (min_le_right _ _) (hmem x hx))).2
  · intro e he C hC
    apply coords_of_eventually
    have hrc : ContinuousAt (fun v => ‖v - Z‖ + C * (‖r v‖ / Real.sqrt 2)) Z :=
      ((continuousAt_id.sub continuousAt_const).norm).add (continuousAt_const.mul (cr.continuousAt.norm.div_const _))
    have hsmall : ∀ᶠ v in 𝓝 Z, ‖v - Z‖ + C * (‖r v‖ / Real.sqrt 2) < e := by
      refine hrc.eventually (gt_mem_nhds ?_)
      simpa [r0] using he
    filter_upwards [hsmall, er] with v h1 h2
    have : Real.sqrt (lossAfter h s v.ofLp) = ‖r v‖ / Real.sqrt 2 := by
      rw [h2, Real.sqrt_div (sq_nonneg _), Real.sqrt_sq (norm_nonneg _)]
    rw [this]
    exact h1

end Isotope
