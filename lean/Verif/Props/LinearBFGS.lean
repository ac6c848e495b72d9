import Verif.Lemmas.LinearBFGS
import Verif.Props.StairsDescent

/-!
# BFGS on linear sketches (C73)

All theorems of this file are about exact arithmetic (`XR`).
-/

namespace Isotope
open XR
open Matrix

variable {h : Heap XR} {s : Sketch}

/-- **C73.** BFGS on a linear sketch whose loss is squeezed between two parabolas, from any finite start: it returns `Ok`, no line
search fails, every step reduces the loss at least by a fixed factor, and if it stops before `max_iterations` steps, then either the
loss is below `min_loss` or all entries of the gradient are below the threshold, and then the loss is at most
`(number of coordinates) · threshold² / (2 mu)`. -/
theorem C73_converges (hn : s.cells.Nodup) (hc : Closed ⟨h, s⟩) (hf : FiniteSketch h s) (hl : ∀ k ∈ s.cons, IsLinear (h.cons k))
    {mu M : ℝ} (w : Squeezed h s mu M) (hmu : 0 < mu) (hmu1 : mu ≤ 1) (hM : 1 ≤ M) (n : Nat)
    (lo : 0.1 * (1 / mu + n * 1e-10) ≤ 1.5 ^ 14) (hi : M ≤ 1.9998 * 2 ^ 14) {ml gt : ℝ} (hgt : 0 < gt) :
    (bfgsSolve ⟨n, fin ml, fin gt⟩ h s).res = .ok ∧
    (bfgsSolve ⟨n, fin ml, fin gt⟩ h s).failed = 0 ∧
    (bfgsSolve ⟨n, fin ml, fin gt⟩ h s).steps.length ≤ n ∧
    ∃ L0 L1 : ℝ, getLoss h s = fin L0 ∧ getLoss (bfgsSolve ⟨n, fin ml, fin gt⟩ h s).heap s = fin L1 ∧ 0 ≤ L0 ∧ 0 ≤ L1 ∧
      L1 ≤ (1 - 3.9996e-4 / ((1 / mu + n * 1e-10) * M)) ^ (bfgsSolve ⟨n, fin ml, fin gt⟩ h s).steps.length * L0 ∧
      ((bfgsSolve ⟨n, fin ml, fin gt⟩ h s).steps.length < n → L1 < ml ∨ 2 * mu * L1 ≤ getNDofs h s * gt ^ 2) := by
  obtain ⟨m, R, b, l⟩ := exists_linAt hn hc hf hl
  obtain ⟨q, hq⟩ : ∃ q : Fin (getNDofs h s) → ℝ, getData h s = vec q := exists_vec' (List.all_eq_true.2 hf.1) (getData_length h s)
  have wp := w.wellPosed l
  obtain ⟨v0, e0, -⟩ := wp.low 0
  have key := l.bfgsLoop ⟨v0, e0⟩ hM hi lo ⟨n, fin ml, fin gt⟩ rfl rfl hgt n false 1 (1 / mu) ((one_le_div hmu).2 hmu1) le_rfl
    (Fits.one wp hmu) h (SameRefs.refl h) q hq
  unfold bfgsSolve
  dsimp only at key ⊢
  rw [getData_length, identity_mat, hq]
  obtain ⟨i1, i2, i3, x', i4, i5, i6, i7⟩ := key
  refine ⟨i1, i2, i3, quad R b q, quad R b x', (l.at (SameRefs.refl h) hq).1, (l.at i4 i5).1, quad_nonneg _ _ _, quad_nonneg _ _ _, i6, fun hh => ?_⟩
  rcases i7 hh with k | k
  · exact .inl k
  · right
    refine (wp.bounds hmu x').1.trans ?_
    rw [dotProduct]
    calc _ ≤ ∑ i : Fin (getNDofs h s), gt ^ 2 := Finset.sum_le_sum fun i _ => by
          rw [← sq, ← sq_abs]
          exact pow_le_pow_left₀ (abs_nonneg _) (k i).le 2
      _ = _ := by simp

/-- **C73.** When `max_iterations` suffice: the loss gets below `min_loss`, or all entries of the gradient get below the threshold. -/
theorem C73_enough (hn : s.cells.Nodup) (hc : Closed ⟨h, s⟩) (hf : FiniteSketch h s) (hl : ∀ k ∈ s.cons, IsLinear (h.cons k))
    {mu M : ℝ} (w : Squeezed h s mu M) (hmu : 0 < mu) (hmu1 : mu ≤ 1) (hM : 1 ≤ M) (n : Nat)
    (lo : 0.1 * (1 / mu + n * 1e-10) ≤ 1.5 ^ 14) (hi : M ≤ 1.9998 * 2 ^ 14) {ml gt L0 : ℝ} (hgt : 0 < gt) (h0 : getLoss h s = fin L0)
    (hL : (1 - 3.9996e-4 / ((1 / mu + n * 1e-10) * M)) ^ n * L0 < ml) :
    ∃ L1 : ℝ, getLoss (bfgsSolve ⟨n, fin ml, fin gt⟩ h s).heap s = fin L1 ∧ (L1 < ml ∨ 2 * mu * L1 ≤ getNDofs h s * gt ^ 2) := by
  obtain ⟨-, -, i3, L0', L1, e0, e1, -, -, i4, i5⟩ := C73_converges hn hc hf hl w hmu hmu1 hM n lo hi hgt (ml := ml)
  rw [h0] at e0
  cases e0
  refine ⟨L1, e1, ?_⟩
  rcases i3.lt_or_eq with k | k
  · exact i5 k
  · rw [k] at i4
    exact .inl (lt_of_le_of_lt i4 hL)

/-- **C73.** On the stairs benchmark with up to 75 points BFGS with at most a million iterations returns `Ok` from every finite start,
and no line search fails. -/
theorem C73_stairs {n : Nat} (h1 : 0 < n) (hn : n ≤ 75) {b : Bench XR} (hb : stairsNew n = some b) {h : Heap XR}
    (hr : SameRefs b.world.heap h) (hd : ∀ x ∈ getData h b.world.sketch, Num.isFinite x = true) {ml gt : ℝ} (hgt : 0 < gt)
    {k : Nat} (hk : k ≤ 1000000) :
    (bfgsSolve ⟨k, fin ml, fin gt⟩ h b.world.sketch).res = .ok ∧ (bfgsSolve ⟨k, fin ml, fin gt⟩ h b.world.sketch).failed = 0 ∧
    ∃ L0 L1 : ℝ, getLoss h b.world.sketch = fin L0 ∧
      getLoss (bfgsSolve ⟨k, fin ml, fin gt⟩ h b.world.sketch).heap b.world.sketch = fin L1 ∧
      L1 ≤ (1 - 1.9998e-4 / (n * (n + 1) + 1)) ^ (bfgsSolve ⟨k, fin ml, fin gt⟩ h b.world.sketch).steps.length * L0 ∧
      ((bfgsSolve ⟨k, fin ml, fin gt⟩ h b.world.sketch).steps.length < k → L1 < ml ∨ 2 * L1 ≤ n ^ 2 * (n + 1) * gt ^ 2) := by
  obtain ⟨N, rfl⟩ : ∃ N, n = N + 1 := ⟨n - 1, by omega⟩
  have hN : 2 * (N + 1) ≤ 2 ^ 64 := by omega
  obtain rfl := stairs_xr h1 hN hb
  have hP : (2 : ℝ) ≤ (N + 1) * (N + 2) := by
    have : (0 : ℝ) ≤ N := by positivity
    nlinarith
  have hN' : ((N : ℝ) + 1) * (N + 2) ≤ 5700 := by
    have : (N : ℝ) ≤ 74 := by exact_mod_cast (show N ≤ 74 by omega)
    nlinarith
  have hc : Closed ⟨h, (stairs N).sketch⟩ := (stairs_closed N hN).sameRefs hr
  have hk' : (k : ℝ) ≤ 1000000 := by exact_mod_cast hk
  have ei : 1 / (2 / (((N : ℝ) + 1) * (N + 2))) = (N + 1) * (N + 2) / 2 := one_div_div _ _
  obtain ⟨i1, i2, -, L0, L1, e0, e1, hL0, -, i4, i5⟩ := C73_converges (stairs_nodup N) hc (stairs_finite hr hd) (stairs_linear hr)
    (stairs_squeezed hr) (by positivity) (by rw [div_le_one (by linarith)]; exact hP) (by norm_num) k
    (by rw [ei]; norm_num; linarith) (by norm_num) hgt (ml := ml)
  refine ⟨i1, i2, L0, L1, e0, e1, ?_, fun hh => (i5 hh).imp_right fun hh => ?_⟩
  · refine i4.trans (mul_le_mul_of_nonneg_right (pow_le_pow_left₀ ?_ ?_ _) hL0)
    · rw [ei, sub_nonneg, div_le_one (by positivity)]
      have : (0 : ℝ) ≤ k := by positivity
      linarith
    · rw [ei]
      apply sub_le_sub_left
      push_cast
      rw [div_le_div_iff₀ (by positivity) (by positivity)]
      linarith
  · have en : (getNDofs h (stairs N).sketch : ℝ) = 2 * (N + 1) := by
      rw [← dofs_length h, stairs_dofs]
      simp [List.length_flatMap]
      ring
    rw [en, ← mul_div_assoc, div_mul_eq_mul_div, div_le_iff₀ (by linarith)] at hh
    push_cast
    linarith

/-- C73: BFGS with its default parameters on the stairs of 50 points, from the start of the benchmark -/
example : ∃ b : Bench XR, stairsNew 50 = some b ∧ (bfgsSolve BFGSParams.default b.world.heap b.world.sketch).res = .ok ∧
    (bfgsSolve BFGSParams.default b.world.heap b.world.sketch).failed = 0 := by
  obtain ⟨b, hb, -⟩ := C63_stairs_build (F := XR) (by rw [xr_zero]; rfl) (by rw [xr_step]; rfl) 50 (by norm_num) (by norm_num)
  refine ⟨b, hb, ?_⟩
  obtain rfl := stairs_xr (by norm_num) (by norm_num) hb
  have := C73_stairs (k := 1000) (ml := 1e-16) (gt := 1e-8) (by norm_num) (by norm_num) hb (SameRefs.refl _) stairs_start (by norm_num) (by norm_num)
  exact ⟨this.1, this.2.1⟩

/-- C73: the hypotheses of `C73_converges` for ten points and a thousand iterations -/
example : Squeezed (stairs 9).heap (stairs 9).sketch (2 / ((9 + 1) * (9 + 2))) 4 ∧
    (0.1 : ℝ) * (1 / (2 / ((9 + 1) * (9 + 2))) + (1000 : ℕ) * 1e-10) ≤ 1.5 ^ 14 ∧ (4 : ℝ) ≤ 1.9998 * 2 ^ 14 := by
  refine ⟨?_, by norm_num, by norm_num⟩
  have := stairs_squeezed (N := 9) (SameRefs.refl _)
  push_cast at this
  exact this

end Isotope
