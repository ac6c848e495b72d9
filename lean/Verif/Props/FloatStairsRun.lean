import Verif.Props.FloatStairs
import Verif.Props.FloatDescent
import Verif.Lemmas.StairsAny
import Verif.Lemmas.Apart

/-!
# C100: gradient descent in binary64 on the stairs benchmark
-/

namespace Isotope
open Round Val XR
open Matrix

variable {lm : Libm}

/-- the stairs with `N + 1` points in binary64 -/
noncomputable abbrev stairs64 (lm : Libm) (N : Nat) : World (B64 lm) := stairsWorld (N + 1) N (2 * N + 1)

theorem stairs64_sketch (N : Nat) : (stairs64 lm N).sketch = (stairs N).sketch := rfl

theorem stairs64_step {N : Nat} {h : Heap (B64 lm)} (hr : SameRefs (stairs64 lm N).heap h) : StepSketch (rs 0.8) N h.exact := by
  constructor
  · intro j hj
    show (h.cons j).exact = _
    rw [hr.cons, stairs_cons_any _ _ _ _ hj]
    unfold stairsCons stepCons
    have e0 := (B64.is_zero (lm := lm)).exact
    have e8 := (is_step (lm := lm)).exact
    split_ifs <;> simp only [Constraint.exact, Vec2.exact, e0, e8]
  · intro i hi
    show h.lines i = _
    rw [hr.lines]
    simp [stairs64, stairsWorld, layout, hi]

theorem stairs64_linear {N : Nat} {h : Heap (B64 lm)} (hr : SameRefs (stairs64 lm N).heap h) :
    ∀ k ∈ (stairs64 lm N).sketch.cons, IsLinear (h.exact.cons k) := by
  intro k hk
  have hk : k < 2 * N + 1 := by simpa [stairs64, stairsWorld, layout] using hk
  rw [(stairs64_step hr).1 k hk]
  unfold stepCons
  split_ifs
  · exact .inl trivial
  all_goals exact .inr trivial

theorem stairs64_closed {N : Nat} (hN : 2 * (N + 1) ≤ 2 ^ 64) {h : Heap (B64 lm)} (hr : SameRefs (stairs64 lm N).heap h) :
    Closed ⟨h, (stairs64 lm N).sketch⟩ := by
  obtain ⟨b, hb, -, -, -, -, hc⟩ := C63_stairs_build (F := B64 lm) B64.is_zero.isFinite is_step.isFinite (N + 1) (by omega) hN
  obtain rfl := stairs_b64 (by omega) hN hb
  exact hc.same hr

theorem stairs64_squeezed {N : Nat} (hN : N ≤ 9) {h : Heap (B64 lm)} (hr : SameRefs (stairs64 lm N).heap h) :
    Squeezed h.exact (stairs64 lm N).sketch (1 / 55) 4 := by
  obtain ⟨h1, h2⟩ := step_squeezed (stairs64_step hr)
  refine ⟨fun v => ?_, h2⟩
  obtain ⟨v0, e0, e1⟩ := h1 v
  refine ⟨v0, e0, le_trans (mul_le_mul_of_nonneg_right ?_ ?_) e1⟩
  · have : (N : ℝ) ≤ 9 := by exact_mod_cast hN
    rw [div_le_div_iff₀ (by norm_num) (by positivity)]
    nlinarith [Nat.cast_nonneg (α := ℝ) N]
  · exact dot_self_nonneg _

theorem stairs64_size {N : Nat} {h : Heap (B64 lm)} : sizeOf64 h (stairs64 lm N).sketch = 6 * N + 5 := by
  unfold sizeOf64
  rw [← exact_nDofs, ← dofs_length, stairs64_sketch, stairs_dofs]
  have : (stairs N).sketch.cons.length = 2 * N + 1 := by simp [stairs, stairsWorld, layout]
  rw [this]
  simp
  ring

theorem stairs64_par {N : Nat} {h : Heap (B64 lm)} (hr : SameRefs (stairs64 lm N).heap h) :
    ∀ k ∈ (stairs64 lm N).sketch.cons, ∀ x ∈ consParams (h.cons k), ∃ r : ℝ, x.Is r ∧ |r| ≤ 1 := by
  intro k hk x hx
  have hk : k < 2 * N + 1 := by simpa [stairs64, stairsWorld, layout] using hk
  have s8 : |rs 0.8| ≤ 1 := abs_rs_le rep_one (by norm_num)
  rw [hr.cons, stairs_cons_any _ _ _ _ hk] at hx
  unfold stairsCons at hx
  split_ifs at hx <;> simp only [consParams, List.mem_cons, List.not_mem_nil, or_false] at hx
  · rcases hx with rfl | rfl <;> exact ⟨0, B64.is_zero, by norm_num⟩
  · subst hx; exact ⟨_, is_step, s8⟩
  · subst hx; exact ⟨_, is_step, s8⟩

theorem sqrt55 : √(55 : ℝ) ≤ 7.42 := by rw [Real.sqrt_le_left (by norm_num)]; norm_num
theorem sqrt_four : √(4 : ℝ) = 2 := by rw [show (4 : ℝ) = 2 ^ 2 by norm_num]; exact Real.sqrt_sq (by norm_num)
theorem inv_sqrt55 : 1 / √(1 / 55 : ℝ) = √55 := by rw [Real.sqrt_div (by norm_num), Real.sqrt_one, one_div_one_div]

theorem chain_start {d : ℝ} (hd : |d| ≤ 1) {t : ℕ → ℝ} {X : ℕ → ℝ} (h0 : X 0 = 0) (hX : ∀ i, X (i + 1) = X i ∨ X (i + 1) = X i + d)
    {N : Nat} (hN : N ≤ 9) (ht : ∀ i ≤ N, |t i| ≤ 1) : chain (fun i => t i - X i) N ≤ 82 := by
  unfold chain
  have b : ∀ i ∈ Finset.range N, (t (i + 1) - X (i + 1) - (t i - X i)) ^ 2 ≤ 9 := by
    intro i hi
    have hi := Finset.mem_range.1 hi
    have a1 := abs_le.1 (ht i (by omega))
    have a2 := abs_le.1 (ht (i + 1) (by omega))
    have a3 := abs_le.1 hd
    have : |t (i + 1) - X (i + 1) - (t i - X i)| ≤ 3 := by
      rw [abs_le]
      rcases hX i with e | e <;> rw [e] <;> constructor <;> linarith
    have := sq_le_sq' (abs_le.1 this).1 (abs_le.1 this).2
    linarith
  have S := Finset.sum_le_sum b
  rw [Finset.sum_const, Finset.card_range, nsmul_eq_mul] at S
  have n9 : (N : ℝ) ≤ 9 := by exact_mod_cast hN
  have a0 := abs_le.1 (ht 0 (by omega))
  have q0 : (t 0 - X 0) ^ 2 ≤ 1 := by rw [h0]; nlinarith
  linarith

theorem stairs64_start {N : Nat} (hN : N ≤ 9) {h : Heap (B64 lm)} (hr : SameRefs (stairs64 lm N).heap h)
    (x : Fin (getNDofs h.exact (stairs64 lm N).sketch) → ℝ) (hx : ∀ i, |x i| ≤ 1) :
    lossAfter h.exact (stairs64 lm N).sketch x ≤ 82 := by
  obtain ⟨t, ht⟩ : ∃ t, t = coordOf h.exact (stairs64 lm N).sketch x := ⟨_, rfl⟩
  have e : x = vecOf h.exact (stairs64 lm N).sketch t := by rw [ht]; exact (vecOf_coordOf (stairs_nodup N) x).symm
  have b : ∀ d ∈ (stairs N).sketch.dofs, |t d| ≤ 1 := by
    intro d hd
    rw [ht]
    unfold coordOf
    rw [dif_pos (idxOf_lt (s := (stairs64 lm N).sketch) hd)]
    exact hx _
  have s8 : |rs 0.8| ≤ 1 := abs_rs_le rep_one (by norm_num)
  rw [e]
  have := step_lossAfter (stairs64_step hr) t
  rw [stairs64_sketch, this]
  have c1 := chain_start s8 (t := fun i => t (.px i)) (X := stepX (rs 0.8)) (by simp [stepX]) (fun i => by
    by_cases he : i % 2 = 0
    · exact .inr (step_even he).1
    · exact .inl (step_odd he).1) hN fun i hi => b _ (stairs_mem hi).1
  have c2 := chain_start s8 (t := fun i => t (.py i)) (X := stepY (rs 0.8)) (by simp [stepY]) (fun i => by
    by_cases he : i % 2 = 0
    · exact .inl (step_even he).2
    · exact .inr (step_odd he).2) hN fun i hi => b _ (stairs_mem hi).2
  linarith

set_option maxHeartbeats 1000000 in
theorem stairs64_suited {N : Nat} (hN : N ≤ 9) {h : Heap (B64 lm)} (hr : SameRefs (stairs64 lm N).heap h)
    (hd : ∀ x ∈ getData h (stairs64 lm N).sketch, ∃ r : ℝ, x.Is r ∧ |r| ≤ 1) {ml : ℝ} (hml : 0.9e-8 ≤ ml) :
    ∃ L0 : ℝ, (getLoss h (stairs64 lm N).sketch).Is L0 ∧ 0 ≤ L0 ∧ L0 ≤ 84 ∧
      Suited h (stairs64 lm N).sketch (1 / 55) 4 1 1500 L0 ml 100000000 := by
  have hb : Bounded h (stairs64 lm N).sketch 1 := ⟨hd, stairs64_par hr⟩
  have hc := stairs64_closed (lm := lm) (N := N) (by omega) hr
  have hl := stairs64_linear hr
  have hs := stairs64_size (lm := lm) (N := N) (h := h)
  have hN' : (N : ℝ) ≤ 9 := by exact_mod_cast hN
  have N0 : (0 : ℝ) ≤ N := Nat.cast_nonneg N
  have s59 : sizeOf64 h (stairs64 lm N).sketch ≤ 59 := by rw [hs]; linarith
  have s0 : 0 ≤ sizeOf64 h (stairs64 lm N).sketch := by rw [hs]; linarith
  have sq59 : sizeOf64 h (stairs64 lm N).sketch ^ 2 ≤ 59 ^ 2 := pow_le_pow_left₀ s0 s59 2
  have w := stairs64_squeezed hN hr
  have la : LinAt h.exact (stairs64 lm N).sketch (rowMat h.exact (stairs64 lm N).sketch) (rowRhs h.exact (stairs64 lm N).sketch) :=
    ⟨stairs_nodup N, hb.finite.2, linear_rows (stairs_nodup N) (exact_closed hc) hl⟩
  have S : LinSet h (stairs64 lm N).sketch (sizeOf64 h (stairs64 lm N).sketch) 1500 (1 / 55) 4 := by
    refine ⟨stairs_nodup N, hc, hl, size_ge, ?_, by norm_num, by norm_num, ?_, w.wellPosed la, by norm_num, by norm_num, by norm_num,
      by norm_num, ?_⟩
    · rw [size_eq]; linarith
    · intro k hk x hx
      obtain ⟨r, e, b⟩ := stairs64_par hr k hk x hx
      exact ⟨r, e, b.trans (by norm_num)⟩
    · norm_num at sq59 ⊢
      linarith
  obtain ⟨x0, hx0, hB⟩ := hb.vis
  obtain ⟨q, L, g, gs, H', hL, -, -, hny, -, -⟩ := S.noisy (SameRefs.refl h) hx0 fun i => (hB i).trans (by norm_num)
  have kl := S.kap_le
  have st := stairs64_start hN hr x0 hB
  have sN : √(sizeOf64 h (stairs64 lm N).sketch) ≤ 7.7 := by
    rw [Real.sqrt_le_left (by norm_num)]
    norm_num at s59 ⊢
    linarith
  have sN0 := Real.sqrt_nonneg (sizeOf64 h (stairs64 lm N).sketch)
  rw [la.lossAfter, quad] at st
  have rho : vlen (rowMat h.exact (stairs64 lm N).sketch *ᵥ x0 - rowRhs h.exact (stairs64 lm N).sketch) ≤ 12.81 := by
    unfold vlen
    rw [Real.sqrt_le_left (by norm_num)]
    norm_num at st ⊢
    linarith
  have r1 := hny.res
  have r2 := (abs_le.1 hny.loss).2
  have r3 := vlen_le_add q (rowMat h.exact (stairs64 lm N).sketch *ᵥ x0 - rowRhs h.exact (stairs64 lm N).sketch)
  have q0 := vlen_nonneg q
  have e0 : epsOf (sizeOf64 h (stairs64 lm N).sketch) 1500 ≤ 0.001 := by
    unfold epsOf
    have := ulp_le_milli
    have u0 := ulp_pos
    have k : √(sizeOf64 h (stairs64 lm N).sketch) * ulp ≤ 7.7 * 1.2e-16 := mul_le_mul sN this u0.le (by norm_num)
    norm_num at k ⊢
    linarith
  have t0 : tol (1 / 55) 4 ≤ 0.001 := by unfold tol; norm_num
  have k1 : kapOf (sizeOf64 h (stairs64 lm N).sketch) * vlen q ≤ 0.001 * vlen q := mul_le_mul_of_nonneg_right (kl.trans t0) q0
  have sL : √(2 * L) ≤ 12.9 := by norm_num at *; linarith
  have L0 := hny.nonneg
  have L84 : L ≤ 84 := by
    have := Real.sq_sqrt (show 0 ≤ 2 * L by linarith)
    have h2 := Real.sqrt_nonneg (2 * L)
    nlinarith
  have qm : 9e-5 ≤ √ml := Real.le_sqrt_of_sq_le (le_trans (by norm_num) hml)
  have r55 := sqrt55
  have r0 := Real.sqrt_nonneg (55 : ℝ)
  refine ⟨L, hL, L0, L84, by norm_num, by norm_num, by norm_num, S.small, hb, ?_, by norm_num, by norm_num, by linarith, ?_, ?_⟩
  · rw [inv_sqrt55, sqrt_four]
    have := mul_le_mul sL (show 2 + √55 ≤ 9.42 by linarith) (by linarith) (by norm_num)
    norm_num at this ⊢
    linarith
  · rw [sqrt_four]
    norm_num at sN qm ⊢
    linarith
  · have e2 : √(4 : ℝ) / √(1 / 55) = 2 * √55 := by rw [sqrt_four, ← inv_sqrt55]; ring
    rw [e2, inv_sqrt55]
    have k2 : (1 + 2 * √55) * (1 + √55) ≤ 15.84 * 8.42 := mul_le_mul (by linarith) (by linarith) (by linarith) (by norm_num)
    have k3 := mul_le_mul sq59 k2 (by positivity) (by norm_num)
    generalize sizeOf64 h (stairs64 lm N).sketch ^ 2 = Z at *
    have : (2 : ℝ) ^ (-48 : ℤ) * ((100000000 : ℕ) : ℝ) * Z * (1 + 2 * √55) * (1 + √55) =
      (2 : ℝ) ^ (-48 : ℤ) * 100000000 * (Z * ((1 + 2 * √55) * (1 + √55))) := by push_cast; ring
    rw [this]
    norm_num at k3 ⊢
    linarith

theorem stairs64_rate {L : ℝ} (h0 : 0 ≤ L) (h1 : L ≤ 84) :
    (1 - 1.8e-4 * ((1 / 55 : ℝ) / (1 + 4))) ^ 100000000 * L < 0.9e-8 := by
  have k4 : (2 : ℝ) ^ 65 ≤ Real.exp 1 ^ 65 := pow_le_pow_left₀ (by norm_num) (by linarith [Real.add_one_le_exp (1 : ℝ)]) 65
  have k5 : (Real.exp 1 ^ 65)⁻¹ ≤ ((2 : ℝ) ^ 65)⁻¹ := inv_anti₀ (by positivity) k4
  have k7 : ((2 : ℝ) ^ 65)⁻¹ * 84 < 0.9e-8 := by norm_num
  have k1 : (1 - 1.8e-4 * ((1 / 55 : ℝ) / (1 + 4))) ≤ Real.exp (-(6.5e-7)) := by
    have := Real.add_one_le_exp (-(6.5e-7) : ℝ)
    norm_num at this ⊢
    linarith
  have k0 : (0 : ℝ) ≤ (1 - 1.8e-4 * ((1 / 55 : ℝ) / (1 + 4))) := by norm_num
  have k3 : ∀ n : ℕ, n = 100000000 → Real.exp (-(6.5e-7)) ^ n = (Real.exp 1 ^ 65)⁻¹ := by
    intro n hn
    rw [← Real.exp_nat_mul, ← Real.exp_nat_mul, ← Real.exp_neg]
    congr 1
    rw [hn]
    norm_num
  generalize (1 - 1.8e-4 * ((1 / 55 : ℝ) / (1 + 4))) = r at k1 k0 ⊢
  have k2 := pow_le_pow_left₀ k0 k1 100000000
  rw [k3 _ rfl] at k2
  exact lt_of_le_of_lt (mul_le_mul (k2.trans k5) h1 h0 (by positivity)) k7

/-- **C100.** Gradient descent in binary64 solves the stairs of up to 10 points: from every start with coordinates of at most 1 (such as that
of the benchmark, where all are 0), with 10⁸ iterations allowed and `min_loss` `1e-8`, it returns `Ok`, the loss is below `min_loss`, and
`check(1e-3)` passes. -/
theorem C100_descends {n : Nat} (h1 : 0 < n) (hn : n ≤ 10) {b : Bench (B64 lm)} (hb : stairsNew n = some b) {h : Heap (B64 lm)}
    (hr : SameRefs b.world.heap h) (hd : ∀ x ∈ getData h b.world.sketch, ∃ r : ℝ, x.Is r ∧ |r| ≤ 1) :
    (gdSolve ⟨100000000, 1e-8, 1e-10⟩ h b.world.sketch).res = .ok ∧
    (getLoss (gdSolve ⟨100000000, 1e-8, 1e-10⟩ h b.world.sketch).heap b.world.sketch <. 1e-8) = true ∧
    stairsCheck (gdSolve ⟨100000000, 1e-8, 1e-10⟩ h b.world.sketch).heap b.points 1e-3 = some true := by
  have hb' := hb
  obtain ⟨N, rfl⟩ : ∃ N, n = N + 1 := ⟨n - 1, by omega⟩
  obtain rfl := stairs_b64 h1 (by omega) hb
  have hN : N ≤ 9 := by omega
  obtain ⟨ml, hml, b1, -, -⟩ := lit_small (lm := lm) 1 8 (z := 1e-8) rfl (by norm_num) (by norm_num)
  obtain ⟨mg, hmg, b2, -, -⟩ := lit_small (lm := lm) 1 10 (z := 1e-10) rfl (by norm_num) (by norm_num)
  obtain ⟨e, he, b3, -, -⟩ := lit_small (lm := lm) 1 3 (z := 1e-3) rfl (by norm_num) (by norm_num)
  have c1 := abs_le.1 (b1.trans (mul_le_mul_of_nonneg_right ulp_le_milli (by norm_num)))
  have c2 := abs_le.1 (b2.trans (mul_le_mul_of_nonneg_right ulp_le_milli (by norm_num)))
  have c3 := abs_le.1 (b3.trans (mul_le_mul_of_nonneg_right ulp_le_milli (by norm_num)))
  have l9 : 0.9e-8 ≤ ml := by norm_num at c1 ⊢; linarith
  have l11 : ml ≤ 1.1e-8 := by norm_num at c1 ⊢; linarith
  have g11 : 1.01 * mg ^ 2 < 2 * (1 / 55) * 0.9e-8 := by
    have : mg ^ 2 ≤ (2e-10) ^ 2 := pow_le_pow_left₀ (by norm_num at c2 ⊢; linarith) (by norm_num at c2 ⊢; linarith) 2
    norm_num at this ⊢
    linarith
  obtain ⟨L0, hL0, p0, p1, Q⟩ := stairs64_suited hN hr hd l9
  obtain ⟨i1, L1, V, i3, i4, -, -⟩ := C99_enough (s := (stairs64 lm N).sketch) (stairs_nodup N) (stairs64_closed (by omega) hr) (stairs64_linear hr) (stairs64_squeezed hN hr)
    hL0 ⟨100000000, 1e-8, 1e-10⟩ hml hmg Q ((stairs64_rate p0 p1).trans_le l9)
  have lt : L1 < ml := by
    rcases i4 with i4 | i4
    · exact i4
    · have := i4.trans g11
      linarith
  refine ⟨i1, (i3.lt_iff hml).2 lt, ?_⟩
  refine C100_check h1 (by omega) hb' (hr.trans (gdSolve_moves _ h _).1) i3 he ?_
  have n9 : ((N + 1 - 1 : ℕ) : ℝ) ≤ 9 := by exact_mod_cast (show N + 1 - 1 ≤ 9 by omega)
  have n10 : ((N + 1 : ℕ) : ℝ) ≤ 10 := by exact_mod_cast hn
  have q : √(2 * ((N + 1 - 1 : ℕ) : ℝ) * L1) ≤ 5e-4 := by
    rw [Real.sqrt_le_left (by norm_num)]
    have m1 : ((N + 1 - 1 : ℕ) : ℝ) * L1 ≤ 9 * 1.1e-8 := by
      have L1' : 0 ≤ L1 := (plus_total _ _).nonneg i3
      exact mul_le_mul n9 (by linarith) L1' (by norm_num)
    norm_num at m1 ⊢
    linarith
  have k1 := mul_le_mul_of_nonneg_left q (show (0 : ℝ) ≤ 1 + 2 ^ (-30 : ℤ) by positivity)
  have k2 := mul_le_mul_of_nonneg_right n10 (show (0 : ℝ) ≤ 2 ^ (-50 : ℤ) by positivity)
  refine (add_le_add k1 k2).trans (le_trans ?_ (show 9e-4 ≤ e by norm_num at c3 ⊢; linarith))
  norm_num

/-! ## The run of the benchmark -/

theorem step_zero (d : ℝ) (N : Nat) : chain (fun i => 0 - stepX d i) N + chain (fun i => 0 - stepY d i) N = N * d ^ 2 := by
  induction N with
  | zero => simp [chain, stepX, stepY]
  | succ N ih =>
    have e : ∀ f : ℕ → ℝ, chain f (N + 1) = chain f N + (f (N + 1) - f N) ^ 2 := by
      intro f; unfold chain; rw [Finset.sum_range_succ]; ring
    rw [e, e]
    push_cast
    by_cases he : N % 2 = 0
    · rw [(step_even he).1, (step_even he).2]; linear_combination ih
    · rw [(step_odd he).1, (step_odd he).2]; linear_combination ih

theorem stairs64_data (N : Nat) : ∀ x ∈ getData (stairs64 lm N).heap (stairs64 lm N).sketch, x = 0.0 := by
  intro x hx
  rw [getData_dofs, stairs64_sketch, stairs_dofs, List.mem_map] at hx
  obtain ⟨d, hd, rfl⟩ := hx
  obtain ⟨i, hi, hd⟩ := List.mem_flatMap.1 hd
  simp only [List.mem_cons, List.not_mem_nil, or_false] at hd
  have hi : i ≤ N := Nat.lt_succ_iff.1 (List.mem_range.1 hi)
  rcases hd with rfl | rfl <;> simp [val, stairs64, stairsWorld, layout, hi, Point2.new]

theorem sqrt_ten : √(10 : ℝ) ≤ 3.163 := by rw [Real.sqrt_le_left (by norm_num)]; norm_num
theorem inv_sqrt_ten : 1 / √(1 / 10 : ℝ) = √10 := by rw [Real.sqrt_div (by norm_num), Real.sqrt_one, one_div_one_div]

theorem stairs64_squeezed_four {N : Nat} (hN : N ≤ 3) {h : Heap (B64 lm)} (hr : SameRefs (stairs64 lm N).heap h) :
    Squeezed h.exact (stairs64 lm N).sketch (1 / 10) 4 := by
  obtain ⟨h1, h2⟩ := step_squeezed (stairs64_step hr)
  refine ⟨fun v => ?_, h2⟩
  obtain ⟨v0, e0, e1⟩ := h1 v
  refine ⟨v0, e0, le_trans (mul_le_mul_of_nonneg_right ?_ ?_) e1⟩
  · have : (N : ℝ) ≤ 3 := by exact_mod_cast hN
    rw [div_le_div_iff₀ (by norm_num) (by positivity)]
    nlinarith [Nat.cast_nonneg (α := ℝ) N]
  · exact dot_self_nonneg _

theorem stairs64_zero {N : Nat} (hN : N ≤ 3) {x : Fin (getNDofs (stairs64 lm N).heap.exact (stairs64 lm N).sketch) → ℝ} (hx : ∀ i, x i = 0) :
    lossAfter (stairs64 lm N).heap.exact (stairs64 lm N).sketch x ≤ 0.96012 := by
  have e : x = vecOf (stairs64 lm N).heap.exact (stairs64 lm N).sketch (fun _ => 0) := funext hx
  rw [e]
  have := step_lossAfter (stairs64_step (SameRefs.refl (stairs64 lm N).heap)) (fun _ => 0)
  rw [stairs64_sketch, this, step_zero]
  have n3 : (N : ℝ) ≤ 3 := by exact_mod_cast hN
  have d := abs_le.1 step_near
  have u := ulp_le_milli
  have d2 : rs 0.8 ^ 2 ≤ 0.64008 := by nlinarith
  have := mul_le_mul n3 d2 (sq_nonneg _) (by norm_num)
  norm_num at this ⊢
  linarith

theorem stairs64_par81 {N : Nat} {h : Heap (B64 lm)} (hr : SameRefs (stairs64 lm N).heap h) :
    ∀ k ∈ (stairs64 lm N).sketch.cons, ∀ x ∈ consParams (h.cons k), ∃ r : ℝ, x.Is r ∧ |r| ≤ 0.81 := by
  intro k hk x hx
  have hk : k < 2 * N + 1 := by simpa [stairs64, stairsWorld, layout] using hk
  have s8 : |rs 0.8| ≤ 0.81 := by
    have d := abs_le.1 step_near
    have u := ulp_le_milli
    rw [abs_le]
    constructor <;> linarith
  rw [hr.cons, stairs_cons_any _ _ _ _ hk] at hx
  unfold stairsCons at hx
  split_ifs at hx <;> simp only [consParams, List.mem_cons, List.not_mem_nil, or_false] at hx
  · rcases hx with rfl | rfl <;> exact ⟨0, B64.is_zero, by norm_num⟩
  · subst hx; exact ⟨_, is_step, s8⟩
  · subst hx; exact ⟨_, is_step, s8⟩

set_option maxHeartbeats 1000000 in
theorem stairs64_suited_four {N : Nat} (hN : N ≤ 3) {ml : ℝ} (hml : 0.99e-13 ≤ ml) :
    ∃ L0 : ℝ, (getLoss (stairs64 lm N).heap (stairs64 lm N).sketch).Is L0 ∧ 0 ≤ L0 ∧ L0 ≤ 1 ∧
      Suited (stairs64 lm N).heap (stairs64 lm N).sketch (1 / 10) 4 0.81 90 L0 ml 20000000 := by
  have hr := SameRefs.refl (stairs64 lm N).heap
  have hb : Bounded (stairs64 lm N).heap (stairs64 lm N).sketch 0.81 := by
    refine ⟨fun x hx => ⟨0, ?_, by norm_num⟩, stairs64_par81 hr⟩
    rw [stairs64_data N x hx]
    exact B64.is_zero
  have hc := stairs64_closed (lm := lm) (N := N) (by omega) hr
  have hl := stairs64_linear hr
  have hs := stairs64_size (lm := lm) (N := N) (h := (stairs64 lm N).heap)
  have hN' : (N : ℝ) ≤ 3 := by exact_mod_cast hN
  have N0 : (0 : ℝ) ≤ N := Nat.cast_nonneg N
  have s23 : sizeOf64 (stairs64 lm N).heap (stairs64 lm N).sketch ≤ 23 := by rw [hs]; linarith
  have s0 : 0 ≤ sizeOf64 (stairs64 lm N).heap (stairs64 lm N).sketch := by rw [hs]; linarith
  have sq23 : sizeOf64 (stairs64 lm N).heap (stairs64 lm N).sketch ^ 2 ≤ 23 ^ 2 := pow_le_pow_left₀ s0 s23 2
  have w := stairs64_squeezed_four hN hr
  have la : LinAt (stairs64 lm N).heap.exact (stairs64 lm N).sketch (rowMat (stairs64 lm N).heap.exact (stairs64 lm N).sketch) (rowRhs (stairs64 lm N).heap.exact (stairs64 lm N).sketch) :=
    ⟨stairs_nodup N, hb.finite.2, linear_rows (stairs_nodup N) (exact_closed hc) hl⟩
  have S : LinSet (stairs64 lm N).heap (stairs64 lm N).sketch (sizeOf64 (stairs64 lm N).heap (stairs64 lm N).sketch) 90 (1 / 10) 4 := by
    refine ⟨stairs_nodup N, hc, hl, size_ge, ?_, by norm_num, by norm_num, ?_, w.wellPosed la, by norm_num, by norm_num, by norm_num,
      by norm_num, ?_⟩
    · rw [size_eq]; linarith
    · intro k hk x hx
      obtain ⟨r, e, b⟩ := stairs64_par81 hr k hk x hx
      exact ⟨r, e, b.trans (by norm_num)⟩
    · norm_num at sq23 ⊢
      linarith
  obtain ⟨x0, hx0, hB⟩ := hb.vis
  obtain ⟨q, L, g, gs, H', hL, -, -, hny, -, -⟩ := S.noisy hr hx0 fun i => (hB i).trans (by norm_num)
  have kl := S.kap_le
  have st := stairs64_zero (lm := lm) hN (x := x0) fun i => by
    have g := hx0.get i
    rw [stairs64_data N _ (List.getElem_mem _)] at g
    exact g.unique B64.is_zero
  have sN : √(sizeOf64 (stairs64 lm N).heap (stairs64 lm N).sketch) ≤ 4.8 := by
    rw [Real.sqrt_le_left (by norm_num)]
    norm_num at s23 ⊢
    linarith
  have sN0 := Real.sqrt_nonneg (sizeOf64 (stairs64 lm N).heap (stairs64 lm N).sketch)
  rw [la.lossAfter, quad] at st
  have rho : vlen (rowMat (stairs64 lm N).heap.exact (stairs64 lm N).sketch *ᵥ x0 - rowRhs (stairs64 lm N).heap.exact (stairs64 lm N).sketch) ≤ 1.3858 := by
    unfold vlen
    rw [Real.sqrt_le_left (by norm_num)]
    norm_num at st ⊢
    linarith
  have r1 := hny.res
  have r2 := (abs_le.1 hny.loss).2
  have r3 := vlen_le_add q (rowMat (stairs64 lm N).heap.exact (stairs64 lm N).sketch *ᵥ x0 - rowRhs (stairs64 lm N).heap.exact (stairs64 lm N).sketch)
  have q0 := vlen_nonneg q
  have e0 : epsOf (sizeOf64 (stairs64 lm N).heap (stairs64 lm N).sketch) 90 ≤ 0.0001 := by
    unfold epsOf
    have := ulp_le_milli
    have u0 := ulp_pos
    have k : √(sizeOf64 (stairs64 lm N).heap (stairs64 lm N).sketch) * ulp ≤ 4.8 * 1.2e-16 := mul_le_mul sN this u0.le (by norm_num)
    norm_num at k ⊢
    linarith
  have t0 : tol (1 / 10) 4 ≤ 0.0001 := by unfold tol; norm_num
  have k1 : kapOf (sizeOf64 (stairs64 lm N).heap (stairs64 lm N).sketch) * vlen q ≤ 0.0001 * vlen q := mul_le_mul_of_nonneg_right (kl.trans t0) q0
  have sL : √(2 * L) ≤ 1.39 := by norm_num at *; linarith
  have L0 := hny.nonneg
  have L1' : L ≤ 1 := by
    have := Real.sq_sqrt (show 0 ≤ 2 * L by linarith)
    have h2 := Real.sqrt_nonneg (2 * L)
    nlinarith
  have qm : 3.14e-7 ≤ √ml := Real.le_sqrt_of_sq_le (le_trans (by norm_num) hml)
  have r10 := sqrt_ten
  have r0 := Real.sqrt_nonneg (10 : ℝ)
  refine ⟨L, hL, L0, L1', by norm_num, by norm_num, by norm_num, S.small, hb, ?_, by norm_num, by norm_num, by linarith, ?_, ?_⟩
  · rw [inv_sqrt_ten, sqrt_four]
    have := mul_le_mul sL (show 2 + √10 ≤ 5.163 by linarith) (by linarith) (by norm_num)
    norm_num at this ⊢
    linarith
  · rw [sqrt_four]
    norm_num at sN qm ⊢
    linarith
  · have e2 : √(4 : ℝ) / √(1 / 10) = 2 * √10 := by rw [sqrt_four, ← inv_sqrt_ten]; ring
    rw [e2, inv_sqrt_ten]
    have k2 : (1 + 2 * √10) * (1 + √10) ≤ 7.33 * 4.17 := mul_le_mul (by linarith) (by linarith) (by linarith) (by norm_num)
    have k3 := mul_le_mul sq23 k2 (by positivity) (by norm_num)
    generalize sizeOf64 (stairs64 lm N).heap (stairs64 lm N).sketch ^ 2 = Z at *
    have : (2 : ℝ) ^ (-48 : ℤ) * ((20000000 : ℕ) : ℝ) * Z * (1 + 2 * √10) * (1 + √10) =
      (2 : ℝ) ^ (-48 : ℤ) * 20000000 * (Z * ((1 + 2 * √10) * (1 + √10))) := by push_cast; ring
    rw [this]
    norm_num at k3 ⊢
    linarith

theorem stairs64_rate_four {L : ℝ} (h0 : 0 ≤ L) (h1 : L ≤ 1) :
    (1 - 1.8e-4 * ((1 / 10 : ℝ) / (1 + 4))) ^ 20000000 * L < 0.99e-13 := by
  have k4 : (2 : ℝ) ^ 72 ≤ Real.exp 1 ^ 72 := pow_le_pow_left₀ (by norm_num) (by linarith [Real.add_one_le_exp (1 : ℝ)]) 72
  have k5 : (Real.exp 1 ^ 72)⁻¹ ≤ ((2 : ℝ) ^ 72)⁻¹ := inv_anti₀ (by positivity) k4
  have k7 : ((2 : ℝ) ^ 72)⁻¹ * 1 < 0.99e-13 := by norm_num
  have k1 : (1 - 1.8e-4 * ((1 / 10 : ℝ) / (1 + 4))) ≤ Real.exp (-(3.6e-6)) := by
    have := Real.add_one_le_exp (-(3.6e-6) : ℝ)
    norm_num at this ⊢
    linarith
  have k0 : (0 : ℝ) ≤ (1 - 1.8e-4 * ((1 / 10 : ℝ) / (1 + 4))) := by norm_num
  have k3 : ∀ n : ℕ, n = 20000000 → Real.exp (-(3.6e-6)) ^ n = (Real.exp 1 ^ 72)⁻¹ := by
    intro n hn
    rw [← Real.exp_nat_mul, ← Real.exp_nat_mul, ← Real.exp_neg]
    congr 1
    rw [hn]
    norm_num
  generalize (1 - 1.8e-4 * ((1 / 10 : ℝ) / (1 + 4))) = r at k1 k0 ⊢
  have k2 := pow_le_pow_left₀ k0 k1 20000000
  rw [k3 _ rfl] at k2
  exact lt_of_le_of_lt (mul_le_mul (k2.trans k5) h1 h0 (by positivity)) k7

/-- **C100.** The benchmark run in binary64 with gradient descent, tolerance `1e-6` and up to 4 points: with 2·10⁷ iterations allowed and
`min_loss` `1e-13` it reports success. -/
theorem C100_solves {n : Nat} (h1 : 0 < n) (hn : n ≤ 4) {b : Bench (B64 lm)} (hb : stairsNew n = some b) (pinv : PInv (B64 lm)) :
    ∃ loss, benchRun pinv (.gd ⟨20000000, 1e-13, 1e-10⟩) (fun h => stairsCheck h b.points 1e-6) b = some (true, loss) ∧
      (loss <. 1e-13) = true := by
  have hb' := hb
  obtain ⟨N, rfl⟩ : ∃ N, n = N + 1 := ⟨n - 1, by omega⟩
  obtain rfl := stairs_b64 h1 (by omega) hb
  have hN : N ≤ 3 := by omega
  have hr := SameRefs.refl (stairs64 lm N).heap
  obtain ⟨ml, hml, b1, -, -⟩ := lit_small (lm := lm) 1 13 (z := 1e-13) rfl (by norm_num) (by norm_num)
  obtain ⟨mg, hmg, b2, -, -⟩ := lit_small (lm := lm) 1 10 (z := 1e-10) rfl (by norm_num) (by norm_num)
  have c1 := abs_le.1 (b1.trans (mul_le_mul_of_nonneg_right ulp_le_milli (by norm_num)))
  have c2 := abs_le.1 (b2.trans (mul_le_mul_of_nonneg_right ulp_le_milli (by norm_num)))
  have l9 : 0.99e-13 ≤ ml := by norm_num at c1 ⊢; linarith
  have l11 : ml ≤ 1.1e-13 := by norm_num at c1 ⊢; linarith
  have g11 : 1.01 * mg ^ 2 < 2 * (1 / 10) * 0.99e-13 := by
    have : mg ^ 2 ≤ (2e-10) ^ 2 := pow_le_pow_left₀ (by norm_num at c2 ⊢; linarith) (by norm_num at c2 ⊢; linarith) 2
    norm_num at this ⊢
    linarith
  obtain ⟨L0, hL0, p0, p1, Q⟩ := stairs64_suited_four (lm := lm) hN l9
  obtain ⟨i1, L1, V, i3, i4, -, -⟩ := C99_enough (s := (stairs64 lm N).sketch) (stairs_nodup N) (stairs64_closed (by omega) hr) (stairs64_linear hr)
    (stairs64_squeezed_four hN hr) hL0 ⟨20000000, 1e-13, 1e-10⟩ hml hmg Q ((stairs64_rate_four p0 p1).trans_le l9)
  have lt : L1 < ml := by
    rcases i4 with i4 | i4
    · exact i4
    · have := i4.trans g11
      linarith
  have key : ∃ v, benchRun pinv (.gd ⟨20000000, 1e-13, 1e-10⟩) (fun h => stairsCheck h (List.range (N + 1)) 1e-6)
      ⟨stairs64 lm N, List.range (N + 1)⟩ = some (v, getLoss (gdSolve ⟨20000000, 1e-13, 1e-10⟩ (stairs64 lm N).heap (stairs64 lm N).sketch).heap (stairs64 lm N).sketch) := by
    unfold benchRun
    dsimp only [runSolver]
    rw [i1]
    have : ∀ H : Heap (B64 lm), ∃ v, stairsCheck H (List.range (N + 1)) 1e-6 = some v := fun H => ⟨_, if_neg (by simp)⟩
    obtain ⟨v, hv⟩ := this (gdSolve ⟨20000000, 1e-13, 1e-10⟩ (stairs64 lm N).heap (stairs64 lm N).sketch).heap
    exact ⟨v, by dsimp only; rw [hv, Option.map_some]⟩
  obtain ⟨v, hv⟩ := key
  have := C100_run h1 (by omega) hb' pinv _ hml (by
    have n3 : ((N + 1 - 1 : ℕ) : ℝ) ≤ 3 := by exact_mod_cast (show N + 1 - 1 ≤ 3 by omega)
    have := mul_le_mul n3 l11 (by linarith) (by norm_num)
    norm_num at this ⊢
    linarith) hv ((i3.le_iff hml).2 lt.le)
  subst this
  exact ⟨_, hv, (i3.lt_iff hml).2 lt⟩

/-- the hypotheses hold for the benchmark with 10 points, the run with 4 points reports success and a loss as in `C100_run` -/
example (pinv : PInv (B64 lm)) : (∃ b : Bench (B64 lm), stairsNew 10 = some b ∧ SameRefs b.world.heap b.world.heap ∧
      (∀ x ∈ getData b.world.heap b.world.sketch, ∃ r : ℝ, x.Is r ∧ |r| ≤ 1) ∧
      (∃ L, (getLoss (gdSolve ⟨100000000, 1e-8, 1e-10⟩ b.world.heap b.world.sketch).heap b.world.sketch).Is L) ∧
      stairsCheck (gdSolve ⟨100000000, 1e-8, 1e-10⟩ b.world.heap b.world.sketch).heap b.points 1e-3 = some true) ∧
    ∃ (b : Bench (B64 lm)) (L : ℝ) (loss : B64 lm), stairsNew 4 = some b ∧ (1e-13 : B64 lm).Is L ∧ 2 * (4 - 1 : ℕ) * L ≤ 9.9e-13 ∧
      benchRun pinv (.gd ⟨20000000, 1e-13, 1e-10⟩) (fun h => stairsCheck h b.points 1e-6) b = some (true, loss) ∧
      (loss <=. 1e-13) = true := by
  have e : ∀ N : Nat, 2 * (N + 1) ≤ u64Size → stairsNew (N + 1) = some (⟨stairs64 lm N, List.range (N + 1)⟩ : Bench (B64 lm)) :=
    fun N hN => stairs_eq B64.is_zero.isFinite is_step.isFinite (by omega) hN
  have hd : ∀ x ∈ getData (stairs64 lm 9).heap (stairs64 lm 9).sketch, ∃ r : ℝ, x.Is r ∧ |r| ≤ 1 :=
    fun x hx => ⟨0, by rw [stairs64_data 9 x hx]; exact B64.is_zero, by norm_num⟩
  have r := SameRefs.refl (stairs64 lm 9).heap
  have e9 := e 9 (by decide)
  obtain ⟨-, d2, d3⟩ := C100_descends (by omega) le_rfl e9 r hd
  obtain ⟨m8, hm8, -⟩ := lit_small (lm := lm) 1 8 (z := 1e-8) rfl (by norm_num) (by norm_num)
  obtain ⟨L, hL, -⟩ := (plus_total _ _).fin hm8 d2
  refine ⟨⟨_, e9, r, hd, ⟨L, hL⟩, d3⟩, ?_⟩
  have e3 := e 3 (by decide)
  obtain ⟨loss, hl, lt⟩ := C100_solves (by omega) le_rfl e3 pinv
  obtain ⟨ml, hml, b1, -, -⟩ := lit_small (lm := lm) 1 13 (z := 1e-13) rfl (by norm_num) (by norm_num)
  have c1 := abs_le.1 (b1.trans (mul_le_mul_of_nonneg_right ulp_le_milli (by norm_num)))
  refine ⟨_, ml, loss, e3, hml, ?_, hl, ?_⟩
  · norm_num at c1 ⊢; linarith
  · rw [B64.lt_iff] at lt
    rw [B64.le_iff]
    exact ⟨lt.1, lt.2.1, lt.2.2.le⟩

end Isotope
