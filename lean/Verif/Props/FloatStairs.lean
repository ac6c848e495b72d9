import Verif.Lemmas.FloatStairs
import Verif.Props.FloatOk

/-!
# C100: the stairs benchmark in binary64
-/

namespace Isotope
open Round Val

variable {lm : Libm}

theorem stairs_b64 {n : Nat} (h1 : 0 < n) (hn : 2 * n ≤ 2 ^ 64) {b : Bench (B64 lm)} (hb : stairsNew n = some b) :
    b = ⟨stairsWorld n (n - 1) (2 * (n - 1) + 1), List.range n⟩ := by
  rw [stairs_eq B64.is_zero.isFinite is_step.isFinite h1 hn, Option.some.injEq] at hb
  exact hb.symm

/-- **C100.** In binary64 the benchmark is built without a panic, for every `n` from 1 to `2⁶³`. -/
theorem C100_build (n : Nat) (h1 : 0 < n) (hn : 2 * n ≤ 2 ^ 64) :
    ∃ b : Bench (B64 lm), stairsNew n = some b ∧ b.points.length = n ∧ b.points.Nodup ∧ b.world.sketch.getNumPrimitives = 2 * n - 1 ∧
      b.world.sketch.getNumConstraints = 2 * n - 1 ∧ Closed b.world :=
  C63_stairs_build B64.is_zero.isFinite is_step.isFinite n h1 hn

theorem small_pow {k : Nat} (hk : k ≤ 2 ^ 21) : (1 + 2 * ulp) ^ k ≤ 1 + 2 ^ (-30 : ℤ) := by
  have u0 := ulp_pos
  have h1 : (1 + 2 * ulp) ^ k ≤ Real.exp (k * (2 * ulp)) := by
    rw [Real.exp_nat_mul]
    exact pow_le_pow_left₀ (by positivity) (by linarith [Real.add_one_le_exp (2 * ulp)]) k
  have k1 : (k : ℝ) ≤ 2 ^ 21 := by exact_mod_cast hk
  have h2 : (k : ℝ) * (2 * ulp) ≤ 2 ^ 21 * (2 * ulp) := mul_le_mul_of_nonneg_right k1 (by positivity)
  have h3 : 0 ≤ (k : ℝ) * (2 * ulp) := by positivity
  have h4 : (k : ℝ) * (2 * ulp) ≤ 2 ^ (-31 : ℤ) := by
    rw [ulp_eq] at h2 ⊢
    norm_num at h2 ⊢
    linarith
  have h5 := Real.abs_exp_sub_one_le (x := (k : ℝ) * (2 * ulp)) (by rw [abs_of_nonneg h3]; exact h4.trans (by norm_num))
  rw [abs_of_nonneg h3] at h5
  have h6 := (abs_le.1 h5).2
  norm_num at h4 ⊢
  linarith

/-- **C100.** Whatever moved the points: if the loss of the stairs, as computed in binary64, is a finite `L`, then all coordinates are finite
and those of the `i`-th point (from 0) are within `(1 + 2⁻³⁰) √(2 (i + 1) L) + (i + 1) 2⁻⁵²` of where they belong. -/
theorem C100_error {n : Nat} (h1 : 0 < n) (hn : n ≤ 2 ^ 20) {b : Bench (B64 lm)} (hb : stairsNew n = some b) {h : Heap (B64 lm)}
    (hr : SameRefs b.world.heap h) {L : ℝ} (hL : (getLoss h b.world.sketch).Is L) (i p : Nat) (hp : b.points[i]? = some p) :
    ∃ x y, At h p x y ∧ |x - ((i + 1) / 2 : ℕ) * 0.8| ≤ (1 + 2 ^ (-30 : ℤ)) * √(2 * (i + 1) * L) + (i + 1) * 2 ^ (-52 : ℤ) ∧
      |y - (i / 2 : ℕ) * 0.8| ≤ (1 + 2 ^ (-30 : ℤ)) * √(2 * (i + 1) * L) + (i + 1) * 2 ^ (-52 : ℤ) := by
  obtain rfl := stairs_b64 h1 (by omega) hb
  obtain ⟨hi, rfl⟩ : i < n ∧ i = p := by simpa [List.getElem?_range, List.getElem?_eq_some_iff] using hp
  obtain ⟨f, f0, f1, f2⟩ := loss_sum hL
  have hc : (stairsWorld n (n - 1) (2 * (n - 1) + 1) : World (B64 lm)).sketch.cons = List.range (2 * (n - 1) + 1) := rfl
  have f3 : ∀ j < 2 * (n - 1) + 1, (lossValue h (stairsCons j)).Is (f j) := by
    intro j hj
    have := f1 j (by show j ∈ _; rw [hc]; exact List.mem_range.2 hj)
    rwa [hr.cons, stairs_cons_any _ _ _ _ hj] at this
  obtain ⟨x, y, A, B, hp, hx, hy, hA, hB⟩ := place_bound hr f0 f3 i hi
  have L0 : 0 ≤ L := by
    have : 0 ≤ (List.map f (List.range (2 * (n - 1) + 1))).sum :=
      List.sum_nonneg (by intro x hx; obtain ⟨j, -, rfl⟩ := List.mem_map.1 hx; exact f0 j)
    change (List.map f (List.range (2 * (n - 1) + 1))).sum ≤ _ at f2
    exact nonneg_of_mul_nonneg_right (this.trans f2) (by have := ulp_pos; positivity)
  have e1 : (List.map f (List.range (2 * (n - 1) + 1))).sum = ∑ j ∈ Finset.range (2 * (n - 1) + 1), f j := by
    rw [Finset.sum_range, ← List.sum_ofFn, List.ofFn_eq_map, ← List.map_coe_finRange_eq_range, List.map_map]
    rfl
  have e2 : ∑ j ∈ Finset.range (2 * (n - 1) + 1), f j ≤ (1 + 2 ^ (-30 : ℤ)) * L := by
    rw [← e1]
    refine f2.trans (mul_le_mul_of_nonneg_right (small_pow ?_) L0)
    simp only [hc, List.length_range]
    omega
  have e3 : ∑ j ∈ Finset.range (2 * i + 1), f j ≤ (1 + 2 ^ (-30 : ℤ)) * L :=
    (Finset.sum_le_sum_of_subset_of_nonneg (by intro j; simp only [Finset.mem_range]; omega) fun j _ _ => f0 j).trans e2
  have i1 : ((2 * i + 1 : ℕ) : ℝ) ≤ 2 ^ 21 := by exact_mod_cast (show 2 * i + 1 ≤ 2 ^ 21 by omega)
  have tiny : (2 : ℝ) ^ (-600 : ℤ) ≤ 2 ^ (-200 : ℤ) := two_le (by norm_num)
  have e4 : ∑ j ∈ Finset.range (2 * i + 1), (1 + 2 ^ (-49 : ℤ)) ^ 2 * (f j + 2 ^ (-600 : ℤ)) ≤
      (1 + 2 ^ (-29 : ℤ)) * L + 2 ^ (-178 : ℤ) := by
    rw [← Finset.mul_sum, Finset.sum_add_distrib, Finset.sum_const, Finset.card_range, nsmul_eq_mul]
    generalize ∑ j ∈ Finset.range (2 * i + 1), f j = S at e3
    have z0 : (0 : ℝ) < 2 ^ (-600 : ℤ) := by positivity
    generalize (2 : ℝ) ^ (-600 : ℤ) = z at tiny z0
    have k1 : ((2 * i + 1 : ℕ) : ℝ) * z ≤ 2 ^ (-179 : ℤ) := by
      refine (mul_le_mul i1 tiny z0.le (by positivity)).trans (le_of_eq ?_)
      norm_num
    have k2 : (1 + (2 : ℝ) ^ (-49 : ℤ)) ^ 2 * S ≤ (1 + 2 ^ (-49 : ℤ)) ^ 2 * ((1 + 2 ^ (-30 : ℤ)) * L) := mul_le_mul_of_nonneg_left e3 (by positivity)
    have k3 : (1 + (2 : ℝ) ^ (-49 : ℤ)) ^ 2 * (((2 * i + 1 : ℕ) : ℝ) * z) ≤ 2 * 2 ^ (-179 : ℤ) :=
      mul_le_mul (by norm_num) k1 (by positivity) (by norm_num)
    have k4 : (1 + (2 : ℝ) ^ (-49 : ℤ)) ^ 2 * ((1 + 2 ^ (-30 : ℤ)) * L) ≤ (1 + 2 ^ (-29 : ℤ)) * L := by
      rw [← mul_assoc]
      exact mul_le_mul_of_nonneg_right (by norm_num) L0
    have k5 : (2 : ℝ) * 2 ^ (-179 : ℤ) = 2 ^ (-178 : ℤ) := by norm_num
    rw [mul_add, ← k5]
    linarith
  have bound : ∀ {a C : ℝ}, |a| ≤ C + 2 * ulp * i → C ^ 2 ≤ 2 * (i + 1) * ∑ j ∈ Finset.range (2 * i + 1), (1 + 2 ^ (-49 : ℤ)) ^ 2 * (f j + 2 ^ (-600 : ℤ)) →
      |a| ≤ (1 + 2 ^ (-30 : ℤ)) * √(2 * (i + 1) * L) + (i + 1) * 2 ^ (-52 : ℤ) := by
    intro a C ha hC
    have i0 : (0 : ℝ) ≤ i := Nat.cast_nonneg i
    have h1 : C ^ 2 ≤ 2 * (i + 1) * ((1 + 2 ^ (-29 : ℤ)) * L + 2 ^ (-178 : ℤ)) := hC.trans (mul_le_mul_of_nonneg_left e4 (by positivity))
    have q := Real.sqrt_nonneg (2 * (i + 1) * L)
    have q2 := Real.sq_sqrt (show 0 ≤ 2 * ((i : ℝ) + 1) * L by positivity)
    have h2 : C ≤ (1 + 2 ^ (-30 : ℤ)) * √(2 * (i + 1) * L) + 2 ^ (-52 : ℤ) := by
      refine (abs_le_of_sq_le_sq' (h1.trans ?_) (by positivity)).2
      have i2 : ((i + 1 : ℕ) : ℝ) ≤ 2 ^ 20 := by exact_mod_cast (show i + 1 ≤ 2 ^ 20 by omega)
      push_cast at i2
      have t1 : 2 * ((i : ℝ) + 1) * 2 ^ (-178 : ℤ) ≤ (2 ^ (-52 : ℤ)) ^ 2 := by norm_num at i2 ⊢; linarith
      have t2 : 2 * ((i : ℝ) + 1) * ((1 + 2 ^ (-29 : ℤ)) * L) ≤ (1 + 2 ^ (-30 : ℤ)) ^ 2 * (2 * (i + 1) * L) := by
        have : 0 ≤ 2 * ((i : ℝ) + 1) * L := by positivity
        have := mul_le_mul_of_nonneg_right (show (1 + (2 : ℝ) ^ (-29 : ℤ)) ≤ (1 + 2 ^ (-30 : ℤ)) ^ 2 by norm_num) this
        linarith
      rw [← q2] at t2
      have t3 : 0 ≤ (1 + (2 : ℝ) ^ (-30 : ℤ)) * √(2 * (i + 1) * L) * 2 ^ (-52 : ℤ) := by positivity
      rw [mul_add, add_sq, mul_pow]
      linarith
    have : 2 * ulp = 2 ^ (-52 : ℤ) := by rw [ulp_eq]; norm_num
    rw [this] at ha
    linarith
  exact ⟨x, y, hp, bound hx hA, bound hy hB⟩

theorem passes {h : Heap (B64 lm)} {p : Nat} {x y X Y e : ℝ} (hp : At h p x y) {TX TY eps : B64 lm} (hX : TX.Is X) (hY : TY.Is Y)
    (he : eps.Is e) (bx : |x - X| ≤ e) (bY : |y - Y| ≤ e) : pointPasses h p TX TY eps = true := by
  have one : ∀ {a c : B64 lm} {r t : ℝ}, a.Is r → c.Is t → |r - t| ≤ e → gt (Num.abs (a - c)) eps = false := by
    intro a c r t ha hc hb
    have re : Rep e := by
      have := he.rep
      rwa [abs_of_nonneg ((abs_nonneg _).trans hb)] at this
    have k := abs_rs_le re hb
    have h1 := (ha.sub hc (lt_of_le_of_lt k re.lt_top)).abs
    have h2 := (he.lt_iff h1).not.2 (not_lt.2 k)
    simpa [gt] using h2
  unfold pointPasses
  rw [one hp.1 hX bx, one hp.2 hY bY]
  rfl

/-- **C100.** `check(eps)` in binary64 passes as soon as `(1 + 2⁻³⁰) √(2 (n - 1) L) + n 2⁻⁵⁰ ≤ eps`, where `L` is the computed loss. -/
theorem C100_check {n : Nat} (h1 : 0 < n) (hn : n ≤ 2 ^ 20) {b : Bench (B64 lm)} (hb : stairsNew n = some b) {h : Heap (B64 lm)}
    (hr : SameRefs b.world.heap h) {L e : ℝ} (hL : (getLoss h b.world.sketch).Is L) {eps : B64 lm} (he : eps.Is e)
    (hle : (1 + 2 ^ (-30 : ℤ)) * √(2 * (n - 1 : ℕ) * L) + n * 2 ^ (-50 : ℤ) ≤ e) : stairsCheck h b.points eps = some true := by
  have hlen : b.points.length = n := by rw [stairs_b64 h1 (by omega) hb]; exact List.length_range
  have L0 : 0 ≤ L := by
    have hp : Plus (getLoss h b.world.sketch).v := plus_total h _
    exact hp.nonneg hL
  unfold stairsCheck
  rw [if_neg (by omega), Option.some.injEq, List.all_eq_true]
  intro i hi
  rw [hlen, List.mem_range] at hi
  have hg : b.points[i]? = some (b.points.getD i 0) := by
    rw [List.getD_eq_getElem _ _ (by omega), List.getElem?_eq_getElem (by omega)]
  obtain ⟨x, y, hp, hx, hy⟩ := C100_error h1 hn hb hr hL i _ hg
  have i1 : ((i + 1 : ℕ) : ℝ) ≤ (n - 1 : ℕ) := by exact_mod_cast (show i + 1 ≤ n - 1 by omega)
  have i2 : ((i + 1 : ℕ) : ℝ) ≤ n := by exact_mod_cast (show i + 1 ≤ n by omega)
  push_cast at i1 i2
  have hs : √(2 * (i + 1) * L) ≤ √(2 * (n - 1 : ℕ) * L) :=
    Real.sqrt_le_sqrt (mul_le_mul_of_nonneg_right (by linarith) L0)
  have hs' := mul_le_mul_of_nonneg_left hs (show (0 : ℝ) ≤ 1 + 2 ^ (-30 : ℤ) by positivity)
  have fin : ∀ {a : ℝ} {k : Nat}, k ≤ i + 1 → |a - k * 0.8| ≤ (1 + 2 ^ (-30 : ℤ)) * √(2 * (i + 1) * L) + (i + 1) * 2 ^ (-52 : ℤ) →
      |a - rs (k * rs 0.8)| ≤ e := by
    intro a k hk ha
    obtain ⟨m, -⟩ := mult_near (lm := lm) (k := k) (by omega)
    have k1 : (k : ℝ) ≤ i + 1 := by exact_mod_cast hk
    rw [abs_sub_comm] at m
    have t := abs_sub_le a (k * 0.8) (rs (k * rs 0.8))
    have m' : 2 * (k : ℝ) * ulp ≤ 2 * (i + 1) * ulp := mul_le_mul_of_nonneg_right (by linarith) ulp_pos.le
    generalize (1 + (2 : ℝ) ^ (-30 : ℤ)) * √(2 * (i + 1) * L) = u at *
    generalize (1 + (2 : ℝ) ^ (-30 : ℤ)) * √(2 * (n - 1 : ℕ) * L) = v at *
    have p1 : (2 : ℝ) ^ (-52 : ℤ) = 2 * ulp := by rw [ulp_eq]; norm_num
    have p2 : (2 : ℝ) ^ (-50 : ℤ) = 8 * ulp := by rw [ulp_eq]; norm_num
    rw [p1] at ha
    rw [p2] at hle
    have i3 : ((i : ℝ) + 1) * ulp ≤ n * ulp := mul_le_mul_of_nonneg_right i2 ulp_pos.le
    have i4 : 0 ≤ (n : ℝ) * ulp := mul_nonneg (Nat.cast_nonneg n) ulp_pos.le
    linarith
  exact passes hp (mult_near (by omega)).2 (mult_near (by omega)).2 he (fin (by omega) hx) (fin (by omega) hy)

/-- **C100.** The benchmark run in binary64 as `main` does it (tolerance `1e-6`), with any of the four solvers and any parameters: if the
reported loss is at most `L` with `2 (n - 1) L ≤ 9.9e-13`, then it reports success.  So for the default `min_loss` of BFGS (`1e-16`)
up to 4950 points, and for that of gradient descent (`1e-14`) up to 50 points. -/
theorem C100_run {n : Nat} (h1 : 0 < n) (hn : n ≤ 2 ^ 20) {b : Bench (B64 lm)} (hb : stairsNew n = some b) (pinv : PInv (B64 lm))
    (k : SolverKind (B64 lm)) {solved : Bool} {loss bound : B64 lm} {L : ℝ} (hB : bound.Is L) (hnL : 2 * (n - 1 : ℕ) * L ≤ 9.9e-13)
    (hrun : benchRun pinv k (fun h => stairsCheck h b.points 1e-6) b = some (solved, loss)) (hl : (loss <=. bound) = true) :
    solved = true := by
  unfold benchRun at hrun
  dsimp only at hrun
  have hr := (runSolver_moves pinv k b.world.heap b.world.sketch).1
  generalize runSolver pinv k b.world.heap b.world.sketch = o at hr hrun
  split at hrun
  · obtain ⟨s, hs, hrun⟩ := Option.map_eq_some_iff.1 hrun
    cases hrun
    obtain ⟨L', hL', hle⟩ := (plus_total o.heap b.world.sketch).fin_le hB hl
    obtain ⟨e, he, be, -, -⟩ := lit_small (lm := lm) 1 6 (z := 1e-6) rfl (by norm_num) (by norm_num)
    have be' := (abs_le.1 (be.trans (mul_le_mul_of_nonneg_right (show ulp ≤ 1.2e-16 by rw [ulp_eq]; norm_num) (by norm_num)))).1
    have := C100_check h1 hn hb hr hL' he (by
      have q : √(2 * (n - 1 : ℕ) * L') ≤ 9.95e-7 := by
        rw [Real.sqrt_le_left (by norm_num)]
        refine (mul_le_mul_of_nonneg_left hle (by positivity)).trans (hnL.trans ?_)
        norm_num
      have n1 : (n : ℝ) ≤ 2 ^ 20 := by exact_mod_cast hn
      have n2 : (n : ℝ) * 2 ^ (-50 : ℤ) ≤ 2 ^ 20 * 2 ^ (-50 : ℤ) := mul_le_mul_of_nonneg_right n1 (by positivity)
      have u : (1 + (2 : ℝ) ^ (-30 : ℤ)) * √(2 * (n - 1 : ℕ) * L') ≤ (1 + 2 ^ (-30 : ℤ)) * 9.95e-7 := mul_le_mul_of_nonneg_left q (by positivity)
      refine (add_le_add u n2).trans (le_trans ?_ (show 9.99e-7 ≤ e by linarith))
      norm_num)
    rw [this, Option.some.injEq] at hs
    exact hs.symm
  · cases hrun

end Isotope
