import Verif.Lemmas.Noise
import Verif.Lemmas.FloatNoisy

/-!
# A line search in binary64 on a linear sketch
-/

namespace Isotope
open Matrix
variable {lm : Libm}

/-! ## The tests of the line search -/

theorem least_le : (2 : ℝ) ^ (-1075 : ℤ) ≤ 1e-60 :=
  (two_le (show (-1075 : ℤ) ≤ -200 by norm_num)).trans (by norm_num)

theorem ulp_le_milli : ulp ≤ 1.2e-16 := by rw [ulp_eq]; norm_num

theorem twice_le {v t : ℝ} {k : ℤ} (ht : t ≤ 2 ^ k) (hv : v ≤ 2 * t) : v ≤ 2 ^ (k + 1) := by
  rw [zpow_add_one₀ (by norm_num)]
  linarith

theorem c1_is : ∃ c : ℝ, (wolfeC1 : B64 lm).Is c ∧ |c - 1e-4| ≤ 1e-15 * 1e-4 := by
  have h := B64.Is.lit (lm := lm) 1 true 4 (abs_rs_lt_top (k := 0) (by norm_num) (by norm_num) (by norm_num)) (by norm_num)
  refine ⟨_, h, ?_⟩
  have e := rs_err' (OfScientific.ofScientific 1 true 4 : ℝ)
  have l := least_le
  have u := ulp_le_milli
  have e4 : (OfScientific.ofScientific 1 true 4 : ℝ) = 1e-4 := rfl
  rw [e4] at *
  rw [abs_of_nonneg (show (0 : ℝ) ≤ 1e-4 by norm_num)] at e
  have : ulp * 1e-4 ≤ 1.2e-16 * 1e-4 := mul_le_mul_of_nonneg_right u (by norm_num)
  refine e.trans ?_
  generalize (2 : ℝ) ^ (-1075 : ℤ) = δ at *
  norm_num at *
  linarith

theorem c2_is : ∃ c : ℝ, (wolfeC2 : B64 lm).Is c ∧ |c - 0.9| ≤ 1e-15 := by
  have h := B64.Is.lit (lm := lm) 9 true 1 (abs_rs_lt_top (k := 0) (by norm_num) (by norm_num) (by norm_num)) (by norm_num)
  refine ⟨_, h, ?_⟩
  have e := rs_err' (OfScientific.ofScientific 9 true 1 : ℝ)
  have l := least_le
  have u := ulp_le_milli
  have e4 : (OfScientific.ofScientific 9 true 1 : ℝ) = 0.9 := rfl
  rw [e4] at *
  rw [abs_of_nonneg (show (0 : ℝ) ≤ 0.9 by norm_num)] at e
  have : ulp * 0.9 ≤ 1.2e-16 * 0.9 := mul_le_mul_of_nonneg_right u (by norm_num)
  refine e.trans ?_
  generalize (2 : ℝ) ^ (-1075 : ℤ) = δ at *
  norm_num at *
  linarith

theorem is_three_halves : (1.5 : B64 lm).Is 1.5 := by
  have h := B64.Is.lit (lm := lm) 15 true 1 (abs_rs_lt_top (k := 1) (by norm_num) (by norm_num) (by norm_num)) (by norm_num)
  have e4 : (OfScientific.ofScientific 15 true 1 : ℝ) = 1.5 := rfl
  rw [e4] at h
  rwa [rs_rep] at h
  rw [abs_of_nonneg (by norm_num)]
  exact ⟨3, -1, by norm_num, by norm_num, by norm_num, by norm_num⟩

/-- the right-hand side of the first test -/
theorem armijo_rhs {aB lB mB : B64 lm} {α L v t : ℝ} (hα : aB.Is α) (hL : lB.Is L) (hv : mB.Is v)
    (α0 : 0 < α) (α1 : α ≤ 2 ^ (10 : ℤ)) (t0 : 1e-30 ≤ α * t) (α2 : 1e-30 ≤ α) (tp : 0 < t) (t1 : t ≤ 2 ^ (400 : ℤ)) (hvt : |v + t| ≤ 1e-6 * t) (L0 : 0 ≤ L)
    (L1 : L ≤ 2 ^ (500 : ℤ)) (hu : ulp * L ≤ 1e-7 * (α * t)) :
    ∃ R, (lB + wolfeC1 * aB * mB).Is R ∧ |R - (L - 1e-4 * (α * t))| ≤ 1e-6 * (α * t) := by
  obtain ⟨c, hc, ec⟩ := c1_is (lm := lm)
  have l := least_le
  have u := ulp_le_milli
  have u0 := ulp_pos
  rw [abs_le] at ec hvt
  have c0 : 0 < c := by norm_num at ec ⊢; linarith
  have c1 : c ≤ 1 := by norm_num at ec ⊢; linarith
  have e10 : (2 : ℝ) ^ (10 : ℤ) = 1024 := by norm_num
  -- c * alpha
  have p1 : |c * α| ≤ 2 ^ (10 : ℤ) := by
    rw [abs_of_nonneg (by positivity)]
    nlinarith
  have h1 := hc.mul hα (abs_rs_lt_top (k := 10) (by norm_num) (by norm_num) p1)
  have e1 := rs_err' (c * α)
  have b1 := abs_rs_le (rep_pow 10 (by norm_num) (by norm_num)) p1
  generalize rs (c * α) = k1 at *
  -- times the slope
  have hv4 : |v| ≤ 2 ^ (401 : ℤ) := by
    refine twice_le t1 (k := 400) ?_
    clear t1 L1 α1 e10 p1 b1 e1 l
    rw [abs_le]
    constructor <;> linarith [hvt.1, hvt.2]
  have p2 : |k1 * v| ≤ 2 ^ (411 : ℤ) := by
    rw [abs_mul]
    refine (mul_le_mul b1 hv4 (abs_nonneg _) (by positivity)).trans ?_
    rw [two_mul_two]
    exact two_le (by norm_num)
  have h2 := h1.mul hv (abs_rs_lt_top (k := 411) (by norm_num) (by norm_num) p2)
  have e2 := rs_err' (k1 * v)
  have b2 := abs_rs_le (rep_pow 411 (by norm_num) (by norm_num)) p2
  generalize rs (k1 * v) = k2 at *
  -- plus the loss
  have p3 : |L + k2| ≤ 2 ^ (501 : ℤ) := by
    have h411 : |k2| ≤ 2 ^ (500 : ℤ) := b2.trans (two_le (by norm_num))
    have := abs_add_le L k2
    rw [abs_of_nonneg L0] at this
    refine twice_le (k := 500) le_rfl (this.trans ?_)
    rw [two_mul]
    exact add_le_add L1 h411
  have h3 := hL.add h2 (abs_rs_lt_top (k := 501) (by norm_num) (by norm_num) p3)
  have e3 := rs_err' (L + k2)
  refine ⟨_, h3, ?_⟩
  generalize rs (L + k2) = k3 at *
  clear p3 h3 b2 p2 hv4 b1 p1 h2 h1 t1 L1
  generalize (2 : ℝ) ^ (-1075 : ℤ) = δ at *
  clear α1 e10
  generalize ulp = w at *
  -- the errors
  have f1 : |k1 - 1e-4 * α| ≤ 1e-11 * α := by
    have a1 : |c * α - 1e-4 * α| ≤ 1e-15 * α := by
      rw [← sub_mul, abs_mul, abs_of_pos α0]
      refine mul_le_mul_of_nonneg_right ?_ α0.le
      rw [abs_le]; constructor <;> linarith [ec.1, ec.2]
    have a2 : w * |c * α| ≤ 1.2e-16 * α := by
      rw [abs_of_nonneg (by positivity)]
      have : c * α ≤ 1 * α := mul_le_mul_of_nonneg_right c1 α0.le
      nlinarith
    have := abs_sub_le k1 (c * α) (1e-4 * α)
    have a3 : δ ≤ 1e-12 * α := by
      norm_num at *; linarith
    norm_num at *; linarith
  have at0 : 0 < α * t := mul_pos α0 tp
  have f2 : |k1 * v - -(1e-4 * (α * t))| ≤ 2e-10 * (α * t) := by
    have ev : |v| ≤ 1.1 * t := by rw [abs_le]; constructor <;> linarith [hvt.1, hvt.2]
    have s1 : |(k1 - 1e-4 * α) * v| ≤ 1e-11 * α * (1.1 * t) := by
      rw [abs_mul]
      exact mul_le_mul f1 ev (abs_nonneg _) (by positivity)
    have s2 : |1e-4 * α * (v + t)| ≤ 1e-4 * α * (1e-6 * t) := by
      rw [abs_mul, abs_of_nonneg (show 0 ≤ 1e-4 * α by positivity)]
      exact mul_le_mul_of_nonneg_left (abs_le.2 hvt) (by positivity)
    have : k1 * v - -(1e-4 * (α * t)) = (k1 - 1e-4 * α) * v + 1e-4 * α * (v + t) := by ring
    rw [this]
    refine (abs_add_le _ _).trans ?_
    norm_num at *; nlinarith
  have f3 : |k1 * v| ≤ α * t := by
    have := abs_le.1 f2
    rw [abs_le]
    constructor <;> linarith [this.1, this.2]
  have f4 : w * |k1 * v| ≤ 1.2e-16 * (α * t) := by nlinarith [abs_nonneg (k1 * v)]
  have f5 : |k2 - -(1e-4 * (α * t))| ≤ 3e-10 * (α * t) := by
    have := abs_sub_le k2 (k1 * v) (-(1e-4 * (α * t)))
    norm_num at *; linarith
  have f6 : w * |L + k2| ≤ 2e-7 * (α * t) := by
    have g1 : |L + k2| ≤ L + α * t := by
      rw [abs_le] at f5 ⊢
      constructor <;> norm_num at * <;> linarith [f5.1, f5.2]
    calc w * |L + k2| ≤ w * (L + α * t) := mul_le_mul_of_nonneg_left g1 u0.le
      _ = w * L + w * (α * t) := by ring
      _ ≤ 1e-7 * (α * t) + 1.2e-16 * (α * t) := add_le_add hu (mul_le_mul_of_nonneg_right u at0.le)
      _ ≤ _ := by norm_num; linarith
  have := abs_sub_le k3 (L + k2) (L - 1e-4 * (α * t))
  have e : L + k2 - (L - 1e-4 * (α * t)) = k2 - -(1e-4 * (α * t)) := by ring
  rw [e] at this
  norm_num at *; linarith

/-- the right-hand side of the second test -/
theorem curv_rhs {mB : B64 lm} {v t : ℝ} (hv : mB.Is v) (t0 : 1e-30 ≤ t) (t1 : t ≤ 2 ^ (400 : ℤ)) (hvt : |v + t| ≤ 1e-6 * t) :
    ∃ R, (wolfeC2 * mB).Is R ∧ R ≤ -(0.8999 * t) := by
  obtain ⟨c, hc, ec⟩ := c2_is (lm := lm)
  have l := least_le
  have u := ulp_le_milli
  have u0 := ulp_pos
  rw [abs_le] at ec hvt
  have tp : 0 < t := by norm_num at *; linarith
  have c0 : 0 < c := by norm_num at ec ⊢; linarith
  have c1 : c ≤ 1 := by norm_num at ec ⊢; linarith
  have c2 : 0.89999999 ≤ c := by norm_num at ec ⊢; linarith
  have hv4 : |v| ≤ 1.1 * t := by rw [abs_le]; constructor <;> linarith [hvt.1, hvt.2]
  have p : |c * v| ≤ 1.1 * t := by
    rw [abs_mul, abs_of_pos c0]
    nlinarith [abs_nonneg v]
  have p' : |c * v| ≤ 2 ^ (401 : ℤ) := by
    refine twice_le t1 (k := 400) (p.trans ?_)
    clear t1 l
    linarith
  refine ⟨_, hc.mul hv (abs_rs_lt_top (k := 401) (by norm_num) (by norm_num) p'), ?_⟩
  have e := rs_err' (c * v)
  generalize rs (c * v) = k at *
  clear p' t1
  generalize (2 : ℝ) ^ (-1075 : ℤ) = δ at *
  have a2 : ulp * |c * v| ≤ 1e-10 * t := by
    calc ulp * |c * v| ≤ 1.2e-16 * (1.1 * t) := mul_le_mul u p (abs_nonneg _) (by norm_num)
      _ ≤ _ := by norm_num; linarith
  have a3 : c * v ≤ -(0.89999 * t) := by
    have : v ≤ -(0.999999 * t) := by linarith [hvt.2]
    nlinarith
  have := (abs_le.1 e).2
  norm_num at *; linarith


/-! ## A linear sketch, its conditioning, and the numbers that may occur -/

structure LinSet (h : Heap (B64 lm)) (s : Sketch) (N X mu M : ℝ) : Prop where
  nodup : s.cells.Nodup
  closed : Closed ⟨h, s⟩
  lin : ∀ k ∈ s.cons, IsLinear (h.exact.cons k)
  N_ge : 1 ≤ N
  count : 2 * s.cons.length + getNDofs h.exact s ≤ N
  X_ge : 1 ≤ X
  X_le : X ≤ 2 ^ (100 : ℤ)
  par : ∀ k ∈ s.cons, ∀ x ∈ consParams (h.cons k), ∃ r : ℝ, x.Is r ∧ |r| ≤ X
  wp : WellPosed (rowMat h.exact s) (rowRhs h.exact s) mu M
  mu_pos : 0 < mu
  mu_le : mu ≤ M
  lo : 0.121 ≤ mu * 1.5 ^ 14
  hi : M ≤ 1.9 * 2 ^ 14
  small : 2 ^ (-30 : ℤ) * N ^ 2 * (1 + M) ≤ mu

namespace LinSet
variable {h H : Heap (B64 lm)} {s : Sketch} {N X mu M : ℝ} (S : LinSet h s N X mu M)
include S

theorem M_pos : 0 < M := S.mu_pos.trans_le S.mu_le

theorem N_le : N ≤ 2 ^ 15 := by
  have h1 := S.small
  have h2 := S.mu_le
  have h3 := S.M_pos
  have h4 := S.N_ge
  norm_num at h1
  by_contra hn
  push Not at hn
  norm_num at hn
  have : 32768 * 32768 ≤ N ^ 2 := by nlinarith
  nlinarith

theorem tol_ge : 2 ^ 11 * ulp * N ^ 2 ≤ tol mu M := by
  have h1 := S.small
  have h3 := S.M_pos
  unfold tol
  rw [le_div_iff₀ (by linarith), ulp_eq]
  norm_num at h1 ⊢
  linarith

theorem kap_le : kapOf N ≤ tol mu M := by
  have := S.tol_ge
  have h2 : 0 ≤ ulp * N ^ 2 := mul_nonneg ulp_pos.le (sq_nonneg N)
  unfold kapOf
  linarith

omit S in
theorem nDofs : getNDofs H s = getNDofs h.exact s := by
  rw [← exact_nDofs, ← dofs_length, ← dofs_length]

theorem n_le : (getNDofs h.exact s : ℝ) ≤ N := by
  have := S.count
  have h2 : (0 : ℝ) ≤ s.cons.length := Nat.cast_nonneg _
  linarith

/-- the loss and the gradient in a state of a run -/
theorem noisy (r : SameRefs h H) {x : Fin (getNDofs h.exact s) → ℝ} (hx : VIs (getData H s) x) (hb : ∀ i, |x i| ≤ X) :
    ∃ q L g gs H', (getLoss H s).Is L ∧ getGradient H s = .ok (gs, H') ∧ VIs gs g ∧
      Noisy (rowMat h.exact s) (epsOf N X) (kapOf N) (rowMat h.exact s *ᵥ x - rowRhs h.exact s) L g q ∧ vlen q ≤ 2 ^ (160 : ℤ) ∧
      ∀ i, |g i| ≤ 2 ^ (160 : ℤ) := by
  refine float_noisy S.nodup S.closed S.lin S.N_ge (S.N_le.trans (by norm_num)) S.count S.X_ge ⟨r, fun z hz => ?_, S.par, S.X_le⟩ hx
  obtain ⟨i, hi, rfl⟩ := List.mem_iff_getElem.1 hz
  exact ⟨_, hx.get ⟨i, by rw [← hx.length]; exact hi⟩, hb _⟩

/-- writing the trial point -/
theorem trial (r : SameRefs h H) {xs gs : List (B64 lm)} {x g : Fin (getNDofs h.exact s) → ℝ} (hx : VIs xs x) (hg : VIs gs g)
    {aB : B64 lm} {α : ℝ} (hα : aB.Is α) (hxb : ∀ i, |x i| ≤ X / 2) (hyb : ∀ i, |x i - α * g i| ≤ X / 2) :
    ∃ y H1, setData H s (vadd xs (vscale aB (vneg gs))) = .ok H1 ∧ SameRefs h H1 ∧ getData H1 s = vadd xs (vscale aB (vneg gs)) ∧
      VIs (getData H1 s) y ∧ (∀ i, |y i - (x i - α * g i)| ≤ 2 * ulp * X) ∧ ∀ i, |y i| ≤ X := by
  have u := ulp_le_milli
  have u0 := ulp_pos
  have X1 := S.X_ge
  have l : (2 : ℝ) ^ (-1075 : ℤ) ≤ 1e-3 * ulp := least_le.trans (by rw [ulp_eq]; norm_num)
  have l0 : (0 : ℝ) < 2 ^ (-1075 : ℤ) := by positivity
  have each : ∀ i, ∃ p : ℝ, (aB * -(gs[i.1]'(by rw [hg.length]; exact i.2))).Is p ∧ |p - -(α * g i)| ≤ 1.001 * ulp * X := by
    intro i
    have e0 : |α * -g i| ≤ X := by
      have h1 := abs_le.1 (hxb i)
      have h2 := abs_le.1 (hyb i)
      rw [abs_le]; constructor <;> linarith [h1.1, h1.2, h2.1, h2.2]
    refine ⟨_, hα.mul (hg.get i).neg (abs_rs_lt_top (k := 100) (by norm_num) (by norm_num) (e0.trans S.X_le)), ?_⟩
    have e1 := rs_err' (α * -g i)
    rw [show -(α * g i) = α * -g i by ring]
    have e2 : ulp * |α * -g i| ≤ ulp * X := mul_le_mul_of_nonneg_left e0 u0.le
    generalize (2 : ℝ) ^ (-1075 : ℤ) = δ at *
    nlinarith
  choose p hp ep using each
  have tot : ∀ i, |x i + p i| ≤ 0.6 * X ∧ |x i + p i - (x i - α * g i)| ≤ 1.001 * ulp * X := by
    intro i
    have e : x i + p i - (x i - α * g i) = p i - -(α * g i) := by ring
    refine ⟨?_, by rw [e]; exact ep i⟩
    have h1 := abs_sub_le (x i + p i) (x i - α * g i) 0
    rw [sub_zero, sub_zero, e] at h1
    have h2 := ep i
    have h3 := hyb i
    have h4 : ulp * X ≤ 1.2e-16 * X := mul_le_mul_of_nonneg_right u (by linarith)
    norm_num at *
    linarith
  let y : Fin (getNDofs h.exact s) → ℝ := fun i => rs (x i + p i)
  have hl1 : (vadd xs (vscale aB (vneg gs))).length = getNDofs h.exact s := by
    simp [vadd, vscale, vneg, hx.length, hg.length]
  have hy : VIs (vadd xs (vscale aB (vneg gs))) y := by
    refine VIs.of_get hl1 fun i h1 h2 => ?_
    simp only [vadd, vscale, vneg, List.getElem_zipWith, List.getElem_map]
    refine (hx.get ⟨i, h2⟩).add (hp ⟨i, h2⟩) (abs_rs_lt_top (k := 100) (by norm_num) (by norm_num) ?_)
    refine le_trans ?_ S.X_le
    exact (tot ⟨i, h2⟩).1.trans (by linarith)
  have ye : ∀ i, |y i - (x i + p i)| ≤ 0.6 * ulp * X := by
    intro i
    have := rs_add_err (hx.get i).rep (hp i).rep
    refine this.trans ?_
    calc ulp * |x i + p i| ≤ ulp * (0.6 * X) := mul_le_mul_of_nonneg_left (tot i).1 u0.le
      _ = _ := by ring
  obtain ⟨H1, e1⟩ := (C14_ok_iff H s S.nodup (vadd xs (vscale aB (vneg gs)))).2 ⟨by rw [hl1, nDofs (h := h)], hy.isFinite⟩
  have fr := C14_frame H s (vadd xs (vscale aB (vneg gs)))
  rw [e1] at fr
  have ed := C12_roundtrip H H1 s _ S.nodup e1
  refine ⟨y, H1, e1, r.trans fr.1, ed, by rw [ed]; exact hy, fun i => ?_, fun i => ?_⟩
  · have h1 := abs_sub_le (y i) (x i + p i) (x i - α * g i)
    have h2 := (tot i).2
    have h3 := ye i
    have : 0 ≤ ulp * X := by positivity
    linarith
  · have h1 := abs_sub_le (y i) (x i + p i) 0
    rw [sub_zero, sub_zero] at h1
    have h2 := (tot i).1
    have h3 := ye i
    have h4 : ulp * X ≤ 1.2e-16 * X := mul_le_mul_of_nonneg_right u (by linarith)
    norm_num at *
    linarith

end LinSet

end Isotope
