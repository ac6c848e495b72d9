import Verif.Lemmas.FloatNearLoss
import Verif.Lemmas.FloatWithin
import Verif.SpecMet
import Mathlib.Analysis.Complex.ExponentialBounds

/-!
# Losses in binary64 are small where the constraints are nearly met

The errors of `Lemmas/FloatNearLoss.lean` are of first order in the rounding unit. Near a solution the residual itself is small, and
so the loss, a square, is off by an error of second order only.
-/

namespace Isotope
open Round Val XR

variable {lm : Libm} {η : ℝ} {h : Heap (B64 lm)}

/-- the loss of a constraint, in terms of by how much it is missed -/
def SmallLoss (η : ℝ) (h : Heap (B64 lm)) (c : Constraint (B64 lm)) : Prop :=
  ∃ w, (lossValue h c).Is w ∧
    w ≤ (missOf h c + 80 * η * ((spanOf h c + 2 ^ (-100 : ℤ)) * badness h c)) ^ 2 * (1 / 2 + 2 ^ (-40 : ℤ)) ∧ w ≤ 2 ^ (300 : ℤ)

/-- the magnitude of a computed residual -/
theorem resid_small (hη : ErrUnit η) {x : B64 lm} {r A k : ℝ} {m : ℕ} (hx : x.Ap η r A k m) (hm : m ≤ 105) (h1 : 1 ≤ k) (h2 : k ≤ 1048576) :
    ∃ v, x.Ap η v (|r| + k * η * A) 0 (m + 27 + 27) ∧ |r| + k * η * A ≤ 2 ^ (106 : ℤ) := by
  have hA := hx.scale_pos
  obtain ⟨v, h3, h4, h5, h6, h7, h8⟩ := hx
  have hp := hη.pos
  have hs := hη.small h8 h2
  have le : |v| ≤ |r| + k * η * A := by
    have := abs_sub_abs_le_abs_sub v r
    linarith
  have hi : |r| + k * η * A ≤ 2 ^ (106 : ℤ) := by
    have a1 : k * η * A ≤ 1 * A := mul_le_mul_of_nonneg_right (by linarith [hs.2]) hA.le
    have a2 : A ≤ 2 ^ (105 : ℤ) := h7.trans (two_le (by omega))
    have e : (2 : ℝ) ^ (105 : ℤ) + 2 ^ (105 : ℤ) = 2 ^ (106 : ℤ) := two_double
    linarith
  refine ⟨v, .of_is h3 le ?_ ?_, hi⟩
  · have e : (2 : ℝ) ^ (-((m + 27 + 27 : ℕ) : ℤ)) ≤ 2 ^ (-53 : ℤ) * 2 ^ (-(m : ℤ)) := by
      rw [two_mul_two]; exact two_le (by push_cast; linarith)
    have a1 : 2 ^ (-53 : ℤ) * 2 ^ (-(m : ℤ)) ≤ k * η * A := by
      refine mul_le_mul ?_ h6 (two_pos _).le (by positivity)
      have : (2 : ℝ) ^ (-53 : ℤ) = ulp := by rw [ulp_eq]; norm_num
      rw [this]
      nlinarith [hη.lo]
    linarith [abs_nonneg r]
  · have a1 : k * η * A ≤ 1 * A := mul_le_mul_of_nonneg_right (by linarith [hs.2]) hA.le
    have e : (2 : ℝ) ^ ((m : ℤ) + 1) ≤ 2 ^ ((m + 27 + 27 : ℕ) : ℤ) := two_le (by push_cast; linarith)
    rw [← two_double] at e
    linarith

theorem small_bounds (hη : ErrUnit η) : 8 * η ≤ 2 ^ (-40 : ℤ) := by
  have h1 := hη.hi
  have : (2 : ℝ) ^ (-40 : ℤ) = 16 * 2 ^ (-44 : ℤ) := by norm_num
  have := two_pos (-44)
  linarith

theorem le300 {E : ℝ} (h0 : 0 ≤ E) (hE : E ≤ 2 ^ (106 : ℤ)) : E ^ 2 ≤ 2 ^ (299 : ℤ) := by
  calc E ^ 2 ≤ (2 ^ (106 : ℤ)) ^ 2 := pow_le_pow_left₀ h0 hE 2
    _ = 2 ^ (212 : ℤ) := by rw [_root_.sq, two_mul_two]; norm_num
    _ ≤ 2 ^ (299 : ℤ) := two_le (by norm_num)

theorem sq_bound (hη : ErrUnit η) {w v E j : ℝ} (hj : j ≤ 8) (h4 : |w - v ^ 2 / 2| ≤ j * η * (E * E / 2)) (hv : |v| ≤ E) :
    w ≤ E ^ 2 * (1 / 2 + 2 ^ (-40 : ℤ)) := by
  have hb := small_bounds hη
  have hp := hη.pos
  have a1 := (abs_le.1 h4).2
  have a2 : v ^ 2 ≤ E ^ 2 := sq_le_sq' (by linarith [(abs_le.1 hv).1]) (by linarith [(abs_le.1 hv).2])
  have a3 : j * η * (E * E / 2) ≤ 2 ^ (-40 : ℤ) * E ^ 2 := by
    have : j * η ≤ 2 ^ (-40 : ℤ) := by nlinarith
    calc j * η * (E * E / 2) ≤ 2 ^ (-40 : ℤ) * (E * E / 2) := by gcongr; nlinarith [mul_self_nonneg E]
      _ ≤ _ := by nlinarith [two_pos (-40), sq_nonneg E, mul_nonneg (two_pos (-40)).le (sq_nonneg E)]
  linarith

theorem small_fin {w E : ℝ} (h0 : 0 ≤ E) (hE : E ≤ 2 ^ (106 : ℤ)) (h : w ≤ E ^ 2 * (1 / 2 + 2 ^ (-40 : ℤ))) : w ≤ 2 ^ (299 : ℤ) := by
  have h1 := le300 h0 hE
  have h40 : (2 : ℝ) ^ (-40 : ℤ) ≤ 1 / 2 := by norm_num
  generalize (2 : ℝ) ^ (299 : ℤ) = M at *
  generalize (2 : ℝ) ^ (-40 : ℤ) = ε at *
  nlinarith [sq_nonneg E]

/-- a constraint with one residual -/
theorem small_one (hη : ErrUnit η) {c : Constraint (B64 lm)} {x : B64 lm} {r A k : ℝ} {m : ℕ}
    (e : missOf h c = |r|) (ev : lossValue h c = (0.5 : B64 lm) * x * x) (hx : x.Ap η r A k m) (hm : m ≤ 105)
    (h1 : 1 ≤ k) (h2 : k ≤ 1048576) (hA : k * A ≤ 80 * ((spanOf h c + 2 ^ (-100 : ℤ)) * badness h c)) : SmallLoss η h c := by
  obtain ⟨v, hv, hE⟩ := resid_small hη hx hm h1 h2
  have hA0 := hx.scale_pos
  have hp := hη.pos
  have hE0 : 0 ≤ |r| + k * η * A := by positivity
  obtain ⟨w, h3, h4, -⟩ := halfsq_ap hη hv 4 400 (by norm_num) (by norm_num) (by omega) (by norm_num)
  have hle := sq_bound hη (by norm_num) h4 hv.bound
  refine ⟨w, by rw [ev]; exact h3, hle.trans ?_, (small_fin hE0 hE hle).trans (two_le (by norm_num))⟩
  have hk : k * η * A ≤ 80 * η * ((spanOf h c + 2 ^ (-100 : ℤ)) * badness h c) := by
    calc k * η * A = η * (k * A) := by ring
      _ ≤ η * (80 * ((spanOf h c + 2 ^ (-100 : ℤ)) * badness h c)) := mul_le_mul_of_nonneg_left hA hp.le
      _ = 80 * η * ((spanOf h c + 2 ^ (-100 : ℤ)) * badness h c) := by ring
  rw [e]
  exact mul_le_mul_of_nonneg_right (pow_le_pow_left₀ hE0 (by linarith) 2) (by positivity)

theorem pair_root {r t e : ℝ} (he : 0 ≤ e) : (|r| + e) ^ 2 + (|t| + e) ^ 2 ≤ (√(r ^ 2 + t ^ 2) + 2 * e) ^ 2 := by
  have h0 : 0 ≤ r ^ 2 + t ^ 2 := by positivity
  have hs := Real.sq_sqrt h0
  have h1 : |r| + |t| ≤ 2 * √(r ^ 2 + t ^ 2) := by
    have a1 : |r| ≤ √(r ^ 2 + t ^ 2) := Real.abs_le_sqrt (by nlinarith)
    have a2 : |t| ≤ √(r ^ 2 + t ^ 2) := Real.abs_le_sqrt (by nlinarith)
    linarith
  nlinarith [sq_abs r, sq_abs t, mul_le_mul_of_nonneg_left h1 he]

/-- a constraint with two residuals -/
theorem small_two (hη : ErrUnit η) {c : Constraint (B64 lm)} {x y : B64 lm} {r t A B k : ℝ} {m : ℕ}
    (e : missOf h c = √(r ^ 2 + t ^ 2)) (ev : lossValue h c = (0.5 : B64 lm) * (x * x + y * y))
    (hx : x.Ap η r A k m) (hy : y.Ap η t B k m) (hm : m ≤ 105) (h1 : 1 ≤ k) (h2 : k ≤ 1048576)
    (hA : 2 * (k * A) ≤ 80 * ((spanOf h c + 2 ^ (-100 : ℤ)) * badness h c))
    (hB : 2 * (k * B) ≤ 80 * ((spanOf h c + 2 ^ (-100 : ℤ)) * badness h c)) : SmallLoss η h c := by
  obtain ⟨v, hv, hE⟩ := resid_small hη hx hm h1 h2
  obtain ⟨u, hu, hD⟩ := resid_small hη hy hm h1 h2
  have hA0 := hx.scale_pos
  have hB0 := hy.scale_pos
  have hp := hη.pos
  have hE0 : 0 ≤ |r| + k * η * A := by positivity
  have hD0 : 0 ≤ |t| + k * η * B := by positivity
  obtain ⟨w, h3, h4, -⟩ := (half_ap (lm := lm) (η := η)).mul hη ((hv.mul hη hv 318 2 (by norm_num) (by norm_num) (by omega) (by norm_num)).add hη
    (hu.mul hη hu 318 2 (by norm_num) (by norm_num) (by omega) (by norm_num)) 319 4 (by norm_num) (by norm_num) (by norm_num)
    (by norm_num) (by norm_num)) 320 6 (by norm_num) (by norm_num) (by norm_num) (by norm_num)
  have vb := hv.bound
  have ub := hu.bound
  have key : w ≤ ((|r| + k * η * A) ^ 2 + (|t| + k * η * B) ^ 2) * (1 / 2 + 2 ^ (-40 : ℤ)) := by
    have hb := small_bounds hη
    have a1 := (abs_le.1 h4).2
    have a2 : v ^ 2 ≤ (|r| + k * η * A) ^ 2 := sq_le_sq' (by linarith [(abs_le.1 vb).1]) (by linarith [(abs_le.1 vb).2])
    have a3 : u ^ 2 ≤ (|t| + k * η * B) ^ 2 := sq_le_sq' (by linarith [(abs_le.1 ub).1]) (by linarith [(abs_le.1 ub).2])
    generalize |r| + k * η * A = E at *
    generalize |t| + k * η * B = D at *
    have h40 := two_pos (-40)
    generalize (2 : ℝ) ^ (-40 : ℤ) = ε at *
    have a4 : 6 * η * (1 / 2 * (E * E + D * D)) ≤ ε * (E ^ 2 + D ^ 2) := by nlinarith [mul_self_nonneg E, mul_self_nonneg D]
    nlinarith
  have hF : w ≤ 2 ^ (300 : ℤ) := by
    have b1 := le300 hE0 hE
    have b2 := le300 hD0 hD
    have h40 : (2 : ℝ) ^ (-40 : ℤ) ≤ 1 / 2 := by norm_num
    have e : (2 : ℝ) ^ (299 : ℤ) + 2 ^ (299 : ℤ) = 2 ^ (300 : ℤ) := two_double
    rw [← e]
    generalize (2 : ℝ) ^ (299 : ℤ) = M at *
    generalize (2 : ℝ) ^ (-40 : ℤ) = ε at *
    nlinarith [sq_nonneg (|r| + k * η * A), sq_nonneg (|t| + k * η * B)]
  refine ⟨w, by rw [ev]; exact h3, key.trans ?_, hF⟩
  rw [e]
  have hS0 : 0 ≤ 80 * ((spanOf h c + 2 ^ (-100 : ℤ)) * badness h c) := le_trans (by positivity) hA
  rw [show 80 * η * ((spanOf h c + 2 ^ (-100 : ℤ)) * badness h c) = 2 * (η * (80 * ((spanOf h c + 2 ^ (-100 : ℤ)) * badness h c)) / 2) by ring]
  generalize 80 * ((spanOf h c + 2 ^ (-100 : ℤ)) * badness h c) = S at *
  refine mul_le_mul_of_nonneg_right (le_trans ?_ (pair_root (by positivity))) (by positivity)
  gcongr
  · nlinarith
  · nlinarith

section kinds

theorem small_fix (hη : ErrUnit η) {p : Nat} {D : Vec2 (B64 lm)} (hm : ModestCons h (.fix p D)) : SmallLoss η h (.fix p D) := by
  obtain ⟨x, y, q⟩ := hm.pt (p := p) (by simp [consDeps, consFields, primFields])
  obtain ⟨X, hX, bX⟩ := hm.2 D.x (by simp [consParams])
  obtain ⟨Y, hY, bY⟩ := hm.2 D.y (by simp [consParams])
  have gx := gap_ap hη q.ix hX q.bx bX
  have gy := gap_ap hη q.iy hY q.bY bY
  have e : missOf h (.fix p D) = √((x - X) ^ 2 + (y - Y) ^ 2) := by simp only [missOf, q.xOf, q.yOf, hX.real, hY.real]
  have hsp : spanOf h (.fix p D) = |x - X| + |y - Y| := by simp only [spanOf, q.xOf, q.yOf, hX.real, hY.real]
  have hp := two_pos (-101)
  have e2 : (2 : ℝ) ^ (-101 : ℤ) + 2 ^ (-101 : ℤ) = 2 ^ (-100 : ℤ) := two_double
  have h1 := abs_nonneg (x - X)
  have h2 := abs_nonneg (y - Y)
  refine small_two hη e rfl gx gy (by norm_num) le_rfl (by norm_num) ?_ ?_
  · rw [hsp, ← e2]; simp only [badness]; linarith
  · rw [hsp, ← e2]; simp only [badness]; linarith

theorem small_horiz (hη : ErrUnit η) {p q : Nat} {D : B64 lm} (hm : ModestCons h (.horizDist p q D)) : SmallLoss η h (.horizDist p q D) := by
  obtain ⟨x, y, P⟩ := hm.pt (p := p) (by simp [consDeps, consFields, primFields])
  obtain ⟨u, v, Q⟩ := hm.pt (p := q) (by simp [consDeps, consFields, primFields])
  obtain ⟨d, hD, bD⟩ := hm.2 D (by simp [consParams])
  have e2 : (2 : ℝ) ^ (-101 : ℤ) + 2 ^ (-101 : ℤ) = 2 ^ (-100 : ℤ) := two_double
  have g := ((gap_ap hη Q.ix P.ix Q.bx P.bx).sub hη (param_ap hD bD 102 (by norm_num)) 103 3 (by norm_num) (by norm_num) (by norm_num) (by norm_num)
    (by norm_num)).congr rfl (show _ = |u - x| + |d| + 2 ^ (-100 : ℤ) by rw [← e2]; ring)
  have e : missOf h (.horizDist p q D) = |u - x - d| := by simp only [missOf, P.xOf, Q.xOf, hD.real]
  have hsp : spanOf h (.horizDist p q D) = |u - x| + |d| := by simp only [spanOf, P.xOf, Q.xOf, hD.real]
  refine small_one hη e rfl g (by norm_num) (by norm_num) (by norm_num) ?_
  rw [hsp]; simp only [badness]
  linarith [two_pos (-100), abs_nonneg (u - x), abs_nonneg d]

theorem small_vert (hη : ErrUnit η) {p q : Nat} {D : B64 lm} (hm : ModestCons h (.vertDist p q D)) : SmallLoss η h (.vertDist p q D) := by
  obtain ⟨x, y, P⟩ := hm.pt (p := p) (by simp [consDeps, consFields, primFields])
  obtain ⟨u, v, Q⟩ := hm.pt (p := q) (by simp [consDeps, consFields, primFields])
  obtain ⟨d, hD, bD⟩ := hm.2 D (by simp [consParams])
  have e2 : (2 : ℝ) ^ (-101 : ℤ) + 2 ^ (-101 : ℤ) = 2 ^ (-100 : ℤ) := two_double
  have g := ((gap_ap hη Q.iy P.iy Q.bY P.bY).sub hη (param_ap hD bD 102 (by norm_num)) 103 3 (by norm_num) (by norm_num) (by norm_num) (by norm_num)
    (by norm_num)).congr rfl (show _ = |v - y| + |d| + 2 ^ (-100 : ℤ) by rw [← e2]; ring)
  have e : missOf h (.vertDist p q D) = |v - y - d| := by simp only [missOf, P.yOf, Q.yOf, hD.real]
  have hsp : spanOf h (.vertDist p q D) = |v - y| + |d| := by simp only [spanOf, P.yOf, Q.yOf, hD.real]
  refine small_one hη e rfl g (by norm_num) (by norm_num) (by norm_num) ?_
  rw [hsp]; simp only [badness]
  linarith [two_pos (-100), abs_nonneg (v - y), abs_nonneg d]

theorem small_horizLine (hη : ErrUnit η) {l : Nat} (hm : ModestCons h (.horizLine l)) : SmallLoss η h (.horizLine l) := by
  obtain ⟨x, y, u, v, P, Q⟩ := hm.line (l := l) (by simp [consFields])
  have g := gap_ap hη P.iy Q.iy P.bY Q.bY
  have e : missOf h (.horizLine l) = |y - v| := by simp only [missOf, P.yOf, Q.yOf]
  have hsp : spanOf h (.horizLine l) = |y - v| := by simp only [spanOf, P.yOf, Q.yOf]
  refine small_one hη e rfl g (by norm_num) (by norm_num) (by norm_num) ?_
  have : (2 : ℝ) ^ (-101 : ℤ) ≤ 2 ^ (-100 : ℤ) := two_le (by norm_num)
  rw [hsp]; simp only [badness]
  linarith [two_pos (-100), abs_nonneg (y - v)]

theorem small_vertLine (hη : ErrUnit η) {l : Nat} (hm : ModestCons h (.vertLine l)) : SmallLoss η h (.vertLine l) := by
  obtain ⟨x, y, u, v, P, Q⟩ := hm.line (l := l) (by simp [consFields])
  have g := gap_ap hη P.ix Q.ix P.bx Q.bx
  have e : missOf h (.vertLine l) = |x - u| := by simp only [missOf, P.xOf, Q.xOf]
  have hsp : spanOf h (.vertLine l) = |x - u| := by simp only [spanOf, P.xOf, Q.xOf]
  refine small_one hη e rfl g (by norm_num) (by norm_num) (by norm_num) ?_
  have : (2 : ℝ) ^ (-101 : ℤ) ≤ 2 ^ (-100 : ℤ) := two_le (by norm_num)
  rw [hsp]; simp only [badness]
  linarith [two_pos (-100), abs_nonneg (x - u)]

theorem small_euclid (hη : ErrUnit η) {p q : Nat} {D : B64 lm} (hm : ModestCons h (.euclid p q D)) (hc : Clear h (.euclid p q D)) :
    SmallLoss η h (.euclid p q D) := by
  obtain ⟨x, y, P⟩ := hm.pt (p := p) (by simp [consDeps, consFields, primFields])
  obtain ⟨u, v, Q⟩ := hm.pt (p := q) (by simp [consDeps, consFields, primFields])
  obtain ⟨d, hD, bD⟩ := hm.2 D (by simp [consParams])
  simp only [Clear, P.distOf Q] at hc
  have hd := P.dir hη Q ((two_le (by norm_num)).trans hc)
  have g := hd.n.sub hη (param_ap hD bD 102 (by norm_num)) 103 16 (by norm_num) (by norm_num) (by norm_num) (by norm_num) (by norm_num)
  have e : missOf h (.euclid p q D) = |hyp (x - u) (y - v) - d| := by simp only [missOf, P.distOf Q, hD.real]
  have hsp : spanOf h (.euclid p q D) = hyp (x - u) (y - v) + |d| := by simp only [spanOf, P.distOf Q, hD.real]
  refine small_one hη e rfl g (by norm_num) (by norm_num) (by norm_num) ?_
  have : (2 : ℝ) ^ (-101 : ℤ) ≤ 2 ^ (-100 : ℤ) := two_le (by norm_num)
  rw [hsp]; simp only [badness]
  linarith [abs_nonneg d, two_pos (-100), hd.pos]

theorem small_eqLen (hη : ErrUnit η) {l k : Nat} (hm : ModestCons h (.eqLen l k)) (hc : Clear h (.eqLen l k)) : SmallLoss η h (.eqLen l k) := by
  obtain ⟨x, y, u, v, P, Q⟩ := hm.line (l := l) (by simp [consFields])
  obtain ⟨x', y', u', v', P', Q'⟩ := hm.line (l := k) (by simp [consFields])
  simp only [Clear, lenOf, P.distOf Q, P'.distOf Q'] at hc
  have hd := P.dir hη Q hc.1
  have hd' := P'.dir hη Q' hc.2
  have g := hd.n.sub hη hd'.n 103 16 (by norm_num) (by norm_num) (by norm_num) (by norm_num) (by norm_num)
  have e : missOf h (.eqLen l k) = |hyp (x - u) (y - v) - hyp (x' - u') (y' - v')| := by simp only [missOf, lenOf, P.distOf Q, P'.distOf Q']
  have hsp : spanOf h (.eqLen l k) = hyp (x - u) (y - v) + hyp (x' - u') (y' - v') := by simp only [spanOf, lenOf, P.distOf Q, P'.distOf Q']
  refine small_one hη e rfl g (by norm_num) (by norm_num) (by norm_num) ?_
  rw [hsp]; simp only [badness]
  linarith [two_pos (-100), hd.pos, hd'.pos]

theorem small_parallel (hη : ErrUnit η) {l k : Nat} (hm : ModestCons h (.parallel l k)) (hc : Clear h (.parallel l k)) : SmallLoss η h (.parallel l k) := by
  obtain ⟨x, y, u, v, P, Q⟩ := hm.line (l := l) (by simp [consFields])
  obtain ⟨x', y', u', v', P', Q'⟩ := hm.line (l := k) (by simp [consFields])
  simp only [Clear, lenOf, P.distOf Q, P'.distOf Q'] at hc
  have hd : Dir η (lineEnd h l - lineStart h l) (x - u) (y - v) := P.dir hη Q hc.1
  have hd' : Dir η (lineEnd h k - lineStart h k) (x' - u') (y' - v') := P'.dir hη Q' hc.2
  have g := (cross_ap hη hd hd').congr (show _ = ((x - u) * (y' - v') - (y - v) * (x' - u')) /
      (hyp (x - u) (y - v) * hyp (x' - u') (y' - v')) by
    have h1 := hd.pos.ne'; have h2 := hd'.pos.ne'
    field_simp) rfl
  have e : missOf h (.parallel l k) = |((x - u) * (y' - v') - (y - v) * (x' - u')) / (hyp (x - u) (y - v) * hyp (x' - u') (y' - v'))| := by
    rw [abs_div, abs_of_pos (mul_pos hd.pos hd'.pos)]
    simp only [missOf, lenOf, P.distOf Q, P'.distOf Q', P.xOf, P.yOf, Q.xOf, Q.yOf, P'.xOf, P'.yOf, Q'.xOf, Q'.yOf]
  have ev : lossValue h (.parallel l k) = (0.5 : B64 lm) *
      ((lineEnd h l - lineStart h l).normalize.x * (lineEnd h k - lineStart h k).normalize.y -
        (lineEnd h l - lineStart h l).normalize.y * (lineEnd h k - lineStart h k).normalize.x) *
      ((lineEnd h l - lineStart h l).normalize.x * (lineEnd h k - lineStart h k).normalize.y -
        (lineEnd h l - lineStart h l).normalize.y * (lineEnd h k - lineStart h k).normalize.x) := by
    simp only [lossValue, (hd.unit_finite hη).1, (hd.unit_finite hη).2, (hd'.unit_finite hη).1, (hd'.unit_finite hη).2, Bool.not_true,
      Bool.or_self, Bool.false_eq_true, if_false]
  refine small_one hη e ev g (by norm_num) (by norm_num) (by norm_num) ?_
  simp only [spanOf, badness]
  linarith [two_pos (-100)]

theorem small_perp (hη : ErrUnit η) {l k : Nat} (hm : ModestCons h (.perp l k)) (hc : Clear h (.perp l k)) : SmallLoss η h (.perp l k) := by
  obtain ⟨x, y, u, v, P, Q⟩ := hm.line (l := l) (by simp [consFields])
  obtain ⟨x', y', u', v', P', Q'⟩ := hm.line (l := k) (by simp [consFields])
  simp only [Clear, lenOf, P.distOf Q, P'.distOf Q'] at hc
  have hd : Dir η (lineEnd h l - lineStart h l) (x - u) (y - v) := P.dir hη Q hc.1
  have hd' : Dir η (lineEnd h k - lineStart h k) (x' - u') (y' - v') := P'.dir hη Q' hc.2
  have g := (dot_ap hη hd hd').congr (show _ = ((x - u) * (x' - u') + (y - v) * (y' - v')) /
      (hyp (x - u) (y - v) * hyp (x' - u') (y' - v')) by
    have h1 := hd.pos.ne'; have h2 := hd'.pos.ne'
    field_simp) rfl
  have e : missOf h (.perp l k) = |((x - u) * (x' - u') + (y - v) * (y' - v')) / (hyp (x - u) (y - v) * hyp (x' - u') (y' - v'))| := by
    rw [abs_div, abs_of_pos (mul_pos hd.pos hd'.pos)]
    simp only [missOf, lenOf, P.distOf Q, P'.distOf Q', P.xOf, P.yOf, Q.xOf, Q.yOf, P'.xOf, P'.yOf, Q'.xOf, Q'.yOf]
  have ev : lossValue h (.perp l k) = (0.5 : B64 lm) *
      (lineEnd h l - lineStart h l).normalize.dot (lineEnd h k - lineStart h k).normalize *
      (lineEnd h l - lineStart h l).normalize.dot (lineEnd h k - lineStart h k).normalize := by
    simp only [lossValue, (hd.unit_finite hη).1, (hd.unit_finite hη).2, (hd'.unit_finite hη).1, (hd'.unit_finite hη).2, Bool.not_true,
      Bool.or_self, Bool.false_eq_true, if_false]
  refine small_one hη e ev g (by norm_num) (by norm_num) (by norm_num) ?_
  simp only [spanOf, badness]
  linarith [two_pos (-100)]

theorem small_arcEnd {κ : ℝ} (hη : ErrUnit η) (hl : lm.Accurate κ) (hκ : κ ≤ η) {a p : Nat} (hm : ModestCons h (.arcEnd a p)) : SmallLoss η h (.arcEnd a p) := by
  obtain ⟨x, y, P⟩ := hm.pt (p := p) (by simp [consDeps, consFields, primFields])
  obtain ⟨cx, cy, r, t0, t1, C, hr, br, ht0, ht1, ed⟩ := hm.arc (a := a) (by simp [consFields])
  have hco : (Num.cos (h.arcs a).endAngle).Ap η (Real.cos t1) 1 1 0 := by
    obtain ⟨w, e1, e2⟩ := hl.cos _ _ ht1
    exact trig_ap ⟨w, e1, e2.trans hκ⟩ (Real.abs_cos_le_one _)
  have hsi : (Num.sin (h.arcs a).endAngle).Ap η (Real.sin t1) 1 1 0 := by
    obtain ⟨w, e1, e2⟩ := hl.sin _ _ ht1
    exact trig_ap ⟨w, e1, e2.trans hκ⟩ (Real.abs_sin_le_one _)
  have hp := two_pos (-100)
  have hW' : |cx| + |cy| + |r| + |x| + |y| + 2 ^ (-100 : ℤ) ≤ 2 ^ (104 : ℤ) := by
    refine le104 (n := 6) (by norm_num) ?_
    have : (2 : ℝ) ^ (-100 : ℤ) ≤ 2 ^ (100 : ℤ) := two_le (by norm_num)
    linarith [C.bx, C.bY, P.bx, P.bY]
  have nx := abs_nonneg x; have ny := abs_nonneg y; have nr := abs_nonneg r; have ncx := abs_nonneg cx; have ncy := abs_nonneg cy
  have gu := off_ap hη C.ix C.bx hr br hco P.ix P.bx (W := |cx| + |cy| + |r| + |x| + |y| + 2 ^ (-100 : ℤ)) (by linarith) hW'
  have gv := off_ap hη C.iy C.bY hr br hsi P.iy P.bY (W := |cx| + |cy| + |r| + |x| + |y| + 2 ^ (-100 : ℤ)) (by linarith) hW'
  have e : missOf h (.arcEnd a p) = √((cx + r * Real.cos t1 - x) ^ 2 + (cy + r * Real.sin t1 - y) ^ 2) := by
    simp only [missOf, P.xOf, P.yOf, C.xOf, C.yOf, hr.real, ht1.real]
  have hsp : spanOf h (.arcEnd a p) = |cx| + |cy| + |r| + |x| + |y| := by simp only [spanOf, P.xOf, P.yOf, C.xOf, C.yOf, hr.real]
  refine small_two hη e rfl gu gv (by norm_num) (by norm_num) (by norm_num) ?_ ?_
  · rw [hsp]; simp only [badness]; linarith
  · rw [hsp]; simp only [badness]; linarith

theorem small_arcStart {κ : ℝ} (hη : ErrUnit η) (hl : lm.Accurate κ) (hκ : κ ≤ η) {a p : Nat} (hm : ModestCons h (.arcStart a p)) : SmallLoss η h (.arcStart a p) := by
  obtain ⟨x, y, P⟩ := hm.pt (p := p) (by simp [consDeps, consFields, primFields])
  obtain ⟨cx, cy, r, t0, t1, C, hr, br, ht0, ht1, ed⟩ := hm.arc (a := a) (by simp [consFields])
  have hco : (Num.cos (h.arcs a).startAngle).Ap η (Real.cos t0) 1 1 0 := by
    obtain ⟨w, e1, e2⟩ := hl.cos _ _ ht0
    exact trig_ap ⟨w, e1, e2.trans hκ⟩ (Real.abs_cos_le_one _)
  have hsi : (Num.sin (h.arcs a).startAngle).Ap η (Real.sin t0) 1 1 0 := by
    obtain ⟨w, e1, e2⟩ := hl.sin _ _ ht0
    exact trig_ap ⟨w, e1, e2.trans hκ⟩ (Real.abs_sin_le_one _)
  have hp := two_pos (-100)
  have hW' : |cx| + |cy| + |r| + |x| + |y| + 2 ^ (-100 : ℤ) ≤ 2 ^ (104 : ℤ) := by
    refine le104 (n := 6) (by norm_num) ?_
    have : (2 : ℝ) ^ (-100 : ℤ) ≤ 2 ^ (100 : ℤ) := two_le (by norm_num)
    linarith [C.bx, C.bY, P.bx, P.bY]
  have nx := abs_nonneg x; have ny := abs_nonneg y; have nr := abs_nonneg r; have ncx := abs_nonneg cx; have ncy := abs_nonneg cy
  have gu := off_ap hη C.ix C.bx hr br hco P.ix P.bx (W := |cx| + |cy| + |r| + |x| + |y| + 2 ^ (-100 : ℤ)) (by linarith) hW'
  have gv := off_ap hη C.iy C.bY hr br hsi P.iy P.bY (W := |cx| + |cy| + |r| + |x| + |y| + 2 ^ (-100 : ℤ)) (by linarith) hW'
  have e : missOf h (.arcStart a p) = √((cx + r * Real.cos t0 - x) ^ 2 + (cy + r * Real.sin t0 - y) ^ 2) := by
    simp only [missOf, P.xOf, P.yOf, C.xOf, C.yOf, hr.real, ht0.real]
  have hsp : spanOf h (.arcStart a p) = |cx| + |cy| + |r| + |x| + |y| := by simp only [spanOf, P.xOf, P.yOf, C.xOf, C.yOf, hr.real]
  refine small_two hη e rfl gu gv (by norm_num) (by norm_num) (by norm_num) ?_ ?_
  · rw [hsp]; simp only [badness]; linarith
  · rw [hsp]; simp only [badness]; linarith

theorem small_angle {κ : ℝ} (hη : ErrUnit η) (hl : lm.Accurate κ) (hκ : κ ≤ η) {p q o : Nat} {D : B64 lm} (hm : ModestCons h (.angle p q o D))
    (hc : Clear h (.angle p q o D)) : SmallLoss η h (.angle p q o D) := by
  obtain ⟨x, y, P⟩ := hm.pt (p := p) (by simp [consDeps, consFields, primFields])
  obtain ⟨z, w, Q⟩ := hm.pt (p := q) (by simp [consDeps, consFields, primFields])
  obtain ⟨u, v, O⟩ := hm.pt (p := o) (by simp [consDeps, consFields, primFields])
  obtain ⟨θ, hD, bD⟩ := hm.2 D (by simp [consParams])
  simp only [Clear, P.distOf O, Q.distOf O] at hc
  obtain ⟨hc1, hc2, hc3⟩ := hc
  have d1 := P.dir hη O ((two_le (by norm_num)).trans hc1)
  have d2 := Q.dir hη O ((two_le (by norm_num)).trans hc2)
  have n1 := (d1.not_lt hη hc1).2
  have n2 := (d2.not_lt hη hc2).2
  have es0 : sinOf h p q o = √(1 - ((x - u) * (z - u) + (y - v) * (w - v)) / (hyp (x - u) (y - v) * hyp (z - u) (w - v)) *
      (((x - u) * (z - u) + (y - v) * (w - v)) / (hyp (x - u) (y - v) * hyp (z - u) (w - v)))) := by
    rw [← sin_cos d1.pos.ne' d2.pos.ne']
    unfold sinOf
    rw [P.distOf O, Q.distOf O, P.xOf, P.yOf, Q.xOf, Q.yOf, O.xOf, O.yOf]
  have hsp : spanOf h (.angle p q o D) = 4 + |θ| := by simp only [spanOf, hD.real]
  have hbd : badness h (.angle p q o D) = 1 / sinOf h p q o := rfl
  generalize sinOf h p q o = s at *
  have s0 : 0 < s := (two_pos _).trans_le hc3
  have s1 : s ≤ 1 := by
    rw [es0, Real.sqrt_le_left (by norm_num)]
    nlinarith [mul_self_nonneg (((x - u) * (z - u) + (y - v) * (w - v)) / (hyp (x - u) (y - v) * hyp (z - u) (w - v)))]
  have big1 : ¬hyp (x - u) (y - v) < 1e-6 := by norm_num at hc1 ⊢; linarith
  have big2 : ¬hyp (z - u) (w - v) < 1e-6 := by norm_num at hc2 ⊢; linarith
  have co := cosine_ap hη d1 d2
  have th := theta_ap hη hl hκ co es0 s0 s1
  have i1 : 1 ≤ 1 / s := by rw [le_div_iff₀ s0]; linarith
  have i5 : 1 / s ≤ 32 := by
    rw [div_le_iff₀ s0]
    have : (2 : ℝ) ^ (-5 : ℤ) = 1 / 32 := by norm_num
    rw [this] at hc3
    linarith
  have g := th.more hη (77 / s) 102 le_rfl (by norm_num) |>.sub hη (param_ap hD bD 102 (by norm_num)) 103 (79 / s) (by
    rw [show (77 : ℝ) / s = 77 * (1 / s) by ring, show (79 : ℝ) / s = 79 * (1 / s) by ring]; linarith) (by
    rw [show (79 : ℝ) / s = 79 * (1 / s) by ring]; linarith) (by
    rw [show (79 : ℝ) / s = 79 * (1 / s) by ring]; linarith) (by norm_num) (by norm_num)
  have ev : lossValue h (.angle p q o D) = (0.5 : B64 lm) * (Num.acos (clamp ((ptData h p - ptData h o).dot (ptData h q - ptData h o) /
      ((ptData h p - ptData h o).norm * (ptData h q - ptData h o).norm)) (-1.0) 1.0) - D) *
      (Num.acos (clamp ((ptData h p - ptData h o).dot (ptData h q - ptData h o) /
      ((ptData h p - ptData h o).norm * (ptData h q - ptData h o).norm)) (-1.0) 1.0) - D) := by
    simp only [lossValue, currentAngle, n1, n2, co.isFinite, Bool.not_true, Bool.or_self, Bool.false_eq_true, if_false]
  have e : missOf h (.angle p q o D) =
      |Real.arccos (((x - u) * (z - u) + (y - v) * (w - v)) / (hyp (x - u) (y - v) * hyp (z - u) (w - v))) - θ| := by
    simp only [missOf, P.distOf O, Q.distOf O, P.xOf, P.yOf, Q.xOf, Q.yOf, O.xOf, O.yOf, hD.real]
  have hε : (2 : ℝ) ^ (-101 : ℤ) ≤ 2 ^ (-100 : ℤ) := two_le (by norm_num)
  refine small_one hη e ev g (by norm_num) ?_ ?_ ?_
  · rw [show (79 : ℝ) / s = 79 * (1 / s) by ring]; linarith
  · rw [show (79 : ℝ) / s = 79 * (1 / s) by ring]; linarith
  · rw [hsp, hbd, show (79 : ℝ) / s = 79 * (1 / s) by ring]
    have hT := abs_nonneg θ
    have hp := two_pos (-101)
    generalize 1 / s = i at *
    generalize (2 : ℝ) ^ (-101 : ℤ) = ε at *
    generalize (2 : ℝ) ^ (-100 : ℤ) = ε' at *
    nlinarith [mul_le_mul_of_nonneg_right (show 79 * (4 + (|θ| + ε)) ≤ 80 * (4 + |θ| + ε') by linarith) (show (0 : ℝ) ≤ i by linarith)]

end kinds

theorem small_loss {κ : ℝ} (hη : ErrUnit η) (hl : lm.Accurate κ) (hκ : κ ≤ η) {c : Constraint (B64 lm)} (hm : ModestCons h c)
    (hc : Clear h c) : SmallLoss η h c := by
  cases c with
  | angle p q o d => exact small_angle hη hl hκ hm hc
  | arcEnd a p => exact small_arcEnd hη hl hκ hm
  | arcStart a p => exact small_arcStart hη hl hκ hm
  | euclid p q d => exact small_euclid hη hm hc
  | horizDist p q d => exact small_horiz hη hm
  | vertDist p q d => exact small_vert hη hm
  | fix p d => exact small_fix hη hm
  | eqLen l m => exact small_eqLen hη hm hc
  | horizLine l => exact small_horizLine hη hm
  | vertLine l => exact small_vertLine hη hm
  | parallel l m => exact small_parallel hη hm hc
  | perp l m => exact small_perp hη hm hc

/-! ## The sum -/

theorem ulp_pow {n : ℕ} (hn : n ≤ 2 ^ 40) : (1 + ulp) ^ n ≤ 1 + 2 ^ (-12 : ℤ) := by
  have h1 : (1 + ulp) ^ n ≤ Real.exp (n * ulp) := by
    rw [Real.exp_nat_mul]
    exact pow_le_pow_left₀ (by linarith [ulp_pos]) (by linarith [Real.add_one_le_exp ulp]) n
  have h2 : (n : ℝ) * ulp ≤ 1 / 8192 := by
    have : (n : ℝ) ≤ 2 ^ 40 := by exact_mod_cast hn
    rw [ulp_eq]
    linarith
  have h0 : 0 ≤ (n : ℝ) * ulp := mul_nonneg (Nat.cast_nonneg _) ulp_pos.le
  have h3 := Real.abs_exp_sub_one_sub_id_le (x := n * ulp) (by rw [abs_of_nonneg h0]; linarith)
  have h4 := (abs_le.1 h3).2
  have e : (2 : ℝ) ^ (-12 : ℤ) = 1 / 4096 := by norm_num
  rw [e]
  nlinarith

theorem sum_small (ks : List Nat) {B : Nat → ℝ} (hk : ∀ k ∈ ks, ∃ w, (lossValue h (h.cons k)).Is w ∧ w ≤ B k ∧ w ≤ 2 ^ (300 : ℤ)) :
    ∀ {g : B64 lm} {a T : ℝ} {i : ℕ}, g.Is a → 0 ≤ a → a ≤ (1 + ulp) ^ i * T → a ≤ (1 + ulp) ^ i * (i * 2 ^ (300 : ℤ)) → i + ks.length ≤ 2 ^ 40 →
      ∃ v, (ks.foldl (fun l c => l + lossValue h (h.cons c)) g).Is v ∧ 0 ≤ v ∧ v ≤ (1 + ulp) ^ (i + ks.length) * (T + (ks.map B).sum) := by
  induction ks with
  | nil => intro g a T i hg h0 h1 _ _; exact ⟨a, hg, h0, by simpa using h1⟩
  | cons k ks ih =>
    intro g a T i hg h0 h1 h2 hi
    rw [List.length_cons] at hi
    obtain ⟨w, hw, hB, hw3⟩ := hk k (by simp)
    have w0 : 0 ≤ w := (plus_loss h (h.cons k)).nonneg hw
    have hu := ulp_pos
    have hone : 1 ≤ (1 + ulp) ^ i := one_le_pow₀ (by linarith)
    have e0 : |a + w| = a + w := abs_of_nonneg (by linarith)
    have hr := rs_add_err hg.rep hw.rep
    rw [e0] at hr
    have hle : rs (a + w) ≤ (1 + ulp) * (a + w) := by linarith [(abs_le.1 hr).2]
    have hn : 0 ≤ rs (a + w) := rs_nonneg (by linarith)
    have hb : rs (a + w) ≤ (1 + ulp) ^ (i + 1) * ((i + 1 : ℕ) * 2 ^ (300 : ℤ)) := by
      calc rs (a + w) ≤ (1 + ulp) * (a + w) := hle
        _ ≤ (1 + ulp) * ((1 + ulp) ^ i * (i * 2 ^ (300 : ℤ)) + (1 + ulp) ^ i * 2 ^ (300 : ℤ)) := by
            refine mul_le_mul_of_nonneg_left (add_le_add h2 (hw3.trans ?_)) (by linarith)
            exact le_mul_of_one_le_left (two_pos _).le hone
        _ = _ := by push_cast; ring
    have htop : |rs (a + w)| < top := by
      rw [abs_of_nonneg hn]
      refine (hb.trans ?_).trans_lt (pow_lt_top (k := 400) (by norm_num))
      have h4 : (1 + ulp) ^ (i + 1) ≤ 2 := (ulp_pow (by omega)).trans (by norm_num)
      have h5 : ((i + 1 : ℕ) : ℝ) ≤ 2 ^ (40 : ℤ) := by
        have : ((i + 1 : ℕ) : ℝ) ≤ ((2 ^ 40 : ℕ) : ℝ) := by exact_mod_cast (by omega : i + 1 ≤ 2 ^ 40)
        refine this.trans (le_of_eq (by norm_num))
      calc (1 + ulp) ^ (i + 1) * ((i + 1 : ℕ) * 2 ^ (300 : ℤ)) ≤ 2 ^ (1 : ℤ) * (2 ^ (40 : ℤ) * 2 ^ (300 : ℤ)) := by
            refine mul_le_mul (h4.trans (by norm_num)) (mul_le_mul_of_nonneg_right h5 (two_pos _).le) (by positivity) (by positivity)
        _ = 2 ^ (341 : ℤ) := by rw [two_mul_two, two_mul_two]; norm_num
        _ ≤ 2 ^ (400 : ℤ) := two_le (by norm_num)
    have hT : rs (a + w) ≤ (1 + ulp) ^ (i + 1) * (T + B k) := by
      calc rs (a + w) ≤ (1 + ulp) * (a + w) := hle
        _ ≤ (1 + ulp) * ((1 + ulp) ^ i * T + (1 + ulp) ^ i * B k) := by
            refine mul_le_mul_of_nonneg_left (add_le_add h1 (hB.trans ?_)) (by linarith)
            exact le_mul_of_one_le_left (w0.trans hB) hone
        _ = _ := by ring
    obtain ⟨v, e1, e2, e3⟩ := ih (fun k' hk' => hk k' (by simp [hk'])) (hg.add hw htop) hn hT hb (by omega)
    refine ⟨v, e1, e2, ?_⟩
    rw [List.map_cons, List.sum_cons, List.length_cons, show i + (ks.length + 1) = i + 1 + ks.length by omega, ← add_assoc]
    exact e3

/-- **the loss of a sketch whose constraints are nearly met** -/
theorem loss_small {κ : ℝ} (hl : lm.Accurate κ) (hκ : κ ≤ 2 ^ (-45 : ℤ)) {s : Sketch} (hc : Closed ⟨h, s⟩) (hm : Modest h s)
    (hr : ∀ k ∈ s.cons, Clear h (h.cons k)) (hn : s.cons.length ≤ 2 ^ 40) :
    ∃ v, (getLoss h s).Is v ∧ 0 ≤ v ∧ v ≤ 0.501 * (s.cons.map (fun k => (missOf h (h.cons k) + roundoff κ h (h.cons k)) ^ 2)).sum := by
  obtain ⟨hη, hkη⟩ := unit_of hl hκ
  have eu : (ulp : ℝ) = 2 ^ (-53 : ℤ) := by rw [ulp_eq]; norm_num
  obtain ⟨v, h1, h0, h2⟩ := sum_small (h := h) s.cons (B := fun k => (missOf h (h.cons k) + roundoff κ h (h.cons k)) ^ 2 * (1 / 2 + 2 ^ (-40 : ℤ)))
    (fun k hk => by
      obtain ⟨w, a1, a2, a3⟩ := small_loss hη hl hkη (hm.cons hc k hk) (hr k hk)
      refine ⟨w, a1, ?_, a3⟩
      unfold roundoff
      rw [← eu]
      exact a2) B64.is_zero le_rfl (T := 0) (i := 0) (by simp) (by simp) (by omega)
  refine ⟨v, h1, h0, h2.trans ?_⟩
  rw [List.sum_map_mul_right]
  simp only [zero_add]
  have hp := ulp_pow hn
  have e40 : (2 : ℝ) ^ (-40 : ℤ) = 1 / 1099511627776 := by norm_num
  have e12 : (2 : ℝ) ^ (-12 : ℤ) = 1 / 4096 := by norm_num
  rw [e12] at hp
  rw [e40]
  have hS : 0 ≤ (s.cons.map (fun k => (missOf h (h.cons k) + roundoff κ h (h.cons k)) ^ 2)).sum :=
    List.sum_nonneg fun x hx => by
      obtain ⟨k, -, rfl⟩ := List.mem_map.1 hx
      positivity
  have hP : 0 ≤ (1 + ulp) ^ s.cons.length := by have := ulp_pos; positivity
  generalize (s.cons.map (fun k => (missOf h (h.cons k) + roundoff κ h (h.cons k)) ^ 2)).sum = S at *
  generalize (1 + ulp) ^ s.cons.length = P at *
  have : P * (1 / 2 + 1 / 1099511627776) ≤ 0.501 := by norm_num at hp ⊢; linarith
  nlinarith

end Isotope
