import Verif.Lemmas.FloatSum

/-!
# Losses in binary64 are close to the exact ones
-/

namespace Isotope
open Round Val XR

variable {lm : Libm} {η : ℝ} {h : Heap (B64 lm)}

/-- the scale of the loss of a constraint -/
noncomputable def lossScale (h : Heap (B64 lm)) (c : Constraint (B64 lm)) : ℝ := (spanOf h c + 2 ^ (-100 : ℤ)) ^ 2 * badness h c

/-- the loss of a constraint is close to the exact one -/
def NearLoss (η : ℝ) (h : Heap (B64 lm)) (c : Constraint (B64 lm)) : Prop :=
  ∃ L, lossValue h.exact c.exact = fin L ∧ (lossValue h c).Ap η L (4 * lossScale h c) 480 300

theorem half_ap : (0.5 : B64 lm).Ap η (1 / 2) (1 / 2) 0 1 :=
  .of_is B64.is_half (by rw [abs_of_pos (by norm_num)]) (by norm_num) (by norm_num)

/-- half the square of a residual -/
theorem halfsq_ap (hη : ErrUnit η) {x : B64 lm} {r A k : ℝ} {m : ℕ} (hx : x.Ap η r A k m) (l : ℝ) (n : ℕ) (hl : 2 * k + 4 ≤ l) (hl' : l ≤ 1048576)
    (hn : 2 * m + 1 ≤ n) (hn' : n ≤ 1000) : ((0.5 : B64 lm) * x * x).Ap η (r ^ 2 / 2) (A * A / 2) l n := by
  have hk : 0 ≤ k := by obtain ⟨-, -, -, -, -, -, h⟩ := id hx; exact h
  refine ((half_ap.mul hη hx (m + 1) (k + 2) (by linarith) (by linarith) (by omega) (by omega)).mul hη hx n l (by linarith) hl'
    (by omega) hn').congr (by ring) (by ring)

theorem floor_le (h : Heap (B64 lm)) (c : Constraint (B64 lm)) : 2 ^ (-100 : ℤ) ≤ spanOf h c + 2 ^ (-100 : ℤ) := by
  linarith [spanOf_nonneg h c]

/-- a computed loss at a scale `Z²`, `Z` being the span of the constraint -/
theorem near_loss_of (hη : ErrUnit η) {c : Constraint (B64 lm)} {L A k Z b : ℝ} {m : ℕ} (e : lossValue h.exact c.exact = fin L)
    (hx : (lossValue h c).Ap η L A k m) (eZ : spanOf h c = Z) (eb : badness h c = b) (hA : A ≤ 4 * ((Z + 2 ^ (-100 : ℤ)) ^ 2 * b))
    (hZ : Z ≤ 2 ^ (104 : ℤ)) (hb0 : 0 ≤ b) (hb : b ≤ 2 ^ (5 : ℤ)) (hk : k ≤ 480) (hm : m ≤ 300) : NearLoss η h c := by
  refine ⟨L, e, ?_⟩
  unfold lossScale
  rw [eZ, eb]
  refine hx.mono hη hA ?_ 480 hk hm
  have h0 : 0 ≤ Z + 2 ^ (-100 : ℤ) := by rw [← eZ]; exact (two_pos _).le.trans (floor_le h c)
  have a1 : Z + 2 ^ (-100 : ℤ) ≤ 2 ^ (105 : ℤ) := by
    have : (2 : ℝ) ^ (-100 : ℤ) ≤ 2 ^ (104 : ℤ) := two_le (by norm_num)
    have e : (2 : ℝ) ^ (104 : ℤ) + 2 ^ (104 : ℤ) = 2 ^ (105 : ℤ) := two_double
    linarith
  have a2 : (Z + 2 ^ (-100 : ℤ)) ^ 2 ≤ 2 ^ (210 : ℤ) := by
    calc (Z + 2 ^ (-100 : ℤ)) ^ 2 ≤ ((2 : ℝ) ^ (105 : ℤ)) ^ 2 := pow_le_pow_left₀ h0 a1 2
      _ = 2 ^ (210 : ℤ) := by rw [_root_.sq, two_mul_two]; norm_num
  calc 4 * ((Z + 2 ^ (-100 : ℤ)) ^ 2 * b) ≤ 2 ^ (2 : ℤ) * (2 ^ (210 : ℤ) * 2 ^ (5 : ℤ)) := by
        rw [show (4 : ℝ) = 2 ^ (2 : ℤ) by norm_num]
        exact mul_le_mul_of_nonneg_left (mul_le_mul a2 hb hb0 (two_pos _).le) (two_pos _).le
    _ = 2 ^ (217 : ℤ) := by rw [two_mul_two, two_mul_two]; norm_num
    _ ≤ 2 ^ ((300 : ℕ) : ℤ) := two_le (by norm_num)

theorem sq_scale {A W : ℝ} (h0 : 0 ≤ A) (hA : A ≤ 2 * W) : A * A / 2 ≤ 4 * (W ^ 2 * 1) := by nlinarith

section kinds

theorem nearLoss_fix (hη : ErrUnit η) {p : Nat} {D : Vec2 (B64 lm)} (hm : ModestCons h (.fix p D)) : NearLoss η h (.fix p D) := by
  obtain ⟨x, y, q⟩ := hm.pt (p := p) (by simp [consDeps, consFields, primFields])
  obtain ⟨X, hX, bX⟩ := hm.2 D.x (by simp [consParams])
  obtain ⟨Y, hY, bY⟩ := hm.2 D.y (by simp [consParams])
  have gx := gap_ap hη q.ix hX q.bx bX
  have gy := gap_ap hη q.iy hY q.bY bY
  have e : lossValue h.exact (Constraint.exact (.fix p D)) = fin (((x - X) ^ 2 + (y - Y) ^ 2) / 2) := by
    simp only [Constraint.exact, Vec2.exact, hX.exact, hY.exact]
    exact loss_fix q.exact
  have sx := gx.mul hη gx 204 4 (by norm_num) (by norm_num) (by norm_num) (by norm_num)
  have sy := gy.mul hη gy 204 4 (by norm_num) (by norm_num) (by norm_num) (by norm_num)
  have g := (half_ap (lm := lm) (η := η)).mul hη (sx.add hη sy 205 6 (by norm_num) (by norm_num) (by norm_num) (by norm_num) (by norm_num)) 206 8 (by norm_num)
    (by norm_num) (by norm_num) (by norm_num)
  have hsp : spanOf h (.fix p D) = |x - X| + |y - Y| := by simp only [spanOf, q.xOf, q.yOf, hX.real, hY.real]
  refine near_loss_of (b := 1) hη e (g.congr (by ring) rfl) hsp rfl ?_ (le104 (n := 4) (by norm_num) ?_) (by norm_num) one_le5 (by norm_num) (by norm_num)
  · have hp := two_pos (-101)
    have e2 : (2 : ℝ) ^ (-101 : ℤ) + 2 ^ (-101 : ℤ) = 2 ^ (-100 : ℤ) := two_double
    rw [← e2]
    generalize (2 : ℝ) ^ (-101 : ℤ) = ε at *
    have h1 := abs_nonneg (x - X)
    have h2 := abs_nonneg (y - Y)
    nlinarith [mul_nonneg h1 h2, mul_nonneg h1 hp.le, mul_nonneg h2 hp.le]
  · have h1 := abs_sub x X
    have h2 := abs_sub y Y
    have := q.bx; have := q.bY
    linarith

theorem nearLoss_horiz (hη : ErrUnit η) {p q : Nat} {D : B64 lm} (hm : ModestCons h (.horizDist p q D)) : NearLoss η h (.horizDist p q D) := by
  obtain ⟨x, y, P⟩ := hm.pt (p := p) (by simp [consDeps, consFields, primFields])
  obtain ⟨u, v, Q⟩ := hm.pt (p := q) (by simp [consDeps, consFields, primFields])
  obtain ⟨d, hD, bD⟩ := hm.2 D (by simp [consParams])
  have e2 : (2 : ℝ) ^ (-101 : ℤ) + 2 ^ (-101 : ℤ) = 2 ^ (-100 : ℤ) := two_double
  have g := ((gap_ap hη Q.ix P.ix Q.bx P.bx).sub hη (param_ap hD bD 102 (by norm_num)) 103 3 (by norm_num) (by norm_num) (by norm_num) (by norm_num)
    (by norm_num)).congr rfl (show _ = |u - x| + |d| + 2 ^ (-100 : ℤ) by rw [← e2]; ring)
  have e : lossValue h.exact (Constraint.exact (.horizDist p q D)) = fin ((u - x - d) ^ 2 / 2) := by
    simp only [Constraint.exact, hD.exact]
    exact loss_horiz P.exact Q.exact
  have hsp : spanOf h (.horizDist p q D) = |u - x| + |d| := by simp only [spanOf, P.xOf, Q.xOf, hD.real]
  refine near_loss_of (b := 1) hη e (halfsq_ap hη g 10 300 (by norm_num) (by norm_num) (by norm_num) (by norm_num)) hsp rfl (sq_scale ?_ ?_)
    (le104 (n := 3) (by norm_num) ?_) (by norm_num) one_le5 (by norm_num) (by norm_num)
  · have := two_pos (-100); positivity
  · have := two_pos (-100); linarith [abs_nonneg (u - x), abs_nonneg d]
  · have h1 := abs_sub u x
    have := P.bx; have := Q.bx
    linarith

theorem nearLoss_vert (hη : ErrUnit η) {p q : Nat} {D : B64 lm} (hm : ModestCons h (.vertDist p q D)) : NearLoss η h (.vertDist p q D) := by
  obtain ⟨x, y, P⟩ := hm.pt (p := p) (by simp [consDeps, consFields, primFields])
  obtain ⟨u, v, Q⟩ := hm.pt (p := q) (by simp [consDeps, consFields, primFields])
  obtain ⟨d, hD, bD⟩ := hm.2 D (by simp [consParams])
  have e2 : (2 : ℝ) ^ (-101 : ℤ) + 2 ^ (-101 : ℤ) = 2 ^ (-100 : ℤ) := two_double
  have g := ((gap_ap hη Q.iy P.iy Q.bY P.bY).sub hη (param_ap hD bD 102 (by norm_num)) 103 3 (by norm_num) (by norm_num) (by norm_num) (by norm_num)
    (by norm_num)).congr rfl (show _ = |v - y| + |d| + 2 ^ (-100 : ℤ) by rw [← e2]; ring)
  have e : lossValue h.exact (Constraint.exact (.vertDist p q D)) = fin ((v - y - d) ^ 2 / 2) := by
    simp only [Constraint.exact, hD.exact]
    exact loss_vert P.exact Q.exact
  have hsp : spanOf h (.vertDist p q D) = |v - y| + |d| := by simp only [spanOf, P.yOf, Q.yOf, hD.real]
  refine near_loss_of (b := 1) hη e (halfsq_ap hη g 10 300 (by norm_num) (by norm_num) (by norm_num) (by norm_num)) hsp rfl (sq_scale ?_ ?_)
    (le104 (n := 3) (by norm_num) ?_) (by norm_num) one_le5 (by norm_num) (by norm_num)
  · have := two_pos (-100); positivity
  · have := two_pos (-100); linarith [abs_nonneg (v - y), abs_nonneg d]
  · have h1 := abs_sub v y
    have := P.bY; have := Q.bY
    linarith

theorem nearLoss_horizLine (hη : ErrUnit η) {l : Nat} (hm : ModestCons h (.horizLine l)) : NearLoss η h (.horizLine l) := by
  obtain ⟨x, y, u, v, P, Q⟩ := hm.line (l := l) (by simp [consFields])
  have g := gap_ap hη P.iy Q.iy P.bY Q.bY
  have e : lossValue h.exact (Constraint.exact (lm := lm) (.horizLine l)) = fin ((y - v) ^ 2 / 2) := loss_horizLine Q.exact P.exact
  have hsp : spanOf h (.horizLine l) = |y - v| := by simp only [spanOf, P.yOf, Q.yOf]
  refine near_loss_of (b := 1) hη e (halfsq_ap hη g 10 300 (by norm_num) (by norm_num) (by norm_num) (by norm_num)) hsp rfl (sq_scale ?_ ?_)
    (le104 (n := 3) (by norm_num) ?_) (by norm_num) one_le5 (by norm_num) (by norm_num)
  · have := two_pos (-101); positivity
  · have : (2 : ℝ) ^ (-101 : ℤ) ≤ 2 ^ (-100 : ℤ) := two_le (by norm_num)
    linarith [abs_nonneg (y - v), two_pos (-100)]
  · have h1 := abs_sub y v
    have := P.bY; have := Q.bY
    linarith [two_pos 100]

theorem nearLoss_vertLine (hη : ErrUnit η) {l : Nat} (hm : ModestCons h (.vertLine l)) : NearLoss η h (.vertLine l) := by
  obtain ⟨x, y, u, v, P, Q⟩ := hm.line (l := l) (by simp [consFields])
  have g := gap_ap hη P.ix Q.ix P.bx Q.bx
  have e : lossValue h.exact (Constraint.exact (lm := lm) (.vertLine l)) = fin ((x - u) ^ 2 / 2) := loss_vertLine Q.exact P.exact
  have hsp : spanOf h (.vertLine l) = |x - u| := by simp only [spanOf, P.xOf, Q.xOf]
  refine near_loss_of (b := 1) hη e (halfsq_ap hη g 10 300 (by norm_num) (by norm_num) (by norm_num) (by norm_num)) hsp rfl (sq_scale ?_ ?_)
    (le104 (n := 3) (by norm_num) ?_) (by norm_num) one_le5 (by norm_num) (by norm_num)
  · have := two_pos (-101); positivity
  · have : (2 : ℝ) ^ (-101 : ℤ) ≤ 2 ^ (-100 : ℤ) := two_le (by norm_num)
    linarith [abs_nonneg (x - u), two_pos (-100)]
  · have h1 := abs_sub x u
    have := P.bx; have := Q.bx
    linarith [two_pos 100]

theorem nearLoss_euclid (hη : ErrUnit η) {p q : Nat} {D : B64 lm} (hm : ModestCons h (.euclid p q D)) (hc : Clear h (.euclid p q D)) :
    NearLoss η h (.euclid p q D) := by
  obtain ⟨x, y, P⟩ := hm.pt (p := p) (by simp [consDeps, consFields, primFields])
  obtain ⟨u, v, Q⟩ := hm.pt (p := q) (by simp [consDeps, consFields, primFields])
  obtain ⟨d, hD, bD⟩ := hm.2 D (by simp [consParams])
  simp only [Clear, P.distOf Q] at hc
  have hd := P.dir hη Q ((two_le (by norm_num)).trans hc)
  have g := hd.n.sub hη (param_ap hD bD 102 (by norm_num)) 103 16 (by norm_num) (by norm_num) (by norm_num) (by norm_num) (by norm_num)
  have e : lossValue h.exact (Constraint.exact (.euclid p q D)) = fin ((hyp (x - u) (y - v) - d) ^ 2 / 2) := by
    simp only [Constraint.exact, hD.exact]
    exact loss_euclid P.exact Q.exact
  have hsp : spanOf h (.euclid p q D) = hyp (x - u) (y - v) + |d| := by simp only [spanOf, P.distOf Q, hD.real]
  refine near_loss_of (b := 1) hη e (halfsq_ap hη g 36 300 (by norm_num) (by norm_num) (by norm_num) (by norm_num)) hsp rfl (sq_scale ?_ ?_)
    (le104 (n := 5) (by norm_num) ?_) (by norm_num) one_le5 (by norm_num) (by norm_num)
  · have := two_pos (-101); have := hd.pos; positivity
  · have : (2 : ℝ) ^ (-101 : ℤ) ≤ 2 ^ (-100 : ℤ) := two_le (by norm_num)
    linarith [abs_nonneg d, two_pos (-100), hd.pos]
  · have := far_hyp P.bx P.bY Q.bx Q.bY
    linarith

theorem nearLoss_eqLen (hη : ErrUnit η) {l k : Nat} (hm : ModestCons h (.eqLen l k)) (hc : Clear h (.eqLen l k)) : NearLoss η h (.eqLen l k) := by
  obtain ⟨x, y, u, v, P, Q⟩ := hm.line (l := l) (by simp [consFields])
  obtain ⟨x', y', u', v', P', Q'⟩ := hm.line (l := k) (by simp [consFields])
  simp only [Clear, lenOf, P.distOf Q, P'.distOf Q'] at hc
  have hd := P.dir hη Q hc.1
  have hd' := P'.dir hη Q' hc.2
  have g := hd.n.sub hη hd'.n 103 16 (by norm_num) (by norm_num) (by norm_num) (by norm_num) (by norm_num)
  have e : lossValue h.exact (Constraint.exact (lm := lm) (.eqLen l k)) = fin ((hyp (x - u) (y - v) - hyp (x' - u') (y' - v')) ^ 2 / 2) :=
    loss_eqLen Q.exact P.exact Q'.exact P'.exact
  have hsp : spanOf h (.eqLen l k) = hyp (x - u) (y - v) + hyp (x' - u') (y' - v') := by simp only [spanOf, lenOf, P.distOf Q, P'.distOf Q']
  refine near_loss_of (b := 1) hη e (halfsq_ap hη g 36 300 (by norm_num) (by norm_num) (by norm_num) (by norm_num)) hsp rfl (sq_scale ?_ ?_)
    (le104 (n := 8) (by norm_num) ?_) (by norm_num) one_le5 (by norm_num) (by norm_num)
  · have := hd.pos; have := hd'.pos; positivity
  · linarith [two_pos (-100), hd.pos, hd'.pos]
  · have := far_hyp P.bx P.bY Q.bx Q.bY
    have := far_hyp P'.bx P'.bY Q'.bx Q'.bY
    linarith

theorem nearLoss_parallel (hη : ErrUnit η) {l k : Nat} (hm : ModestCons h (.parallel l k)) (hc : Clear h (.parallel l k)) : NearLoss η h (.parallel l k) := by
  obtain ⟨x, y, u, v, P, Q⟩ := hm.line (l := l) (by simp [consFields])
  obtain ⟨x', y', u', v', P', Q'⟩ := hm.line (l := k) (by simp [consFields])
  simp only [Clear, lenOf, P.distOf Q, P'.distOf Q'] at hc
  have hd : Dir η (lineEnd h l - lineStart h l) (x - u) (y - v) := P.dir hη Q hc.1
  have hd' : Dir η (lineEnd h k - lineStart h k) (x' - u') (y' - v') := P'.dir hη Q' hc.2
  have g := (cross_ap hη hd hd').congr (show _ = crossOf (x - u) (y - v) (x' - u') (y' - v') by
    have h1 := hd.pos.ne'; have h2 := hd'.pos.ne'
    unfold crossOf
    rw [if_neg (by simp [h1, h2])]
    field_simp) rfl
  have e : lossValue h.exact (Constraint.exact (lm := lm) (.parallel l k)) = fin (crossOf (x - u) (y - v) (x' - u') (y' - v') ^ 2 / 2) :=
    loss_parallel Q.exact P.exact Q'.exact P'.exact
  have ev : lossValue h (.parallel l k) = (0.5 : B64 lm) *
      ((lineEnd h l - lineStart h l).normalize.x * (lineEnd h k - lineStart h k).normalize.y -
        (lineEnd h l - lineStart h l).normalize.y * (lineEnd h k - lineStart h k).normalize.x) *
      ((lineEnd h l - lineStart h l).normalize.x * (lineEnd h k - lineStart h k).normalize.y -
        (lineEnd h l - lineStart h l).normalize.y * (lineEnd h k - lineStart h k).normalize.x) := by
    simp only [lossValue, (hd.unit_finite hη).1, (hd.unit_finite hη).2, (hd'.unit_finite hη).1, (hd'.unit_finite hη).2, Bool.not_true,
      Bool.or_self, Bool.false_eq_true, if_false]
  have hp := two_pos (-100)
  refine near_loss_of hη e (Z := 1) (b := 1) (by rw [ev]; exact halfsq_ap hη g 80 300 (by norm_num) (by norm_num) (by norm_num) (by norm_num))
    rfl rfl ?_ (one_le102.trans (two_le (by norm_num))) (by norm_num) one_le5 (by norm_num) (by norm_num)
  nlinarith

theorem nearLoss_perp (hη : ErrUnit η) {l k : Nat} (hm : ModestCons h (.perp l k)) (hc : Clear h (.perp l k)) : NearLoss η h (.perp l k) := by
  obtain ⟨x, y, u, v, P, Q⟩ := hm.line (l := l) (by simp [consFields])
  obtain ⟨x', y', u', v', P', Q'⟩ := hm.line (l := k) (by simp [consFields])
  simp only [Clear, lenOf, P.distOf Q, P'.distOf Q'] at hc
  have hd : Dir η (lineEnd h l - lineStart h l) (x - u) (y - v) := P.dir hη Q hc.1
  have hd' : Dir η (lineEnd h k - lineStart h k) (x' - u') (y' - v') := P'.dir hη Q' hc.2
  have g := (dot_ap hη hd hd').congr (show _ = dotOf (x - u) (y - v) (x' - u') (y' - v') by
    have h1 := hd.pos.ne'; have h2 := hd'.pos.ne'
    unfold dotOf
    rw [if_neg (by simp [h1, h2])]
    field_simp) rfl
  have e : lossValue h.exact (Constraint.exact (lm := lm) (.perp l k)) = fin (dotOf (x - u) (y - v) (x' - u') (y' - v') ^ 2 / 2) :=
    loss_perp Q.exact P.exact Q'.exact P'.exact
  have ev : lossValue h (.perp l k) = (0.5 : B64 lm) *
      (lineEnd h l - lineStart h l).normalize.dot (lineEnd h k - lineStart h k).normalize *
      (lineEnd h l - lineStart h l).normalize.dot (lineEnd h k - lineStart h k).normalize := by
    simp only [lossValue, (hd.unit_finite hη).1, (hd.unit_finite hη).2, (hd'.unit_finite hη).1, (hd'.unit_finite hη).2, Bool.not_true,
      Bool.or_self, Bool.false_eq_true, if_false]
  have hp := two_pos (-100)
  refine near_loss_of hη e (Z := 1) (b := 1) (by rw [ev]; exact halfsq_ap hη g 80 300 (by norm_num) (by norm_num) (by norm_num) (by norm_num))
    rfl rfl ?_ (one_le102.trans (two_le (by norm_num))) (by norm_num) one_le5 (by norm_num) (by norm_num)
  nlinarith

/-- half the squared distance of an end of an arc to a point -/
theorem arc_loss_ap (hη : ErrUnit η) {x y : B64 lm} {r t W : ℝ} (hx : x.Ap η r (2 * W) 7 105) (hy : y.Ap η t (2 * W) 7 105) :
    ((0.5 : B64 lm) * (x * x + y * y)).Ap η ((r ^ 2 + t ^ 2) / 2) (4 * (W ^ 2 * 1)) 20 212 :=
  ((half_ap (lm := lm) (η := η)).mul hη ((hx.mul hη hx 210 16 (by norm_num) (by norm_num) (by norm_num) (by norm_num)).add hη
    (hy.mul hη hy 210 16 (by norm_num) (by norm_num) (by norm_num) (by norm_num)) 211 18 (by norm_num) (by norm_num) (by norm_num)
    (by norm_num) (by norm_num)) 212 20 (by norm_num) (by norm_num) (by norm_num) (by norm_num)).congr (by ring) (by ring)

theorem nearLoss_arcEnd {κ : ℝ} (hη : ErrUnit η) (hl : lm.Accurate κ) (hκ : κ ≤ η) {a p : Nat} (hm : ModestCons h (.arcEnd a p)) : NearLoss η h (.arcEnd a p) := by
  obtain ⟨x, y, P⟩ := hm.pt (p := p) (by simp [consDeps, consFields, primFields])
  obtain ⟨cx, cy, r, t0, t1, C, hr, br, ht0, ht1, ed⟩ := hm.arc (a := a) (by simp [consFields])
  have hco : (Num.cos (h.arcs a).endAngle).Ap η (Real.cos t1) 1 1 0 := by
    obtain ⟨w, e1, e2⟩ := hl.cos _ _ ht1
    exact trig_ap ⟨w, e1, e2.trans hκ⟩ (Real.abs_cos_le_one _)
  have hsi : (Num.sin (h.arcs a).endAngle).Ap η (Real.sin t1) 1 1 0 := by
    obtain ⟨w, e1, e2⟩ := hl.sin _ _ ht1
    exact trig_ap ⟨w, e1, e2.trans hκ⟩ (Real.abs_sin_le_one _)
  have hp := two_pos (-100)
  have hW' : |cx| + |cy| + |r| + |x| + |y| + 2 ^ (-100 : ℤ) ≤ 2 ^ (104 : ℤ) := by
    refine le104 (n := 6) (by norm_num) ?_
    have : (2 : ℝ) ^ (-100 : ℤ) ≤ 2 ^ (100 : ℤ) := two_le (by norm_num)
    linarith [C.bx, C.bY, P.bx, P.bY]
  have nx := abs_nonneg x; have ny := abs_nonneg y; have nr := abs_nonneg r; have ncx := abs_nonneg cx; have ncy := abs_nonneg cy
  have gu := off_ap hη C.ix C.bx hr br hco P.ix P.bx (W := |cx| + |cy| + |r| + |x| + |y| + 2 ^ (-100 : ℤ)) (by linarith) hW'
  have gv := off_ap hη C.iy C.bY hr br hsi P.iy P.bY (W := |cx| + |cy| + |r| + |x| + |y| + 2 ^ (-100 : ℤ)) (by linarith) hW'
  have e : lossValue h.exact (Constraint.exact (lm := lm) (.arcEnd a p)) =
      fin (((cx + r * Real.cos t1 - x) ^ 2 + (cy + r * Real.sin t1 - y) ^ 2) / 2) := by
    refine loss_arcEnd P.exact ?_
    exact endPoint_fin C.exact ed
  have hsp : spanOf h (.arcEnd a p) = |cx| + |cy| + |r| + |x| + |y| := by simp only [spanOf, P.xOf, P.yOf, C.xOf, C.yOf, hr.real]
  exact near_loss_of (b := 1) hη e (arc_loss_ap hη gu gv) hsp rfl le_rfl (by linarith) (by norm_num) one_le5 (by norm_num) (by norm_num)

theorem nearLoss_arcStart {κ : ℝ} (hη : ErrUnit η) (hl : lm.Accurate κ) (hκ : κ ≤ η) {a p : Nat} (hm : ModestCons h (.arcStart a p)) : NearLoss η h (.arcStart a p) := by
  obtain ⟨x, y, P⟩ := hm.pt (p := p) (by simp [consDeps, consFields, primFields])
  obtain ⟨cx, cy, r, t0, t1, C, hr, br, ht0, ht1, ed⟩ := hm.arc (a := a) (by simp [consFields])
  have hco : (Num.cos (h.arcs a).startAngle).Ap η (Real.cos t0) 1 1 0 := by
    obtain ⟨w, e1, e2⟩ := hl.cos _ _ ht0
    exact trig_ap ⟨w, e1, e2.trans hκ⟩ (Real.abs_cos_le_one _)
  have hsi : (Num.sin (h.arcs a).startAngle).Ap η (Real.sin t0) 1 1 0 := by
    obtain ⟨w, e1, e2⟩ := hl.sin _ _ ht0
    exact trig_ap ⟨w, e1, e2.trans hκ⟩ (Real.abs_sin_le_one _)
  have hp := two_pos (-100)
  have hW' : |cx| + |cy| + |r| + |x| + |y| + 2 ^ (-100 : ℤ) ≤ 2 ^ (104 : ℤ) := by
    refine le104 (n := 6) (by norm_num) ?_
    have : (2 : ℝ) ^ (-100 : ℤ) ≤ 2 ^ (100 : ℤ) := two_le (by norm_num)
    linarith [C.bx, C.bY, P.bx, P.bY]
  have nx := abs_nonneg x; have ny := abs_nonneg y; have nr := abs_nonneg r; have ncx := abs_nonneg cx; have ncy := abs_nonneg cy
  have gu := off_ap hη C.ix C.bx hr br hco P.ix P.bx (W := |cx| + |cy| + |r| + |x| + |y| + 2 ^ (-100 : ℤ)) (by linarith) hW'
  have gv := off_ap hη C.iy C.bY hr br hsi P.iy P.bY (W := |cx| + |cy| + |r| + |x| + |y| + 2 ^ (-100 : ℤ)) (by linarith) hW'
  have e : lossValue h.exact (Constraint.exact (lm := lm) (.arcStart a p)) =
      fin (((cx + r * Real.cos t0 - x) ^ 2 + (cy + r * Real.sin t0 - y) ^ 2) / 2) := by
    refine loss_arcStart P.exact ?_
    exact startPoint_fin C.exact ed
  have hsp : spanOf h (.arcStart a p) = |cx| + |cy| + |r| + |x| + |y| := by simp only [spanOf, P.xOf, P.yOf, C.xOf, C.yOf, hr.real]
  exact near_loss_of (b := 1) hη e (arc_loss_ap hη gu gv) hsp rfl le_rfl (by linarith) (by norm_num) one_le5 (by norm_num) (by norm_num)

theorem nearLoss_angle {κ : ℝ} (hη : ErrUnit η) (hl : lm.Accurate κ) (hκ : κ ≤ η) {p q o : Nat} {D : B64 lm} (hm : ModestCons h (.angle p q o D))
    (hc : Clear h (.angle p q o D)) : NearLoss η h (.angle p q o D) := by
  obtain ⟨x, y, P⟩ := hm.pt (p := p) (by simp [consDeps, consFields, primFields])
  obtain ⟨z, w, Q⟩ := hm.pt (p := q) (by simp [consDeps, consFields, primFields])
  obtain ⟨u, v, O⟩ := hm.pt (p := o) (by simp [consDeps, consFields, primFields])
  obtain ⟨θ, hD, bD⟩ := hm.2 D (by simp [consParams])
  simp only [Clear, P.distOf O, Q.distOf O] at hc
  obtain ⟨hc1, hc2, hc3⟩ := hc
  have d1 := P.dir hη O ((two_le (by norm_num)).trans hc1)
  have d2 := Q.dir hη O ((two_le (by norm_num)).trans hc2)
  have n1 := (d1.not_lt hη hc1).2
  have n2 := (d2.not_lt hη hc2).2
  have es0 : sinOf h p q o = √(1 - ((x - u) * (z - u) + (y - v) * (w - v)) / (hyp (x - u) (y - v) * hyp (z - u) (w - v)) *
      (((x - u) * (z - u) + (y - v) * (w - v)) / (hyp (x - u) (y - v) * hyp (z - u) (w - v)))) := by
    rw [← sin_cos d1.pos.ne' d2.pos.ne']
    unfold sinOf
    rw [P.distOf O, Q.distOf O, P.xOf, P.yOf, Q.xOf, Q.yOf, O.xOf, O.yOf]
  have hsp : spanOf h (.angle p q o D) = 4 + |θ| := by simp only [spanOf, hD.real]
  have hbd : badness h (.angle p q o D) = 1 / sinOf h p q o := rfl
  generalize sinOf h p q o = s at *
  have s0 : 0 < s := (two_pos _).trans_le hc3
  have s1 : s ≤ 1 := by
    rw [es0, Real.sqrt_le_left (by norm_num)]
    nlinarith [mul_self_nonneg (((x - u) * (z - u) + (y - v) * (w - v)) / (hyp (x - u) (y - v) * hyp (z - u) (w - v)))]
  have big1 : ¬hyp (x - u) (y - v) < 1e-6 := by norm_num at hc1 ⊢; linarith
  have big2 : ¬hyp (z - u) (w - v) < 1e-6 := by norm_num at hc2 ⊢; linarith
  have co := cosine_ap hη d1 d2
  have th := theta_ap hη hl hκ co es0 s0 s1
  have i1 : 1 ≤ 1 / s := by rw [le_div_iff₀ s0]; linarith
  have i5 : 1 / s ≤ 32 := by
    rw [div_le_iff₀ s0]
    have : (2 : ℝ) ^ (-5 : ℤ) = 1 / 32 := by norm_num
    rw [this] at hc3
    linarith
  have g := th.more hη (77 / s) 102 le_rfl (by norm_num) |>.sub hη (param_ap hD bD 102 (by norm_num)) 103 (79 / s) (by
    rw [show (77 : ℝ) / s = 77 * (1 / s) by ring, show (79 : ℝ) / s = 79 * (1 / s) by ring]; linarith) (by
    rw [show (79 : ℝ) / s = 79 * (1 / s) by ring]; linarith) (by
    rw [show (79 : ℝ) / s = 79 * (1 / s) by ring]; linarith) (by norm_num) (by norm_num)
  have ev : lossValue h (.angle p q o D) = (0.5 : B64 lm) * (Num.acos (clamp ((ptData h p - ptData h o).dot (ptData h q - ptData h o) /
      ((ptData h p - ptData h o).norm * (ptData h q - ptData h o).norm)) (-1.0) 1.0) - D) *
      (Num.acos (clamp ((ptData h p - ptData h o).dot (ptData h q - ptData h o) /
      ((ptData h p - ptData h o).norm * (ptData h q - ptData h o).norm)) (-1.0) 1.0) - D) := by
    simp only [lossValue, currentAngle, n1, n2, co.isFinite, Bool.not_true, Bool.or_self, Bool.false_eq_true, if_false]
  have e : lossValue h.exact (Constraint.exact (.angle p q o D)) =
      fin ((Real.arccos (((x - u) * (z - u) + (y - v) * (w - v)) / (hyp (x - u) (y - v) * hyp (z - u) (w - v))) - θ) ^ 2 / 2) := by
    simp only [Constraint.exact, hD.exact]
    rw [loss_angle P.exact Q.exact O.exact, angleOf, if_neg (by simp only [big1, big2, or_self, not_false_eq_true])]
  have sq := halfsq_ap hη g (162 / s) 300 (by
    rw [show (79 : ℝ) / s = 79 * (1 / s) by ring, show (162 : ℝ) / s = 162 * (1 / s) by ring]; linarith) (by
    rw [show (162 : ℝ) / s = 162 * (1 / s) by ring]; linarith) (by norm_num) (by norm_num)
  obtain ⟨-, -, -, r1, r2, r3, -⟩ := id sq
  have hε : (2 : ℝ) ^ (-101 : ℤ) ≤ 2 ^ (-100 : ℤ) := two_le (by norm_num)
  have hε0 := two_pos (-101)
  have hT := abs_nonneg θ
  have hA0 : 0 < (4 + (|θ| + 2 ^ (-101 : ℤ))) * (4 + (|θ| + 2 ^ (-101 : ℤ))) / 2 := by positivity
  have hle : (4 + (|θ| + 2 ^ (-101 : ℤ))) * (4 + (|θ| + 2 ^ (-101 : ℤ))) / 2 * (1 / s) ≤ 4 * ((4 + |θ| + 2 ^ (-100 : ℤ)) ^ 2 * (1 / s)) := by
    rw [← mul_assoc]
    refine mul_le_mul_of_nonneg_right ?_ (by linarith)
    nlinarith
  have hbig : (4 + (|θ| + 2 ^ (-101 : ℤ))) * (4 + (|θ| + 2 ^ (-101 : ℤ))) / 2 * (1 / s) ≤ 2 ^ ((300 : ℕ) : ℤ) := by
    have a0 : 4 + (|θ| + 2 ^ (-101 : ℤ)) ≤ 2 ^ (104 : ℤ) := by
      refine le104 (n := 6) (by norm_num) ?_
      have h1 : (1 : ℝ) ≤ 2 ^ (100 : ℤ) := by
        have : (2 : ℝ) ^ (0 : ℤ) ≤ 2 ^ (100 : ℤ) := two_le (by norm_num)
        simpa using this
      have h2 : (2 : ℝ) ^ (-101 : ℤ) ≤ 2 ^ (100 : ℤ) := two_le (by norm_num)
      linarith
    have a1 : (4 + (|θ| + 2 ^ (-101 : ℤ))) * (4 + (|θ| + 2 ^ (-101 : ℤ))) ≤ 2 ^ (104 : ℤ) * 2 ^ (104 : ℤ) :=
      mul_le_mul a0 a0 (by positivity) (two_pos _).le
    calc _ ≤ (2 : ℝ) ^ (104 : ℤ) * 2 ^ (104 : ℤ) * 2 ^ (5 : ℤ) := by
          refine mul_le_mul ?_ (i5.trans (by norm_num)) (by linarith) (by positivity)
          nlinarith
      _ = 2 ^ (213 : ℤ) := by rw [two_mul_two, two_mul_two]; norm_num
      _ ≤ _ := two_le (by norm_num)
  have sq' := sq.rescale (n := 300) (B := (4 + (|θ| + 2 ^ (-101 : ℤ))) * (4 + (|θ| + 2 ^ (-101 : ℤ))) / 2 * (1 / s)) (r1.trans (by nlinarith))
    s (by field_simp; exact le_rfl) hη 162 (by field_simp; exact le_rfl) (r2.trans (by nlinarith)) hbig s0.le
  refine near_loss_of hη e (by rw [ev]; exact sq') hsp hbd hle (le104 (n := 6) (by norm_num) ?_) (by linarith) (i5.trans (by norm_num)) (by norm_num)
    (by norm_num)
  have h1 : (1 : ℝ) ≤ 2 ^ (100 : ℤ) := by
    have : (2 : ℝ) ^ (0 : ℤ) ≤ 2 ^ (100 : ℤ) := two_le (by norm_num)
    simpa using this
  linarith

end kinds

theorem near_loss {κ : ℝ} (hη : ErrUnit η) (hl : lm.Accurate κ) (hκ : κ ≤ η) {c : Constraint (B64 lm)} (hm : ModestCons h c)
    (hc : Clear h c) : NearLoss η h c := by
  cases c with
  | angle p q o d => exact nearLoss_angle hη hl hκ hm hc
  | arcEnd a p => exact nearLoss_arcEnd hη hl hκ hm
  | arcStart a p => exact nearLoss_arcStart hη hl hκ hm
  | euclid p q d => exact nearLoss_euclid hη hm hc
  | horizDist p q d => exact nearLoss_horiz hη hm
  | vertDist p q d => exact nearLoss_vert hη hm
  | fix p d => exact nearLoss_fix hη hm
  | eqLen l m => exact nearLoss_eqLen hη hm hc
  | horizLine l => exact nearLoss_horizLine hη hm
  | vertLine l => exact nearLoss_vertLine hη hm
  | parallel l m => exact nearLoss_parallel hη hm hc
  | perp l m => exact nearLoss_perp hη hm hc

theorem near_sum (hη : ErrUnit η) (ks : List Nat) (hk : ∀ k ∈ ks, NearLoss η h (h.cons k)) :
    ∀ {g : B64 lm} {R T : ℝ} {i : ℕ}, Summed η g R T i → i + ks.length < 2 ^ 50 →
      ∃ R', ks.foldl (fun l c => l + lossValue h.exact (h.exact.cons c)) (fin R) = fin R' ∧
        Summed η (ks.foldl (fun l c => l + lossValue h (h.cons c)) g) R' (T + 4 * (ks.map (fun k => lossScale h (h.cons k))).sum)
          (i + ks.length) := by
  induction ks with
  | nil => intro g R T i hg _; exact ⟨R, rfl, by simpa using hg⟩
  | cons k ks ih =>
    intro g R T i hg hi
    rw [List.length_cons] at hi
    obtain ⟨L, e, hL⟩ := hk k (by simp)
    obtain ⟨R', e', hS⟩ := ih (fun k' hk' => hk k' (by simp [hk'])) (hg.add hη hL (by omega)) (by omega)
    refine ⟨R', ?_, ?_⟩
    · rw [List.foldl_cons, ← e']
      show List.foldl _ (fin R + lossValue h.exact (h.cons k).exact) ks = _
      rw [e, add_fin]
    · rw [List.foldl_cons, List.map_cons, List.sum_cons, List.length_cons, show i + (ks.length + 1) = i + 1 + ks.length by omega,
        show T + 4 * (lossScale h (h.cons k) + (ks.map (fun k => lossScale h (h.cons k))).sum) =
          T + 4 * lossScale h (h.cons k) + 4 * (ks.map (fun k => lossScale h (h.cons k))).sum by ring]
      exact hS

theorem unit_of {κ : ℝ} (hl : lm.Accurate κ) (hκ : κ ≤ 2 ^ (-45 : ℤ)) : ErrUnit (ulp + κ) ∧ κ ≤ ulp + κ := by
  have k0 : 0 ≤ κ := by
    obtain ⟨c, -, h2⟩ := hl.cos _ _ B64.is_zero
    exact (abs_nonneg _).trans h2
  refine ⟨⟨by linarith, ?_⟩, by linarith [ulp_pos]⟩
  have : (2 : ℝ) ^ (-44 : ℤ) = 2 ^ (-45 : ℤ) + 2 ^ (-45 : ℤ) := by norm_num
  have : ulp ≤ 2 ^ (-45 : ℤ) := by rw [ulp_eq]; norm_num
  linarith

/-- **the loss in binary64 and in exact arithmetic** -/
theorem loss_near {κ : ℝ} (hl : lm.Accurate κ) (hκ : κ ≤ 2 ^ (-45 : ℤ)) {s : Sketch} (hc : Closed ⟨h, s⟩) (hm : Modest h s)
    (hr : ∀ k ∈ s.cons, Clear h (h.cons k)) (hn : s.cons.length < 2 ^ 40) :
    ∃ v V, (getLoss h s).Is v ∧ getLoss h.exact s = fin V ∧ |v - V| ≤ (1920 * (2 ^ (-53 : ℤ) + κ) + 8 * s.cons.length * 2 ^ (-53 : ℤ)) *
      (s.cons.map (fun k => (spanOf h (h.cons k) + 2 ^ (-100 : ℤ)) ^ 2 * badness h (h.cons k))).sum := by
  obtain ⟨hη, hkη⟩ := unit_of hl hκ
  obtain ⟨V, e, v, h1, h2, -⟩ := near_sum hη s.cons (fun k hk => near_loss hη hl hkη (hm.cons hc k hk) (hr k hk)) Summed.zero (by omega)
  refine ⟨v, V, h1, ?_, h2.trans (le_of_eq ?_)⟩
  · unfold getLoss; rw [zero_lit]; exact e
  · rw [show (ulp : ℝ) = 2 ^ (-53 : ℤ) by rw [ulp_eq]; norm_num]
    simp only [lossScale]
    push_cast
    ring

/-! ## rows of the Jacobian -/

section gen
variable {F : Type} [Num F]

theorem jacobianRows_entries (h0 : Heap F) (s : Sketch) (cs : List Nat) :
    ∀ h : Heap F, GradOnly h0 h → (∀ k ∈ cs, ∀ e ∈ consEntries h0 (h0.cons k), Num.isFinite e.2 = true) →
    ∃ h', jacobianRows s cs h = .ok (cs.map (fun k => s.dofs.map (fun d => addUp d (0.0 : F) (consEntries h0 (h0.cons k)))), h') := by
  induction cs with
  | nil => intro h _ _; exact ⟨h, rfl⟩
  | cons c cs ih =>
    intro h g hf
    have g0 : GradOnly h0 (zeroGrads h s) := g.trans (zeroGrads_gradOnly h s)
    have ce : (zeroGrads h s).cons = h0.cons := g0.1.cons
    have ue : updateGradient (zeroGrads h s) ((zeroGrads h s).cons c) =
        (chunks h0 (h0.cons c)).foldlM applyChunk (zeroGrads h s) := by
      rw [ce, updateGradient_eq, g0.chunks]
    obtain ⟨h1, e1, g1, hv⟩ := foldChunks_entries h0 (chunks h0 (h0.cons c)) (zeroGrads h s) g0 (fun ch hch =>
      finite_entries (h := h0) fun e he => hf c (by simp) e (List.mem_flatMap.2 ⟨ch, hch, he⟩))
    have hl : jacobianRow h1 s = s.dofs.map (fun d => addUp d (0.0 : F) (consEntries h0 (h0.cons c))) := by
      rw [jacobianRow_eq, cells_grad_dofs]
      refine List.map_congr_left fun d hd => ?_
      rw [hv d, gr_zeroed hd]
      rfl
    obtain ⟨h2, e2⟩ := ih h1 g1 fun k hk => hf k (by simp [hk])
    refine ⟨h2, ?_⟩
    unfold jacobianRows; dsimp only; rw [ue, e1]; dsimp only; rw [e2]; dsimp only; rw [hl]; rfl

end gen

/-- **the Jacobian in binary64 and in exact arithmetic** -/
theorem jacobian_near {κ : ℝ} (hl : lm.Accurate κ) (hκ : κ ≤ 2 ^ (-45 : ℤ)) {s : Sketch} (hc : Closed ⟨h, s⟩) (hm : Modest h s)
    (hr : ∀ k ∈ s.cons, Clear h (h.cons k)) :
    ∃ h' H', ∃ g : Nat → Dof → B64 lm, ∃ G : Nat → Dof → ℝ, getJacobian h s = .ok (s.cons.map (fun k => s.dofs.map (g k)), h') ∧
      getJacobian h.exact s = .ok (s.cons.map (fun k => s.dofs.map (fun d => fin (G k d))), H') ∧
      ∀ k ∈ s.cons, ∀ d, ∃ v, (g k d).Is v ∧ |v - G k d| ≤ (30720 * (2 ^ (-53 : ℤ) + κ) + 1024 * 2 ^ (-53 : ℤ)) *
        ((spanOf h (h.cons k) + 2 ^ (-100 : ℤ)) * slopeOf h (h.cons k) * badness h (h.cons k) ^ 3) := by
  obtain ⟨hη, hkη⟩ := unit_of hl hκ
  have hne : ∀ k ∈ s.cons, NearCons (ulp + κ) h (h.cons k) := fun k hk => near_cons hη hl hkη (hm.cons hc k hk) (hr k hk)
  obtain ⟨h', e⟩ := jacobianRows_entries h s s.cons h (.refl h) (fun k hk x hx => by
      obtain ⟨E, -, h2⟩ := forall₂_left (hne k hk) x hx
      exact h2.isFinite)
  have hfc := hm.finite.cons (exact_closed hc)
  obtain ⟨H', -, E⟩ := (jacobianRows_exact h.exact s s.cons h.exact (.refl _) hfc).1
    fun k hk => regular_not_degenerate (hfc k hk) (hr k hk).regular
  refine ⟨h', H', _, _, e, E, fun k hk d => ?_⟩
  obtain ⟨T', hT, v, h1, h2, h3, -⟩ := Summed.all hη d [k] (fun k' hk' => by
    rw [List.mem_singleton.1 hk']; exact hne k hk) Summed.zero (by simp)
  simp only [List.flatMap_cons, List.flatMap_nil, List.append_nil] at h1 h2
  refine ⟨v, h1, ?_⟩
  rw [zero_add] at h2 hT
  refine h2.trans ((mul_le_mul_of_nonneg_left hT ?_).trans (le_of_eq ?_))
  · have := ulp_pos; have := hη.pos; positivity
  · rw [show (ulp : ℝ) = 2 ^ (-53 : ℤ) by rw [ulp_eq]; norm_num]
    simp only [scaleOf, List.map_cons, List.map_nil, List.sum_cons, List.sum_nil, List.length_cons, List.length_nil]
    push_cast
    ring

end Isotope
