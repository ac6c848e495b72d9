import Verif.Lemmas.FloatLoss
import Verif.Lemmas.FloatCons
import Verif.SpecFloat

/-!
# From a small computed loss to a met constraint
-/

namespace Isotope
open Round Val

variable {lm : Libm}

/-! ## Sums of losses -/

theorem Plus.nonneg {x : B64 lm} {r : ℝ} (hx : Plus x.v) (h : x.Is r) : 0 ≤ r := by
  obtain ⟨s, m, e, rfl⟩ := h
  rcases hx with hx | hx
  · rw [e] at hx; cases hx
  · rw [e] at hx
    simp only [isNeg] at hx
    subst hx
    exact m.2.nonneg

theorem Plus.fin {x y : B64 lm} {m : ℝ} (hx : Plus x.v) (hy : y.Is m) (h : (x <. y) = true) : ∃ r, x.Is r ∧ r < m := by
  have h' := h
  rw [B64.lt_iff, hy.ext] at h'
  obtain ⟨h1, -, h3⟩ := h'
  obtain ⟨v⟩ := x
  cases v with
  | nan => cases h1
  | inf a =>
    rcases hx with hx | hx
    · cases hx
    · simp only [isNeg] at hx
      subst hx
      simp [Val.ext] at h3
  | num a q =>
    have hi : (⟨num a q⟩ : B64 lm).Is (sgn a q.1) := ⟨a, q, rfl, rfl⟩
    exact ⟨_, hi, (hi.lt_iff hy).1 h⟩

theorem fold_each (h : Heap (B64 lm)) : ∀ (l : List Nat) (a : B64 lm), Plus a.v →
    Num.isFinite (l.foldl (fun loss c => loss + lossValue h (h.cons c)) a) = true →
    ∃ V α, (l.foldl (fun loss c => loss + lossValue h (h.cons c)) a).Is V ∧ a.Is α ∧ α ≤ V ∧
      ∀ k ∈ l, ∃ t, (lossValue h (h.cons k)).Is t ∧ t ≤ V := by
  intro l
  induction l with
  | nil =>
    intro a _ hf
    obtain ⟨r, hr⟩ := B64.is_of_finite hf
    exact ⟨r, r, hr, hr, le_rfl, by simp⟩
  | cons k l ih =>
    intro a ha hf
    obtain ⟨V, β, h1, h2, h3, h4⟩ := ih _ (ha.add (plus_loss h (h.cons k))) hf
    obtain ⟨r, t, hr, ht, hs⟩ := B64.add_fin h2.isFinite
    have e := h2.unique hs
    have r0 := ha.nonneg hr
    have t0 := (plus_loss h (h.cons k)).nonneg ht
    have k1 : r ≤ rs (r + t) := by
      have := rs_mono (show r ≤ r + t by linarith)
      rwa [rs_rep hr.rep] at this
    have k2 : t ≤ rs (r + t) := by
      have := rs_mono (show t ≤ r + t by linarith)
      rwa [rs_rep ht.rep] at this
    refine ⟨V, r, h1, hr, by linarith, ?_⟩
    intro j hj
    rcases List.mem_cons.1 hj with rfl | hj
    · exact ⟨t, ht, by linarith⟩
    · exact h4 j hj

/-- if the total is below a bound so is every loss -/
theorem loss_each {h : Heap (B64 lm)} {s : Sketch} {ml : B64 lm} {m : ℝ} (hm : ml.Is m)
    (hlt : (getLoss h s <. ml) = true) : ∀ k ∈ s.cons, ∃ t, (lossValue h (h.cons k)).Is t ∧ t ≤ m := by
  have hp : Plus (getLoss h s).v := by
    unfold getLoss
    have : ∀ (l : List Nat) (a : B64 lm), Plus a.v → Plus (l.foldl (fun loss c => loss + lossValue h (h.cons c)) a).v := by
      intro l
      induction l with
      | nil => intro a ha; exact ha
      | cons k l ih => intro a ha; exact ih _ (ha.add (plus_loss h _))
    exact this _ _ (plus_lit _ _ _)
  obtain ⟨r, hr, hrm⟩ := hp.fin hm hlt
  obtain ⟨V, α, h1, -, -, h4⟩ := fold_each h s.cons _ (plus_lit _ _ _) hr.isFinite
  have e : V = r := h1.unique hr
  intro k hk
  obtain ⟨t, ht, hle⟩ := h4 k hk
  exact ⟨t, ht, by linarith⟩

/-! ## One error -/

/-- the errors squared -/
theorem half_sq_fin {e : B64 lm} {t m : ℝ} (hm : 2 ^ (-600 : ℤ) ≤ m) (h : ((0.5 : B64 lm) * e * e).Is t) (ht : t ≤ m) :
    ∃ ε, e.Is ε ∧ |ε| ≤ (1 + 4 * ulp) * √(2 * m) := by
  obtain ⟨p, ε, hp, he, hpe⟩ := B64.mul_fin h.isFinite
  obtain ⟨p', ε', hh, he', hpe'⟩ := B64.mul_fin hp.isFinite
  have e1 := hh.unique B64.is_half
  have e2 := he'.unique he
  have e3 := hp.unique hpe'
  have e4 := h.unique hpe
  subst e1 e2
  refine ⟨_, he, half_sq_le hm ?_⟩
  rw [e3] at e4
  rw [← e4]
  exact ht

theorem half_sum_fin {a b : B64 lm} {t m : ℝ} (hm : 2 ^ (-600 : ℤ) ≤ m) (h : ((0.5 : B64 lm) * (a * a + b * b)).Is t)
    (ht : t ≤ m) : ∃ α β, a.Is α ∧ b.Is β ∧ √(α * α + β * β) ≤ (1 + 4 * ulp) * √(2 * m) := by
  obtain ⟨p, q, hp, hq, hpq⟩ := B64.mul_fin h.isFinite
  obtain ⟨r, w, hr, hw, hrw⟩ := B64.add_fin hq.isFinite
  obtain ⟨α, α', ha, ha', hA⟩ := B64.mul_fin hr.isFinite
  obtain ⟨β, β', hb, hb', hB⟩ := B64.mul_fin hw.isFinite
  have e1 := hp.unique B64.is_half
  have e2 := ha'.unique ha
  have e3 := hb'.unique hb
  subst e1 e2 e3
  refine ⟨_, _, ha, hb, half_sum_le hm ?_⟩
  rw [← hr.unique hA, ← hw.unique hB, ← hq.unique hrw, ← h.unique hpq]
  exact ht

/-- an exact difference from a computed one -/
theorem sub_back {r t : ℝ} (hr : Rep |r|) (ht : Rep |t|) : |r - t| ≤ (1 + 2 * ulp) * |rs (r - t)| := by
  have h1 := rs_sub_err hr ht
  have h2 := abs_sub_abs_le_abs_sub (r - t) (rs (r - t))
  rw [abs_sub_comm (r - t) (rs (r - t))] at h2
  have h3 := abs_nonneg (r - t)
  rw [ulp_eq] at *
  linarith

/-- the tolerance dominates everything tiny -/
theorem tau_pos {m : ℝ} (hm : 2 ^ (-600 : ℤ) ≤ m) : 2 ^ (-300 : ℤ) ≤ √(2 * m) := by
  rw [← sqrt_two (-300)]
  apply Real.sqrt_le_sqrt
  have : (2 : ℝ) ^ (2 * -300 : ℤ) = 2 ^ (-600 : ℤ) := by norm_num
  rw [this]
  linarith [two_pos (-600)]

/-! ## Lengths -/

theorem vnorm_fin {v : Vec2 (B64 lm)} (h : Num.isFinite v.norm = true) :
    ∃ a b, v.x.Is a ∧ v.y.Is b ∧ v.norm.Is (rs √(rs (rs (a * a) + rs (b * b)))) := by
  obtain ⟨q, hq, -, hs⟩ := B64.sqrt_fin h
  obtain ⟨r, w, hr, hw, hrw⟩ := B64.add_fin (x := v.x * v.x) (y := v.y * v.y) hq.isFinite
  obtain ⟨α, α', ha, ha', hA⟩ := B64.mul_fin hr.isFinite
  obtain ⟨β, β', hb, hb', hB⟩ := B64.mul_fin hw.isFinite
  have e2 := ha'.unique ha
  have e3 := hb'.unique hb
  subst e2 e3
  refine ⟨_, _, ha, hb, ?_⟩
  rw [← hr.unique hA, ← hw.unique hB, ← hq.unique hrw]
  exact hs

/-- the computed distance of points whose differences are `rs` of the exact ones -/
theorem dist_near {x x' y y' : ℝ} (hx : Rep |x|) (hx' : Rep |x'|) (hy : Rep |y|) (hy' : Rep |y'|) :
    |rs √(rs (rs (rs (x - x') * rs (x - x')) + rs (rs (y - y') * rs (y - y')))) - √((x - x') ^ 2 + (y - y') ^ 2)| ≤
      6 * ulp * √((x - x') ^ 2 + (y - y') ^ 2) + 2 ^ (-498 : ℤ) := by
  have h1 := norm_near (rs (x - x')) (rs (y - y'))
  have h2 := len_near ulp_pos.le (rs_sub_err hx hx') (rs_sub_err hy hy')
  have e : (x - x') ^ 2 + (y - y') ^ 2 = (x - x') * (x - x') + (y - y') * (y - y') := by ring
  rw [e]
  have h0 := Real.sqrt_nonneg ((x - x') * (x - x') + (y - y') * (y - y'))
  have h3 := Real.sqrt_nonneg (rs (x - x') * rs (x - x') + rs (y - y') * rs (y - y'))
  generalize √((x - x') * (x - x') + (y - y') * (y - y')) = D at *
  generalize √(rs (x - x') * rs (x - x') + rs (y - y') * rs (y - y')) = N at *
  generalize rs √(rs (rs (rs (x - x') * rs (x - x')) + rs (rs (y - y') * rs (y - y')))) = n at *
  rw [abs_le] at *
  rw [ulp_eq] at *
  constructor <;> linarith [h1.1, h1.2, h2.1, h2.2]

theorem dist_fin {P Q : Vec2 (B64 lm)} (h : Num.isFinite (P - Q).norm = true) :
    ∃ x y x' y' n, P.x.Is x ∧ P.y.Is y ∧ Q.x.Is x' ∧ Q.y.Is y' ∧ (P - Q).norm.Is n ∧
      |n - √((x - x') ^ 2 + (y - y') ^ 2)| ≤ 6 * ulp * √((x - x') ^ 2 + (y - y') ^ 2) + 2 ^ (-498 : ℤ) := by
  obtain ⟨a, b, ha, hb, hn⟩ := vnorm_fin h
  obtain ⟨x, x', hx, hx', hX⟩ := B64.sub_fin (x := P.x) (y := Q.x) ha.isFinite
  obtain ⟨y, y', hy, hy', hY⟩ := B64.sub_fin (x := P.y) (y := Q.y) hb.isFinite
  have e1 : a = rs (x - x') := ha.unique hX
  have e2 : b = rs (y - y') := hb.unique hY
  subst e1 e2
  exact ⟨x, y, x', y', _, hx, hy, hx', hy', hn, dist_near hx.rep hx'.rep hy.rep hy'.rep⟩

/-! ## Directions -/

/-- what is known of a vector between two points at an ordinary distance -/
structure DirFacts (v : Vec2 (B64 lm)) (x y L a b n : ℝ) : Prop where
  ax : v.x.Is a
  ay : v.y.Is b
  nm : v.norm.Is n
  xa : |a - x| ≤ ulp * |x|
  yb : |b - y| ≤ ulp * |y|
  nL : |n - L| ≤ 7 * ulp * L
  xL : |x| ≤ L
  yL : |y| ≤ L
  L0 : 2 ^ (-400 : ℤ) ≤ L
  L1 : L ≤ 2 ^ (400 : ℤ)

theorem dir_facts {P Q : Vec2 (B64 lm)} {x y x' y' L : ℝ} (hx : P.x.Is x) (hy : P.y.Is y) (hx' : Q.x.Is x') (hy' : Q.y.Is y')
    (hL : L = √((x - x') ^ 2 + (y - y') ^ 2)) (h0 : 2 ^ (-400 : ℤ) ≤ L) (h1 : L ≤ 2 ^ (400 : ℤ)) :
    ∃ a b n, DirFacts (P - Q) (x - x') (y - y') L a b n := by
  have xL : |x - x'| ≤ L := by
    rw [hL]; exact Real.abs_le_sqrt (by nlinarith [sq_nonneg (y - y')])
  have yL : |y - y'| ≤ L := by
    rw [hL]; exact Real.abs_le_sqrt (by nlinarith [sq_nonneg (x - x')])
  have dx := hx.sub hx' (abs_rs_lt_top (by norm_num) (by norm_num) (xL.trans h1))
  have dy := hy.sub hy' (abs_rs_lt_top (by norm_num) (by norm_num) (yL.trans h1))
  have lx : (P - Q).x.Le 400 := ⟨_, dx, abs_rs_le (rep_pow _ (by norm_num) (by norm_num)) (xL.trans h1)⟩
  have ly : (P - Q).y.Le 400 := ⟨_, dy, abs_rs_le (rep_pow _ (by norm_num) (by norm_num)) (yL.trans h1)⟩
  obtain ⟨a, b, q, n, f⟩ := Vec2.Le.norm (v := P - Q) ⟨lx, ly⟩ (by norm_num) (by norm_num)
  obtain ⟨a', b', ha', hb', hn'⟩ := vnorm_fin f.nm.isFinite
  have e1 : a' = rs (x - x') := ha'.unique dx
  have e2 : b' = rs (y - y') := hb'.unique dy
  subst e1 e2
  refine ⟨_, _, _, dx, dy, hn', rs_sub_err hx.rep hx'.rep, rs_sub_err hy.rep hy'.rep, ?_, xL, yL, h0, h1⟩
  have := dist_near hx.rep hx'.rep hy.rep hy'.rep
  rw [← hL] at this
  refine this.trans ?_
  have t1 := two_small (j := -498) (k := -400) (by norm_num)
  rw [ulp_eq]
  have := two_pos (-400)
  generalize (2 : ℝ) ^ (-400 : ℤ) = z at *
  linarith

namespace DirFacts
variable {v : Vec2 (B64 lm)} {x y L a b n : ℝ}

theorem pos (f : DirFacts v x y L a b n) : 0 < L := (two_pos _).trans_le f.L0

theorem n0 (f : DirFacts v x y L a b n) : L / 2 ≤ n := by
  have := f.nL
  have h := f.pos
  rw [abs_le, ulp_eq] at this
  linarith [this.1]

end DirFacts

theorem quot_near {a x n L : ℝ} (hL : 0 < L) (hn : |n - L| ≤ 7 * ulp * L) (ha : |a - x| ≤ ulp * |x|) (hx : |x| ≤ L) :
    |a / n - x / L| ≤ 9 * ulp := by
  have n0 : L / 2 ≤ n := by
    rw [abs_le, ulp_eq] at hn
    linarith [hn.1]
  have npos : 0 < n := by linarith
  have e : a / n - x / L = ((a - x) * L - x * (n - L)) / (n * L) := by field_simp; ring
  rw [e, abs_div, abs_of_pos (mul_pos npos hL), div_le_iff₀ (mul_pos npos hL)]
  have h1 : |(a - x) * L - x * (n - L)| ≤ ulp * L * L + L * (7 * ulp * L) := by
    refine (abs_sub _ _).trans ?_
    rw [abs_mul, abs_mul, abs_of_pos hL]
    have := ulp_pos
    refine add_le_add (mul_le_mul_of_nonneg_right (ha.trans (mul_le_mul_of_nonneg_left hx this.le)) hL.le)
      (mul_le_mul hx hn (abs_nonneg _) hL.le)
  refine h1.trans ?_
  have h2 : (1 - 7 * ulp) * L ≤ n := by
    rw [abs_le] at hn
    linarith [hn.1]
  have h3 : (1 - 7 * ulp) * L * L ≤ n * L := mul_le_mul_of_nonneg_right h2 hL.le
  have h4 : 0 < L * L := mul_pos hL hL
  rw [ulp_eq] at *
  nlinarith

theorem unit_near {a x n L : ℝ} (hL : 0 < L) (hn : |n - L| ≤ 7 * ulp * L) (ha : |a - x| ≤ ulp * |x|) (hx : |x| ≤ L) :
    |rs (a / n) - x / L| ≤ 11 * ulp := by
  have h1 := quot_near hL hn ha hx
  have h2 := rs_err' (a / n)
  have h3 : |x / L| ≤ 1 := by rw [abs_div, abs_of_pos hL, div_le_one hL]; exact hx
  have h4 := abs_sub_abs_le_abs_sub (a / n) (x / L)
  have h5 := abs_add_le (rs (a / n) - a / n) (a / n - x / L)
  rw [sub_add_sub_cancel] at h5
  have t1 := two_small (j := -1075) (k := 0) (by norm_num)
  rw [zpow_zero] at t1
  rw [ulp_eq] at *
  linarith

theorem DirFacts.unit {v : Vec2 (B64 lm)} {x y L a b n : ℝ} (f : DirFacts v x y L a b n) :
    ∃ p q, v.normalize.x.Is p ∧ v.normalize.y.Is q ∧ |p - x / L| ≤ 11 * ulp ∧ |q - y / L| ≤ 11 * ulp ∧ |x / L| ≤ 1 ∧ |y / L| ≤ 1 := by
  have hn : n ≠ 0 := by have := f.n0; have := f.pos; intro h; linarith
  have key : ∀ {z c : ℝ}, |c - z| ≤ ulp * |z| → |z| ≤ L → |c / n| ≤ 2 ^ (1 : ℤ) := by
    intro z c hc hz
    have h1 := quot_near f.pos f.nL hc hz
    have h3 : |z / L| ≤ 1 := by rw [abs_div, abs_of_pos f.pos, div_le_one f.pos]; exact hz
    have h4 := abs_sub_abs_le_abs_sub (c / n) (z / L)
    rw [ulp_eq] at h1
    rw [zpow_one]
    linarith
  refine ⟨_, _, f.ax.div f.nm hn (abs_rs_lt_top (by norm_num) (by norm_num) (key f.xa f.xL)),
    f.ay.div f.nm hn (abs_rs_lt_top (by norm_num) (by norm_num) (key f.yb f.yL)), unit_near f.pos f.nL f.xa f.xL,
    unit_near f.pos f.nL f.yb f.yL, ?_, ?_⟩
  · rw [abs_div, abs_of_pos f.pos, div_le_one f.pos]; exact f.xL
  · rw [abs_div, abs_of_pos f.pos, div_le_one f.pos]; exact f.yL

/-- a computed product of near numbers -/
theorem mul_near {p q x y k : ℝ} (hk : 0 ≤ k) (hk' : k ≤ 1 / 1024) (hp : |p - x| ≤ k) (hq : |q - y| ≤ k) (hx : |x| ≤ 1)
    (hy : |y| ≤ 1) : |rs (p * q) - x * y| ≤ 2 * k + k * k + 2 * ulp ∧ |p * q| ≤ 2 := by
  have e : p * q - x * y = (p - x) * (q - y) + x * (q - y) + (p - x) * y := by ring
  have h1 : |p * q - x * y| ≤ k * k + k + k := by
    rw [e]
    refine (abs_add_le _ _).trans (add_le_add ((abs_add_le _ _).trans (add_le_add ?_ ?_)) ?_)
    · rw [abs_mul]; exact mul_le_mul hp hq (abs_nonneg _) hk
    · rw [abs_mul]; nlinarith [abs_nonneg (q - y), abs_nonneg x]
    · rw [abs_mul]; nlinarith [abs_nonneg (p - x), abs_nonneg y]
  have hxy : |x * y| ≤ 1 := by rw [abs_mul]; exact mul_le_one₀ hx (abs_nonneg y) hy
  have h3 := abs_sub_abs_le_abs_sub (p * q) (x * y)
  have h2 := rs_err' (p * q)
  have h5 := abs_add_le (rs (p * q) - p * q) (p * q - x * y)
  rw [sub_add_sub_cancel] at h5
  have t1 := two_small (j := -1075) (k := 0) (by norm_num)
  rw [zpow_zero] at t1
  have hkk : k * k ≤ 1 / 1024 := by nlinarith
  have h6 : |p * q| ≤ 1 + 3 / 1024 := by linarith
  refine ⟨?_, by linarith⟩
  have := mul_le_mul_of_nonneg_left h6 ulp_pos.le
  rw [ulp_eq] at *
  linarith

/-- a computed sum of two products of near numbers -/
theorem cross_near {p q r t x y z w : ℝ} (hp : |p - x| ≤ 11 * ulp) (hq : |q - y| ≤ 11 * ulp) (hr : |r - z| ≤ 11 * ulp)
    (ht : |t - w| ≤ 11 * ulp) (hx : |x| ≤ 1) (hy : |y| ≤ 1) (hz : |z| ≤ 1) (hw : |w| ≤ 1) :
    |rs (rs (p * q) + rs (r * t)) - (x * y + z * w)| ≤ 60 * ulp ∧ |rs (p * q) + rs (r * t)| ≤ 4 := by
  have hk : (0 : ℝ) ≤ 11 * ulp := by linarith [ulp_pos]
  have hk' : 11 * ulp ≤ 1 / 1024 := by rw [ulp_eq]; norm_num
  have h1 := (mul_near hk hk' hp hq hx hy).1
  have h2 := (mul_near hk hk' hr ht hz hw).1
  have h3 := rs_err' (rs (p * q) + rs (r * t))
  have hxy : |x * y| ≤ 1 := by rw [abs_mul]; exact mul_le_one₀ hx (abs_nonneg y) hy
  have hzw : |z * w| ≤ 1 := by rw [abs_mul]; exact mul_le_one₀ hz (abs_nonneg w) hw
  have t1 := two_small (j := -1075) (k := 0) (by norm_num)
  rw [zpow_zero] at t1
  have h4 : |rs (p * q) + rs (r * t) - (x * y + z * w)| ≤ 2 * (2 * (11 * ulp) + 11 * ulp * (11 * ulp) + 2 * ulp) := by
    have : rs (p * q) + rs (r * t) - (x * y + z * w) = (rs (p * q) - x * y) + (rs (r * t) - z * w) := by ring
    rw [this]
    refine (abs_add_le _ _).trans ?_
    linarith
  have h5 : |rs (p * q) + rs (r * t)| ≤ 1 + 1 + 2 * (2 * (11 * ulp) + 11 * ulp * (11 * ulp) + 2 * ulp) := by
    have a1 := abs_sub_abs_le_abs_sub (rs (p * q) + rs (r * t)) (x * y + z * w)
    have a2 := abs_add_le (x * y) (z * w)
    linarith
  have h6 := abs_add_le (rs (rs (p * q) + rs (r * t)) - (rs (p * q) + rs (r * t))) (rs (p * q) + rs (r * t) - (x * y + z * w))
  rw [sub_add_sub_cancel] at h6
  generalize |rs (p * q) + rs (r * t)| = A at *
  rw [ulp_eq] at *
  norm_num only at *
  refine ⟨?_, ?_⟩ <;> linarith

/-! ## The cosine of an angle -/

theorem quot_near' {a x n L k j : ℝ} (hL : 0 < L) (hj : 0 ≤ j) (hj' : j ≤ 1 / 1024) (hk : 0 ≤ k) (hn : |n - L| ≤ j * L)
    (ha : |a - x| ≤ k * L) (hx : |x| ≤ L) : |a / n - x / L| ≤ (k + j) * (1 + 2 * j) ∧ 0 < n := by
  have hnl : (1 - j) * L ≤ n := by
    rw [abs_le] at hn
    linarith [hn.1]
  have npos : 0 < n := lt_of_lt_of_le (mul_pos (by linarith) hL) hnl
  refine ⟨?_, npos⟩
  have e : a / n - x / L = ((a - x) * L - x * (n - L)) / (n * L) := by field_simp; ring
  rw [e, abs_div, abs_of_pos (mul_pos npos hL), div_le_iff₀ (mul_pos npos hL)]
  have h1 : |(a - x) * L - x * (n - L)| ≤ k * L * L + L * (j * L) := by
    refine (abs_sub _ _).trans ?_
    rw [abs_mul, abs_mul, abs_of_pos hL]
    exact add_le_add (mul_le_mul_of_nonneg_right ha hL.le) (mul_le_mul hx hn (abs_nonneg _) hL.le)
  refine h1.trans ?_
  have h3 : (1 - j) * L * L ≤ n * L := mul_le_mul_of_nonneg_right hnl hL.le
  have h4 : 0 < L * L := mul_pos hL hL
  have h5 : (k + j) * (1 + 2 * j) * ((1 - j) * L * L) ≤ (k + j) * (1 + 2 * j) * (n * L) :=
    mul_le_mul_of_nonneg_left h3 (mul_nonneg (by linarith) (by linarith))
  refine le_trans ?_ h5
  have h6 : (k + j) * (1 + 2 * j) * ((1 - j) * L * L) - (k * L * L + L * (j * L)) = (k + j) * (j * (1 - 2 * j)) * (L * L) := by ring
  have h7 : 0 ≤ (k + j) * (j * (1 - 2 * j)) * (L * L) :=
    mul_nonneg (mul_nonneg (by linarith) (mul_nonneg hj (by linarith))) h4.le
  linarith

theorem prod_near {a b x y : ℝ} (ha : |a - x| ≤ ulp * |x|) (hb : |b - y| ≤ ulp * |y|) :
    |rs (a * b) - x * y| ≤ 4 * ulp * |x * y| + 2 ^ (-1075 : ℤ) := by
  have e : a * b - x * y = (a - x) * (b - y) + x * (b - y) + (a - x) * y := by ring
  have u0 := ulp_pos
  have h1 : |a * b - x * y| ≤ (2 * ulp + ulp * ulp) * |x * y| := by
    have a1 : |(a - x) * (b - y)| ≤ ulp * ulp * |x * y| := by
      rw [abs_mul, abs_mul]
      calc |a - x| * |b - y| ≤ ulp * |x| * (ulp * |y|) := mul_le_mul ha hb (abs_nonneg _) (by positivity)
        _ = _ := by ring
    have a2 : |x * (b - y)| ≤ ulp * |x * y| := by
      rw [abs_mul, abs_mul]
      calc |x| * |b - y| ≤ |x| * (ulp * |y|) := mul_le_mul_of_nonneg_left hb (abs_nonneg _)
        _ = _ := by ring
    have a3 : |(a - x) * y| ≤ ulp * |x * y| := by
      rw [abs_mul, abs_mul]
      calc |a - x| * |y| ≤ ulp * |x| * |y| := mul_le_mul_of_nonneg_right ha (abs_nonneg _)
        _ = _ := by ring
    rw [e]
    have b1 := abs_add_le ((a - x) * (b - y) + x * (b - y)) ((a - x) * y)
    have b2 := abs_add_le ((a - x) * (b - y)) (x * (b - y))
    linarith
  have h2 := rs_err' (a * b)
  have h3 := abs_sub_abs_le_abs_sub (a * b) (x * y)
  have h5 := abs_add_le (rs (a * b) - a * b) (a * b - x * y)
  rw [sub_add_sub_cancel] at h5
  have h6 := abs_nonneg (x * y)
  rw [ulp_eq] at *
  norm_num only at *
  linarith

theorem clamp_near {x : B64 lm} {r : ℝ} (hx : x.Is r) :
    ∃ t, (clamp x (-1.0 : B64 lm) (1.0 : B64 lm)).Is t ∧ |t| ≤ 1 ∧ ∀ c, |c| ≤ 1 → |t - c| ≤ |r - c| := by
  unfold clamp
  have m1 := (B64.is_one (lm := lm)).neg
  split_ifs with h1 h2
  · refine ⟨_, m1, by norm_num, fun c hc => ?_⟩
    rw [hx.lt_iff m1] at h1
    rw [abs_le] at hc
    rw [abs_of_nonpos (by linarith [hc.1]), abs_of_nonpos (by linarith [hc.1])]
    linarith
  · refine ⟨_, B64.is_one, by norm_num, fun c hc => ?_⟩
    rw [B64.is_one.lt_iff hx] at h2
    rw [abs_le] at hc
    rw [abs_of_nonneg (by linarith [hc.2]), abs_of_nonneg (by linarith [hc.2])]
    linarith
  · rw [hx.lt_iff m1] at h1
    rw [B64.is_one.lt_iff hx] at h2
    exact ⟨r, hx, abs_le.2 ⟨by linarith, by linarith⟩, fun c _ => le_rfl⟩

theorem cos_near {v w : Vec2 (B64 lm)} {x y L a b n z t M c d k : ℝ} (f : DirFacts v x y L a b n) (g : DirFacts w z t M c d k)
    (hL : L = √(x ^ 2 + y ^ 2)) (hM : M = √(z ^ 2 + t ^ 2)) (h0 : 2 ^ (-19 : ℤ) ≤ L) (h0' : 2 ^ (-19 : ℤ) ≤ M) :
    ∃ r, (v.dot w / (v.norm * w.norm)).Is r ∧ |r - (x * z + y * t) / (L * M)| ≤ 28 * ulp ∧ |(x * z + y * t) / (L * M)| ≤ 1 := by
  have LM : 0 < L * M := mul_pos f.pos g.pos
  have LM0 : 2 ^ (-38 : ℤ) ≤ L * M := by
    have : (2 : ℝ) ^ (-38 : ℤ) = 2 ^ (-19 : ℤ) * 2 ^ (-19 : ℤ) := by rw [← zpow_add₀ (by norm_num)]; norm_num
    rw [this]
    exact mul_le_mul h0 h0' (two_pos _).le f.pos.le
  have LM1 : L * M ≤ 2 ^ (800 : ℤ) := by
    have : (2 : ℝ) ^ (800 : ℤ) = 2 ^ (400 : ℤ) * 2 ^ (400 : ℤ) := by rw [← zpow_add₀ (by norm_num)]; norm_num
    rw [this]
    exact mul_le_mul f.L1 g.L1 g.pos.le (two_pos _).le
  have cs : |x * z| + |y * t| ≤ L * M := by
    rw [hL, hM, ← Real.sqrt_mul (by positivity)]
    apply Real.le_sqrt_of_sq_le
    rw [abs_mul, abs_mul]
    have : (x ^ 2 + y ^ 2) * (z ^ 2 + t ^ 2) = (|x| ^ 2 + |y| ^ 2) * (|z| ^ 2 + |t| ^ 2) := by simp only [sq_abs]
    rw [this]
    nlinarith [sq_nonneg (|x| * |t| - |y| * |z|)]
  have p1 := prod_near f.xa g.xa
  have p2 := prod_near f.yb g.yb
  have t1 := two_small (j := -1075) (k := -38) (by norm_num)
  have tp := two_pos (-1075)
  have bnd : ∀ {q e : ℝ}, |rs q - e| ≤ 4 * ulp * |e| + 2 ^ (-1075 : ℤ) → |e| ≤ L * M → |rs q| ≤ 2 * (L * M) := by
    intro q e hq he
    have := abs_sub_abs_le_abs_sub (rs q) e
    have h3 := mul_le_mul_of_nonneg_left he ulp_pos.le
    rw [ulp_eq] at *
    generalize (2 : ℝ) ^ (-38 : ℤ) = zz at *
    generalize (2 : ℝ) ^ (-1075 : ℤ) = yy at *
    linarith
  have c1 : |x * z| ≤ L * M := by linarith [abs_nonneg (y * t)]
  have c2 : |y * t| ≤ L * M := by linarith [abs_nonneg (x * z)]
  have two_k : ∀ (q : ℝ) , |q| ≤ 4 * (L * M) → |q| ≤ 2 ^ (802 : ℤ) := by
    intro q hq
    have : (2 : ℝ) ^ (802 : ℤ) = 4 * 2 ^ (800 : ℤ) := by
      rw [show (802 : ℤ) = 2 + 800 by norm_num, zpow_add₀ (by norm_num)]; norm_num
    rw [this]
    linarith
  have top1 : ∀ {q : ℝ}, |rs q| ≤ 2 * (L * M) → |rs q| < top := fun {q} hq =>
    (two_k _ (by linarith)).trans_lt (pow_lt_top (by norm_num))
  have m1 := f.ax.mul g.ax (top1 (bnd p1 c1))
  have m2 := f.ay.mul g.ay (top1 (bnd p2 c2))
  have s1 : |rs (a * c) + rs (b * d) - (x * z + y * t)| ≤ 4 * ulp * (L * M) + 2 * 2 ^ (-1075 : ℤ) := by
    have : rs (a * c) + rs (b * d) - (x * z + y * t) = (rs (a * c) - x * z) + (rs (b * d) - y * t) := by ring
    rw [this]
    refine (abs_add_le _ _).trans ?_
    have := mul_le_mul_of_nonneg_left cs (show 0 ≤ 4 * ulp by linarith [ulp_pos])
    linarith
  have dl : |x * z + y * t| ≤ L * M := (abs_add_le _ _).trans cs
  have s2 : |rs (a * c) + rs (b * d)| ≤ 2 * (L * M) := by
    have := abs_sub_abs_le_abs_sub (rs (a * c) + rs (b * d)) (x * z + y * t)
    rw [ulp_eq] at *
    generalize (2 : ℝ) ^ (-38 : ℤ) = zz at *
    generalize (2 : ℝ) ^ (-1075 : ℤ) = yy at *
    linarith
  have s3 := rs_err' (rs (a * c) + rs (b * d))
  have s4 : |rs (rs (a * c) + rs (b * d)) - (x * z + y * t)| ≤ 7 * ulp * (L * M) := by
    have := abs_add_le (rs (rs (a * c) + rs (b * d)) - (rs (a * c) + rs (b * d))) (rs (a * c) + rs (b * d) - (x * z + y * t))
    rw [sub_add_sub_cancel] at this
    rw [ulp_eq] at *
    generalize (2 : ℝ) ^ (-38 : ℤ) = zz at *
    generalize (2 : ℝ) ^ (-1075 : ℤ) = yy at *
    linarith
  have hd := m1.add m2 (abs_rs_lt_top (k := 802) (by norm_num) (by norm_num) (two_k _ (by linarith)))
  have nk : |n * k - L * M| ≤ 15 * ulp * (L * M) := by
    have e : n * k - L * M = (n - L) * (k - M) + L * (k - M) + (n - L) * M := by ring
    have a1 : |(n - L) * (k - M)| ≤ 49 * ulp * ulp * (L * M) := by
      rw [abs_mul]
      calc |n - L| * |k - M| ≤ 7 * ulp * L * (7 * ulp * M) :=
            mul_le_mul f.nL g.nL (abs_nonneg _) (by have := f.pos; have := ulp_pos; positivity)
        _ = _ := by ring
    have a2 : |L * (k - M)| ≤ 7 * ulp * (L * M) := by
      rw [abs_mul, abs_of_pos f.pos]
      calc L * |k - M| ≤ L * (7 * ulp * M) := mul_le_mul_of_nonneg_left g.nL f.pos.le
        _ = _ := by ring
    have a3 : |(n - L) * M| ≤ 7 * ulp * (L * M) := by
      rw [abs_mul, abs_of_pos g.pos]
      calc |n - L| * M ≤ 7 * ulp * L * M := mul_le_mul_of_nonneg_right f.nL g.pos.le
        _ = _ := by ring
    rw [e]
    have b1 := abs_add_le ((n - L) * (k - M) + L * (k - M)) ((n - L) * M)
    have b2 := abs_add_le ((n - L) * (k - M)) (L * (k - M))
    rw [ulp_eq] at *
    norm_num only at *
    linarith
  have nk2 : |n * k| ≤ 2 * (L * M) := by
    have := abs_sub_abs_le_abs_sub (n * k) (L * M)
    rw [abs_of_pos LM] at this
    rw [ulp_eq] at *
    linarith
  have nk3 := rs_err' (n * k)
  have nk4 : |rs (n * k) - L * M| ≤ 18 * ulp * (L * M) := by
    have := abs_add_le (rs (n * k) - n * k) (n * k - L * M)
    rw [sub_add_sub_cancel] at this
    rw [ulp_eq] at *
    generalize (2 : ℝ) ^ (-38 : ℤ) = zz at *
    generalize (2 : ℝ) ^ (-1075 : ℤ) = yy at *
    linarith
  have hN := f.nm.mul g.nm (abs_rs_lt_top (k := 802) (by norm_num) (by norm_num) (two_k _ (by linarith)))
  obtain ⟨q1, q2⟩ := quot_near' LM (j := 18 * ulp) (k := 7 * ulp) (by linarith [ulp_pos]) (by rw [ulp_eq]; norm_num)
    (by linarith [ulp_pos]) nk4 s4 dl
  have cl : |(x * z + y * t) / (L * M)| ≤ 1 := by rw [abs_div, abs_of_pos LM, div_le_one LM]; exact dl
  have q3 := abs_sub_abs_le_abs_sub (rs (rs (a * c) + rs (b * d)) / rs (n * k)) ((x * z + y * t) / (L * M))
  have q4 : |rs (rs (a * c) + rs (b * d)) / rs (n * k)| ≤ 3 / 2 := by
    rw [ulp_eq] at q1
    norm_num only at q1
    linarith
  have q5 := rs_err' (rs (rs (a * c) + rs (b * d)) / rs (n * k))
  refine ⟨_, hd.div hN q2.ne' (abs_rs_lt_top (k := 1) (by norm_num) (by norm_num) (by rw [zpow_one]; linarith)), ?_, cl⟩
  have := abs_add_le (rs (rs (rs (a * c) + rs (b * d)) / rs (n * k)) - rs (rs (a * c) + rs (b * d)) / rs (n * k))
    (rs (rs (a * c) + rs (b * d)) / rs (n * k) - (x * z + y * t) / (L * M))
  rw [sub_add_sub_cancel] at this
  have t2 := two_small (j := -1075) (k := 0) (by norm_num)
  rw [zpow_zero] at t2
  generalize |rs (rs (a * c) + rs (b * d)) / rs (n * k)| = A at *
  rw [ulp_eq] at *
  norm_num only at q1 q5
  linarith

end Isotope
