import Verif.Lemmas.FloatWithin
import Mathlib.Analysis.SpecialFunctions.Trigonometric.Bounds

/-!
# A small computed loss means the constraint is met up to a tolerance
-/

namespace Isotope
open Round Val

variable {lm : Libm}

theorem ulp8 : (2 : ℝ) ^ (-50 : ℤ) = 8 * ulp := by rw [ulp_eq]; norm_num
theorem ulp64 : (2 : ℝ) ^ (-47 : ℤ) = 64 * ulp := by rw [ulp_eq]; norm_num

/-- lengths of vectors whose components are near -/
theorem len_shift {a b x y e f : ℝ} (ha : |x - a| ≤ e) (hb : |y - b| ≤ f) : √(x ^ 2 + y ^ 2) ≤ √(a * a + b * b) + (e + f) := by
  have e0 := (abs_nonneg _).trans ha
  have f0 := (abs_nonneg _).trans hb
  have A := Real.sqrt_nonneg (a * a + b * b)
  have A2 := Real.mul_self_sqrt (add_nonneg (mul_self_nonneg a) (mul_self_nonneg b))
  have la : |a| ≤ √(a * a + b * b) := Real.abs_le_sqrt (by nlinarith [mul_self_nonneg b])
  have lb : |b| ≤ √(a * a + b * b) := Real.abs_le_sqrt (by nlinarith [mul_self_nonneg a])
  apply Real.sqrt_le_iff.2
  refine ⟨by linarith, ?_⟩
  generalize √(a * a + b * b) = N at *
  have hx : x = a + (x - a) := by ring
  have hy : y = b + (y - b) := by ring
  generalize x - a = p at *
  generalize y - b = q at *
  have h1 : a * p ≤ N * e := (le_abs_self _).trans (by rw [abs_mul]; exact mul_le_mul la ha (abs_nonneg _) A)
  have h2 : b * q ≤ N * f := (le_abs_self _).trans (by rw [abs_mul]; exact mul_le_mul lb hb (abs_nonneg _) A)
  have h3 : p * p ≤ e * e := by rw [← abs_mul_abs_self p]; exact mul_self_le_mul_self (abs_nonneg _) ha
  have h4 : q * q ≤ f * f := by rw [← abs_mul_abs_self q]; exact mul_self_le_mul_self (abs_nonneg _) hb
  have h5 := mul_nonneg e0 f0
  rw [hx, hy]
  nlinarith

/-- an exact vector from a computed one -/
theorem len_back {x x' y y' : ℝ} (hx : Rep |x|) (hx' : Rep |x'|) (hy : Rep |y|) (hy' : Rep |y'|) :
    √((x - x') ^ 2 + (y - y') ^ 2) ≤ (1 + 2 * ulp) * √(rs (x - x') * rs (x - x') + rs (y - y') * rs (y - y')) := by
  have hu : (0 : ℝ) ≤ 1 + 2 * ulp := by linarith [ulp_pos]
  rw [← Real.sqrt_sq hu, ← Real.sqrt_mul (sq_nonneg _)]
  apply Real.sqrt_le_sqrt
  have key : ∀ {p q : ℝ}, |p| ≤ (1 + 2 * ulp) * |q| → p ^ 2 ≤ (1 + 2 * ulp) ^ 2 * (q * q) := by
    intro p q hh
    have := mul_self_le_mul_self (abs_nonneg _) hh
    rw [abs_mul_abs_self] at this
    have e : (1 + 2 * ulp) * |q| * ((1 + 2 * ulp) * |q|) = (1 + 2 * ulp) ^ 2 * (|q| * |q|) := by ring
    rw [e, abs_mul_abs_self] at this
    rw [pow_two p]
    exact this
  have h1 := key (sub_back hx hx')
  have h2 := key (sub_back hy hy')
  linarith

theorem fix_met {h : Heap (B64 lm)} {p : Nat} {d : Vec2 (B64 lm)} {t m κ : ℝ} (hm : 2 ^ (-600 : ℤ) ≤ m)
    (h1 : (lossValue h (.fix p d)).Is t) (h2 : t ≤ m) : Within h ((1 + 2 ^ (-50 : ℤ)) * √(2 * m)) κ (.fix p d) := by
  obtain ⟨α, β, ha, hb, hl⟩ := half_sum_fin (a := ((h.points p).data - d).x) (b := ((h.points p).data - d).y) hm h1 h2
  obtain ⟨x, a, hx, hA, hX⟩ := B64.sub_fin (x := (h.points p).data.x) (y := d.x) ha.isFinite
  obtain ⟨y, b, hy, hB, hY⟩ := B64.sub_fin (x := (h.points p).data.y) (y := d.y) hb.isFinite
  have e1 : α = rs (x - a) := ha.unique hX
  have e2 : β = rs (y - b) := hb.unique hY
  subst e1 e2
  refine ⟨x, y, a, b, ⟨hx, hy⟩, hA, hB, ?_⟩
  have h3 := len_back hx.rep hA.rep hy.rep hB.rep
  have hB0 := Real.sqrt_nonneg (2 * m)
  rw [ulp8]
  generalize √(2 * m) = B at *
  have h4 := mul_le_mul_of_nonneg_left hl (show 0 ≤ 1 + 2 * ulp by linarith [ulp_pos])
  refine h3.trans (h4.trans ?_)
  rw [ulp_eq]
  norm_num only
  linarith

theorem one_met {x y d : B64 lm} {t m : ℝ} (hm : 2 ^ (-600 : ℤ) ≤ m) (h1 : ((0.5 : B64 lm) * (x - y - d) * (x - y - d)).Is t)
    (h2 : t ≤ m) : ∃ r w D, x.Is r ∧ y.Is w ∧ d.Is D ∧
      |r - w - D| ≤ (1 + 2 ^ (-50 : ℤ)) * √(2 * m) + 2 ^ (-53 : ℤ) * |r - w| := by
  obtain ⟨ε, he, hl⟩ := half_sq_fin hm h1 h2
  obtain ⟨s, D, hs, hD, hE⟩ := B64.sub_fin he.isFinite
  obtain ⟨r, w, hr, hw, hS⟩ := B64.sub_fin hs.isFinite
  have e1 := he.unique hE
  have e2 := hs.unique hS
  have hb := sub_back hs.rep hD.rep
  rw [← e1] at hb
  have hd := rs_sub_err hr.rep hw.rep
  rw [← e2] at hd
  refine ⟨r, w, D, hr, hw, hD, ?_⟩
  have h4 := abs_sub_le (r - w) s D
  rw [abs_sub_comm (r - w) s] at h4
  have hB0 := Real.sqrt_nonneg (2 * m)
  rw [ulp8]
  show _ ≤ _ + ulp * _
  generalize √(2 * m) = B at *
  have h5 : |s - D| ≤ (1 + 8 * ulp) * B := by
    refine hb.trans ((mul_le_mul_of_nonneg_left hl (by linarith [ulp_pos])).trans ?_)
    rw [ulp_eq]
    norm_num only
    linarith
  linarith

theorem flat_met {x y : B64 lm} {t m : ℝ} (hm : 2 ^ (-600 : ℤ) ≤ m) (h1 : ((0.5 : B64 lm) * (x - y) * (x - y)).Is t)
    (h2 : t ≤ m) : ∃ r w, y.Is w ∧ x.Is r ∧ |r - w| ≤ (1 + 2 ^ (-50 : ℤ)) * √(2 * m) := by
  obtain ⟨ε, he, hl⟩ := half_sq_fin hm h1 h2
  obtain ⟨r, w, hr, hw, hE⟩ := B64.sub_fin he.isFinite
  have hb := sub_back hr.rep hw.rep
  rw [← he.unique hE] at hb
  refine ⟨r, w, hw, hr, ?_⟩
  have hB0 := Real.sqrt_nonneg (2 * m)
  rw [ulp8]
  generalize √(2 * m) = B at *
  refine hb.trans ((mul_le_mul_of_nonneg_left hl (by linarith [ulp_pos])).trans ?_)
  rw [ulp_eq]
  norm_num only
  linarith

/-- the error of a difference of lengths -/
theorem gap_met {m n k D E ε : ℝ} (hm : 2 ^ (-600 : ℤ) ≤ m) (hn : |n - D| ≤ 6 * ulp * D + 2 ^ (-498 : ℤ))
    (hk : |k - E| ≤ 6 * ulp * E + 2 ^ (-498 : ℤ)) (h1 : |n - k| ≤ (1 + 2 * ulp) * |ε|)
    (h2 : |ε| ≤ (1 + 4 * ulp) * √(2 * m)) (hD : 0 ≤ D) (hE : 0 ≤ E) :
    |D - E| ≤ (1 + 2 ^ (-50 : ℤ)) * √(2 * m) + 2 ^ (-50 : ℤ) * (D + E) := by
  have ht := tau_pos hm
  have t1 := two_small (j := -498) (k := -300) (by norm_num)
  have h3 := mul_le_mul_of_nonneg_left h2 (show 0 ≤ 1 + 2 * ulp by linarith [ulp_pos])
  have h4 := h1.trans h3
  rw [ulp8]
  generalize √(2 * m) = B at *
  have t0 := two_pos (-300)
  generalize (2 : ℝ) ^ (-498 : ℤ) = y at *
  generalize (2 : ℝ) ^ (-300 : ℤ) = z at *
  rw [abs_le] at *
  rw [ulp_eq] at *
  norm_num only at *
  constructor <;> linarith [hn.1, hn.2, hk.1, hk.2, h4.1, h4.2]

theorem euclid_met {h : Heap (B64 lm)} {p q : Nat} {d : B64 lm} {t m κ : ℝ} (hm : 2 ^ (-600 : ℤ) ≤ m)
    (h1 : (lossValue h (.euclid p q d)).Is t) (h2 : t ≤ m) : Within h ((1 + 2 ^ (-50 : ℤ)) * √(2 * m)) κ (.euclid p q d) := by
  obtain ⟨ε, he, hl⟩ := half_sq_fin (e := ((h.points p).data - (h.points q).data).norm - d) hm h1 h2
  obtain ⟨n, D, hn, hD, hE⟩ := B64.sub_fin he.isFinite
  obtain ⟨x, y, x', y', n', hx, hy, hx', hy', hn', hd⟩ := dist_fin hn.isFinite
  have e1 := hn'.unique hn
  subst e1
  have hb := sub_back hn.rep hD.rep
  rw [← he.unique hE] at hb
  refine ⟨x, y, x', y', D, ⟨hx, hy⟩, ⟨hx', hy'⟩, hD, ?_⟩
  have hL := Real.sqrt_nonneg ((x - x') ^ 2 + (y - y') ^ 2)
  generalize √((x - x') ^ 2 + (y - y') ^ 2) = L at *
  have ht := tau_pos hm
  have t1 := two_small (j := -498) (k := -300) (by norm_num)
  have h3 := hb.trans (mul_le_mul_of_nonneg_left hl (show 0 ≤ 1 + 2 * ulp by linarith [ulp_pos]))
  rw [ulp8]
  generalize √(2 * m) = B at *
  have t0 := two_pos (-300)
  generalize (2 : ℝ) ^ (-498 : ℤ) = y at *
  generalize (2 : ℝ) ^ (-300 : ℤ) = z at *
  rw [abs_le] at hd h3 ⊢
  rw [ulp_eq] at *
  norm_num only at *
  constructor <;> linarith [hd.1, hd.2, h3.1, h3.2]

theorem eqLen_met {h : Heap (B64 lm)} {l k : Nat} {t m κ : ℝ} (hm : 2 ^ (-600 : ℤ) ≤ m)
    (h1 : (lossValue h (.eqLen l k)).Is t) (h2 : t ≤ m) : Within h ((1 + 2 ^ (-50 : ℤ)) * √(2 * m)) κ (.eqLen l k) := by
  obtain ⟨ε, he, hl⟩ := half_sq_fin (e := (lineEnd h l - lineStart h l).norm - (lineEnd h k - lineStart h k).norm) hm h1 h2
  obtain ⟨n, n', hn, hn', hE⟩ := B64.sub_fin he.isFinite
  obtain ⟨x', y', x, y, r, hx', hy', hx, hy, hr, hd⟩ := dist_fin hn.isFinite
  obtain ⟨z', w', z, w, r', hz', hw', hz, hw, hr', hd'⟩ := dist_fin hn'.isFinite
  have e1 := hr.unique hn
  have e2 := hr'.unique hn'
  subst e1 e2
  have hb := sub_back hn.rep hn'.rep
  rw [← he.unique hE] at hb
  exact ⟨x, y, x', y', z, w, z', w', ⟨hx, hy⟩, ⟨hx', hy'⟩, ⟨hz, hw⟩, ⟨hz', hw'⟩,
    gap_met hm hd hd' hb hl (Real.sqrt_nonneg _) (Real.sqrt_nonneg _)⟩

/-- one coordinate of a computed arc point -/
theorem arc_near {u r c φ κ : ℝ} (hκ : κ ≤ 1) (hu : Rep |u|) (hw : Rep |rs (r * c)|) (hc : |c - φ| ≤ κ) (hφ : |φ| ≤ 1) :
    |rs (u + rs (r * c)) - (u + r * φ)| ≤ ulp * |u| + (6 * ulp + κ) * |r| + 2 * 2 ^ (-1075 : ℤ) := by
  have h1 := rs_err' (r * c)
  have h2 := rs_add_err hu hw
  have h3 : |r * c| ≤ 2 * |r| := by
    rw [abs_mul]
    have := abs_sub_abs_le_abs_sub c φ
    nlinarith [abs_nonneg r]
  have h4 : |r * c - r * φ| ≤ κ * |r| := by
    rw [← mul_sub, abs_mul, mul_comm]
    exact mul_le_mul_of_nonneg_right hc (abs_nonneg r)
  have h5 := abs_add_le u (rs (r * c))
  have h6 := abs_sub_abs_le_abs_sub (rs (r * c)) (r * c)
  have e : rs (u + rs (r * c)) - (u + r * φ) = (rs (u + rs (r * c)) - (u + rs (r * c))) + ((rs (r * c) - r * c) + (r * c - r * φ)) := by
    ring
  rw [e]
  have h7 := abs_add_le (rs (u + rs (r * c)) - (u + rs (r * c))) ((rs (r * c) - r * c) + (r * c - r * φ))
  have h8 := abs_add_le (rs (r * c) - r * c) (r * c - r * φ)
  have h9 := abs_nonneg r
  have t0 := two_pos (-1075)
  generalize (2 : ℝ) ^ (-1075 : ℤ) = y at *
  rw [ulp_eq] at *
  linarith

theorem arc_met {h : Heap (B64 lm)} {p : Nat} {U V R C S : B64 lm} {t m κ φ : ℝ} (hκ : κ ≤ 1)
    (hm : 2 ^ (-600 : ℤ) ≤ m)
    (hC : ∀ c, C.Is c → |c - Real.cos φ| ≤ κ) (hS : ∀ s, S.Is s → |s - Real.sin φ| ≤ κ)
    (h1 : ((0.5 : B64 lm) * ((U + R * C - (ptData h p).x) * (U + R * C - (ptData h p).x) +
      (V + R * S - (ptData h p).y) * (V + R * S - (ptData h p).y))).Is t) (h2 : t ≤ m) :
    ∃ u v r x y, U.Is u ∧ V.Is v ∧ R.Is r ∧ At h p x y ∧
      √((u + r * Real.cos φ - x) ^ 2 + (v + r * Real.sin φ - y) ^ 2) ≤
        (1 + 2 ^ (-50 : ℤ)) * √(2 * m) + 2 ^ (-51 : ℤ) * (|u| + |v|) + (2 ^ (-49 : ℤ) + 2 * κ) * |r| := by
  obtain ⟨α, β, ha, hb, hl⟩ := half_sum_fin hm h1 h2
  obtain ⟨X, x, hX, hx, hα⟩ := B64.sub_fin ha.isFinite
  obtain ⟨Y, y, hY, hy, hβ⟩ := B64.sub_fin hb.isFinite
  obtain ⟨u, w, hu, hw, hUW⟩ := B64.add_fin hX.isFinite
  obtain ⟨v, w', hv, hw', hVW⟩ := B64.add_fin hY.isFinite
  obtain ⟨r, c, hr, hc, hRC⟩ := B64.mul_fin hw.isFinite
  obtain ⟨r', s, hr', hs, hRS⟩ := B64.mul_fin hw'.isFinite
  have e1 := hr'.unique hr
  subst e1
  have e2 := ha.unique hα
  have e3 := hb.unique hβ
  have e4 := hw.unique hRC
  have e5 := hw'.unique hRS
  have e6 := hX.unique hUW
  have e7 := hY.unique hVW
  subst e2 e3 e4 e5 e6 e7
  refine ⟨u, v, _, x, y, hu, hv, hr, ⟨hx, hy⟩, ?_⟩
  have n1 := arc_near hκ hu.rep hw.rep (hC c hc) (Real.abs_cos_le_one φ)
  have n2 := arc_near hκ hv.rep hw'.rep (hS s hs) (Real.abs_sin_le_one φ)
  have h3 := len_back hX.rep hx.rep hY.rep hy.rep
  have h4 := len_shift (a := rs (u + rs (r' * c)) - x) (b := rs (v + rs (r' * s)) - y) (x := u + r' * Real.cos φ - x)
    (y := v + r' * Real.sin φ - y) (e := ulp * |u| + (6 * ulp + κ) * |r'| + 2 * 2 ^ (-1075 : ℤ))
    (f := ulp * |v| + (6 * ulp + κ) * |r'| + 2 * 2 ^ (-1075 : ℤ))
    (by rw [sub_sub_sub_cancel_right, abs_sub_comm]; exact n1) (by rw [sub_sub_sub_cancel_right, abs_sub_comm]; exact n2)
  rw [← pow_two, ← pow_two] at h4
  have ht := tau_pos hm
  have t1 := two_small (j := -1075) (k := -300) (by norm_num)
  have h5 := h3.trans (mul_le_mul_of_nonneg_left hl (show 0 ≤ 1 + 2 * ulp by linarith [ulp_pos]))
  rw [ulp8]
  have u4 : (2 : ℝ) ^ (-51 : ℤ) = 4 * ulp := by rw [ulp_eq]; norm_num
  have u16 : (2 : ℝ) ^ (-49 : ℤ) = 16 * ulp := by rw [ulp_eq]; norm_num
  rw [u4, u16]
  have t0 := two_pos (-300)
  have a1 := abs_nonneg u
  have a2 := abs_nonneg v
  have a3 := abs_nonneg r'
  generalize √((u + r' * Real.cos φ - x) ^ 2 + (v + r' * Real.sin φ - y) ^ 2) = Q at *
  generalize √((rs (u + rs (r' * c)) - x) ^ 2 + (rs (v + rs (r' * s)) - y) ^ 2) = P at *
  generalize √(2 * m) = B at *
  generalize (2 : ℝ) ^ (-1075 : ℤ) = yy at *
  generalize (2 : ℝ) ^ (-300 : ℤ) = z at *
  have h6 : Q ≤ (1 + 2 * ulp) * ((1 + 4 * ulp) * B) + ulp * (|u| + |v|) + (12 * ulp + 2 * κ) * |r'| + 4 * yy := by linarith
  rw [ulp_eq] at *
  norm_num only at h6 ⊢
  linarith

theorem ordinary_dir {h : Heap (B64 lm)} {l : Nat} {x y x' y' L : ℝ} (hs : At h (h.lines l).start x y) (he : At h (h.lines l).stop x' y')
    (hL : L = √((x' - x) ^ 2 + (y' - y) ^ 2)) (ho : Ordinary L) :
    ∃ p q, (lineEnd h l - lineStart h l).normalize.x.Is p ∧ (lineEnd h l - lineStart h l).normalize.y.Is q ∧
      |p - (x' - x) / L| ≤ 11 * ulp ∧ |q - (y' - y) / L| ≤ 11 * ulp ∧ |(x' - x) / L| ≤ 1 ∧ |(y' - y) / L| ≤ 1 ∧ 0 < L := by
  obtain ⟨a, b, n, f⟩ := dir_facts (P := lineEnd h l) (Q := lineStart h l) he.1 he.2 hs.1 hs.2 hL ho.1 ho.2
  obtain ⟨p, q, h1, h2, h3, h4, h5, h6⟩ := f.unit
  exact ⟨p, q, h1, h2, h3, h4, h5, h6, f.pos⟩

theorem near_met {c e B : ℝ} (h1 : |c - e| ≤ 60 * ulp) (h2 : |c| ≤ (1 + 4 * ulp) * B) (hB : 0 ≤ B) :
    |e| ≤ (1 + 2 ^ (-50 : ℤ)) * B + 2 ^ (-47 : ℤ) := by
  rw [ulp8, ulp64]
  have h3 := abs_sub_abs_le_abs_sub e c
  rw [abs_sub_comm] at h3
  rw [ulp_eq] at *
  linarith

theorem parallel_met {h : Heap (B64 lm)} {l k : Nat} {t m κ : ℝ} (hm : 2 ^ (-600 : ℤ) ≤ m)
    (h1 : (lossValue h (.parallel l k)).Is t) (h2 : t ≤ m) : Within h ((1 + 2 ^ (-50 : ℤ)) * √(2 * m)) κ (.parallel l k) := by
  intro x y x' y' z w z' w' hs he hs' he' L M hL hM oL oM
  obtain ⟨p, q, ip, iq, np, nq, bx, by', L0⟩ := ordinary_dir hs he hL oL
  obtain ⟨r, v, ir, iv, nr, nv, bz, bw, M0⟩ := ordinary_dir hs' he' hM oM
  simp only [lossValue] at h1
  rw [ip.isFinite, iq.isFinite, ir.isFinite, iv.isFinite] at h1
  simp only [Bool.not_true, Bool.or_self, Bool.false_eq_true, if_false] at h1
  obtain ⟨c, hc, hcl⟩ := half_sq_fin hm h1 h2
  have nq' : |-q - -((y' - y) / L)| ≤ 11 * ulp := by rw [neg_sub_neg, abs_sub_comm]; exact nq
  obtain ⟨c1, -⟩ := cross_near np nv nq' nr bx bw (by rwa [abs_neg]) bz
  obtain ⟨a, b, ha, hb, hab⟩ := B64.sub_fin hc.isFinite
  obtain ⟨a1, a2, ha1, ha2, hA⟩ := B64.mul_fin ha.isFinite
  obtain ⟨b1, b2, hb1, hb2, hB⟩ := B64.mul_fin hb.isFinite
  have e : c = rs (rs (p * v) + rs (-q * r)) := by
    rw [hc.unique hab, ha.unique hA, hb.unique hB, ha1.unique ip, ha2.unique iv, hb1.unique iq, hb2.unique ir, neg_mul, rs_neg,
      sub_eq_add_neg]
  rw [← e] at c1
  have := near_met c1 hcl (Real.sqrt_nonneg _)
  have e2 : ((x' - x) * (w' - w) - (y' - y) * (z' - z)) / (L * M) = (x' - x) / L * ((w' - w) / M) + -((y' - y) / L) * ((z' - z) / M) := by
    field_simp
    ring
  rw [e2]
  exact this

theorem perp_met {h : Heap (B64 lm)} {l k : Nat} {t m κ : ℝ} (hm : 2 ^ (-600 : ℤ) ≤ m)
    (h1 : (lossValue h (.perp l k)).Is t) (h2 : t ≤ m) : Within h ((1 + 2 ^ (-50 : ℤ)) * √(2 * m)) κ (.perp l k) := by
  intro x y x' y' z w z' w' hs he hs' he' L M hL hM oL oM
  obtain ⟨p, q, ip, iq, np, nq, bx, by', L0⟩ := ordinary_dir hs he hL oL
  obtain ⟨r, v, ir, iv, nr, nv, bz, bw, M0⟩ := ordinary_dir hs' he' hM oM
  simp only [lossValue] at h1
  rw [ip.isFinite, iq.isFinite, ir.isFinite, iv.isFinite] at h1
  simp only [Bool.not_true, Bool.or_self, Bool.false_eq_true, if_false] at h1
  obtain ⟨c, hc, hcl⟩ := half_sq_fin hm h1 h2
  obtain ⟨c1, -⟩ := cross_near np nr nq nv bx bz by' bw
  obtain ⟨a, b, ha, hb, hab⟩ := B64.add_fin (x := (lineEnd h l - lineStart h l).normalize.x * (lineEnd h k - lineStart h k).normalize.x)
    (y := (lineEnd h l - lineStart h l).normalize.y * (lineEnd h k - lineStart h k).normalize.y) hc.isFinite
  obtain ⟨a1, a2, ha1, ha2, hA⟩ := B64.mul_fin ha.isFinite
  obtain ⟨b1, b2, hb1, hb2, hB⟩ := B64.mul_fin hb.isFinite
  have e : c = rs (rs (p * r) + rs (q * v)) := by
    rw [hc.unique hab, ha.unique hA, hb.unique hB, ha1.unique ip, ha2.unique ir, hb1.unique iq, hb2.unique iv]
  rw [← e] at c1
  have := near_met c1 hcl (Real.sqrt_nonneg _)
  have e2 : ((x' - x) * (z' - z) + (y' - y) * (w' - w)) / (L * M) = (x' - x) / L * ((z' - z) / M) + (y' - y) / L * ((w' - w) / M) := by
    field_simp
  rw [e2]
  exact this

theorem micro_lt : ∃ r : ℝ, (1e-6 : B64 lm).Is r ∧ r ≤ 2 ^ (-18 : ℤ) / 2 := by
  have hp : (0 : ℝ) ≤ OfScientific.ofScientific 1 true 6 := by norm_num
  have hl : |(OfScientific.ofScientific 1 true 6 : ℝ)| ≤ 2 ^ (0 : ℤ) := by rw [abs_of_nonneg hp]; norm_num
  refine ⟨_, B64.Is.lit 1 true 6 (abs_rs_lt_top (by norm_num) (by norm_num) hl) hp, ?_⟩
  have h18 : (2 : ℝ) ^ (-18 : ℤ) / 2 = 2 ^ (-19 : ℤ) := by norm_num
  rw [h18]
  exact (le_abs_self _).trans (abs_rs_le (rep_pow (-19) (by norm_num) (by norm_num)) (by rw [abs_of_nonneg hp]; norm_num))

theorem angle_met {κ : ℝ} (hlm : lm.Accurate κ) {h : Heap (B64 lm)} {p q o : Nat} {d : B64 lm} {t m : ℝ} (hm : 2 ^ (-600 : ℤ) ≤ m)
    (h1 : (lossValue h (.angle p q o d)).Is t) (h2 : t ≤ m) : Within h ((1 + 2 ^ (-50 : ℤ)) * √(2 * m)) κ (.angle p q o d) := by
  obtain ⟨ε, he, hl⟩ := half_sq_fin (e := currentAngle h p q o - d) hm h1 h2
  obtain ⟨θ, D, hθ, hD, hE⟩ := B64.sub_fin he.isFinite
  refine ⟨D, hD, ?_⟩
  intro x y z w u v hp hq ho L M hL hM l0 l1 m0 m1
  have two19 : (2 : ℝ) ^ (-400 : ℤ) ≤ 2 ^ (-18 : ℤ) := two_le (by norm_num)
  obtain ⟨a, b, n, f⟩ := dir_facts (P := ptData h p) (Q := ptData h o) hp.1 hp.2 ho.1 ho.2 hL (two19.trans l0) l1
  obtain ⟨a', b', n', g⟩ := dir_facts (P := ptData h q) (Q := ptData h o) hq.1 hq.2 ho.1 ho.2 hM (two19.trans m0) m1
  obtain ⟨c, hc, hcn, hc1⟩ := cos_near f g hL hM ((two_le (by norm_num)).trans l0) ((two_le (by norm_num)).trans m0)
  obtain ⟨μ, hμ, hμl⟩ := micro_lt (lm := lm)
  have g1 : (Num.abs (ptData h p - ptData h o).norm <. (1e-6 : B64 lm)) = false := by
    rw [← Bool.not_eq_true, f.nm.abs.lt_iff hμ, not_lt]
    have := f.n0
    exact (hμl.trans ((div_le_div_of_nonneg_right l0 (by norm_num)).trans this)).trans (le_abs_self n)
  have g2 : (Num.abs (ptData h q - ptData h o).norm <. (1e-6 : B64 lm)) = false := by
    rw [← Bool.not_eq_true, g.nm.abs.lt_iff hμ, not_lt]
    have := g.n0
    exact (hμl.trans ((div_le_div_of_nonneg_right m0 (by norm_num)).trans this)).trans (le_abs_self n')
  obtain ⟨s, hs, hs1, hsc⟩ := clamp_near hc
  obtain ⟨θ', hθ', hθn⟩ := hlm.acos _ s hs hs1
  have e : currentAngle h p q o = Num.acos (clamp ((ptData h p - ptData h o).dot (ptData h q - ptData h o) /
      ((ptData h p - ptData h o).norm * (ptData h q - ptData h o).norm)) (-1.0) 1.0) := by
    unfold currentAngle
    dsimp only
    rw [g1, g2, hc.isFinite]
    rfl
  rw [e] at hθ
  have e1 := hθ.unique hθ'
  subst e1
  have hb := sub_back hθ.rep hD.rep
  rw [← he.unique hE] at hb
  have k1 := hsc _ hc1
  have k2 : |Real.cos θ - s| ≤ κ := by
    have h3 := Real.cos_arccos (abs_le.1 hs1).1 (abs_le.1 hs1).2
    have h4 := Real.abs_cos_sub_cos_le θ (Real.arccos s)
    rw [h3] at h4
    exact h4.trans hθn
  have k3 : |Real.cos θ - Real.cos D| ≤ |θ - D| := Real.abs_cos_sub_cos_le θ D
  have h3 := hb.trans (mul_le_mul_of_nonneg_left hl (show 0 ≤ 1 + 2 * ulp by linarith [ulp_pos]))
  have hB := Real.sqrt_nonneg (2 * m)
  rw [ulp8, ulp64]
  generalize √(2 * m) = B at *
  generalize ((x - u) * (z - u) + (y - v) * (w - v)) / (L * M) = ρ at *
  have k4 := abs_sub_le ρ s (Real.cos D)
  have k5 := abs_sub_le s (Real.cos θ) (Real.cos D)
  rw [abs_sub_comm ρ s] at k4
  rw [abs_sub_comm s (Real.cos θ)] at k5
  rw [ulp_eq] at *
  norm_num only at *
  linarith

/-- a constraint whose computed loss is at most `m` is met up to `√(2 m)` -/
theorem met {κ : ℝ} (hlm : lm.Accurate κ) (hκ : κ ≤ 1) {h : Heap (B64 lm)} {c : Constraint (B64 lm)} {t m : ℝ}
    (hm : 2 ^ (-600 : ℤ) ≤ m) (h1 : (lossValue h c).Is t) (h2 : t ≤ m) : Within h ((1 + 2 ^ (-50 : ℤ)) * √(2 * m)) κ c := by
  have arc : ∀ (a p : Nat) (A : B64 lm), ((0.5 : B64 lm) *
      (((h.points (h.arcs a).center).data.x + (h.arcs a).radius * Num.cos A - (ptData h p).x) *
        ((h.points (h.arcs a).center).data.x + (h.arcs a).radius * Num.cos A - (ptData h p).x) +
       ((h.points (h.arcs a).center).data.y + (h.arcs a).radius * Num.sin A - (ptData h p).y) *
        ((h.points (h.arcs a).center).data.y + (h.arcs a).radius * Num.sin A - (ptData h p).y))).Is t →
      ∃ u v r φ x y, At h (h.arcs a).center u v ∧ (h.arcs a).radius.Is r ∧ A.Is φ ∧ At h p x y ∧
      √((u + r * Real.cos φ - x) ^ 2 + (v + r * Real.sin φ - y) ^ 2) ≤
        (1 + 2 ^ (-50 : ℤ)) * √(2 * m) + 2 ^ (-51 : ℤ) * (|u| + |v|) + (2 ^ (-49 : ℤ) + 2 * κ) * |r| := by
    intro a p A hh
    have hA : Num.isFinite A = true := by
      by_contra hc
      obtain ⟨-, w, -, hw, -⟩ := B64.mul_fin hh.isFinite
      obtain ⟨w1, -, hw1, -, -⟩ := B64.add_fin hw.isFinite
      obtain ⟨w2, -, hw2, -, -⟩ := B64.mul_fin hw1.isFinite
      obtain ⟨w3, -, hw3, -, -⟩ := B64.sub_fin hw2.isFinite
      obtain ⟨-, w4, -, hw4, -⟩ := B64.add_fin hw3.isFinite
      obtain ⟨-, w5, -, hw5, -⟩ := B64.mul_fin hw4.isFinite
      have := hlm.cosInf A (by simpa using hc)
      rw [hw5.isFinite] at this
      cases this
    obtain ⟨φ, hφ⟩ := B64.is_of_finite hA
    obtain ⟨c, hc, hc'⟩ := hlm.cos A φ hφ
    obtain ⟨s, hs, hs'⟩ := hlm.sin A φ hφ
    obtain ⟨u, v, r, x, y, hu, hv, hr, hp, hle⟩ := arc_met hκ hm (fun c1 h1 => by rw [h1.unique hc]; exact hc')
      (fun c1 h1 => by rw [h1.unique hs]; exact hs') hh h2
    exact ⟨u, v, r, φ, x, y, ⟨hu, hv⟩, hr, hφ, hp, hle⟩
  cases c with
  | fix p d => exact fix_met hm h1 h2
  | euclid p q d => exact euclid_met hm h1 h2
  | eqLen l k => exact eqLen_met hm h1 h2
  | parallel l k => exact parallel_met hm h1 h2
  | perp l k => exact perp_met hm h1 h2
  | angle p q o d => exact angle_met hlm hm h1 h2
  | horizDist p q d =>
    obtain ⟨r, w, D, hr, hw, hD, hle⟩ := one_met hm h1 h2
    exact ⟨w, r, D, hw, hr, hD, hle⟩
  | vertDist p q d =>
    obtain ⟨r, w, D, hr, hw, hD, hle⟩ := one_met hm h1 h2
    exact ⟨w, r, D, hw, hr, hD, hle⟩
  | horizLine l =>
    obtain ⟨r, w, hw, hr, hle⟩ := flat_met hm h1 h2
    exact ⟨w, r, hw, hr, hle⟩
  | vertLine l =>
    obtain ⟨r, w, hw, hr, hle⟩ := flat_met hm h1 h2
    exact ⟨w, r, hw, hr, hle⟩
  | arcEnd a p => exact arc a p _ h1
  | arcStart a p => exact arc a p _ h1

end Isotope
