import Verif.Lemmas.FloatKinds
import Mathlib.Analysis.SpecialFunctions.Trigonometric.Bounds

/-!
# The contributions of an angle constraint are close to the exact ones
-/

namespace Isotope
open Round Val XR

variable {lm : Libm} {η : ℝ} {h : Heap (B64 lm)}

/-- the arc cosine away from its end points -/
theorem arccos_lip {t c s : ℝ} (ht : |t| ≤ 1) (hc : |c| ≤ 1) (hs : 0 < s) (e : s = √(1 - c * c)) :
    |Real.arccos t - Real.arccos c| ≤ 4 * |t - c| / s := by
  have ht' := abs_le.1 ht
  have hc' := abs_le.1 hc
  have e1 : Real.cos (Real.arccos t) = t := Real.cos_arccos ht'.1 ht'.2
  have e2 : Real.cos (Real.arccos c) = c := Real.cos_arccos hc'.1 hc'.2
  have e3 : Real.sin (Real.arccos c) = s := by rw [Real.sin_arccos, e, _root_.sq]
  have a0 := Real.arccos_nonneg t
  have a1 := Real.arccos_le_pi t
  have b0 := Real.arccos_nonneg c
  have b1 := Real.arccos_le_pi c
  generalize Real.arccos t = α at *
  generalize Real.arccos c = β at *
  have hpi := Real.pi_pos
  have pi4 := Real.pi_le_four
  have key : t - c = -2 * Real.sin ((α + β) / 2) * Real.sin ((α - β) / 2) := by rw [← e1, ← e2, Real.cos_sub_cos]
  have s1 : s / 2 ≤ Real.sin ((α + β) / 2) := by
    have d : (α + β) / 2 = α / 2 + β / 2 := by ring
    have f : s = 2 * Real.sin (β / 2) * Real.cos (β / 2) := by rw [← e3, ← Real.sin_two_mul]; congr 1; ring
    have p1 : 0 ≤ Real.sin (α / 2) := Real.sin_nonneg_of_nonneg_of_le_pi (by linarith) (by linarith)
    have p2 : 0 ≤ Real.cos (α / 2) := Real.cos_nonneg_of_neg_pi_div_two_le_of_le (by linarith) (by linarith)
    have p3 : 0 ≤ Real.sin (β / 2) := Real.sin_nonneg_of_nonneg_of_le_pi (by linarith) (by linarith)
    have p4 : 0 ≤ Real.cos (β / 2) := Real.cos_nonneg_of_neg_pi_div_two_le_of_le (by linarith) (by linarith)
    have q1 := Real.sin_sq_add_cos_sq (α / 2)
    have q3 := Real.sin_le_one (β / 2)
    have q4 := Real.cos_le_one (β / 2)
    have q5 : 1 ≤ Real.sin (α / 2) + Real.cos (α / 2) := by nlinarith
    rw [d, Real.sin_add, f]
    have m1 : Real.sin (β / 2) * Real.cos (β / 2) ≤ Real.cos (β / 2) := by nlinarith
    have m2 : Real.sin (β / 2) * Real.cos (β / 2) ≤ Real.sin (β / 2) := by nlinarith
    have m0 : 0 ≤ Real.sin (β / 2) * Real.cos (β / 2) := mul_nonneg p3 p4
    nlinarith [mul_le_mul_of_nonneg_left m1 p1, mul_le_mul_of_nonneg_left m2 p2]
  have s2 : |α - β| / Real.pi ≤ |Real.sin ((α - β) / 2)| := by
    have g : ∀ x : ℝ, 0 ≤ x → x ≤ Real.pi → x / Real.pi ≤ Real.sin (x / 2) := fun x h0 h1 => by
      have := Real.mul_le_sin (x := x / 2) (by linarith) (by linarith)
      calc x / Real.pi = 2 / Real.pi * (x / 2) := by ring
        _ ≤ _ := this
    rcases le_total 0 (α - β) with h0 | h0
    · rw [abs_of_nonneg h0]
      exact (g _ h0 (by linarith)).trans (le_abs_self _)
    · rw [abs_of_nonpos h0]
      have := g (-(α - β)) (by linarith) (by linarith)
      have ev : -(α - β) / 2 = -((α - β) / 2) := by ring
      rw [ev, Real.sin_neg] at this
      exact this.trans (neg_le_abs _)
  rw [le_div_iff₀ hs, key, abs_mul, abs_mul, abs_neg, abs_two]
  have h1 : s / 2 ≤ |Real.sin ((α + β) / 2)| := s1.trans (le_abs_self _)
  have h2 : |α - β| ≤ |Real.sin ((α - β) / 2)| * 4 := by
    rw [div_le_iff₀ hpi] at s2
    exact s2.trans (mul_le_mul_of_nonneg_left pi4 (abs_nonneg _))
  have h3 : |α - β| * (s / 2) ≤ |Real.sin ((α - β) / 2)| * 4 * |Real.sin ((α + β) / 2)| :=
    mul_le_mul h2 h1 (by linarith) (by positivity)
  linarith

theorem clamp_close {x : B64 lm} {v c : ℝ} (hx : x.Is v) (hc : |c| ≤ 1) :
    ∃ t, (clamp x (-1.0 : B64 lm) (1.0 : B64 lm)).Is t ∧ |t| ≤ 1 ∧ |t - c| ≤ |v - c| := by
  have hc' := abs_le.1 hc
  unfold clamp
  have m1 := (B64.is_one (lm := lm)).neg
  split_ifs with h1 h2
  · rw [hx.lt_iff m1] at h1
    refine ⟨_, m1, by norm_num, ?_⟩
    rw [abs_of_nonpos (by linarith), abs_of_nonpos (by linarith)]
    linarith
  · rw [B64.is_one.lt_iff hx] at h2
    refine ⟨_, B64.is_one, by norm_num, ?_⟩
    rw [abs_of_nonneg (by linarith), abs_of_nonneg (by linarith)]
    linarith
  · rw [hx.lt_iff m1] at h1
    rw [B64.is_one.lt_iff hx] at h2
    exact ⟨v, hx, abs_le.2 ⟨by linarith, by linarith⟩, le_rfl⟩

section
variable {d1 d2 : Vec2 (B64 lm)} {a b c d : ℝ}

theorem dotp_ap (hη : ErrUnit η) (h1 : Dir η d1 a b) (h2 : Dir η d2 c d) :
    (d1.dot d2).Ap η (a * c + b * d) (2 * (hyp a b * hyp c d)) 6 205 :=
  ((h1.x.mul hη h2.x 204 4 (by norm_num) (by norm_num) (by norm_num) (by norm_num)).add hη
    (h1.y.mul hη h2.y 204 4 (by norm_num) (by norm_num) (by norm_num) (by norm_num)) 205 6 (by norm_num) (by norm_num) (by norm_num)
    (by norm_num) (by norm_num)).congr rfl (by ring)

theorem norms_ap (hη : ErrUnit η) (h1 : Dir η d1 a b) (h2 : Dir η d2 c d) :
    (d1.norm * d2.norm).Ap η (hyp a b * hyp c d) (hyp a b * hyp c d) 30 204 :=
  h1.n.mul hη h2.n 204 30 (by norm_num) (by norm_num) (by norm_num) (by norm_num)

theorem cosine_ap (hη : ErrUnit η) (h1 : Dir η d1 a b) (h2 : Dir η d2 c d) :
    (d1.dot d2 / (d1.norm * d2.norm)).Ap η ((a * c + b * d) / (hyp a b * hyp c d)) 1 76 0 := by
  have h0 : hyp a b * hyp c d ≠ 0 := mul_ne_zero h1.pos.ne' h2.pos.ne'
  have cm := cos_mem (a := a) (b := b) (c := c) (d := d)
  refine ((dotp_ap hη h1 h2).div hη (norms_ap hη h1 h2) 409 38 (by norm_num) (by norm_num) (by norm_num) (by norm_num)).rescale (n := 0)
    (abs_le.2 cm) 2 ?_ hη 76 (by norm_num) (by norm_num) (by norm_num) (by norm_num)
  rw [mul_div_assoc, div_self h0]

end

/-- the factor `-1/sqrt(max(1 - cos², 0))` -/
theorem gradTheta_ap (hη : ErrUnit η) {x : B64 lm} {co s : ℝ} (hx : x.Ap η co 1 76 0) (e : s = √(1 - co * co)) (hs : 2 ^ (-5 : ℤ) ≤ s) :
    (-(1.0 : B64 lm) / Num.sqrt (fmax ((1.0 : B64 lm) - x * x) 0.0)).Ap η (-1 / s) (1 / s) (316 / (s * s)) 5 := by
  have s0 : 0 < s := (two_pos _).trans_le hs
  have hnn : 0 ≤ 1 - co * co := by
    by_contra hc
    rw [Real.sqrt_eq_zero_of_nonpos (not_le.1 hc).le] at e
    linarith
  have ess : s * s = 1 - co * co := by rw [e, Real.mul_self_sqrt hnn]
  have s1 : s ≤ 1 := by nlinarith [mul_self_nonneg co]
  have ss1 : s * s ≤ 1 := by nlinarith
  have sslo : 2 ^ (-(10 : ℕ) : ℤ) ≤ s * s := by
    norm_num at hs ⊢
    nlinarith
  have ss0 : 0 < s * s := mul_pos s0 s0
  have big : ∀ {n : ℝ}, n ≤ 1000 → 0 ≤ n → n / (s * s) ≤ 1048576 := fun {n} hn hn' => by
    rw [div_le_iff₀ ss0]; norm_num at sslo; nlinarith
  have one_le : 1 ≤ 1 / (s * s) := by rw [le_div_iff₀ ss0]; linarith
  have split : ∀ n : ℝ, n / (s * s) = n * (1 / (s * s)) := fun n => by ring
  have q := ((Dir.one_ap (lm := lm)).sub hη (hx.mul hη hx 0 154 (by norm_num) (by norm_num) (by norm_num) (by norm_num)) 1 156 (by norm_num) (by norm_num)
    (by norm_num) (by norm_num) (by norm_num)).rescale (B := s * s) (n := 10) (by rw [mul_self_eq_mul_self_iff.2 (Or.inl rfl)]; rw [abs_of_nonneg hnn, ess])
    (2 / (s * s)) (by rw [div_mul_cancel₀ _ ss0.ne']; norm_num) hη (312 / (s * s)) (by rw [div_mul_eq_mul_div]; norm_num)
    sslo (by linarith [show (1 : ℝ) ≤ 2 ^ ((10 : ℕ) : ℤ) by norm_num]) (by positivity)
  have q' : (fmax ((1.0 : B64 lm) - x * x) 0.0).Ap η (s * s) (s * s) (312 / (s * s)) 10 := by
    obtain ⟨v, e1, e2, e3⟩ := q
    have hm := fmax_is e1
    have := (hη.small (k := 312 / (s * s)) (by positivity) (big (by norm_num) (by norm_num))).2
    have hv : 0 ≤ v := by
      have h5 := (abs_le.1 e2).1
      have h6 : 312 / (s * s) * η * (s * s) ≤ 1 / 16777216 * (s * s) := mul_le_mul_of_nonneg_right this ss0.le
      rw [← ess] at h5
      linarith
    rw [max_eq_left hv] at hm
    rw [← ess] at e2 e3
    exact ⟨v, hm, e2, e3⟩
  have r := (q'.sqrt hη (314 / (s * s)) (by rw [split, split 314]; linarith) (big (by norm_num) (by norm_num)) (by norm_num)).congr
    (Real.sqrt_mul_self s0.le) (Real.sqrt_mul_self s0.le)
  have r' := r.range 5 hs (s1.trans (by norm_num))
  refine ((Dir.one_ap (lm := lm)).neg.div hη r' 5 (316 / (s * s)) ?_ (big (by norm_num) (by norm_num)) (by norm_num) (by norm_num)).congr rfl rfl
  rw [split, split 316]; linarith

/-- the computed angle -/
theorem theta_ap {κ : ℝ} (hη : ErrUnit η) (hl : lm.Accurate κ) (hκ : κ ≤ η) {x : B64 lm} {co s : ℝ} (hx : x.Ap η co 1 76 0)
    (e : s = √(1 - co * co)) (hs : 0 < s) (hs1 : s ≤ 1) :
    (Num.acos (clamp x (-1.0) 1.0)).Ap η (Real.arccos co) 4 (77 / s) 2 := by
  have hc := hx.bound
  obtain ⟨v, e1, e2, -⟩ := hx
  obtain ⟨t, h1, h2, h3⟩ := clamp_close e1 hc
  obtain ⟨θ, h4, h5⟩ := hl.acos _ _ h1 h2
  have h6 := arccos_lip h2 hc hs e
  have hp := hη.pos
  refine ⟨θ, h4, ?_, ?_, by norm_num, by norm_num, by positivity⟩
  · have h7 : |t - co| ≤ 76 * η := by linarith
    have h8 : 4 * |t - co| / s ≤ 4 * (76 * η) / s := by gcongr
    have h9 : η ≤ η / s := by rw [le_div_iff₀ hs]; nlinarith
    have h10 : |θ - Real.arccos co| ≤ |θ - Real.arccos t| + |Real.arccos t - Real.arccos co| := abs_sub_le _ _ _
    have : 77 / s * η * 4 = 4 * (76 * η) / s + 4 * (η / s) := by ring
    rw [this]
    have : 0 ≤ η / s := by positivity
    linarith
  · rw [abs_of_nonneg (Real.arccos_nonneg _)]
    exact (Real.arccos_le_pi _).trans Real.pi_le_four

/-- one component of a force of an angle constraint -/
theorem force_ap (hη : ErrUnit η) {G c0 cc w u : B64 lm} {Gr L1 L2 q wr ur E s : ℝ} (hG : G.Ap η Gr (E * (1 / s)) (397 / (s * s)) 107)
    (h0 : c0.Ap η (1 / (L1 * L2)) (1 / (L1 * L2)) 32 204) (h1 : cc.Ap η q (2 / L1) 54 511) (hw : w.Ap η wr L2 1 102) (hu : u.Ap η ur 1 17 0)
    (hs : 0 < s) (hs1 : s ≤ 1) (hss : 2 ^ (-5 : ℤ) ≤ s) (L10 : L1 ≠ 0) (L20 : L2 ≠ 0) :
    (G * c0 * w + G * cc * u).Ap η (Gr * (1 / (L1 * L2)) * wr + Gr * q * ur) (3 * E * (1 / s) * (1 / L1)) (474 / (s * s)) 619 := by
  have ss0 : 0 < s * s := mul_pos hs hs
  have big : ∀ {n : ℝ}, n ≤ 1000 → 0 ≤ n → n / (s * s) ≤ 1048576 := fun {n} hn hn' => by
    rw [div_le_iff₀ ss0]; norm_num at hss; nlinarith
  have one_le : 1 ≤ 1 / (s * s) := by rw [le_div_iff₀ ss0]; nlinarith
  have split : ∀ n : ℝ, n / (s * s) = n * (1 / (s * s)) := fun n => by ring
  have a1 := hG.mul hη h0 311 (431 / (s * s)) (by rw [split, split 431]; linarith) (big (by norm_num) (by norm_num)) (by norm_num) (by norm_num)
  have a2 := (a1.mul hη hw 413 (434 / (s * s)) (by rw [split, split 434]; linarith) (big (by norm_num) (by norm_num)) (by norm_num) (by norm_num)).more hη
    (434 / (s * s)) 618 le_rfl (by norm_num)
  have b1 := hG.mul hη h1 618 (453 / (s * s)) (by rw [split, split 453]; linarith) (big (by norm_num) (by norm_num)) (by norm_num) (by norm_num)
  have b2 := b1.mul hη hu 618 (472 / (s * s)) (by rw [split, split 472]; linarith) (big (by norm_num) (by norm_num)) (by norm_num) (by norm_num)
  refine (a2.add hη b2 619 (474 / (s * s)) (by rw [split, split 474]; linarith) (by rw [split, split 474]; linarith) (big (by norm_num) (by norm_num))
    (by norm_num) (by norm_num)).congr rfl ?_
  field_simp
  ring

theorem sin_cos {a b c d : ℝ} (h1 : hyp a b ≠ 0) (h2 : hyp c d ≠ 0) :
    |a * d - b * c| / (hyp a b * hyp c d) = √(1 - (a * c + b * d) / (hyp a b * hyp c d) * ((a * c + b * d) / (hyp a b * hyp c d))) := by
  have h0 : hyp a b * hyp c d ≠ 0 := mul_ne_zero h1 h2
  have hp : 0 ≤ hyp a b * hyp c d := mul_nonneg (hyp_nonneg _ _) (hyp_nonneg _ _)
  have e1 := hyp_mul_self a b
  have e2 := hyp_mul_self c d
  have key : 1 - (a * c + b * d) / (hyp a b * hyp c d) * ((a * c + b * d) / (hyp a b * hyp c d)) =
      |a * d - b * c| / (hyp a b * hyp c d) * (|a * d - b * c| / (hyp a b * hyp c d)) := by
    rw [div_mul_div_comm, div_mul_div_comm, abs_mul_abs_self, eq_div_iff (mul_ne_zero h0 h0), sub_mul,
      div_mul_cancel₀ _ (mul_ne_zero h0 h0)]
    have : hyp a b * hyp c d * (hyp a b * hyp c d) = (a * a + b * b) * (c * c + d * d) := by rw [← e1, ← e2]; ring
    rw [this]; ring
  rw [key, Real.sqrt_mul_self (div_nonneg (abs_nonneg _) hp)]

/-- the scale of a sum of forces against the scale of the constraint -/
theorem angle_scale {t s i j Z : ℝ} (ht : 0 ≤ t) (s0 : 0 < s) (s1 : s ≤ 1) (hi : 0 < i) (hj : 0 < j)
    (eZ : Z = (4 + t + 2 ^ (-100 : ℤ)) * (i + j) * (1 / s) ^ 3) :
    (∀ A, A ≤ 3 * (4 + (t + 2 ^ (-101 : ℤ))) * (1 / s) * (i + j) → A ≤ s * s * (8 * Z)) ∧ i ≤ 8 * Z ∧ s * s * (8 * Z) ≤ 8 * Z := by
  have hp := two_pos (-101)
  have e2 : (2 : ℝ) ^ (-101 : ℤ) + 2 ^ (-101 : ℤ) = 2 ^ (-100 : ℤ) := two_double
  rw [← e2] at eZ
  generalize (2 : ℝ) ^ (-101 : ℤ) = ε at *
  have hZ : 0 ≤ Z := by rw [eZ]; positivity
  have hle : s * s * (8 * Z) ≤ 8 * Z := by
    have : s * s ≤ 1 := by nlinarith
    nlinarith
  have e3 : s * s * (8 * Z) = 8 * ((4 + t + (ε + ε)) * (1 / s) * (i + j)) := by rw [eZ]; field_simp
  have h1 : (4 + (t + ε)) * (1 / s) * (i + j) ≤ (4 + t + (ε + ε)) * (1 / s) * (i + j) := by
    refine mul_le_mul_of_nonneg_right (mul_le_mul_of_nonneg_right ?_ (by positivity)) (by positivity)
    linarith
  have h2 : 0 ≤ (4 + (t + ε)) * (1 / s) * (i + j) := by positivity
  refine ⟨fun A hA => ?_, ?_, hle⟩
  · rw [e3]; linarith
  · refine le_trans ?_ hle
    rw [e3]
    have inv1 : 1 ≤ 1 / s := by rw [le_div_iff₀ s0]; linarith
    have h3 : 1 * 1 * (i + j) ≤ (4 + t + (ε + ε)) * (1 / s) * (i + j) :=
      mul_le_mul_of_nonneg_right (mul_le_mul (by linarith) inv1 (by norm_num) (by positivity)) (by positivity)
    linarith

theorem near_angle {κ : ℝ} (hη : ErrUnit η) (hl : lm.Accurate κ) (hκ : κ ≤ η) {p q o : Nat} {D : B64 lm} (hm : ModestCons h (.angle p q o D))
    (hc : Clear h (.angle p q o D)) : NearCons η h (.angle p q o D) := by
  obtain ⟨x, y, P⟩ := hm.pt (p := p) (by simp [consDeps, consFields, primFields])
  obtain ⟨z, w, Q⟩ := hm.pt (p := q) (by simp [consDeps, consFields, primFields])
  obtain ⟨u, v, O⟩ := hm.pt (p := o) (by simp [consDeps, consFields, primFields])
  obtain ⟨θ, hD, bD⟩ := hm.2 D (by simp [consParams])
  simp only [Clear, P.distOf O, Q.distOf O] at hc
  obtain ⟨hc1, hc2, hc3⟩ := hc
  have d1 := P.dir hη O ((two_le (by norm_num)).trans hc1)
  have d2 := Q.dir hη O ((two_le (by norm_num)).trans hc2)
  have n1 := (d1.not_lt hη hc1).2
  have n2 := (d2.not_lt hη hc2).2
  have es0 : sinOf h p q o = √(1 - ((x - u) * (z - u) + (y - v) * (w - v)) / (hyp (x - u) (y - v) * hyp (z - u) (w - v)) *
      (((x - u) * (z - u) + (y - v) * (w - v)) / (hyp (x - u) (y - v) * hyp (z - u) (w - v)))) := by
    rw [← sin_cos d1.pos.ne' d2.pos.ne']
    unfold sinOf
    rw [P.distOf O, Q.distOf O, P.xOf, P.yOf, Q.xOf, Q.yOf, O.xOf, O.yOf]
  have esc : scaleOf h (.angle p q o D) = (4 + |θ| + 2 ^ (-100 : ℤ)) * (1 / hyp (x - u) (y - v) + 1 / hyp (z - u) (w - v)) * (1 / sinOf h p q o) ^ 3 := by
    simp only [scaleOf, spanOf, slopeOf, badness, P.distOf O, Q.distOf O, hD.real]
  generalize hs : sinOf h p q o = s at *
  have big1 : ¬hyp (x - u) (y - v) < 1e-6 := by norm_num at hc1 ⊢; linarith
  have big2 : ¬hyp (z - u) (w - v) < 1e-6 := by norm_num at hc2 ⊢; linarith
  have f1 := P.exact
  have f2 := Q.exact
  have f3 := O.exact
  have e : contribs h.exact (Constraint.exact (.angle p q o D)) =
      let f1 := angleForce (x - u) (y - v) (z - u) (w - v) θ
      let f2 := angleForce (z - u) (w - v) (x - u) (y - v) θ
      [(.px p, f1.1), (.py p, f1.2), (.px q, f2.1), (.py q, f2.2), (.px o, -f1.1 - f2.1), (.py o, -f1.2 - f2.2)] := by
    have hco : ¬((hyp (x - u) (y - v) < 1e-6 ∨ hyp (z - u) (w - v) < 1e-6) ∨
        ((x - u) * (z - u) + (y - v) * (w - v)) / (hyp (x - u) (y - v) * hyp (z - u) (w - v)) *
        (((x - u) * (z - u) + (y - v) * (w - v)) / (hyp (x - u) (y - v) * hyp (z - u) (w - v))) = 1) := by
      rintro ((hh | hh) | hh)
      · exact big1 hh
      · exact big2 hh
      · rw [hh, sub_self, Real.sqrt_zero] at es0
        have := two_pos (-5)
        linarith
    simp only [contribs, Constraint.exact, hD.exact, chunks_angle f1 f2 f3, if_neg hco]
    simp [Chunk.contrib]
  have i1 := far_hyp P.bx P.bY O.bx O.bY
  have i2 := far_hyp Q.bx Q.bY O.bx O.bY
  unfold NearCons
  rw [e]
  have s0 : 0 < s := (two_pos _).trans_le hc3
  have cm := cos_mem (a := x - u) (b := y - v) (c := z - u) (d := w - v)
  have s1 : s ≤ 1 := by
    rw [es0, Real.sqrt_le_left (by norm_num)]
    nlinarith [mul_self_nonneg (((x - u) * (z - u) + (y - v) * (w - v)) / (hyp (x - u) (y - v) * hyp (z - u) (w - v)))]
  have co := cosine_ap hη d1 d2
  have th := theta_ap hη hl hκ co es0 s0 s1
  have gt := gradTheta_ap hη co es0 hc3
  have dp := dotp_ap hη d1 d2
  have nn := norms_ap hη d1 d2
  have m1 := ((d1.n.mul hη d1.n 204 30 (by norm_num) (by norm_num) (by norm_num) (by norm_num)).mul hη d2.n 306 46 (by norm_num) (by norm_num)
    (by norm_num) (by norm_num))
  have m2 := (nn.mul hη d2.n 306 46 (by norm_num) (by norm_num) (by norm_num) (by norm_num))
  have c0 := (Dir.one_ap (lm := lm) (η := η)).div hη nn 204 32 (by norm_num) (by norm_num) (by norm_num) (by norm_num)
  have c0' := c0.congr (show _ = 1 / (hyp (z - u) (w - v) * hyp (x - u) (y - v)) by rw [mul_comm (hyp (z - u) (w - v))])
    (show _ = 1 / (hyp (z - u) (w - v) * hyp (x - u) (y - v)) by rw [mul_comm (hyp (z - u) (w - v))])
  have L1 := d1.pos
  have L2 := d2.pos
  have c1 := (dp.neg.div hη m1 511 54 (by norm_num) (by norm_num) (by norm_num) (by norm_num)).congr rfl
    (show _ = 2 / hyp (x - u) (y - v) by field_simp)
  have c2 := (dp.neg.div hη m2 511 54 (by norm_num) (by norm_num) (by norm_num) (by norm_num)).congr rfl
    (show _ = 2 / hyp (z - u) (w - v) by field_simp)
  have inv1 : 1 ≤ 1 / s := by rw [le_div_iff₀ s0]; linarith
  have ss0 : 0 < s * s := mul_pos s0 s0
  have one_le : 1 ≤ 1 / (s * s) := by rw [le_div_iff₀ ss0]; nlinarith
  have le_ss : 1 / s ≤ 1 / (s * s) := by rw [div_le_div_iff_of_pos_left one_pos s0 ss0]; nlinarith
  have split : ∀ n : ℝ, n / (s * s) = n * (1 / (s * s)) := fun n => by ring
  have split' : ∀ n : ℝ, n / s = n * (1 / s) := fun n => by ring
  have lim : ∀ {n : ℝ}, n ≤ 1000 → 0 ≤ n → n / (s * s) ≤ 1048576 := fun {n} hn hn' => by
    rw [div_le_iff₀ ss0]; norm_num at hc3; nlinarith
  have lim' : ∀ {n : ℝ}, n ≤ 1000 → 0 ≤ n → n / s ≤ 1048576 := fun {n} hn hn' => by
    rw [div_le_iff₀ s0]; norm_num at hc3; nlinarith
  have gl := (th.more hη (77 / s) 101 le_rfl (by norm_num)).sub hη (param_ap hD bD 101 le_rfl) 102 (79 / s)
    (by rw [split', split' 79]; linarith) (by rw [split']; linarith) (lim' (by norm_num) (by norm_num)) (by norm_num) (by norm_num)
  have G := gl.mul hη gt 107 (397 / (s * s)) (by rw [split', split, split 397]; linarith) (lim (by norm_num) (by norm_num)) (by norm_num) (by norm_num)
  obtain ⟨u1, u2⟩ := d1.unit hη
  obtain ⟨w1, w2⟩ := d2.unit hη
  have F1 := force_ap hη G c0 c1 d2.x u1 s0 s1 hc3 L1.ne' L2.ne'
  have F2 := force_ap hη G c0 c1 d2.y u2 s0 s1 hc3 L1.ne' L2.ne'
  have H1 := force_ap hη G c0' c2 d1.x w1 s0 s1 hc3 L2.ne' L1.ne'
  have H2 := force_ap hη G c0' c2 d1.y w2 s0 s1 hc3 L2.ne' L1.ne'
  simp only [chunks, n1, n2, Bool.or_self, Bool.false_eq_true, if_false, th.isFinite, gt.isFinite, Bool.not_true]
  have slope1 : 0 < 1 / hyp (x - u) (y - v) := by positivity
  have slope2 : 0 < 1 / hyp (z - u) (w - v) := by positivity
  have hp := two_pos (-101)
  have e2 : (2 : ℝ) ^ (-101 : ℤ) + 2 ^ (-101 : ℤ) = 2 ^ (-100 : ℤ) := two_double
  have invd : ∀ {t : ℝ}, 2 ^ (-19 : ℤ) ≤ t → 1 / t ≤ 2 ^ (19 : ℤ) := fun {t} ht => by
    have h0 : 0 < t := (two_pos _).trans_le ht
    rw [div_le_iff₀ h0]
    norm_num at ht ⊢
    linarith
  have hS : 8 * scaleOf h (.angle p q o D) ≤ 2 ^ (300 : ℤ) := by
    rw [esc]
    refine scale_le (by positivity) (le104 (n := 5) (by norm_num) ?_) (by positivity) ?_ (by positivity) ?_
    · have : (1 : ℝ) ≤ 2 ^ (100 : ℤ) := by
        have : (2 : ℝ) ^ (0 : ℤ) ≤ 2 ^ (100 : ℤ) := two_le (by norm_num)
        simpa using this
      linarith
    · have e3 : (2 : ℝ) ^ (19 : ℤ) + 2 ^ (19 : ℤ) = 2 ^ (20 : ℤ) := two_double
      exact (add_le_add (invd hc1) (invd hc2)).trans (e3.le.trans (two_le (by norm_num)))
    · rw [div_le_iff₀ s0]; norm_num at hc3 ⊢; linarith
  obtain ⟨scale, hlo, hle⟩ := angle_scale (abs_nonneg θ) s0 s1 slope1 slope2 esc
  have lo : 2 ^ (-((300 : ℕ) : ℤ)) ≤ 8 * scaleOf h (.angle p q o D) := by
    have h5 : 2 ^ (-((102 : ℕ) : ℤ)) ≤ 1 / hyp (x - u) (y - v) := (B64.Ap.inv_pow d1.lo d1.hi).1.trans (by rw [one_div])
    have h6 : (2 : ℝ) ^ (-((300 : ℕ) : ℤ)) ≤ 2 ^ (-((102 : ℕ) : ℤ)) := two_le (by norm_num)
    exact h6.trans (h5.trans hlo)
  have fin : ∀ {X : B64 lm} {r A k : ℝ} {m : ℕ} {dof : Dof}, X.Ap η r A k m →
      A ≤ 3 * (4 + (|θ| + 2 ^ (-101 : ℤ))) * (1 / s) * (1 / hyp (x - u) (y - v) + 1 / hyp (z - u) (w - v)) → k ≤ 476 / (s * s) →
      NearEntry η (8 * scaleOf h (.angle p q o D)) 480 (dof, X) (dof, r) := fun {X r A k m dof} hX hA hk => by
    refine ⟨rfl, hX.rescale ?_ (s * s) (scale _ hA) hη 480 ?_ lo hS ss0.le⟩
    · exact hX.bound.trans ((scale _ hA).trans hle)
    · have := mul_le_mul_of_nonneg_left hk ss0.le
      rw [mul_div_cancel₀ _ ss0.ne'] at this
      linarith
  have A1 : 3 * (4 + (|θ| + 2 ^ (-101 : ℤ))) * (1 / s) * (1 / hyp (x - u) (y - v)) ≤
      3 * (4 + (|θ| + 2 ^ (-101 : ℤ))) * (1 / s) * (1 / hyp (x - u) (y - v) + 1 / hyp (z - u) (w - v)) :=
    mul_le_mul_of_nonneg_left (by linarith) (by positivity)
  have A2 : 3 * (4 + (|θ| + 2 ^ (-101 : ℤ))) * (1 / s) * (1 / hyp (z - u) (w - v)) ≤
      3 * (4 + (|θ| + 2 ^ (-101 : ℤ))) * (1 / s) * (1 / hyp (x - u) (y - v) + 1 / hyp (z - u) (w - v)) :=
    mul_le_mul_of_nonneg_left (by linarith) (by positivity)
  have kk : 474 / (s * s) ≤ 476 / (s * s) := by rw [split, split 476]; linarith
  -- the exact forces
  have s3 : (z - u) * (x - u) + (w - v) * (y - v) = (x - u) * (z - u) + (y - v) * (w - v) := by ring
  have s4 : hyp (z - u) (w - v) * hyp (x - u) (y - v) = hyp (x - u) (y - v) * hyp (z - u) (w - v) := mul_comm _ _
  have s5 : hyp (z - u) (w - v) * hyp (z - u) (w - v) * hyp (x - u) (y - v) = hyp (x - u) (y - v) * hyp (z - u) (w - v) * hyp (z - u) (w - v) := by ring
  obtain ⟨p1, p2⟩ := point_entries (g := ⟨_, _⟩) F1 F2
  obtain ⟨p3, p4⟩ := point_entries (g := ⟨_, _⟩) H1 H2
  obtain ⟨p5, p6⟩ := point_entries (g := ⟨_, _⟩) F1.neg F2.neg
  have p7 := p5.sub hη p3 620 (476 / (s * s)) (by rw [split, split 476]; linarith) (by rw [split, split 476]; linarith) (lim (by norm_num) (by norm_num))
    (by norm_num) (by norm_num)
  have p8 := p6.sub hη p4 620 (476 / (s * s)) (by rw [split, split 476]; linarith) (by rw [split, split 476]; linarith) (lim (by norm_num) (by norm_num))
    (by norm_num) (by norm_num)
  refine .cons (fin (p1.congr ?_ rfl) A1 kk) (.cons (fin (p2.congr ?_ rfl) A1 kk) (.cons (fin (p3.congr ?_ rfl) A2 kk) (.cons (fin (p4.congr ?_ rfl) A2 kk)
    (.cons (fin (p7.congr ?_ rfl) (by linarith) le_rfl) (.cons (fin (p8.congr ?_ rfl) (by linarith) le_rfl) .nil)))))
  all_goals
    simp only [angleForce, s3, s4, s5]
    rw [← es0]

end Isotope
