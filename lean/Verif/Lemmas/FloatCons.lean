import Verif.Lemmas.FloatBound

/-!
# Contributions and losses of constraints with moderate coordinates, in binary64
-/

namespace Isotope
open Round Val

variable {lm : Libm}

/-- What is assumed of the platform's trigonometric functions: `cos` and `sin` of a finite number lie in `[-1, 1]`, `acos` of a
number in `[-1, 1]` lies in `[-4, 4]`. -/
structure Libm.Sane (lm : Libm) : Prop where
  cos : ∀ x : B64 lm, Num.isFinite x = true → (Num.cos x).Le 0
  sin : ∀ x : B64 lm, Num.isFinite x = true → (Num.sin x).Le 0
  acos : ∀ (x : B64 lm) (r : ℝ), x.Is r → |r| ≤ 1 → (Num.acos x).Le 2

/-- every number the constraint depends on is finite with magnitude at most `2^200` -/
def ModerateCons (h : Heap (B64 lm)) (c : Constraint (B64 lm)) : Prop :=
  (∀ p ∈ consDeps h c, ∀ x ∈ primData h p, x.Le 200) ∧ ∀ x ∈ consParams c, x.Le 200

/-- an equal-length constraint with a line whose computed length is zero -/
def ZeroEqLen (h : Heap (B64 lm)) : Constraint (B64 lm) → Prop
  | .eqLen l m => ((lineEnd h l - lineStart h l).norm ==. (0.0 : B64 lm)) = true ∨
      ((lineEnd h m - lineStart h m).norm ==. (0.0 : B64 lm)) = true
  | _ => False

theorem micro : ∃ r : ℝ, (1e-6 : B64 lm).Is r ∧ 2 ^ (-20 : ℤ) ≤ r := by
  have hp : (0 : ℝ) ≤ OfScientific.ofScientific 1 true 6 := by norm_num
  have hl : |(OfScientific.ofScientific 1 true 6 : ℝ)| ≤ 2 ^ (0 : ℤ) := by rw [abs_of_nonneg hp]; norm_num
  refine ⟨_, B64.Is.lit 1 true 6 (abs_rs_lt_top (by norm_num) (by norm_num) hl) hp, ?_⟩
  have := le_abs_rs (z := (OfScientific.ofScientific 1 true 6 : ℝ)) (rep_pow (-20) (by norm_num) (by norm_num))
    (by rw [abs_of_nonneg hp]; norm_num)
  rwa [abs_of_nonneg (rs_nonneg hp)] at this

theorem Rep.one_sub {c : ℝ} (h : Rep c) (h1 : c < 1) : 2 ^ (-53 : ℤ) ≤ 1 - c := by
  obtain ⟨m, e, hm, he, -, rfl⟩ := h
  have hm' : (m : ℝ) < 2 ^ 53 := by exact_mod_cast hm
  by_cases h2 : e ≤ -54
  · have h3 : (m : ℝ) * 2 ^ e ≤ 2 ^ 53 * 2 ^ (-54 : ℤ) := mul_le_mul hm'.le (two_le h2) (two_pos _).le (by positivity)
    norm_num at h3 ⊢
    linarith
  · -- `c` is a multiple of `2^-53`
    obtain ⟨d, rfl⟩ : ∃ d : ℕ, e = d + -53 := ⟨(e + 53).toNat, by omega⟩
    rw [zpow_add₀ (by norm_num), ← mul_assoc] at h1 ⊢
    have h4 : ((m * 2 ^ d : ℕ) : ℝ) < 2 ^ 53 := by
      have : (2 : ℝ) ^ (-53 : ℤ) = 1 / 2 ^ 53 := by norm_num
      rw [this, mul_one_div, div_lt_one (by positivity)] at h1
      push_cast
      exact_mod_cast h1
    have h5 : m * 2 ^ d < 2 ^ 53 := by exact_mod_cast h4
    have h6 : m * 2 ^ d + 1 ≤ 2 ^ 53 := h5
    have h7 : ((m * 2 ^ d : ℕ) : ℝ) + 1 ≤ 2 ^ 53 := by exact_mod_cast h6
    push_cast at h7
    have : (2 : ℝ) ^ (-53 : ℤ) = 1 / 2 ^ 53 := by norm_num
    rw [this, mul_one_div, le_sub_iff_add_le, ← add_div, div_le_one (by positivity)]
    rw [zpow_natCast]
    linarith


theorem ModerateCons.pt {h : Heap (B64 lm)} {c : Constraint (B64 lm)} (hm : ModerateCons h c) {p : Nat}
    (hp : PrimCell.point p ∈ consDeps h c) : (ptData h p).Le 200 :=
  ⟨hm.1 _ hp _ (by simp [primData, ptData]), hm.1 _ hp _ (by simp [primData, ptData])⟩

theorem ModerateCons.line {h : Heap (B64 lm)} {c : Constraint (B64 lm)} (hm : ModerateCons h c) {l : Nat}
    (hl : PrimCell.line l ∈ consFields c) : (lineStart h l).Le 200 ∧ (lineEnd h l).Le 200 ∧ (lineEnd h l - lineStart h l).Le 201 := by
  have h1 : (lineStart h l).Le 200 := hm.pt (by
    unfold consDeps
    exact List.mem_append_right _ (List.mem_flatMap.2 ⟨_, hl, by simp [primFields]⟩))
  have h2 : (lineEnd h l).Le 200 := hm.pt (by
    unfold consDeps
    exact List.mem_append_right _ (List.mem_flatMap.2 ⟨_, hl, by simp [primFields]⟩))
  exact ⟨h1, h2, h2.sub h1 201 (by norm_num) (by norm_num) (by norm_num) (by norm_num)⟩

theorem lt_pair {v : Vec2 (B64 lm)} {j : ℤ} (hx : v.x.Le j) (hy : v.y.Le j) : v.Le j := ⟨hx, hy⟩

/-- the unit vector of a line direction, and what follows from its being finite -/
theorem unit_of_finite {v : Vec2 (B64 lm)} (hv : v.Le 201) (hf : Num.isFinite v.normalize.x = true) :
    v.normalize.Le 1 ∧ (normalizeJacobian v).r0.Le 539 ∧ (normalizeJacobian v).r1.Le 539 := by
  obtain ⟨a, b, q, n, f⟩ := hv.norm (by norm_num) (by norm_num)
  have h0 : n ≠ 0 := by
    intro h0
    have := (f.unit_zero h0).1
    unfold Vec2.normalize at hf
    rw [hf] at this
    cases this
  exact ⟨f.unit h0, f.jac h0 (by norm_num) (by norm_num)⟩

/-- an arm of an angle that is at least `1e-6` long -/
theorem arm {v : Vec2 (B64 lm)} (hv : v.Le 201) (hg : (Num.abs v.norm <. (1e-6 : B64 lm)) = false) :
    (∃ n, v.norm.Is n ∧ 2 ^ (-20 : ℤ) ≤ n ∧ n ≤ 2 ^ (202 : ℤ)) ∧ (v.sdiv v.norm).Le 1 := by
  obtain ⟨a, b, q, n, f⟩ := hv.norm (by norm_num) (by norm_num)
  obtain ⟨m, hm, hm'⟩ := micro (lm := lm)
  have h1 : ¬|n| < m := by
    rw [← f.nm.abs.lt_iff hm, hg]; simp
  rw [abs_of_nonneg f.nm0] at h1
  have h2 : 2 ^ (-20 : ℤ) ≤ n := by linarith
  have h3 := two_pos (-20)
  exact ⟨⟨n, f.nm, h2, f.nmLe⟩, f.unit (by linarith)⟩

/-- product of numbers bounded above and below -/
theorem mul_between {x y : B64 lm} {r t : ℝ} {i j k l : ℤ} (hx : x.Is r) (hy : y.Is t) (h1 : 2 ^ i ≤ r) (h2 : r ≤ 2 ^ j)
    (h3 : 2 ^ k ≤ t) (h4 : t ≤ 2 ^ l) (h5 : -1074 ≤ i + k) (h6 : -1074 ≤ j + l) (h7 : i + k ≤ 1023) (h8 : j + l ≤ 1023) :
    ∃ z, (x * y).Is z ∧ 2 ^ (i + k) ≤ z ∧ z ≤ 2 ^ (j + l) := by
  have r0 : 0 < r := (two_pos i).trans_le h1
  have t0 : 0 < t := (two_pos k).trans_le h3
  have hu : |r * t| ≤ 2 ^ (j + l) := by
    rw [abs_of_pos (mul_pos r0 t0), zpow_add₀ (by norm_num)]
    exact mul_le_mul h2 h4 t0.le (two_pos _).le
  have hl : 2 ^ (i + k) ≤ |r * t| := by
    rw [abs_of_pos (mul_pos r0 t0), zpow_add₀ (by norm_num)]
    exact mul_le_mul h1 h3 (two_pos _).le r0.le
  have n0 := rs_nonneg (mul_pos r0 t0).le
  refine ⟨_, hx.mul hy (abs_rs_lt_top h6 h8 hu), ?_, ?_⟩
  · have := le_abs_rs (rep_pow _ h5 h7) hl
    rwa [abs_of_nonneg n0] at this
  · have := abs_rs_le (rep_pow _ h6 h8) hu
    rwa [abs_of_nonneg n0] at this

theorem clamp_is {x : B64 lm} {r : ℝ} (hx : x.Is r) :
    ∃ t, (clamp x (-1.0 : B64 lm) (1.0 : B64 lm)).Is t ∧ |t| ≤ 1 := by
  unfold clamp
  have m1 := (B64.is_one (lm := lm)).neg
  split_ifs with h1 h2
  · exact ⟨_, m1, by norm_num⟩
  · exact ⟨_, B64.is_one, by norm_num⟩
  · rw [hx.lt_iff m1] at h1
    rw [B64.is_one.lt_iff hx] at h2
    exact ⟨r, hx, abs_le.2 ⟨by linarith, by linarith⟩⟩

theorem fmax_is {x : B64 lm} {r : ℝ} (hx : x.Is r) : (fmax x (0.0 : B64 lm)).Is (max r 0) := by
  unfold fmax
  have h1 : (x ==. x) = true := (hx.eq_iff hx).2 rfl
  rw [h1]
  split_ifs with h2
  · simp only [Bool.not_true, Bool.or_false, hx.lt_iff B64.is_zero] at h2
    rw [max_eq_right h2.le]
    exact B64.is_zero
  · simp only [Bool.not_true, Bool.or_false, hx.lt_iff B64.is_zero] at h2
    rw [max_eq_left (not_lt.1 h2)]
    exact hx

/-- the factor `-1/sqrt(max(1 - cos^2, 0))` is at most `2^27`, or not finite -/
theorem gradTheta {c : B64 lm} (hc : c.Le 443)
    (hf : Num.isFinite (-(1.0 : B64 lm) / Num.sqrt (fmax ((1.0 : B64 lm) - c * c) 0.0)) = true) :
    (-(1.0 : B64 lm) / Num.sqrt (fmax ((1.0 : B64 lm) - c * c) 0.0)).Le 27 := by
  obtain ⟨t, ht, htb⟩ := hc.mul hc 886 (by norm_num) (by norm_num) (by norm_num)
  have t0 : |1 - t| ≤ 2 ^ (887 : ℤ) := by
    have : |1 - t| ≤ |1| + |t| := abs_sub 1 t
    have h1 : (2 : ℝ) ^ (0 : ℤ) ≤ 2 ^ (886 : ℤ) := two_le (by norm_num)
    have h2 : (2 : ℝ) ^ (887 : ℤ) = 2 * 2 ^ (886 : ℤ) := by
      rw [show (887 : ℤ) = 1 + 886 by norm_num, zpow_add₀ (by norm_num), zpow_one]
    rw [zpow_zero] at h1
    rw [abs_one] at this
    rw [h2]
    clear h2
    generalize (2 : ℝ) ^ (886 : ℤ) = M at *
    linarith
  have w := B64.is_one.sub ht (abs_rs_lt_top (by norm_num) (by norm_num) t0)
  have m := fmax_is w
  have wb : max (rs (1 - t)) 0 ≤ 2 ^ (888 : ℤ) := by
    have h1 := (le_abs_self _).trans (abs_rs_le (rep_pow 887 (by norm_num) (by norm_num)) t0)
    exact max_le (h1.trans (two_le (by norm_num))) (two_pos _).le
  have m0 : (0 : ℝ) ≤ max (rs (1 - t)) 0 := le_max_right _ _
  have sb : |Real.sqrt (max (rs (1 - t)) 0)| ≤ 2 ^ (444 : ℤ) := by
    rw [abs_of_nonneg (Real.sqrt_nonneg _), ← sqrt_two]
    exact Real.sqrt_le_sqrt (wb.trans (two_le (by norm_num)))
  have sq := m.sqrt m0 (abs_rs_lt_top (by norm_num) (by norm_num) sb)
  by_cases h0 : rs (1 - t) ≤ 0
  · exfalso
    rw [max_eq_right h0, Real.sqrt_zero, rs_zero] at sq
    obtain ⟨s', m', e', h1⟩ := sq
    have h2 : m'.1 = 0 := by cases s' <;> simpa [sgn] using h1
    obtain ⟨s, m1, e, h3⟩ := (B64.is_one (lm := lm)).neg
    have h4 : m1.1 ≠ 0 := by
      intro h4
      rw [h4] at h3
      cases s <;> simp [sgn] at h3
    change (-(1.0 : B64 lm) / Num.sqrt (fmax ((1.0 : B64 lm) - c * c) 0.0)).v.isFinite = true at hf
    rw [B64.div_v, e, e'] at hf
    simp only [Val.div, if_pos h2, if_neg h4] at hf
    cases hf
  · have h0 := not_le.1 h0
    have h1 : t < 1 := by
      by_contra hc
      have := rs_mono (show 1 - t ≤ 0 by linarith)
      rw [rs_zero] at this
      linarith
    have tn : 2 ^ (-53 : ℤ) ≤ 1 - t := by
      rcases le_or_gt 0 t with h2 | h2
      · have := ht.rep
        rw [abs_of_nonneg h2] at this
        exact Rep.one_sub this h1
      · have : (2 : ℝ) ^ (-53 : ℤ) ≤ 1 := by norm_num
        linarith
    have wl : 2 ^ (-54 : ℤ) ≤ max (rs (1 - t)) 0 := by
      have h3 := le_abs_rs (z := 1 - t) (rep_pow (-53) (by norm_num) (by norm_num)) (tn.trans (le_abs_self _))
      rw [abs_of_pos h0] at h3
      exact (two_le (by norm_num)).trans (h3.trans (le_max_left _ _))
    have sl : 2 ^ (-27 : ℤ) ≤ |rs (Real.sqrt (max (rs (1 - t)) 0))| := by
      apply le_abs_rs (rep_pow (-27) (by norm_num) (by norm_num))
      rw [abs_of_nonneg (Real.sqrt_nonneg _), ← sqrt_two]
      exact Real.sqrt_le_sqrt (wl.trans' (two_le (by norm_num)))
    exact B64.Le.one.neg.divIs sq sl 27 (by norm_num) (by norm_num) (by norm_num)

/-- the cosine of an angle with arms at least `1e-6` long -/
theorem cos_le {d1 d2 : Vec2 (B64 lm)} (h1 : d1.Le 201) (h2 : d2.Le 201) {n1 n2 : ℝ} (e1 : d1.norm.Is n1) (e2 : d2.norm.Is n2)
    (l1 : 2 ^ (-20 : ℤ) ≤ n1) (u1 : n1 ≤ 2 ^ (202 : ℤ)) (l2 : 2 ^ (-20 : ℤ) ≤ n2) (u2 : n2 ≤ 2 ^ (202 : ℤ)) :
    (d1.dot d2 / (d1.norm * d2.norm)).Le 443 := by
  have dt := h1.dot h2 403 (by norm_num) (by norm_num) (by norm_num)
  obtain ⟨z, hz, hzl, -⟩ := mul_between e1 e2 l1 u1 l2 u2 (by norm_num) (by norm_num) (by norm_num) (by norm_num)
  exact dt.divIs hz (hzl.trans (le_abs_self z)) 443 (by norm_num) (by norm_num) (by norm_num)

/-- all contributions are bounded, unless an equal-length constraint has a line of computed length zero -/
theorem ModerateCons.chunks (hl : lm.Sane) {h : Heap (B64 lm)} {c : Constraint (B64 lm)} (hm : ModerateCons h c) (hz : ¬ZeroEqLen h c) :
    ∀ k ∈ chunks h c, k.Le 700 := by
  cases c with
  | angle p1 p2 mid D =>
    have q1 := hm.pt (p := p1) (by simp [consDeps, consFields, primFields])
    have q2 := hm.pt (p := p2) (by simp [consDeps, consFields, primFields])
    have q := hm.pt (p := mid) (by simp [consDeps, consFields, primFields])
    have hD := hm.2 D (by simp [consParams])
    have d1 := q1.sub q 201 (by norm_num) (by norm_num) (by norm_num) (by norm_num)
    have d2 := q2.sub q 201 (by norm_num) (by norm_num) (by norm_num) (by norm_num)
    simp only [Isotope.chunks]
    split
    · simp
    rename_i hg
    simp only [Bool.or_eq_true, not_or, Bool.not_eq_true] at hg
    obtain ⟨⟨n1, e1, l1, b1⟩, u1⟩ := arm d1 hg.1
    obtain ⟨⟨n2, e2, l2, b2⟩, u2⟩ := arm d2 hg.2
    have cs := cos_le d1 d2 e1 e2 l1 b1 l2 b2
    split
    · simp
    split
    · simp
    rename_i hth hgt
    simp only [Bool.not_eq_true', Bool.not_eq_false] at hgt
    have cs' := cs
    obtain ⟨r, hr, -⟩ := cs'
    obtain ⟨t, ht, htb⟩ := clamp_is hr
    have th := hl.acos _ _ ht htb
    have gl := th.sub hD 201 (by norm_num) (by norm_num) (by norm_num) (by norm_num)
    have gt := gradTheta cs hgt
    have dt := d1.dot d2 403 (by norm_num) (by norm_num) (by norm_num)
    obtain ⟨z, hz, hzl, hzu⟩ := mul_between e1 e2 l1 b1 l2 b2 (by norm_num) (by norm_num) (by norm_num) (by norm_num)
    obtain ⟨z1, hz1, hzl1, hzu1⟩ := mul_between e1 e1 l1 b1 l1 b1 (by norm_num) (by norm_num) (by norm_num) (by norm_num)
    obtain ⟨z2, hz2, hzl2, -⟩ := mul_between hz1 e2 hzl1 hzu1 l2 b2 (by norm_num) (by norm_num) (by norm_num) (by norm_num)
    obtain ⟨z3, hz3, hzl3, -⟩ := mul_between hz e2 hzl hzu l2 b2 (by norm_num) (by norm_num) (by norm_num) (by norm_num)
    have c0 := B64.Le.one.divIs hz (hzl.trans (le_abs_self z)) 40 (by norm_num) (by norm_num) (by norm_num)
    have c1 := dt.neg.divIs hz2 (hzl2.trans (le_abs_self z2)) 463 (by norm_num) (by norm_num) (by norm_num)
    have c2 := dt.neg.divIs hz3 (hzl3.trans (le_abs_self z3)) 463 (by norm_num) (by norm_num) (by norm_num)
    have g := gl.mul gt 228 (by norm_num) (by norm_num) (by norm_num)
    have a0 := g.mul c0 268 (by norm_num) (by norm_num) (by norm_num)
    have a1 := g.mul c1 691 (by norm_num) (by norm_num) (by norm_num)
    have a2 := g.mul c2 691 (by norm_num) (by norm_num) (by norm_num)
    have g1 := (Vec2.Le.smul a0 d2 469 (by norm_num) (by norm_num) (by norm_num)).add
      (Vec2.Le.smul a1 u1 692 (by norm_num) (by norm_num) (by norm_num)) 693 (by norm_num) (by norm_num) (by norm_num) (by norm_num)
    have g2 := (Vec2.Le.smul a0 d1 469 (by norm_num) (by norm_num) (by norm_num)).add
      (Vec2.Le.smul a2 u2 692 (by norm_num) (by norm_num) (by norm_num)) 693 (by norm_num) (by norm_num) (by norm_num) (by norm_num)
    have m1 := g1.mulPoint 694 (by norm_num) (by norm_num) (by norm_num)
    have m2 := g2.mulPoint 694 (by norm_num) (by norm_num) (by norm_num)
    have m3 := (g1.neg.mulPoint 694 (by norm_num) (by norm_num) (by norm_num)).sub m2 695 (by norm_num) (by norm_num)
      (by norm_num) (by norm_num)
    intro k hk
    simp only [List.mem_cons, List.not_mem_nil, or_false] at hk
    rcases hk with rfl | rfl | rfl
    · exact m1.mono (by norm_num)
    · exact m2.mono (by norm_num)
    · exact m3.mono (by norm_num)
  | arcEnd a p =>
    have q := hm.pt (p := p) (by simp [consDeps, consFields, primFields])
    have qc := hm.pt (p := (h.arcs a).center) (by simp [consDeps, consFields, primFields])
    have ha := hm.1 (.arc a) (by simp [consDeps, consFields])
    have hr : ((h.arcs a).radius).Le 200 := ha _ (by simp [primData, Arc.radius])
    have ht : ((h.arcs a).endAngle).Le 200 := ha _ (by simp [primData, Arc.endAngle])
    have co := hl.cos _ ht.isFinite
    have si := hl.sin _ ht.isFinite
    have rc := hr.mul co 200 (by norm_num) (by norm_num) (by norm_num)
    have rsn := hr.mul si 200 (by norm_num) (by norm_num) (by norm_num)
    have nrs := hr.neg.mul si 200 (by norm_num) (by norm_num) (by norm_num)
    have ex := (qc.1.add rc 201 (by norm_num) (by norm_num) (by norm_num) (by norm_num)).sub q.1 202 (by norm_num) (by norm_num)
      (by norm_num) (by norm_num)
    have ey := (qc.2.add rsn 201 (by norm_num) (by norm_num) (by norm_num) (by norm_num)).sub q.2 202 (by norm_num) (by norm_num)
      (by norm_num) (by norm_num)
    have g : (⟨((h.arcs a).endPoint h).x - (ptData h p).x, ((h.arcs a).endPoint h).y - (ptData h p).y⟩ : Vec2 (B64 lm)).Le 202 :=
      ⟨ex, ey⟩
    intro k hk
    simp only [Isotope.chunks, List.mem_cons, List.not_mem_nil, or_false] at hk
    rcases hk with rfl | rfl
    · exact g.mul25 (k := 200) ⟨B64.Le.one.mono (by norm_num), B64.Le.zero.mono (by norm_num), co.mono (by norm_num),
        B64.Le.zero.mono (by norm_num), nrs⟩ ⟨B64.Le.zero.mono (by norm_num), B64.Le.one.mono (by norm_num), si.mono (by norm_num),
        B64.Le.zero.mono (by norm_num), rc⟩ 700 (by norm_num) (by norm_num) (by norm_num)
    · exact g.neg.mulPoint 700 (by norm_num) (by norm_num) (by norm_num)
  | arcStart a p =>
    have q := hm.pt (p := p) (by simp [consDeps, consFields, primFields])
    have qc := hm.pt (p := (h.arcs a).center) (by simp [consDeps, consFields, primFields])
    have ha := hm.1 (.arc a) (by simp [consDeps, consFields])
    have hr : ((h.arcs a).radius).Le 200 := ha _ (by simp [primData, Arc.radius])
    have ht : ((h.arcs a).startAngle).Le 200 := ha _ (by simp [primData, Arc.startAngle])
    have co := hl.cos _ ht.isFinite
    have si := hl.sin _ ht.isFinite
    have rc := hr.mul co 200 (by norm_num) (by norm_num) (by norm_num)
    have rsn := hr.mul si 200 (by norm_num) (by norm_num) (by norm_num)
    have nrs := hr.neg.mul si 200 (by norm_num) (by norm_num) (by norm_num)
    have ex := (qc.1.add rc 201 (by norm_num) (by norm_num) (by norm_num) (by norm_num)).sub q.1 202 (by norm_num) (by norm_num)
      (by norm_num) (by norm_num)
    have ey := (qc.2.add rsn 201 (by norm_num) (by norm_num) (by norm_num) (by norm_num)).sub q.2 202 (by norm_num) (by norm_num)
      (by norm_num) (by norm_num)
    have g : (⟨((h.arcs a).startPoint h).x - (ptData h p).x, ((h.arcs a).startPoint h).y - (ptData h p).y⟩ : Vec2 (B64 lm)).Le 202 :=
      ⟨ex, ey⟩
    intro k hk
    simp only [Isotope.chunks, List.mem_cons, List.not_mem_nil, or_false] at hk
    rcases hk with rfl | rfl
    · exact g.mul25 (k := 200) ⟨B64.Le.one.mono (by norm_num), B64.Le.zero.mono (by norm_num), co.mono (by norm_num),
        nrs, B64.Le.zero.mono (by norm_num)⟩ ⟨B64.Le.zero.mono (by norm_num), B64.Le.one.mono (by norm_num), si.mono (by norm_num),
        rc, B64.Le.zero.mono (by norm_num)⟩ 700 (by norm_num) (by norm_num) (by norm_num)
    · exact g.neg.mulPoint 700 (by norm_num) (by norm_num) (by norm_num)
  | euclid p1 p2 D =>
    have q1 := hm.pt (p := p1) (by simp [consDeps, consFields, primFields])
    have q2 := hm.pt (p := p2) (by simp [consDeps, consFields, primFields])
    have hD := hm.2 D (by simp [consParams])
    have d := q1.sub q2 201 (by norm_num) (by norm_num) (by norm_num) (by norm_num)
    simp only [Isotope.chunks]
    split
    · simp
    rename_i hg
    obtain ⟨a, b, q, n, f⟩ := d.norm (by norm_num) (by norm_num)
    obtain ⟨m, hmi, hmi'⟩ := micro (lm := lm)
    rw [f.nm.lt_iff hmi] at hg
    have h3 := two_pos (-20)
    have u := f.unit (by linarith)
    have er := (f.normLe.sub hD 203 (by norm_num) (by norm_num) (by norm_num) (by norm_num)).mul B64.Le.one 203 (by norm_num)
      (by norm_num) (by norm_num)
    have g := Vec2.Le.smul er u 204 (by norm_num) (by norm_num) (by norm_num)
    intro k hk
    simp only [List.mem_cons, List.not_mem_nil, or_false] at hk
    rcases hk with rfl | rfl
    · exact g.mulPoint 700 (by norm_num) (by norm_num) (by norm_num)
    · exact g.neg.mulPoint 700 (by norm_num) (by norm_num) (by norm_num)
  | horizDist p1 p2 D =>
    have q1 := hm.pt (p := p1) (by simp [consDeps, consFields, primFields])
    have q2 := hm.pt (p := p2) (by simp [consDeps, consFields, primFields])
    have hD := hm.2 D (by simp [consParams])
    have d := q2.sub q1 201 (by norm_num) (by norm_num) (by norm_num) (by norm_num)
    have er := (d.1.sub hD 203 (by norm_num) (by norm_num) (by norm_num) (by norm_num)).mul B64.Le.one 203 (by norm_num)
      (by norm_num) (by norm_num)
    have g := Vec2.Le.smul (v := ⟨1.0, 0.0⟩) er ⟨B64.Le.one, B64.Le.zero⟩ 204 (by norm_num) (by norm_num) (by norm_num)
    intro k hk
    simp only [Isotope.chunks, List.mem_cons, List.not_mem_nil, or_false] at hk
    rcases hk with rfl | rfl
    · exact g.neg.mulPoint 700 (by norm_num) (by norm_num) (by norm_num)
    · exact g.mulPoint 700 (by norm_num) (by norm_num) (by norm_num)
  | vertDist p1 p2 D =>
    have q1 := hm.pt (p := p1) (by simp [consDeps, consFields, primFields])
    have q2 := hm.pt (p := p2) (by simp [consDeps, consFields, primFields])
    have hD := hm.2 D (by simp [consParams])
    have d := q2.sub q1 201 (by norm_num) (by norm_num) (by norm_num) (by norm_num)
    have er := (d.2.sub hD 203 (by norm_num) (by norm_num) (by norm_num) (by norm_num)).mul B64.Le.one 203 (by norm_num)
      (by norm_num) (by norm_num)
    have g := Vec2.Le.smul (v := ⟨0.0, 1.0⟩) er ⟨B64.Le.zero, B64.Le.one⟩ 204 (by norm_num) (by norm_num) (by norm_num)
    intro k hk
    simp only [Isotope.chunks, List.mem_cons, List.not_mem_nil, or_false] at hk
    rcases hk with rfl | rfl
    · exact g.neg.mulPoint 700 (by norm_num) (by norm_num) (by norm_num)
    · exact g.mulPoint 700 (by norm_num) (by norm_num) (by norm_num)
  | fix p D =>
    have q := hm.pt (p := p) (by simp [consDeps, consFields, primFields])
    have hD : D.Le 200 := ⟨hm.2 D.x (by simp [consParams]), hm.2 D.y (by simp [consParams])⟩
    intro k hk
    simp only [Isotope.chunks, List.mem_cons, List.not_mem_nil, or_false] at hk
    rcases hk with rfl
    exact q.sub hD 700 (by norm_num) (by norm_num) (by norm_num) (by norm_num)
  | eqLen l m =>
    have d1 := (hm.line (l := l) (by simp [consFields])).2.2
    have d2 := (hm.line (l := m) (by simp [consFields])).2.2
    obtain ⟨a1, b1, q1, n1, f1⟩ := d1.norm (by norm_num) (by norm_num)
    obtain ⟨a2, b2, q2, n2, f2⟩ := d2.norm (by norm_num) (by norm_num)
    obtain ⟨a3, b3, q3, n3, f3⟩ := d2.neg.norm (by norm_num) (by norm_num)
    simp only [ZeroEqLen, not_or, f1.nm.eq_iff B64.is_zero, f2.nm.eq_iff B64.is_zero] at hz
    have df := f1.normLe.sub f2.normLe 203 (by norm_num) (by norm_num) (by norm_num) (by norm_num)
    have u1 := f1.unit hz.1
    have u2 : ((-(lineEnd h m - lineStart h m)).sdiv (lineEnd h m - lineStart h m).norm).Le 1 := by
      have hx := f2.x.neg
      have hy := f2.y.neg
      refine ⟨NormFacts.quot (by norm_num) (by norm_num) hx f2.nm hz.2 ?_, NormFacts.quot (by norm_num) (by norm_num) hy f2.nm hz.2 ?_⟩
      · rw [abs_neg, abs_of_nonneg f2.nm0]; simpa using f2.ax hz.2
      · rw [abs_neg, abs_of_nonneg f2.nm0]; simpa using f2.bx hz.2
    intro k hk
    simp only [Isotope.chunks, List.mem_cons, List.not_mem_nil, or_false] at hk
    rcases hk with rfl | rfl
    · exact (Vec2.Le.smul df u1 204 (by norm_num) (by norm_num) (by norm_num)).mulLine 700 (by norm_num) (by norm_num) (by norm_num)
    · exact (Vec2.Le.smul df u2 204 (by norm_num) (by norm_num) (by norm_num)).mulLine 700 (by norm_num) (by norm_num) (by norm_num)
  | horizLine l =>
    obtain ⟨q1, q2, -⟩ := hm.line (l := l) (by simp [consFields])
    have d := q2.2.sub q1.2 201 (by norm_num) (by norm_num) (by norm_num) (by norm_num)
    have g : (⟨0.0, (lineEnd h l).y - (lineStart h l).y⟩ : Vec2 (B64 lm)).Le 201 := ⟨B64.Le.zero.mono (by norm_num), d⟩
    intro k hk
    simp only [Isotope.chunks, List.mem_cons, List.not_mem_nil, or_false] at hk
    rcases hk with rfl | rfl
    · exact g.neg.mulStart 700 (by norm_num) (by norm_num) (by norm_num)
    · exact g.mulEnd 700 (by norm_num) (by norm_num) (by norm_num)
  | vertLine l =>
    obtain ⟨q1, q2, -⟩ := hm.line (l := l) (by simp [consFields])
    have d := q2.1.sub q1.1 201 (by norm_num) (by norm_num) (by norm_num) (by norm_num)
    have g : (⟨(lineEnd h l).x - (lineStart h l).x, 0.0⟩ : Vec2 (B64 lm)).Le 201 := ⟨d, B64.Le.zero.mono (by norm_num)⟩
    intro k hk
    simp only [Isotope.chunks, List.mem_cons, List.not_mem_nil, or_false] at hk
    rcases hk with rfl | rfl
    · exact g.neg.mulStart 700 (by norm_num) (by norm_num) (by norm_num)
    · exact g.mulEnd 700 (by norm_num) (by norm_num) (by norm_num)
  | parallel l m =>
    have d1 := (hm.line (l := l) (by simp [consFields])).2.2
    have d2 := (hm.line (l := m) (by simp [consFields])).2.2
    simp only [Isotope.chunks]
    split
    · simp
    rename_i hg
    simp only [Bool.or_eq_true, not_or, Bool.not_eq_true', Bool.not_eq_false] at hg
    obtain ⟨u1, j1, j1'⟩ := unit_of_finite d1 hg.1.1.1
    obtain ⟨u2, j2, j2'⟩ := unit_of_finite d2 hg.1.2
    have cr := (u1.1.mul u2.2 2 (by norm_num) (by norm_num) (by norm_num)).sub (u1.2.mul u2.1 2 (by norm_num) (by norm_num) (by norm_num))
      3 (by norm_num) (by norm_num) (by norm_num) (by norm_num)
    intro k hk
    simp only [List.mem_cons, List.not_mem_nil, or_false] at hk
    rcases hk with rfl | rfl
    · exact ((Vec2.Le.smul cr (lt_pair (v := ⟨_, _⟩) u2.2 u2.1.neg) 4 (by norm_num) (by norm_num) (by norm_num)).mul22 j1 j1' 545
        (by norm_num) (by norm_num) (by norm_num)).mulLine 700 (by norm_num) (by norm_num) (by norm_num)
    · exact ((Vec2.Le.smul cr (lt_pair (v := ⟨_, _⟩) u1.2.neg u1.1) 4 (by norm_num) (by norm_num) (by norm_num)).mul22 j2 j2' 545
        (by norm_num) (by norm_num) (by norm_num)).mulLine 700 (by norm_num) (by norm_num) (by norm_num)
  | perp l m =>
    have d1 := (hm.line (l := l) (by simp [consFields])).2.2
    have d2 := (hm.line (l := m) (by simp [consFields])).2.2
    simp only [Isotope.chunks]
    split
    · simp
    rename_i hg
    simp only [Bool.or_eq_true, not_or, Bool.not_eq_true', Bool.not_eq_false] at hg
    obtain ⟨u1, j1, j1'⟩ := unit_of_finite d1 hg.1.1.1
    obtain ⟨u2, j2, j2'⟩ := unit_of_finite d2 hg.1.2
    have dp := u1.dot u2 3 (by norm_num) (by norm_num) (by norm_num)
    intro k hk
    simp only [List.mem_cons, List.not_mem_nil, or_false] at hk
    rcases hk with rfl | rfl
    · exact ((Vec2.Le.smul dp u2 4 (by norm_num) (by norm_num) (by norm_num)).mul22 j1 j1' 545
        (by norm_num) (by norm_num) (by norm_num)).mulLine 700 (by norm_num) (by norm_num) (by norm_num)
    · exact ((Vec2.Le.smul dp u1 4 (by norm_num) (by norm_num) (by norm_num)).mul22 j2 j2' 545
        (by norm_num) (by norm_num) (by norm_num)).mulLine 700 (by norm_num) (by norm_num) (by norm_num)

/-! ## Losses -/

theorem ModerateCons.loss (hl : lm.Sane) {h : Heap (B64 lm)} {c : Constraint (B64 lm)} (hm : ModerateCons h c) :
    (lossValue h c).Le 410 := by
  cases c with
  | angle p1 p2 mid D =>
    have q1 := hm.pt (p := p1) (by simp [consDeps, consFields, primFields])
    have q2 := hm.pt (p := p2) (by simp [consDeps, consFields, primFields])
    have q := hm.pt (p := mid) (by simp [consDeps, consFields, primFields])
    have hD := hm.2 D (by simp [consParams])
    have d1 := q1.sub q 201 (by norm_num) (by norm_num) (by norm_num) (by norm_num)
    have d2 := q2.sub q 201 (by norm_num) (by norm_num) (by norm_num) (by norm_num)
    have th : (currentAngle h p1 p2 mid).Le 2 := by
      unfold currentAngle
      dsimp only
      split
      · exact B64.Le.zero.mono (by norm_num)
      rename_i hg
      simp only [Bool.or_eq_true, not_or, Bool.not_eq_true] at hg
      obtain ⟨⟨n1, e1, l1, b1⟩, u1⟩ := arm d1 hg.1
      obtain ⟨⟨n2, e2, l2, b2⟩, u2⟩ := arm d2 hg.2
      obtain ⟨r, hr, -⟩ := cos_le d1 d2 e1 e2 l1 b1 l2 b2
      split
      · exact B64.Le.zero.mono (by norm_num)
      obtain ⟨t, ht, htb⟩ := clamp_is hr
      exact hl.acos _ _ ht htb
    exact (th.sub hD 201 (by norm_num) (by norm_num) (by norm_num) (by norm_num)).halfSq 410 (by norm_num) (by norm_num) (by norm_num)
  | arcEnd a p =>
    have q := hm.pt (p := p) (by simp [consDeps, consFields, primFields])
    have qc := hm.pt (p := (h.arcs a).center) (by simp [consDeps, consFields, primFields])
    have ha := hm.1 (.arc a) (by simp [consDeps, consFields])
    have hr : ((h.arcs a).radius).Le 200 := ha _ (by simp [primData, Arc.radius])
    have ht : ((h.arcs a).endAngle).Le 200 := ha _ (by simp [primData, Arc.endAngle])
    have rc := hr.mul (hl.cos _ ht.isFinite) 200 (by norm_num) (by norm_num) (by norm_num)
    have rsn := hr.mul (hl.sin _ ht.isFinite) 200 (by norm_num) (by norm_num) (by norm_num)
    have ex := (qc.1.add rc 201 (by norm_num) (by norm_num) (by norm_num) (by norm_num)).sub q.1 202 (by norm_num) (by norm_num)
      (by norm_num) (by norm_num)
    have ey := (qc.2.add rsn 201 (by norm_num) (by norm_num) (by norm_num) (by norm_num)).sub q.2 202 (by norm_num) (by norm_num)
      (by norm_num) (by norm_num)
    exact B64.Le.half.mul ((ex.mul ex 404 (by norm_num) (by norm_num) (by norm_num)).add
      (ey.mul ey 404 (by norm_num) (by norm_num) (by norm_num)) 405 (by norm_num) (by norm_num) (by norm_num) (by norm_num)) 410
      (by norm_num) (by norm_num) (by norm_num)
  | arcStart a p =>
    have q := hm.pt (p := p) (by simp [consDeps, consFields, primFields])
    have qc := hm.pt (p := (h.arcs a).center) (by simp [consDeps, consFields, primFields])
    have ha := hm.1 (.arc a) (by simp [consDeps, consFields])
    have hr : ((h.arcs a).radius).Le 200 := ha _ (by simp [primData, Arc.radius])
    have ht : ((h.arcs a).startAngle).Le 200 := ha _ (by simp [primData, Arc.startAngle])
    have rc := hr.mul (hl.cos _ ht.isFinite) 200 (by norm_num) (by norm_num) (by norm_num)
    have rsn := hr.mul (hl.sin _ ht.isFinite) 200 (by norm_num) (by norm_num) (by norm_num)
    have ex := (qc.1.add rc 201 (by norm_num) (by norm_num) (by norm_num) (by norm_num)).sub q.1 202 (by norm_num) (by norm_num)
      (by norm_num) (by norm_num)
    have ey := (qc.2.add rsn 201 (by norm_num) (by norm_num) (by norm_num) (by norm_num)).sub q.2 202 (by norm_num) (by norm_num)
      (by norm_num) (by norm_num)
    exact B64.Le.half.mul ((ex.mul ex 404 (by norm_num) (by norm_num) (by norm_num)).add
      (ey.mul ey 404 (by norm_num) (by norm_num) (by norm_num)) 405 (by norm_num) (by norm_num) (by norm_num) (by norm_num)) 410
      (by norm_num) (by norm_num) (by norm_num)
  | euclid p1 p2 D =>
    have q1 := hm.pt (p := p1) (by simp [consDeps, consFields, primFields])
    have q2 := hm.pt (p := p2) (by simp [consDeps, consFields, primFields])
    have hD := hm.2 D (by simp [consParams])
    have d := q1.sub q2 201 (by norm_num) (by norm_num) (by norm_num) (by norm_num)
    obtain ⟨a, b, q, n, f⟩ := d.norm (by norm_num) (by norm_num)
    exact (f.normLe.sub hD 203 (by norm_num) (by norm_num) (by norm_num) (by norm_num)).halfSq 410 (by norm_num) (by norm_num)
      (by norm_num)
  | horizDist p1 p2 D =>
    have q1 := hm.pt (p := p1) (by simp [consDeps, consFields, primFields])
    have q2 := hm.pt (p := p2) (by simp [consDeps, consFields, primFields])
    have hD := hm.2 D (by simp [consParams])
    have d := q2.sub q1 201 (by norm_num) (by norm_num) (by norm_num) (by norm_num)
    exact (d.1.sub hD 203 (by norm_num) (by norm_num) (by norm_num) (by norm_num)).halfSq 410 (by norm_num) (by norm_num) (by norm_num)
  | vertDist p1 p2 D =>
    have q1 := hm.pt (p := p1) (by simp [consDeps, consFields, primFields])
    have q2 := hm.pt (p := p2) (by simp [consDeps, consFields, primFields])
    have hD := hm.2 D (by simp [consParams])
    have d := q2.sub q1 201 (by norm_num) (by norm_num) (by norm_num) (by norm_num)
    exact (d.2.sub hD 203 (by norm_num) (by norm_num) (by norm_num) (by norm_num)).halfSq 410 (by norm_num) (by norm_num) (by norm_num)
  | fix p D =>
    have q := hm.pt (p := p) (by simp [consDeps, consFields, primFields])
    have hD : D.Le 200 := ⟨hm.2 D.x (by simp [consParams]), hm.2 D.y (by simp [consParams])⟩
    have d := q.sub hD 201 (by norm_num) (by norm_num) (by norm_num) (by norm_num)
    exact B64.Le.half.mul (d.dot d 405 (by norm_num) (by norm_num) (by norm_num)) 410 (by norm_num) (by norm_num) (by norm_num)
  | eqLen l m =>
    have d1 := (hm.line (l := l) (by simp [consFields])).2.2
    have d2 := (hm.line (l := m) (by simp [consFields])).2.2
    obtain ⟨a1, b1, q1, n1, f1⟩ := d1.norm (by norm_num) (by norm_num)
    obtain ⟨a2, b2, q2, n2, f2⟩ := d2.norm (by norm_num) (by norm_num)
    exact (f1.normLe.sub f2.normLe 203 (by norm_num) (by norm_num) (by norm_num) (by norm_num)).halfSq 410 (by norm_num) (by norm_num)
      (by norm_num)
  | horizLine l =>
    obtain ⟨q1, q2, -⟩ := hm.line (l := l) (by simp [consFields])
    exact (q2.2.sub q1.2 201 (by norm_num) (by norm_num) (by norm_num) (by norm_num)).halfSq 410 (by norm_num) (by norm_num) (by norm_num)
  | vertLine l =>
    obtain ⟨q1, q2, -⟩ := hm.line (l := l) (by simp [consFields])
    exact (q2.1.sub q1.1 201 (by norm_num) (by norm_num) (by norm_num) (by norm_num)).halfSq 410 (by norm_num) (by norm_num) (by norm_num)
  | parallel l m =>
    have d1 := (hm.line (l := l) (by simp [consFields])).2.2
    have d2 := (hm.line (l := m) (by simp [consFields])).2.2
    simp only [lossValue]
    split
    · exact B64.Le.zero.mono (by norm_num)
    rename_i hg
    simp only [Bool.or_eq_true, not_or, Bool.not_eq_true', Bool.not_eq_false] at hg
    obtain ⟨u1, -⟩ := unit_of_finite d1 hg.1.1.1
    obtain ⟨u2, -⟩ := unit_of_finite d2 hg.1.2
    exact ((u1.1.mul u2.2 2 (by norm_num) (by norm_num) (by norm_num)).sub (u1.2.mul u2.1 2 (by norm_num) (by norm_num) (by norm_num))
      3 (by norm_num) (by norm_num) (by norm_num) (by norm_num)).halfSq 410 (by norm_num) (by norm_num) (by norm_num)
  | perp l m =>
    have d1 := (hm.line (l := l) (by simp [consFields])).2.2
    have d2 := (hm.line (l := m) (by simp [consFields])).2.2
    simp only [lossValue]
    split
    · exact B64.Le.zero.mono (by norm_num)
    rename_i hg
    simp only [Bool.or_eq_true, not_or, Bool.not_eq_true', Bool.not_eq_false] at hg
    obtain ⟨u1, -⟩ := unit_of_finite d1 hg.1.1.1
    obtain ⟨u2, -⟩ := unit_of_finite d2 hg.1.2
    exact (u1.dot u2 3 (by norm_num) (by norm_num) (by norm_num)).halfSq 410 (by norm_num) (by norm_num) (by norm_num)

/-! ## Degenerate equal-length constraints -/

theorem not_finite_mul {x y : B64 lm} (h : Num.isFinite y = false) : Num.isFinite (x * y) = false := by
  obtain ⟨x⟩ := x
  obtain ⟨y⟩ := y
  change y.isFinite = false at h
  change (x.mul y).isFinite = false
  cases x <;> cases y <;> simp only [Val.mul] <;> first | rfl | (split_ifs <;> rfl) | cases h

theorem not_finite_mul' {x y : B64 lm} (h : Num.isFinite x = false) : Num.isFinite (x * y) = false := by
  obtain ⟨x⟩ := x
  obtain ⟨y⟩ := y
  change x.isFinite = false at h
  change (x.mul y).isFinite = false
  cases x <;> cases y <;> simp only [Val.mul] <;> first | rfl | (split_ifs <;> rfl) | cases h

theorem not_finite_add {x y : B64 lm} (h : Num.isFinite x = false) : Num.isFinite (x + y) = false := by
  obtain ⟨x⟩ := x
  obtain ⟨y⟩ := y
  change x.isFinite = false at h
  change (x.add y).isFinite = false
  cases x <;> cases y <;> simp only [Val.add] <;> first | rfl | (split_ifs <;> rfl) | cases h

theorem not_finite_row {v : Vec2 (B64 lm)} {a : B64 lm} {m : Mat2 (Row4 (B64 lm))} (h : Num.isFinite v.x = false) :
    ((Vec2.smul a v).mul24 m).allFinite = false := by
  have h1 : Num.isFinite ((Vec2.smul a v).mul24 m).a0 = false := not_finite_add (not_finite_mul' (not_finite_mul h))
  simp [Row4.allFinite, h1]

theorem ModerateCons.zero_chunk {h : Heap (B64 lm)} {c : Constraint (B64 lm)} (hm : ModerateCons h c) (hz : ZeroEqLen h c) :
    ∃ k ∈ Isotope.chunks h c, k.finite = false := by
  cases c with
  | eqLen l m =>
    have d1 := (hm.line (l := l) (by simp [consFields])).2.2
    have d2 := (hm.line (l := m) (by simp [consFields])).2.2
    obtain ⟨a1, b1, q1, n1, f1⟩ := d1.norm (by norm_num) (by norm_num)
    obtain ⟨a2, b2, q2, n2, f2⟩ := d2.norm (by norm_num) (by norm_num)
    simp only [ZeroEqLen, f1.nm.eq_iff B64.is_zero, f2.nm.eq_iff B64.is_zero] at hz
    rcases hz with hz | hz
    · refine ⟨.line l _, by simp only [Isotope.chunks]; exact List.mem_cons_self, ?_⟩
      exact not_finite_row (f1.unit_zero hz).1
    · refine ⟨.line m _, by simp only [Isotope.chunks]; exact List.mem_cons_of_mem _ List.mem_cons_self, ?_⟩
      refine not_finite_row ?_
      obtain ⟨s', m', e', h1⟩ := f2.nm
      obtain ⟨s, m, e, -⟩ := f2.x.neg
      have h2 : m'.1 = 0 := by
        rw [hz] at h1
        cases s' <;> simpa [sgn] using h1
      change (Val.div (-(lineEnd h _ - lineStart h _).x).v _).isFinite = false
      rw [e, e']
      simp only [Val.div]
      rw [if_pos h2]
      split_ifs <;> rfl
  | _ => exact hz.elim

/-! ## Accumulation -/

/-- a multiple of `2^k` with few bits is representable -/
theorem rep_mul {N : ℕ} (hN : N < 2 ^ 53) {k : ℤ} (h1 : -1074 ≤ k) (h2 : k ≤ 971) : Rep (N * 2 ^ k) := ⟨N, k, hN, h1, h2, rfl⟩

/-- finite, magnitude at most `N` times `2^k` -/
def B64.Sum (x : B64 lm) (N : ℕ) (k : ℤ) : Prop := ∃ r, x.Is r ∧ |r| ≤ N * 2 ^ k

theorem B64.Sum.add {x y : B64 lm} {N : ℕ} {k : ℤ} (hx : x.Sum N k) (hy : y.Le k) (hN : N + 1 < 2 ^ 53) (h1 : -1074 ≤ k)
    (h2 : k ≤ 971) : (x + y).Sum (N + 1) k := by
  obtain ⟨r, hx, hr⟩ := hx
  obtain ⟨t, hy, ht⟩ := hy
  have hb : |r + t| ≤ ((N + 1 : ℕ) : ℝ) * 2 ^ k := by
    push_cast
    have := abs_add_le r t
    linarith
  have hrep := rep_mul (N := N + 1) hN h1 h2
  have hle := abs_rs_le hrep hb
  exact ⟨_, hx.add hy (hle.trans_lt hrep.lt_top), hle⟩

theorem B64.Sum.mono {x : B64 lm} {N M : ℕ} {k : ℤ} (hx : x.Sum N k) (h : N ≤ M) : x.Sum M k := by
  obtain ⟨r, hx, hr⟩ := hx
  exact ⟨r, hx, hr.trans (mul_le_mul_of_nonneg_right (by exact_mod_cast h) (two_pos k).le)⟩

theorem B64.Sum.isFinite {x : B64 lm} {N : ℕ} {k : ℤ} (hx : x.Sum N k) : Num.isFinite x = true := by
  obtain ⟨r, hx, -⟩ := hx; exact hx.isFinite

/-- the gradients stored in the cells `S` are at most `N * 2^k` -/
def GradSum (h : Heap (B64 lm)) (S : List PrimCell) (N : ℕ) (k : ℤ) : Prop := ∀ c ∈ S, ∀ x ∈ primGrad h c, x.Sum N k

theorem GradSum.mono {h : Heap (B64 lm)} {S : List PrimCell} {N M : ℕ} {k : ℤ} (hg : GradSum h S N k) (hNM : N ≤ M) :
    GradSum h S M k := fun c hc x hx => (hg c hc x hx).mono hNM

theorem pointAdd_sum {h : Heap (B64 lm)} {S : List PrimCell} {N : ℕ} {k : ℤ} (hg : GradSum h S N k) (a : Nat) {g : Vec2 (B64 lm)}
    (hk : g.Le k) (hN : N + 1 < 2 ^ 53) (h1 : -1074 ≤ k) (h2 : k ≤ 971) :
    ∃ h', pointAddGrad h a g = .ok h' ∧ GradSum h' S (N + 1) k := by
  refine ⟨_, if_pos (Chunk.Le.finite (c := .point a g) hk), fun c hc x hx => ?_⟩
  have old := hg c hc
  cases c with
  | point b =>
    by_cases e : b = a
    · subst e
      simp only [primGrad, Heap.setPoint, upd, if_true, List.mem_cons, List.not_mem_nil, or_false] at hx old
      rcases hx with rfl | rfl
      · exact (old _ (.inl rfl)).add hk.1 hN h1 h2
      · exact (old _ (.inr rfl)).add hk.2 hN h1 h2
    · simp only [primGrad, Heap.setPoint, upd, if_neg e] at hx
      exact (old x hx).mono (by omega)
  | _ => exact (old x hx).mono (by omega)

theorem applyChunk_sum {h : Heap (B64 lm)} {S : List PrimCell} {N : ℕ} {k : ℤ} (hg : GradSum h S N k) {c : Chunk (B64 lm)}
    (hk : c.Le k) (hN : N + 2 < 2 ^ 53) (h1 : -1074 ≤ k) (h2 : k ≤ 971) :
    ∃ h', applyChunk h c = .ok h' ∧ GradSum h' S (N + 2) k := by
  cases c with
  | point a g =>
    obtain ⟨h', e, hs⟩ := pointAdd_sum hg a hk (by omega) h1 h2
    exact ⟨h', e, hs.mono (by omega)⟩
  | line l g =>
    have hk' : g.Le k := hk
    obtain ⟨h', e, hs⟩ := pointAdd_sum hg (h.lines l).start (g := ⟨g.a0, g.a1⟩) ⟨hk'.1, hk'.2.1⟩ (by omega) h1 h2
    obtain ⟨h'', e', hs'⟩ := pointAdd_sum hs (h'.lines l).stop (g := ⟨g.a2, g.a3⟩) ⟨hk'.2.2.1, hk'.2.2.2⟩ (by omega) h1 h2
    refine ⟨h'', ?_, hs'⟩
    show lineAddGrad h l g = _
    unfold lineAddGrad
    rw [if_pos (show g.allFinite = true from Chunk.Le.finite hk), e]
    exact e'
  | arc a g =>
    have hk' : g.Le k := hk
    obtain ⟨h', e, hs⟩ := pointAdd_sum hg (h.arcs a).center (g := ⟨g.a0, g.a1⟩) ⟨hk'.1, hk'.2.1⟩ (by omega) h1 h2
    refine ⟨h'.setArc a { h'.arcs a with grad := (h'.arcs a).grad + ⟨g.a2, g.a3, g.a4⟩ }, ?_, fun c hc x hx => ?_⟩
    · show arcAddGrad h a g = _
      unfold arcAddGrad
      rw [if_pos (show g.allFinite = true from Chunk.Le.finite hk), e]
      rfl
    · have old := hs c hc
      cases c with
      | arc b =>
        by_cases eb : b = a
        · subst eb
          simp only [primGrad, Heap.setArc, upd, if_true, List.mem_cons, List.not_mem_nil, or_false] at hx old
          rcases hx with rfl | rfl | rfl
          · exact (old _ (.inl rfl)).add hk'.2.2.1 hN h1 h2
          · exact (old _ (.inr (.inl rfl))).add hk'.2.2.2.1 hN h1 h2
          · exact (old _ (.inr (.inr rfl))).add hk'.2.2.2.2 hN h1 h2
        · simp only [primGrad, Heap.setArc, upd, if_neg eb] at hx
          exact (old x hx).mono (by omega)
      | _ => exact (old x hx).mono (by omega)

theorem foldChunks_sum {S : List PrimCell} {k : ℤ} (h1 : -1074 ≤ k) (h2 : k ≤ 971) (cs : List (Chunk (B64 lm))) :
    ∀ {h : Heap (B64 lm)} {N : ℕ}, GradSum h S N k → (∀ c ∈ cs, c.Le k) → N + 2 * cs.length < 2 ^ 53 →
      ∃ h', cs.foldlM applyChunk h = .ok h' ∧ GradSum h' S (N + 2 * cs.length) k := by
  induction cs with
  | nil => intro h N hg _ _; exact ⟨h, rfl, hg⟩
  | cons c cs ih =>
    intro h N hg hk hN
    rw [List.length_cons] at hN
    obtain ⟨h', e, hs⟩ := applyChunk_sum hg (hk c (by simp)) (by omega) h1 h2
    obtain ⟨h'', e', hs'⟩ := ih hs (fun c' hc' => hk c' (by simp [hc'])) (by omega)
    refine ⟨h'', ?_, hs'.mono (by rw [List.length_cons]; omega)⟩
    rw [List.foldlM_cons, e]
    exact e'

theorem chunks_length {F : Type} [Num F] (h : Heap F) (c : Constraint F) : (chunks h c).length ≤ 3 := by
  cases c <;> simp only [chunks] <;> first | (simp; done) | skip
  all_goals repeat' split
  all_goals simp

/-- a contribution that is not finite makes the loop panic (any arithmetic) -/
theorem foldChunks_panic {F : Type} [Num F] (cs : List (Chunk F)) (hb : ∃ c ∈ cs, c.finite = false) :
    ∀ h : Heap F, ∃ h', cs.foldlM applyChunk h = .error h' := by
  induction cs with
  | nil => obtain ⟨c, hc, -⟩ := hb; cases hc
  | cons c cs ih =>
    intro h
    rw [List.foldlM_cons]
    cases e : applyChunk h c with
    | error h' => exact ⟨h', rfl⟩
    | ok h' =>
      obtain ⟨c', hc', hf⟩ := hb
      rcases List.mem_cons.1 hc' with rfl | hc'
      · exfalso
        cases c' with
        | point a g => simp only [applyChunk, pointAddGrad, show g.allFinite = false from hf] at e; cases e
        | line a g => simp only [applyChunk, lineAddGrad, show g.allFinite = false from hf] at e; cases e
        | arc a g => simp only [applyChunk, arcAddGrad, show g.allFinite = false from hf] at e; cases e
      · exact ih ⟨c', hc', hf⟩ h'

end Isotope
