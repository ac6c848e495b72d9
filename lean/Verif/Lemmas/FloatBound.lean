import Verif.Lemmas.Float
import Verif.Lemmas.Chunk

/-!
# Bounds on binary64 expressions
-/

namespace Isotope
open Round Val

variable {lm : Libm}

/-- finite, magnitude at most `2^k` -/
def B64.Le (x : B64 lm) (k : ℤ) : Prop := ∃ r, x.Is r ∧ |r| ≤ 2 ^ k

theorem two_le {j k : ℤ} (h : j ≤ k) : (2 : ℝ) ^ j ≤ 2 ^ k := zpow_le_zpow_right₀ (by norm_num) h

theorem abs_rs_lt_top {z : ℝ} {k : ℤ} (h1 : -1074 ≤ k) (h2 : k ≤ 1023) (h : |z| ≤ 2 ^ k) : |rs z| < top :=
  (abs_rs_le (rep_pow k h1 h2) h).trans_lt (pow_lt_top h2)

namespace B64.Le
variable {x y : B64 lm} {j k : ℤ}

theorem isFinite (h : x.Le k) : Num.isFinite x = true := by obtain ⟨r, h, -⟩ := h; exact h.isFinite

theorem mono (h : x.Le j) (hjk : j ≤ k) : x.Le k := by
  obtain ⟨r, h, hr⟩ := h
  exact ⟨r, h, hr.trans (two_le hjk)⟩

theorem neg (h : x.Le k) : (-x).Le k := by
  obtain ⟨r, h, hr⟩ := h
  exact ⟨-r, h.neg, by rwa [abs_neg]⟩

theorem add (hx : x.Le j) (hy : y.Le k) (n : ℤ) (h1 : j < n) (h2 : k < n) (h3 : -1074 ≤ n) (h4 : n ≤ 1023) : (x + y).Le n := by
  obtain ⟨r, hx, hr⟩ := hx
  obtain ⟨t, hy, ht⟩ := hy
  have hb : |r + t| ≤ 2 ^ n := by
    have e : (2 : ℝ) ^ n = 2 ^ (n - 1) + 2 ^ (n - 1) := by
      rw [zpow_sub₀ (by norm_num)]; norm_num
    rw [e]
    exact (abs_add_le r t).trans (add_le_add (hr.trans (two_le (by omega))) (ht.trans (two_le (by omega))))
  exact ⟨_, hx.add hy (abs_rs_lt_top h3 h4 hb), abs_rs_le (rep_pow n h3 h4) hb⟩

theorem sub (hx : x.Le j) (hy : y.Le k) (n : ℤ) (h1 : j < n) (h2 : k < n) (h3 : -1074 ≤ n) (h4 : n ≤ 1023) : (x - y).Le n :=
  hx.add hy.neg n h1 h2 h3 h4

theorem mul (hx : x.Le j) (hy : y.Le k) (n : ℤ) (h1 : j + k ≤ n) (h3 : -1074 ≤ n) (h4 : n ≤ 1023) : (x * y).Le n := by
  obtain ⟨r, hx, hr⟩ := hx
  obtain ⟨t, hy, ht⟩ := hy
  have hb : |r * t| ≤ 2 ^ n := by
    rw [abs_mul]
    refine (mul_le_mul hr ht (abs_nonneg t) (two_pos _).le).trans ?_
    rw [← zpow_add₀ (by norm_num)]
    exact two_le h1
  exact ⟨_, hx.mul hy (abs_rs_lt_top h3 h4 hb), abs_rs_le (rep_pow n h3 h4) hb⟩

theorem divIs {t : ℝ} (hx : x.Le j) (hy : y.Is t) (ht : 2 ^ k ≤ |t|) (n : ℤ) (h1 : j - k ≤ n) (h3 : -1074 ≤ n) (h4 : n ≤ 1023) :
    (x / y).Le n := by
  obtain ⟨r, hx, hr⟩ := hx
  have t0 : 0 < |t| := (two_pos k).trans_le ht
  have hb : |r / t| ≤ 2 ^ n := by
    rw [abs_div, div_le_iff₀ t0]
    refine hr.trans ?_
    calc (2 : ℝ) ^ j ≤ 2 ^ (n + k) := two_le (by omega)
      _ = 2 ^ n * 2 ^ k := zpow_add₀ (by norm_num) _ _
      _ ≤ 2 ^ n * |t| := mul_le_mul_of_nonneg_left ht (two_pos _).le
  exact ⟨_, hx.div hy (abs_pos.1 t0) (abs_rs_lt_top h3 h4 hb), abs_rs_le (rep_pow n h3 h4) hb⟩

theorem half : (0.5 : B64 lm).Le 0 := ⟨_, B64.is_half, by norm_num⟩
theorem one : (1.0 : B64 lm).Le 0 := ⟨_, B64.is_one, by norm_num⟩
theorem zero : (0.0 : B64 lm).Le 0 := ⟨_, B64.is_zero, by norm_num⟩

/-- `0.5 * e * e` -/
theorem halfSq (h : x.Le k) (n : ℤ) (h1 : k + k ≤ n) (hk : 0 ≤ k) (hn : n ≤ 1023) : ((0.5 : B64 lm) * x * x).Le n :=
  (half.mul h k (by omega) (by omega) (by omega)).mul h n h1 (by omega) hn

end B64.Le

/-! ## Vectors -/

/-- both components bounded -/
def Vec2.Le (v : Vec2 (B64 lm)) (k : ℤ) : Prop := v.x.Le k ∧ v.y.Le k
/-- all components bounded -/
def Row4.Le (v : Row4 (B64 lm)) (k : ℤ) : Prop := v.a0.Le k ∧ v.a1.Le k ∧ v.a2.Le k ∧ v.a3.Le k
/-- all components bounded -/
def Row5.Le (v : Row5 (B64 lm)) (k : ℤ) : Prop := v.a0.Le k ∧ v.a1.Le k ∧ v.a2.Le k ∧ v.a3.Le k ∧ v.a4.Le k

/-- all components bounded -/
def Chunk.Le : Chunk (B64 lm) → ℤ → Prop
  | .point _ g, k => g.Le k
  | .line _ g, k => g.Le k
  | .arc _ g, k => g.Le k

theorem Chunk.Le.finite {c : Chunk (B64 lm)} {k : ℤ} (h : c.Le k) : c.finite = true := by
  cases c
  · simp [Chunk.finite, Vec2.allFinite, h.1.isFinite, h.2.isFinite]
  · simp [Chunk.finite, Row4.allFinite, h.1.isFinite, h.2.1.isFinite, h.2.2.1.isFinite, h.2.2.2.isFinite]
  · simp [Chunk.finite, Row5.allFinite, h.1.isFinite, h.2.1.isFinite, h.2.2.1.isFinite, h.2.2.2.1.isFinite, h.2.2.2.2.isFinite]

namespace Vec2.Le
variable {v w : Vec2 (B64 lm)} {j k : ℤ}

theorem mono (h : v.Le j) (hjk : j ≤ k) : v.Le k := ⟨h.1.mono hjk, h.2.mono hjk⟩
theorem neg (h : v.Le k) : (-v).Le k := ⟨h.1.neg, h.2.neg⟩
theorem add (hx : v.Le j) (hy : w.Le k) (n : ℤ) (h1 : j < n) (h2 : k < n) (h3 : -1074 ≤ n) (h4 : n ≤ 1023) : (v + w).Le n :=
  ⟨hx.1.add hy.1 n h1 h2 h3 h4, hx.2.add hy.2 n h1 h2 h3 h4⟩
theorem sub (hx : v.Le j) (hy : w.Le k) (n : ℤ) (h1 : j < n) (h2 : k < n) (h3 : -1074 ≤ n) (h4 : n ≤ 1023) : (v - w).Le n :=
  ⟨hx.1.sub hy.1 n h1 h2 h3 h4, hx.2.sub hy.2 n h1 h2 h3 h4⟩
theorem smul {a : B64 lm} (ha : a.Le j) (hv : v.Le k) (n : ℤ) (h1 : j + k ≤ n) (h3 : -1074 ≤ n) (h4 : n ≤ 1023) :
    (Vec2.smul a v).Le n := ⟨ha.mul hv.1 n h1 h3 h4, ha.mul hv.2 n h1 h3 h4⟩

theorem dot (hv : v.Le j) (hw : w.Le k) (n : ℤ) (h1 : j + k < n) (h3 : -1073 ≤ n) (h4 : n ≤ 1023) : (v.dot w).Le n :=
  (hv.1.mul hw.1 (n - 1) (by omega) (by omega) (by omega)).add (hv.2.mul hw.2 (n - 1) (by omega) (by omega) (by omega)) n
    (by omega) (by omega) (by omega) h4

/-- one entry of row times matrix -/
theorem entry {a b : B64 lm} (h : v.Le j) (ha : a.Le k) (hb : b.Le k) (n : ℤ) (h1 : j + k < n) (h3 : -1073 ≤ n) (h4 : n ≤ 1023) :
    (v.x * a + v.y * b).Le n :=
  (h.1.mul ha (n - 1) (by omega) (by omega) (by omega)).add (h.2.mul hb (n - 1) (by omega) (by omega) (by omega)) n
    (by omega) (by omega) (by omega) h4

theorem mul22 {m : Mat2 (Vec2 (B64 lm))} (h : v.Le j) (h0 : m.r0.Le k) (h1 : m.r1.Le k) (n : ℤ) (h2 : j + k < n)
    (h3 : -1073 ≤ n) (h4 : n ≤ 1023) : (v.mul22 m).Le n :=
  ⟨h.entry h0.1 h1.1 n h2 h3 h4, h.entry h0.2 h1.2 n h2 h3 h4⟩

theorem mulPoint (h : v.Le j) (n : ℤ) (h2 : j < n) (h3 : -1073 ≤ n) (h4 : n ≤ 1023) : (v.mul22 pointGradient).Le n :=
  h.mul22 (k := 0) ⟨.one, .zero⟩ ⟨.zero, .one⟩ n (by omega) h3 h4

theorem mul24 {m : Mat2 (Row4 (B64 lm))} (h : v.Le j) (h0 : m.r0.Le k) (h1 : m.r1.Le k) (n : ℤ) (h2 : j + k < n)
    (h3 : -1073 ≤ n) (h4 : n ≤ 1023) : (v.mul24 m).Le n :=
  ⟨h.entry h0.1 h1.1 n h2 h3 h4, h.entry h0.2.1 h1.2.1 n h2 h3 h4, h.entry h0.2.2.1 h1.2.2.1 n h2 h3 h4,
    h.entry h0.2.2.2 h1.2.2.2 n h2 h3 h4⟩

theorem mul25 {m : Mat2 (Row5 (B64 lm))} (h : v.Le j) (h0 : m.r0.Le k) (h1 : m.r1.Le k) (n : ℤ) (h2 : j + k < n)
    (h3 : -1073 ≤ n) (h4 : n ≤ 1023) : (v.mul25 m).Le n :=
  ⟨h.entry h0.1 h1.1 n h2 h3 h4, h.entry h0.2.1 h1.2.1 n h2 h3 h4, h.entry h0.2.2.1 h1.2.2.1 n h2 h3 h4,
    h.entry h0.2.2.2.1 h1.2.2.2.1 n h2 h3 h4, h.entry h0.2.2.2.2 h1.2.2.2.2 n h2 h3 h4⟩

theorem mulStart (h : v.Le j) (n : ℤ) (h2 : j < n) (h3 : -1073 ≤ n) (h4 : n ≤ 1023) : (v.mul24 lineStartGradient).Le n :=
  h.mul24 (k := 0) ⟨.one, .zero, .zero, .zero⟩ ⟨.zero, .one, .zero, .zero⟩ n (by omega) h3 h4

theorem mulEnd (h : v.Le j) (n : ℤ) (h2 : j < n) (h3 : -1073 ≤ n) (h4 : n ≤ 1023) : (v.mul24 lineEndGradient).Le n :=
  h.mul24 (k := 0) ⟨.zero, .zero, .one, .zero⟩ ⟨.zero, .zero, .zero, .one⟩ n (by omega) h3 h4

theorem mulLine (h : v.Le j) (n : ℤ) (h2 : j + 1 < n) (h3 : -1073 ≤ n) (h4 : n ≤ 1023) :
    (v.mul24 (lineEndGradient - lineStartGradient)).Le n := by
  have s : ∀ {a b : B64 lm}, a.Le 0 → b.Le 0 → (a - b).Le 1 := fun ha hb => ha.sub hb 1 (by omega) (by omega) (by omega) (by omega)
  refine h.mul24 (k := 1) ?_ ?_ n (by omega) h3 h4
  · exact ⟨s .zero .one, s .zero .zero, s .one .zero, s .zero .zero⟩
  · exact ⟨s .zero .zero, s .zero .one, s .zero .zero, s .one .zero⟩

end Vec2.Le

/-! ## Norms -/

theorem Rep.ge_min {r : ℝ} (h : Rep r) (h0 : r ≠ 0) : 2 ^ (-1074 : ℤ) ≤ r := by
  obtain ⟨m, e, -, h1, -, rfl⟩ := h
  have : (1 : ℝ) ≤ m := by
    have : m ≠ 0 := by rintro rfl; simp at h0
    exact_mod_cast Nat.one_le_iff_ne_zero.2 this
  calc (2 : ℝ) ^ (-1074 : ℤ) ≤ 2 ^ e := two_le h1
    _ ≤ m * 2 ^ e := le_mul_of_one_le_left (two_pos _).le this

theorem sqrt_two (k : ℤ) : Real.sqrt (2 ^ (2 * k)) = 2 ^ k := by
  rw [show (2 : ℝ) ^ (2 * k) = (2 ^ k) ^ 2 by rw [← zpow_natCast, ← zpow_mul]; congr 1; push_cast; ring]
  exact Real.sqrt_sq (two_pos k).le

/-- what is known of the computed norm of a vector -/
structure NormFacts (v : Vec2 (B64 lm)) (a b q n : ℝ) (k : ℤ) : Prop where
  x : v.x.Is a
  y : v.y.Is b
  sq : v.normSq.Is q
  nm : v.norm.Is n
  sq0 : 0 ≤ q
  nm0 : 0 ≤ n
  nmLe : n ≤ 2 ^ (k + 1)
  aa : |rs (a * a)| ≤ q
  bb : |rs (b * b)| ≤ q
  ab : |rs (a * b)| ≤ q
  zero : n = 0 ↔ q = 0
  low : n ≠ 0 → 2 ^ (-537 : ℤ) ≤ n
  ax : n ≠ 0 → |a| ≤ 2 * n
  bx : n ≠ 0 → |b| ≤ 2 * n

theorem Vec2.Le.norm {v : Vec2 (B64 lm)} {k : ℤ} (h : v.Le k) (hk : 0 ≤ k) (hk' : k ≤ 510) :
    ∃ a b q n, NormFacts v a b q n k := by
  obtain ⟨⟨a, ha, hA⟩, b, hb, hB⟩ := h
  have h2 : ∀ {u w : ℝ}, |u| ≤ 2 ^ k → |w| ≤ 2 ^ k → |u * w| ≤ 2 ^ (2 * k) := by
    intro u w hu hw
    rw [abs_mul, two_mul, zpow_add₀ (by norm_num)]
    exact mul_le_mul hu hw (abs_nonneg w) (two_pos k).le
  have lt2 : ∀ {u w : ℝ}, |u| ≤ 2 ^ k → |w| ≤ 2 ^ k → |rs (u * w)| < top := fun hu hw =>
    abs_rs_lt_top (by omega) (by omega) (h2 hu hw)
  have le2 : ∀ {u w : ℝ}, |u| ≤ 2 ^ k → |w| ≤ 2 ^ k → |rs (u * w)| ≤ 2 ^ (2 * k) := fun hu hw =>
    abs_rs_le (rep_pow _ (by omega) (by omega)) (h2 hu hw)
  have na : 0 ≤ rs (a * a) := rs_nonneg (mul_self_nonneg a)
  have nb : 0 ≤ rs (b * b) := rs_nonneg (mul_self_nonneg b)
  have qa := ha.mul ha (lt2 hA hA)
  have qb := hb.mul hb (lt2 hB hB)
  have hs : |rs (a * a) + rs (b * b)| ≤ 2 ^ (2 * k + 1) := by
    rw [zpow_add₀ (by norm_num), abs_of_nonneg (add_nonneg na nb)]
    have h3 := le2 hA hA
    have h4 := le2 hB hB
    rw [abs_of_nonneg na] at h3
    rw [abs_of_nonneg nb] at h4
    linarith
  have q := qa.add qb (abs_rs_lt_top (by omega) (by omega) hs)
  have q0 : 0 ≤ rs (rs (a * a) + rs (b * b)) := rs_nonneg (add_nonneg na nb)
  have qle : rs (rs (a * a) + rs (b * b)) ≤ 2 ^ (2 * k + 1) :=
    (le_abs_self _).trans (abs_rs_le (rep_pow _ (by omega) (by omega)) hs)
  have haq : |rs (a * a)| ≤ rs (rs (a * a) + rs (b * b)) := by
    have := le_abs_rs (z := rs (a * a) + rs (b * b)) qa.rep (by
      rw [abs_of_nonneg na, abs_of_nonneg (add_nonneg na nb)]; linarith)
    rwa [abs_of_nonneg q0] at this
  have hbq : |rs (b * b)| ≤ rs (rs (a * a) + rs (b * b)) := by
    have := le_abs_rs (z := rs (a * a) + rs (b * b)) qb.rep (by
      rw [abs_of_nonneg nb, abs_of_nonneg (add_nonneg na nb)]; linarith)
    rwa [abs_of_nonneg q0] at this
  generalize hq : rs (rs (a * a) + rs (b * b)) = Q at *
  have sle : |Real.sqrt Q| ≤ 2 ^ (k + 1) := by
    rw [abs_of_nonneg (Real.sqrt_nonneg _), ← sqrt_two]
    exact Real.sqrt_le_sqrt (qle.trans (two_le (by omega)))
  have n := q.sqrt q0 (abs_rs_lt_top (by omega) (by omega) sle)
  have low : ∀ j : ℤ, -537 ≤ j → j ≤ 500 → 2 ^ (2 * j) ≤ Q → 2 ^ j ≤ rs (Real.sqrt Q) := by
    intro j h1 h2 h3
    have := le_abs_rs (z := Real.sqrt Q) (rep_pow j (by omega) (by omega)) (by
      rw [abs_of_nonneg (Real.sqrt_nonneg _), ← sqrt_two]; exact Real.sqrt_le_sqrt h3)
    rwa [abs_of_nonneg (rs_nonneg (Real.sqrt_nonneg _))] at this
  have minQ : Q ≠ 0 → 2 ^ (-1074 : ℤ) ≤ Q := fun h0 => by
    have := q.rep
    rw [abs_of_nonneg q0] at this
    exact Rep.ge_min this h0
  have lowN : Q ≠ 0 → 2 ^ (-537 : ℤ) ≤ rs (Real.sqrt Q) := fun h0 => low (-537) le_rfl (by norm_num) (minQ h0)
  have zn : rs (Real.sqrt Q) = 0 ↔ Q = 0 := by
    constructor
    · intro h0; by_contra h1; have := lowN h1; have := two_pos (-537); linarith
    · rintro h0; rw [h0, Real.sqrt_zero, rs_zero]
  have half : ∀ u : ℝ, |u| ≤ 2 ^ k → |rs (u * u)| ≤ Q → rs (Real.sqrt Q) ≠ 0 → |u| ≤ 2 * rs (Real.sqrt Q) := by
    intro u hu huq h0
    rw [Ne, zn] at h0
    have l0 := lowN h0
    by_cases hs : |u| ≤ 2 ^ (-536 : ℤ)
    · have : (2 : ℝ) ^ (-536 : ℤ) = 2 * 2 ^ (-537 : ℤ) := by
        rw [show (-536 : ℤ) = 1 + -537 by norm_num, zpow_add₀ (by norm_num)]; norm_num
      linarith
    · have hs := not_le.1 hs
      have u0 : 0 < |u| := (two_pos _).trans hs
      -- 2^e ≤ |u| < 2^(e+1)
      set e := Int.log 2 |u| with he
      have e1 : (2 : ℝ) ^ e ≤ |u| := by exact_mod_cast Int.zpow_log_le_self (b := 2) (by norm_num) u0
      have e2 : |u| < (2 : ℝ) ^ (e + 1) := by exact_mod_cast Int.lt_zpow_succ_log_self (b := 2) (by norm_num) |u|
      have e3 : -536 ≤ e := by
        by_contra hc
        have := two_le (show e + 1 ≤ -536 by omega)
        linarith
      have e4 : e ≤ k := by
        by_contra hc
        have : (2 : ℝ) ^ k < 2 ^ e := zpow_lt_zpow_right₀ (by norm_num) (by omega)
        linarith
      have e5 : (2 : ℝ) ^ (2 * e) ≤ |u * u| := by
        rw [abs_mul, two_mul, zpow_add₀ (by norm_num)]
        exact mul_le_mul e1 e1 (two_pos _).le u0.le
      have e6 := le_abs_rs (rep_pow (2 * e) (by omega) (by omega)) e5
      by_cases e7 : e ≤ 500
      · have := low e (by omega) e7 (e6.trans huq)
        rw [zpow_add₀ (by norm_num)] at e2
        norm_num at e2
        linarith
      · have h8 : 2 ^ (2 * e) ≤ Q := e6.trans huq
        have := le_abs_rs (z := Real.sqrt Q) (rep_pow e (by omega) (by omega)) (by
          rw [abs_of_nonneg (Real.sqrt_nonneg _), ← sqrt_two]; exact Real.sqrt_le_sqrt h8)
        rw [abs_of_nonneg (rs_nonneg (Real.sqrt_nonneg _))] at this
        rw [zpow_add₀ (by norm_num)] at e2
        norm_num at e2
        linarith
  have habq : |rs (a * b)| ≤ Q := by
    rcases le_total |a| |b| with hh | hh
    · refine le_trans (abs_rs_mono ?_) hbq
      rw [abs_mul, abs_mul]
      exact mul_le_mul_of_nonneg_right hh (abs_nonneg b)
    · refine le_trans (abs_rs_mono ?_) haq
      rw [abs_mul, abs_mul]
      exact mul_le_mul_of_nonneg_left hh (abs_nonneg a)
  exact ⟨a, b, Q, _, ha, hb, q, n, q0, rs_nonneg (Real.sqrt_nonneg _),
    (le_abs_self _).trans (abs_rs_le (rep_pow _ (by omega) (by omega)) sle), haq, hbq, habq, zn,
    fun h0 => lowN fun h1 => h0 (zn.2 h1), half a hA haq, half b hB hbq⟩

namespace NormFacts
variable {v : Vec2 (B64 lm)} {a b q n : ℝ} {k : ℤ}

theorem normLe (f : NormFacts v a b q n k) : v.norm.Le (k + 1) := ⟨n, f.nm, by rw [abs_of_nonneg f.nm0]; exact f.nmLe⟩

theorem quot {z : B64 lm} {c t : ℝ} {k : ℤ} (hk : -1074 ≤ k) (hk' : k ≤ 1023) (hz : z.Is c) {w : B64 lm} (hw : w.Is t) (h0 : t ≠ 0)
    (hc : |c| ≤ 2 ^ k * |t|) : (z / w).Le k := by
  have hb : |c / t| ≤ 2 ^ k := by rw [abs_div, div_le_iff₀ (abs_pos.2 h0)]; exact hc
  exact ⟨_, hz.div hw h0 (abs_rs_lt_top hk hk' hb), abs_rs_le (rep_pow _ hk hk') hb⟩

/-- the normalised vector -/
theorem unit (f : NormFacts v a b q n k) (h0 : n ≠ 0) : (v.sdiv v.norm).Le 1 :=
  ⟨quot (by norm_num) (by norm_num) f.x f.nm h0 (by rw [abs_of_nonneg f.nm0]; simpa using f.ax h0),
   quot (by norm_num) (by norm_num) f.y f.nm h0 (by rw [abs_of_nonneg f.nm0]; simpa using f.bx h0)⟩

/-- division by a zero norm is not finite -/
theorem unit_zero (f : NormFacts v a b q n k) (h0 : n = 0) :
    Num.isFinite (v.sdiv v.norm).x = false ∧ Num.isFinite (v.sdiv v.norm).y = false := by
  have key : ∀ (z : B64 lm) (c : ℝ), z.Is c → Num.isFinite (z / v.norm) = false := by
    rintro z c ⟨s, m, e, -⟩
    obtain ⟨s', m', e', h1⟩ := f.nm
    have h2 : m'.1 = 0 := by
      rw [h0] at h1
      cases s' <;> simpa [sgn] using h1
    show (z / v.norm).v.isFinite = false
    rw [B64.div_v, e, e']
    simp only [Val.div]
    rw [if_pos h2]
    split_ifs <;> rfl
  exact ⟨key _ _ f.x, key _ _ f.y⟩

theorem jac (f : NormFacts v a b q n k) (h0 : n ≠ 0) (hk : 0 ≤ k) (hk' : k ≤ 500) :
    (normalizeJacobian v).r0.Le 539 ∧ (normalizeJacobian v).r1.Le 539 := by
  have q0 : q ≠ 0 := fun h => h0 (f.zero.2 h)
  have l0 := f.low h0
  have nq : |q| = q := abs_of_nonneg f.sq0
  have nn : 2 ^ (-537 : ℤ) ≤ |n| := by rw [abs_of_nonneg f.nm0]; exact l0
  have bA : |a| ≤ 2 ^ (k + 2) := by
    rw [show k + 2 = 1 + (k + 1) by ring, zpow_add₀ (by norm_num), zpow_one]
    linarith [f.ax h0, f.nmLe]
  have bB : |b| ≤ 2 ^ (k + 2) := by
    rw [show k + 2 = 1 + (k + 1) by ring, zpow_add₀ (by norm_num), zpow_one]
    linarith [f.bx h0, f.nmLe]
  have lt2 : ∀ {u w : ℝ}, |u| ≤ 2 ^ (k + 2) → |w| ≤ 2 ^ (k + 2) → |rs (u * w)| < top := by
    intro u w hu hw
    refine abs_rs_lt_top (k := 2 * k + 4) (by omega) (by omega) ?_
    rw [abs_mul, show 2 * k + 4 = (k + 2) + (k + 2) by ring, zpow_add₀ (by norm_num)]
    exact mul_le_mul hu hw (abs_nonneg w) (two_pos _).le
  have e : ∀ {z z' w : B64 lm} {c c' : ℝ}, z.Is c → z'.Is c' → |c| ≤ 2 ^ (k + 2) → |c'| ≤ 2 ^ (k + 2) →
      |rs (c * c')| ≤ q → w.Le 0 → ((w - z * z' / v.normSq) / v.norm).Le 539 := by
    intro z z' w c c' hz hz' hc hc' hq hw
    have h1 := quot (k := 0) (by norm_num) (by norm_num) (hz.mul hz' (lt2 hc hc')) f.sq q0 (by rw [nq]; simpa using hq)
    exact (hw.sub h1 1 (by norm_num) (by norm_num) (by norm_num) (by norm_num)).divIs f.nm nn 539 (by norm_num) (by norm_num)
      (by norm_num)
  have ba : |rs (b * a)| ≤ q := by rw [mul_comm]; exact f.ab
  exact ⟨⟨e f.x f.x bA bA f.aa .one, e f.x f.y bA bB f.ab .zero⟩, e f.y f.x bB bA ba .zero, e f.y f.y bB bB f.bb .one⟩

end NormFacts

end Isotope
