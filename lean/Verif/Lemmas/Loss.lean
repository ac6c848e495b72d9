import Verif.Lemmas.Exact
import Mathlib.Tactic.LinearCombination
import Mathlib.Tactic.Positivity

/-!
# Closed forms of losses and contributions over the reals
-/

namespace Isotope
open XR

/-- length of a vector -/
noncomputable def hyp (a b : ℝ) : ℝ := Real.sqrt (a * a + b * b)

theorem sq_sum_nonneg (a b : ℝ) : 0 ≤ a * a + b * b := add_nonneg (mul_self_nonneg a) (mul_self_nonneg b)
theorem hyp_nonneg (a b : ℝ) : 0 ≤ hyp a b := Real.sqrt_nonneg _
theorem hyp_mul_self (a b : ℝ) : hyp a b * hyp a b = a * a + b * b := Real.mul_self_sqrt (sq_sum_nonneg a b)
theorem hyp_sq (a b : ℝ) : hyp a b ^ 2 = a * a + b * b := by rw [sq, hyp_mul_self]
theorem hyp_eq_zero {a b : ℝ} : hyp a b = 0 ↔ a = 0 ∧ b = 0 := by
  unfold hyp
  rw [Real.sqrt_eq_zero (sq_sum_nonneg a b)]
  constructor
  · intro h; constructor <;> nlinarith [mul_self_nonneg a, mul_self_nonneg b]
  · rintro ⟨rfl, rfl⟩; simp
theorem hyp_ne_zero {a b : ℝ} : hyp a b ≠ 0 ↔ a ≠ 0 ∨ b ≠ 0 := by rw [Ne, hyp_eq_zero, not_and_or]
theorem hyp_neg (a b : ℝ) : hyp (-a) (-b) = hyp a b := by unfold hyp; congr 1; ring

theorem norm_fin (a b : ℝ) : (⟨fin a, fin b⟩ : Vec2 XR).norm = fin (hyp a b) := by
  simp [Vec2.norm, Vec2.normSq, sq_sum_nonneg, hyp]
theorem normSq_fin (a b : ℝ) : (⟨fin a, fin b⟩ : Vec2 XR).normSq = fin (a * a + b * b) := by simp [Vec2.normSq]
theorem dot_fin (a b c d : ℝ) : (⟨fin a, fin b⟩ : Vec2 XR).dot ⟨fin c, fin d⟩ = fin (a * c + b * d) := by simp [Vec2.dot]
theorem smul_fin (k a b : ℝ) : (⟨fin a, fin b⟩ : Vec2 XR).smul (fin k) = ⟨fin (k * a), fin (k * b)⟩ := by simp [Vec2.smul]
theorem sdiv_fin (a b : ℝ) {k : ℝ} (hk : k ≠ 0) :
    (⟨fin a, fin b⟩ : Vec2 XR).sdiv (fin k) = ⟨fin (a / k), fin (b / k)⟩ := by simp [Vec2.sdiv, hk]
theorem vsub_fin (a b c d : ℝ) : (⟨fin a, fin b⟩ : Vec2 XR) - ⟨fin c, fin d⟩ = ⟨fin (a - c), fin (b - d)⟩ := by
  show (⟨fin a - fin c, fin b - fin d⟩ : Vec2 XR) = _; simp
theorem vadd_fin (a b c d : ℝ) : (⟨fin a, fin b⟩ : Vec2 XR) + ⟨fin c, fin d⟩ = ⟨fin (a + c), fin (b + d)⟩ := rfl
theorem vneg_fin (a b : ℝ) : -(⟨fin a, fin b⟩ : Vec2 XR) = ⟨fin (-a), fin (-b)⟩ := rfl
theorem normalize_fin {a b : ℝ} (hn : hyp a b ≠ 0) :
    (⟨fin a, fin b⟩ : Vec2 XR).normalize = ⟨fin (a / hyp a b), fin (b / hyp a b)⟩ := by
  rw [Vec2.normalize, norm_fin, sdiv_fin _ _ hn]
theorem mul22_id_fin (a b : ℝ) : (⟨fin a, fin b⟩ : Vec2 XR).mul22 pointGradient = ⟨fin a, fin b⟩ := by
  simp [Vec2.mul22, pointGradient]; norm_num

theorem normalizeJacobian_fin {a b : ℝ} (hn : hyp a b ≠ 0) :
    normalizeJacobian (⟨fin a, fin b⟩ : Vec2 XR) =
      ⟨⟨fin ((1 - a * a / (a * a + b * b)) / hyp a b), fin ((0 - a * b / (a * a + b * b)) / hyp a b)⟩,
       ⟨fin ((0 - b * a / (a * a + b * b)) / hyp a b), fin ((1 - b * b / (a * a + b * b)) / hyp a b)⟩⟩ := by
  have hn2 : a * a + b * b ≠ 0 := by rw [← hyp_mul_self]; exact mul_ne_zero hn hn
  simp only [normalizeJacobian, norm_fin, normSq_fin, mul_fin, div_fin_of_ne _ hn2, sci, sub_fin, div_fin_of_ne _ hn]
  norm_num

theorem mul24_ends_fin (a b : ℝ) : (⟨fin a, fin b⟩ : Vec2 XR).mul24 (lineEndGradient - lineStartGradient) =
    ⟨fin (-a), fin (-b), fin a, fin b⟩ := by
  simp [Vec2.mul24, lineEndGradient, lineStartGradient]; norm_num
theorem mul24_start_fin (a b : ℝ) : (⟨fin a, fin b⟩ : Vec2 XR).mul24 lineStartGradient =
    ⟨fin a, fin b, fin 0, fin 0⟩ := by
  simp [Vec2.mul24, lineStartGradient]; norm_num
theorem mul24_end_fin (a b : ℝ) : (⟨fin a, fin b⟩ : Vec2 XR).mul24 lineEndGradient =
    ⟨fin 0, fin 0, fin a, fin b⟩ := by
  simp [Vec2.mul24, lineEndGradient]; norm_num
theorem mul22_fin (a b c d e f : ℝ) : (⟨fin a, fin b⟩ : Vec2 XR).mul22 ⟨⟨fin c, fin d⟩, ⟨fin e, fin f⟩⟩ =
    ⟨fin (a * c + b * e), fin (a * d + b * f)⟩ := by simp [Vec2.mul22]

/-- Cauchy-Schwarz in the plane -/
theorem dot_le_hyp (a b c d : ℝ) : |a * c + b * d| ≤ hyp a b * hyp c d := by
  rw [← Real.sqrt_sq_eq_abs]
  unfold hyp
  rw [← Real.sqrt_mul (sq_sum_nonneg a b)]
  apply Real.sqrt_le_sqrt
  nlinarith [sq_nonneg (a * d - b * c)]

theorem cos_mem {a b c d : ℝ} : -1 ≤ (a * c + b * d) / (hyp a b * hyp c d) ∧ (a * c + b * d) / (hyp a b * hyp c d) ≤ 1 := by
  have h := dot_le_hyp a b c d
  have := abs_le.1 (show |(a * c + b * d) / (hyp a b * hyp c d)| ≤ 1 by
    rw [abs_div, abs_of_nonneg (mul_nonneg (hyp_nonneg _ _) (hyp_nonneg _ _))]
    exact div_le_one_of_le₀ h (mul_nonneg (hyp_nonneg _ _) (hyp_nonneg _ _)))
  exact this

theorem clamp_fin_mem {a : ℝ} (h1 : -1 ≤ a) (h2 : a ≤ 1) : clamp (fin a) (-1.0) (1.0) = fin a := by
  simp only [clamp, sci, neg_fin, lt_fin]
  norm_num
  rw [if_neg (by linarith), if_neg (by linarith)]

/-- the angle between two vectors: `0` if one of them is shorter than `1e-6` -/
noncomputable def angleOf (a b c d : ℝ) : ℝ :=
  if hyp a b < 1e-6 ∨ hyp c d < 1e-6 then 0 else Real.arccos ((a * c + b * d) / (hyp a b * hyp c d))

section
variable {h : Heap XR}

theorem currentAngle_fin {p1 p2 mid : Nat} {x1 y1 x2 y2 x y : ℝ} (e1 : ptData h p1 = ⟨fin x1, fin y1⟩)
    (e2 : ptData h p2 = ⟨fin x2, fin y2⟩) (e : ptData h mid = ⟨fin x, fin y⟩) :
    currentAngle h p1 p2 mid = fin (angleOf (x1 - x) (y1 - y) (x2 - x) (y2 - y)) := by
  unfold currentAngle angleOf
  simp only [e1, e2, e, vsub_fin, norm_fin, dot_fin, abs_fin, abs_of_nonneg (hyp_nonneg _ _), sci, lt_fin,
    Bool.or_eq_true, decide_eq_true_eq, mul_fin]
  split
  · norm_num
  · rename_i hn
    rw [not_or, not_lt, not_lt] at hn
    have hne : hyp (x1 - x) (y1 - y) * hyp (x2 - x) (y2 - y) ≠ 0 := by
      have := hn.1; have := hn.2; apply ne_of_gt; apply mul_pos <;> norm_num at * <;> linarith
    rw [div_fin_of_ne _ hne]
    have cm := cos_mem (a := x1 - x) (b := y1 - y) (c := x2 - x) (d := y2 - y)
    have := clamp_fin_mem cm.1 cm.2
    simp only [sci, neg_fin] at this
    simp only [isFinite_fin, Bool.not_true, Bool.false_eq_true, if_false, neg_fin, this, acos_fin_of_mem cm.1 cm.2]

theorem loss_angle {p1 p2 mid : Nat} {x1 y1 x2 y2 x y D : ℝ} (e1 : ptData h p1 = ⟨fin x1, fin y1⟩)
    (e2 : ptData h p2 = ⟨fin x2, fin y2⟩) (e : ptData h mid = ⟨fin x, fin y⟩) :
    lossValue h (.angle p1 p2 mid (fin D)) = fin ((angleOf (x1 - x) (y1 - y) (x2 - x) (y2 - y) - D) ^ 2 / 2) := by
  simp only [lossValue, currentAngle_fin e1 e2 e, sub_fin, mul_fin, sci]
  congr 1; norm_num; ring

theorem loss_euclid {p1 p2 : Nat} {x1 y1 x2 y2 D : ℝ} (e1 : ptData h p1 = ⟨fin x1, fin y1⟩)
    (e2 : ptData h p2 = ⟨fin x2, fin y2⟩) :
    lossValue h (.euclid p1 p2 (fin D)) = fin ((hyp (x1 - x2) (y1 - y2) - D) ^ 2 / 2) := by
  simp only [lossValue, euclidCurrent, e1, e2, vsub_fin, norm_fin, sub_fin, mul_fin, sci]
  congr 1; norm_num; ring

theorem loss_horiz {p1 p2 : Nat} {x1 y1 x2 y2 D : ℝ} (e1 : ptData h p1 = ⟨fin x1, fin y1⟩)
    (e2 : ptData h p2 = ⟨fin x2, fin y2⟩) :
    lossValue h (.horizDist p1 p2 (fin D)) = fin ((x2 - x1 - D) ^ 2 / 2) := by
  simp only [lossValue, horizCurrent, e1, e2, sub_fin, mul_fin, sci]
  congr 1; norm_num; ring

theorem loss_vert {p1 p2 : Nat} {x1 y1 x2 y2 D : ℝ} (e1 : ptData h p1 = ⟨fin x1, fin y1⟩)
    (e2 : ptData h p2 = ⟨fin x2, fin y2⟩) :
    lossValue h (.vertDist p1 p2 (fin D)) = fin ((y2 - y1 - D) ^ 2 / 2) := by
  simp only [lossValue, vertCurrent, e1, e2, sub_fin, mul_fin, sci]
  congr 1; norm_num; ring

theorem loss_fix {p : Nat} {x y X Y : ℝ} (e : ptData h p = ⟨fin x, fin y⟩) :
    lossValue h (.fix p ⟨fin X, fin Y⟩) = fin (((x - X) ^ 2 + (y - Y) ^ 2) / 2) := by
  simp only [lossValue, e, vsub_fin, normSq_fin, mul_fin, sci]
  congr 1; norm_num; ring

theorem loss_arcEnd {a p : Nat} {x y u v : ℝ} (e : ptData h p = ⟨fin x, fin y⟩)
    (ea : (h.arcs a).endPoint h = ⟨fin u, fin v⟩) :
    lossValue h (.arcEnd a p) = fin (((u - x) ^ 2 + (v - y) ^ 2) / 2) := by
  simp only [lossValue, e, ea, sub_fin, mul_fin, add_fin, sci]
  congr 1; norm_num; ring

theorem loss_arcStart {a p : Nat} {x y u v : ℝ} (e : ptData h p = ⟨fin x, fin y⟩)
    (ea : (h.arcs a).startPoint h = ⟨fin u, fin v⟩) :
    lossValue h (.arcStart a p) = fin (((u - x) ^ 2 + (v - y) ^ 2) / 2) := by
  simp only [lossValue, e, ea, sub_fin, mul_fin, add_fin, sci]
  congr 1; norm_num; ring

theorem loss_horizLine {l : Nat} {x1 y1 x2 y2 : ℝ} (e1 : lineStart h l = ⟨fin x1, fin y1⟩)
    (e2 : lineEnd h l = ⟨fin x2, fin y2⟩) : lossValue h (.horizLine l) = fin ((y2 - y1) ^ 2 / 2) := by
  simp only [lossValue, e1, e2, sub_fin, mul_fin, sci]
  congr 1; norm_num; ring

theorem loss_vertLine {l : Nat} {x1 y1 x2 y2 : ℝ} (e1 : lineStart h l = ⟨fin x1, fin y1⟩)
    (e2 : lineEnd h l = ⟨fin x2, fin y2⟩) : lossValue h (.vertLine l) = fin ((x2 - x1) ^ 2 / 2) := by
  simp only [lossValue, e1, e2, sub_fin, mul_fin, sci]
  congr 1; norm_num; ring

theorem loss_eqLen {l m : Nat} {x1 y1 x2 y2 u1 v1 u2 v2 : ℝ} (e1 : lineStart h l = ⟨fin x1, fin y1⟩)
    (e2 : lineEnd h l = ⟨fin x2, fin y2⟩) (f1 : lineStart h m = ⟨fin u1, fin v1⟩) (f2 : lineEnd h m = ⟨fin u2, fin v2⟩) :
    lossValue h (.eqLen l m) = fin ((hyp (x2 - x1) (y2 - y1) - hyp (u2 - u1) (v2 - v1)) ^ 2 / 2) := by
  simp only [lossValue, e1, e2, f1, f2, vsub_fin, norm_fin, sub_fin, mul_fin, sci]
  congr 1; norm_num; ring

theorem normalize_zero : ∀ a b : ℝ, hyp a b = 0 → (⟨fin a, fin b⟩ : Vec2 XR).normalize = ⟨nan, nan⟩ := by
  intro a b hz
  obtain ⟨rfl, rfl⟩ := hyp_eq_zero.1 hz
  simp [Vec2.normalize, norm_fin, Vec2.sdiv, hz, div_fin, infOf]

/-- sine-like quantity of two directions, `0` if one is degenerate -/
noncomputable def crossOf (a b c d : ℝ) : ℝ := if hyp a b = 0 ∨ hyp c d = 0 then 0 else (a * d - b * c) / (hyp a b * hyp c d)
/-- cosine-like quantity of two directions, `0` if one is degenerate -/
noncomputable def dotOf (a b c d : ℝ) : ℝ := if hyp a b = 0 ∨ hyp c d = 0 then 0 else (a * c + b * d) / (hyp a b * hyp c d)

theorem loss_parallel {l m : Nat} {x1 y1 x2 y2 u1 v1 u2 v2 : ℝ} (e1 : lineStart h l = ⟨fin x1, fin y1⟩)
    (e2 : lineEnd h l = ⟨fin x2, fin y2⟩) (f1 : lineStart h m = ⟨fin u1, fin v1⟩) (f2 : lineEnd h m = ⟨fin u2, fin v2⟩) :
    lossValue h (.parallel l m) = fin (crossOf (x2 - x1) (y2 - y1) (u2 - u1) (v2 - v1) ^ 2 / 2) := by
  simp only [lossValue, e1, e2, f1, f2, vsub_fin, crossOf]
  by_cases h1 : hyp (x2 - x1) (y2 - y1) = 0
  · rw [normalize_zero _ _ h1]; simp [h1]; norm_num
  · by_cases h2 : hyp (u2 - u1) (v2 - v1) = 0
    · rw [normalize_zero _ _ h2]; simp [h2]; norm_num
    · rw [normalize_fin h1, normalize_fin h2]
      simp only [isFinite_fin, Bool.not_true, Bool.or_self, Bool.false_eq_true, if_false, mul_fin, sub_fin, sci]
      rw [if_neg (not_or.2 ⟨h1, h2⟩)]
      congr 1
      norm_num
      field_simp

theorem loss_perp {l m : Nat} {x1 y1 x2 y2 u1 v1 u2 v2 : ℝ} (e1 : lineStart h l = ⟨fin x1, fin y1⟩)
    (e2 : lineEnd h l = ⟨fin x2, fin y2⟩) (f1 : lineStart h m = ⟨fin u1, fin v1⟩) (f2 : lineEnd h m = ⟨fin u2, fin v2⟩) :
    lossValue h (.perp l m) = fin (dotOf (x2 - x1) (y2 - y1) (u2 - u1) (v2 - v1) ^ 2 / 2) := by
  simp only [lossValue, e1, e2, f1, f2, vsub_fin, dotOf]
  by_cases h1 : hyp (x2 - x1) (y2 - y1) = 0
  · rw [normalize_zero _ _ h1]; simp [h1]; norm_num
  · by_cases h2 : hyp (u2 - u1) (v2 - v1) = 0
    · rw [normalize_zero _ _ h2]; simp [h2]; norm_num
    · rw [normalize_fin h1, normalize_fin h2]
      simp only [isFinite_fin, Bool.not_true, Bool.or_self, Bool.false_eq_true, if_false, mul_fin, dot_fin, sci]
      rw [if_neg (not_or.2 ⟨h1, h2⟩)]
      congr 1
      norm_num
      field_simp

end
end Isotope
