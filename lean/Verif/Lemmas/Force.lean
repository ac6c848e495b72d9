import Verif.Lemmas.Loss

/-!
# Closed forms of the contributions to the gradient over the reals
-/

namespace Isotope
open XR

variable {h : Heap XR}

theorem fmax_zero_fin {a : ℝ} (ha : 0 ≤ a) : fmax (fin a) (fin 0) = fin a := by
  simp [fmax, not_lt.2 ha]

/-- first half of the angle force: derivative of the loss in the first arm -/
noncomputable def angleForce (a b c d D : ℝ) : ℝ × ℝ :=
  let n1 := hyp a b
  let n2 := hyp c d
  let co := (a * c + b * d) / (n1 * n2)
  let k := (Real.arccos co - D) * (-1 / Real.sqrt (1 - co * co))
  (k * (1 / (n1 * n2)) * c + k * (-(a * c + b * d) / (n1 * n1 * n2)) * (a / n1),
   k * (1 / (n1 * n2)) * d + k * (-(a * c + b * d) / (n1 * n1 * n2)) * (b / n1))

theorem chunks_angle {p1 p2 mid : Nat} {x1 y1 x2 y2 x y D : ℝ} (e1 : ptData h p1 = ⟨fin x1, fin y1⟩)
    (e2 : ptData h p2 = ⟨fin x2, fin y2⟩) (e : ptData h mid = ⟨fin x, fin y⟩) :
    chunks h (.angle p1 p2 mid (fin D)) =
      let a := x1 - x; let b := y1 - y; let c := x2 - x; let d := y2 - y
      let co := (a * c + b * d) / (hyp a b * hyp c d)
      if (hyp a b < 1e-6 ∨ hyp c d < 1e-6) ∨ co * co = 1 then []
      else
        let f1 := angleForce a b c d D
        let f2 := angleForce c d a b D
        [.point p1 ⟨fin f1.1, fin f1.2⟩, .point p2 ⟨fin f2.1, fin f2.2⟩,
         .point mid ⟨fin (-f1.1 - f2.1), fin (-f1.2 - f2.2)⟩] := by
  simp only [chunks, e1, e2, e, vsub_fin, norm_fin, dot_fin, abs_fin, abs_of_nonneg (hyp_nonneg _ _), sci, lt_fin,
    Bool.or_eq_true, decide_eq_true_eq, mul_fin]
  by_cases hd : hyp (x1 - x) (y1 - y) < 1e-6 ∨ hyp (x2 - x) (y2 - y) < 1e-6
  · simp only [hd, if_true, true_or]
  rw [if_neg hd]
  rw [not_or, not_lt, not_lt] at hd
  have p1 : 0 < hyp (x1 - x) (y1 - y) := lt_of_lt_of_le (by norm_num) hd.1
  have p2 : 0 < hyp (x2 - x) (y2 - y) := lt_of_lt_of_le (by norm_num) hd.2
  have hd' : ¬(hyp (x1 - x) (y1 - y) < 1e-6 ∨ hyp (x2 - x) (y2 - y) < 1e-6) := by
    rw [not_or, not_lt, not_lt]; exact hd
  generalize x1 - x = a at *
  generalize y1 - y = b at *
  generalize x2 - x = c at *
  generalize y2 - y = d at *
  have n1 := p1.ne'
  have n2 := p2.ne'
  have hne : hyp a b * hyp c d ≠ 0 := mul_ne_zero n1 n2
  have hne2 : hyp a b * hyp a b * hyp c d ≠ 0 := mul_ne_zero (mul_ne_zero n1 n1) n2
  have hne3 : hyp a b * hyp c d * hyp c d ≠ 0 := mul_ne_zero hne n2
  rw [div_fin_of_ne _ hne]
  have cm := cos_mem (a := a) (b := b) (c := c) (d := d)
  have hcl := clamp_fin_mem cm.1 cm.2
  have hnn : 0 ≤ 1 - (a * c + b * d) / (hyp a b * hyp c d) * ((a * c + b * d) / (hyp a b * hyp c d)) := by
    nlinarith [cm.1, cm.2]
  simp only [sci, neg_fin] at hcl
  simp only [neg_fin, hcl, acos_fin_of_mem cm.1 cm.2, isFinite_fin, Bool.not_true, Bool.false_eq_true, if_false, mul_fin,
    sub_fin]
  have z : ((0.0 : ℝ)) = 0 := by norm_num
  have o : ((1.0 : ℝ)) = 1 := by norm_num
  simp only [z, o]
  rw [fmax_zero_fin hnn, sqrt_fin_of_nonneg hnn]
  by_cases hco : (a * c + b * d) / (hyp a b * hyp c d) * ((a * c + b * d) / (hyp a b * hyp c d)) = 1
  · rw [if_pos (Or.inr hco), hco]
    simp [div_fin]
  · have hs : Real.sqrt (1 - (a * c + b * d) / (hyp a b * hyp c d) * ((a * c + b * d) / (hyp a b * hyp c d))) ≠ 0 := by
      rw [Real.sqrt_ne_zero hnn]; intro hh; apply hco; linarith
    have hs' : Real.sqrt (1 - (c * a + d * b) / (hyp c d * hyp a b) * ((c * a + d * b) / (hyp c d * hyp a b))) ≠ 0 := by
      rw [mul_comm c a, mul_comm d b, mul_comm (hyp c d)]; exact hs
    rw [if_neg (not_or.2 ⟨hd', hco⟩), div_fin_of_ne _ hs]
    simp only [isFinite_fin, Bool.not_true, Bool.false_eq_true, if_false, mul_fin, div_fin_of_ne _ hne,
      div_fin_of_ne _ hne2, div_fin_of_ne _ hne3, smul_fin, sdiv_fin _ _ n1, sdiv_fin _ _ n2, vadd_fin,
      mul22_id_fin, vneg_fin, vsub_fin]
    have s1 : c * a + d * b = a * c + b * d := by ring
    have s2 : hyp c d * hyp a b = hyp a b * hyp c d := by ring
    have s3 : hyp c d * hyp c d * hyp a b = hyp a b * hyp c d * hyp c d := by ring
    simp only [angleForce, s1, s2, s3]

theorem chunks_euclid {p1 p2 : Nat} {x1 y1 x2 y2 D : ℝ} (e1 : ptData h p1 = ⟨fin x1, fin y1⟩)
    (e2 : ptData h p2 = ⟨fin x2, fin y2⟩) :
    chunks h (.euclid p1 p2 (fin D)) =
      let n := hyp (x1 - x2) (y1 - y2)
      if n < 1e-6 then []
      else [.point p1 ⟨fin ((n - D) * ((x1 - x2) / n)), fin ((n - D) * ((y1 - y2) / n))⟩,
            .point p2 ⟨fin (-((n - D) * ((x1 - x2) / n))), fin (-((n - D) * ((y1 - y2) / n)))⟩] := by
  simp only [chunks, e1, e2, vsub_fin, norm_fin, sci, lt_fin, decide_eq_true_eq]
  split
  · rfl
  · rename_i hn
    have p : hyp (x1 - x2) (y1 - y2) ≠ 0 := (lt_of_lt_of_le (by norm_num) (not_lt.1 hn)).ne'
    have o : ((1.0 : ℝ)) = 1 := by norm_num
    simp only [o, sdiv_fin _ _ p, sub_fin, mul_fin, smul_fin, mul22_id_fin, vneg_fin, mul_one]

theorem chunks_horiz {p1 p2 : Nat} {x1 y1 x2 y2 D : ℝ} (e1 : ptData h p1 = ⟨fin x1, fin y1⟩)
    (e2 : ptData h p2 = ⟨fin x2, fin y2⟩) :
    chunks h (.horizDist p1 p2 (fin D)) =
      [.point p1 ⟨fin (-(x2 - x1 - D)), fin 0⟩, .point p2 ⟨fin (x2 - x1 - D), fin 0⟩] := by
  have z : ((0.0 : ℝ)) = 0 := by norm_num
  have o : ((1.0 : ℝ)) = 1 := by norm_num
  simp only [chunks, e1, e2, vsub_fin, sci, sub_fin, mul_fin, smul_fin, vneg_fin, mul22_id_fin, z, o, mul_one, mul_zero, neg_zero]

theorem chunks_vert {p1 p2 : Nat} {x1 y1 x2 y2 D : ℝ} (e1 : ptData h p1 = ⟨fin x1, fin y1⟩)
    (e2 : ptData h p2 = ⟨fin x2, fin y2⟩) :
    chunks h (.vertDist p1 p2 (fin D)) =
      [.point p1 ⟨fin 0, fin (-(y2 - y1 - D))⟩, .point p2 ⟨fin 0, fin (y2 - y1 - D)⟩] := by
  have z : ((0.0 : ℝ)) = 0 := by norm_num
  have o : ((1.0 : ℝ)) = 1 := by norm_num
  simp only [chunks, e1, e2, vsub_fin, sci, sub_fin, mul_fin, smul_fin, vneg_fin, mul22_id_fin, z, o, mul_one, mul_zero, neg_zero]

theorem chunks_fix {p : Nat} {x y X Y : ℝ} (e : ptData h p = ⟨fin x, fin y⟩) :
    chunks h (.fix p ⟨fin X, fin Y⟩) = [.point p ⟨fin (x - X), fin (y - Y)⟩] := by
  simp only [chunks, e, vsub_fin]

theorem chunks_arcEnd {a p : Nat} {x y cx cy r t0 t1 : ℝ} (e : ptData h p = ⟨fin x, fin y⟩)
    (ec : ptData h (h.arcs a).center = ⟨fin cx, fin cy⟩) (ea : (h.arcs a).data = ⟨fin r, fin t0, fin t1⟩) :
    chunks h (.arcEnd a p) =
      let u := cx + r * Real.cos t1 - x
      let v := cy + r * Real.sin t1 - y
      [.arc a ⟨fin u, fin v, fin (u * Real.cos t1 + v * Real.sin t1), fin 0,
        fin (u * (-r * Real.sin t1) + v * (r * Real.cos t1))⟩, .point p ⟨fin (-u), fin (-v)⟩] := by
  have z : ((0.0 : ℝ)) = 0 := by norm_num
  have o : ((1.0 : ℝ)) = 1 := by norm_num
  simp only [ptData] at ec
  simp only [chunks, Arc.endPoint, Arc.endPointGradient, Arc.radius, Arc.endAngle, e, ec, ea, cos_fin, sin_fin, mul_fin,
    add_fin, sub_fin, vneg_fin, mul22_id_fin, Vec2.mul25, sci, neg_fin, z, o, mul_one, mul_zero, add_zero, zero_add]

theorem chunks_arcStart {a p : Nat} {x y cx cy r t0 t1 : ℝ} (e : ptData h p = ⟨fin x, fin y⟩)
    (ec : ptData h (h.arcs a).center = ⟨fin cx, fin cy⟩) (ea : (h.arcs a).data = ⟨fin r, fin t0, fin t1⟩) :
    chunks h (.arcStart a p) =
      let u := cx + r * Real.cos t0 - x
      let v := cy + r * Real.sin t0 - y
      [.arc a ⟨fin u, fin v, fin (u * Real.cos t0 + v * Real.sin t0),
        fin (u * (-r * Real.sin t0) + v * (r * Real.cos t0)), fin 0⟩, .point p ⟨fin (-u), fin (-v)⟩] := by
  have z : ((0.0 : ℝ)) = 0 := by norm_num
  have o : ((1.0 : ℝ)) = 1 := by norm_num
  simp only [ptData] at ec
  simp only [chunks, Arc.startPoint, Arc.startPointGradient, Arc.radius, Arc.startAngle, e, ec, ea, cos_fin, sin_fin, mul_fin,
    add_fin, sub_fin, vneg_fin, mul22_id_fin, Vec2.mul25, sci, neg_fin, z, o, mul_one, mul_zero, add_zero, zero_add]

section lines
variable {l m : Nat} {x1 y1 x2 y2 u1 v1 u2 v2 : ℝ}

theorem chunks_horizLine (e1 : lineStart h l = ⟨fin x1, fin y1⟩) (e2 : lineEnd h l = ⟨fin x2, fin y2⟩) :
    chunks h (.horizLine l) =
      [.line l ⟨fin 0, fin (-(y2 - y1)), fin 0, fin 0⟩, .line l ⟨fin 0, fin 0, fin 0, fin (y2 - y1)⟩] := by
  have z : ((0.0 : ℝ)) = 0 := by norm_num
  simp only [chunks, e1, e2, sub_fin, sci, vneg_fin, mul24_start_fin, mul24_end_fin, z, neg_zero]

theorem chunks_vertLine (e1 : lineStart h l = ⟨fin x1, fin y1⟩) (e2 : lineEnd h l = ⟨fin x2, fin y2⟩) :
    chunks h (.vertLine l) =
      [.line l ⟨fin (-(x2 - x1)), fin 0, fin 0, fin 0⟩, .line l ⟨fin 0, fin 0, fin (x2 - x1), fin 0⟩] := by
  have z : ((0.0 : ℝ)) = 0 := by norm_num
  simp only [chunks, e1, e2, sub_fin, sci, vneg_fin, mul24_start_fin, mul24_end_fin, z, neg_zero]

theorem sdiv_zero : (⟨fin 0, fin 0⟩ : Vec2 XR).sdiv (fin 0) = ⟨nan, nan⟩ := by
  simp [Vec2.sdiv, div_fin, infOf]

theorem nan_mul (x : XR) : nan * x = nan := by cases x <;> rfl
theorem mul_nan (x : XR) : x * nan = nan := by cases x <;> rfl
theorem nan_add (x : XR) : nan + x = nan := by cases x <;> rfl

theorem chunks_eqLen_bad (e1 : lineStart h l = ⟨fin x1, fin y1⟩) (e2 : lineEnd h l = ⟨fin x2, fin y2⟩)
    (f1 : lineStart h m = ⟨fin u1, fin v1⟩) (f2 : lineEnd h m = ⟨fin u2, fin v2⟩)
    (hb : hyp (x2 - x1) (y2 - y1) = 0 ∨ hyp (u2 - u1) (v2 - v1) = 0) :
    ∃ k ∈ chunks h (.eqLen l m), k.finite = false := by
  simp only [chunks, e1, e2, f1, f2, vsub_fin, norm_fin, sub_fin, vneg_fin]
  rcases hb with hb | hb
  · obtain ⟨q1, q2⟩ := hyp_eq_zero.1 hb
    refine ⟨_, List.mem_cons_self .., ?_⟩
    rw [hb, q1, q2, sdiv_zero]
    simp [Chunk.finite, Vec2.smul, Vec2.mul24, Row4.allFinite, mul_nan, nan_mul, nan_add]
  · obtain ⟨q1, q2⟩ := hyp_eq_zero.1 hb
    refine ⟨_, List.mem_cons_of_mem _ (List.mem_cons_self ..), ?_⟩
    rw [hb, q1, q2, neg_zero, sdiv_zero]
    simp [Chunk.finite, Vec2.smul, Vec2.mul24, Row4.allFinite, mul_nan, nan_mul, nan_add]

theorem chunks_eqLen (e1 : lineStart h l = ⟨fin x1, fin y1⟩) (e2 : lineEnd h l = ⟨fin x2, fin y2⟩)
    (f1 : lineStart h m = ⟨fin u1, fin v1⟩) (f2 : lineEnd h m = ⟨fin u2, fin v2⟩)
    (h1 : hyp (x2 - x1) (y2 - y1) ≠ 0) (h2 : hyp (u2 - u1) (v2 - v1) ≠ 0) :
    chunks h (.eqLen l m) =
      let n1 := hyp (x2 - x1) (y2 - y1)
      let n2 := hyp (u2 - u1) (v2 - v1)
      let a := (n1 - n2) * ((x2 - x1) / n1)
      let b := (n1 - n2) * ((y2 - y1) / n1)
      let c := (n1 - n2) * (-(u2 - u1) / n2)
      let d := (n1 - n2) * (-(v2 - v1) / n2)
      [.line l ⟨fin (-a), fin (-b), fin a, fin b⟩, .line m ⟨fin (-c), fin (-d), fin c, fin d⟩] := by
  simp only [chunks, e1, e2, f1, f2, vsub_fin, norm_fin, sub_fin, vneg_fin, sdiv_fin _ _ h1, sdiv_fin _ _ h2, smul_fin,
    mul24_ends_fin]

/-- derivative of the parallel loss in the first direction -/
noncomputable def crossForce (a b c d : ℝ) : ℝ × ℝ :=
  let n1 := hyp a b
  let n2 := hyp c d
  let cr := a / n1 * (d / n2) - b / n1 * (c / n2)
  let q := a * a + b * b
  (cr * (d / n2) * ((1 - a * a / q) / n1) + cr * (-(c / n2)) * ((0 - b * a / q) / n1),
   cr * (d / n2) * ((0 - a * b / q) / n1) + cr * (-(c / n2)) * ((1 - b * b / q) / n1))

/-- derivative of the perpendicular loss in the first direction -/
noncomputable def dotForce (a b c d : ℝ) : ℝ × ℝ :=
  let n1 := hyp a b
  let n2 := hyp c d
  let dp := a / n1 * (c / n2) + b / n1 * (d / n2)
  let q := a * a + b * b
  (dp * (c / n2) * ((1 - a * a / q) / n1) + dp * (d / n2) * ((0 - b * a / q) / n1),
   dp * (c / n2) * ((0 - a * b / q) / n1) + dp * (d / n2) * ((1 - b * b / q) / n1))

theorem chunks_parallel (e1 : lineStart h l = ⟨fin x1, fin y1⟩) (e2 : lineEnd h l = ⟨fin x2, fin y2⟩)
    (f1 : lineStart h m = ⟨fin u1, fin v1⟩) (f2 : lineEnd h m = ⟨fin u2, fin v2⟩) :
    chunks h (.parallel l m) =
      let a := x2 - x1; let b := y2 - y1; let c := u2 - u1; let d := v2 - v1
      if hyp a b = 0 ∨ hyp c d = 0 then []
      else
        let g1 := crossForce a b c d
        let g2 := crossForce c d a b
        [.line l ⟨fin (-g1.1), fin (-g1.2), fin g1.1, fin g1.2⟩, .line m ⟨fin (-g2.1), fin (-g2.2), fin g2.1, fin g2.2⟩] := by
  simp only [chunks, e1, e2, f1, f2, vsub_fin]
  generalize x2 - x1 = a
  generalize y2 - y1 = b
  generalize u2 - u1 = c
  generalize v2 - v1 = d
  by_cases h1 : hyp a b = 0
  · rw [normalize_zero _ _ h1]; simp [h1]
  · by_cases h2 : hyp c d = 0
    · rw [normalize_zero _ _ h2]; simp [h2]
    · rw [normalize_fin h1, normalize_fin h2]
      simp only [isFinite_fin, Bool.not_true, Bool.or_self, Bool.false_eq_true, if_false]
      rw [if_neg (not_or.2 ⟨h1, h2⟩)]
      simp only [mul_fin, sub_fin, neg_fin, smul_fin, normalizeJacobian_fin h1, normalizeJacobian_fin h2, mul22_fin,
        mul24_ends_fin]
      congr 1
      congr 1
      have k : ∀ p q : ℝ × ℝ, p = q → (⟨fin (-p.1), fin (-p.2), fin p.1, fin p.2⟩ : Row4 XR) = ⟨fin (-q.1), fin (-q.2), fin q.1, fin q.2⟩ := by
        rintro p q rfl; rfl
      congr 1
      refine k (_, _) _ ?_
      unfold crossForce
      ext <;> dsimp only <;> ring

theorem chunks_perp (e1 : lineStart h l = ⟨fin x1, fin y1⟩) (e2 : lineEnd h l = ⟨fin x2, fin y2⟩)
    (f1 : lineStart h m = ⟨fin u1, fin v1⟩) (f2 : lineEnd h m = ⟨fin u2, fin v2⟩) :
    chunks h (.perp l m) =
      let a := x2 - x1; let b := y2 - y1; let c := u2 - u1; let d := v2 - v1
      if hyp a b = 0 ∨ hyp c d = 0 then []
      else
        let g1 := dotForce a b c d
        let g2 := dotForce c d a b
        [.line l ⟨fin (-g1.1), fin (-g1.2), fin g1.1, fin g1.2⟩, .line m ⟨fin (-g2.1), fin (-g2.2), fin g2.1, fin g2.2⟩] := by
  simp only [chunks, e1, e2, f1, f2, vsub_fin]
  generalize x2 - x1 = a
  generalize y2 - y1 = b
  generalize u2 - u1 = c
  generalize v2 - v1 = d
  by_cases h1 : hyp a b = 0
  · rw [normalize_zero _ _ h1]; simp [h1]
  · by_cases h2 : hyp c d = 0
    · rw [normalize_zero _ _ h2]; simp [h2]
    · rw [normalize_fin h1, normalize_fin h2]
      simp only [isFinite_fin, Bool.not_true, Bool.or_self, Bool.false_eq_true, if_false]
      rw [if_neg (not_or.2 ⟨h1, h2⟩)]
      simp only [dot_fin, smul_fin, normalizeJacobian_fin h1, normalizeJacobian_fin h2, mul22_fin, mul24_ends_fin]
      congr 1
      congr 1
      have k : ∀ p q : ℝ × ℝ, p = q → (⟨fin (-p.1), fin (-p.2), fin p.1, fin p.2⟩ : Row4 XR) = ⟨fin (-q.1), fin (-q.2), fin q.1, fin q.2⟩ := by
        rintro p q rfl; rfl
      congr 1
      refine k (_, _) _ ?_
      unfold dotForce
      ext <;> dsimp only <;> ring

end lines
end Isotope
