import Verif.Lemmas.FloatGrad

/-!
# The contributions of each kind of constraint are close to the exact ones
-/

namespace Isotope
open Round Val XR

variable {lm : Libm} {η : ℝ} {h : Heap (B64 lm)}

/-- the scale of the contributions of a constraint -/
noncomputable def scaleOf (h : Heap (B64 lm)) (c : Constraint (B64 lm)) : ℝ :=
  (spanOf h c + 2 ^ (-100 : ℤ)) * slopeOf h c * badness h c ^ 3

/-- all entries of the contributions of a constraint are close to the exact ones -/
def NearCons (η : ℝ) (h : Heap (B64 lm)) (c : Constraint (B64 lm)) : Prop :=
  List.Forall₂ (NearEntry η (8 * scaleOf h c) 480) ((chunks h c).flatMap (Chunk.entries h)) (contribs h.exact c.exact)

theorem near_of (hη : ErrUnit η) {x : B64 lm} {d : Dof} {r A S k : ℝ} {m : ℕ} (hx : x.Ap η r A k m) (hA : A ≤ S) (hS : S ≤ 2 ^ (300 : ℤ))
    (hk : k ≤ 480) (hm : m ≤ 300) : NearEntry η S 480 (d, x) (d, r) := ⟨rfl, hx.mono hη hA hS 480 hk hm⟩

theorem two_mul_two {a b : ℤ} : (2 : ℝ) ^ a * 2 ^ b = 2 ^ (a + b) := (zpow_add₀ (by norm_num) a b).symm

theorem scale_le {sp sl bd : ℝ} (h1 : 0 ≤ sp) (h2 : sp ≤ 2 ^ (104 : ℤ)) (h3 : 0 ≤ sl) (h4 : sl ≤ 2 ^ (102 : ℤ)) (h5 : 0 ≤ bd) (h6 : bd ≤ 2 ^ (5 : ℤ)) :
    8 * ((sp + 2 ^ (-100 : ℤ)) * sl * bd ^ 3) ≤ 2 ^ (300 : ℤ) := by
  have a1 : sp + 2 ^ (-100 : ℤ) ≤ 2 ^ (105 : ℤ) := by
    have : (2 : ℝ) ^ (-100 : ℤ) ≤ 2 ^ (104 : ℤ) := two_le (by norm_num)
    have e : (2 : ℝ) ^ (104 : ℤ) + 2 ^ (104 : ℤ) = 2 ^ (105 : ℤ) := two_double
    linarith
  have a0 : 0 ≤ sp + 2 ^ (-100 : ℤ) := by have := two_pos (-100); linarith
  have b1 : bd ^ 3 ≤ 2 ^ (15 : ℤ) := by
    calc bd ^ 3 ≤ ((2 : ℝ) ^ (5 : ℤ)) ^ 3 := pow_le_pow_left₀ h5 h6 3
      _ = 2 ^ (15 : ℤ) := by norm_num
  have c1 : (sp + 2 ^ (-100 : ℤ)) * sl ≤ 2 ^ (207 : ℤ) := by
    calc _ ≤ (2 : ℝ) ^ (105 : ℤ) * 2 ^ (102 : ℤ) := mul_le_mul a1 h4 h3 (two_pos _).le
      _ = _ := by rw [two_mul_two]; norm_num
  calc 8 * ((sp + 2 ^ (-100 : ℤ)) * sl * bd ^ 3) ≤ 8 * ((2 : ℝ) ^ (207 : ℤ) * 2 ^ (15 : ℤ)) :=
        mul_le_mul_of_nonneg_left (mul_le_mul c1 b1 (pow_nonneg h5 3) (two_pos _).le) (by norm_num)
    _ = 2 ^ (3 : ℤ) * 2 ^ (222 : ℤ) := by rw [two_mul_two]; norm_num
    _ = 2 ^ (225 : ℤ) := by rw [two_mul_two]; norm_num
    _ ≤ 2 ^ (300 : ℤ) := two_le (by norm_num)

theorem abs_param {D : B64 lm} {d : ℝ} (hD : D.Is d) : |D.real| = |d| := by rw [hD.real]

/-- sums of numbers up to `2^100` -/
theorem le104 {t : ℝ} {n : ℝ} (hn : n ≤ 16) (ht : t ≤ n * 2 ^ (100 : ℤ)) : t ≤ 2 ^ (104 : ℤ) := by
  have e : (2 : ℝ) ^ (104 : ℤ) = 16 * 2 ^ (100 : ℤ) := by
    rw [show (104 : ℤ) = 4 + 100 by norm_num, ← two_mul_two]; norm_num
  rw [e]
  have := two_pos 100
  nlinarith

theorem one_le102 : (1 : ℝ) ≤ 2 ^ (102 : ℤ) := by
  have : (2 : ℝ) ^ (0 : ℤ) ≤ 2 ^ (102 : ℤ) := two_le (by norm_num)
  simpa using this

theorem one_le5 : (1 : ℝ) ≤ 2 ^ (5 : ℤ) := by norm_num

section kinds

theorem near_fix (hη : ErrUnit η) {p : Nat} {D : Vec2 (B64 lm)} (hm : ModestCons h (.fix p D)) : NearCons η h (.fix p D) := by
  obtain ⟨x, y, q⟩ := hm.pt (p := p) (by simp [consDeps, consFields, primFields])
  obtain ⟨X, hX, bX⟩ := hm.2 D.x (by simp [consParams])
  obtain ⟨Y, hY, bY⟩ := hm.2 D.y (by simp [consParams])
  have gx := gap_ap hη q.ix hX q.bx bX
  have gy := gap_ap hη q.iy hY q.bY bY
  have es : scaleOf h (.fix p D) = (|x - X| + |y - Y| + 2 ^ (-100 : ℤ)) * 1 * 1 ^ 3 := by
    simp only [scaleOf, spanOf, slopeOf, badness, q.xOf, q.yOf, hX.real, hY.real]
  have hS : 8 * scaleOf h (.fix p D) ≤ 2 ^ (300 : ℤ) := by
    rw [es]
    refine scale_le (by positivity) (le104 (n := 4) (by norm_num) ?_) (by norm_num) one_le102 (by norm_num) one_le5
    have h1 := abs_sub x X
    have h2 := abs_sub y Y
    have := q.bx; have := q.bY
    linarith
  have e : contribs h.exact (Constraint.exact (.fix p D)) = [(.px p, x - X), (.py p, y - Y)] := by
    simp only [contribs, Constraint.exact, Vec2.exact, hX.exact, hY.exact, chunks_fix q.exact]
    simp [Chunk.contrib]
  unfold NearCons
  rw [e]
  have hp := two_pos (-101)
  have hp' := two_pos (-100)
  have e2 : (2 : ℝ) ^ (-101 : ℤ) + 2 ^ (-101 : ℤ) = 2 ^ (-100 : ℤ) := two_double
  refine .cons (near_of hη gx ?_ hS (by norm_num) (by norm_num)) (.cons (near_of hη gy ?_ hS (by norm_num) (by norm_num)) .nil)
  · rw [es]; linarith [abs_nonneg (x - X), abs_nonneg (y - Y)]
  · rw [es]; linarith [abs_nonneg (x - X), abs_nonneg (y - Y)]

/-- two points pushed apart along an axis -/
theorem resid_ap (hη : ErrUnit η) {X Y D : B64 lm} {x y d : ℝ} (hX : X.Is x) (hY : Y.Is y) (bx : |x| ≤ 2 ^ (100 : ℤ)) (bY : |y| ≤ 2 ^ (100 : ℤ))
    (hD : D.Is d) (hd : |d| ≤ 2 ^ (100 : ℤ)) : ((X - Y - D) * (1.0 : B64 lm)).Ap η (x - y - d) (|x - y| + |d| + 2 ^ (-100 : ℤ)) 3 103 := by
  have e2 : (2 : ℝ) ^ (-101 : ℤ) + 2 ^ (-101 : ℤ) = 2 ^ (-100 : ℤ) := two_double
  refine (((gap_ap hη hX hY bx bY).sub hη (param_ap hD hd 102 (by norm_num)) 103 3 (by norm_num) (by norm_num) (by norm_num) (by norm_num)
    (by norm_num)).mul_one B64.is_one).congr rfl (by rw [← e2]; ring)

/-- a row with one entry -/
theorem one_zero (hη : ErrUnit η) {x : B64 lm} {r S : ℝ} {k : ℝ} {m : ℕ} (hx : x.Ap η r S k m) :
    (x * 1.0).Ap η r S k m ∧ (x * 0.0).Ap η 0 S k m := by
  obtain ⟨v, h1, h2, h3, h4, h5, h6⟩ := id hx
  refine ⟨hx.mul_one B64.is_one, 0, B64.Ap.is_mul_zero h1 B64.is_zero, ?_, by simpa using hx.scale_pos.le, h4, h5, h6⟩
  rw [sub_self, abs_zero]
  exact mul_nonneg (mul_nonneg h6 hη.pos.le) hx.scale_pos.le

theorem near_horiz (hη : ErrUnit η) {p q : Nat} {D : B64 lm} (hm : ModestCons h (.horizDist p q D)) : NearCons η h (.horizDist p q D) := by
  obtain ⟨x, y, P⟩ := hm.pt (p := p) (by simp [consDeps, consFields, primFields])
  obtain ⟨u, v, Q⟩ := hm.pt (p := q) (by simp [consDeps, consFields, primFields])
  obtain ⟨d, hD, bD⟩ := hm.2 D (by simp [consParams])
  obtain ⟨g1, g0⟩ := one_zero hη (resid_ap hη Q.ix P.ix Q.bx P.bx hD bD)
  have es : scaleOf h (.horizDist p q D) = (|u - x| + |d| + 2 ^ (-100 : ℤ)) * 1 * 1 ^ 3 := by
    simp only [scaleOf, spanOf, slopeOf, badness, P.xOf, Q.xOf, hD.real]
  have hS : 8 * scaleOf h (.horizDist p q D) ≤ 2 ^ (300 : ℤ) := by
    rw [es]
    refine scale_le (by positivity) (le104 (n := 3) (by norm_num) ?_) (by norm_num) one_le102 (by norm_num) one_le5
    have h1 := abs_sub u x
    have := P.bx; have := Q.bx
    linarith
  have e : contribs h.exact (Constraint.exact (.horizDist p q D)) =
      [(.px p, -(u - x - d)), (.py p, -0), (.px q, u - x - d), (.py q, 0)] := by
    simp only [contribs, Constraint.exact, hD.exact, chunks_horiz P.exact Q.exact]
    simp [Chunk.contrib]
  unfold NearCons
  rw [e]
  have hp := two_pos (-100)
  have hA : |u - x| + |d| + 2 ^ (-100 : ℤ) ≤ 8 * scaleOf h (.horizDist p q D) := by
    rw [es]; linarith [abs_nonneg (u - x), abs_nonneg d]
  obtain ⟨a1, a2⟩ := point_entries (g := -(⟨1.0, 0.0⟩ : Vec2 (B64 lm)).smul (((ptData h q - ptData h p).x - D) * (1.0 : B64 lm))) g1.neg g0.neg
  obtain ⟨a3, a4⟩ := point_entries (g := (⟨1.0, 0.0⟩ : Vec2 (B64 lm)).smul (((ptData h q - ptData h p).x - D) * (1.0 : B64 lm))) g1 g0
  exact .cons (near_of hη a1 hA hS (by norm_num) (by norm_num)) (.cons (near_of hη a2 hA hS (by norm_num) (by norm_num))
    (.cons (near_of hη a3 hA hS (by norm_num) (by norm_num)) (.cons (near_of hη a4 hA hS (by norm_num) (by norm_num)) .nil)))

theorem near_vert (hη : ErrUnit η) {p q : Nat} {D : B64 lm} (hm : ModestCons h (.vertDist p q D)) : NearCons η h (.vertDist p q D) := by
  obtain ⟨x, y, P⟩ := hm.pt (p := p) (by simp [consDeps, consFields, primFields])
  obtain ⟨u, v, Q⟩ := hm.pt (p := q) (by simp [consDeps, consFields, primFields])
  obtain ⟨d, hD, bD⟩ := hm.2 D (by simp [consParams])
  obtain ⟨g1, g0⟩ := one_zero hη (resid_ap hη Q.iy P.iy Q.bY P.bY hD bD)
  have es : scaleOf h (.vertDist p q D) = (|v - y| + |d| + 2 ^ (-100 : ℤ)) * 1 * 1 ^ 3 := by
    simp only [scaleOf, spanOf, slopeOf, badness, P.yOf, Q.yOf, hD.real]
  have hS : 8 * scaleOf h (.vertDist p q D) ≤ 2 ^ (300 : ℤ) := by
    rw [es]
    refine scale_le (by positivity) (le104 (n := 3) (by norm_num) ?_) (by norm_num) one_le102 (by norm_num) one_le5
    have h1 := abs_sub v y
    have := P.bY; have := Q.bY
    linarith
  have e : contribs h.exact (Constraint.exact (.vertDist p q D)) =
      [(.px p, -0), (.py p, -(v - y - d)), (.px q, 0), (.py q, v - y - d)] := by
    simp only [contribs, Constraint.exact, hD.exact, chunks_vert P.exact Q.exact]
    simp [Chunk.contrib]
  unfold NearCons
  rw [e]
  have hp := two_pos (-100)
  have hA : |v - y| + |d| + 2 ^ (-100 : ℤ) ≤ 8 * scaleOf h (.vertDist p q D) := by
    rw [es]; linarith [abs_nonneg (v - y), abs_nonneg d]
  obtain ⟨a1, a2⟩ := point_entries (g := -(⟨0.0, 1.0⟩ : Vec2 (B64 lm)).smul (((ptData h q - ptData h p).y - D) * (1.0 : B64 lm))) g0.neg g1.neg
  obtain ⟨a3, a4⟩ := point_entries (g := (⟨0.0, 1.0⟩ : Vec2 (B64 lm)).smul (((ptData h q - ptData h p).y - D) * (1.0 : B64 lm))) g0 g1
  exact .cons (near_of hη a1 hA hS (by norm_num) (by norm_num)) (.cons (near_of hη a2 hA hS (by norm_num) (by norm_num))
    (.cons (near_of hη a3 hA hS (by norm_num) (by norm_num)) (.cons (near_of hη a4 hA hS (by norm_num) (by norm_num)) .nil)))

theorem zero_at {S : ℝ} {m : ℕ} (h1 : 2 ^ (-(m : ℤ)) ≤ S) (h2 : S ≤ 2 ^ (m : ℤ)) : (0.0 : B64 lm).Ap η 0 S 0 m :=
  .of_is B64.is_zero (by rw [abs_zero]; exact (two_pos _).le.trans h1) h1 h2

theorem near_horizLine (hη : ErrUnit η) {l : Nat} (hm : ModestCons h (.horizLine l)) : NearCons η h (.horizLine l) := by
  obtain ⟨x, y, u, v, P, Q⟩ := hm.line (l := l) (by simp [consFields])
  have g := gap_ap hη P.iy Q.iy P.bY Q.bY
  obtain ⟨-, -, -, -, r1, r2, -⟩ := id g
  have z := (zero_at (lm := lm) (η := η) r1 r2).more hη 1 102 (by norm_num) le_rfl
  have es : scaleOf h (.horizLine l) = (|y - v| + 2 ^ (-100 : ℤ)) * 1 * 1 ^ 3 := by
    simp only [scaleOf, spanOf, slopeOf, badness, P.yOf, Q.yOf]
  have hS : 8 * scaleOf h (.horizLine l) ≤ 2 ^ (300 : ℤ) := by
    rw [es]
    refine scale_le (by positivity) (le104 (n := 2) (by norm_num) ?_) (by norm_num) one_le102 (by norm_num) one_le5
    have h1 := abs_sub y v
    have := P.bY; have := Q.bY
    linarith
  have e : contribs h.exact (Constraint.exact (lm := lm) (.horizLine l)) =
      [(.px (h.lines l).start, -0), (.py (h.lines l).start, -(y - v)), (.px (h.lines l).stop, 0), (.py (h.lines l).stop, 0),
       (.px (h.lines l).start, 0), (.py (h.lines l).start, 0), (.px (h.lines l).stop, 0), (.py (h.lines l).stop, y - v)] := by
    have e1 : lineStart h.exact l = ⟨fin u, fin v⟩ := Q.exact
    have e2 : lineEnd h.exact l = ⟨fin x, fin y⟩ := P.exact
    simp only [contribs, Constraint.exact, chunks_horizLine e1 e2]
    simp [Chunk.contrib, Heap.exact]
  unfold NearCons
  rw [e]
  have hp := two_pos (-101)
  have e2 : (2 : ℝ) ^ (-101 : ℤ) + 2 ^ (-101 : ℤ) = 2 ^ (-100 : ℤ) := two_double
  have hA : |y - v| + 2 ^ (-101 : ℤ) ≤ 8 * scaleOf h (.horizLine l) := by
    rw [es]; linarith [abs_nonneg (y - v)]
  obtain ⟨a1, a2, a3, a4⟩ := start_entries (g := -(⟨0.0, (lineEnd h l).y - (lineStart h l).y⟩ : Vec2 (B64 lm))) hη z.neg g.neg
  obtain ⟨b1, b2, b3, b4⟩ := stop_entries (g := (⟨0.0, (lineEnd h l).y - (lineStart h l).y⟩ : Vec2 (B64 lm))) hη z g
  have f := fun {w : B64 lm} {d : Dof} {r : ℝ} (hw : w.Ap η r (|y - v| + 2 ^ (-101 : ℤ)) 1 102) =>
    near_of (d := d) hη hw hA hS (by norm_num) (by norm_num)
  exact .cons (f a1) (.cons (f a2) (.cons (f a3) (.cons (f a4) (.cons (f b1) (.cons (f b2) (.cons (f b3) (.cons (f b4) .nil)))))))

theorem near_vertLine (hη : ErrUnit η) {l : Nat} (hm : ModestCons h (.vertLine l)) : NearCons η h (.vertLine l) := by
  obtain ⟨x, y, u, v, P, Q⟩ := hm.line (l := l) (by simp [consFields])
  have g := gap_ap hη P.ix Q.ix P.bx Q.bx
  obtain ⟨-, -, -, -, r1, r2, -⟩ := id g
  have z := (zero_at (lm := lm) (η := η) r1 r2).more hη 1 102 (by norm_num) le_rfl
  have es : scaleOf h (.vertLine l) = (|x - u| + 2 ^ (-100 : ℤ)) * 1 * 1 ^ 3 := by
    simp only [scaleOf, spanOf, slopeOf, badness, P.xOf, Q.xOf]
  have hS : 8 * scaleOf h (.vertLine l) ≤ 2 ^ (300 : ℤ) := by
    rw [es]
    refine scale_le (by positivity) (le104 (n := 2) (by norm_num) ?_) (by norm_num) one_le102 (by norm_num) one_le5
    have h1 := abs_sub x u
    have := P.bx; have := Q.bx
    linarith
  have e : contribs h.exact (Constraint.exact (lm := lm) (.vertLine l)) =
      [(.px (h.lines l).start, -(x - u)), (.py (h.lines l).start, -0), (.px (h.lines l).stop, 0), (.py (h.lines l).stop, 0),
       (.px (h.lines l).start, 0), (.py (h.lines l).start, 0), (.px (h.lines l).stop, x - u), (.py (h.lines l).stop, 0)] := by
    have e1 : lineStart h.exact l = ⟨fin u, fin v⟩ := Q.exact
    have e2 : lineEnd h.exact l = ⟨fin x, fin y⟩ := P.exact
    simp only [contribs, Constraint.exact, chunks_vertLine e1 e2]
    simp [Chunk.contrib, Heap.exact]
  unfold NearCons
  rw [e]
  have hp := two_pos (-101)
  have e2 : (2 : ℝ) ^ (-101 : ℤ) + 2 ^ (-101 : ℤ) = 2 ^ (-100 : ℤ) := two_double
  have hA : |x - u| + 2 ^ (-101 : ℤ) ≤ 8 * scaleOf h (.vertLine l) := by
    rw [es]; linarith [abs_nonneg (x - u)]
  obtain ⟨a1, a2, a3, a4⟩ := start_entries (g := -(⟨(lineEnd h l).x - (lineStart h l).x, 0.0⟩ : Vec2 (B64 lm))) hη g.neg z.neg
  obtain ⟨b1, b2, b3, b4⟩ := stop_entries (g := (⟨(lineEnd h l).x - (lineStart h l).x, 0.0⟩ : Vec2 (B64 lm))) hη g z
  have f := fun {w : B64 lm} {d : Dof} {r : ℝ} (hw : w.Ap η r (|x - u| + 2 ^ (-101 : ℤ)) 1 102) =>
    near_of (d := d) hη hw hA hS (by norm_num) (by norm_num)
  exact .cons (f a1) (.cons (f a2) (.cons (f a3) (.cons (f a4) (.cons (f b1) (.cons (f b2) (.cons (f b3) (.cons (f b4) .nil)))))))

theorem micro' : ∃ r : ℝ, (1e-6 : B64 lm).Is r ∧ r ≤ 3 * 2 ^ (-21 : ℤ) := by
  have hp : (0 : ℝ) ≤ OfScientific.ofScientific 1 true 6 := by norm_num
  have hl : |(OfScientific.ofScientific 1 true 6 : ℝ)| ≤ 2 ^ (0 : ℤ) := by rw [abs_of_nonneg hp]; norm_num
  refine ⟨_, B64.Is.lit 1 true 6 (abs_rs_lt_top (by norm_num) (by norm_num) hl) hp, ?_⟩
  have hr : Rep (3 * 2 ^ (-21 : ℤ)) := ⟨3, -21, by norm_num, by norm_num, by norm_num, by norm_num⟩
  exact (le_abs_self _).trans (abs_rs_le hr (by rw [abs_of_nonneg hp]; norm_num))

/-- a distance well above the threshold is not cut off -/
theorem Dir.not_lt (hη : ErrUnit η) {d : Vec2 (B64 lm)} {a b : ℝ} (hd : Dir η d a b) (hL : 2 ^ (-19 : ℤ) ≤ hyp a b) :
    (d.norm <. (1e-6 : B64 lm)) = false ∧ (Num.abs d.norm <. (1e-6 : B64 lm)) = false := by
  obtain ⟨v, h1, h2, -⟩ := hd.n
  obtain ⟨r, h3, h4⟩ := micro' (lm := lm)
  obtain ⟨-, h5⟩ := hη.small (k := 14) (by norm_num) (by norm_num)
  have hlow : r < v := by
    have := (abs_le.1 h2).1
    have h6 : 14 * η * hyp a b ≤ 1 / 16777216 * hyp a b := mul_le_mul_of_nonneg_right h5 hd.pos.le
    norm_num at hL h4
    linarith
  have hv : |v| = v := abs_of_nonneg (by
    have := (abs_le.1 h2).1
    have h6 : 14 * η * hyp a b ≤ 1 / 16777216 * hyp a b := mul_le_mul_of_nonneg_right h5 hd.pos.le
    linarith [hd.pos])
  constructor
  · rw [Bool.eq_false_iff, Ne, h1.lt_iff h3]; linarith
  · rw [Bool.eq_false_iff, Ne, h1.abs.lt_iff h3, hv]; linarith

theorem far_hyp {x y u v : ℝ} (bx : |x| ≤ 2 ^ (100 : ℤ)) (bY : |y| ≤ 2 ^ (100 : ℤ)) (bu : |u| ≤ 2 ^ (100 : ℤ)) (bv : |v| ≤ 2 ^ (100 : ℤ)) :
    hyp (x - u) (y - v) ≤ 4 * 2 ^ (100 : ℤ) := by
  refine (hyp_le _ _).trans ?_
  have h1 := abs_sub x u
  have h2 := abs_sub y v
  linarith

theorem near_euclid (hη : ErrUnit η) {p q : Nat} {D : B64 lm} (hm : ModestCons h (.euclid p q D)) (hc : Clear h (.euclid p q D)) :
    NearCons η h (.euclid p q D) := by
  obtain ⟨x, y, P⟩ := hm.pt (p := p) (by simp [consDeps, consFields, primFields])
  obtain ⟨u, v, Q⟩ := hm.pt (p := q) (by simp [consDeps, consFields, primFields])
  obtain ⟨d, hD, bD⟩ := hm.2 D (by simp [consParams])
  simp only [Clear, P.distOf Q] at hc
  have hd := P.dir hη Q ((two_le (by norm_num)).trans hc)
  obtain ⟨u1, u2⟩ := hd.unit hη
  have g := ((hd.n.sub hη ((param_ap hD bD 102 (by norm_num))) 103 16 (by norm_num) (by norm_num) (by norm_num) (by norm_num)
    (by norm_num)).mul_one B64.is_one)
  have es : scaleOf h (.euclid p q D) = (hyp (x - u) (y - v) + |d| + 2 ^ (-100 : ℤ)) * 1 * 1 ^ 3 := by
    simp only [scaleOf, spanOf, slopeOf, badness, P.distOf Q, hD.real]
  have hS : 8 * scaleOf h (.euclid p q D) ≤ 2 ^ (300 : ℤ) := by
    rw [es]
    refine scale_le (by have := hyp_nonneg (x - u) (y - v); positivity) (le104 (n := 5) (by norm_num) ?_) (by norm_num) one_le102 (by norm_num) one_le5
    have := far_hyp P.bx P.bY Q.bx Q.bY
    linarith
  have g1 := (g.mul hη u1 103 35 (by norm_num) (by norm_num) (by norm_num) (by norm_num)).congr rfl (mul_one _)
  have g2 := (g.mul hη u2 103 35 (by norm_num) (by norm_num) (by norm_num) (by norm_num)).congr rfl (mul_one _)
  have e : contribs h.exact (Constraint.exact (.euclid p q D)) =
      let n := hyp (x - u) (y - v)
      [(.px p, (n - d) * ((x - u) / n)), (.py p, (n - d) * ((y - v) / n)), (.px q, -((n - d) * ((x - u) / n))), (.py q, -((n - d) * ((y - v) / n)))] := by
    have hn : ¬hyp (x - u) (y - v) < 1e-6 := by
      have h1 : (2 : ℝ) ^ (-19 : ℤ) ≤ hyp (x - u) (y - v) := hc
      norm_num at h1 ⊢
      linarith
    simp only [contribs, Constraint.exact, hD.exact, chunks_euclid P.exact Q.exact, if_neg hn]
    simp [Chunk.contrib]
  unfold NearCons
  rw [e]
  have hp := two_pos (-101)
  have e2 : (2 : ℝ) ^ (-101 : ℤ) + 2 ^ (-101 : ℤ) = 2 ^ (-100 : ℤ) := two_double
  have hA : hyp (x - u) (y - v) + (|d| + 2 ^ (-101 : ℤ)) ≤ 8 * scaleOf h (.euclid p q D) := by
    rw [es]; linarith [hd.pos, abs_nonneg d]
  simp only [chunks, (hd.not_lt hη hc).1, Bool.false_eq_true, if_false]
  obtain ⟨a1, a2⟩ := point_entries (g := ((ptData h p - ptData h q).sdiv (ptData h p - ptData h q).norm).smul
    (((ptData h p - ptData h q).norm - D) * (1.0 : B64 lm))) g1 g2
  obtain ⟨a3, a4⟩ := point_entries (g := -((ptData h p - ptData h q).sdiv (ptData h p - ptData h q).norm).smul
    (((ptData h p - ptData h q).norm - D) * (1.0 : B64 lm))) g1.neg g2.neg
  exact .cons (near_of hη a1 hA hS (by norm_num) (by norm_num)) (.cons (near_of hη a2 hA hS (by norm_num) (by norm_num))
    (.cons (near_of hη a3 hA hS (by norm_num) (by norm_num)) (.cons (near_of hη a4 hA hS (by norm_num) (by norm_num)) .nil)))

theorem near_eqLen (hη : ErrUnit η) {l k : Nat} (hm : ModestCons h (.eqLen l k)) (hc : Clear h (.eqLen l k)) : NearCons η h (.eqLen l k) := by
  obtain ⟨x, y, u, v, P, Q⟩ := hm.line (l := l) (by simp [consFields])
  obtain ⟨x', y', u', v', P', Q'⟩ := hm.line (l := k) (by simp [consFields])
  simp only [Clear, lenOf, P.distOf Q, P'.distOf Q'] at hc
  have hd := P.dir hη Q hc.1
  have hd' := P'.dir hη Q' hc.2
  obtain ⟨u1, u2⟩ := hd.unit hη
  obtain ⟨w1, w2⟩ := hd'.unit hη
  have g := hd.n.sub hη hd'.n 103 16 (by norm_num) (by norm_num) (by norm_num) (by norm_num) (by norm_num)
  have es : scaleOf h (.eqLen l k) = (hyp (x - u) (y - v) + hyp (x' - u') (y' - v') + 2 ^ (-100 : ℤ)) * 1 * 1 ^ 3 := by
    simp only [scaleOf, spanOf, slopeOf, badness, lenOf, P.distOf Q, P'.distOf Q']
  have hS : 8 * scaleOf h (.eqLen l k) ≤ 2 ^ (300 : ℤ) := by
    rw [es]
    refine scale_le (by have := hd.pos; have := hd'.pos; positivity) (le104 (n := 8) (by norm_num) ?_) (by norm_num) one_le102 (by norm_num) one_le5
    have := far_hyp P.bx P.bY Q.bx Q.bY
    have := far_hyp P'.bx P'.bY Q'.bx Q'.bY
    linarith
  have w1' := hd'.x.neg.div hη hd'.n 204 17 (by norm_num) (by norm_num) (by norm_num) (by norm_num)
  have w2' := hd'.y.neg.div hη hd'.n 204 17 (by norm_num) (by norm_num) (by norm_num) (by norm_num)
  have w1'' := (w1'.congr rfl (div_self hd'.pos.ne')).range 0 (by norm_num) (by norm_num)
  have w2'' := (w2'.congr rfl (div_self hd'.pos.ne')).range 0 (by norm_num) (by norm_num)
  have g1 := (g.mul hη u1 103 35 (by norm_num) (by norm_num) (by norm_num) (by norm_num)).congr rfl (mul_one _)
  have g2 := (g.mul hη u2 103 35 (by norm_num) (by norm_num) (by norm_num) (by norm_num)).congr rfl (mul_one _)
  have k1 := (g.mul hη w1'' 103 35 (by norm_num) (by norm_num) (by norm_num) (by norm_num)).congr rfl (mul_one _)
  have k2 := (g.mul hη w2'' 103 35 (by norm_num) (by norm_num) (by norm_num) (by norm_num)).congr rfl (mul_one _)
  have e : contribs h.exact (Constraint.exact (lm := lm) (.eqLen l k)) =
      let n1 := hyp (x - u) (y - v)
      let n2 := hyp (x' - u') (y' - v')
      let a := (n1 - n2) * ((x - u) / n1)
      let b := (n1 - n2) * ((y - v) / n1)
      let c := (n1 - n2) * (-(x' - u') / n2)
      let d := (n1 - n2) * (-(y' - v') / n2)
      [(.px (h.lines l).start, -a), (.py (h.lines l).start, -b), (.px (h.lines l).stop, a), (.py (h.lines l).stop, b),
       (.px (h.lines k).start, -c), (.py (h.lines k).start, -d), (.px (h.lines k).stop, c), (.py (h.lines k).stop, d)] := by
    have e1 : lineStart h.exact l = ⟨fin u, fin v⟩ := Q.exact
    have e2 : lineEnd h.exact l = ⟨fin x, fin y⟩ := P.exact
    have e3 : lineStart h.exact k = ⟨fin u', fin v'⟩ := Q'.exact
    have e4 : lineEnd h.exact k = ⟨fin x', fin y'⟩ := P'.exact
    simp only [contribs, Constraint.exact, chunks_eqLen e1 e2 e3 e4 hd.pos.ne' hd'.pos.ne']
    simp [Chunk.contrib, Heap.exact]
  unfold NearCons
  rw [e]
  have hp := two_pos (-100)
  have hA : hyp (x - u) (y - v) + hyp (x' - u') (y' - v') ≤ 8 * scaleOf h (.eqLen l k) := by
    rw [es]; linarith [hd.pos, hd'.pos]
  obtain ⟨a1, a2, a3, a4⟩ := ends_entries (g := ((lineEnd h l - lineStart h l).sdiv (lineEnd h l - lineStart h l).norm).smul
    ((lineEnd h l - lineStart h l).norm - (lineEnd h k - lineStart h k).norm)) g1 g2
  obtain ⟨b1, b2, b3, b4⟩ := ends_entries (g := ((-(lineEnd h k - lineStart h k)).sdiv (lineEnd h k - lineStart h k).norm).smul
    ((lineEnd h l - lineStart h l).norm - (lineEnd h k - lineStart h k).norm)) k1 k2
  have f := fun {w : B64 lm} {d : Dof} {r : ℝ} (hw : w.Ap η r (hyp (x - u) (y - v) + hyp (x' - u') (y' - v')) 35 103) =>
    near_of (d := d) hη hw hA hS (by norm_num) (by norm_num)
  exact .cons (f a1) (.cons (f a2) (.cons (f a3) (.cons (f a4) (.cons (f b1) (.cons (f b2) (.cons (f b3) (.cons (f b4) .nil)))))))

/-- the computed unit vectors are finite -/
theorem Dir.unit_finite (hη : ErrUnit η) {d : Vec2 (B64 lm)} {a b : ℝ} (hd : Dir η d a b) :
    Num.isFinite d.normalize.x = true ∧ Num.isFinite d.normalize.y = true := ⟨(hd.unit hη).1.isFinite, (hd.unit hη).2.isFinite⟩

theorem two_ap_scale {x : B64 lm} {r A k : ℝ} {m : ℕ} (hx : x.Ap η r A k m) (e : A = 2) : x.Ap η r 2 k 1 :=
  (hx.congr rfl e).range 1 (by norm_num) (by norm_num)

/-- the sine of the angle between two directions -/
theorem cross_ap (hη : ErrUnit η) {d e : Vec2 (B64 lm)} {a b c f : ℝ} (hd : Dir η d a b) (he : Dir η e c f) :
    (d.normalize.x * e.normalize.y - d.normalize.y * e.normalize.x).Ap η (a / hyp a b * (f / hyp c f) - b / hyp a b * (c / hyp c f)) 2 38 1 := by
  obtain ⟨u1, u2⟩ := hd.unit hη
  obtain ⟨w1, w2⟩ := he.unit hη
  exact two_ap_scale (((u1.mul hη w2 0 36 (by norm_num) (by norm_num) (by norm_num) (by norm_num)).sub hη
    (u2.mul hη w1 0 36 (by norm_num) (by norm_num) (by norm_num) (by norm_num)) 1 38 (by norm_num) (by norm_num) (by norm_num) (by norm_num)
    (by norm_num))) (by norm_num)

theorem dot_ap (hη : ErrUnit η) {d e : Vec2 (B64 lm)} {a b c f : ℝ} (hd : Dir η d a b) (he : Dir η e c f) :
    (d.normalize.dot e.normalize).Ap η (a / hyp a b * (c / hyp c f) + b / hyp a b * (f / hyp c f)) 2 38 1 := by
  obtain ⟨u1, u2⟩ := hd.unit hη
  obtain ⟨w1, w2⟩ := he.unit hη
  exact two_ap_scale (((u1.mul hη w1 0 36 (by norm_num) (by norm_num) (by norm_num) (by norm_num)).add hη
    (u2.mul hη w2 0 36 (by norm_num) (by norm_num) (by norm_num) (by norm_num)) 1 38 (by norm_num) (by norm_num) (by norm_num) (by norm_num)
    (by norm_num))) (by norm_num)

theorem times_unit (hη : ErrUnit η) {x y : B64 lm} {r t : ℝ} (hx : x.Ap η r 2 38 1) (hy : y.Ap η t 1 17 0) : (x * y).Ap η (r * t) 2 57 1 :=
  two_ap_scale (hx.mul hη hy 1 57 (by norm_num) (by norm_num) (by norm_num) (by norm_num)) (by norm_num)

/-- what two lines of sufficient length contribute -/
theorem two_lines (hη : ErrUnit η) {l k : Nat} {x y u v x' y' u' v' : ℝ} (P : PtAt h (h.lines l).stop x y) (Q : PtAt h (h.lines l).start u v)
    (P' : PtAt h (h.lines k).stop x' y') (Q' : PtAt h (h.lines k).start u' v') {S : ℝ} (es : S = (1 + 2 ^ (-100 : ℤ)) *
      (1 / hyp (x - u) (y - v) + 1 / hyp (x' - u') (y' - v')) * 1 ^ 3) (hc1 : 2 ^ (-100 : ℤ) ≤ hyp (x - u) (y - v))
    (hc2 : 2 ^ (-100 : ℤ) ≤ hyp (x' - u') (y' - v')) {r r' : Vec2 (B64 lm)} {p q p' q' : ℝ} (h1 : r.x.Ap η p 2 57 1) (h2 : r.y.Ap η q 2 57 1)
    (h3 : r'.x.Ap η p' 2 57 1) (h4 : r'.y.Ap η q' 2 57 1) {g g' : ℝ × ℝ}
    (e1 : g = (let a := x - u; let b := y - v; (p * ((1 - a * a / (a * a + b * b)) / hyp a b) + q * ((0 - b * a / (a * a + b * b)) / hyp a b),
      p * ((0 - a * b / (a * a + b * b)) / hyp a b) + q * ((1 - b * b / (a * a + b * b)) / hyp a b))))
    (e2 : g' = (let a := x' - u'; let b := y' - v'; (p' * ((1 - a * a / (a * a + b * b)) / hyp a b) + q' * ((0 - b * a / (a * a + b * b)) / hyp a b),
      p' * ((0 - a * b / (a * a + b * b)) / hyp a b) + q' * ((1 - b * b / (a * a + b * b)) / hyp a b)))) :
    List.Forall₂ (NearEntry η (8 * S) 480)
      ([Chunk.line l ((r.mul22 (normalizeJacobian (lineEnd h l - lineStart h l))).mul24 (lineEndGradient - lineStartGradient)),
        Chunk.line k ((r'.mul22 (normalizeJacobian (lineEnd h k - lineStart h k))).mul24 (lineEndGradient - lineStartGradient))].flatMap (Chunk.entries h))
      [(.px (h.lines l).start, -g.1), (.py (h.lines l).start, -g.2), (.px (h.lines l).stop, g.1), (.py (h.lines l).stop, g.2),
       (.px (h.lines k).start, -g'.1), (.py (h.lines k).start, -g'.2), (.px (h.lines k).stop, g'.1), (.py (h.lines k).stop, g'.2)] := by
  have hd := P.dir hη Q hc1
  have hd' := P'.dir hη Q' hc2
  have hp := two_pos (-100)
  have inv : ∀ {t : ℝ}, 2 ^ (-100 : ℤ) ≤ t → 1 / t ≤ 2 ^ (100 : ℤ) := fun {t} ht => by
    have h0 : 0 < t := (two_pos _).trans_le ht
    rw [div_le_iff₀ h0]
    calc (1 : ℝ) = 2 ^ (100 : ℤ) * 2 ^ (-100 : ℤ) := by rw [two_mul_two]; norm_num
      _ ≤ 2 ^ (100 : ℤ) * t := mul_le_mul_of_nonneg_left ht (two_pos _).le
  have hS : 8 * S ≤ 2 ^ (300 : ℤ) := by
    rw [es]
    have a1 := inv hc1
    have a2 := inv hc2
    have := hd.pos; have := hd'.pos
    refine scale_le (by norm_num) (one_le102.trans (two_le (by norm_num))) (by positivity) ?_ (by norm_num) one_le5
    have e : (2 : ℝ) ^ (100 : ℤ) + 2 ^ (100 : ℤ) = 2 ^ (101 : ℤ) := two_double
    exact (add_le_add a1 a2).trans (e.le.trans (two_le (by norm_num)))
  have i1 : 0 < 1 / hyp (x - u) (y - v) := by have := hd.pos; positivity
  have i2 : 0 < 1 / hyp (x' - u') (y' - v') := by have := hd'.pos; positivity
  have hA : 8 / hyp (x - u) (y - v) ≤ 8 * S := by
    rw [es, div_eq_mul_one_div]
    nlinarith [mul_pos hp i1, mul_pos hp i2]
  have hB : 8 / hyp (x' - u') (y' - v') ≤ 8 * S := by
    rw [es, div_eq_mul_one_div]
    nlinarith [mul_pos hp i1, mul_pos hp i2]
  obtain ⟨j1, j2⟩ := row_jac hη hd h1 h2
  obtain ⟨j3, j4⟩ := row_jac hη hd' h3 h4
  obtain ⟨a1, a2, a3, a4⟩ := ends_entries j1 j2
  obtain ⟨b1, b2, b3, b4⟩ := ends_entries j3 j4
  have f := fun {w : B64 lm} {d : Dof} {r : ℝ} (hw : w.Ap η r (8 / hyp (x - u) (y - v)) 97 105) =>
    near_of (d := d) hη hw hA hS (by norm_num) (by norm_num)
  have f' := fun {w : B64 lm} {d : Dof} {r : ℝ} (hw : w.Ap η r (8 / hyp (x' - u') (y' - v')) 97 105) =>
    near_of (d := d) hη hw hB hS (by norm_num) (by norm_num)
  subst e1 e2
  exact .cons (f a1) (.cons (f a2) (.cons (f a3) (.cons (f a4) (.cons (f' b1) (.cons (f' b2) (.cons (f' b3) (.cons (f' b4) .nil)))))))

theorem near_parallel (hη : ErrUnit η) {l k : Nat} (hm : ModestCons h (.parallel l k)) (hc : Clear h (.parallel l k)) : NearCons η h (.parallel l k) := by
  obtain ⟨x, y, u, v, P, Q⟩ := hm.line (l := l) (by simp [consFields])
  obtain ⟨x', y', u', v', P', Q'⟩ := hm.line (l := k) (by simp [consFields])
  simp only [Clear, lenOf, P.distOf Q, P'.distOf Q'] at hc
  have hd : Dir η (lineEnd h l - lineStart h l) (x - u) (y - v) := P.dir hη Q hc.1
  have hd' : Dir η (lineEnd h k - lineStart h k) (x' - u') (y' - v') := P'.dir hη Q' hc.2
  obtain ⟨u1, u2⟩ := hd.unit hη
  obtain ⟨w1, w2⟩ := hd'.unit hη
  have cr := cross_ap hη hd hd'
  have es : scaleOf h (.parallel l k) = (1 + 2 ^ (-100 : ℤ)) * (1 / hyp (x - u) (y - v) + 1 / hyp (x' - u') (y' - v')) * 1 ^ 3 := by
    simp only [scaleOf, spanOf, slopeOf, badness, lenOf, P.distOf Q, P'.distOf Q']
  have e : contribs h.exact (Constraint.exact (lm := lm) (.parallel l k)) =
      let g := crossForce (x - u) (y - v) (x' - u') (y' - v')
      let g' := crossForce (x' - u') (y' - v') (x - u) (y - v)
      [(.px (h.lines l).start, -g.1), (.py (h.lines l).start, -g.2), (.px (h.lines l).stop, g.1), (.py (h.lines l).stop, g.2),
       (.px (h.lines k).start, -g'.1), (.py (h.lines k).start, -g'.2), (.px (h.lines k).stop, g'.1), (.py (h.lines k).stop, g'.2)] := by
    have e1 : lineStart h.exact l = ⟨fin u, fin v⟩ := Q.exact
    have e2 : lineEnd h.exact l = ⟨fin x, fin y⟩ := P.exact
    have e3 : lineStart h.exact k = ⟨fin u', fin v'⟩ := Q'.exact
    have e4 : lineEnd h.exact k = ⟨fin x', fin y'⟩ := P'.exact
    simp only [contribs, Constraint.exact, chunks_parallel e1 e2 e3 e4, hd.pos.ne', hd'.pos.ne', or_self, if_false]
    simp [Chunk.contrib, Heap.exact]
  unfold NearCons
  rw [e]
  simp only [chunks, (hd.unit_finite hη).1, (hd.unit_finite hη).2, (hd'.unit_finite hη).1, (hd'.unit_finite hη).2, Bool.not_true, Bool.or_self,
    Bool.false_eq_true, if_false]
  refine two_lines hη P Q P' Q' es hc.1 hc.2
    (r := (⟨(lineEnd h k - lineStart h k).normalize.y, -(lineEnd h k - lineStart h k).normalize.x⟩ : Vec2 (B64 lm)).smul _)
    (r' := (⟨-(lineEnd h l - lineStart h l).normalize.y, (lineEnd h l - lineStart h l).normalize.x⟩ : Vec2 (B64 lm)).smul _)
    (times_unit hη cr w2) (times_unit hη cr w1.neg) (times_unit hη cr u2.neg) (times_unit hη cr u1) rfl ?_
  unfold crossForce
  ext <;> dsimp only <;> ring

theorem near_perp (hη : ErrUnit η) {l k : Nat} (hm : ModestCons h (.perp l k)) (hc : Clear h (.perp l k)) : NearCons η h (.perp l k) := by
  obtain ⟨x, y, u, v, P, Q⟩ := hm.line (l := l) (by simp [consFields])
  obtain ⟨x', y', u', v', P', Q'⟩ := hm.line (l := k) (by simp [consFields])
  simp only [Clear, lenOf, P.distOf Q, P'.distOf Q'] at hc
  have hd : Dir η (lineEnd h l - lineStart h l) (x - u) (y - v) := P.dir hη Q hc.1
  have hd' : Dir η (lineEnd h k - lineStart h k) (x' - u') (y' - v') := P'.dir hη Q' hc.2
  obtain ⟨u1, u2⟩ := hd.unit hη
  obtain ⟨w1, w2⟩ := hd'.unit hη
  have dp := dot_ap hη hd hd'
  have es : scaleOf h (.perp l k) = (1 + 2 ^ (-100 : ℤ)) * (1 / hyp (x - u) (y - v) + 1 / hyp (x' - u') (y' - v')) * 1 ^ 3 := by
    simp only [scaleOf, spanOf, slopeOf, badness, lenOf, P.distOf Q, P'.distOf Q']
  have e : contribs h.exact (Constraint.exact (lm := lm) (.perp l k)) =
      let g := dotForce (x - u) (y - v) (x' - u') (y' - v')
      let g' := dotForce (x' - u') (y' - v') (x - u) (y - v)
      [(.px (h.lines l).start, -g.1), (.py (h.lines l).start, -g.2), (.px (h.lines l).stop, g.1), (.py (h.lines l).stop, g.2),
       (.px (h.lines k).start, -g'.1), (.py (h.lines k).start, -g'.2), (.px (h.lines k).stop, g'.1), (.py (h.lines k).stop, g'.2)] := by
    have e1 : lineStart h.exact l = ⟨fin u, fin v⟩ := Q.exact
    have e2 : lineEnd h.exact l = ⟨fin x, fin y⟩ := P.exact
    have e3 : lineStart h.exact k = ⟨fin u', fin v'⟩ := Q'.exact
    have e4 : lineEnd h.exact k = ⟨fin x', fin y'⟩ := P'.exact
    simp only [contribs, Constraint.exact, chunks_perp e1 e2 e3 e4, hd.pos.ne', hd'.pos.ne', or_self, if_false]
    simp [Chunk.contrib, Heap.exact]
  unfold NearCons
  rw [e]
  simp only [chunks, (hd.unit_finite hη).1, (hd.unit_finite hη).2, (hd'.unit_finite hη).1, (hd'.unit_finite hη).2, Bool.not_true, Bool.or_self,
    Bool.false_eq_true, if_false]
  refine two_lines hη P Q P' Q' es hc.1 hc.2
    (r := (lineEnd h k - lineStart h k).normalize.smul _) (r' := (lineEnd h l - lineStart h l).normalize.smul _)
    (times_unit hη dp w1) (times_unit hη dp w2) (times_unit hη dp u1) (times_unit hη dp u2) rfl ?_
  unfold dotForce
  ext <;> dsimp only <;> ring

/-! ### Ends of arcs -/

theorem trig_ap {x : B64 lm} {c : ℝ} (hx : ∃ v, x.Is v ∧ |v - c| ≤ η) (hc : |c| ≤ 1) : x.Ap η c 1 1 0 := by
  obtain ⟨v, h1, h2⟩ := hx
  exact ⟨v, h1, by linarith, hc, by norm_num, by norm_num, by norm_num⟩

/-- the distance of an end of an arc to a point along an axis -/
theorem off_ap (hη : ErrUnit η) {U R C X : B64 lm} {u r c x W : ℝ} (hU : U.Is u) (bu : |u| ≤ 2 ^ (100 : ℤ)) (hR : R.Is r) (br : |r| ≤ 2 ^ (100 : ℤ))
    (hC : C.Ap η c 1 1 0) (hX : X.Is x) (bx : |x| ≤ 2 ^ (100 : ℤ)) (hW : |u| + |r| + |x| + 2 ^ (-100 : ℤ) ≤ W) (hW' : W ≤ 2 ^ (104 : ℤ)) :
    (U + R * C - X).Ap η (u + r * c - x) (2 * W) 7 105 := by
  have e2 : (2 : ℝ) ^ (-101 : ℤ) + 2 ^ (-101 : ℤ) = 2 ^ (-100 : ℤ) := two_double
  have e3 : (2 : ℝ) ^ (104 : ℤ) + 2 ^ (104 : ℤ) = 2 ^ (105 : ℤ) := two_double
  have hp := two_pos (-100)
  have g := (((param_ap (η := η) hU bu 101 le_rfl).more hη 3 101 (by norm_num) le_rfl).add hη
    ((param_ap hR br 101 le_rfl).mul hη hC 101 3 (by norm_num) (by norm_num) (by norm_num) (by norm_num)) 102 5 (by norm_num) (by norm_num)
    (by norm_num) (by norm_num) (by norm_num)).sub hη (param_ap hX bx 102 (by norm_num)) 103 7 (by norm_num) (by norm_num)
    (by norm_num) (by norm_num) (by norm_num)
  refine g.mono hη ?_ ?_ 7 le_rfl (by norm_num)
  · linarith [abs_nonneg u, abs_nonneg r, abs_nonneg x]
  · have : ((105 : ℕ) : ℤ) = 105 := rfl
    rw [this]; linarith

theorem arc_zero (hη : ErrUnit η) {x y a b : B64 lm} {r t A k : ℝ} {m : ℕ} (hx : x.Ap η r A k m) (hy : y.Ap η t A k m) (ha : a.Is 0) (hb : b.Is 0) :
    (x * a + y * b).Ap η 0 A k m := by
  obtain ⟨u, hu⟩ := hx.val
  obtain ⟨v, hv⟩ := hy.val
  obtain ⟨-, -, -, -, h1, h2, h3⟩ := hx
  exact .none hu hv ha hb h1 h2 h3 hη

/-- what is needed of an arc -/
theorem ModestCons.arc {c : Constraint (B64 lm)} (hm : ModestCons h c) {a : Nat} (ha : PrimCell.arc a ∈ consFields c) :
    ∃ cx cy r t0 t1, PtAt h (h.arcs a).center cx cy ∧ (h.arcs a).radius.Is r ∧ |r| ≤ 2 ^ (100 : ℤ) ∧ (h.arcs a).startAngle.Is t0 ∧
      (h.arcs a).endAngle.Is t1 ∧ (h.exact.arcs a).data = ⟨fin r, fin t0, fin t1⟩ := by
  obtain ⟨cx, cy, C⟩ := hm.pt (p := (h.arcs a).center) (by
    unfold consDeps
    exact List.mem_append_right _ (List.mem_flatMap.2 ⟨_, ha, by simp [primFields]⟩))
  have hd : PrimCell.arc a ∈ consDeps h c := by unfold consDeps; exact List.mem_append_left _ ha
  obtain ⟨r, h1, h2⟩ := hm.1 _ hd _ (show (h.arcs a).radius ∈ _ by simp [primData, Arc.radius])
  obtain ⟨t0, h3, -⟩ := hm.1 _ hd _ (show (h.arcs a).startAngle ∈ _ by simp [primData, Arc.startAngle])
  obtain ⟨t1, h4, -⟩ := hm.1 _ hd _ (show (h.arcs a).endAngle ∈ _ by simp [primData, Arc.endAngle])
  refine ⟨cx, cy, r, t0, t1, C, h1, h2, h3, h4, ?_⟩
  show Row3.exact (h.arcs a).data = _
  unfold Row3.exact
  rw [← h1.exact, ← h3.exact, ← h4.exact]
  rfl

/-- the numbers of an arc contribution -/
theorem arc_entries (hη : ErrUnit η) {u v c s nrs rc : B64 lm} {U V C Sn r W : ℝ} (br : |r| ≤ 2 ^ (100 : ℤ)) (hu : u.Ap η U W 7 105) (hv : v.Ap η V W 7 105) (hc : c.Ap η C 1 1 0) (hs : s.Ap η Sn 1 1 0)
    (h1 : nrs.Ap η (-r * Sn) (|r| + 2 ^ (-101 : ℤ)) 3 101) (h2 : rc.Ap η (r * C) (|r| + 2 ^ (-101 : ℤ)) 3 101) :
    (u * c + v * s).Ap η (U * C + V * Sn) (2 * W * (1 + |r|)) 14 207 ∧ (u * nrs + v * rc).Ap η (U * (-r * Sn) + V * (r * C)) (2 * W * (1 + |r|)) 14 207 ∧
    (u * 1.0 + v * 0.0).Ap η U (2 * W * (1 + |r|)) 14 207 ∧ (u * 0.0 + v * 1.0).Ap η V (2 * W * (1 + |r|)) 14 207 ∧
    (u * 0.0 + v * 0.0).Ap η 0 (2 * W * (1 + |r|)) 14 207 := by
  obtain ⟨-, -, -, -, w1, w2, -⟩ := id hu
  have hW := hu.scale_pos
  have hr := abs_nonneg r
  have hWr : 0 ≤ W * |r| := by positivity
  have hlim : 2 * W * (1 + |r|) ≤ 2 ^ ((207 : ℕ) : ℤ) := by
    have e1 : (1 : ℝ) + |r| ≤ 2 ^ (101 : ℤ) := by
      have e3 : (2 : ℝ) ^ (100 : ℤ) + 2 ^ (100 : ℤ) = 2 ^ (101 : ℤ) := two_double
      have : (1 : ℝ) ≤ 2 ^ (100 : ℤ) := by
        have : (2 : ℝ) ^ (0 : ℤ) ≤ 2 ^ (100 : ℤ) := two_le (by norm_num)
        simpa using this
      linarith
    calc 2 * W * (1 + |r|) ≤ 2 ^ (1 : ℤ) * 2 ^ ((105 : ℕ) : ℤ) * 2 ^ (101 : ℤ) := by
          refine mul_le_mul ?_ e1 (by positivity) (by positivity)
          rw [zpow_one]; linarith
      _ = 2 ^ ((207 : ℕ) : ℤ) := by rw [two_mul_two, two_mul_two]; norm_num
  have hb : 2 * W ≤ 2 * W * (1 + |r|) := by nlinarith
  have b1 : W ≤ 2 * W * (1 + |r|) := by linarith
  obtain ⟨t1, ht1⟩ := hu.val
  obtain ⟨t2, ht2⟩ := hv.val
  refine ⟨?_, ?_, ?_, ?_, ?_⟩
  · refine ((hu.mul hη hc 105 10 (by norm_num) (by norm_num) (by norm_num) (by norm_num)).add hη
      (hv.mul hη hs 105 10 (by norm_num) (by norm_num) (by norm_num) (by norm_num)) 106 12 (by norm_num) (by norm_num) (by norm_num)
      (by norm_num) (by norm_num)).mono hη ?_ hlim 14 (by norm_num) (by norm_num)
    linarith
  · refine ((hu.mul hη h1 206 12 (by norm_num) (by norm_num) (by norm_num) (by norm_num)).add hη
      (hv.mul hη h2 206 12 (by norm_num) (by norm_num) (by norm_num) (by norm_num)) 207 14 (by norm_num) (by norm_num) (by norm_num)
      (by norm_num) (by norm_num)).mono hη ?_ hlim 14 (by norm_num) (by norm_num)
    have : (2 : ℝ) ^ (-101 : ℤ) ≤ 1 := by
      have : (2 : ℝ) ^ (-101 : ℤ) ≤ 2 ^ (0 : ℤ) := two_le (by norm_num)
      simpa using this
    nlinarith
  · exact (hu.fst ht2 B64.is_one B64.is_zero).mono hη b1 hlim 14 (by norm_num) (by norm_num)
  · exact (B64.Ap.snd ht1 hv B64.is_zero B64.is_one).mono hη b1 hlim 14 (by norm_num) (by norm_num)
  · exact (arc_zero hη hu hv B64.is_zero B64.is_zero).mono hη b1 hlim 14 (by norm_num) (by norm_num)

theorem near_arcEnd {κ : ℝ} (hη : ErrUnit η) (hl : lm.Accurate κ) (hκ : κ ≤ η) {a p : Nat} (hm : ModestCons h (.arcEnd a p)) : NearCons η h (.arcEnd a p) := by
  obtain ⟨x, y, P⟩ := hm.pt (p := p) (by simp [consDeps, consFields, primFields])
  obtain ⟨cx, cy, r, t0, t1, C, hr, br, ht0, ht1, ed⟩ := hm.arc (a := a) (by simp [consFields])
  have hco : (Num.cos (h.arcs a).endAngle).Ap η (Real.cos t1) 1 1 0 := by
    obtain ⟨w, e1, e2⟩ := hl.cos _ _ ht1
    exact trig_ap ⟨w, e1, e2.trans hκ⟩ (Real.abs_cos_le_one _)
  have hsi : (Num.sin (h.arcs a).endAngle).Ap η (Real.sin t1) 1 1 0 := by
    obtain ⟨w, e1, e2⟩ := hl.sin _ _ ht1
    exact trig_ap ⟨w, e1, e2.trans hκ⟩ (Real.abs_sin_le_one _)
  have hp := two_pos (-100)
  have es : scaleOf h (.arcEnd a p) = (|cx| + |cy| + |r| + |x| + |y| + 2 ^ (-100 : ℤ)) * (1 + |r|) * 1 ^ 3 := by
    simp only [scaleOf, spanOf, slopeOf, badness, P.xOf, P.yOf, C.xOf, C.yOf, hr.real]
  have hW' : |cx| + |cy| + |r| + |x| + |y| + 2 ^ (-100 : ℤ) ≤ 2 ^ (104 : ℤ) := by
    refine le104 (n := 6) (by norm_num) ?_
    have : (2 : ℝ) ^ (-100 : ℤ) ≤ 2 ^ (100 : ℤ) := two_le (by norm_num)
    linarith [C.bx, C.bY, P.bx, P.bY]
  have hS : 8 * scaleOf h (.arcEnd a p) ≤ 2 ^ (300 : ℤ) := by
    rw [es]
    refine scale_le (by positivity) (by linarith) (by positivity) ?_ (by norm_num) one_le5
    have e3 : (2 : ℝ) ^ (101 : ℤ) + 2 ^ (101 : ℤ) = 2 ^ (102 : ℤ) := two_double
    have e4 : (2 : ℝ) ^ (100 : ℤ) ≤ 2 ^ (101 : ℤ) := two_le (by norm_num)
    have : (1 : ℝ) ≤ 2 ^ (101 : ℤ) := by
      have : (2 : ℝ) ^ (0 : ℤ) ≤ 2 ^ (101 : ℤ) := two_le (by norm_num)
      simpa using this
    linarith
  have nx := abs_nonneg x; have ny := abs_nonneg y; have nr := abs_nonneg r; have ncx := abs_nonneg cx; have ncy := abs_nonneg cy
  have gu := off_ap hη C.ix C.bx hr br hco P.ix P.bx (W := |cx| + |cy| + |r| + |x| + |y| + 2 ^ (-100 : ℤ)) (by linarith) hW'
  have gv := off_ap hη C.iy C.bY hr br hsi P.iy P.bY (W := |cx| + |cy| + |r| + |x| + |y| + 2 ^ (-100 : ℤ)) (by linarith) hW'
  have hnrs : (-(h.arcs a).radius * Num.sin (h.arcs a).endAngle).Ap η (-r * Real.sin t1) (|r| + 2 ^ (-101 : ℤ)) 3 101 :=
    ((param_ap (η := η) hr br 101 le_rfl).neg.mul hη hsi 101 3 (by norm_num) (by norm_num) (by norm_num) (by norm_num)).congr rfl (mul_one _)
  have hrc : ((h.arcs a).radius * Num.cos (h.arcs a).endAngle).Ap η (r * Real.cos t1) (|r| + 2 ^ (-101 : ℤ)) 3 101 :=
    ((param_ap (η := η) hr br 101 le_rfl).mul hη hco 101 3 (by norm_num) (by norm_num) (by norm_num) (by norm_num)).congr rfl (mul_one _)
  obtain ⟨a2, a4, a0, a1, a3⟩ := arc_entries hη br gu gv hco hsi hnrs hrc
  obtain ⟨b0, b1⟩ := point_entries (g := -(⟨((h.arcs a).endPoint h).x - (ptData h p).x, ((h.arcs a).endPoint h).y - (ptData h p).y⟩ : Vec2 (B64 lm))) gu.neg gv.neg
  have e : contribs h.exact (Constraint.exact (lm := lm) (.arcEnd a p)) =
      let u := cx + r * Real.cos t1 - x
      let v := cy + r * Real.sin t1 - y
      [(.px (h.arcs a).center, u), (.py (h.arcs a).center, v), (.ar a, u * Real.cos t1 + v * Real.sin t1), (.as a, 0),
       (.ae a, u * (-r * Real.sin t1) + v * (r * Real.cos t1)), (.px p, -u), (.py p, -v)] := by
    simp only [contribs, Constraint.exact, chunks_arcEnd P.exact C.exact ed]
    simp [Chunk.contrib, Heap.exact]
  unfold NearCons
  rw [e]
  have hA : 2 * (2 * (|cx| + |cy| + |r| + |x| + |y| + 2 ^ (-100 : ℤ))) * (1 + |r|) ≤ 8 * scaleOf h (.arcEnd a p) := by
    rw [es]
    have : 0 ≤ (|cx| + |cy| + |r| + |x| + |y| + 2 ^ (-100 : ℤ)) * (1 + |r|) := by positivity
    linarith
  have hB : 2 * (|cx| + |cy| + |r| + |x| + |y| + 2 ^ (-100 : ℤ)) ≤ 8 * scaleOf h (.arcEnd a p) := by
    refine le_trans ?_ hA
    have : 0 ≤ (|cx| + |cy| + |r| + |x| + |y| + 2 ^ (-100 : ℤ)) * |r| := by positivity
    have : 0 ≤ |cx| + |cy| + |r| + |x| + |y| + 2 ^ (-100 : ℤ) := by positivity
    linarith
  have f := fun {w : B64 lm} {d : Dof} {t : ℝ} (hw : w.Ap η t (2 * (2 * (|cx| + |cy| + |r| + |x| + |y| + 2 ^ (-100 : ℤ))) * (1 + |r|)) 14 207) =>
    near_of (d := d) hη hw hA hS (by norm_num) (by norm_num)
  exact .cons (f a0) (.cons (f a1) (.cons (f a2) (.cons (f a3) (.cons (f a4) (.cons (near_of hη b0 hB hS (by norm_num) (by norm_num))
    (.cons (near_of hη b1 hB hS (by norm_num) (by norm_num)) .nil))))))

theorem near_arcStart {κ : ℝ} (hη : ErrUnit η) (hl : lm.Accurate κ) (hκ : κ ≤ η) {a p : Nat} (hm : ModestCons h (.arcStart a p)) : NearCons η h (.arcStart a p) := by
  obtain ⟨x, y, P⟩ := hm.pt (p := p) (by simp [consDeps, consFields, primFields])
  obtain ⟨cx, cy, r, t0, t1, C, hr, br, ht0, ht1, ed⟩ := hm.arc (a := a) (by simp [consFields])
  have hco : (Num.cos (h.arcs a).startAngle).Ap η (Real.cos t0) 1 1 0 := by
    obtain ⟨w, e1, e2⟩ := hl.cos _ _ ht0
    exact trig_ap ⟨w, e1, e2.trans hκ⟩ (Real.abs_cos_le_one _)
  have hsi : (Num.sin (h.arcs a).startAngle).Ap η (Real.sin t0) 1 1 0 := by
    obtain ⟨w, e1, e2⟩ := hl.sin _ _ ht0
    exact trig_ap ⟨w, e1, e2.trans hκ⟩ (Real.abs_sin_le_one _)
  have hp := two_pos (-100)
  have es : scaleOf h (.arcStart a p) = (|cx| + |cy| + |r| + |x| + |y| + 2 ^ (-100 : ℤ)) * (1 + |r|) * 1 ^ 3 := by
    simp only [scaleOf, spanOf, slopeOf, badness, P.xOf, P.yOf, C.xOf, C.yOf, hr.real]
  have hW' : |cx| + |cy| + |r| + |x| + |y| + 2 ^ (-100 : ℤ) ≤ 2 ^ (104 : ℤ) := by
    refine le104 (n := 6) (by norm_num) ?_
    have : (2 : ℝ) ^ (-100 : ℤ) ≤ 2 ^ (100 : ℤ) := two_le (by norm_num)
    linarith [C.bx, C.bY, P.bx, P.bY]
  have hS : 8 * scaleOf h (.arcStart a p) ≤ 2 ^ (300 : ℤ) := by
    rw [es]
    refine scale_le (by positivity) (by linarith) (by positivity) ?_ (by norm_num) one_le5
    have e3 : (2 : ℝ) ^ (101 : ℤ) + 2 ^ (101 : ℤ) = 2 ^ (102 : ℤ) := two_double
    have e4 : (2 : ℝ) ^ (100 : ℤ) ≤ 2 ^ (101 : ℤ) := two_le (by norm_num)
    have : (1 : ℝ) ≤ 2 ^ (101 : ℤ) := by
      have : (2 : ℝ) ^ (0 : ℤ) ≤ 2 ^ (101 : ℤ) := two_le (by norm_num)
      simpa using this
    linarith
  have nx := abs_nonneg x; have ny := abs_nonneg y; have nr := abs_nonneg r; have ncx := abs_nonneg cx; have ncy := abs_nonneg cy
  have gu := off_ap hη C.ix C.bx hr br hco P.ix P.bx (W := |cx| + |cy| + |r| + |x| + |y| + 2 ^ (-100 : ℤ)) (by linarith) hW'
  have gv := off_ap hη C.iy C.bY hr br hsi P.iy P.bY (W := |cx| + |cy| + |r| + |x| + |y| + 2 ^ (-100 : ℤ)) (by linarith) hW'
  have hnrs : (-(h.arcs a).radius * Num.sin (h.arcs a).startAngle).Ap η (-r * Real.sin t0) (|r| + 2 ^ (-101 : ℤ)) 3 101 :=
    ((param_ap (η := η) hr br 101 le_rfl).neg.mul hη hsi 101 3 (by norm_num) (by norm_num) (by norm_num) (by norm_num)).congr rfl (mul_one _)
  have hrc : ((h.arcs a).radius * Num.cos (h.arcs a).startAngle).Ap η (r * Real.cos t0) (|r| + 2 ^ (-101 : ℤ)) 3 101 :=
    ((param_ap (η := η) hr br 101 le_rfl).mul hη hco 101 3 (by norm_num) (by norm_num) (by norm_num) (by norm_num)).congr rfl (mul_one _)
  obtain ⟨a2, a3, a0, a1, a4⟩ := arc_entries hη br gu gv hco hsi hnrs hrc
  obtain ⟨b0, b1⟩ := point_entries (g := -(⟨((h.arcs a).startPoint h).x - (ptData h p).x, ((h.arcs a).startPoint h).y - (ptData h p).y⟩ : Vec2 (B64 lm))) gu.neg gv.neg
  have e : contribs h.exact (Constraint.exact (lm := lm) (.arcStart a p)) =
      let u := cx + r * Real.cos t0 - x
      let v := cy + r * Real.sin t0 - y
      [(.px (h.arcs a).center, u), (.py (h.arcs a).center, v), (.ar a, u * Real.cos t0 + v * Real.sin t0), 
       (.as a, u * (-r * Real.sin t0) + v * (r * Real.cos t0)), (.ae a, 0), (.px p, -u), (.py p, -v)] := by
    simp only [contribs, Constraint.exact, chunks_arcStart P.exact C.exact ed]
    simp [Chunk.contrib, Heap.exact]
  unfold NearCons
  rw [e]
  have hA : 2 * (2 * (|cx| + |cy| + |r| + |x| + |y| + 2 ^ (-100 : ℤ))) * (1 + |r|) ≤ 8 * scaleOf h (.arcStart a p) := by
    rw [es]
    have : 0 ≤ (|cx| + |cy| + |r| + |x| + |y| + 2 ^ (-100 : ℤ)) * (1 + |r|) := by positivity
    linarith
  have hB : 2 * (|cx| + |cy| + |r| + |x| + |y| + 2 ^ (-100 : ℤ)) ≤ 8 * scaleOf h (.arcStart a p) := by
    refine le_trans ?_ hA
    have : 0 ≤ (|cx| + |cy| + |r| + |x| + |y| + 2 ^ (-100 : ℤ)) * |r| := by positivity
    have : 0 ≤ |cx| + |cy| + |r| + |x| + |y| + 2 ^ (-100 : ℤ) := by positivity
    linarith
  have f := fun {w : B64 lm} {d : Dof} {t : ℝ} (hw : w.Ap η t (2 * (2 * (|cx| + |cy| + |r| + |x| + |y| + 2 ^ (-100 : ℤ))) * (1 + |r|)) 14 207) =>
    near_of (d := d) hη hw hA hS (by norm_num) (by norm_num)
  exact .cons (f a0) (.cons (f a1) (.cons (f a2) (.cons (f a3) (.cons (f a4) (.cons (near_of hη b0 hB hS (by norm_num) (by norm_num))
    (.cons (near_of hη b1 hB hS (by norm_num) (by norm_num)) .nil))))))

end kinds

end Isotope
