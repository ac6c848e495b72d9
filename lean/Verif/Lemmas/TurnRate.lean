import Mathlib.Analysis.Calculus.MeanValue
import Mathlib.Analysis.Calculus.Deriv.Inv
import Mathlib.Analysis.Calculus.Deriv.Pow
import Mathlib.Analysis.Calculus.Deriv.Mul

/-!
# How fast two uniformly moving directions turn

For the analysis of the line search on perpendicular and parallel constraints (C104).
-/

namespace Isotope

/-- the direction of a line whose ends move uniformly: `(a, b)` at time 0, velocity `(p, q)` -/
structure Arm where
  a : ℝ
  b : ℝ
  p : ℝ
  q : ℝ

namespace Arm
variable (u v : Arm) (t : ℝ)
/-- first component at time `t` -/
def x : ℝ := u.a + t * u.p
/-- second component at time `t` -/
def y : ℝ := u.b + t * u.q
/-- squared length -/
def sq : ℝ := u.x t ^ 2 + u.y t ^ 2
/-- squared speed -/
def speed : ℝ := u.p ^ 2 + u.q ^ 2
/-- angular velocity -/
noncomputable def turn : ℝ := (u.x t * u.q - u.y t * u.p) / u.sq t
/-- relative growth -/
noncomputable def grow : ℝ := (u.x t * u.p + u.y t * u.q) / u.sq t
/-- inner product of two directions -/
def dot : ℝ := u.x t * v.x t + u.y t * v.y t
/-- outer product of two directions -/
def cross : ℝ := u.x t * v.y t - u.y t * v.x t
/-- derivative of the loss of a perpendicular constraint -/
noncomputable def rate : ℝ := u.dot v t * u.cross v t / (u.sq t * v.sq t) * (u.turn t - v.turn t)

variable {u v t}
theorem hasDerivAt_x : HasDerivAt u.x u.p t := by
  exact (((hasDerivAt_id t).mul_const u.p).const_add u.a).congr_deriv (one_mul _)
theorem hasDerivAt_y : HasDerivAt u.y u.q t := by
  exact (((hasDerivAt_id t).mul_const u.q).const_add u.b).congr_deriv (one_mul _)
theorem p_eq (h : u.sq t ≠ 0) : u.p = u.grow t * u.x t - u.turn t * u.y t := by
  unfold grow turn; field_simp; unfold sq; ring
theorem q_eq (h : u.sq t ≠ 0) : u.q = u.grow t * u.y t + u.turn t * u.x t := by
  unfold grow turn; field_simp; unfold sq; ring
theorem hasDerivAt_sq (h : u.sq t ≠ 0) : HasDerivAt u.sq (2 * u.grow t * u.sq t) t := by
  refine ((hasDerivAt_x.pow 2).add (hasDerivAt_y.pow 2)).congr_deriv ?_
  have := p_eq h
  have := q_eq h
  generalize u.grow t = g at *; generalize u.turn t = w at *
  rw [‹u.p = _›, ‹u.q = _›]
  simp only [sq]; push_cast; ring
theorem hasDerivAt_dot (h : u.sq t ≠ 0) (h' : v.sq t ≠ 0) :
    HasDerivAt (u.dot v) ((u.grow t + v.grow t) * u.dot v t + (u.turn t - v.turn t) * u.cross v t) t := by
  refine ((hasDerivAt_x.mul hasDerivAt_x).add (hasDerivAt_y.mul hasDerivAt_y)).congr_deriv ?_
  have a1 := p_eq h
  have a2 := q_eq h
  have a3 := p_eq h'
  have a4 := q_eq h'
  generalize u.grow t = g at *; generalize u.turn t = w at *
  generalize v.grow t = g' at *; generalize v.turn t = w' at *
  rw [a1, a2, a3, a4]
  simp only [dot, cross]; ring
theorem hasDerivAt_cross (h : u.sq t ≠ 0) (h' : v.sq t ≠ 0) :
    HasDerivAt (u.cross v) ((u.grow t + v.grow t) * u.cross v t - (u.turn t - v.turn t) * u.dot v t) t := by
  refine ((hasDerivAt_x.mul hasDerivAt_y).sub (hasDerivAt_y.mul hasDerivAt_x)).congr_deriv ?_
  have a1 := p_eq h
  have a2 := q_eq h
  have a3 := p_eq h'
  have a4 := q_eq h'
  generalize u.grow t = g at *; generalize u.turn t = w at *
  generalize v.grow t = g' at *; generalize v.turn t = w' at *
  rw [a1, a2, a3, a4]
  simp only [dot, cross]; ring
theorem hasDerivAt_turn (h : u.sq t ≠ 0) : HasDerivAt u.turn (-(2 * u.grow t * u.turn t)) t := by
  refine (((hasDerivAt_x.mul_const u.q).sub (hasDerivAt_y.mul_const u.p)).div (hasDerivAt_sq h) h).congr_deriv ?_
  generalize u.grow t = g
  unfold turn
  field_simp
  simp only [Pi.sub_apply]
  ring

/-- the loss of a perpendicular constraint changes at this rate -/
theorem hasDerivAt_perp (h : u.sq t ≠ 0) (h' : v.sq t ≠ 0) :
    HasDerivAt (fun t => u.dot v t ^ 2 / (u.sq t * v.sq t) / 2) (u.rate v t) t := by
  refine ((((hasDerivAt_dot h h').pow 2).div ((hasDerivAt_sq h).mul (hasDerivAt_sq h')) (mul_ne_zero h h')).div_const 2).congr_deriv ?_
  unfold rate
  generalize u.grow t = g; generalize u.turn t = w; generalize v.grow t = g'; generalize v.turn t = w'
  simp only [Pi.mul_apply, Pi.pow_apply]
  generalize u.dot v t = D; generalize u.cross v t = X
  generalize u.sq t = A at *; generalize v.sq t = B at *
  push_cast
  field_simp
  ring

/-- the loss of a parallel constraint changes at the opposite rate -/
theorem hasDerivAt_par (h : u.sq t ≠ 0) (h' : v.sq t ≠ 0) :
    HasDerivAt (fun t => u.cross v t ^ 2 / (u.sq t * v.sq t) / 2) (-u.rate v t) t := by
  refine ((((hasDerivAt_cross h h').pow 2).div ((hasDerivAt_sq h).mul (hasDerivAt_sq h')) (mul_ne_zero h h')).div_const 2).congr_deriv ?_
  unfold rate
  generalize u.grow t = g; generalize u.turn t = w; generalize v.grow t = g'; generalize v.turn t = w'
  simp only [Pi.mul_apply, Pi.pow_apply]
  generalize u.dot v t = D; generalize u.cross v t = X
  generalize u.sq t = A at *; generalize v.sq t = B at *
  push_cast
  field_simp
  ring

/-- derivative of `rate` -/
noncomputable def bend (u v : Arm) (t : ℝ) : ℝ :=
  (u.cross v t ^ 2 - u.dot v t ^ 2) / (u.sq t * v.sq t) * (u.turn t - v.turn t) ^ 2 -
    u.dot v t * u.cross v t / (u.sq t * v.sq t) * (2 * u.grow t * u.turn t - 2 * v.grow t * v.turn t)

theorem hasDerivAt_rate (h : u.sq t ≠ 0) (h' : v.sq t ≠ 0) : HasDerivAt (u.rate v) (u.bend v t) t := by
  refine ((((hasDerivAt_dot h h').mul (hasDerivAt_cross h h')).div ((hasDerivAt_sq h).mul (hasDerivAt_sq h'))
    (mul_ne_zero h h')).mul ((hasDerivAt_turn h).sub (hasDerivAt_turn h'))).congr_deriv ?_
  unfold bend
  simp only [Pi.mul_apply, Pi.div_apply, Pi.sub_apply]
  generalize u.grow t = g; generalize u.turn t = w; generalize v.grow t = g'; generalize v.turn t = w'
  generalize u.dot v t = D; generalize u.cross v t = X
  generalize u.sq t = A at *; generalize v.sq t = B at *
  field_simp
  ring

theorem sq_nonneg : 0 ≤ u.sq t := by unfold sq; positivity
theorem dot_cross : u.dot v t ^ 2 + u.cross v t ^ 2 = u.sq t * v.sq t := by unfold dot cross sq; ring

theorem turn_grow (h : u.sq t ≠ 0) : u.turn t ^ 2 + u.grow t ^ 2 = u.speed / u.sq t := by
  unfold turn grow
  field_simp
  unfold sq speed; ring

/-- bounds on the rate and on its change for lines at least `l` long whose ends have relative speed at most `e` -/
theorem bounds {l e : ℝ} (hl : 0 < l) (he : 0 ≤ e) (h : l ^ 2 ≤ u.sq t) (h' : l ^ 2 ≤ v.sq t) (hu : u.speed ≤ e ^ 2) (hv : v.speed ≤ e ^ 2) :
    |u.rate v t| ≤ e / l ∧ |u.bend v t| ≤ 5 * (e / l) ^ 2 := by
  have l2 : 0 < l ^ 2 := by positivity
  have hA : 0 < u.sq t := by linarith
  have hB : 0 < v.sq t := by linarith
  have key : ∀ {u : Arm}, l ^ 2 ≤ u.sq t → u.speed ≤ e ^ 2 → u.turn t ^ 2 + u.grow t ^ 2 ≤ (e / l) ^ 2 := by
    intro u h hu
    rw [turn_grow (by linarith), div_pow]
    exact div_le_div₀ (by positivity) hu l2 h
  have k1 := key h hu
  have k2 := key h' hv
  have hr : 0 ≤ e / l := by positivity
  have dc := dot_cross (u := u) (v := v) (t := t)
  have hAB : 0 < u.sq t * v.sq t := by positivity
  unfold rate bend
  generalize e / l = r at *
  have b1 : |u.dot v t * u.cross v t / (u.sq t * v.sq t)| ≤ 1 / 2 := by
    rw [abs_div, abs_of_pos hAB, div_le_iff₀ hAB, ← dc, abs_le]
    constructor <;> nlinarith [sq_nonneg (u := u) (t := t), _root_.sq_nonneg (u.dot v t + u.cross v t), _root_.sq_nonneg (u.dot v t - u.cross v t)]
  have b2 : |(u.cross v t ^ 2 - u.dot v t ^ 2) / (u.sq t * v.sq t)| ≤ 1 := by
    rw [abs_div, abs_of_pos hAB, div_le_iff₀ hAB, ← dc, abs_le]
    constructor <;> nlinarith [_root_.sq_nonneg (u.dot v t), _root_.sq_nonneg (u.cross v t)]
  generalize u.dot v t * u.cross v t / (u.sq t * v.sq t) = P at *
  generalize (u.cross v t ^ 2 - u.dot v t ^ 2) / (u.sq t * v.sq t) = Q at *
  generalize u.turn t = w at *; generalize v.turn t = w' at *
  generalize u.grow t = g at *; generalize v.grow t = g' at *
  have c1 : |w| ≤ r := abs_le_of_sq_le_sq (by nlinarith [_root_.sq_nonneg g]) hr
  have c2 : |w'| ≤ r := abs_le_of_sq_le_sq (by nlinarith [_root_.sq_nonneg g']) hr
  have c3 : |w - w'| ≤ 2 * r := by have := abs_sub w w'; linarith
  have c4 : |2 * g * w - 2 * g' * w'| ≤ 2 * r ^ 2 := by
    rw [abs_le]
    constructor <;> nlinarith [_root_.sq_nonneg (g + w), _root_.sq_nonneg (g - w), _root_.sq_nonneg (g' + w'), _root_.sq_nonneg (g' - w')]
  have c5 : (w - w') ^ 2 ≤ 4 * r ^ 2 := by
    have := sq_le_sq' (by linarith [neg_abs_le (w - w')]) ((le_abs_self _).trans c3)
    linarith
  constructor
  · rw [abs_mul]
    calc |P| * |w - w'| ≤ 1 / 2 * (2 * r) := mul_le_mul b1 c3 (abs_nonneg _) (by norm_num)
      _ = r := by ring
  · refine (abs_sub _ _).trans ?_
    rw [abs_mul, abs_mul, abs_of_nonneg (_root_.sq_nonneg (w - w'))]
    have d1 := mul_le_mul b2 c5 (_root_.sq_nonneg _) (by norm_num)
    have d2 := mul_le_mul b1 c4 (abs_nonneg _) (by norm_num)
    linarith

/-- the rate changes at most by `5 (e / l)²` per unit of time -/
theorem rate_change {l e T : ℝ} (hl : 0 < l) (he : 0 ≤ e) (hT : 0 ≤ T) (h : ∀ t, 0 ≤ t → t ≤ T → l ^ 2 ≤ u.sq t ∧ l ^ 2 ≤ v.sq t)
    (hu : u.speed ≤ e ^ 2) (hv : v.speed ≤ e ^ 2) : |u.rate v T - u.rate v 0| ≤ 5 * (e / l) ^ 2 * T := by
  have l2 : 0 < l ^ 2 := by positivity
  have := (convex_Icc (0 : ℝ) T).norm_image_sub_le_of_norm_hasDerivWithin_le (f := u.rate v) (f' := u.bend v) (C := 5 * (e / l) ^ 2)
    (fun t ht => (hasDerivAt_rate (by have := (h t ht.1 ht.2).1; linarith) (by have := (h t ht.1 ht.2).2; linarith)).hasDerivWithinAt)
    (fun t ht => (bounds hl he (h t ht.1 ht.2).1 (h t ht.1 ht.2).2 hu hv).2) (Set.left_mem_Icc.2 hT) (Set.right_mem_Icc.2 hT)
  simpa [abs_of_nonneg hT] using this

end Arm
end Isotope
