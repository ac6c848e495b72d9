import Verif.SpecReal
import Verif.Lemmas.FinCons
import Verif.Props.Data

/-!
# Losses (C15–C19, C57)
-/

namespace Isotope
open XR

section any
variable {F : Type} [Num F]

/-- **C15.** `get_loss` adds the entries of `get_loss_per_constraint` from left to right, starting from `0.0`. -/
theorem C15_sum (h : Heap F) (s : Sketch) : getLoss h s = (getLossPerConstraint h s).foldl (· + ·) (0.0 : F) := by
  unfold getLoss getLossPerConstraint
  rw [List.foldl_map]

/-- **C15.** The `i`-th entry of `get_loss_per_constraint` is the loss of the `i`-th constraint. -/
theorem C15_entries (h : Heap F) (s : Sketch) (i : Nat) :
    (getLossPerConstraint h s)[i]? = (s.cons[i]?).map (fun k => lossValue h (h.cons k)) := by
  unfold getLossPerConstraint
  rw [List.getElem?_map]
end any

/-- `0.5 * e * e` is not negative, also for exceptional operands -/
theorem half_sq_not_neg (e : XR) : Num.lt ((0.5 : XR) * e * e) (0.0 : XR) = false := by
  have k : ((0.5 : ℝ)) * 1 > 0 := by norm_num
  cases e with
  | fin r =>
    simp only [sci, mul_fin, lt_fin, decide_eq_false_iff_not, not_lt]
    have := mul_self_nonneg r
    norm_num; nlinarith
  | pinf => simp only [sci]; rw [show fin (OfScientific.ofScientific 5 true 1 : ℝ) * pinf = infOf (0.5) from rfl]
            simp only [infOf]; norm_num; rfl
  | ninf => simp only [sci]; rw [show fin (OfScientific.ofScientific 5 true 1 : ℝ) * ninf = infOf (-0.5) from rfl]
            simp only [infOf]; norm_num; rfl
  | nan => rw [mul_nan]; rfl

/-- not below zero: a non-negative real, `+∞` or NaN -/
def NotNeg (x : XR) : Prop := (∃ r, 0 ≤ r ∧ x = fin r) ∨ x = pinf ∨ x = nan

theorem notNeg_iff (x : XR) : Num.lt x (0.0 : XR) = false ↔ NotNeg x := by
  unfold NotNeg
  cases x with
  | fin r => simp only [sci, lt_fin]; norm_num; intro h; rcases h with h | h <;> cases h
  | pinf => simp only [sci]; exact ⟨fun _ => by simp, fun _ => rfl⟩
  | ninf =>
    constructor
    · intro h; simp only [sci] at h; exact absurd h (by simp [Num.lt, XR.lt])
    · intro h; rcases h with ⟨r, _, h⟩ | h | h <;> cases h
  | nan => simp only [sci]; exact ⟨fun _ => by simp, fun _ => rfl⟩

theorem NotNeg.add {x y : XR} (hx : NotNeg x) (hy : NotNeg y) : NotNeg (x + y) := by
  rcases hx with ⟨a, ha, rfl⟩ | rfl | rfl <;> rcases hy with ⟨b, hb, rfl⟩ | rfl | rfl
  · exact .inl ⟨a + b, by linarith, by simp⟩
  all_goals first | exact .inr (.inl rfl) | exact .inr (.inr rfl)

theorem NotNeg.add_eq_zero {x y : XR} (hx : NotNeg x) (hy : NotNeg y) : x + y = fin 0 ↔ x = fin 0 ∧ y = fin 0 := by
  rcases hx with ⟨a, ha, rfl⟩ | rfl | rfl <;> rcases hy with ⟨b, hb, rfl⟩ | rfl | rfl
  · simp only [add_fin, fin.injEq]
    constructor
    · intro h; constructor <;> linarith
    · rintro ⟨rfl, rfl⟩; simp
  all_goals
    constructor
    · intro h; cases h
    · rintro ⟨h1, h2⟩; first | (exact XR.noConfusion h1) | (exact XR.noConfusion h2)

theorem notNeg_sq (e : XR) : NotNeg (e * e) := by
  cases e with
  | fin r => exact .inl ⟨r * r, mul_self_nonneg r, by simp⟩
  | pinf => exact .inr (.inl rfl)
  | ninf => exact .inr (.inl rfl)
  | nan => exact .inr (.inr rfl)

theorem notNeg_half {e : XR} (h : NotNeg e) : NotNeg ((0.5 : XR) * e) := by
  rcases h with ⟨a, ha, rfl⟩ | rfl | rfl
  · exact .inl ⟨0.5 * a, by positivity, by simp⟩
  · refine .inr (.inl ?_)
    simp only [sci]; rw [show fin (OfScientific.ofScientific 5 true 1 : ℝ) * pinf = infOf (0.5) from rfl]
    simp only [infOf]; norm_num
  · exact .inr (.inr rfl)

theorem loss_notNeg (h : Heap XR) (c : Constraint XR) : NotNeg (lossValue h c) := by
  have z : NotNeg (0.0 : XR) := .inl ⟨0, le_refl _, by simp only [sci]; norm_num⟩
  have sq := fun e => (notNeg_iff _).1 (half_sq_not_neg e)
  cases c with
  | arcEnd a p => exact notNeg_half ((notNeg_sq _).add (notNeg_sq _))
  | arcStart a p => exact notNeg_half ((notNeg_sq _).add (notNeg_sq _))
  | fix p d => exact notNeg_half ((notNeg_sq _).add (notNeg_sq _))
  | parallel l m => unfold lossValue; dsimp only; split; exacts [z, sq _]
  | perp l m => unfold lossValue; dsimp only; split; exacts [z, sq _]
  | _ => exact sq _

theorem foldl_notNeg (l : List XR) (x : XR) (hx : NotNeg x) (hl : ∀ y ∈ l, NotNeg y) :
    NotNeg (l.foldl (· + ·) x) ∧ (l.foldl (· + ·) x = fin 0 ↔ x = fin 0 ∧ ∀ y ∈ l, y = fin 0) := by
  induction l generalizing x with
  | nil => simp [hx]
  | cons a l ih =>
    have ha := hl a (by simp)
    obtain ⟨A, B⟩ := ih (x + a) (hx.add ha) fun y hy => hl y (by simp [hy])
    refine ⟨A, ?_⟩
    rw [List.foldl_cons, B, hx.add_eq_zero ha]
    simp [and_assoc]

/-- **C15.** No loss is below zero, in any state of the heap (coordinates and parameters may be infinite or NaN). -/
theorem C15_nonneg (h : Heap XR) (c : Constraint XR) : Num.lt (lossValue h c) (0.0 : XR) = false :=
  (notNeg_iff _).2 (loss_notNeg h c)

/-- **C15.** The total loss is never below zero. -/
theorem C15_total_nonneg (h : Heap XR) (s : Sketch) : Num.lt (getLoss h s) (0.0 : XR) = false := by
  rw [notNeg_iff, C15_sum]
  refine (foldl_notNeg _ _ (.inl ⟨0, le_refl _, by simp only [sci]; norm_num⟩) ?_).1
  intro y hy
  obtain ⟨k, -, rfl⟩ := List.mem_map.1 hy
  exact loss_notNeg _ _

/-- **C15.** In exact arithmetic the total loss is zero iff the loss of every constraint is zero. -/
theorem C15_zero_iff (h : Heap XR) (s : Sketch) :
    getLoss h s = .fin 0 ↔ ∀ k ∈ s.cons, lossValue h (h.cons k) = .fin 0 := by
  rw [C15_sum, (foldl_notNeg _ _ (.inl ⟨0, le_refl _, by simp only [sci]; norm_num⟩) ?_).2]
  · have : (0.0 : XR) = fin 0 := by simp only [sci]; norm_num
    simp [getLossPerConstraint, this]
  · intro y hy
    obtain ⟨k, -, rfl⟩ := List.mem_map.1 hy
    exact loss_notNeg _ _

/-- **C15.** With finite coordinates and parameters the loss is a finite non-negative number. -/
theorem C15_finite (h : Heap XR) (c : Constraint XR) (hf : FiniteCons h c) : ∃ r : ℝ, 0 ≤ r ∧ lossValue h c = .fin r :=
  hf.real.loss

/-! ## Zero loss -/

theorem half_sq_zero (e : ℝ) : (fin (e ^ 2 / 2) = fin 0) ↔ e = 0 := by
  rw [fin.injEq]; simp

theorem half_sum_zero (e f : ℝ) : (fin ((e ^ 2 + f ^ 2) / 2) = fin 0) ↔ e = 0 ∧ f = 0 := by
  rw [fin.injEq]
  constructor
  · intro h; constructor <;> nlinarith [sq_nonneg e, sq_nonneg f]
  · rintro ⟨rfl, rfl⟩; simp

theorem hyp_eq_dist (x1 y1 x2 y2 : ℝ) : hyp (x1 - x2) (y1 - y2) = dist (pt x1 y1) (pt x2 y2) := by
  rw [EuclideanSpace.dist_eq]
  simp [pt, hyp, Real.dist_eq, sq]

theorem hyp_eq_norm (a b : ℝ) : hyp a b = ‖pt a b‖ := by
  rw [EuclideanSpace.norm_eq]
  simp [pt, hyp, sq]

theorem inner_pt (a b c d : ℝ) : inner ℝ (pt a b) (pt c d) = a * c + b * d := by
  simp [pt, PiLp.inner_apply]; ring

theorem pt_sub (a b c d : ℝ) : pt a b - pt c d = pt (a - c) (b - d) := by
  ext i; fin_cases i <;> simp [pt]

theorem arccos_eq_angle (a b c d : ℝ) :
    Real.arccos ((a * c + b * d) / (hyp a b * hyp c d)) = InnerProductGeometry.angle (pt a b) (pt c d) := by
  rw [InnerProductGeometry.angle, inner_pt, hyp_eq_norm, hyp_eq_norm]

section zero
variable {h : Heap XR}

/-- **C16.** The Euclidean distance constraint has loss zero iff the points have the desired distance. -/
theorem C16_euclidean {p1 p2 : Nat} {x1 y1 x2 y2 D : ℝ} (e1 : PointAt h p1 x1 y1) (e2 : PointAt h p2 x2 y2) :
    lossValue h (.euclid p1 p2 (.fin D)) = .fin 0 ↔ dist (pt x1 y1) (pt x2 y2) = D := by
  rw [loss_euclid e1 e2, half_sq_zero, sub_eq_zero, hyp_eq_dist]

/-- **C16.** A negative Euclidean distance cannot be satisfied. -/
theorem C16_negative {p1 p2 : Nat} {x1 y1 x2 y2 D : ℝ} (e1 : PointAt h p1 x1 y1) (e2 : PointAt h p2 x2 y2) (hD : D < 0) :
    lossValue h (.euclid p1 p2 (.fin D)) ≠ .fin 0 := by
  rw [Ne, C16_euclidean e1 e2]
  intro he
  have := dist_nonneg (x := pt x1 y1) (y := pt x2 y2)
  linarith

/-- **C16.** The horizontal distance constraint has loss zero iff `x` of the second point minus `x` of the first is the
desired (signed) distance. -/
theorem C16_horizontal {p1 p2 : Nat} {x1 y1 x2 y2 D : ℝ} (e1 : PointAt h p1 x1 y1) (e2 : PointAt h p2 x2 y2) :
    lossValue h (.horizDist p1 p2 (.fin D)) = .fin 0 ↔ x2 - x1 = D := by
  rw [loss_horiz e1 e2, half_sq_zero, sub_eq_zero]

/-- **C16.** The vertical distance constraint has loss zero iff `y` of the second point minus `y` of the first is the
desired (signed) distance. -/
theorem C16_vertical {p1 p2 : Nat} {x1 y1 x2 y2 D : ℝ} (e1 : PointAt h p1 x1 y1) (e2 : PointAt h p2 x2 y2) :
    lossValue h (.vertDist p1 p2 (.fin D)) = .fin 0 ↔ y2 - y1 = D := by
  rw [loss_vert e1 e2, half_sq_zero, sub_eq_zero]

/-- **C17.** FixPoint has loss zero iff the point is at the desired place. -/
theorem C17_fix {p : Nat} {x y X Y : ℝ} (e : PointAt h p x y) :
    lossValue h (.fix p ⟨.fin X, .fin Y⟩) = .fin 0 ↔ x = X ∧ y = Y := by
  rw [loss_fix e, half_sum_zero, sub_eq_zero, sub_eq_zero]

/-- **C17.** ArcStartPointCoincident has loss zero iff the point is where the arc starts: at angle `t0` on the circle of
radius `r` around the centre. -/
theorem C17_arc_start {a p : Nat} {x y cx cy r t0 t1 : ℝ} (e : PointAt h p x y) (ea : ArcAt h a cx cy r t0 t1) :
    lossValue h (.arcStart a p) = .fin 0 ↔ x = cx + r * Real.cos t0 ∧ y = cy + r * Real.sin t0 := by
  rw [loss_arcStart e (startPoint_fin ea.1 ea.2), half_sum_zero, sub_eq_zero, sub_eq_zero]
  simp [eq_comm]

/-- **C17.** ArcEndPointCoincident has loss zero iff the point is where the arc ends. -/
theorem C17_arc_end {a p : Nat} {x y cx cy r t0 t1 : ℝ} (e : PointAt h p x y) (ea : ArcAt h a cx cy r t0 t1) :
    lossValue h (.arcEnd a p) = .fin 0 ↔ x = cx + r * Real.cos t1 ∧ y = cy + r * Real.sin t1 := by
  rw [loss_arcEnd e (endPoint_fin ea.1 ea.2), half_sum_zero, sub_eq_zero, sub_eq_zero]
  simp [eq_comm]

/-- **C18.** HorizontalLine has loss zero iff the end points have the same `y`. -/
theorem C18_horizontal {l : Nat} {x1 y1 x2 y2 : ℝ} (e : LineAt h l x1 y1 x2 y2) :
    lossValue h (.horizLine l) = .fin 0 ↔ y1 = y2 := by
  rw [loss_horizLine e.1 e.2, half_sq_zero, sub_eq_zero, eq_comm]

/-- **C18.** VerticalLine has loss zero iff the end points have the same `x`. -/
theorem C18_vertical {l : Nat} {x1 y1 x2 y2 : ℝ} (e : LineAt h l x1 y1 x2 y2) :
    lossValue h (.vertLine l) = .fin 0 ↔ x1 = x2 := by
  rw [loss_vertLine e.1 e.2, half_sq_zero, sub_eq_zero, eq_comm]

/-- **C18.** EqualLength has loss zero iff the lines have the same length. -/
theorem C18_equal_length {l m : Nat} {x1 y1 x2 y2 u1 v1 u2 v2 : ℝ} (e : LineAt h l x1 y1 x2 y2)
    (f : LineAt h m u1 v1 u2 v2) :
    lossValue h (.eqLen l m) = .fin 0 ↔ dist (pt x1 y1) (pt x2 y2) = dist (pt u1 v1) (pt u2 v2) := by
  rw [loss_eqLen e.1 e.2 f.1 f.2, half_sq_zero, sub_eq_zero, hyp_eq_dist, hyp_eq_dist, dist_comm, dist_comm (pt u1 v1)]

/-- **C18.** ParallelLines has loss zero iff the cross product of the directions is zero (also if a line is degenerate). -/
theorem C18_parallel {l m : Nat} {x1 y1 x2 y2 u1 v1 u2 v2 : ℝ} (e : LineAt h l x1 y1 x2 y2)
    (f : LineAt h m u1 v1 u2 v2) :
    lossValue h (.parallel l m) = .fin 0 ↔ (x2 - x1) * (v2 - v1) = (y2 - y1) * (u2 - u1) := by
  rw [loss_parallel e.1 e.2 f.1 f.2, half_sq_zero, crossOf]
  split
  · rename_i hz
    simp only [hyp_eq_zero] at hz
    rcases hz with ⟨a, b⟩ | ⟨a, b⟩ <;> simp [a, b]
  · rename_i hz
    rw [not_or] at hz
    rw [div_eq_zero_iff, sub_eq_zero]
    simp [hz.1, hz.2]

/-- **C18.** PerpendicularLines has loss zero iff the dot product of the directions is zero (also if a line is
degenerate). -/
theorem C18_perpendicular {l m : Nat} {x1 y1 x2 y2 u1 v1 u2 v2 : ℝ} (e : LineAt h l x1 y1 x2 y2)
    (f : LineAt h m u1 v1 u2 v2) :
    lossValue h (.perp l m) = .fin 0 ↔ (x2 - x1) * (u2 - u1) + (y2 - y1) * (v2 - v1) = 0 := by
  rw [loss_perp e.1 e.2 f.1 f.2, half_sq_zero, dotOf]
  split
  · rename_i hz
    simp only [hyp_eq_zero] at hz
    rcases hz with ⟨a, b⟩ | ⟨a, b⟩ <;> simp [a, b]
  · rename_i hz
    rw [not_or] at hz
    rw [div_eq_zero_iff]
    simp [hz.1, hz.2]

/-- **C19.** With both arms at least `1e-6` long the angle constraint has loss zero iff the angle at the middle point is
the desired one. -/
theorem C19_angle {p1 p2 mid : Nat} {x1 y1 x2 y2 x y D : ℝ} (e1 : PointAt h p1 x1 y1) (e2 : PointAt h p2 x2 y2)
    (e : PointAt h mid x y) (a1 : 1e-6 ≤ dist (pt x1 y1) (pt x y)) (a2 : 1e-6 ≤ dist (pt x2 y2) (pt x y)) :
    lossValue h (.angle p1 p2 mid (.fin D)) = .fin 0 ↔ EuclideanGeometry.angle (pt x1 y1) (pt x y) (pt x2 y2) = D := by
  rw [loss_angle e1 e2 e, half_sq_zero, sub_eq_zero, angleOf, hyp_eq_dist, hyp_eq_dist,
    if_neg (not_or.2 ⟨not_lt.2 a1, not_lt.2 a2⟩), ← hyp_eq_dist, ← hyp_eq_dist, arccos_eq_angle,
    EuclideanGeometry.angle, vsub_eq_sub, vsub_eq_sub, pt_sub, pt_sub]

/-- **C19.** If an arm is shorter than `1e-6` the angle counts as zero. -/
theorem C19_short_arm {p1 p2 mid : Nat} {x1 y1 x2 y2 x y D : ℝ} (e1 : PointAt h p1 x1 y1) (e2 : PointAt h p2 x2 y2)
    (e : PointAt h mid x y) (a : dist (pt x1 y1) (pt x y) < 1e-6 ∨ dist (pt x2 y2) (pt x y) < 1e-6) :
    lossValue h (.angle p1 p2 mid (.fin D)) = .fin 0 ↔ D = 0 := by
  rw [loss_angle e1 e2 e, half_sq_zero, sub_eq_zero, angleOf, hyp_eq_dist, hyp_eq_dist, if_pos a, eq_comm]

/-- **C19.** A desired angle outside `[0, π]` cannot be satisfied. -/
theorem C19_unsatisfiable {p1 p2 mid : Nat} {x1 y1 x2 y2 x y D : ℝ} (e1 : PointAt h p1 x1 y1) (e2 : PointAt h p2 x2 y2)
    (e : PointAt h mid x y) (hD : D < 0 ∨ Real.pi < D) : lossValue h (.angle p1 p2 mid (.fin D)) ≠ .fin 0 := by
  rw [loss_angle e1 e2 e, Ne, half_sq_zero, sub_eq_zero, angleOf]
  intro he
  split at he
  · rcases hD with hD | hD
    · linarith
    · have := Real.pi_pos; linarith
  · have := Real.arccos_nonneg (((x1 - x) * (x2 - x) + (y1 - y) * (y2 - y)) / (hyp (x1 - x) (y1 - y) * hyp (x2 - x) (y2 - y)))
    have := Real.arccos_le_pi (((x1 - x) * (x2 - x) + (y1 - y) * (y2 - y)) / (hyp (x1 - x) (y1 - y) * hyp (x2 - x) (y2 - y)))
    rcases hD with hD | hD <;> linarith

end zero

/-! ## Position and orientation -/

/-- all points moved by `(tx, ty)` -/
noncomputable def Heap.translate (h : Heap XR) (tx ty : ℝ) : Heap XR :=
  { h with points := fun a => { h.points a with data := ⟨(h.points a).data.x + .fin tx, (h.points a).data.y + .fin ty⟩ } }

/-- everything turned by `φ` around the origin: points are rotated, arc angles increased -/
noncomputable def Heap.rotate (h : Heap XR) (φ : ℝ) : Heap XR :=
  { h with
    points := fun a => { h.points a with
      data := ⟨.fin (Real.cos φ) * (h.points a).data.x - .fin (Real.sin φ) * (h.points a).data.y,
               .fin (Real.sin φ) * (h.points a).data.x + .fin (Real.cos φ) * (h.points a).data.y⟩ }
    arcs := fun a => { h.arcs a with
      data := ⟨(h.arcs a).data.a0, (h.arcs a).data.a1 + .fin φ, (h.arcs a).data.a2 + .fin φ⟩ } }

section move
variable {h : Heap XR}

theorem ptData_translate {p : Nat} {x y : ℝ} (tx ty : ℝ) (e : ptData h p = ⟨fin x, fin y⟩) :
    ptData (h.translate tx ty) p = ⟨fin (x + tx), fin (y + ty)⟩ := by
  simp only [ptData] at e
  simp [ptData, Heap.translate, e]

theorem ptData_rotate {p : Nat} {x y : ℝ} (φ : ℝ) (e : ptData h p = ⟨fin x, fin y⟩) :
    ptData (h.rotate φ) p =
      ⟨fin (Real.cos φ * x - Real.sin φ * y), fin (Real.sin φ * x + Real.cos φ * y)⟩ := by
  simp only [ptData] at e
  simp [ptData, Heap.rotate, e]

theorem arcData_rotate {a : Nat} {r t0 t1 : ℝ} (φ : ℝ) (e : (h.arcs a).data = ⟨fin r, fin t0, fin t1⟩) :
    ((h.rotate φ).arcs a).data = ⟨fin r, fin (t0 + φ), fin (t1 + φ)⟩ := by
  simp [Heap.rotate, e]

/-- the constraint refers to a position of the plane -/
def isFix : Constraint XR → Bool
  | .fix .. => true
  | _ => false

/-- the constraint refers to a position or to a direction of the plane -/
def isDirected : Constraint XR → Bool
  | .fix .. => true
  | .horizDist .. => true
  | .vertDist .. => true
  | .horizLine .. => true
  | .vertLine .. => true
  | _ => false

/-- **C57.** Moving the whole sketch does not change the loss of any constraint but FixPoint. -/
theorem C57_translation (c : Constraint XR) (hf : FiniteCons h c) (hk : isFix c = false) (tx ty : ℝ) :
    lossValue (h.translate tx ty) c = lossValue h c := by
  cases hf.real with
  | angle e1 e2 e =>
    rw [loss_angle e1 e2 e, loss_angle (ptData_translate tx ty e1) (ptData_translate tx ty e2) (ptData_translate tx ty e)]
    simp only [add_sub_add_right_eq_sub]
  | arcEnd e ec ea =>
    rw [loss_arcEnd e (endPoint_fin ec ea),
      loss_arcEnd (ptData_translate tx ty e) (endPoint_fin (ptData_translate tx ty ec) ea)]
    congr 1; ring
  | arcStart e ec ea =>
    rw [loss_arcStart e (startPoint_fin ec ea),
      loss_arcStart (ptData_translate tx ty e) (startPoint_fin (ptData_translate tx ty ec) ea)]
    congr 1; ring
  | euclid e1 e2 =>
    rw [loss_euclid e1 e2, loss_euclid (ptData_translate tx ty e1) (ptData_translate tx ty e2)]
    simp only [add_sub_add_right_eq_sub]
  | horizDist e1 e2 =>
    rw [loss_horiz e1 e2, loss_horiz (ptData_translate tx ty e1) (ptData_translate tx ty e2)]
    simp only [add_sub_add_right_eq_sub]
  | vertDist e1 e2 =>
    rw [loss_vert e1 e2, loss_vert (ptData_translate tx ty e1) (ptData_translate tx ty e2)]
    simp only [add_sub_add_right_eq_sub]
  | fix e => simp [isFix] at hk
  | eqLen e1 e2 f1 f2 =>
    rw [loss_eqLen e1 e2 f1 f2, loss_eqLen (h := h.translate tx ty) (ptData_translate tx ty e1) (ptData_translate tx ty e2)
      (ptData_translate tx ty f1) (ptData_translate tx ty f2)]
    simp only [add_sub_add_right_eq_sub]
  | horizLine e1 e2 =>
    rw [loss_horizLine e1 e2, loss_horizLine (h := h.translate tx ty) (ptData_translate tx ty e1) (ptData_translate tx ty e2)]
    simp only [add_sub_add_right_eq_sub]
  | vertLine e1 e2 =>
    rw [loss_vertLine e1 e2, loss_vertLine (h := h.translate tx ty) (ptData_translate tx ty e1) (ptData_translate tx ty e2)]
    simp only [add_sub_add_right_eq_sub]
  | parallel e1 e2 f1 f2 =>
    rw [loss_parallel e1 e2 f1 f2, loss_parallel (h := h.translate tx ty) (ptData_translate tx ty e1) (ptData_translate tx ty e2)
      (ptData_translate tx ty f1) (ptData_translate tx ty f2)]
    simp only [add_sub_add_right_eq_sub]
  | perp e1 e2 f1 f2 =>
    rw [loss_perp e1 e2 f1 f2, loss_perp (h := h.translate tx ty) (ptData_translate tx ty e1) (ptData_translate tx ty e2)
      (ptData_translate tx ty f1) (ptData_translate tx ty f2)]
    simp only [add_sub_add_right_eq_sub]

theorem hyp_rot (φ a b : ℝ) :
    hyp (Real.cos φ * a - Real.sin φ * b) (Real.sin φ * a + Real.cos φ * b) = hyp a b := by
  unfold hyp; congr 1
  linear_combination (a * a + b * b) * Real.sin_sq_add_cos_sq φ

theorem rot_sub1 (φ a b c d : ℝ) : (Real.cos φ * a - Real.sin φ * b) - (Real.cos φ * c - Real.sin φ * d) =
    Real.cos φ * (a - c) - Real.sin φ * (b - d) := by ring
theorem rot_sub2 (φ a b c d : ℝ) : (Real.sin φ * a + Real.cos φ * b) - (Real.sin φ * c + Real.cos φ * d) =
    Real.sin φ * (a - c) + Real.cos φ * (b - d) := by ring
theorem rot_dot (φ a b c d : ℝ) : (Real.cos φ * a - Real.sin φ * b) * (Real.cos φ * c - Real.sin φ * d) +
    (Real.sin φ * a + Real.cos φ * b) * (Real.sin φ * c + Real.cos φ * d) = a * c + b * d := by
  linear_combination (a * c + b * d) * Real.sin_sq_add_cos_sq φ
theorem rot_cross (φ a b c d : ℝ) : (Real.cos φ * a - Real.sin φ * b) * (Real.sin φ * c + Real.cos φ * d) -
    (Real.sin φ * a + Real.cos φ * b) * (Real.cos φ * c - Real.sin φ * d) = a * d - b * c := by
  linear_combination (a * d - b * c) * Real.sin_sq_add_cos_sq φ
theorem rot_sq (φ a b : ℝ) : (Real.cos φ * a - Real.sin φ * b) ^ 2 + (Real.sin φ * a + Real.cos φ * b) ^ 2 = a ^ 2 + b ^ 2 := by
  linear_combination (a ^ 2 + b ^ 2) * Real.sin_sq_add_cos_sq φ

/-- **C57.** Turning the whole sketch does not change the loss of the constraints that do not refer to the axes. -/
theorem C57_rotation (c : Constraint XR) (hf : FiniteCons h c) (hk : isDirected c = false) (φ : ℝ) :
    lossValue (h.rotate φ) c = lossValue h c := by
  cases hf.real with
  | angle e1 e2 e =>
    rw [loss_angle e1 e2 e, loss_angle (ptData_rotate φ e1) (ptData_rotate φ e2) (ptData_rotate φ e)]
    simp only [rot_sub1, rot_sub2, angleOf, hyp_rot, rot_dot]
  | arcEnd e ec ea =>
    rw [loss_arcEnd e (endPoint_fin ec ea),
      loss_arcEnd (ptData_rotate φ e) (endPoint_fin (ptData_rotate φ ec) (arcData_rotate φ ea)),
      Real.cos_add, Real.sin_add]
    congr 2
    refine Eq.trans ?_ (rot_sq φ _ _)
    congr 2 <;> ring
  | arcStart e ec ea =>
    rw [loss_arcStart e (startPoint_fin ec ea),
      loss_arcStart (ptData_rotate φ e) (startPoint_fin (ptData_rotate φ ec) (arcData_rotate φ ea)),
      Real.cos_add, Real.sin_add]
    congr 2
    refine Eq.trans ?_ (rot_sq φ _ _)
    congr 2 <;> ring
  | euclid e1 e2 =>
    rw [loss_euclid e1 e2, loss_euclid (ptData_rotate φ e1) (ptData_rotate φ e2)]
    simp only [rot_sub1, rot_sub2, hyp_rot]
  | horizDist e1 e2 => simp [isDirected] at hk
  | vertDist e1 e2 => simp [isDirected] at hk
  | fix e => simp [isDirected] at hk
  | eqLen e1 e2 f1 f2 =>
    rw [loss_eqLen e1 e2 f1 f2, loss_eqLen (h := h.rotate φ) (ptData_rotate φ e1) (ptData_rotate φ e2)
      (ptData_rotate φ f1) (ptData_rotate φ f2)]
    simp only [rot_sub1, rot_sub2, hyp_rot]
  | horizLine e1 e2 => simp [isDirected] at hk
  | vertLine e1 e2 => simp [isDirected] at hk
  | parallel e1 e2 f1 f2 =>
    rw [loss_parallel e1 e2 f1 f2, loss_parallel (h := h.rotate φ) (ptData_rotate φ e1) (ptData_rotate φ e2)
      (ptData_rotate φ f1) (ptData_rotate φ f2)]
    simp only [rot_sub1, rot_sub2, crossOf, hyp_rot, rot_cross]
  | perp e1 e2 f1 f2 =>
    rw [loss_perp e1 e2 f1 f2, loss_perp (h := h.rotate φ) (ptData_rotate φ e1) (ptData_rotate φ e2)
      (ptData_rotate φ f1) (ptData_rotate φ f2)]
    simp only [rot_sub1, rot_sub2, dotOf, hyp_rot, rot_dot]

end move

/-! ## Examples -/

/-- three points, two lines and an arc with finite coordinates -/
noncomputable def exHeap : Heap XR where
  points a := ⟨if a = 0 then ⟨.fin 0, .fin 0⟩ else if a = 1 then ⟨.fin 3, .fin 0⟩ else ⟨.fin 0, .fin 4⟩, ⟨.fin 0, .fin 0⟩⟩
  lines a := if a = 0 then ⟨0, 1⟩ else ⟨0, 2⟩
  arcs _ := ⟨0, ⟨.fin 3, .fin 0, .fin (Real.pi / 2)⟩, ⟨.fin 0, .fin 0, .fin 0⟩, false⟩
  circles _ := ⟨0, .fin 1, .fin 0⟩
  cons a := if a = 0 then .euclid 1 2 (.fin 5) else if a = 1 then .perp 0 1 else .eqLen 0 1
  nPoints := 3
  nLines := 2
  nArcs := 1
  nCircles := 0
  nCons := 3

theorem ex_point0 : PointAt exHeap 0 0 0 := by simp [PointAt, exHeap]
theorem ex_point1 : PointAt exHeap 1 3 0 := by simp [PointAt, exHeap]
theorem ex_point2 : PointAt exHeap 2 0 4 := by simp [PointAt, exHeap]
theorem ex_line0 : LineAt exHeap 0 0 0 3 0 := by simp [LineAt, PointAt, exHeap]
theorem ex_line1 : LineAt exHeap 1 0 0 0 4 := by simp [LineAt, PointAt, exHeap]
theorem ex_arc : ArcAt exHeap 0 0 0 3 0 (Real.pi / 2) := by simp [ArcAt, PointAt, exHeap]

/-- C16: the points (3,0) and (0,4) satisfy the distance 5 -/
example : lossValue exHeap (.euclid 1 2 (.fin 5)) = .fin 0 := by
  rw [C16_euclidean ex_point1 ex_point2, ← hyp_eq_dist, hyp]
  rw [show ((3 : ℝ) - 0) * (3 - 0) + (0 - 4) * (0 - 4) = 5 ^ 2 by norm_num, Real.sqrt_sq (by norm_num)]
/-- C16: and not the distance 6 -/
example : lossValue exHeap (.euclid 1 2 (.fin 6)) ≠ .fin 0 := by
  rw [Ne, C16_euclidean ex_point1 ex_point2, ← hyp_eq_dist, hyp]
  rw [show ((3 : ℝ) - 0) * (3 - 0) + (0 - 4) * (0 - 4) = 5 ^ 2 by norm_num, Real.sqrt_sq (by norm_num)]
  norm_num
/-- C16: signed horizontal distance -/
example : lossValue exHeap (.horizDist 1 2 (.fin (-3))) = .fin 0 := by
  rw [C16_horizontal ex_point1 ex_point2]; norm_num
/-- C17: the arc starts at point 1 -/
example : lossValue exHeap (.arcStart 0 1) = .fin 0 := by
  rw [C17_arc_start ex_point1 ex_arc]; simp
/-- C17: the arc ends at (0,3), not at point 2 -/
example : lossValue exHeap (.arcEnd 0 2) ≠ .fin 0 := by
  rw [Ne, C17_arc_end ex_point2 ex_arc]; simp
/-- C18: the two lines are perpendicular, not parallel -/
example : lossValue exHeap (.perp 0 1) = .fin 0 ∧ lossValue exHeap (.parallel 0 1) ≠ .fin 0 := by
  rw [C18_perpendicular ex_line0 ex_line1, Ne, C18_parallel ex_line0 ex_line1]; norm_num
/-- C19: the arms are long enough -/
example : (1e-6 : ℝ) ≤ dist (pt 3 0) (pt 0 0) ∧ (1e-6 : ℝ) ≤ dist (pt 0 4) (pt 0 0) := by
  rw [← hyp_eq_dist, ← hyp_eq_dist, hyp, hyp]
  rw [show ((3 : ℝ) - 0) * (3 - 0) + (0 - 0) * (0 - 0) = 3 ^ 2 by norm_num, Real.sqrt_sq (by norm_num),
    show ((0 : ℝ) - 0) * (0 - 0) + (4 - 0) * (4 - 0) = 4 ^ 2 by norm_num, Real.sqrt_sq (by norm_num)]
  norm_num
/-- C15, C57: a constraint with finite data -/
example : FiniteCons exHeap (.euclid 1 2 (.fin 5)) := by
  constructor
  · simp [consDeps, consFields, primFields, primData, exHeap]
  · simp [consParams]

end Isotope
