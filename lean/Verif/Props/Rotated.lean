import Verif.Props.Rectangles
import Verif.Props.Data

/-!
# The rotated rectangle (C65)
-/

namespace Isotope
open XR

section any
variable {F : Type} [Num F]

/-- the points of the rotated rectangle at their creation -/
def rotPoint (k : Nat) : Point2 F :=
  match k with
  | 0 => Point2.new 0.0 0.1
  | 1 => Point2.new 0.3 0.0
  | 2 => Point2.new 0.3 0.3
  | 3 => Point2.new 0.1 0.3
  | _ => Point2.new 1.0 0.0

/-- the constraints of the rotated rectangle in the order of their creation -/
def rotCons (k : Nat) : Constraint F :=
  match k with
  | 0 => .fix 0 ⟨0.0, 0.0⟩
  | 1 => .perp 0 1
  | 2 => .perp 1 2
  | 3 => .perp 2 3
  | 4 => .euclid 0 1 2.0
  | 5 => .euclid 0 3 3.0
  | 6 => .fix 4 ⟨1.0, 0.0⟩
  | _ => .angle 4 1 0 ((45.0 : F) * (Num.pi / 180.0))

/-- the rotated rectangle after the given numbers of additions -/
def rotWorld (n m k : Nat) : World F := layout rotPoint rectLine rotCons n m k

theorem rot_eq (h0 : Num.isFinite (0.0 : F) = true) (h1 : Num.isFinite (1.0 : F) = true) (h2 : Num.isFinite (2.0 : F) = true)
    (h3 : Num.isFinite (3.0 : F) = true) (ha : Num.isFinite ((45.0 : F) * (Num.pi / 180.0)) = true) :
    (rotatedNew : Option (Rectangle F)) = some ⟨rotWorld 5 4 8, 0, 1, 2, 3, 4⟩ := by
  have pt : ∀ n (x y : F), n < 5 → rotPoint n = Point2.new x y →
      unwrapAddr (addPoint2 (rotWorld n 0 0 : World F) x y) = some (n, rotWorld (n + 1) 0 0) := by
    intro n x y hn hp
    rw [rotWorld, layout_addPoint rotPoint _ _ n _ (x := x) (y := y) hp (by unfold u64Size; omega)]
    rfl
  have ln : ∀ m, m < 4 → unwrapAddr (addLine (rotWorld 5 m 0 : World F) m ((m + 1) % 4)) = some (m, rotWorld 5 (m + 1) 0) := by
    intro m hm
    rw [rotWorld, layout_addLine _ rectLine _ 5 m _ (s := m) (e := (m + 1) % 4) rfl (by omega) (by omega) (by unfold u64Size; omega)]
    rfl
  have cn : ∀ k (c : Constraint F), rotCons k = c → consNewOk c = true → (∀ r ∈ consFields c, r ∈ (rotWorld 5 4 k : World F).sketch.cells) →
      unwrapAddr (constrain (rotWorld 5 4 k : World F) c) = some (k, rotWorld 5 4 (k + 1)) := by
    intro k c hc hok hr
    rw [rotWorld, layout_constrain _ _ rotCons 5 4 k hc hok hr]
    rfl
  have mp : ∀ {k a : Nat}, a < 5 → PrimCell.point a ∈ (rotWorld 5 4 k : World F).sketch.cells :=
    fun h => (layout_mem_point _ _ _ _ _ _ _).2 h
  have ml : ∀ {k a : Nat}, a < 4 → PrimCell.line a ∈ (rotWorld 5 4 k : World F).sketch.cells :=
    fun h => (layout_mem_line _ _ _ _ _ _ _).2 h
  unfold rotatedNew
  rw [← layout_init (F := F) rotPoint rectLine rotCons]
  refine bind_step (pt 0 _ _ (by norm_num) rfl) ?_
  refine bind_step (pt 1 _ _ (by norm_num) rfl) ?_
  refine bind_step (pt 2 _ _ (by norm_num) rfl) ?_
  refine bind_step (pt 3 _ _ (by norm_num) rfl) ?_
  refine bind_step (pt 4 _ _ (by norm_num) rfl) ?_
  refine bind_step (ln 0 (by norm_num)) ?_
  refine bind_step (ln 1 (by norm_num)) ?_
  refine bind_step (ln 2 (by norm_num)) ?_
  refine bind_step (ln 3 (by norm_num)) ?_
  refine bind_step (cn 0 _ rfl (by simp [consNewOk, Vec2.allFinite, h0]) (by simp [consFields, mp])) ?_
  refine bind_step (cn 1 _ rfl rfl (by simp [consFields, ml])) ?_
  refine bind_step (cn 2 _ rfl rfl (by simp [consFields, ml])) ?_
  refine bind_step (cn 3 _ rfl rfl (by simp [consFields, ml])) ?_
  refine bind_step (cn 4 _ rfl h2 (by simp [consFields, mp])) ?_
  refine bind_step (cn 5 _ rfl h3 (by simp [consFields, mp])) ?_
  refine bind_step (cn 6 _ rfl (by simp [consNewOk, Vec2.allFinite, h0, h1]) (by simp [consFields, mp])) ?_
  refine bind_step (cn 7 _ rfl ha (by simp [consFields, mp])) ?_
  rfl

/-- **C65.** `RotatedRectangleDemo::new` returns `Ok`; the sketch has 9 primitives and 8 constraints and is closed. -/
theorem C65_rotated_build (h0 : Num.isFinite (0.0 : F) = true) (h1 : Num.isFinite (1.0 : F) = true)
    (h2 : Num.isFinite (2.0 : F) = true) (h3 : Num.isFinite (3.0 : F) = true)
    (ha : Num.isFinite ((45.0 : F) * (Num.pi / 180.0)) = true) :
    ∃ r : Rectangle F, rotatedNew = some r ∧ [r.a, r.b, r.c, r.d, r.ref].Nodup ∧ r.world.sketch.getNumPrimitives = 9 ∧
      r.world.sketch.getNumConstraints = 8 ∧ Closed r.world := by
  refine ⟨_, rot_eq h0 h1 h2 h3 ha, by simp, rfl, rfl, ?_, ?_⟩
  · show ∀ c ∈ [PrimCell.point 0, .point 1, .point 2, .point 3, .point 4, .line 0, .line 1, .line 2, .line 3], _
    simp [rotWorld, layout, primFields, rectLine, Sketch.cells, List.range_succ]
  · show ∀ c ∈ [0, 1, 2, 3, 4, 5, 6, 7], _
    simp [rotWorld, layout, consFields, rotCons, Sketch.cells, List.range_succ]

end any

/-! ## Exact arithmetic -/

theorem xr_quarter : ((45.0 : XR) * (Num.pi / 180.0)) = fin (Real.pi / 4) := by
  simp only [sci, pi_fin]
  rw [div_fin_of_ne _ (by norm_num), mul_fin]
  congr 1
  norm_num
  ring

theorem rot_xr_eq : (rotatedNew : Option (Rectangle XR)) = some ⟨rotWorld 5 4 8, 0, 1, 2, 3, 4⟩ :=
  rot_eq (by rw [xr_zero]; rfl) (by rw [xr_one]; rfl) (by rw [xr_two]; rfl) (by rw [xr_three]; rfl) (by rw [xr_quarter]; rfl)

theorem rot_xr {r : Rectangle XR} (hb : rotatedNew = some r) : r = ⟨rotWorld 5 4 8, 0, 1, 2, 3, 4⟩ := by
  rw [rot_xr_eq, Option.some.injEq] at hb
  exact hb.symm

section
variable {h : Heap XR} (hr : SameRefs (rotWorld 5 4 8 : World XR).heap h)
include hr

theorem rot_zero : getLoss h (rotWorld 5 4 8 : World XR).sketch = fin 0 ↔
    lossValue h (.fix 0 ⟨fin 0, fin 0⟩) = fin 0 ∧ lossValue h (.perp 0 1) = fin 0 ∧ lossValue h (.perp 1 2) = fin 0 ∧
    lossValue h (.perp 2 3) = fin 0 ∧ lossValue h (.euclid 0 1 (fin 2)) = fin 0 ∧ lossValue h (.euclid 0 3 (fin 3)) = fin 0 ∧
    lossValue h (.fix 4 ⟨fin 1, fin 0⟩) = fin 0 ∧ lossValue h (.angle 4 1 0 (fin (Real.pi / 4))) = fin 0 := by
  rw [C15_zero_iff, hr.cons, show (rotWorld 5 4 8 : World XR).sketch.cons = [0, 1, 2, 3, 4, 5, 6, 7] from rfl]
  have e : ∀ k, k < 8 → (rotWorld 5 4 8 : World XR).heap.cons k = rotCons k := by
    intro k hk; simp [rotWorld, layout, hk]
  simp only [List.forall_mem_cons]
  rw [e 0 (by norm_num), e 1 (by norm_num), e 2 (by norm_num), e 3 (by norm_num), e 4 (by norm_num), e 5 (by norm_num),
    e 6 (by norm_num), e 7 (by norm_num)]
  simp only [rotCons, xr_zero, xr_one, xr_two, xr_three, xr_quarter]
  simp

theorem rot_line {i : Nat} (hi : i < 4) {x1 y1 x2 y2 : ℝ} (p : PointAt h i x1 y1) (q : PointAt h ((i + 1) % 4) x2 y2) :
    LineAt h i x1 y1 x2 y2 := by
  have : h.lines i = ⟨i, (i + 1) % 4⟩ := by
    rw [hr.lines]; simp [rotWorld, layout, hi, rectLine]
  constructor
  · rw [this]; exact p
  · rw [this]; exact q

theorem rot_finite (hL : getLoss h (rotWorld 5 4 8 : World XR).sketch = fin 0) :
    PointAt h 0 0 0 ∧ PointAt h 4 1 0 ∧ (∃ x y, PointAt h 1 x y) ∧ ∃ x y, PointAt h 3 x y := by
  obtain ⟨g0, -, -, -, g4, g5, g6, -⟩ := (rot_zero hr).1 hL
  have fixp : ∀ {p : Nat} {X Y : ℝ}, lossValue h (.fix p ⟨fin X, fin Y⟩) = fin 0 → PointAt h p X Y := by
    intro p X Y g
    have g' := g
    obtain ⟨_, _, e1, e2, -⟩ := half_add_eq_fin g
    obtain ⟨x, _, x1, -, -⟩ := sub_eq_fin e1
    obtain ⟨y, _, y1, -, -⟩ := sub_eq_fin e2
    have hp := pointAt_of x1 y1
    obtain ⟨rfl, rfl⟩ := (C17_fix hp).1 g'
    exact hp
  have eup : ∀ {p : Nat} {D : ℝ}, lossValue h (.euclid 0 p (fin D)) = fin 0 → ∃ x y, PointAt h p x y := by
    intro p D g
    simp only [lossValue] at g
    obtain ⟨_, g, -⟩ := half_sq_eq_fin g
    obtain ⟨n, _, g, -, -⟩ := sub_eq_fin g
    unfold euclidCurrent Vec2.norm at g
    have : ∀ {a : XR} {r : ℝ}, Num.sqrt a = fin r → ∃ b, a = fin b := by
      intro a r h
      cases a with
      | fin b => exact ⟨b, rfl⟩
      | pinf => cases h
      | ninf => cases h
      | nan => cases h
    obtain ⟨b, g⟩ := this g
    obtain ⟨_, _, g1, g2, -⟩ := add_eq_fin g
    obtain ⟨_, _, g1, -, -⟩ := mul_eq_fin g1
    obtain ⟨_, _, g2, -, -⟩ := mul_eq_fin g2
    obtain ⟨_, x, -, hx, -⟩ := sub_eq_fin g1
    obtain ⟨_, y, -, hy, -⟩ := sub_eq_fin g2
    exact ⟨x, y, pointAt_of hx hy⟩
  exact ⟨fixp g0, fixp g6, eup g4, eup g5⟩

/-- the loss is zero iff the points satisfy these equations -/
theorem rot_eqs {bx by' cx cy dx dy : ℝ} (pa : PointAt h 0 0 0) (pr : PointAt h 4 1 0) (pb : PointAt h 1 bx by')
    (pc : PointAt h 2 cx cy) (pd : PointAt h 3 dx dy) : getLoss h (rotWorld 5 4 8 : World XR).sketch = fin 0 ↔
      bx * (cx - bx) + by' * (cy - by') = 0 ∧ (cx - bx) * (dx - cx) + (cy - by') * (dy - cy) = 0 ∧
      (dx - cx) * (0 - dx) + (dy - cy) * (0 - dy) = 0 ∧ bx = √2 ∧ by' ^ 2 = 2 ∧ dx ^ 2 + dy ^ 2 = 9 := by
  rw [rot_zero hr, C17_fix pa, C17_fix pr, C18_perpendicular (rot_line hr (by norm_num) pa pb) (rot_line hr (by norm_num) pb pc),
    C18_perpendicular (rot_line hr (by norm_num) pb pc) (rot_line hr (by norm_num) pc pd),
    C18_perpendicular (rot_line hr (by norm_num) pc pd) (rot_line hr (i := 3) (by norm_num) pd pa),
    C16_euclidean pa pb, C16_euclidean pa pd, ← hyp_eq_dist, ← hyp_eq_dist]
  have s2 : √2 ^ 2 = (2 : ℝ) := Real.sq_sqrt (by norm_num)
  have e3 : hyp (0 - dx) (0 - dy) = 3 ↔ dx ^ 2 + dy ^ 2 = 9 := by
    unfold hyp
    rw [Real.sqrt_eq_iff_mul_self_eq (sq_sum_nonneg _ _) (by norm_num)]
    constructor <;> intro h <;> nlinarith
  have e2 : (hyp (0 - bx) (0 - by') = 2 ∧ lossValue h (.angle 4 1 0 (fin (Real.pi / 4))) = fin 0) ↔ bx = √2 ∧ by' ^ 2 = 2 := by
    have : hyp (0 - bx) (0 - by') = 2 ↔ bx ^ 2 + by' ^ 2 = 4 := by
      unfold hyp
      rw [Real.sqrt_eq_iff_mul_self_eq (sq_sum_nonneg _ _) (by norm_num)]
      constructor <;> intro h <;> nlinarith
    rw [this]
    have an : bx ^ 2 + by' ^ 2 = 4 → (lossValue h (.angle 4 1 0 (fin (Real.pi / 4))) = fin 0 ↔ bx / 2 = √2 / 2) := by
      intro h4
      have h2 : hyp (bx - 0) (by' - 0) = 2 := by
        unfold hyp
        rw [Real.sqrt_eq_iff_mul_self_eq (sq_sum_nonneg _ _) (by norm_num)]
        nlinarith
      have h1 : hyp (1 - 0) (0 - 0) = 1 := by unfold hyp; norm_num
      rw [loss_angle pr pb pa, half_sq_zero, sub_eq_zero, angleOf, h1, h2, if_neg (by norm_num)]
      have lo : -1 ≤ bx / 2 := by nlinarith
      have hi : bx / 2 ≤ 1 := by nlinarith
      rw [show ((1 - 0) * (bx - 0) + (0 - 0) * (by' - 0)) / (1 * 2) = bx / 2 by ring]
      constructor
      · intro e
        rw [← Real.cos_arccos lo hi, e, Real.cos_pi_div_four]
      · intro e
        rw [e, ← Real.cos_pi_div_four, Real.arccos_cos (by positivity) (by linarith [Real.pi_pos])]
    constructor
    · rintro ⟨h4, g⟩
      have := (an h4).1 g
      have hb : bx = √2 := by linarith
      subst hb
      exact ⟨rfl, by linarith⟩
    · rintro ⟨rfl, h2⟩
      have h4 : √2 ^ 2 + by' ^ 2 = 4 := by linarith
      exact ⟨h4, (an h4).2 rfl⟩
  rw [e3]
  simp only [sub_zero]
  tauto
end

/-- **C65.** With `c` and `d` at different finite places, the loss is zero iff `ABCD` is one of the four rectangles with `A` at the
origin, `|AB| = 2`, `|AD| = 3` and `AB` at ±45° to the x-axis. -/
theorem C65_rotated_zero {r : Rectangle XR} (hb : rotatedNew = some r) {h : Heap XR} (hr : SameRefs r.world.heap h)
    {cx cy dx dy : ℝ} (pc : PointAt h r.c cx cy) (pd : PointAt h r.d dx dy) (hcd : (cx, cy) ≠ (dx, dy)) :
    getLoss h r.world.sketch = .fin 0 ↔ ∃ s t : ℝ, (s = 1 ∨ s = -1) ∧ (t = 1 ∨ t = -1) ∧ PointAt h r.a 0 0 ∧ PointAt h r.ref 1 0 ∧
      PointAt h r.b (√2) (s * √2) ∧ PointAt h r.d (-(3 * s * t * (√2 / 2))) (3 * t * (√2 / 2)) ∧
      PointAt h r.c (√2 - 3 * s * t * (√2 / 2)) (s * √2 + 3 * t * (√2 / 2)) := by
  obtain rfl := rot_xr hb
  have s2 : √2 ^ 2 = (2 : ℝ) := Real.sq_sqrt (by norm_num)
  have s0 : (0 : ℝ) < √2 := by positivity
  constructor
  · intro hL
    obtain ⟨pa, pr, ⟨bx, by', pb⟩, -⟩ := rot_finite hr hL
    obtain ⟨e1, e2, e3, rfl, e5, e6⟩ := (rot_eqs hr pa pr pb pc pd).1 hL
    have hs : ∃ s : ℝ, (s = 1 ∨ s = -1) ∧ by' = s * √2 := by
      have : (by' - √2) * (by' + √2) = 0 := by nlinarith
      rcases mul_eq_zero.1 this with h | h
      · exact ⟨1, .inl rfl, by linarith⟩
      · exact ⟨-1, .inr rfl, by linarith⟩
    obtain ⟨s, hs, rfl⟩ := hs
    have ss : s ^ 2 = 1 := by rcases hs with rfl | rfl <;> norm_num
    -- c = b + m (-s, 1)
    obtain ⟨m, mx, my⟩ : ∃ m : ℝ, cx = √2 - s * m ∧ cy = s * √2 + m := by
      refine ⟨cy - s * √2, ?_, by ring⟩
      have : √2 * (cx - √2 + s * (cy - s * √2)) = 0 := by linarith
      have := (mul_eq_zero.1 this).resolve_left s0.ne'
      linarith
    subst mx my
    have hm : m ≠ 0 := by
      rintro rfl
      have e7 : (dx - √2) * dx + (dy - s * √2) * dy = 0 := by linarith
      have : (dx * √2 + dy * (s * √2)) ^ 2 ≤ 36 := by nlinarith [sq_nonneg (dx * (s * √2) - dy * √2)]
      nlinarith
    -- d - c is along b
    obtain ⟨l, lx, ly⟩ : ∃ l : ℝ, dx = √2 - s * m + l ∧ dy = s * √2 + m + s * l := by
      refine ⟨dx - (√2 - s * m), by ring, ?_⟩
      have : m * (dy - (s * √2 + m) - s * (dx - (√2 - s * m))) = 0 := by nlinarith
      have := (mul_eq_zero.1 this).resolve_left hm
      linarith
    subst lx ly
    have hl : l ≠ 0 := by
      rintro rfl
      exact hcd (by simp)
    have l2 : l = -√2 := by
      have : l * (l + √2) = 0 := by nlinarith
      have := (mul_eq_zero.1 this).resolve_left hl
      linarith
    subst l2
    have hm2 : m ^ 2 = 9 / 2 := by nlinarith
    have ht : ∃ t : ℝ, (t = 1 ∨ t = -1) ∧ m = 3 * t * (√2 / 2) := by
      have : (m - 3 * (√2 / 2)) * (m + 3 * (√2 / 2)) = 0 := by nlinarith
      rcases mul_eq_zero.1 this with h | h
      · exact ⟨1, .inl rfl, by linarith⟩
      · exact ⟨-1, .inr rfl, by linarith⟩
    obtain ⟨t, ht, rfl⟩ := ht
    refine ⟨s, t, hs, ht, pa, pr, pb, ?_, ?_⟩
    · convert pd using 1 <;> ring
    · convert pc using 1; ring
  · rintro ⟨s, t, hs, ht, pa, pr, pb, pd', pc'⟩
    have ss : s ^ 2 = 1 := by rcases hs with rfl | rfl <;> norm_num
    have tt : t ^ 2 = 1 := by rcases ht with rfl | rfl <;> norm_num
    show getLoss h (rotWorld 5 4 8 : World XR).sketch = fin 0
    rw [rot_eqs hr pa pr pb pc' pd']
    refine ⟨by ring, ?_, ?_, rfl, by rw [mul_pow, ss, s2, one_mul], ?_⟩
    · ring_nf
    · rcases hs with rfl | rfl <;> rcases ht with rfl | rfl <;> ring_nf
    · rcases hs with rfl | rfl <;> rcases ht with rfl | rfl <;> nlinarith

theorem distTo_ge {h : Heap XR} {p : Nat} {x y : ℝ} (hp : PointAt h p x y) (X Y e : ℝ) :
    ge (distTo h p (fin X) (fin Y)) (fin e) = decide (e ≤ hyp (x - X) (y - Y)) := by
  unfold distTo
  rw [hp, vsub_fin, norm_fin, ge, le_fin]

/-- `check` with the constants worked out -/
theorem rot_check {h : Heap XR} {w : World XR} {bx by' cx cy dx dy eps : ℝ} (he : 0 < eps) (pa : PointAt h 0 0 0) (pr : PointAt h 4 1 0)
    (pb : PointAt h 1 bx by') (pc : PointAt h 2 cx cy) (pd : PointAt h 3 dx dy) :
    rotatedCheck ⟨w, 0, 1, 2, 3, 4⟩ h (fin eps) = true ↔
      ∃ s t : ℝ, s = (if by' < 0 then -1 else 1) ∧
        t = (if by' < 0 then (if cy < by' then -1 else 1) else (if by' < cy then 1 else -1)) ∧
        hyp (bx - √2) (by' - s * √2) < eps ∧
        hyp (cx - (√2 - 3 * s * t * (√2 / 2))) (cy - (s * √2 + 3 * t * (√2 / 2))) < eps ∧
        hyp (dx - (-(3 * s * t * (√2 / 2)))) (dy - 3 * t * (√2 / 2)) < eps := by
  have c2 : (Num.sqrt (2.0 : XR)) = fin √2 := by rw [xr_two, sqrt_fin_of_nonneg (by norm_num)]
  have c22 : (fin √2 / (2.0 : XR)) = fin (√2 / 2) := by rw [xr_two, div_fin_of_ne _ (by norm_num)]
  have c5 : (5.0 : XR) = fin 5 := by simp only [sci]; norm_num
  have z : ∀ x y : ℝ, (eps ≤ hyp (x - x) (y - y)) = False := by
    intro x y; rw [eq_iff_iff, iff_false, not_le]; unfold hyp; simpa using he
  unfold rotatedCheck
  simp only [c2, c22, c5, xr_zero, xr_one, xr_three, neg_fin, mul_fin, distTo_ge pa, distTo_ge pr, distTo_ge pb, distTo_ge pc,
    distTo_ge pd]
  have y1 : (h.points 1).data.y = fin by' := by have : (h.points 1).data = _ := pb; rw [this]
  have y2 : (h.points 2).data.y = fin cy := by have : (h.points 2).data = _ := pc; rw [this]
  simp only [y1, y2, gt, lt_fin, z, decide_false, decide_eq_true_eq, if_false, Bool.false_eq_true]
  have hyc : ∀ {a b c d e : ℝ}, hyp a b < e → c = a → d = b → hyp c d < e := by
    rintro _ _ _ _ _ h rfl rfl; exact h
  have three : ∀ (A B C : Prop) [Decidable A] [Decidable B] [Decidable C],
      ((if A then false else if B then false else if C then false else true) = true) ↔ ¬ A ∧ ¬ B ∧ ¬ C := by
    intro A B C _ _ _
    by_cases A <;> by_cases B <;> by_cases C <;> simp [*]
  by_cases hb : by' < 0
  · simp only [hb, if_true]
    by_cases hc : cy < by'
    · simp only [hc, if_true]
      rw [three]
      simp only [not_le]
      constructor
      · rintro ⟨a, b, c⟩
        refine ⟨_, _, rfl, rfl, ?_, ?_, ?_⟩
        · exact hyc a (by ring) (by ring)
        · exact hyc b (by ring) (by ring)
        · exact hyc c (by ring) (by ring)
      · rintro ⟨s, t, rfl, rfl, a, b, c⟩
        refine ⟨?_, ?_, ?_⟩
        · exact hyc a (by ring) (by ring)
        · exact hyc b (by ring) (by ring)
        · exact hyc c (by ring) (by ring)
    · simp only [hc, if_false]
      rw [three]
      simp only [not_le]
      constructor
      · rintro ⟨a, b, c⟩
        refine ⟨_, _, rfl, rfl, ?_, ?_, ?_⟩
        · exact hyc a (by ring) (by ring)
        · exact hyc b (by ring) (by ring)
        · exact hyc c (by ring) (by ring)
      · rintro ⟨s, t, rfl, rfl, a, b, c⟩
        refine ⟨?_, ?_, ?_⟩
        · exact hyc a (by ring) (by ring)
        · exact hyc b (by ring) (by ring)
        · exact hyc c (by ring) (by ring)
  · simp only [hb, if_false]
    by_cases hc : by' < cy
    · simp only [hc, if_true]
      rw [three]
      simp only [not_le]
      constructor
      · rintro ⟨a, b, c⟩
        refine ⟨_, _, rfl, rfl, ?_, ?_, ?_⟩
        · exact hyc a (by ring) (by ring)
        · exact hyc b (by ring) (by ring)
        · exact hyc c (by ring) (by ring)
      · rintro ⟨s, t, rfl, rfl, a, b, c⟩
        refine ⟨?_, ?_, ?_⟩
        · exact hyc a (by ring) (by ring)
        · exact hyc b (by ring) (by ring)
        · exact hyc c (by ring) (by ring)
    · simp only [hc, if_false]
      rw [three]
      simp only [not_le]
      constructor
      · rintro ⟨a, b, c⟩
        refine ⟨_, _, rfl, rfl, ?_, ?_, ?_⟩
        · exact hyc a (by ring) (by ring)
        · exact hyc b (by ring) (by ring)
        · exact hyc c (by ring) (by ring)
      · rintro ⟨s, t, rfl, rfl, a, b, c⟩
        refine ⟨?_, ?_, ?_⟩
        · exact hyc a (by ring) (by ring)
        · exact hyc b (by ring) (by ring)
        · exact hyc c (by ring) (by ring)

/-- **C65.** With zero loss, and `c` and `d` at different finite places, `check(eps)` succeeds for every positive `eps`. -/
theorem C65_rotated_check {r : Rectangle XR} (hb : rotatedNew = some r) {h : Heap XR} (hr : SameRefs r.world.heap h)
    {cx cy dx dy eps : ℝ} (pc : PointAt h r.c cx cy) (pd : PointAt h r.d dx dy) (hcd : (cx, cy) ≠ (dx, dy))
    (hL : getLoss h r.world.sketch = .fin 0) (he : 0 < eps) : rotatedCheck r h (.fin eps) = true := by
  obtain ⟨s, t, hs, ht, pa, pr, pb, pd', pc'⟩ := (C65_rotated_zero hb hr pc pd hcd).1 hL
  obtain rfl := rot_xr hb
  have s0 : (0 : ℝ) < √2 := by positivity
  rw [rot_check he pa pr pb pc' pd']
  refine ⟨s, t, ?_, ?_, ?_, ?_, ?_⟩
  · rcases hs with rfl | rfl
    · rw [if_neg (by linarith)]
    · rw [if_pos (by linarith)]
  · rcases hs with rfl | rfl <;> rcases ht with rfl | rfl
    · rw [if_neg (by linarith), if_pos (by linarith)]
    · rw [if_neg (by linarith), if_neg (by linarith)]
    · rw [if_pos (by linarith), if_neg (by linarith)]
    · rw [if_pos (by linarith), if_pos (by linarith)]
  all_goals
    rw [sub_self, sub_self]; unfold hyp; simpa using he

/-- **C65.** The constraints also admit a degenerate solution: `c` and `d` at the same place, so that the direction of the line between
them is undefined and both its perpendicularity constraints have loss zero.  The loss is zero, the solver of the test (BFGS, any
parameters with positive `min_loss`) returns `Ok` at once without moving anything, and `check` fails even with tolerance `1e-1`. -/
theorem C65_rotated_degenerate {r : Rectangle XR} (hb : rotatedNew = some r) :
    ∃ h, SameRefs r.world.heap h ∧ getLoss h r.world.sketch = .fin 0 ∧
      (∀ p : BFGSParams XR, (.fin 0 <. p.minLoss) = true → bfgsSolve p h r.world.sketch = ⟨.ok, h, [], 0, 0⟩) ∧
      rotatedCheck r h 1e-1 = false := by
  obtain rfl := rot_xr hb
  have s2 : √2 ^ 2 = (2 : ℝ) := Real.sq_sqrt (by norm_num)
  have s5 : √5 ^ 2 = (5 : ℝ) := Real.sq_sqrt (by norm_num)
  have p2 : (0 : ℝ) < √2 := by positivity
  have p5 : (0 : ℝ) < √5 := by positivity
  let q : Vec2 XR := ⟨fin (√2 - √5 * (√2 / 2)), fin (√2 + √5 * (√2 / 2))⟩
  let h : Heap XR := { (rotWorld 5 4 8 : World XR).heap with
    points := fun p => match p with
      | 0 => ⟨⟨fin 0, fin 0⟩, Vec2.zeros⟩
      | 1 => ⟨⟨fin √2, fin √2⟩, Vec2.zeros⟩
      | 2 => ⟨q, Vec2.zeros⟩
      | 3 => ⟨q, Vec2.zeros⟩
      | _ => ⟨⟨fin 1, fin 0⟩, Vec2.zeros⟩ }
  have hr : SameRefs (rotWorld 5 4 8 : World XR).heap h :=
    ⟨rfl, rfl, fun _ => rfl, fun _ => rfl, fun _ => rfl, rfl, rfl, rfl, rfl, rfl⟩
  have pa : PointAt h 0 0 0 := rfl
  have pr : PointAt h 4 1 0 := rfl
  have pb : PointAt h 1 √2 √2 := rfl
  have pc : PointAt h 2 (√2 - √5 * (√2 / 2)) (√2 + √5 * (√2 / 2)) := rfl
  have pd : PointAt h 3 (√2 - √5 * (√2 / 2)) (√2 + √5 * (√2 / 2)) := rfl
  have hL : getLoss h (rotWorld 5 4 8 : World XR).sketch = fin 0 := by
    rw [rot_eqs hr pa pr pb pc pd]
    exact ⟨by ring, by ring, by ring, rfl, s2, by nlinarith⟩
  refine ⟨h, hr, hL, ?_, ?_⟩
  · intro p hp
    exact C36_bfgs_stays p h _ (by rw [hL]; exact hp)
  · rw [show (1e-1 : XR) = fin 1e-1 from sci _ _ _, Bool.eq_false_iff, Ne, rot_check (by norm_num) pa pr pb pc pd]
    rintro ⟨s, t, hs, ht, -, hc, -⟩
    rw [if_neg (by linarith)] at hs ht
    rw [if_pos (by nlinarith)] at ht
    subst hs ht
    unfold hyp at hc
    rw [Real.sqrt_lt' (by norm_num)] at hc
    have h5 : √5 ≤ 2.25 := by
      rw [Real.sqrt_le_left (by norm_num)]; norm_num
    have : (3 - √5) ^ 2 < 0.01 := by
      norm_num at hc ⊢
      nlinarith
    nlinarith

/-- the hypotheses can be met: one of the four rectangles -/
example : ∃ (r : Rectangle XR) (h : Heap XR) (cx cy dx dy : ℝ), rotatedNew = some r ∧ SameRefs r.world.heap h ∧
    PointAt h r.c cx cy ∧ PointAt h r.d dx dy ∧ (cx, cy) ≠ (dx, dy) ∧ getLoss h r.world.sketch = .fin 0 := by
  let h : Heap XR := { (rotWorld 5 4 8 : World XR).heap with
    points := fun p => match p with
      | 0 => ⟨⟨fin 0, fin 0⟩, Vec2.zeros⟩
      | 1 => ⟨⟨fin (√2), fin (1 * √2)⟩, Vec2.zeros⟩
      | 2 => ⟨⟨fin (√2 - 3 * 1 * 1 * (√2 / 2)), fin (1 * √2 + 3 * 1 * (√2 / 2))⟩, Vec2.zeros⟩
      | 3 => ⟨⟨fin (-(3 * 1 * 1 * (√2 / 2))), fin (3 * 1 * (√2 / 2))⟩, Vec2.zeros⟩
      | _ => ⟨⟨fin 1, fin 0⟩, Vec2.zeros⟩ }
  have hr : SameRefs (rotWorld 5 4 8 : World XR).heap h :=
    ⟨rfl, rfl, fun _ => rfl, fun _ => rfl, fun _ => rfl, rfl, rfl, rfl, rfl, rfl⟩
  have p2 : (0 : ℝ) < √2 := by positivity
  have ne : ((√2 - 3 * 1 * 1 * (√2 / 2), 1 * √2 + 3 * 1 * (√2 / 2)) : ℝ × ℝ) ≠ (-(3 * 1 * 1 * (√2 / 2)), 3 * 1 * (√2 / 2)) := by
    intro e
    have := congrArg Prod.fst e
    simp only at this
    linarith
  refine ⟨_, h, _, _, _, _, rot_xr_eq, hr, rfl, rfl, ne, ?_⟩
  exact (C65_rotated_zero rot_xr_eq hr rfl rfl ne).2 ⟨1, 1, .inl rfl, .inl rfl, rfl, rfl, rfl, rfl, rfl⟩

end Isotope
