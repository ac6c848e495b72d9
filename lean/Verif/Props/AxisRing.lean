import Verif.Props.Self
import Verif.Props.StairsDescent

/-!
# C110: the axis-aligned rectangle of the tests is cut into one ring
-/

namespace Isotope
open XR

/-- the corners of the rectangle of C64 -/
def axisPlace : Nat → ℝ × ℝ
  | 0 => (0, 0)
  | 1 => (2, 0)
  | 2 => (2, 3)
  | _ => (0, 3)

theorem axis_closed : ClosedBy (axisWorld 4 4 7 : World XR).heap (axisWorld 4 4 7 : World XR).sketch [0, 1, 2, 3] :=
  ⟨[(0, 1), (1, 2), (2, 3), (3, 0)], by decide, .cons (.inl rfl) (.cons (.inl rfl) (.cons (.inl rfl) (.cons (.inl rfl) .nil)))⟩

theorem axis_self : GradsSelf (axisWorld 4 4 7 : World XR).heap := by
  intro c x hx
  have z : ∀ x ∈ [(0.0 : XR), 0.0], (x ==. x) = true := by
    intro x hx
    simp only [List.mem_cons, List.not_mem_nil, or_false, or_self] at hx
    rw [hx]; exact AddSelf.zero
  cases c with
  | point a =>
    have e : primGrad (axisWorld 4 4 7 : World XR).heap (.point a) = [0.0, 0.0] := by
      simp only [primGrad, axisWorld, layout, Heap.empty]
      split <;> rfl
    rw [e] at hx
    exact z x hx
  | line a => simp [primGrad] at hx
  | arc a => exact init_self (F := XR) (.arc a) x hx
  | circle a => exact init_self (F := XR) (.circle a) x hx

/-- **C110.** The axis-aligned rectangle of the tests, whatever moved its points: if its loss is at most `1/100`, the drawing is cut into exactly one ring, nothing is unused, and its area is `6` up to `10 √(6 L) + 12 L`. -/
theorem C110_axis {r : Rectangle XR} (hb : axisNew = some r) {h : Heap XR} (hr : SameRefs r.world.heap h) (hh : GradsSelf h) {L : ℝ}
    (hL : getLoss h r.world.sketch = .fin L) (hl : L ≤ 1 / 100) :
    ∃ segs A, findRings h r.world.sketch = ([.segments segs], []) ∧ (Ring.segments segs).signedArea h = .fin A ∧
      |A - 6| ≤ 10 * √(6 * L) + 12 * L := by
  have L0 : 0 ≤ L := by
    have := C15_total_nonneg h r.world.sketch
    rw [hL, xr_zero, lt_fin, decide_eq_false_iff_not, not_lt] at this
    exact this
  obtain ⟨d1, d2, d3, d4⟩ := C64_axis_error hb hr hL
  obtain rfl := axis_xr hb
  obtain ⟨ax, ay, bx, by', cx, cy, dx, dy, pa, pb, pc, pd⟩ := axis_finite hr hL
  have sq : √(6 * L) ^ 2 = 6 * L := Real.sq_sqrt (by linarith)
  have small : √(6 * L) ≤ 1 / 4 := by
    rw [Real.sqrt_le_left (by norm_num)]
    norm_num
    linarith
  have g : ∀ x y : ℝ, ∀ {p : Nat} {u v K : ℝ}, PointAt h p u v →
      dist (ptOf h p) (pt x y) ≤ √(K * L) → K ≤ 6 →
      span (x, y) (u, v) ≤ √(6 * L) := by
    intro x y p u v K e d hK
    have : ptOf h p = pt u v := by
      unfold ptOf; rw [e]; rfl
    rw [this, dist_comm, ← hyp_eq_dist] at d
    rw [span_hyp]
    exact d.trans (Real.sqrt_le_sqrt (mul_le_mul_of_nonneg_right hK L0))
  have e1 : √((3 : ℝ) ^ 2) = 3 := Real.sqrt_sq (by norm_num)
  have e2 : √((2 : ℝ) ^ 2) = 2 := Real.sqrt_sq (by norm_num)
  have per : perimeter ([0, 1, 2, 3].map axisPlace) = 10 := by
    simp only [perimeter, edges, axisPlace, span, List.map_cons, List.map_nil, List.rotate_cons_succ, List.rotate_zero, List.cons_append, List.nil_append,
      List.zip_cons_cons, List.zip_nil_right, List.sum_cons, List.sum_nil]
    norm_num
    rw [show (9 : ℝ) = 3 ^ 2 by norm_num, show (4 : ℝ) = 2 ^ 2 by norm_num, e1, e2]
    norm_num
  have area : shoelace ([0, 1, 2, 3].map axisPlace) = 6 := by
    simp only [shoelace, edges, axisPlace, cross, List.map_cons, List.map_nil, List.rotate_cons_succ, List.rotate_zero, List.cons_append, List.nil_append,
      List.zip_cons_cons, List.zip_nil_right, List.sum_cons, List.sum_nil]
    norm_num
  have len : (([0, 1, 2, 3] : List Nat).length : ℝ) = 4 := by norm_num
  have six : |(6 : ℝ)| = 6 := abs_of_pos (by norm_num)
  have main := C110_near (ps := [0, 1, 2, 3]) (by simp) (by decide) (closedBy_refs hr (by simp [axisWorld, layout, Sketch.cells]) axis_closed)
    (by simp [axisWorld, layout, Sketch.cells]) hh axisPlace
    (Real.sqrt_nonneg (6 * L)) (by
      intro p hp
      simp only [List.mem_cons, List.not_mem_nil, or_false] at hp
      rcases hp with rfl | rfl | rfl | rfl
      · exact ⟨ax, ay, pa, g 0 0 pa d1 (by norm_num)⟩
      · exact ⟨bx, by', pb, g 2 0 pb d2 (by norm_num)⟩
      · exact ⟨cx, cy, pc, g 2 3 pc d3 (by norm_num)⟩
      · exact ⟨dx, dy, pd, g 0 3 pd d4 (by norm_num)⟩)
    (by
      have lo : ∀ x y u v : ℝ, 1 ≤ (x - u) ^ 2 + (y - v) ^ 2 → 2 * √(6 * L) < span (x, y) (u, v) := by
        intro x y u v h1
        have : 1 ≤ span (x, y) (u, v) := by unfold span; exact Real.one_le_sqrt.2 h1
        linarith
      intro p hp q hq hne
      simp only [List.mem_cons, List.not_mem_nil, or_false] at hp hq
      rcases hp with rfl | rfl | rfl | rfl <;> rcases hq with rfl | rfl | rfl | rfl <;>
        first
          | exact (hne rfl).elim
          | exact lo _ _ _ _ (by norm_num))
    (by
      rw [per, area, sq, six, len]
      linarith)
  obtain ⟨segs, A, f1, f2, f3⟩ := main
  refine ⟨segs, A, f1, f2, ?_⟩
  rw [per, area, sq, six, len] at f3
  linarith

/-- **C110.** Whatever solver is run on the rectangle and however it ends. -/
theorem C110_axis_run {r : Rectangle XR} (hb : axisNew = some r) (pinv : PInv XR) (k : SolverKind XR) {L : ℝ}
    (hL : getLoss (runSolver pinv k r.world.heap r.world.sketch).heap r.world.sketch = .fin L) (hl : L ≤ 1 / 100) :
    ∃ segs A, findRings (runSolver pinv k r.world.heap r.world.sketch).heap r.world.sketch = ([.segments segs], []) ∧
      (Ring.segments segs).signedArea (runSolver pinv k r.world.heap r.world.sketch).heap = .fin A ∧
      |A - 6| ≤ 10 * √(6 * L) + 12 * L := by
  refine C110_axis hb (runSolver_moves pinv k r.world.heap r.world.sketch).1 (runSolver_self pinv k _ _ ?_) hL hl
  obtain rfl := axis_xr hb
  exact axis_self

/-! ## Gradient descent on the rectangle -/

theorem axis_dofs : (axisWorld 4 4 7 : World XR).sketch.dofs = [.px 0, .py 0, .px 1, .py 1, .px 2, .py 2, .px 3, .py 3] := rfl

theorem axis_nodup : (axisWorld 4 4 7 : World XR).sketch.cells.Nodup := by
  change [PrimCell.point 0, .point 1, .point 2, .point 3, .line 0, .line 1, .line 2, .line 3].Nodup
  decide

theorem axis_dot {h : Heap XR} (t u : Dof → ℝ) :
    vecOf h (axisWorld 4 4 7 : World XR).sketch t ⬝ᵥ vecOf h (axisWorld 4 4 7 : World XR).sketch u =
      t (.px 0) * u (.px 0) + t (.py 0) * u (.py 0) + t (.px 1) * u (.px 1) + t (.py 1) * u (.py 1) +
        t (.px 2) * u (.px 2) + t (.py 2) * u (.py 2) + t (.px 3) * u (.px 3) + t (.py 3) * u (.py 3) := by
  rw [dot_vecOf, axis_dofs]
  simp only [List.map_cons, List.map_nil, List.sum_cons, List.sum_nil]
  ring

theorem axis_lossAfter {h : Heap XR} (hr : SameRefs (axisWorld 4 4 7 : World XR).heap h) (t : Dof → ℝ) :
    lossAfter h (axisWorld 4 4 7 : World XR).sketch (vecOf h _ t) =
      (t (.px 0) ^ 2 + t (.py 0) ^ 2 + (t (.py 1) - t (.py 0)) ^ 2 + (t (.py 3) - t (.py 2)) ^ 2 +
      (t (.px 2) - t (.px 1)) ^ 2 + (t (.px 0) - t (.px 3)) ^ 2 + (t (.px 1) - t (.px 0) - 2) ^ 2 + (t (.py 3) - t (.py 0) - 3) ^ 2) / 2 := by
  obtain ⟨H, e, r, ed⟩ := setData_vec (h := h) axis_nodup (vecOf h _ t)
  have pd : ∀ i, Dof.px i ∈ (axisWorld 4 4 7 : World XR).sketch.dofs → Dof.py i ∈ (axisWorld 4 4 7 : World XR).sketch.dofs →
      PointAt H i (t (.px i)) (t (.py i)) := by
    intro i m1 m2
    have h1 := val_of_data ed m1
    have h2 := val_of_data ed m2
    rw [coordOf_vecOf _ m1] at h1
    rw [coordOf_vecOf _ m2] at h2
    exact pointAt_of h1 h2
  unfold lossAfter
  rw [e]
  dsimp only
  rw [axis_loss (hr.trans r) (pd 0 (by simp [axis_dofs]) (by simp [axis_dofs])) (pd 1 (by simp [axis_dofs]) (by simp [axis_dofs]))
    (pd 2 (by simp [axis_dofs]) (by simp [axis_dofs])) (pd 3 (by simp [axis_dofs]) (by simp [axis_dofs]))]
  rfl

/-- where the degrees of freedom of the rectangle belong -/
def axisGoal : Dof → ℝ
  | .px i => (axisPlace i).1
  | .py i => (axisPlace i).2
  | _ => 0

theorem axis_squeezed {h : Heap XR} (hr : SameRefs (axisWorld 4 4 7 : World XR).heap h) :
    Squeezed h (axisWorld 4 4 7 : World XR).sketch (1 / 8) 5 := by
  have q := fun z : ℝ => sq_nonneg z
  constructor
  · intro v
    obtain ⟨t, rfl⟩ := exists_vecOf axis_nodup v
    refine ⟨vecOf h _ axisGoal, ?_, ?_⟩
    · rw [axis_lossAfter hr]
      simp [axisGoal, axisPlace]
    · rw [vecOf_sub, axis_dot, axis_lossAfter hr]
      simp only [axisGoal, axisPlace]
      generalize t (.px 0) = ax, t (.py 0) = ay, t (.px 1) = bx, t (.py 1) = by', t (.px 2) = cx, t (.py 2) = cy, t (.px 3) = dx,
        t (.py 3) = dy
      nlinarith [q (by' - ay), q (dy - cy), q (cx - bx), q (ax - dx), q (bx - ax - 2), q (dy - ay - 3), q (ax - (bx - ax - 2)), q (ax - (cx - bx)),
        q ((bx - ax - 2) - (cx - bx)), q (ax - (dx - ax)), q (ay - (by' - ay)), q (ay - (dy - ay - 3)), q (ay - (cy - dy)),
        q ((dy - ay - 3) - (cy - dy)), q ax, q ay]
  · intro v v0 e0
    obtain ⟨t, rfl⟩ := exists_vecOf axis_nodup v
    obtain ⟨t0, rfl⟩ := exists_vecOf axis_nodup v0
    rw [axis_lossAfter hr] at e0
    rw [vecOf_sub, axis_dot, axis_lossAfter hr]
    generalize t (.px 0) = ax, t (.py 0) = ay, t (.px 1) = bx, t (.py 1) = by', t (.px 2) = cx, t (.py 2) = cy, t (.px 3) = dx,
      t (.py 3) = dy
    generalize t0 (.px 0) = ax0, t0 (.py 0) = ay0, t0 (.px 1) = bx0, t0 (.py 1) = by0, t0 (.px 2) = cx0, t0 (.py 2) = cy0, t0 (.px 3) = dx0,
      t0 (.py 3) = dy0 at e0 ⊢
    have z : ∀ {a : ℝ}, a ^ 2 ≤ 0 → a = 0 := fun {a} h => pow_eq_zero_iff two_ne_zero |>.1 (le_antisymm h (sq_nonneg a))
    have z1 : ax0 = 0 := z (by linarith [q ay0, q (by0 - ay0), q (dy0 - cy0), q (cx0 - bx0), q (ax0 - dx0), q (bx0 - ax0 - 2), q (dy0 - ay0 - 3)])
    have z2 : ay0 = 0 := z (by linarith [q ax0, q (by0 - ay0), q (dy0 - cy0), q (cx0 - bx0), q (ax0 - dx0), q (bx0 - ax0 - 2), q (dy0 - ay0 - 3)])
    have z3 := z (a := by0 - ay0) (by linarith [q ax0, q ay0, q (dy0 - cy0), q (cx0 - bx0), q (ax0 - dx0), q (bx0 - ax0 - 2), q (dy0 - ay0 - 3)])
    have z4 := z (a := dy0 - cy0) (by linarith [q ax0, q ay0, q (by0 - ay0), q (cx0 - bx0), q (ax0 - dx0), q (bx0 - ax0 - 2), q (dy0 - ay0 - 3)])
    have z5 := z (a := cx0 - bx0) (by linarith [q ax0, q ay0, q (by0 - ay0), q (dy0 - cy0), q (ax0 - dx0), q (bx0 - ax0 - 2), q (dy0 - ay0 - 3)])
    have z6 := z (a := ax0 - dx0) (by linarith [q ax0, q ay0, q (by0 - ay0), q (dy0 - cy0), q (cx0 - bx0), q (bx0 - ax0 - 2), q (dy0 - ay0 - 3)])
    have z7 := z (a := bx0 - ax0 - 2) (by linarith [q ax0, q ay0, q (by0 - ay0), q (dy0 - cy0), q (cx0 - bx0), q (ax0 - dx0), q (dy0 - ay0 - 3)])
    have z8 := z (a := dy0 - ay0 - 3) (by linarith [q ax0, q ay0, q (by0 - ay0), q (dy0 - cy0), q (cx0 - bx0), q (ax0 - dx0), q (bx0 - ax0 - 2)])
    have w1 : dx0 = 0 := by linarith
    have w2 : bx0 = 2 := by linarith
    have w3 : cx0 = 2 := by linarith
    have w4 : by0 = 0 := by linarith
    have w5 : dy0 = 3 := by linarith
    have w6 : cy0 = 3 := by linarith
    subst z1 z2 w1 w2 w3 w4 w5 w6
    nlinarith [q ax, q ay, q (bx - 2 + ax), q (cx - 2 + (bx - 2)), q (dx + ax), q (by' + ay), q (dy - 3 + (cy - 3)), q (dy - 3 + ay), q (bx - 2),
      q (cx - 2), q dx, q by', q (cy - 3), q (dy - 3)]

/-- **C110.** From any finite start, gradient descent with the default thresholds and enough iterations turns the rectangle into a drawing that is cut into
exactly one ring, with nothing unused and an area of `6` up to `1e-5`. -/
theorem C110_axis_descent {r : Rectangle XR} (hb : axisNew = some r) {h : Heap XR} (hr : SameRefs r.world.heap h) (hh : GradsSelf h)
    (hd : ∀ x ∈ getData h r.world.sketch, Num.isFinite x = true) :
    ∃ N, ∀ n ≥ N, (gdSolve ⟨n, 1e-14, 1e-10⟩ h r.world.sketch).res = .ok ∧
      ∃ segs A, findRings (gdSolve ⟨n, 1e-14, 1e-10⟩ h r.world.sketch).heap r.world.sketch = ([.segments segs], []) ∧
        (Ring.segments segs).signedArea (gdSolve ⟨n, 1e-14, 1e-10⟩ h r.world.sketch).heap = .fin A ∧ |A - 6| ≤ 1e-5 := by
  have hb' := hb
  obtain rfl := axis_xr hb
  have e1 : (1e-14 : XR) = fin 1e-14 := sci _ _ _
  have e2 : (1e-10 : XR) = fin 1e-10 := sci _ _ _
  have cons : ∀ k ∈ (axisWorld 4 4 7 : World XR).sketch.cons, h.cons k = axisCons k ∧ k < 7 := by
    intro k hk
    have hk : k < 7 := by simpa [axisWorld, layout] using hk
    rw [hr.cons]
    exact ⟨by simp [axisWorld, layout, hk], hk⟩
  have hc : Closed ⟨h, (axisWorld 4 4 7 : World XR).sketch⟩ := by
    obtain ⟨r, hr', -, -, -, hc⟩ := C64_axis_build (F := XR) (by rw [xr_zero]; rfl) (by rw [xr_two]; rfl) (by rw [xr_three]; rfl)
    obtain rfl := axis_xr hr'
    exact hc.sameRefs hr
  have hf : FiniteSketch h (axisWorld 4 4 7 : World XR).sketch := by
    refine ⟨hd, fun k hk x hx => ?_⟩
    obtain ⟨e, hk⟩ := cons k hk
    rw [e] at hx
    interval_cases k <;> simp only [axisCons, consParams, List.mem_cons, List.not_mem_nil, or_false] at hx
    · rcases hx with rfl | rfl <;> (rw [xr_zero]; rfl)
    · subst hx; rw [xr_two]; rfl
    · subst hx; rw [xr_three]; rfl
  have hl : ∀ k ∈ (axisWorld 4 4 7 : World XR).sketch.cons, IsLinear (h.cons k) := by
    intro k hk
    obtain ⟨e, hk⟩ := cons k hk
    rw [e]
    interval_cases k
    · exact .inl trivial
    all_goals exact .inr trivial
  obtain ⟨N, B⟩ := C72_enough axis_nodup hc hf hl (axis_squeezed hr) (by norm_num) (by norm_num) (by norm_num) (ml := 1e-14) (mg := 1e-10)
    (by norm_num) (by norm_num)
  refine ⟨N, fun n hn => ?_⟩
  rw [e1, e2]
  obtain ⟨ok, L, eL, hL⟩ := B n hn
  have hL : L ≤ 1e-14 := by
    rcases hL with hL | hL
    · exact hL.le
    · norm_num at hL ⊢
      linarith
  have L0 : 0 ≤ L := by
    have := C15_total_nonneg (gdSolve ⟨n, fin 1e-14, fin 1e-10⟩ h (axisWorld 4 4 7 : World XR).sketch).heap (axisWorld 4 4 7 : World XR).sketch
    rw [eL, xr_zero, lt_fin, decide_eq_false_iff_not, not_lt] at this
    exact this
  obtain ⟨segs, A, f1, f2, f3⟩ := C110_axis hb' (hr.trans (gdSolve_moves _ h _).1) (gdSolve_self _ h _ hh) eL (hL.trans (by norm_num))
  refine ⟨ok, segs, A, f1, f2, f3.trans ?_⟩
  have : √(6 * L) ≤ 5e-7 := by
    rw [Real.sqrt_le_left (by norm_num)]
    norm_num at hL ⊢
    linarith
  norm_num at hL this ⊢
  linarith

/-- the hypotheses can be met: the rectangle as built (all points at the origin) -/
example : ∃ (r : Rectangle XR) (N : Nat), axisNew = some r ∧ ∀ n ≥ N, ∃ segs A,
    findRings (gdSolve ⟨n, 1e-14, 1e-10⟩ r.world.heap r.world.sketch).heap r.world.sketch = ([.segments segs], []) ∧
      (Ring.segments segs).signedArea (gdSolve ⟨n, 1e-14, 1e-10⟩ r.world.heap r.world.sketch).heap = .fin A ∧ |A - 6| ≤ 1e-5 := by
  have hb : (axisNew : Option (Rectangle XR)) = some ⟨axisWorld 4 4 7, 0, 1, 2, 3, 0⟩ :=
    axis_eq (by rw [xr_zero]; rfl) (by rw [xr_two]; rfl) (by rw [xr_three]; rfl)
  obtain ⟨N, hN⟩ := C110_axis_descent hb (SameRefs.refl _) axis_self (by
    intro x hx
    rw [getData_dofs, axis_dofs] at hx
    simp only [List.map_cons, List.map_nil, List.mem_cons, List.not_mem_nil, or_false] at hx
    have p : ∀ i, PointAt (axisWorld 4 4 7 : World XR).heap i 0 0 := by
      intro i
      simp only [PointAt, axisWorld, layout, Heap.empty]
      split <;> simp only [Point2.new, xr_zero]
    have p' : ∀ i, (((axisWorld 4 4 7 : World XR).heap.points i).data) = ⟨fin 0, fin 0⟩ := p
    rcases hx with rfl | rfl | rfl | rfl | rfl | rfl | rfl | rfl <;> simp only [val, p'] <;> rfl)
  exact ⟨_, N, hb, fun n hn => (hN n hn).2⟩

end Isotope
