import Verif.Lemmas.Layout
import Verif.Lemmas.FinLoss
import Verif.Lemmas.Frame
import Verif.Props.Stairs

/-!
# The example rectangles (C64, C65)
-/

namespace Isotope
open XR

section any
variable {F : Type} [Num F]

theorem bind_step {α β : Type} {x : Option α} {a : α} {f : α → Option β} {r : Option β} (hx : x = some a) (hf : f a = r) :
    (x >>= f) = r := by rw [hx]; exact hf

/-- the constraints of the axis-aligned rectangle in the order of their creation -/
def axisCons (k : Nat) : Constraint F :=
  match k with
  | 0 => .fix 0 ⟨0.0, 0.0⟩
  | 1 => .horizLine 0
  | 2 => .horizLine 2
  | 3 => .vertLine 1
  | 4 => .vertLine 3
  | 5 => .horizDist 0 1 2.0
  | _ => .vertDist 0 3 3.0

/-- the lines of both rectangles -/
def rectLine (i : Nat) : Line := ⟨i, (i + 1) % 4⟩

/-- the axis-aligned rectangle after the given numbers of additions -/
def axisWorld (n m k : Nat) : World F := layout (fun _ => Point2.new 0.0 0.0) rectLine axisCons n m k

theorem axis_eq (h0 : Num.isFinite (0.0 : F) = true) (h2 : Num.isFinite (2.0 : F) = true) (h3 : Num.isFinite (3.0 : F) = true) :
    (axisNew : Option (Rectangle F)) = some ⟨axisWorld 4 4 7, 0, 1, 2, 3, 0⟩ := by
  have pt : ∀ n, n < 4 → unwrapAddr (addPoint2 (axisWorld n 0 0 : World F) 0.0 0.0) = some (n, axisWorld (n + 1) 0 0) := by
    intro n hn
    rw [axisWorld, layout_addPoint (fun _ => Point2.new (0.0 : F) 0.0) _ _ n _ (x := 0.0) (y := 0.0) rfl (by unfold u64Size; omega)]
    rfl
  have ln : ∀ m, m < 4 → unwrapAddr (addLine (axisWorld 4 m 0 : World F) m ((m + 1) % 4)) = some (m, axisWorld 4 (m + 1) 0) := by
    intro m hm
    rw [axisWorld, layout_addLine _ rectLine _ 4 m _ (s := m) (e := (m + 1) % 4) rfl hm (by omega) (by unfold u64Size; omega)]
    rfl
  have cn : ∀ k (c : Constraint F), axisCons k = c → consNewOk c = true → (∀ r ∈ consFields c, r ∈ (axisWorld 4 4 k : World F).sketch.cells) →
      unwrapAddr (constrain (axisWorld 4 4 k : World F) c) = some (k, axisWorld 4 4 (k + 1)) := by
    intro k c hc hok hr
    rw [axisWorld, layout_constrain _ _ axisCons 4 4 k hc hok hr]
    rfl
  have mp : ∀ {k a : Nat}, a < 4 → PrimCell.point a ∈ (axisWorld 4 4 k : World F).sketch.cells :=
    fun h => (layout_mem_point _ _ _ _ _ _ _).2 h
  have ml : ∀ {k a : Nat}, a < 4 → PrimCell.line a ∈ (axisWorld 4 4 k : World F).sketch.cells :=
    fun h => (layout_mem_line _ _ _ _ _ _ _).2 h
  unfold axisNew
  rw [← layout_init (F := F) (fun _ => Point2.new 0.0 0.0) rectLine axisCons]
  refine bind_step (pt 0 (by norm_num)) ?_
  refine bind_step (pt 1 (by norm_num)) ?_
  refine bind_step (pt 2 (by norm_num)) ?_
  refine bind_step (pt 3 (by norm_num)) ?_
  refine bind_step (ln 0 (by norm_num)) ?_
  refine bind_step (ln 1 (by norm_num)) ?_
  refine bind_step (ln 2 (by norm_num)) ?_
  refine bind_step (ln 3 (by norm_num)) ?_
  refine bind_step (cn 0 _ rfl (by simp [consNewOk, Vec2.allFinite, h0]) (by simp [consFields, mp])) ?_
  refine bind_step (cn 1 _ rfl rfl (by simp [consFields, ml])) ?_
  refine bind_step (cn 2 _ rfl rfl (by simp [consFields, ml])) ?_
  refine bind_step (cn 3 _ rfl rfl (by simp [consFields, ml])) ?_
  refine bind_step (cn 4 _ rfl rfl (by simp [consFields, ml])) ?_
  refine bind_step (cn 5 _ rfl h2 (by simp [consFields, mp])) ?_
  refine bind_step (cn 6 _ rfl h3 (by simp [consFields, mp])) ?_
  rfl

/-- **C64.** The axis-aligned rectangle is built without a panic; it has 8 primitives and 7 constraints and is closed. -/
theorem C64_axis_build (h0 : Num.isFinite (0.0 : F) = true) (h2 : Num.isFinite (2.0 : F) = true)
    (h3 : Num.isFinite (3.0 : F) = true) :
    ∃ r : Rectangle F, axisNew = some r ∧ [r.a, r.b, r.c, r.d].Nodup ∧ r.world.sketch.getNumPrimitives = 8 ∧
      r.world.sketch.getNumConstraints = 7 ∧ Closed r.world := by
  refine ⟨_, axis_eq h0 h2 h3, by simp, rfl, rfl, ?_, ?_⟩
  · show ∀ c ∈ [PrimCell.point 0, .point 1, .point 2, .point 3, .line 0, .line 1, .line 2, .line 3], _
    simp [axisWorld, layout, primFields, rectLine, Sketch.cells, List.range_succ]
  · show ∀ c ∈ [0, 1, 2, 3, 4, 5, 6], _
    simp [axisWorld, layout, consFields, axisCons, Sketch.cells, List.range_succ]

end any

/-! ## Axis-aligned rectangle (exact arithmetic) -/

theorem xr_two : (2.0 : XR) = fin 2 := by simp only [sci]; norm_num
theorem xr_three : (3.0 : XR) = fin 3 := by simp only [sci]; norm_num
theorem xr_one : (1.0 : XR) = fin 1 := by simp only [sci]; norm_num

theorem pointAt_of {h : Heap XR} {p : Nat} {x y : ℝ} (hx : (ptData h p).x = fin x) (hy : (ptData h p).y = fin y) : PointAt h p x y := by
  show ptData h p = _
  rw [show ptData h p = ⟨(ptData h p).x, (ptData h p).y⟩ from rfl, hx, hy]

theorem axis_xr {r : Rectangle XR} (hb : axisNew = some r) : r = ⟨axisWorld 4 4 7, 0, 1, 2, 3, 0⟩ := by
  rw [axis_eq (by rw [xr_zero]; rfl) (by rw [xr_two]; rfl) (by rw [xr_three]; rfl), Option.some.injEq] at hb
  exact hb.symm

section
variable {h : Heap XR} (hr : SameRefs (axisWorld 4 4 7 : World XR).heap h)
include hr

theorem axis_lines : h.lines 0 = ⟨0, 1⟩ ∧ h.lines 1 = ⟨1, 2⟩ ∧ h.lines 2 = ⟨2, 3⟩ ∧ h.lines 3 = ⟨3, 0⟩ := by
  rw [hr.lines]; exact ⟨rfl, rfl, rfl, rfl⟩

theorem axis_loss {ax ay bx by' cx cy dx dy : ℝ} (pa : PointAt h 0 ax ay) (pb : PointAt h 1 bx by') (pc : PointAt h 2 cx cy)
    (pd : PointAt h 3 dx dy) : getLoss h (axisWorld 4 4 7 : World XR).sketch = fin ((ax ^ 2 + ay ^ 2 + (by' - ay) ^ 2 + (dy - cy) ^ 2 +
      (cx - bx) ^ 2 + (ax - dx) ^ 2 + (bx - ax - 2) ^ 2 + (dy - ay - 3) ^ 2) / 2) := by
  obtain ⟨l0, l1, l2, l3⟩ := axis_lines hr
  have : getLossPerConstraint h (axisWorld 4 4 7 : World XR).sketch = [((ax - 0) ^ 2 + (ay - 0) ^ 2) / 2, (by' - ay) ^ 2 / 2,
      (dy - cy) ^ 2 / 2, (cx - bx) ^ 2 / 2, (ax - dx) ^ 2 / 2, (bx - ax - 2) ^ 2 / 2, (dy - ay - 3) ^ 2 / 2].map fin := by
    unfold getLossPerConstraint
    rw [hr.cons, show (axisWorld 4 4 7 : World XR).sketch.cons = [0, 1, 2, 3, 4, 5, 6] from rfl]
    simp only [List.map_cons, List.map_nil]
    have e : ∀ k, k < 7 → (axisWorld 4 4 7 : World XR).heap.cons k = axisCons k := by
      intro k hk; simp [axisWorld, layout, hk]
    rw [e 0 (by norm_num), e 1 (by norm_num), e 2 (by norm_num), e 3 (by norm_num), e 4 (by norm_num), e 5 (by norm_num),
      e 6 (by norm_num)]
    simp only [axisCons, xr_zero, xr_two, xr_three]
    rw [loss_fix pa, loss_horiz pa pb, loss_vert pa pd, loss_horizLine (x1 := ax) (y1 := ay) (x2 := bx) (y2 := by'),
      loss_horizLine (l := 2) (x1 := cx) (y1 := cy) (x2 := dx) (y2 := dy), loss_vertLine (x1 := bx) (y1 := by') (x2 := cx) (y2 := cy),
      loss_vertLine (l := 3) (x1 := dx) (y1 := dy) (x2 := ax) (y2 := ay)]
    all_goals first | (unfold lineStart) | (unfold lineEnd)
    · rw [l3]; exact pd
    · rw [l3]; exact pa
    · rw [l1]; exact pb
    · rw [l1]; exact pc
    · rw [l2]; exact pc
    · rw [l2]; exact pd
    · rw [l0]; exact pa
    · rw [l0]; exact pb
  rw [getLoss_of_fin this]
  congr 1
  simp only [List.sum_cons, List.sum_nil]
  ring

theorem axis_finite {L : ℝ} (hL : getLoss h (axisWorld 4 4 7 : World XR).sketch = fin L) :
    ∃ ax ay bx by' cx cy dx dy : ℝ, PointAt h 0 ax ay ∧ PointAt h 1 bx by' ∧ PointAt h 2 cx cy ∧ PointAt h 3 dx dy := by
  obtain ⟨l0, l1, l2, l3⟩ := axis_lines hr
  obtain ⟨f, -, f1, -⟩ := getLoss_eq_sum hL
  rw [hr.cons] at f1
  have g0 := f1 0 (by decide)
  have g1 := f1 1 (by decide)
  have g2 := f1 2 (by decide)
  have g3 := f1 3 (by decide)
  have g4 := f1 4 (by decide)
  have g5 := f1 5 (by decide)
  have g6 := f1 6 (by decide)
  change lossValue h (.fix 0 ⟨0.0, 0.0⟩) = _ at g0
  change lossValue h (.horizLine 0) = _ at g1
  change lossValue h (.horizLine 2) = _ at g2
  change lossValue h (.vertLine 1) = _ at g3
  change lossValue h (.vertLine 3) = _ at g4
  change lossValue h (.horizDist 0 1 2.0) = _ at g5
  change lossValue h (.vertDist 0 3 3.0) = _ at g6
  obtain ⟨_, _, e1, e2, -⟩ := half_add_eq_fin g0
  obtain ⟨ax, _, ax1, -, -⟩ := sub_eq_fin e1
  obtain ⟨ay, _, ay1, -, -⟩ := sub_eq_fin e2
  simp only [lossValue, lineStart, lineEnd, l0, l1, l2, l3, horizCurrent, vertCurrent] at g1 g2 g3 g4 g5 g6
  obtain ⟨_, g1, -⟩ := half_sq_eq_fin g1
  obtain ⟨_, g2, -⟩ := half_sq_eq_fin g2
  obtain ⟨_, g3, -⟩ := half_sq_eq_fin g3
  obtain ⟨_, g4, -⟩ := half_sq_eq_fin g4
  obtain ⟨by', _, by1, -, -⟩ := sub_eq_fin g1
  obtain ⟨dy, cy, dy1, cy1, -⟩ := sub_eq_fin g2
  obtain ⟨cx, bx, cx1, bx1, -⟩ := sub_eq_fin g3
  obtain ⟨_, dx, -, dx1, -⟩ := sub_eq_fin g4
  exact ⟨ax, ay, bx, by', cx, cy, dx, dy, pointAt_of ax1 ay1, pointAt_of bx1 by1, pointAt_of cx1 cy1, pointAt_of dx1 dy1⟩
end

/-- **C64.** In exact arithmetic, whatever moved the points: if the loss of the axis-aligned rectangle is `L`, its corners are within
`√(2 L)`, `√(4 L)`, `√(6 L)` and `√(4 L)` of `(0, 0)`, `(2, 0)`, `(2, 3)` and `(0, 3)`. -/
theorem C64_axis_error {r : Rectangle XR} (hb : axisNew = some r) {h : Heap XR} (hr : SameRefs r.world.heap h) {L : ℝ}
    (hL : getLoss h r.world.sketch = .fin L) :
    dist (ptOf h r.a) (pt 0 0) ≤ √(2 * L) ∧ dist (ptOf h r.b) (pt 2 0) ≤ √(4 * L) ∧ dist (ptOf h r.c) (pt 2 3) ≤ √(6 * L) ∧
      dist (ptOf h r.d) (pt 0 3) ≤ √(4 * L) := by
  obtain rfl := axis_xr hb
  obtain ⟨ax, ay, bx, by', cx, cy, dx, dy, pa, pb, pc, pd⟩ := axis_finite hr hL
  rw [axis_loss hr pa pb pc pd, fin.injEq] at hL
  have ep : ∀ {p : Nat} {x y : ℝ}, PointAt h p x y → ptOf h p = pt x y := by
    intro p x y e; unfold ptOf; rw [e]; rfl
  rw [ep pa, ep pb, ep pc, ep pd, ← hyp_eq_dist, ← hyp_eq_dist, ← hyp_eq_dist, ← hyp_eq_dist]
  unfold hyp
  have q := fun z : ℝ => sq_nonneg z
  refine ⟨Real.sqrt_le_sqrt ?_, Real.sqrt_le_sqrt ?_, Real.sqrt_le_sqrt ?_, Real.sqrt_le_sqrt ?_⟩
  · nlinarith [q (by' - ay), q (dy - cy), q (cx - bx), q (ax - dx), q (bx - ax - 2), q (dy - ay - 3)]
  · nlinarith [q (by' - ay), q (dy - cy), q (cx - bx), q (ax - dx), q (bx - ax - 2), q (dy - ay - 3), q (ax - (bx - ax - 2)),
      q (ay - (by' - ay))]
  · nlinarith [q (by' - ay), q (dy - cy), q (cx - bx), q (ax - dx), q (bx - ax - 2), q (dy - ay - 3), q (ax - (bx - ax - 2)),
      q (ax - (cx - bx)), q ((bx - ax - 2) - (cx - bx)), q (ay - (dy - ay - 3)), q (ay - (cy - dy)), q ((dy - ay - 3) - (cy - dy))]
  · nlinarith [q (by' - ay), q (dy - cy), q (cx - bx), q (ax - dx), q (bx - ax - 2), q (dy - ay - 3), q (ax + (ax - dx)),
      q (ay - (dy - ay - 3))]

/-- **C64.** The loss is zero iff the four points are the corners of the rectangle. -/
theorem C64_axis_zero {r : Rectangle XR} (hb : axisNew = some r) {h : Heap XR} (hr : SameRefs r.world.heap h) :
    getLoss h r.world.sketch = .fin 0 ↔
      PointAt h r.a 0 0 ∧ PointAt h r.b 2 0 ∧ PointAt h r.c 2 3 ∧ PointAt h r.d 0 3 := by
  obtain rfl := axis_xr hb
  constructor
  · intro hL
    obtain ⟨ax, ay, bx, by', cx, cy, dx, dy, pa, pb, pc, pd⟩ := axis_finite hr hL
    rw [axis_loss hr pa pb pc pd, fin.injEq] at hL
    have q := fun z : ℝ => sq_nonneg z
    have z : ∀ t : ℝ, t ^ 2 ≤ 0 → t = 0 := fun t ht => pow_eq_zero_iff (two_ne_zero) |>.1 (le_antisymm ht (q t))
    have n1 := q ax; have n2 := q ay; have n3 := q (by' - ay); have n4 := q (dy - cy); have n5 := q (cx - bx)
    have n6 := q (ax - dx); have n7 := q (bx - ax - 2); have n8 := q (dy - ay - 3)
    have e1 := z ax (by linarith)
    have e2 := z ay (by linarith)
    have e3 := z (by' - ay) (by linarith)
    have e4 := z (dy - cy) (by linarith)
    have e5 := z (cx - bx) (by linarith)
    have e6 := z (ax - dx) (by linarith)
    have e7 := z (bx - ax - 2) (by linarith)
    have e8 := z (dy - ay - 3) (by linarith)
    obtain rfl : ax = 0 := e1
    obtain rfl : ay = 0 := e2
    obtain rfl : bx = 2 := by linarith
    obtain rfl : by' = 0 := by linarith
    obtain rfl : cx = 2 := by linarith
    obtain rfl : dy = 3 := by linarith
    obtain rfl : cy = 3 := by linarith
    obtain rfl : dx = 0 := by linarith
    exact ⟨pa, pb, pc, pd⟩
  · rintro ⟨pa, pb, pc, pd⟩
    rw [axis_loss hr pa pb pc pd]
    norm_num

theorem distTo_lt {h : Heap XR} {p : Nat} {x y : ℝ} (hp : PointAt h p x y) (X Y e : ℝ) :
    (distTo h p (fin X) (fin Y) <. fin e) = true ↔ dist (ptOf h p) (pt X Y) < e := by
  have : ptOf h p = pt x y := by unfold ptOf; rw [hp]; rfl
  unfold distTo
  rw [hp, vsub_fin, norm_fin, lt_fin, decide_eq_true_eq, this, hyp_eq_dist]

/-- **C64.** The four assertions of the test hold if the loss is below `1e-16 / 6`. -/
theorem C64_axis_asserts {r : Rectangle XR} (hb : axisNew = some r) {h : Heap XR} (hr : SameRefs r.world.heap h) {L : ℝ}
    (hL : getLoss h r.world.sketch = .fin L) (hl : 6 * L < 1e-16) : axisAsserts r h = true := by
  obtain ⟨d1, d2, d3, d4⟩ := C64_axis_error hb hr hL
  have L0 : 0 ≤ L := by
    have := C15_total_nonneg h r.world.sketch
    rw [hL, xr_zero, lt_fin, decide_eq_false_iff_not, not_lt] at this
    exact this
  obtain rfl := axis_xr hb
  obtain ⟨ax, ay, bx, by', cx, cy, dx, dy, pa, pb, pc, pd⟩ := axis_finite hr hL
  have s : ∀ {k : ℝ}, k ≤ 6 → √(k * L) < 1e-8 := by
    intro k hk
    rw [Real.sqrt_lt' (by norm_num)]
    have : k * L ≤ 6 * L := mul_le_mul_of_nonneg_right hk L0
    norm_num at *
    linarith
  have e8 : (1e-8 : XR) = fin 1e-8 := sci _ _ _
  unfold axisAsserts
  simp only [Bool.and_eq_true, xr_zero, xr_two, xr_three, e8]
  rw [distTo_lt pa, distTo_lt pb, distTo_lt pc, distTo_lt pd]
  exact ⟨⟨⟨d1.trans_lt (s (by norm_num)), d2.trans_lt (s (by norm_num))⟩, d3.trans_lt (s (by norm_num))⟩, d4.trans_lt (s (by norm_num))⟩

/-- **C64.** The assertions do not follow from the stopping criterion of the solver (`loss < 1e-16`): there are positions of the points
with a smaller loss at which the third assertion fails. -/
theorem C64_axis_gap {r : Rectangle XR} (hb : axisNew = some r) :
    ∃ h L, SameRefs r.world.heap h ∧ getLoss h r.world.sketch = .fin L ∧ L < 1e-16 ∧ axisAsserts r h = false := by
  obtain rfl := axis_xr hb
  let e : ℝ := 5e-9
  let h : Heap XR := { (axisWorld 4 4 7 : World XR).heap with
    points := fun p => match p with
      | 0 => ⟨⟨fin e, fin e⟩, Vec2.zeros⟩
      | 1 => ⟨⟨fin (2 + 2 * e), fin e⟩, Vec2.zeros⟩
      | 2 => ⟨⟨fin (2 + 3 * e), fin (3 + 3 * e)⟩, Vec2.zeros⟩
      | _ => ⟨⟨fin e, fin (3 + 2 * e)⟩, Vec2.zeros⟩ }
  have hr : SameRefs (axisWorld 4 4 7 : World XR).heap h :=
    ⟨rfl, rfl, fun _ => rfl, fun _ => rfl, fun _ => rfl, rfl, rfl, rfl, rfl, rfl⟩
  have pc : PointAt h 2 (2 + 3 * e) (3 + 3 * e) := rfl
  have loss := axis_loss (h := h) hr (ax := e) (ay := e) (bx := 2 + 2 * e) (by' := e) (cx := 2 + 3 * e) (cy := 3 + 3 * e) (dx := e)
    (dy := 3 + 2 * e) rfl rfl pc rfl
  refine ⟨h, _, hr, loss, ?_, ?_⟩
  · simp only [e]; norm_num
  · have : (distTo h 2 (fin 2) (fin 3) <. (1e-8 : XR)) = false := by
      rw [sci, Bool.eq_false_iff, Ne, distTo_lt pc, not_lt, show ptOf h 2 = pt (2 + 3 * e) (3 + 3 * e) from rfl, ← hyp_eq_dist]
      unfold hyp
      apply Real.le_sqrt_of_sq_le
      simp only [e]
      norm_num
    unfold axisAsserts
    simp only [xr_two, xr_three, this, Bool.and_false, Bool.false_and]

/-- **C64.** The test (`solver.solve(..).unwrap()`, then the assertions) succeeds with every solver that ends with a loss below
`1e-16 / 6`. -/
theorem C64_axis_run {r : Rectangle XR} (hb : axisNew = some r) (pinv : PInv XR) (k : SolverKind XR) {L : ℝ}
    (hl : 6 * L < 1e-16) (hle : (getLoss (runSolver pinv k r.world.heap r.world.sketch).heap r.world.sketch <=. .fin L) = true) :
    axisAsserts r (runSolver pinv k r.world.heap r.world.sketch).heap = true := by
  have hr := (runSolver_moves pinv k r.world.heap r.world.sketch).1
  generalize (runSolver pinv k r.world.heap r.world.sketch).heap = h at hr hle
  rcases loss_total_notNeg h r.world.sketch with ⟨L', L0, hL⟩ | hL | hL
  · rw [hL, le_fin, decide_eq_true_eq] at hle
    exact C64_axis_asserts hb hr hL (by linarith)
  · rw [hL] at hle; exact absurd hle (by simp [Num.le, XR.le])
  · rw [hL] at hle; exact absurd hle (by simp [Num.le, XR.le])

/-- the hypotheses can be met: the rectangle exists, and its initial loss (2² + 3²) / 2 is finite -/
example : ∃ r : Rectangle XR, axisNew = some r ∧ getLoss r.world.heap r.world.sketch = .fin 6.5 := by
  refine ⟨_, axis_eq (by rw [xr_zero]; rfl) (by rw [xr_two]; rfl) (by rw [xr_three]; rfl), ?_⟩
  have p : ∀ i, PointAt (axisWorld 4 4 7 : World XR).heap i 0 0 := by
    intro i
    simp only [PointAt, axisWorld, layout, Heap.empty]
    split <;> simp only [Point2.new, xr_zero]
  rw [axis_loss (SameRefs.refl _) (p 0) (p 1) (p 2) (p 3)]
  norm_num

end Isotope
