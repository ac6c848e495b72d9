import Verif.Lemmas.Layout
import Verif.Lemmas.FinLoss
import Verif.Lemmas.Frame

/-!
# The stairs benchmark (C63)
-/

namespace Isotope
open XR

section any
variable {F : Type} [Num F]

/-- the constraints of the stairs, in the order of their creation -/
def stairsCons (k : Nat) : Constraint F :=
  if k = 0 then .fix 0 ⟨0.0, 0.0⟩
  else if k % 2 = 1 then
    (if (k - 1) / 2 % 2 = 0 then .horizDist ((k - 1) / 2) ((k - 1) / 2 + 1) 0.8 else .vertDist ((k - 1) / 2) ((k - 1) / 2 + 1) 0.8)
  else (if (k - 1) / 2 % 2 = 0 then .horizLine ((k - 1) / 2) else .vertLine ((k - 1) / 2))

/-- the stairs after `m` rounds of the second loop -/
def stairsWorld (n m k : Nat) : World F := layout (fun _ => Point2.new 0.0 0.0) (fun i => ⟨i, i + 1⟩) stairsCons n m k

theorem stairs_points (n : Nat) (hn : n < u64Size) :
    forLoop stairsPoint n ((World.init : World F), []) = some (stairsWorld n 0 0, List.range n) := by
  induction n with
  | zero => simp [forLoop, stairsWorld, layout_init]
  | succ n ih =>
    rw [forLoop, ih (by omega)]
    simp only [Option.bind_some, stairsPoint]
    rw [stairsWorld, layout_addPoint (fun _ => Point2.new (0.0 : F) 0.0) _ _ n _ (x := 0.0) (y := 0.0) rfl hn]
    simp [unwrapAddr, List.range_succ, stairsWorld]

theorem stairs_step (h8 : Num.isFinite (0.8 : F) = true) {n i : Nat} (hi : i + 1 < n) (hn : 2 * n ≤ u64Size) :
    stairsStep (List.range n) i (stairsWorld n i (2 * i + 1) : World F) = some (stairsWorld n (i + 1) (2 * (i + 1) + 1)) := by
  have g1 : (List.range n)[i]? = some i := List.getElem?_range (by omega)
  have g2 : (List.range n)[i + 1]? = some (i + 1) := List.getElem?_range (by omega)
  have mp : ∀ {m k a : Nat}, a < n → PrimCell.point a ∈ (stairsWorld n m k : World F).sketch.cells :=
    fun h => (layout_mem_point _ _ _ _ _ _ _).2 h
  have ml : ∀ {m k a : Nat}, a < m → PrimCell.line a ∈ (stairsWorld n m k : World F).sketch.cells :=
    fun h => (layout_mem_line _ _ _ _ _ _ _).2 h
  have c1 : (stairsCons (2 * i + 1) : Constraint F) = if i % 2 = 0 then .horizDist i (i + 1) 0.8 else .vertDist i (i + 1) 0.8 := by
    unfold stairsCons
    rw [if_neg (by omega), if_pos (by omega)]
    simp
  have c2 : (stairsCons (2 * i + 2) : Constraint F) = if i % 2 = 0 then .horizLine i else .vertLine i := by
    unfold stairsCons
    rw [if_neg (by omega), if_neg (by omega), show (2 * i + 2 - 1) / 2 = i by omega]
  unfold stairsStep
  simp only [g1, g2, Option.bind_eq_bind, Option.bind_some]
  rw [stairsWorld, layout_addLine _ (fun i => ⟨i, i + 1⟩) _ _ i _ (s := i) (e := i + 1) rfl (by omega) (by omega) (by omega)]
  simp only [unwrapAddr, Option.bind_some]
  by_cases he : i % 2 = 0
  · rw [if_pos he] at c1 c2
    rw [if_pos he, layout_constrain _ _ _ _ _ _ c1 h8 (by
      intro r hr
      simp only [consFields, List.mem_cons, List.not_mem_nil, or_false] at hr
      rcases hr with rfl | rfl <;> exact mp (by omega))]
    simp only [Option.bind_some]
    rw [layout_constrain _ _ _ _ _ _ c2 rfl (by
      intro r hr
      simp only [consFields, List.mem_cons, List.not_mem_nil, or_false] at hr
      subst hr; exact ml (by omega))]
    rfl
  · rw [if_neg he] at c1 c2
    rw [if_neg he, layout_constrain _ _ _ _ _ _ c1 h8 (by
      intro r hr
      simp only [consFields, List.mem_cons, List.not_mem_nil, or_false] at hr
      rcases hr with rfl | rfl <;> exact mp (by omega))]
    simp only [Option.bind_some]
    rw [layout_constrain _ _ _ _ _ _ c2 rfl (by
      intro r hr
      simp only [consFields, List.mem_cons, List.not_mem_nil, or_false] at hr
      subst hr; exact ml (by omega))]
    rfl

theorem stairs_eq (h0 : Num.isFinite (0.0 : F) = true) (h8 : Num.isFinite (0.8 : F) = true) {n : Nat} (h1 : 0 < n)
    (hn : 2 * n ≤ u64Size) :
    (stairsNew n : Option (Bench F)) = some ⟨stairsWorld n (n - 1) (2 * (n - 1) + 1), List.range n⟩ := by
  unfold stairsNew
  rw [stairs_points n (by omega)]
  have g : (List.range n)[0]? = some 0 := List.getElem?_range (by omega)
  simp only [Option.bind_eq_bind, Option.bind_some, g]
  rw [stairsWorld, layout_constrain _ _ _ _ _ _ (c := .fix 0 ⟨0.0, 0.0⟩) rfl (by simp [consNewOk, Vec2.allFinite, h0]) (by
    intro r hr
    simp only [consFields, List.mem_cons, List.not_mem_nil, or_false] at hr
    subst hr; exact (layout_mem_point _ _ _ _ _ _ _).2 h1)]
  simp only [unwrapAddr, Option.bind_some]
  have key : ∀ m, m + 1 ≤ n → forLoop (stairsStep (List.range n)) m (stairsWorld n 0 1 : World F) =
      some (stairsWorld n m (2 * m + 1)) := by
    intro m
    induction m with
    | zero => intro _; rfl
    | succ m ih =>
      intro hm
      rw [forLoop, ih (by omega), Option.bind_some, stairs_step h8 (by omega) hn]
  have := key (n - 1) (by omega)
  rw [stairsWorld] at this
  rw [this]
  rfl

/-- **C63.** For every `n ≥ 1` the stairs benchmark is built without a panic: every `unwrap` succeeds.  It has `n` points,
`2 n - 1` primitives and `2 n - 1` constraints, and its sketch is closed.  (The ids are `u64`, hence the bound on `n`.) -/
theorem C63_stairs_build (h0 : Num.isFinite (0.0 : F) = true) (h8 : Num.isFinite (0.8 : F) = true) (n : Nat) (h1 : 0 < n)
    (hn : 2 * n ≤ 2 ^ 64) :
    ∃ b : Bench F, stairsNew n = some b ∧ b.points.length = n ∧ b.points.Nodup ∧ b.world.sketch.getNumPrimitives = 2 * n - 1 ∧
      b.world.sketch.getNumConstraints = 2 * n - 1 ∧ Closed b.world := by
  refine ⟨_, stairs_eq h0 h8 h1 hn, List.length_range, List.nodup_range, ?_, ?_, ?_, ?_⟩
  · simp [Sketch.getNumPrimitives, stairsWorld, layout]; omega
  · simp [Sketch.getNumConstraints, stairsWorld, layout]; omega
  · intro c hc r hr
    dsimp only at hc hr ⊢
    simp only [stairsWorld, layout, Sketch.cells, List.map_append, List.map_map, List.mem_append, List.mem_map, List.mem_range,
      Function.comp_apply] at hc
    rcases hc with ⟨a, ha, rfl⟩ | ⟨a, ha, rfl⟩
    · simp [primFields] at hr
    · simp only [primFields, stairsWorld, layout, if_pos ha, List.mem_cons, List.not_mem_nil, or_false] at hr
      rcases hr with rfl | rfl <;> exact (layout_mem_point _ _ _ _ _ _ _).2 (by omega)
  · intro k hk r hr
    dsimp only at hk hr ⊢
    simp only [stairsWorld, layout, List.mem_range] at hk
    have mp : ∀ {a : Nat}, a < n → PrimCell.point a ∈ (stairsWorld n (n - 1) (2 * (n - 1) + 1) : World F).sketch.cells :=
      fun h => (layout_mem_point _ _ _ _ _ _ _).2 h
    have ml : ∀ {a : Nat}, a < n - 1 → PrimCell.line a ∈ (stairsWorld n (n - 1) (2 * (n - 1) + 1) : World F).sketch.cells :=
      fun h => (layout_mem_line _ _ _ _ _ _ _).2 h
    simp only [stairsWorld, layout, if_pos hk, stairsCons] at hr
    split_ifs at hr <;> simp only [consFields, List.mem_cons, List.not_mem_nil, or_false] at hr
    · subst hr; exact mp h1
    · rcases hr with rfl | rfl <;> exact mp (by omega)
    · rcases hr with rfl | rfl <;> exact mp (by omega)
    · subst hr; exact ml (by omega)
    · subst hr; exact ml (by omega)

/-- **C63.** A benchmark of size 0 panics. -/
theorem C63_stairs_empty : (stairsNew 0 : Option (Bench F)) = none := rfl

end any

/-! ## The solution (exact arithmetic) -/

/-- where the `i`-th point of the stairs belongs -/
noncomputable def stairX (i : Nat) : ℝ := ((i + 1) / 2 : ℕ) * 0.8
noncomputable def stairY (i : Nat) : ℝ := (i / 2 : ℕ) * 0.8

theorem stair_even {i : Nat} (h : i % 2 = 0) : stairX (i + 1) = stairX i + 0.8 ∧ stairY (i + 1) = stairY i := by
  unfold stairX stairY
  rw [show (i + 1 + 1) / 2 = (i + 1) / 2 + 1 by omega, show (i + 1) / 2 = i / 2 by omega]
  push_cast
  constructor <;> ring

theorem stair_odd {i : Nat} (h : ¬i % 2 = 0) : stairX (i + 1) = stairX i ∧ stairY (i + 1) = stairY i + 0.8 := by
  unfold stairX stairY
  rw [show (i + 1 + 1) / 2 = (i + 1) / 2 by omega, show (i + 1) / 2 = i / 2 + 1 by omega]
  push_cast
  constructor <;> ring

theorem xr_zero : (0.0 : XR) = fin 0 := by simp only [sci]; norm_num
theorem xr_step : (0.8 : XR) = fin 0.8 := by simp only [sci]

/-- growth of the error from one step to the next -/
theorem step_error {a b A B : ℝ} {i : ℕ} (ha : a ^ 2 ≤ 2 * (i + 1) * A) (hb : b ^ 2 ≤ 2 * B) :
    (a + b) ^ 2 ≤ 2 * ((i + 1 : ℕ) + 1) * (A + B) := by
  push_cast
  have hi : (0 : ℝ) < (i : ℝ) + 1 := by positivity
  have h1 : (i + 1 : ℝ) * (a + b) ^ 2 ≤ (i + 2) * a ^ 2 + (i + 1) * (i + 2) * b ^ 2 := by
    nlinarith [sq_nonneg (a - (i + 1) * b)]
  have h2 : (i + 1 : ℝ) * (a + b) ^ 2 ≤ (i + 1) * (2 * (i + 1 + 1) * (A + B)) := by
    have e1 : (i + 2 : ℝ) * a ^ 2 ≤ (i + 2) * (2 * (i + 1) * A) := by
      apply mul_le_mul_of_nonneg_left ha; positivity
    have e2 : (i + 1 : ℝ) * (i + 2) * b ^ 2 ≤ (i + 1) * (i + 2) * (2 * B) := by
      apply mul_le_mul_of_nonneg_left hb; positivity
    nlinarith
  exact le_of_mul_le_mul_left h2 hi

theorem stairs_cons_get (n m k : Nat) (j : Nat) (hj : j < k) : (stairsWorld n m k : World XR).heap.cons j = stairsCons j := by
  simp [stairsWorld, layout, hj]

theorem stairs_bound {n : Nat} {h : Heap XR}
    (hr : SameRefs (stairsWorld n (n - 1) (2 * (n - 1) + 1) : World XR).heap h) {f : ℕ → ℝ} (f0 : ∀ i, 0 ≤ f i)
    (hf : ∀ j < 2 * (n - 1) + 1, lossValue h (stairsCons j) = fin (f j)) (i : Nat) (hi : i < n) :
    ∃ x y, PointAt h i x y ∧ (x - stairX i) ^ 2 ≤ 2 * (i + 1) * ∑ j ∈ Finset.range (2 * i + 1), f j ∧
      (y - stairY i) ^ 2 ≤ 2 * (i + 1) * ∑ j ∈ Finset.range (2 * i + 1), f j := by
  induction i with
  | zero =>
    have h1 := hf 0 (by omega)
    simp only [stairsCons, if_true, lossValue] at h1
    obtain ⟨a, b, ea, eb, e⟩ := half_add_eq_fin h1
    obtain ⟨x, x0, ex, ex0, rfl⟩ := sub_eq_fin ea
    obtain ⟨y, y0, ey, ey0, rfl⟩ := sub_eq_fin eb
    rw [xr_zero, fin.injEq] at ex0 ey0
    subst ex0 ey0
    refine ⟨x, y, ?_, ?_, ?_⟩
    · show (h.points 0).data = _
      rw [show (h.points 0).data = ⟨(h.points 0).data.x, (h.points 0).data.y⟩ from rfl]
      exact congrArg₂ Vec2.mk ex ey
    all_goals
      simp only [stairX, stairY, Finset.sum_range_one, Nat.mul_zero, Nat.zero_add]
      norm_num
      nlinarith [sq_nonneg x, sq_nonneg y]
  | succ i ih =>
    obtain ⟨x, y, hp, hx, hy⟩ := ih (by omega)
    have h1 := hf (2 * i + 1) (by omega)
    have h2 := hf (2 * i + 2) (by omega)
    have hl : h.lines i = ⟨i, i + 1⟩ := by
      rw [hr.lines]
      have : i < n - 1 := by omega
      simp [stairsWorld, layout, this]
    have px : (ptData h i) = ⟨fin x, fin y⟩ := hp
    have S : ∑ j ∈ Finset.range (2 * (i + 1) + 1), f j = ∑ j ∈ Finset.range (2 * i + 1), f j + (f (2 * i + 1) + f (2 * i + 2)) := by
      rw [show 2 * (i + 1) + 1 = 2 * i + 1 + 1 + 1 by ring, Finset.sum_range_succ, Finset.sum_range_succ]; ring
    have n1 := f0 (2 * i + 1)
    have n2 := f0 (2 * i + 2)
    by_cases he : i % 2 = 0
    · obtain ⟨sx, sy⟩ := stair_even he
      have c1 : (stairsCons (2 * i + 1) : Constraint XR) = .horizDist i (i + 1) 0.8 := by
        unfold stairsCons
        rw [if_neg (by omega), if_pos (by omega)]
        simp [he]
      have c2 : (stairsCons (2 * i + 2) : Constraint XR) = .horizLine i := by
        unfold stairsCons
        rw [if_neg (by omega), if_neg (by omega), show (2 * i + 2 - 1) / 2 = i by omega, if_pos he]
      rw [c1] at h1
      rw [c2] at h2
      simp only [lossValue, horizCurrent, lineStart, lineEnd, hl, px, xr_step] at h1 h2
      obtain ⟨e1, h1, r1⟩ := half_sq_eq_fin h1
      obtain ⟨e2, h2, r2⟩ := half_sq_eq_fin h2
      obtain ⟨t, d, h3, hd, rfl⟩ := sub_eq_fin h1
      obtain ⟨x', x0, hx', ex, rfl⟩ := sub_eq_fin h3
      obtain ⟨y', y0, hy', ey, rfl⟩ := sub_eq_fin h2
      rw [fin.injEq] at hd ex ey
      subst hd ex ey
      refine ⟨x', y', ?_, ?_, ?_⟩
      · show ptData h (i + 1) = _
        rw [show ptData h (i + 1) = ⟨(ptData h (i + 1)).x, (ptData h (i + 1)).y⟩ from rfl]
        exact congrArg₂ Vec2.mk hx' hy'
      · have := step_error hx (b := x' - x - 0.8) (B := f (2 * i + 1) + f (2 * i + 2)) (by rw [r1] at *; nlinarith)
        rw [S, sx]
        convert this using 2
        ring
      · have := step_error hy (b := y' - y) (B := f (2 * i + 1) + f (2 * i + 2)) (by rw [r2] at *; nlinarith)
        rw [S, sy]
        convert this using 2
        ring
    · obtain ⟨sx, sy⟩ := stair_odd he
      have c1 : (stairsCons (2 * i + 1) : Constraint XR) = .vertDist i (i + 1) 0.8 := by
        unfold stairsCons
        rw [if_neg (by omega), if_pos (by omega)]
        simp [he]
      have c2 : (stairsCons (2 * i + 2) : Constraint XR) = .vertLine i := by
        unfold stairsCons
        rw [if_neg (by omega), if_neg (by omega), show (2 * i + 2 - 1) / 2 = i by omega, if_neg he]
      rw [c1] at h1
      rw [c2] at h2
      simp only [lossValue, vertCurrent, lineStart, lineEnd, hl, px, xr_step] at h1 h2
      obtain ⟨e1, h1, r1⟩ := half_sq_eq_fin h1
      obtain ⟨e2, h2, r2⟩ := half_sq_eq_fin h2
      obtain ⟨t, d, h3, hd, rfl⟩ := sub_eq_fin h1
      obtain ⟨y', y0, hy', ey, rfl⟩ := sub_eq_fin h3
      obtain ⟨x', x0, hx', ex, rfl⟩ := sub_eq_fin h2
      rw [fin.injEq] at hd ex ey
      subst hd ex ey
      refine ⟨x', y', ?_, ?_, ?_⟩
      · show ptData h (i + 1) = _
        rw [show ptData h (i + 1) = ⟨(ptData h (i + 1)).x, (ptData h (i + 1)).y⟩ from rfl]
        exact congrArg₂ Vec2.mk hx' hy'
      · have := step_error hx (b := x' - x) (B := f (2 * i + 1) + f (2 * i + 2)) (by rw [r2] at *; nlinarith)
        rw [S, sx]
        convert this using 2
        ring
      · have := step_error hy (b := y' - y - 0.8) (B := f (2 * i + 1) + f (2 * i + 2)) (by rw [r1] at *; nlinarith)
        rw [S, sy]
        convert this using 2
        ring

theorem stairs_xr {n : Nat} (h1 : 0 < n) (hn : 2 * n ≤ 2 ^ 64) {b : Bench XR} (hb : stairsNew n = some b) :
    b = ⟨stairsWorld n (n - 1) (2 * (n - 1) + 1), List.range n⟩ := by
  rw [stairs_eq (by rw [xr_zero]; rfl) (by rw [xr_step]; rfl) h1 hn, Option.some.injEq] at hb
  exact hb.symm

theorem stairs_losses {n : Nat} {h : Heap XR} (hr : SameRefs (stairsWorld n (n - 1) (2 * (n - 1) + 1) : World XR).heap h) {L : ℝ}
    (hL : getLoss h (stairsWorld n (n - 1) (2 * (n - 1) + 1) : World XR).sketch = fin L) :
    ∃ f : ℕ → ℝ, (∀ i, 0 ≤ f i) ∧ (∀ j < 2 * (n - 1) + 1, lossValue h (stairsCons j) = fin (f j)) ∧
      L = ∑ i ∈ Finset.range (2 * (n - 1) + 1), f i := by
  obtain ⟨f, f0, f1, f2⟩ := getLoss_eq_sum hL
  have hc : (stairsWorld n (n - 1) (2 * (n - 1) + 1) : World XR).sketch.cons = List.range (2 * (n - 1) + 1) := rfl
  have hlen : (stairsWorld n (n - 1) (2 * (n - 1) + 1) : World XR).sketch.cons.length = 2 * (n - 1) + 1 := by
    rw [hc, List.length_range]
  refine ⟨f, f0, ?_, by rw [f2, hlen]⟩
  intro j hj
  have := f1 j (by rw [hlen]; exact hj)
  simp only [hc, List.getElem_range] at this
  rwa [hr.cons, stairs_cons_get _ _ _ _ hj] at this

/-- **C63.** In exact arithmetic: whatever moved the points, if the loss of the stairs is `L`, then all coordinates are finite and
those of the `i`-th point (from 0) are within `√(2 (i + 1) L)` of where they belong. -/
theorem C63_stairs_error {n : Nat} (h1 : 0 < n) (hn : 2 * n ≤ 2 ^ 64) {b : Bench XR} (hb : stairsNew n = some b) {h : Heap XR}
    (hr : SameRefs b.world.heap h) {L : ℝ} (hL : getLoss h b.world.sketch = .fin L) (i p : Nat) (hp : b.points[i]? = some p) :
    ∃ x y, PointAt h p x y ∧ |x - ((i + 1) / 2 : ℕ) * 0.8| ≤ √(2 * (i + 1) * L) ∧ |y - (i / 2 : ℕ) * 0.8| ≤ √(2 * (i + 1) * L) := by
  obtain rfl := stairs_xr h1 hn hb
  obtain ⟨f, f0, f1, rfl⟩ := stairs_losses hr hL
  obtain ⟨hi, rfl⟩ : i < n ∧ i = p := by simpa [List.getElem?_range, List.getElem?_eq_some_iff] using hp
  obtain ⟨x, y, hp, hx, hy⟩ := stairs_bound hr f0 f1 i hi
  have hle : ∑ j ∈ Finset.range (2 * i + 1), f j ≤ ∑ j ∈ Finset.range (2 * (n - 1) + 1), f j :=
    Finset.sum_le_sum_of_subset_of_nonneg (by intro j; simp only [Finset.mem_range]; omega) fun j _ _ => f0 j
  have hle : 2 * ((i : ℝ) + 1) * ∑ j ∈ Finset.range (2 * i + 1), f j ≤ 2 * (i + 1) * ∑ j ∈ Finset.range (2 * (n - 1) + 1), f j :=
    mul_le_mul_of_nonneg_left hle (by positivity)
  exact ⟨x, y, hp, Real.abs_le_sqrt (hx.trans hle), Real.abs_le_sqrt (hy.trans hle)⟩

/-- **C63.** The loss of the stairs is zero iff every point is where it belongs. -/
theorem C63_stairs_zero {n : Nat} (h1 : 0 < n) (hn : 2 * n ≤ 2 ^ 64) {b : Bench XR} (hb : stairsNew n = some b) {h : Heap XR}
    (hr : SameRefs b.world.heap h) : getLoss h b.world.sketch = .fin 0 ↔
      ∀ i p, b.points[i]? = some p → PointAt h p (((i + 1) / 2 : ℕ) * 0.8) ((i / 2 : ℕ) * 0.8) := by
  constructor
  · intro hL i p hp
    obtain ⟨x, y, hp, hx, hy⟩ := C63_stairs_error h1 hn hb hr hL i p hp
    rw [mul_zero, Real.sqrt_zero] at hx hy
    have ex := abs_nonpos_iff.1 hx
    have ey := abs_nonpos_iff.1 hy
    rwa [sub_eq_zero.1 ex, sub_eq_zero.1 ey] at hp
  · intro hall
    rw [C15_zero_iff]
    obtain rfl := stairs_xr h1 hn hb
    intro k hk
    have hk : k < 2 * (n - 1) + 1 := by simpa [stairsWorld, layout] using hk
    rw [hr.cons, stairs_cons_get _ _ _ _ hk]
    have pd : ∀ i < n, ptData h i = ⟨fin (stairX i), fin (stairY i)⟩ := fun i hi => hall i i (List.getElem?_range hi)
    have hl : ∀ i < n - 1, h.lines i = ⟨i, i + 1⟩ := by
      intro i hi
      rw [hr.lines]
      simp [stairsWorld, layout, hi]
    unfold stairsCons
    split_ifs with k0 k1 ke ke
    · rw [xr_zero, loss_fix (pd 0 h1)]
      simp [stairX, stairY]
    · rw [xr_step, loss_horiz (pd _ (by omega)) (pd _ (by omega)), (stair_even ke).1]
      simp
    · rw [xr_step, loss_vert (pd _ (by omega)) (pd _ (by omega)), (stair_odd ke).2]
      simp
    all_goals
      have e1 : lineStart h ((k - 1) / 2) = ptData h ((k - 1) / 2) := by unfold lineStart; rw [hl _ (by omega)]
      have e2 : lineEnd h ((k - 1) / 2) = ptData h ((k - 1) / 2 + 1) := by unfold lineEnd; rw [hl _ (by omega)]
      rw [pd _ (by omega)] at e1 e2
    · rw [loss_horizLine e1 e2, (stair_even ke).2]
      simp
    · rw [loss_vertLine e1 e2, (stair_odd ke).1]
      simp

theorem pointPasses_iff {h : Heap XR} {p : Nat} {x y : ℝ} (hp : PointAt h p x y) (X Y eps : ℝ) :
    pointPasses h p (fin X) (fin Y) (fin eps) = true ↔ |x - X| ≤ eps ∧ |y - Y| ≤ eps := by
  unfold pointPasses
  rw [hp]
  simp [gt]

theorem ofNat_step (k : Nat) : (Num.ofNat k * 0.8 : XR) = fin ((k : ℝ) * 0.8) := by
  rw [xr_step, ofNat_fin, mul_fin]

/-- **C63.** `check(eps)` passes as soon as the loss is at most `eps² / (2 (n - 1))`. -/
theorem C63_stairs_check {n : Nat} (h1 : 0 < n) (hn : 2 * n ≤ 2 ^ 64) {b : Bench XR} (hb : stairsNew n = some b) {h : Heap XR}
    (hr : SameRefs b.world.heap h) {L eps : ℝ} (hL : getLoss h b.world.sketch = .fin L) (he : 0 ≤ eps)
    (hle : 2 * (n - 1 : ℕ) * L ≤ eps ^ 2) : stairsCheck h b.points (.fin eps) = some true := by
  have hlen : b.points.length = n := by rw [stairs_xr h1 hn hb]; exact List.length_range
  have L0 : 0 ≤ L := by
    have := C15_total_nonneg h b.world.sketch
    rw [hL, xr_zero, lt_fin, decide_eq_false_iff_not, not_lt] at this
    exact this
  unfold stairsCheck
  rw [if_neg (by omega), Option.some.injEq, List.all_eq_true]
  intro i hi
  rw [hlen, List.mem_range] at hi
  have hg : b.points[i]? = some (b.points.getD i 0) := by
    rw [List.getD_eq_getElem _ _ (by omega), List.getElem?_eq_getElem (by omega)]
  obtain ⟨x, y, hp, hx, hy⟩ := C63_stairs_error h1 hn hb hr hL i _ hg
  have hs : √(2 * (i + 1) * L) ≤ eps := by
    rw [Real.sqrt_le_left he]
    refine le_trans (mul_le_mul_of_nonneg_right ?_ L0) hle
    have : ((i + 1 : ℕ) : ℝ) ≤ (n - 1 : ℕ) := by exact_mod_cast (show i + 1 ≤ n - 1 by omega)
    push_cast at this
    linarith
  rw [ofNat_step, ofNat_step, pointPasses_iff hp]
  exact ⟨hx.trans hs, hy.trans hs⟩

/-- **C63.** The benchmark run as `main` does it (tolerance `1e-6`), with any of the four solvers and any parameters: if the
reported loss is at most `L` with `2 (n - 1) L ≤ 1e-12`, then it reports success.  So for the default `min_loss` of BFGS (`1e-16`)
up to 5001 points, and for that of gradient descent (`1e-14`) up to 51 points. -/
theorem C63_stairs_run {n : Nat} (h1 : 0 < n) (hn : 2 * n ≤ 2 ^ 64) {b : Bench XR} (hb : stairsNew n = some b) (pinv : PInv XR)
    (k : SolverKind XR) {solved : Bool} {loss : XR} {L : ℝ} (hnL : 2 * (n - 1 : ℕ) * L ≤ 1e-12)
    (hrun : benchRun pinv k (fun h => stairsCheck h b.points 1e-6) b = some (solved, loss)) (hl : (loss <=. .fin L) = true) :
    solved = true := by
  unfold benchRun at hrun
  dsimp only at hrun
  have hr := (runSolver_moves pinv k b.world.heap b.world.sketch).1
  generalize runSolver pinv k b.world.heap b.world.sketch = o at hr hrun
  split at hrun
  · obtain ⟨s, hs, hrun⟩ := Option.map_eq_some_iff.1 hrun
    cases hrun
    have nn := loss_total_notNeg o.heap b.world.sketch
    rcases nn with ⟨L', L0, hL⟩ | hL | hL
    · rw [hL, le_fin, decide_eq_true_eq] at hl
      have e6 : (1e-6 : XR) = fin 1e-6 := sci _ _ _
      have := C63_stairs_check h1 hn hb hr hL (eps := 1e-6) (by norm_num) (by
        refine (mul_le_mul_of_nonneg_left hl (by positivity)).trans (hnL.trans ?_)
        norm_num)
      rw [e6, this, Option.some.injEq] at hs
      exact hs.symm
    · rw [hL] at hl; exact absurd hl (by simp [Num.le, XR.le])
    · rw [hL] at hl; exact absurd hl (by simp [Num.le, XR.le])
  · cases hrun

/-- **C63.** The bound is exact: if `eps² < 2 (n - 1) L`, there is a position of the points with loss exactly `L` that `check(eps)`
rejects.  The benchmark runs gradient descent (`min_loss` `1e-14`) on stairs of 100 and 300 points with tolerance `1e-6`: the stopping
criterion of the solver does not imply what the benchmark checks. -/
theorem C63_stairs_gap {n : Nat} (h1 : 2 ≤ n) (hn : 2 * n ≤ 2 ^ 64) {b : Bench XR} (hb : stairsNew n = some b) {L eps : ℝ}
    (hL : 0 ≤ L) (he : eps ^ 2 < 2 * (n - 1 : ℕ) * L) :
    ∃ h, SameRefs b.world.heap h ∧ getLoss h b.world.sketch = .fin L ∧ stairsCheck h b.points (.fin eps) = some false := by
  obtain rfl := stairs_xr (by omega) hn hb
  have hn1 : (0 : ℝ) < (n - 1 : ℕ) := by exact_mod_cast (show 0 < n - 1 by omega)
  let e : ℝ := √(2 * L / (n - 1 : ℕ))
  have e2 : e ^ 2 = 2 * L / (n - 1 : ℕ) := Real.sq_sqrt (by positivity)
  let off : ℕ → ℝ := fun i => (min (i + 1) (n - 1) : ℕ) * e
  let h : Heap XR := { (stairsWorld n (n - 1) (2 * (n - 1) + 1) : World XR).heap with
    points := fun p => ⟨⟨fin (stairX p + off p), fin (stairY p)⟩, Vec2.zeros⟩ }
  have hr : SameRefs (stairsWorld n (n - 1) (2 * (n - 1) + 1) : World XR).heap h :=
    ⟨rfl, rfl, fun _ => rfl, fun _ => rfl, fun _ => rfl, rfl, rfl, rfl, rfl, rfl⟩
  have pd : ∀ i, ptData h i = ⟨fin (stairX i + off i), fin (stairY i)⟩ := fun _ => rfl
  have hl : ∀ i < n - 1, h.lines i = ⟨i, i + 1⟩ := by
    intro i hi
    rw [hr.lines]
    simp [stairsWorld, layout, hi]
  have o1 : ∀ i, i + 1 < n - 1 → off (i + 1) = off i + e := by
    intro i hi
    simp only [off]
    rw [min_eq_left (by omega), min_eq_left (by omega)]
    push_cast; ring
  have o2 : off (n - 1) = off (n - 2) := by
    simp only [off]
    rw [min_eq_right (by omega), min_eq_left (by omega), show n - 2 + 1 = n - 1 by omega]
  refine ⟨h, hr, ?_, ?_⟩
  · let f : ℕ → ℝ := fun j => if j = 0 then e ^ 2 / 2 else if (j % 2 = 1) = ((j - 1) / 2 % 2 = 0) then
        (off ((j - 1) / 2 + 1) - off ((j - 1) / 2)) ^ 2 / 2 else 0
    have hc : (stairsWorld n (n - 1) (2 * (n - 1) + 1) : World XR).sketch.cons = List.range (2 * (n - 1) + 1) := rfl
    have hlen : (stairsWorld n (n - 1) (2 * (n - 1) + 1) : World XR).sketch.cons.length = 2 * (n - 1) + 1 := by
      rw [hc, List.length_range]
    have hloss : ∀ j (hj : j < (stairsWorld n (n - 1) (2 * (n - 1) + 1) : World XR).sketch.cons.length),
        lossValue h (h.cons (stairsWorld n (n - 1) (2 * (n - 1) + 1) : World XR).sketch.cons[j]) = fin (f j) := by
      intro j hj
      have hj' : j < 2 * (n - 1) + 1 := by rwa [hlen] at hj
      simp only [hc, List.getElem_range]
      rw [hr.cons, stairs_cons_get _ _ _ _ hj']
      unfold stairsCons
      simp only [f]
      by_cases k0 : j = 0
      · rw [if_pos k0, if_pos k0, xr_zero, loss_fix (pd 0)]
        have : off 0 = e := by simp only [off]; rw [min_eq_left (by omega)]; simp
        rw [this]
        simp [stairX, stairY]
      · rw [if_neg k0, if_neg k0]
        by_cases k1 : j % 2 = 1
        · rw [if_pos k1]
          by_cases ke : (j - 1) / 2 % 2 = 0
          · rw [if_pos ke, if_pos (by simp [k1, ke]), xr_step, loss_horiz (pd _) (pd _), (stair_even ke).1]
            congr 1; ring
          · rw [if_neg ke, if_neg (by simp [k1, ke]), xr_step, loss_vert (pd _) (pd _), (stair_odd ke).2]
            simp
        · rw [if_neg k1]
          have e1 : lineStart h ((j - 1) / 2) = ptData h ((j - 1) / 2) := by unfold lineStart; rw [hl _ (by omega)]
          have e2 : lineEnd h ((j - 1) / 2) = ptData h ((j - 1) / 2 + 1) := by unfold lineEnd; rw [hl _ (by omega)]
          rw [pd] at e1 e2
          by_cases ke : (j - 1) / 2 % 2 = 0
          · rw [if_pos ke, if_neg (by simp [k1, ke]), loss_horizLine e1 e2, (stair_even ke).2]
            simp
          · rw [if_neg ke, if_pos (by simp [k1, ke]), loss_vertLine e1 e2, (stair_odd ke).1]
            congr 1; ring
    rw [getLoss_of_sum hloss, hlen]
    have pair : ∀ i, f (2 * i + 1) + f (2 * i + 2) = (off (i + 1) - off i) ^ 2 / 2 := by
      intro i
      simp only [f]
      rw [if_neg (show ¬2 * i + 1 = 0 by omega), if_neg (show ¬2 * i + 2 = 0 by omega), show (2 * i + 1 - 1) / 2 = i by omega,
        show (2 * i + 2 - 1) / 2 = i by omega]
      by_cases ke : i % 2 = 0 <;> simp [ke]
    have S : ∀ m, m + 1 ≤ n - 1 → ∑ j ∈ Finset.range (2 * m + 1), f j = (m + 1) * (e ^ 2 / 2) := by
      intro m
      induction m with
      | zero => intro _; simp [f]
      | succ m ih =>
        intro hm
        rw [show 2 * (m + 1) + 1 = 2 * m + 1 + 1 + 1 by ring, Finset.sum_range_succ, Finset.sum_range_succ, add_assoc, ih (by omega),
          pair m, o1 m (by omega)]
        push_cast
        ring
    obtain ⟨m, rfl⟩ : ∃ m, n = m + 2 := ⟨n - 2, by omega⟩
    rw [show 2 * (m + 2 - 1) + 1 = 2 * m + 1 + 1 + 1 by omega, Finset.sum_range_succ, Finset.sum_range_succ, add_assoc, S m (by omega),
      pair m]
    have o3 : off (m + 1) = off m := o2
    rw [o3, e2]
    congr 1
    have : ((m + 2 - 1 : ℕ) : ℝ) = m + 1 := by push_cast [show m + 2 - 1 = m + 1 by omega]; ring
    rw [this] at hn1 ⊢
    field_simp
    ring
  · unfold stairsCheck
    rw [List.length_range, if_neg (by omega), Option.some.injEq, List.all_eq_false]
    refine ⟨n - 2, List.mem_range.2 (by omega), ?_⟩
    rw [List.getD_eq_getElem _ _ (by rw [List.length_range]; omega), List.getElem_range, ofNat_step, ofNat_step,
      pointPasses_iff (pd (n - 2))]
    intro hcon
    have h2 := hcon.1
    have ox : off (n - 2) = (n - 1 : ℕ) * e := by
      simp only [off]
      rw [min_eq_left (by omega), show n - 2 + 1 = n - 1 by omega]
    rw [ox] at h2
    simp only [stairX, add_sub_cancel_left] at h2
    rw [abs_of_nonneg (by positivity)] at h2
    have h3 : ((n - 1 : ℕ) * e) ^ 2 ≤ eps ^ 2 := by
      apply pow_le_pow_left₀ (by positivity) h2
    rw [mul_pow, e2] at h3
    have : ((n - 1 : ℕ) : ℝ) ^ 2 * (2 * L / (n - 1 : ℕ)) = 2 * (n - 1 : ℕ) * L := by field_simp
    linarith

/-- **C63.** `check` never looks at the last point: it passes with tolerance 0 wherever that point is. -/
theorem C63_stairs_last {n : Nat} (h1 : 0 < n) (hn : 2 * n ≤ 2 ^ 64) {b : Bench XR} (hb : stairsNew n = some b) (X Y : ℝ) :
    ∃ h p, SameRefs b.world.heap h ∧ b.points[n - 1]? = some p ∧ PointAt h p X Y ∧ stairsCheck h b.points (.fin 0) = some true := by
  obtain rfl := stairs_xr h1 hn hb
  let h : Heap XR := { (stairsWorld n (n - 1) (2 * (n - 1) + 1) : World XR).heap with
    points := fun p => ⟨if p = n - 1 then ⟨fin X, fin Y⟩ else ⟨fin (stairX p), fin (stairY p)⟩, Vec2.zeros⟩ }
  refine ⟨h, n - 1, ⟨rfl, rfl, fun _ => rfl, fun _ => rfl, fun _ => rfl, rfl, rfl, rfl, rfl, rfl⟩,
    List.getElem?_range (by omega), by simp [PointAt, h], ?_⟩
  unfold stairsCheck
  rw [List.length_range, if_neg (by omega), Option.some.injEq, List.all_eq_true]
  intro i hi
  rw [List.mem_range] at hi
  rw [List.getD_eq_getElem _ _ (by rw [List.length_range]; omega), List.getElem_range, ofNat_step, ofNat_step]
  rw [pointPasses_iff (x := stairX i) (y := stairY i)]
  · simp [stairX, stairY]
  · show (h.points i).data = _
    simp only [h]
    rw [if_neg (by omega)]

/-- the hypotheses can be met: stairs of three points exist, and their initial loss is finite -/
example : ∃ b : Bench XR, stairsNew 3 = some b ∧ ∃ L, getLoss b.world.heap b.world.sketch = .fin L := by
  obtain ⟨b, hb, -, -, -, -, hc⟩ := C63_stairs_build (F := XR) (by rw [xr_zero]; rfl) (by rw [xr_step]; rfl) 3 (by norm_num) (by norm_num)
  refine ⟨b, hb, ?_⟩
  obtain rfl := stairs_xr (n := 3) (by norm_num) (by norm_num) hb
  have pd : ∀ i, ptData (stairsWorld 3 2 5 : World XR).heap i = ⟨fin 0, fin 0⟩ := by
    intro i
    simp only [ptData, stairsWorld, layout, Heap.empty]
    split <;> simp only [Point2.new, xr_zero]
  refine ⟨0.64, ?_⟩
  have : getLossPerConstraint (stairsWorld 3 2 5 : World XR).heap (stairsWorld 3 2 5 : World XR).sketch =
      [0, 0.32, 0, 0.32, 0].map fin := by
    unfold getLossPerConstraint
    rw [show (stairsWorld 3 2 5 : World XR).sketch.cons = [0, 1, 2, 3, 4] from rfl]
    simp only [List.map_cons, List.map_nil]
    rw [stairs_cons_get _ _ _ _ (by norm_num), stairs_cons_get _ _ _ _ (by norm_num), stairs_cons_get _ _ _ _ (by norm_num),
      stairs_cons_get _ _ _ _ (by norm_num), stairs_cons_get _ _ _ _ (by norm_num)]
    simp only [stairsCons]
    norm_num only
    simp only [if_true, if_false]
    rw [xr_zero, xr_step, loss_fix (pd 0), loss_horiz (pd 0) (pd 1), loss_vert (pd 1) (pd 2)]
    rw [loss_horizLine (pd _) (pd _), loss_vertLine (pd _) (pd _)]
    norm_num
  rw [getLoss_of_fin this]
  norm_num

end Isotope
