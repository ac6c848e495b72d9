import Verif.Props.Left
import Verif.Props.Forest
import Verif.Props.RingsExact
import Verif.Props.SolverExact
import Verif.Props.Newton

/-!
# Further cases that meet the hypotheses of theorems

Each example names the theorems whose hypotheses it shows to be satisfiable.
-/

namespace Isotope
open XR

/-! ## Rings -/

/-- C38, C39, C40_positive, C40_sorted: two boxes with a common side have a ring of four segments. -/
example : ∃ r ∈ (findRings (drawing (realPts boxPts) boxLines []) boxSketch).1, r.segs.length = 4 := by
  have hp : PlainLines (gls (boxEnds boxLines)) := GPlain.plain (by decide)
  obtain ⟨vss, h1, -, h3⟩ := C77_rings _ _ _ (box_drawn boxLines rfl) hp (C77_covered _ hp box_covered).1
  have ha : Around (gls (boxEnds boxLines)) [(0, 0), (1, 0), (1, 1), (0, 1)] := by
    have : GAround (boxEnds boxLines) [(0, 0), (1, 0), (1, 1), (0, 1)] := by decide
    simpa [gpt] using this.around (by decide)
  obtain ⟨ws, hw, hr⟩ := (h3 [(0, 0), (1, 0), (1, 1), (0, 1)]).2 ⟨ha, by norm_num [shoelace, edges, cross]⟩
  obtain ⟨r, hr', hrw⟩ : ∃ r ∈ lineRings (drawing (realPts boxPts) boxLines []) boxSketch,
      RunsAround (drawing (realPts boxPts) boxLines []) r.segs ws := by
    obtain ⟨i, hi, e⟩ := List.getElem_of_mem hw
    have hi' := hi
    rw [← h1.length_eq] at hi'
    exact ⟨_, List.getElem_mem hi', e ▸ (List.forall₂_iff_get.1 h1).2 i hi' hi⟩
  refine ⟨r, (List.mem_filter.1 hr').1, ?_⟩
  have := hrw.length_eq
  rw [this]
  have e := hr.perm.length_eq
  simp [edges, e]

/-- four points: a line ends at the second, from where one goes on to the left or straight on -/
noncomputable def forkHeap : Heap XR := drawing [(0, 0), (1, 0), (1, 1), (2, 0)] [] []

/-- C41_some, C41_hardest_left: two segments may follow; all turning angles are finite. -/
example : MayFollow forkHeap [.line 1 2, .line 1 3] (.line 0 1) [] 0 (.line 1 2) ∧
    MayFollow forkHeap [.line 1 2, .line 1 3] (.line 0 1) [] 1 (.line 1 3) ∧
    (∃ x, findNextSegment forkHeap [.line 1 2, .line 1 3] (.line 0 1) [] = some x) ∧
    ∀ i sg, MayFollow forkHeap [.line 1 2, .line 1 3] (.line 0 1) [] i sg →
      Num.isFinite (turn forkHeap (.line 0 1) sg) = true := by
  have m1 : MayFollow forkHeap [.line 1 2, .line 1 3] (.line 0 1) [] 0 (.line 1 2) := by
    refine ⟨rfl, by simp, ?_, ?_, ?_⟩ <;>
    simp [Segment.getEnd, Segment.getStart, Segment.reverse, Segment.beq, Point2.beq, Vec2.beq, forkHeap, drawing, toVec]
  have m2 : MayFollow forkHeap [.line 1 2, .line 1 3] (.line 0 1) [] 1 (.line 1 3) := by
    refine ⟨rfl, by simp, ?_, ?_, ?_⟩ <;>
    simp [Segment.getEnd, Segment.getStart, Segment.reverse, Segment.beq, Point2.beq, Vec2.beq, forkHeap, drawing, toVec]
  refine ⟨m1, m2, ?_, ?_⟩
  · rw [← Option.isSome_iff_exists, Option.isSome_iff_ne_none, Ne, C41_none]
    exact fun h => h ⟨_, _, m1⟩
  · have t : ∀ k, Num.isFinite (turn forkHeap (.line 0 1) (.line 1 k)) = true := by
      intro k
      have e1 : ∃ t, (Segment.line 0 1 : Segment XR).endAngle forkHeap = fin t := ⟨_, rfl⟩
      have e2 : ∃ x y, (Segment.line 1 k : Segment XR).startAngle forkHeap = Num.atan2 (fin y : XR) (fin x) := ⟨_, _, rfl⟩
      obtain ⟨t, e1⟩ := e1
      obtain ⟨x, y, e2⟩ := e2
      obtain ⟨⟨b, hb, b1, b2, -⟩, c, hc, c1, c2⟩ := C42_in_range t x y
      obtain ⟨d, -, hd, -⟩ := C42_angle_difference b c b1 b2 c1 c2
      unfold turn
      rw [e1, e2, hb, hc, hd]
      rfl
    rintro i sg ⟨h, -⟩
    match i, h with
    | 0, h => simp only [List.getElem?_cons_zero, Option.some.injEq] at h; rw [← h]; exact t 2
    | 1, h => simp only [List.getElem?_cons_succ, List.getElem?_cons_zero, Option.some.injEq] at h; rw [← h]; exact t 3

/-- a circle around (1, 1) with radius -2 (nothing forbids a negative radius) -/
noncomputable def coinHeap : Heap XR :=
  { (Heap.empty : Heap XR) with
    points := upd Heap.empty.points 0 ⟨⟨fin 1, fin 1⟩, ⟨fin 0, fin 0⟩⟩
    circles := upd Heap.empty.circles 0 ⟨0, fin (-2), fin 0⟩
    nPoints := 1
    nCircles := 1 }

/-- the sketch of the point and the circle -/
def coinSketch : Sketch := ⟨[(0, .point 0), (1, .circle 0)], 2, []⟩

/-- C40_circles, C40_circle_nonzero, C49_circle, C50_circle, C50_distance: a circle with centre and radius; it is a ring. -/
example : PrimCell.circle 0 ∈ coinSketch.cells ∧ (coinHeap.circles 0).radius = fin (-2) ∧ ((-2 : ℝ) ≠ 0) ∧
    (coinHeap.points (coinHeap.circles 0).center).data = ⟨fin 1, fin 1⟩ ∧
    ((0.0 : XR) <. (coinHeap.circles 0).radius * (coinHeap.circles 0).radius * Num.pi) = true ∧
    Ring.circle (coinHeap.circles 0) ∈ (findRings coinHeap coinSketch).1 := by
  have h1 : PrimCell.circle 0 ∈ coinSketch.cells := by simp [coinSketch, Sketch.cells]
  have h2 : (coinHeap.circles 0).radius = fin (-2) := by simp [coinHeap, upd]
  refine ⟨h1, h2, by norm_num, by simp [coinHeap, upd], ?_, C40_circle_nonzero _ _ _ _ h1 h2 (by norm_num)⟩
  rw [h2, mul_fin, pi_fin, mul_fin, lit0, lt_fin, decide_eq_true_iff]
  have := Real.pi_pos
  linarith

/-- the four corners of a square -/
noncomputable def cornersHeap : Heap XR := drawing [(0, 0), (2, 0), (2, 2), (0, 2)] [] []

/-- C47_area, C47_closed, C49_shoelace, C49_closed_polygon, C49_start, C49_affine, C50_segments: four lines around a square. -/
example : List.Forall₂ (EndsAt cornersHeap) [.line 0 1, .line 1 2, .line 2 3, .line 3 0]
      (edges ((0, 0) :: [(2, 0), (2, 2)] ++ [(0, 2)])) ∧ ((0, 0) : ℝ × ℝ) ≠ (0, 2) ∧
    ClosedChain cornersHeap [.line 0 1, .line 1 2, .line 2 3, .line 3 0] ∧ shoelace [(0, 0), (2, 0), (2, 2), (0, 2)] = 4 := by
  refine ⟨?_, by simp, ?_, by norm_num [shoelace, edges, cross]⟩
  · simp [edges, EndsAt, Segment.getStart, Segment.getEnd, cornersHeap, drawing, toVec]
  · refine ⟨by simp, fun i a b ha hb => ?_⟩
    match i, ha, hb with
    | 0, ha, hb | 1, ha, hb | 2, ha, hb | 3, ha, hb =>
      simp at ha hb
      subst ha hb
      simp [Segment.getStart, Segment.getEnd, cornersHeap, drawing, toVec, Vec2.beq]

/-- two half-circles around the origin -/
noncomputable def halvesHeap : Heap XR := drawing [(0, 0)] []
  [⟨0, ⟨fin 1, fin 0, fin Real.pi⟩, ⟨fin 0, fin 0, fin 0⟩, false⟩,
   ⟨0, ⟨fin 1, fin Real.pi, fin (2 * Real.pi)⟩, ⟨fin 0, fin 0, fin 0⟩, false⟩]

/-- C49_half_circles -/
example : (∀ c ∈ (⟨[(0, .point 0), (1, .arc 0), (2, .arc 1)], 3, []⟩ : Sketch).cells,
      c = .arc 0 ∨ c = .arc 1 ∨ ∃ p, c = PrimCell.point p) ∧
    ArcAt halvesHeap 0 0 0 1 0 (0 + Real.pi) ∧ ArcAt halvesHeap 1 0 0 1 (0 + Real.pi) (0 + 2 * Real.pi) := by
  refine ⟨by simp [Sketch.cells], ?_, ?_⟩ <;> simp [ArcAt, PointAt, halvesHeap, drawing, toVec]

/-! ## Solvers -/

theorem fix_check (tol : ℝ) (ht : 0 ≤ tol) : checkGradients (fixHeap 3 4 0 0 0 0) fixSketch (fin 1) 0 (fin tol) =
    if 1 / 2 < tol ^ 2 then .ok (fixHeap 3 4 0 0 (-3) (-4)) else .error (fixHeap 3 4 0 0 (-3) (-4)) := by
  have hs : ∀ a b c d : ℝ, primSetData (fixHeap 3 4 a b (-3) (-4)) (.point 0) [fin c, fin d] = .ok (fixHeap 3 4 c d (-3) (-4)) := by
    intro a b c d
    simp [primSetData, fixHeap, Heap.setPoint, upd_upd, upd]
  have hl : ∀ a b : ℝ, lossValue (fixHeap 3 4 a b (-3) (-4)) ((fixHeap 3 4 a b (-3) (-4)).cons 0) = fin (((a - 3) ^ 2 + (b - 4) ^ 2) / 2) := by
    intro a b
    have := fix_losses 3 4 a b (-3) (-4)
    simpa [getLossPerConstraint, fixSketch] using this
  have ed : primData (fixHeap 3 4 0 0 (-3) (-4)) (.point 0) = [fin 0, fin 0] := by simp [primData, fixHeap, upd]
  have eg : primGrad (fixHeap 3 4 0 0 (-3) (-4)) (.point 0) = [fin (-3), fin (-4)] := by simp [primGrad, fixHeap, upd]
  unfold checkGradients
  rw [fix_gradient]
  norm_num only
  simp only [fixSketch, checkPrims, ed, eg, List.length_cons, List.length_nil, if_true, List.range_succ, List.range_zero, List.nil_append,
    List.cons_append, checkPrimLoop, List.set_cons_zero, List.set_cons_succ, List.getD_cons_zero, List.getD_cons_succ, add_fin, hs, hl]
  have e : List.zipWith (fun x1 x2 => x1 - x2)
      [(fin (((0 + 1 - 3) ^ 2 + (0 - 4) ^ 2) / 2) - fin (((0 - 3) ^ 2 + (0 - 4) ^ 2) / 2)) / fin 1,
        (fin (((0 - 3) ^ 2 + (0 + 1 - 4) ^ 2) / 2) - fin (((0 - 3) ^ 2 + (0 - 4) ^ 2) / 2)) / fin 1] [fin (-3), fin (-4)] =
      vec ![1 / 2, 1 / 2] := by
    simp [vec]
    norm_num
  have n : normL (vec ![(1 / 2 : ℝ), 1 / 2]) = fin (Real.sqrt (1 / 2)) := by
    rw [normL_vec]; congr 2; simp; norm_num
  rw [e, n, lt_fin]
  simp only [decide_eq_true_eq]
  rw [if_congr (Real.sqrt_lt (by norm_num) ht) rfl rfl]

/-- C54_restores, C54_restores_on_panic: with steps of `1` and tolerance `1` the check of a point that is to be fixed elsewhere
passes; with tolerance `1/2` it fails. -/
example : checkGradients (fixHeap 3 4 0 0 0 0) fixSketch (fin 1) 0 (fin 1) = .ok (fixHeap 3 4 0 0 (-3) (-4)) ∧
    checkGradients (fixHeap 3 4 0 0 0 0) fixSketch (fin 1) 0 (fin (1 / 2)) = .error (fixHeap 3 4 0 0 (-3) (-4)) := by
  rw [fix_check _ (by norm_num), fix_check _ (by norm_num)]
  norm_num

/-- C81_rest, C81_steps, C81_slopes: gradient descent with many iterations on a point that is to be fixed elsewhere returns `Ok`. -/
example : getLoss (fixHeap 3 4 0 0 0 0) fixSketch = fin (25 / 2) ∧
    SmoothBelow (fixHeap 3 4 0 0 0 0) fixSketch (25 / 2) 2 ∧
    (1e5 * 2 * (25 / 2) : ℝ) < ((10 ^ 40 + 1 : Nat) : ℝ) * (1e-10) ^ 2 ∧
    (gdSolve ⟨10 ^ 40 + 1, fin 1e-14, fin 1e-10⟩ (fixHeap 3 4 0 0 0 0) fixSketch).res = .ok := by
  refine ⟨by rw [fix_loss]; norm_num, ?_, by norm_num, ?_⟩
  · have := C81_distances (L := 25 / 2) (r := 1) fixSketch_nodup (fix_closed 3 4 0 0 0 0) (fix_finite 3 4 0 0 0 0)
      (by simp [fixSketch, fixHeap, upd, IsPlain]) (by norm_num) (by simp [fixSketch, fixHeap, upd, RoomFor])
    simpa [fixSketch, fixHeap, upd, stiffness] using this
  · exact congrArg (·.res) (fix_gdSolve (x := 3) (y := 4) (a := 0) (b := 0) (u := 0) (v := 0) (10 ^ 40) (by norm_num))

end Isotope
