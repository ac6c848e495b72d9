import Verif.Props.Unused
import Verif.Lemmas.Left

/-!
# The hardest left turn, in rounded arithmetic (C41)
-/

namespace Isotope
open XR

instance : OrderLaws XR where
  refl a := by cases a <;> simp [Num.eq, XR.eq, Num.le, XR.le]
  of_lt a b := by
    cases a <;> cases b <;> simp [Num.lt, XR.lt, Num.le, XR.le]
    exact le_of_lt
  of_not_lt a b := by cases a <;> cases b <;> simp [Num.eq, XR.eq, Num.lt, XR.lt, Num.le, XR.le]
  trans a b c := by
    cases a <;> cases b <;> cases c <;> simp [Num.le, XR.le]
    exact fun h1 h2 => _root_.le_trans h1 h2

section
variable {F : Type} [Num F]

theorem foldl_pick_max [OrderLaws F] {α : Type} (f : α → F) (m : α) (ms : List α)
    (hn : ∀ y ∈ m :: ms, (f y ==. f y) = true) :
    ∀ y ∈ m :: ms, (f y <=. f (ms.foldl (fun a b => if gt (f a) (f b) then a else b) m)) = true := by
  induction ms generalizing m with
  | nil =>
    intro y hy
    rw [List.mem_singleton] at hy
    subst hy
    exact OrderLaws.refl _ (hn y (by simp))
  | cons b ms ih =>
    rw [List.foldl_cons]
    by_cases hg : gt (f m) (f b) = true
    · rw [if_pos hg]
      have := ih m (fun y hy => hn y (by simp at hy ⊢; tauto))
      intro y hy
      rw [List.mem_cons, List.mem_cons] at hy
      rcases hy with rfl | rfl | hy
      · exact this _ (by simp)
      · exact OrderLaws.trans _ _ _ (OrderLaws.of_lt _ _ hg) (this m (by simp))
      · exact this _ (by simp [hy])
    · rw [if_neg hg]
      have := ih b (fun y hy => hn y (by simp at hy ⊢; tauto))
      intro y hy
      rw [List.mem_cons, List.mem_cons] at hy
      rcases hy with rfl | rfl | hy
      · exact OrderLaws.trans _ _ _ (OrderLaws.of_not_lt (f b) (f y) (hn _ (by simp)) (hn _ (by simp)) (by simpa using hg))
          (this b (by simp))
      · exact this _ (by simp)
      · exact this _ (by simp [hy])

/-- **C41.** In any arithmetic with the order laws of `f64`, if no turning angle is NaN, the segment returned is one into
which one turns hardest to the left. -/
theorem C41_hardest_left_float [OrderLaws F] (h : Heap F) (segs : List (Segment F)) (cur : Segment F) (used : List Nat)
    (x : Nat × Segment F) (hf : ∀ i sg, MayFollow h segs cur used i sg → (turn h cur sg ==. turn h cur sg) = true)
    (e : findNextSegment h segs cur used = some x) :
    ∀ i sg, MayFollow h segs cur used i sg → (turn h cur sg <=. turn h cur x.2) = true := by
  intro i sg hm
  unfold findNextSegment at e
  split at e
  · cases e
  next m ms hc =>
    have hin : ((i, sg), turn h cur sg) ∈ m :: ms := by
      rw [← hc, mem_nextCandidates]; exact ⟨hm, rfl⟩
    have hmax := foldl_pick_max (fun y : (Nat × Segment F) × F => y.2) m ms (fun y hy => by
      rw [← hc, mem_nextCandidates] at hy
      rw [hy.2]; exact hf _ _ hy.1) _ hin
    have hz := foldl_pick_mem (fun a b : (Nat × Segment F) × F => gt a.2 b.2) m ms
    rw [← hc, mem_nextCandidates] at hz
    cases e
    rw [← hz.2]
    exact hmax
end

theorem ite_fin (c : Bool) (x y : ℝ) : (if c = true then fin x else fin y) = fin (if c = true then x else y) := by
  cases c <;> rfl

theorem angleDifference_fin (a b : ℝ) : ∃ c : ℝ, angleDifference (fin a) (fin b) = fin c := by
  unfold angleDifference
  simp only [tau_fin, sub_fin, add_fin, ite_fin]
  exact ⟨_, rfl⟩

/-- **C41.** In exact arithmetic the turning angle is finite whenever the angles of the two segments are. -/
theorem C41_turn_finite (h : Heap XR) (cur sg : Segment XR) (a b : ℝ) (ha : cur.endAngle h = fin a)
    (hb : sg.startAngle h = fin b) : ∃ t : ℝ, turn h cur sg = fin t := by
  unfold turn
  obtain ⟨⟨r, hr, -⟩, -⟩ := C42_in_range a 0 0
  rw [ha, hb, hr]
  exact angleDifference_fin r b

/-- At the corner of the square where the additional line arrives, one can go up or right; the hypotheses of
`C41_hardest_left` hold and it is taken the way up. -/
example : ∃ x, findNextSegment spurHeap (allSegments spurHeap spurSketch) (.line 4 0) [] = some x ∧
    (∃ i j sg sg', MayFollow spurHeap (allSegments spurHeap spurSketch) (.line 4 0) [] i sg ∧
      MayFollow spurHeap (allSegments spurHeap spurSketch) (.line 4 0) [] j sg' ∧ i ≠ j) ∧
    ∀ i sg, MayFollow spurHeap (allSegments spurHeap spurSketch) (.line 4 0) [] i sg →
      (turn spurHeap (.line 4 0) sg <=. turn spurHeap (.line 4 0) x.2) = true := by
  have m0 : MayFollow spurHeap (allSegments spurHeap spurSketch) (.line 4 0) [] 0 (.line 0 1) := by
    refine ⟨rfl, by simp, ?_, ?_, ?_⟩ <;>
      simp [Segment.getStart, Segment.getEnd, Vec2.beq, Segment.beq, Segment.reverse, Point2.beq, spurHeap, drawing, realPts,
        cornerPts, toVec]
    norm_num
  have m1 : MayFollow spurHeap (allSegments spurHeap spurSketch) (.line 4 0) [] 8 (.line 0 3) := by
    refine ⟨rfl, by simp, ?_, ?_, ?_⟩ <;>
      simp [Segment.getStart, Segment.getEnd, Vec2.beq, Segment.beq, Segment.reverse, Point2.beq, spurHeap, drawing, realPts,
        cornerPts, toVec]
  cases e : findNextSegment spurHeap (allSegments spurHeap spurSketch) (.line 4 0) [] with
  | none => exact ((C41_none _ _ _ _).1 e ⟨_, _, m0⟩).elim
  | some x =>
    refine ⟨x, rfl, ⟨0, 8, _, _, m0, m1, by simp⟩, C41_hardest_left_float _ _ _ _ _ ?_ e⟩
    intro i sg hm
    have : ∃ a b, sg = .line a b := by
      have := List.mem_of_getElem? hm.1
      simp [allSegments, initSegments, spurSketch, Segment.reverse] at this
      rcases this with rfl | rfl | rfl | rfl | rfl | rfl | rfl | rfl | rfl | rfl <;> exact ⟨_, _, rfl⟩
    obtain ⟨a, b, rfl⟩ := this
    obtain ⟨t, ht⟩ := C41_turn_finite spurHeap (.line 4 0) (.line a b) _ _ (atan2_fin _ _) (atan2_fin _ _)
    rw [ht]; simp

theorem wrap_lt {x : ℝ} (h1 : -(2 * Real.pi) ≤ x) (h2 : x < 2 * Real.pi) :
    ∃ y : ℝ, ∃ k : ℤ, (let a : XR := if gt (fin x) (Num.tau : XR) then fin x - Num.tau else fin x
      if a <. (0.0 : XR) then a + Num.tau else a) = fin y ∧ 0 ≤ y ∧ y < 2 * Real.pi ∧ y = x + k * (2 * Real.pi) := by
  have hp := Real.pi_pos
  simp only [gt, tau_fin, lit0, sub_fin, lt_fin, decide_eq_true_eq]
  have c1 : ¬2 * Real.pi < x := not_lt.2 h2.le
  rw [if_neg c1]
  simp only [lt_fin, decide_eq_true_eq]
  by_cases c2 : x < 0
  · rw [if_pos c2, add_fin]
    exact ⟨_, 1, rfl, by linarith, by linarith, by push_cast; ring⟩
  · rw [if_neg c2]
    exact ⟨_, 0, rfl, by linarith, by linarith, by push_cast; ring⟩

theorem angleDifference_lt {a0 a1 : ℝ} (h0 : -(2 * Real.pi) ≤ a0) (h0' : a0 < 2 * Real.pi) (h1 : -(2 * Real.pi) ≤ a1) (h1' : a1 < 2 * Real.pi) :
    ∃ d : ℝ, ∃ k : ℤ, angleDifference (fin a0) (fin a1) = fin d ∧ 0 ≤ d ∧ d < 2 * Real.pi ∧ d = a1 - a0 + k * (2 * Real.pi) := by
  obtain ⟨y0, k0, e0, l0, u0, c0⟩ := wrap_lt h0 h0'
  obtain ⟨y1, k1, e1, l1, u1, c1⟩ := wrap_lt h1 h1'
  obtain ⟨y, k, e, l, u, c⟩ := wrap_lt (x := y1 - y0) (by linarith) (by linarith)
  refine ⟨y, k + k1 - k0, ?_, l, u, by rw [c, c1, c0]; push_cast; ring⟩
  rw [← e, ← sub_fin, ← e0, ← e1]
  rfl

theorem back_lt (t : ℝ) : ∃ b : ℝ, Num.rem ((fin t : XR) + Num.pi) ((2.0 : XR) * Num.pi) = fin b ∧ -(2 * Real.pi) ≤ b ∧ b < 2 * Real.pi ∧
    ∃ k : ℤ, b = t + Real.pi + k * (2 * Real.pi) := by
  have hp := Real.pi_pos
  have e : Num.rem ((fin t : XR) + Num.pi) ((2.0 : XR) * Num.pi) =
      fin (t + Real.pi - 2 * Real.pi * trunc ((t + Real.pi) / (2 * Real.pi))) := by
    rw [lit2, pi_fin, add_fin, mul_fin]
    show XR.rem _ _ = _
    rw [XR.rem, if_neg (by positivity)]
  refine ⟨_, e, ?_⟩
  set q := (t + Real.pi) / (2 * Real.pi) with hq
  have ht : t + Real.pi = 2 * Real.pi * q := by rw [hq]; field_simp
  rw [ht, ← mul_sub]
  unfold trunc
  split
  next hneg =>
    have a1 := Int.ceil_lt_add_one q
    have a2 := Int.le_ceil q
    refine ⟨by nlinarith, by nlinarith, -⌈q⌉, by push_cast; ring⟩
  next hneg =>
    have a1 := Int.lt_floor_add_one q
    have a2 := Int.floor_le q
    refine ⟨by nlinarith, by nlinarith, -⌊q⌋, by push_cast; ring⟩

theorem turn_mod {h : Heap XR} {cur sg : Segment XR} {a b : ℝ} (ha : cur.endAngle h = fin a) (hb : sg.startAngle h = fin b)
    (h1 : -(2 * Real.pi) ≤ b) (h2 : b < 2 * Real.pi) : turn h cur sg = fin (toIcoMod Real.two_pi_pos 0 (b - (a + Real.pi))) := by
  obtain ⟨r, hr, r1, r2, m, hm⟩ := back_lt a
  obtain ⟨d, n, hd, d1, d2, hn⟩ := angleDifference_lt r1 r2 h1 h2
  unfold turn
  rw [ha, hb, hr, hd]
  congr 1
  refine ((toIcoMod_eq_iff Real.two_pi_pos).2 ⟨⟨d1, by simpa using d2⟩, m - n, ?_⟩).symm
  rw [hn, hm, zsmul_eq_mul]
  push_cast
  ring

/-- **C41.** What the hardest left turn is, without the functions of the code: in exact arithmetic, let the current segment arrive with the angle
`a`, and let the segments that may follow start with angles in `[-2π, 2π)` (all lines do). The angle by which one has to turn counter-clockwise from the
direction back, `a + π`, into a segment, taken in `[0, 2π)`, is largest for the segment returned. -/
theorem C41_direction (h : Heap XR) (segs : List (Segment XR)) (cur : Segment XR) (used : List Nat) (x : Nat × Segment XR) {a : ℝ}
    (ha : cur.endAngle h = fin a)
    (hf : ∀ i sg, MayFollow h segs cur used i sg → ∃ b, sg.startAngle h = fin b ∧ -(2 * Real.pi) ≤ b ∧ b < 2 * Real.pi)
    (e : findNextSegment h segs cur used = some x) {i : Nat} {sg : Segment XR} (hm : MayFollow h segs cur used i sg) {b c : ℝ}
    (hb : sg.startAngle h = fin b) (hc : x.2.startAngle h = fin c) :
    toIcoMod Real.two_pi_pos 0 (b - (a + Real.pi)) ≤ toIcoMod Real.two_pi_pos 0 (c - (a + Real.pi)) := by
  have tm : ∀ {j : Nat} {sg : Segment XR} {b : ℝ}, MayFollow h segs cur used j sg → sg.startAngle h = fin b →
      turn h cur sg = fin (toIcoMod Real.two_pi_pos 0 (b - (a + Real.pi))) := fun {j sg b} m hb => by
    obtain ⟨b', e', l, u⟩ := hf j sg m
    rw [hb] at e'
    cases e'
    exact turn_mod ha hb l u
  have := C41_hardest_left h segs cur used x (fun j sg m => by
    obtain ⟨b', e', -⟩ := hf j sg m
    rw [tm m e']; rfl) e i sg hm
  rw [tm hm hb, tm (C41_some h segs cur used x e) hc] at this
  simpa using this

/-- **C41.** Among lines with finite end points: coming from `p` to `q`, the line returned leads to the point `w` into whose direction one turns
hardest to the left (`leftTurn`, see C77). -/
theorem C41_lines (h : Heap XR) (segs : List (Segment XR)) (used : List Nat) (x : Nat × Segment XR) {k l : Nat} {p q v w : ℝ × ℝ}
    (hk : EndsAt h (.line k l) (p, q)) (hpq : p ≠ q) (hs : ∀ sg ∈ segs, (∃ m n, sg = .line m n) ∧ ∃ e, EndsAt h sg e)
    (e : findNextSegment h segs (.line k l) used = some x) {i : Nat} {sg : Segment XR} (hm : MayFollow h segs (.line k l) used i sg)
    (hv : EndsAt h sg (q, v)) (hw : EndsAt h x.2 (q, w)) : leftTurn p q v ≤ leftTurn p q w := by
  have dir : ∀ {m n : Nat} {u v : ℝ × ℝ}, EndsAt h (.line m n) (u, v) → (Segment.line m n : Segment XR).startAngle h = fin (direction u v) :=
    fun {m n u v} hv => by
      obtain ⟨p, q⟩ := hv
      simp only [Segment.getStart, Segment.getEnd] at p q
      simp only [Segment.startAngle, p, q, sub_fin, atan2_fin]
      rfl
  have hp := Real.pi_pos
  have ln : ∀ {j : Nat} {sg : Segment XR}, MayFollow h segs (.line k l) used j sg → ∃ m n, sg = .line m n :=
    fun m => (hs _ (List.mem_of_getElem? m.1)).1
  obtain ⟨m1, n1, rfl⟩ := ln hm
  obtain ⟨m2, n2, e2⟩ := ln (C41_some h segs _ used x e)
  rw [e2] at hw
  have := C41_direction h segs (.line k l) used x (a := direction p q) (dir hk) (fun i sg m => by
    obtain ⟨⟨m', n', rfl⟩, ⟨u, v⟩, hE⟩ := hs _ (List.mem_of_getElem? m.1)
    have q1 := Complex.neg_pi_lt_arg ⟨v.1 - u.1, v.2 - u.2⟩
    have q2 := Complex.arg_le_pi ⟨v.1 - u.1, v.2 - u.2⟩
    exact ⟨_, dir hE, by unfold direction; linarith, by unfold direction; linarith⟩) e hm (dir hv) (by rw [e2]; exact dir hw)
  obtain ⟨n, hn⟩ := direction_back hpq
  have sw : ∀ z : ℝ × ℝ, toIcoMod Real.two_pi_pos 0 (direction q z - (direction p q + Real.pi)) = leftTurn p q z := fun z => by
    rw [hn, ← sub_sub, ← zsmul_eq_mul, toIcoMod_sub_zsmul]
    rfl
  rwa [sw, sw] at this

/-- `C41_lines` at the same corner: one arrives from `(-1, 0)` at `(0, 0)` and could go on to `(1, 0)` -/
example : ∃ x w, findNextSegment spurHeap (allSegments spurHeap spurSketch) (.line 4 0) [] = some x ∧ EndsAt spurHeap x.2 ((0, 0), w) ∧
    leftTurn (-1, 0) (0, 0) (1, 0) ≤ leftTurn (-1, 0) (0, 0) w := by
  have m0 : MayFollow spurHeap (allSegments spurHeap spurSketch) (.line 4 0) [] 0 (.line 0 1) := by
    refine ⟨rfl, by simp, ?_, ?_, ?_⟩ <;>
      simp [Segment.getStart, Segment.getEnd, Vec2.beq, Segment.beq, Segment.reverse, Point2.beq, spurHeap, drawing, realPts,
        cornerPts, toVec]
    norm_num
  have at' : ∀ a b, EndsAt spurHeap (.line a b) ((realPts cornerPts).getD a (0, 0), (realPts cornerPts).getD b (0, 0)) :=
    fun a b => ⟨rfl, rfl⟩
  have lines : ∀ sg ∈ allSegments spurHeap spurSketch, (∃ m n, sg = .line m n) ∧ ∃ e, EndsAt spurHeap sg e := fun sg this => by
    simp [allSegments, initSegments, spurSketch, Segment.reverse] at this
    rcases this with rfl | rfl | rfl | rfl | rfl | rfl | rfl | rfl | rfl | rfl <;> exact ⟨⟨_, _, rfl⟩, _, at' _ _⟩
  cases e : findNextSegment spurHeap (allSegments spurHeap spurSketch) (.line 4 0) [] with
  | none => exact ((C41_none _ _ _ _).1 e ⟨_, _, m0⟩).elim
  | some x =>
    have mx := C41_some _ _ _ _ _ e
    obtain ⟨-, ⟨u, w⟩, hE⟩ := lines _ (List.mem_of_getElem? mx.1)
    obtain rfl : u = (0, 0) := by
      have := mx.2.2.1
      rw [hE.1] at this
      have z : (Segment.line 4 0 : Segment XR).getEnd spurHeap = toVec (0, 0) := by
        simp [Segment.getEnd, spurHeap, drawing, realPts, cornerPts]
      rw [z] at this
      exact (toVec_beq.1 this).symm
    refine ⟨x, w, rfl, hE, C41_lines spurHeap _ [] x ?_ (by simp) lines e m0 ?_ hE⟩
    · simpa [realPts, cornerPts] using at' 4 0
    · simpa [realPts, cornerPts] using at' 0 1

end Isotope
