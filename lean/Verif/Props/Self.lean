import Verif.SpecSelf
import Verif.Lemmas.Self
import Verif.B64Laws
import Verif.Props.Polygon
import Verif.Props.GradFree
import Verif.Props.Rectangles
import Verif.Lemmas.Hist
import Verif.Lemmas.Data
import Verif.Props.LeftMove

/-!
# C110: gradients are never NaN, and what is nearly solved is cut into rings like what is solved
-/

set_option linter.unusedSectionVars false

namespace Isotope
open XR
instance : AddSelf XR where
  zero := by rw [xr_zero, eq_fin]; simp
  add a b ha hb := by
    obtain ⟨r, rfl⟩ := (isFinite_iff b).1 hb
    cases a with
    | fin x => rw [add_fin, eq_fin]; simp
    | pinf => rfl
    | ninf => rfl
    | nan => exact ha

theorem B64.self_iff {lm : Libm} (a : B64 lm) : (a ==. a) = true ↔ a.v.isNan = false := by
  rw [B64.eq_iff]; exact ⟨fun h => h.1, fun h => ⟨h, h, rfl⟩⟩

instance {lm : Libm} : AddSelf (B64 lm) where
  zero := by
    rw [B64.self_iff, B64.lit_v]
    unfold Val.pack
    split <;> rfl
  add a b ha hb := by
    rw [B64.self_iff] at *
    rw [B64.add_v]
    obtain ⟨a⟩ := a; obtain ⟨b⟩ := b
    dsimp only at *
    change b.isFinite = true at hb
    cases b with
    | nan => simp [Val.isFinite] at hb
    | inf _ => simp [Val.isFinite] at hb
    | num sb n =>
      cases a with
      | nan => simp [Val.isNan] at ha
      | inf _ => rfl
      | num sa m =>
        simp only [Val.add]
        unfold Val.pack
        split <;> (try split) <;> rfl

section
variable {F : Type} [Num F] [AddSelf F]

theorem allocPoint_self {h : Heap F} (hh : GradsSelf h) (x y : F) : GradsSelf (h.allocPoint (Point2.new x y)).2 :=
  fun c g hg => setPointGrad_self h.nPoints (g := ⟨0.0, 0.0⟩) hh AddSelf.zero AddSelf.zero ⟨x, y⟩ c g (by cases c <;> exact hg)

theorem allocArc_self {h : Heap F} (hh : GradsSelf h) (c : Nat) (r : F) (cw : Bool) (sa ea : F) :
    GradsSelf (h.allocArc (Arc.new c r cw sa ea)).2 :=
  fun c' g hg => setArcGrad_self h.nArcs (v := Arc.new c r cw sa ea) hh AddSelf.zero AddSelf.zero AddSelf.zero c' g (by cases c' <;> exact hg)

theorem allocCircle_self {h : Heap F} (hh : GradsSelf h) (c : Nat) (r : F) : GradsSelf (h.allocCircle (Circle.new c r)).2 :=
  fun c' g hg => setCircleGrad_self h.nCircles (v := Circle.new c r) hh AddSelf.zero c' g (by cases c' <;> exact hg)

theorem constrain_self {w : World F} (hh : GradsSelf w.heap) (c : Constraint F) : GradsSelf (constrain w c).2.heap := by
  unfold constrain
  split
  · dsimp only
    split <;> exact hh
  · exact hh

/-- **C110.** No call of the library makes a gradient NaN, also when it panics. -/
theorem C110_step (pinv : PInv F) {w : World F} {op : Op F} (ho : op.cleanWrite) (hh : GradsSelf w.heap) :
    GradsSelf (step pinv w op).2.heap := by
  unfold step
  split
  · exact hh
  cases op with
  | newPoint x y => exact allocPoint_self hh x y
  | newLine s e => exact hh
  | newArc c r cw sa ea => exact allocArc_self hh c r cw sa ea
  | newCircle c r => exact allocCircle_self hh c r
  | newCons c => dsimp only; split <;> exact hh
  | writePoint a p =>
    simp only [Op.cleanWrite, Vec2.beq, Bool.and_eq_true] at ho
    exact setPointGrad_self a hh ho.1 ho.2 _
  | writeLine a l => exact hh
  | writeArc a x =>
    simp only [Op.cleanWrite, Row3.beq, Bool.and_eq_true] at ho
    exact setArcGrad_self a hh ho.1.1 ho.1.2 ho.2
  | writeCircle a x => exact setCircleGrad_self a hh ho
  | writeCons a c => exact hh
  | addPrimitive p => dsimp only; split <;> exact hh
  | addPoint2 x y => simp only [addPoint2_heap]; exact allocPoint_self hh x y
  | addLine s e => simp only [addLine_heap]; exact hh
  | addArc c r cw sa ea => simp only [addArc_heap]; exact allocArc_self hh c r cw sa ea
  | addConstraint c => dsimp only; split <;> exact hh
  | constrainPerpendicularLines l1 l2 => exact constrain_self hh _
  | constrainParallelLines l1 l2 => exact constrain_self hh _
  | constrainDistanceEuclidean p1 p2 d => exact constrain_self hh _
  | constrainFixPoint p pos => exact constrain_self hh _
  | constrainAngleBetweenPoints p1 p2 m a => exact constrain_self hh _
  | deletePrimitive id => dsimp only; split <;> exact hh
  | deleteConstraint c => dsimp only; split <;> exact hh
  | setData d =>
    have := setData_self (s := w.sketch) d hh
    dsimp only
    split <;> next e => rw [e] at this; exact this
  | getGradient =>
    have := getGradient_self (s := w.sketch) hh
    dsimp only
    split <;> next e => rw [e] at this; exact this
  | getJacobian =>
    have := getJacobian_self (s := w.sketch) hh
    dsimp only
    split <;> next e => rw [e] at this; exact this
  | checkGradients eps c ce =>
    have := checkGradients_self w.heap w.sketch eps c ce hh
    dsimp only
    split <;> next e => rw [e] at this; exact this
  | solve k => exact runSolver_self pinv k w.heap w.sketch hh

theorem init_self : GradsSelf (World.init : World F).heap := by
  intro c x hx
  cases c <;> simp only [primGrad, World.init, Heap.empty, Point2.new, Arc.new, Circle.new, Vec2.zeros, Row3.zeros, List.mem_cons, List.not_mem_nil,
    or_false] at hx
  · rcases hx with rfl | rfl <;> exact AddSelf.zero
  · rcases hx with rfl | rfl | rfl <;> exact AddSelf.zero
  · rcases hx with rfl; exact AddSelf.zero

/-- **C110.** Whatever calls a program makes, no gradient of any primitive is ever NaN - with any coordinates and parameters, NaN and infinite
ones included, after errors and panics too. -/
theorem C110_history (pinv : PInv F) (ops : List (Op F)) (ho : ∀ op ∈ ops, op.cleanWrite) :
    GradsSelf (run pinv World.init ops).2.heap := by
  suffices ∀ w : World F, GradsSelf w.heap → GradsSelf (run pinv w ops).2.heap from this _ init_self
  induction ops with
  | nil => exact fun w hw => hw
  | cons op ops ih =>
    intro w hw
    exact ih (fun o h => ho o (by simp [h])) _ (C110_step pinv (ho op (by simp)) hw)

theorem jacobianRows_gself {s : Sketch} (cs : List Nat) (h : Heap F) (hh : GradsSelf h) {m : List (List F)} {h' : Heap F}
    (e : jacobianRows s cs h = .ok (m, h')) : ∀ row ∈ m, ∀ x ∈ row, (x ==. x) = true := by
  induction cs generalizing h m h' with
  | nil => cases e; simp
  | cons c cs ih =>
    unfold jacobianRows at e
    have u := updateGradient_self _ ((zeroGrads h s).cons c) (zeroGrads_self h s hh)
    dsimp only at e
    split at e
    · cases e
    next h2 e2 =>
      rw [e2] at u
      split at e
      · cases e
      next rows h3 e3 =>
        cases e
        intro row hr x hx
        rcases List.mem_cons.1 hr with rfl | hr
        · rw [jacobianRow_eq, List.mem_flatMap] at hx
          obtain ⟨c, -, hx⟩ := hx
          exact u c x hx
        · exact ih h2 u e3 row hr x hx

/-- **C110.** No entry of a Jacobian that a program obtains is NaN. -/
theorem C110_jacobian (pinv : PInv F) (ops : List (Op F)) (ho : ∀ op ∈ ops, op.cleanWrite) {m : List (List F)} {h' : Heap F}
    (e : getJacobian (run pinv World.init ops).2.heap (run pinv World.init ops).2.sketch = .ok (m, h')) :
    ∀ row ∈ m, ∀ x ∈ row, (x ==. x) = true :=
  jacobianRows_gself _ _ (C110_history pinv ops ho) e

/-- **C110.** Hence, in any arithmetic and after any calls - solver runs included - lines that outline a polygon of at least three distinct
vertices are found (C43 without a condition on gradients). -/
theorem C110_outline (pinv : PInv F) (ops : List (Op F)) (ho : ∀ op ∈ ops, op.cleanWrite) {h : Heap F} {s : Sketch}
    (hw : (run pinv World.init ops).2 = ⟨h, s⟩) (vs : List (Vec2 F)) (h3 : 3 ≤ vs.length)
    (hv : ∀ i j (hi : i < vs.length) (hj : j < vs.length), vs[i].beq vs[j] = true ↔ i = j) (hp : Outline h s vs)
    (ha : ∀ a, PrimCell.arc a ∉ s.cells) :
    (findRings h s).2 = [] ∧ ∃ r1 r2 k1 k2, List.Forall₂ (Runs h) r1 (edges (vs.rotate k1)) ∧
      List.Forall₂ (Runs h) r2 (edges (vs.reverse.rotate k2)) ∧
      (findRings h s).1.Perm (([Ring.segments r1, Ring.segments r2] ++ circleRings h s).filter
        (fun r => (0.0 : F) <. r.signedArea h)) := by
  have hh := C110_history pinv ops ho
  rw [hw] at hh
  refine C43_lines h s vs h3 hv hp fun d hd => ?_
  obtain ⟨c, hc, hd⟩ := List.mem_flatMap.1 hd
  have hb : ∀ a, (h.points a).grad.beq (h.points a).grad = true := by
    intro a
    rw [Vec2.beq, Bool.and_eq_true]
    exact ⟨hh.px a, hh.py a⟩
  cases c with
  | line l => exact ⟨_, _, List.mem_singleton.1 hd, hb _, hb _⟩
  | arc a => exact (ha a hc).elim
  | point a => simp [segmentOf] at hd
  | circle a => simp [segmentOf] at hd

/-- **C110.** Hence, after any calls, asking for the gradient or the Jacobian does not change how a drawing of lines is cut, if different end points of lines
lie at different places and no coordinate of them is NaN (C48 without a condition on gradients). -/
theorem C110_asking (pinv : PInv F) (ops : List (Op F)) (ho : ∀ op ∈ ops, op.cleanWrite) {h : Heap F} {s : Sketch}
    (hw : (run pinv World.init ops).2 = ⟨h, s⟩) (ha : ∀ a, PrimCell.arc a ∉ s.cells)
    (hself : ∀ l p, PrimCell.line l ∈ s.cells → (p = (h.lines l).start ∨ p = (h.lines l).stop) → (h.points p).data.SelfEq)
    (hd : ∀ l l' p p', PrimCell.line l ∈ s.cells → PrimCell.line l' ∈ s.cells →
      (p = (h.lines l).start ∨ p = (h.lines l).stop) → (p' = (h.lines l').start ∨ p' = (h.lines l').stop) →
      (h.points p).data.beq (h.points p').data = true → p = p') :
    ∀ h' ∈ [endHeap (getGradient h s), endHeap (getJacobian h s)],
      (findRings h' s).1.map Ring.plain = (findRings h s).1.map Ring.plain ∧ (findRings h' s).2 = (findRings h s).2 := by
  have hh := C110_history pinv ops ho
  rw [hw] at hh
  have b : ∀ h : Heap F, GradsSelf h → ∀ p, (h.points p).grad.SelfEq := by
    intro h hh p
    unfold Vec2.SelfEq Vec2.beq
    rw [Bool.and_eq_true]
    exact ⟨hh.px p, hh.py p⟩
  have key : ∀ h', GradOnly h h' → GradsSelf h' →
      (findRings h' s).1.map Ring.plain = (findRings h s).1.map Ring.plain ∧ (findRings h' s).2 = (findRings h s).2 :=
    fun h' g hh' => C48_lines h h' s g ha (fun l p hl hp => ⟨hself l p hl hp, b h hh p, b h' hh' p⟩) hd
  intro h' hm
  simp only [List.mem_cons, List.not_mem_nil, or_false] at hm
  rcases hm with rfl | rfl
  · exact key _ (getGradient_gradOnly h s) (getGradient_self hh)
  · exact key _ (getJacobian_gradOnly h s) (getJacobian_self hh)

end

/-! ## Area under small displacements -/

theorem abs_sum_le_sum {α : Type} (l : List α) (u v : α → ℝ) (h : ∀ e ∈ l, |u e| ≤ v e) : |(l.map u).sum| ≤ (l.map v).sum := by
  induction l with
  | nil => simp
  | cons a l ih =>
    rw [List.map_cons, List.map_cons, List.sum_cons, List.sum_cons]
    exact (abs_add_le _ _).trans (add_le_add (h a (by simp)) (ih fun e he => h e (by simp [he])))

theorem sum_snd {α : Type} (vs : List α) (g : α → ℝ) : ((edges vs).map (fun e => g e.2)).sum = ((edges vs).map (fun e => g e.1)).sum := by
  have h1 : (edges vs).map (fun e => g e.2) = ((edges vs).map Prod.snd).map g := by rw [List.map_map]; rfl
  have h2 : (edges vs).map (fun e => g e.1) = ((edges vs).map Prod.fst).map g := by rw [List.map_map]; rfl
  rw [h1, h2]
  unfold edges
  rw [List.map_snd_zip (by simp), List.map_fst_zip (by simp)]
  exact ((List.rotate_perm vs 1).map g).sum_eq

theorem sum_map_add' {α : Type} (l : List α) (u v : α → ℝ) : (l.map (fun e => u e + v e)).sum = (l.map u).sum + (l.map v).sum := by
  induction l with
  | nil => simp
  | cons a l ih => simp only [List.map_cons, List.sum_cons, ih]; ring

theorem cross_le_gap (a b c d : ℝ) : |a * d - c * b| ≤ √(a ^ 2 + b ^ 2) * √(c ^ 2 + d ^ 2) := by
  rw [← Real.sqrt_mul (by positivity)]
  refine Real.abs_le_sqrt ?_
  nlinarith [sq_nonneg (a * c + b * d)]

theorem edges_map' {α β : Type} (g : α → β) (ps : List α) : edges (ps.map g) = (edges ps).map (fun e => (g e.1, g e.2)) := by
  unfold edges
  rw [← List.map_rotate, List.zip_map]
  rfl

theorem span_hyp (u v : ℝ × ℝ) : span u v = hyp (u.1 - v.1) (u.2 - v.2) := by
  unfold span hyp; first | rfl | (congr 1; ring)

theorem shoelace_near (ps : List Nat) (f f' : Nat → ℝ × ℝ) {ε : ℝ} (hε : 0 ≤ ε) (hd : ∀ p ∈ ps, span (f p) (f' p) ≤ ε) :
    |shoelace (ps.map f') - shoelace (ps.map f)| ≤ ε * perimeter (ps.map f) + ps.length * ε ^ 2 / 2 := by
  have mem : ∀ e ∈ edges ps, e.1 ∈ ps ∧ e.2 ∈ ps := by
    intro e he
    have := List.of_mem_zip (a := e.1) (b := e.2) he
    exact ⟨this.1, List.mem_rotate.1 this.2⟩
  have split : ((edges ps).map fun e => cross (f' e.1) (f' e.2)).sum - ((edges ps).map fun e => cross (f e.1) (f e.2)).sum =
      ((edges ps).map fun e => cross (f' e.1 - f e.1) (f e.2 - f e.1) + cross (f e.1 - f e.2) (f' e.2 - f e.2) +
        cross (f' e.1 - f e.1) (f' e.2 - f e.2)).sum := by
    have t := sum_snd ps fun p => cross (f p) (f' p - f p)
    have e1 : ((edges ps).map fun e => cross (f' e.1) (f' e.2)) = (edges ps).map fun e =>
        ((cross (f' e.1 - f e.1) (f e.2 - f e.1) + cross (f e.1 - f e.2) (f' e.2 - f e.2) +
        cross (f' e.1 - f e.1) (f' e.2 - f e.2)) + (cross (f e.2) (f' e.2 - f e.2) + -cross (f e.1) (f' e.1 - f e.1))) + cross (f e.1) (f e.2) := by
      refine List.map_congr_left fun e _ => ?_
      simp only [cross, Prod.fst_sub, Prod.snd_sub]
      ring
    have t2 := sum_map_add' (edges ps) (fun e => cross (f e.2) (f' e.2 - f e.2)) (fun e => -cross (f e.1) (f' e.1 - f e.1))
    rw [e1, sum_map_add' _ _ (fun e : Nat × Nat => cross (f e.1) (f e.2)), sum_map_add' _ _ (fun e : Nat × Nat => cross (f e.2) (f' e.2 - f e.2) + -cross (f e.1) (f' e.1 - f e.1)), t2, t]
    have neg : ∀ (l : List (Nat × Nat)) (u : Nat × Nat → ℝ), (l.map fun e => -u e).sum = -(l.map u).sum := by
      intro l u
      induction l with
      | nil => simp
      | cons a l ih => simp only [List.map_cons, List.sum_cons, ih]; ring
    rw [neg]
    ring
  have bound := abs_sum_le_sum (edges ps) (fun e => cross (f' e.1 - f e.1) (f e.2 - f e.1) + cross (f e.1 - f e.2) (f' e.2 - f e.2) +
        cross (f' e.1 - f e.1) (f' e.2 - f e.2)) (fun e => 2 * ε * span (f e.1) (f e.2) + ε ^ 2) (by
    intro e he
    obtain ⟨m1, m2⟩ := mem e he
    have g1 := hd _ m1
    have g2 := hd _ m2
    have flip : ∀ x y : ℝ × ℝ, span x y = span y x := by intro x y; unfold span; congr 1; ring
    have nn : ∀ x y : ℝ × ℝ, 0 ≤ span x y := fun x y => Real.sqrt_nonneg _
    have c : ∀ x y z w : ℝ × ℝ, |cross (x - y) (z - w)| ≤ span x y * span z w := by
      intro x y z w
      have := cross_le_gap (x.1 - y.1) (x.2 - y.2) (z.1 - w.1) (z.2 - w.2)
      simpa [cross, span] using this
    have c1 := c (f' e.1) (f e.1) (f e.2) (f e.1)
    have c2 := c (f e.1) (f e.2) (f' e.2) (f e.2)
    have c3 := c (f' e.1) (f e.1) (f' e.2) (f e.2)
    rw [flip (f' e.1) (f e.1)] at c1 c3
    rw [flip (f' e.2) (f e.2)] at c2 c3
    rw [flip (f e.2) (f e.1)] at c1
    have b1 := mul_le_mul_of_nonneg_right g1 (nn (f e.1) (f e.2))
    have b2 := mul_le_mul_of_nonneg_left g2 (nn (f e.1) (f e.2))
    have b3 := mul_le_mul g1 g2 (nn _ _) hε
    have t := (abs_add_le (cross (f' e.1 - f e.1) (f e.2 - f e.1) + cross (f e.1 - f e.2) (f' e.2 - f e.2)) (cross (f' e.1 - f e.1) (f' e.2 - f e.2))).trans
      (add_le_add (abs_add_le _ _) le_rfl)
    nlinarith)
  have rhs : ((edges ps).map fun e => 2 * ε * span (f e.1) (f e.2) + ε ^ 2).sum = 2 * ε * ((edges ps).map fun e => span (f e.1) (f e.2)).sum + ps.length * ε ^ 2 := by
    have len : (edges ps).length = ps.length := by simp [edges]
    rw [← len]
    induction edges ps with
    | nil => simp
    | cons a l ih => simp only [List.map_cons, List.sum_cons, ih, List.length_cons, Nat.cast_add, Nat.cast_one]; ring
  have s1 : ∀ g : Nat → ℝ × ℝ, shoelace (ps.map g) = ((edges ps).map fun e => cross (g e.1) (g e.2)).sum / 2 := by
    intro g; unfold shoelace; rw [edges_map', List.map_map]; rfl
  have s2 : perimeter (ps.map f) = ((edges ps).map fun e => span (f e.1) (f e.2)).sum := by
    unfold perimeter; rw [edges_map', List.map_map]; rfl
  rw [s1, s1, s2, ← sub_div, split, abs_div, abs_two]
  rw [rhs] at bound
  linarith

/-! ## Loops of lines -/

theorem closedBy_refs {F : Type} [Num F] {h h' : Heap F} {s : Sketch} {ps : List Nat} (hr : SameRefs h h')
    (ha : ∀ a, PrimCell.arc a ∉ s.cells) (hc : ClosedBy h s ps) : ClosedBy h' s ps := by
  obtain ⟨es, hp, hf⟩ := hc
  refine ⟨es, hp, ?_⟩
  have : drawn h' s = drawn h s := by
    unfold drawn
    refine flatMap_congr_mem fun c hm => ?_
    cases c with
    | line l => simp only [segmentOf, hr.lines]
    | arc a => exact (ha a hm).elim
    | point a => rfl
    | circle a => rfl
  rw [this]
  exact hf

theorem closedBy_outline {h : Heap XR} {s : Sketch} {ps : List Nat} {g : Nat → ℝ × ℝ} (hc : ClosedBy h s ps)
    (hg : ∀ p ∈ ps, (h.points p).data = toVec (g p)) : Outline h s ((ps.map g).map toVec) := by
  obtain ⟨es, hp, hf⟩ := hc
  refine ⟨es.map fun e => .line e.1 e.2, ?_, ?_⟩
  · rw [List.forall₂_map_left_iff]
    refine hf.imp fun e sg hs => ?_
    rcases hs with rfl | rfl
    · exact .inl rfl
    · exact .inr rfl
  · rw [List.map_map, edges_map', edges_map', List.map_map]
    have e : es.map ((fun d : Segment XR => (d.getStart h, d.getEnd h)) ∘ fun e => .line e.1 e.2) =
        es.map ((fun e : (ℝ × ℝ) × (ℝ × ℝ) => (toVec e.1, toVec e.2)) ∘ fun e => (g e.1, g e.2)) := by
      refine List.map_congr_left fun e he => ?_
      have := List.of_mem_zip (a := e.1) (b := e.2) (hp.mem_iff.1 he)
      simp only [Function.comp, Segment.getStart, Segment.getEnd, hg _ this.1, hg _ (List.mem_rotate.1 this.2)]
    rw [e]
    exact hp.map _

theorem closedBy_back {h : Heap XR} {s : Sketch} {ps : List Nat} {g : Nat → ℝ × ℝ} (hc : ClosedBy h s ps) (hh : GradsSelf h)
    (hg : ∀ p ∈ ps, (h.points p).data = toVec (g p)) : ∀ d ∈ drawn h s, WayBack h d := by
  obtain ⟨es, hp, hf⟩ := hc
  have key : ∀ a ∈ ps, ∀ b ∈ ps, WayBack h (.line a b) := by
    intro a ha b hb
    constructor <;>
      simp [Segment.reverse, Segment.beq, Point2.beq, Vec2.beq, hg a ha, hg b hb, toVec, hh.px, hh.py]
  intro d hd
  obtain ⟨e, he, hs⟩ : ∃ e ∈ es, d = Segment.line e.1 e.2 ∨ d = Segment.line e.2 e.1 := by
    clear hp
    generalize drawn h s = l at hf hd
    induction hf with
    | nil => simp at hd
    | cons h1 _ ih =>
      rcases List.mem_cons.1 hd with rfl | hd
      · exact ⟨_, by simp, h1⟩
      · obtain ⟨e, he, hs⟩ := ih hd
        exact ⟨e, by simp [he], hs⟩
  have := List.of_mem_zip (a := e.1) (b := e.2) (hp.mem_iff.1 he)
  have m2 := List.mem_rotate.1 this.2
  rcases hs with rfl | rfl
  · exact key _ this.1 _ m2
  · exact key _ m2 _ this.1

/-- **C110.** In exact arithmetic: the lines of a closed loop, each point of which is within `ε` of its place, are cut into exactly one ring,
nothing is unused, and the area of the ring differs from that of the polygon of the places by at most `ε` times the perimeter plus `n ε² / 2` -
if the places are more than `2 ε` apart and their polygon has more area than that. -/
theorem C110_near {h : Heap XR} {s : Sketch} {ps : List Nat} (h3 : 3 ≤ ps.length) (hn : ps.Nodup) (hc : ClosedBy h s ps)
    (ho : ∀ c, PrimCell.circle c ∉ s.cells) (hh : GradsSelf h) (f : Nat → ℝ × ℝ) {ε : ℝ} (hε : 0 ≤ ε)
    (hd : ∀ p ∈ ps, ∃ x y, PointAt h p x y ∧ span (f p) (x, y) ≤ ε)
    (hf : ∀ p ∈ ps, ∀ q ∈ ps, p ≠ q → 2 * ε < span (f p) (f q))
    (ha : ε * perimeter (ps.map f) + ps.length * ε ^ 2 / 2 < |shoelace (ps.map f)|) :
    ∃ segs A, findRings h s = ([.segments segs], []) ∧ (Ring.segments segs).signedArea h = .fin A ∧
      |A - (|shoelace (ps.map f)|)| ≤ ε * perimeter (ps.map f) + ps.length * ε ^ 2 / 2 := by
  let g : Nat → ℝ × ℝ := fun p => ((h.points p).data.x.toReal, (h.points p).data.y.toReal)
  have hg : ∀ p ∈ ps, (h.points p).data = toVec (g p) ∧ span (f p) (g p) ≤ ε := by
    intro p hp
    obtain ⟨x, y, e, d⟩ := hd p hp
    have e : (h.points p).data = ⟨.fin x, .fin y⟩ := e
    have : g p = (x, y) := by simp only [g, e]; rfl
    rw [this]
    exact ⟨e, d⟩
  have near := shoelace_near ps f g hε fun p hp => (hg p hp).2
  have hv : (ps.map g).Nodup := by
    refine List.Nodup.map_on ?_ hn
    intro p hp q hq e
    by_contra hne
    have t : span (f p) (f q) ≤ span (f p) (g p) + span (f q) (g q) := by
      have tri : ∀ x y z : ℝ × ℝ, span x z ≤ span x y + span y z := by
        intro x y z
        have hyp : ∀ u v : ℝ × ℝ, span u v = dist (pt u.1 u.2) (pt v.1 v.2) := by
          intro u v
          rw [← hyp_eq_dist, span_hyp]
        rw [hyp, hyp, hyp]
        exact dist_triangle _ _ _
      have flip : span (g p) (f q) = span (f q) (g q) := by rw [e]; unfold span; congr 1; ring
      have := tri (f p) (g p) (f q)
      rw [flip] at this
      exact this
    have := hf p hp q hq hne
    have := (hg p hp).2
    have := (hg q hq).2
    linarith
  have hne : shoelace (ps.map g) ≠ 0 := by
    intro e
    rw [e, zero_sub, abs_neg] at near
    linarith
  obtain ⟨segs, k, e, er⟩ := C43_found h s (ps.map g) (by simpa using h3) hv (closedBy_outline hc fun p hp => (hg p hp).1)
    (closedBy_back hc hh fun p hp => (hg p hp).1) ho hne
  refine ⟨segs, |shoelace (ps.map g)|, e, ?_, (abs_abs_sub_abs_le_abs_sub _ _).trans near⟩
  rw [C49_shoelace h segs _ er, shoelace_rotate]
  split
  next hp => rw [abs_of_pos hp]
  next hp => rw [shoelace_reverse, abs_of_nonpos (not_lt.1 hp)]

/-- **C110.** So a solver that brings the points of a closed loop of lines near their places leaves a drawing that is cut into one ring of nearly the
right area, however it ended. -/
theorem C110_solved (pinv : PInv XR) (k : SolverKind XR) {h : Heap XR} {s : Sketch} {ps : List Nat} (h3 : 3 ≤ ps.length) (hn : ps.Nodup)
    (hc : ClosedBy h s ps) (hp : ∀ a, PrimCell.arc a ∉ s.cells) (ho : ∀ c, PrimCell.circle c ∉ s.cells) (hh : GradsSelf h) (f : Nat → ℝ × ℝ)
    {ε : ℝ} (hε : 0 ≤ ε) (hd : ∀ p ∈ ps, ∃ x y, PointAt (runSolver pinv k h s).heap p x y ∧ span (f p) (x, y) ≤ ε)
    (hf : ∀ p ∈ ps, ∀ q ∈ ps, p ≠ q → 2 * ε < span (f p) (f q))
    (ha : ε * perimeter (ps.map f) + ps.length * ε ^ 2 / 2 < |shoelace (ps.map f)|) :
    ∃ segs A, findRings (runSolver pinv k h s).heap s = ([.segments segs], []) ∧
      (Ring.segments segs).signedArea (runSolver pinv k h s).heap = .fin A ∧
      |A - (|shoelace (ps.map f)|)| ≤ ε * perimeter (ps.map f) + ps.length * ε ^ 2 / 2 :=
  C110_near h3 hn (closedBy_refs (runSolver_moves pinv k h s).1 hp hc) ho (runSolver_self pinv k h s hh) f hε hd hf ha

/-- calls that draw a triangle with corners `(0, 0)`, `(4, 0)` and `(0, 3)` -/
noncomputable def triOps : List (Op XR) :=
  [.addPoint2 (fin 0) (fin 0), .addPoint2 (fin 4) (fin 0), .addPoint2 (fin 0) (fin 3), .addLine 1 0, .addLine 2 0, .addLine 1 2]

/-- its corners -/
noncomputable def triPoint : Nat → Point2 XR
  | 0 => Point2.new (fin 0) (fin 0)
  | 1 => Point2.new (fin 4) (fin 0)
  | _ => Point2.new (fin 0) (fin 3)

/-- its lines -/
def triLine : Nat → Line
  | 0 => ⟨1, 0⟩
  | 1 => ⟨2, 0⟩
  | _ => ⟨1, 2⟩

theorem triOps_run (pinv : PInv XR) : (run pinv World.init triOps).2 = layout triPoint triLine (fun _ => .horizLine 0) 3 3 0 := by
  have p : ∀ n x y, triPoint n = Point2.new x y → n + 1 < u64Size →
      (step pinv (layout triPoint triLine (fun _ => .horizLine 0) n 0 0) (.addPoint2 x y)).2 = layout triPoint triLine (fun _ => .horizLine 0) (n + 1) 0 0 := by
    intro n x y hp hn
    change (addPoint2 _ _ _).2 = _
    rw [layout_addPoint _ _ _ _ _ hp hn]
  have l : ∀ m s e, triLine m = ⟨s, e⟩ → s < 3 → e < 3 → m < 3 →
      (step pinv (layout triPoint triLine (fun _ => .horizLine 0) 3 m 0) (.addLine s e)).2 = layout triPoint triLine (fun _ => .horizLine 0) 3 (m + 1) 0 := by
    intro m s e hl hs he hm
    have live : (Op.addLine s e : Op XR).live (layout triPoint triLine (fun _ => .horizLine 0) 3 m 0) = true := by
      simp [Op.live, PrimCell.live, layout, hs, he]
    unfold step
    rw [live]
    change (addLine _ _ _).2 = _
    rw [layout_addLine _ _ _ _ _ _ hl hs he (by unfold u64Size; omega)]
  have i : (World.init : World XR) = layout triPoint triLine (fun _ => .horizLine 0) 0 0 0 := by
    simp [layout, World.init, Heap.empty, Sketch.new]
  rw [i]
  have u : ∀ n, n < 10 → n < u64Size := by intro n hn; unfold u64Size; omega
  simp only [run, triOps]
  rw [p 0 _ _ rfl (u _ (by norm_num)), p 1 _ _ rfl (u _ (by norm_num)), p 2 _ _ rfl (u _ (by norm_num)), l 0 _ _ rfl (by norm_num) (by norm_num) (by norm_num),
    l 1 _ _ rfl (by norm_num) (by norm_num) (by norm_num), l 2 _ _ rfl (by norm_num) (by norm_num) (by norm_num)]

/-- the hypotheses of C110_outline can be met -/
example (pinv : PInv XR) : ∃ h s, (run pinv World.init triOps).2 = ⟨h, s⟩ ∧ (findRings h s).2 = [] := by
  refine ⟨_, _, triOps_run pinv, ?_⟩
  refine (C110_outline pinv triOps (by simp [triOps, Op.cleanWrite]) (triOps_run pinv) ([(0, 0), (4, 0), (0, 3)].map toVec) (by simp) ?_ ?_ ?_).1
  · intro i j hi hj
    rw [List.getElem_map, List.getElem_map, toVec_beq]
    simp only [List.map_cons, List.map_nil, List.length_cons, List.length_nil] at hi hj
    interval_cases i <;> interval_cases j <;> simp
  · refine closedBy_outline (ps := [0, 1, 2]) (g := fun p => [((0 : ℝ), (0 : ℝ)), (4, 0), (0, 3)].getD p (0, 0))
      ⟨[(0, 1), (2, 0), (1, 2)], by decide, .cons (.inr rfl) (.cons (.inl rfl) (.cons (.inl rfl) .nil))⟩ ?_
    intro p hp
    simp only [List.mem_cons, List.not_mem_nil, or_false] at hp
    rcases hp with rfl | rfl | rfl <;> rfl
  · simp [Sketch.cells]

end Isotope
