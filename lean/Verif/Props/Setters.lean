import Verif.Model.Setters
import Verif.Lemmas.Hist

/-!
# Setters (C67)
-/

set_option linter.unusedSectionVars false

namespace Isotope
variable {F : Type} [Num F]

/-! ## What a setter changes -/

/-- **C67.** The setters of lines, arcs and circles replace exactly one reference, one coordinate or the orientation of that
object, by the value given, whatever it is. -/
theorem C67_primitive_setters (h : Heap F) (n p : Nat) (x : F) (b : Bool) :
    (∃ h', (SetterCall.lineStart p).run h (.line n) = some h' ∧
      primFields h' (.line n) = (primFields h (.line n)).set 0 (.point p)) ∧
    (∃ h', (SetterCall.lineEnd p).run h (.line n) = some h' ∧
      primFields h' (.line n) = (primFields h (.line n)).set 1 (.point p)) ∧
    (∃ h', (SetterCall.circleCenter p).run h (.circle n) = some h' ∧ primFields h' (.circle n) = [.point p] ∧
      primData h' (.circle n) = primData h (.circle n)) ∧
    (∃ h', (SetterCall.circleRadius x).run h (.circle n) = some h' ∧ primFields h' (.circle n) = primFields h (.circle n) ∧
      primData h' (.circle n) = [x]) ∧
    (∃ h', (SetterCall.arcCenter p).run h (.arc n) = some h' ∧ primFields h' (.arc n) = [.point p] ∧
      primData h' (.arc n) = primData h (.arc n) ∧ (h'.arcs n).clockwise = (h.arcs n).clockwise) ∧
    (∃ h', (SetterCall.arcRadius x).run h (.arc n) = some h' ∧ primFields h' (.arc n) = primFields h (.arc n) ∧
      primData h' (.arc n) = (primData h (.arc n)).set 0 x ∧ (h'.arcs n).clockwise = (h.arcs n).clockwise) ∧
    (∃ h', (SetterCall.arcStartAngle x).run h (.arc n) = some h' ∧ primFields h' (.arc n) = primFields h (.arc n) ∧
      primData h' (.arc n) = (primData h (.arc n)).set 1 x ∧ (h'.arcs n).clockwise = (h.arcs n).clockwise) ∧
    (∃ h', (SetterCall.arcEndAngle x).run h (.arc n) = some h' ∧ primFields h' (.arc n) = primFields h (.arc n) ∧
      primData h' (.arc n) = (primData h (.arc n)).set 2 x ∧ (h'.arcs n).clockwise = (h.arcs n).clockwise) ∧
    (∃ h', (SetterCall.arcClockwise b : SetterCall F).run h (.arc n) = some h' ∧
      primFields h' (.arc n) = primFields h (.arc n) ∧ primData h' (.arc n) = primData h (.arc n) ∧
      (h'.arcs n).clockwise = b) := by
  refine ⟨⟨_, rfl, ?_⟩, ⟨_, rfl, ?_⟩, ⟨_, rfl, ?_, ?_⟩, ⟨_, rfl, ?_, ?_⟩, ⟨_, rfl, ?_, ?_, ?_⟩, ⟨_, rfl, ?_, ?_, ?_⟩,
    ⟨_, rfl, ?_, ?_, ?_⟩, ⟨_, rfl, ?_, ?_, ?_⟩, ⟨_, rfl, ?_, ?_, ?_⟩⟩ <;>
  simp [primFields, primData, Heap.setLine, Heap.setArc, Heap.setCircle, Line.setStart, Line.setEnd, Circle.setCenter,
    Circle.setRadius, Arc.setCenter, Arc.setRadius, Arc.setStartAngle, Arc.setEndAngle, Arc.setClockwise]

/-- **C67.** The setters of constraints replace exactly one reference or the desired value; the constraint keeps its type. -/
theorem C67_constraint_setters (c c' : Constraint F) (n : Nat) (x : F) (v : Vec2 F) :
    ((SetterCall.line1 n).onCons c = some c' → c.sameKind c' = true ∧
      consFields c' = (consFields c).set 0 (.line n) ∧ consParams c' = consParams c) ∧
    ((SetterCall.line2 n).onCons c = some c' → c.sameKind c' = true ∧
      consFields c' = (consFields c).set 1 (.line n) ∧ consParams c' = consParams c) ∧
    ((SetterCall.line n).onCons c = some c' → c.sameKind c' = true ∧
      consFields c' = [.line n] ∧ consParams c' = consParams c) ∧
    ((SetterCall.point1 n).onCons c = some c' → c.sameKind c' = true ∧
      consFields c' = (consFields c).set 0 (.point n) ∧ consParams c' = consParams c) ∧
    ((SetterCall.point2 n).onCons c = some c' → c.sameKind c' = true ∧
      consFields c' = (consFields c).set 1 (.point n) ∧ consParams c' = consParams c) ∧
    ((SetterCall.middlePoint n).onCons c = some c' → c.sameKind c' = true ∧
      consFields c' = (consFields c).set 2 (.point n) ∧ consParams c' = consParams c) ∧
    ((SetterCall.point n).onCons c = some c' → c.sameKind c' = true ∧
      consFields c' = (consFields c).dropLast ++ [.point n] ∧ consParams c' = consParams c) ∧
    ((SetterCall.arc n).onCons c = some c' → c.sameKind c' = true ∧
      consFields c' = (consFields c).set 0 (.arc n) ∧ consParams c' = consParams c) ∧
    ((SetterCall.desired x).onCons c = some c' → c.sameKind c' = true ∧
      consFields c' = consFields c ∧ consParams c' = [x]) ∧
    ((SetterCall.desiredPos v).onCons c = some c' → c.sameKind c' = true ∧
      consFields c' = consFields c ∧ consParams c' = [v.x, v.y]) := by
  refine ⟨?_, ?_, ?_, ?_, ?_, ?_, ?_, ?_, ?_, ?_⟩ <;> intro e <;> cases c <;>
    simp only [SetterCall.onCons, Constraint.setLine1, Constraint.setLine2, Constraint.setLine, Constraint.setPoint1,
      Constraint.setPoint2, Constraint.setMiddlePoint, Constraint.setDesired, Constraint.setDesiredPos, Constraint.setPoint,
      Constraint.setArc, Option.some.injEq, reduceCtorEq] at e <;> subst e <;>
    simp [Constraint.sameKind, consFields, consParams]

/-- **C67.** Which constraints have which setter. -/
theorem C67_methods (c : Constraint F) (n : Nat) (x : F) (v : Vec2 F) :
    (((SetterCall.line1 n).onCons c).isSome ↔ ∃ l m, consFields c = [.line l, .line m]) ∧
    (((SetterCall.line2 n).onCons c).isSome ↔ ∃ l m, consFields c = [.line l, .line m]) ∧
    (((SetterCall.line n).onCons c).isSome ↔ ∃ l, consFields c = [.line l]) ∧
    (((SetterCall.point1 n).onCons c).isSome ↔ ∃ p q r, consFields c = .point p :: .point q :: r) ∧
    (((SetterCall.point2 n).onCons c).isSome ↔ ∃ p q r, consFields c = .point p :: .point q :: r) ∧
    (((SetterCall.middlePoint n).onCons c).isSome ↔ ∃ p q r, consFields c = [.point p, .point q, .point r]) ∧
    (((SetterCall.point n).onCons c).isSome ↔ (∃ p, consFields c = [.point p]) ∨ ∃ a p, consFields c = [.arc a, .point p]) ∧
    (((SetterCall.arc n).onCons c).isSome ↔ ∃ a p, consFields c = [.arc a, .point p]) ∧
    (((SetterCall.desired x).onCons c).isSome ↔ ∃ y, consParams c = [y]) ∧
    (((SetterCall.desiredPos v).onCons c).isSome ↔ ∃ y z, consParams c = [y, z]) := by
  cases c <;> simp [SetterCall.onCons, Constraint.setLine1, Constraint.setLine2, Constraint.setLine, Constraint.setPoint1,
      Constraint.setPoint2, Constraint.setMiddlePoint, Constraint.setDesired, Constraint.setDesiredPos, Constraint.setPoint,
      Constraint.setArc, consFields, consParams]

/-! ## What it leaves alone -/

/-- **C67.** A setter changes nothing but the object it is called on: not a point (hence no coordinate of one), no gradient,
no other line, arc, circle or constraint, and no object is created. -/
theorem C67_frame (h h' : Heap F) (t : Target) (call : SetterCall F) (e : call.run h t = some h') :
    h'.points = h.points ∧ (∀ c, primGrad h' c = primGrad h c) ∧
    (∀ l, t ≠ .line l → h'.lines l = h.lines l) ∧ (∀ a, t ≠ .arc a → h'.arcs a = h.arcs a) ∧
    (∀ c, t ≠ .circle c → h'.circles c = h.circles c) ∧ (∀ k, t ≠ .cons k → h'.cons k = h.cons k) ∧
    h'.nPoints = h.nPoints ∧ h'.nLines = h.nLines ∧ h'.nArcs = h.nArcs ∧ h'.nCircles = h.nCircles ∧ h'.nCons = h.nCons := by
  cases t with
  | cons k =>
    have : ∃ c, h' = h.setCons k c := by
      simp only [SetterCall.run, Option.map_eq_some_iff] at e
      obtain ⟨c, -, e⟩ := e
      exact ⟨c, e.symm⟩
    obtain ⟨c, rfl⟩ := this
    refine ⟨rfl, fun c => by cases c <;> rfl, fun _ _ => rfl, fun _ _ => rfl, fun _ _ => rfl, fun j hj => ?_, rfl, rfl, rfl, rfl, rfl⟩
    have : j ≠ k := fun e => hj (by rw [e])
    simp [Heap.setCons, upd_apply, this]
  | line n =>
    have : ∃ c, h' = h.setLine n c := by
      cases call <;> simp only [SetterCall.run, Option.some.injEq, reduceCtorEq] at e <;> exact ⟨_, e.symm⟩
    obtain ⟨c, rfl⟩ := this
    refine ⟨rfl, fun c => by cases c <;> rfl, fun j hj => ?_, fun _ _ => rfl, fun _ _ => rfl, fun _ _ => rfl, rfl, rfl, rfl, rfl, rfl⟩
    have : j ≠ n := fun e => hj (by rw [e])
    simp [Heap.setLine, upd_apply, this]
  | arc n =>
    have : ∃ c, h' = h.setArc n c ∧ c.grad = (h.arcs n).grad := by
      cases call <;> simp only [SetterCall.run, Option.some.injEq, reduceCtorEq] at e <;> exact ⟨_, e.symm, rfl⟩
    obtain ⟨c, rfl, hg⟩ := this
    refine ⟨rfl, fun c => ?_, fun _ _ => rfl, fun j hj => ?_, fun _ _ => rfl, fun _ _ => rfl, rfl, rfl, rfl, rfl, rfl⟩
    · cases c with
      | arc j =>
        by_cases hj : j = n
        · subst hj; simp [primGrad, Heap.setArc, hg]
        · simp [primGrad, Heap.setArc, upd_apply, hj]
      | _ => rfl
    · have : j ≠ n := fun e => hj (by rw [e])
      simp [Heap.setArc, upd_apply, this]
  | circle n =>
    have : ∃ c, h' = h.setCircle n c ∧ c.grad = (h.circles n).grad := by
      cases call <;> simp only [SetterCall.run, Option.some.injEq, reduceCtorEq] at e <;> exact ⟨_, e.symm, rfl⟩
    obtain ⟨c, rfl, hg⟩ := this
    refine ⟨rfl, fun c => ?_, fun _ _ => rfl, fun _ _ => rfl, fun j hj => ?_, fun _ _ => rfl, rfl, rfl, rfl, rfl, rfl⟩
    · cases c with
      | circle j =>
        by_cases hj : j = n
        · subst hj; simp [primGrad, Heap.setCircle, hg]
        · simp [primGrad, Heap.setCircle, upd_apply, hj]
      | _ => rfl
    · have : j ≠ n := fun e => hj (by rw [e])
      simp [Heap.setCircle, upd_apply, this]

/-- the object of a primitive cell as target of a setter; points have no setter of this kind -/
def Target.ofPrim : PrimCell → Option Target
  | .point _ => none
  | .line a => some (.line a)
  | .arc a => some (.arc a)
  | .circle a => some (.circle a)

/-- **C67.** Only constraints that look at the changed object can change their loss: a constraint that is not the target
and does not refer to it has the same loss as before. -/
theorem C67_other_losses (h h' : Heap F) (t : Target) (call : SetterCall F) (e : call.run h t = some h') (k : Nat)
    (hk : t ≠ .cons k) (hd : ∀ c ∈ consFields (h.cons k), Target.ofPrim c ≠ some t) :
    lossValue h' (h'.cons k) = lossValue h (h.cons k) := by
  obtain ⟨f1, -, f3, f4, -, f6, -⟩ := C67_frame h h' t call e
  rw [f6 k hk]
  have hp : ∀ p, ptData h' p = ptData h p := fun p => by unfold ptData; rw [f1]
  have hl : ∀ l, PrimCell.line l ∈ consFields (h.cons k) → lineStart h' l = lineStart h l ∧ lineEnd h' l = lineEnd h l := by
    intro l hl
    have := f3 l (fun e => hd _ hl (by rw [e]; rfl))
    unfold lineStart lineEnd
    rw [this, hp, hp]; exact ⟨rfl, rfl⟩
  have ha : ∀ a, PrimCell.arc a ∈ consFields (h.cons k) → (h'.arcs a).startPoint h' = (h.arcs a).startPoint h ∧
      (h'.arcs a).endPoint h' = (h.arcs a).endPoint h := by
    intro a ha
    have := f4 a (fun e => hd _ ha (by rw [e]; rfl))
    unfold Arc.startPoint Arc.endPoint
    rw [this, f1]; exact ⟨rfl, rfl⟩
  revert hl ha
  generalize h.cons k = c
  intro hl ha
  cases c with
  | angle p1 p2 m d => simp only [lossValue, currentAngle, hp]
  | arcEnd a p => simp only [lossValue, hp, (ha a (by simp [consFields])).2]
  | arcStart a p => simp only [lossValue, hp, (ha a (by simp [consFields])).1]
  | euclid p1 p2 d => simp only [lossValue, euclidCurrent, hp]
  | horizDist p1 p2 d => simp only [lossValue, horizCurrent, hp]
  | vertDist p1 p2 d => simp only [lossValue, vertCurrent, hp]
  | fix p d => simp only [lossValue, hp]
  | eqLen l m =>
    simp only [lossValue, (hl l (by simp [consFields])).1, (hl l (by simp [consFields])).2, (hl m (by simp [consFields])).1,
      (hl m (by simp [consFields])).2]
  | horizLine l => simp only [lossValue, (hl l (by simp [consFields])).1, (hl l (by simp [consFields])).2]
  | vertLine l => simp only [lossValue, (hl l (by simp [consFields])).1, (hl l (by simp [consFields])).2]
  | parallel l m =>
    simp only [lossValue, (hl l (by simp [consFields])).1, (hl l (by simp [consFields])).2, (hl m (by simp [consFields])).1,
      (hl m (by simp [consFields])).2]
  | perp l m =>
    simp only [lossValue, (hl l (by simp [consFields])).1, (hl l (by simp [consFields])).2, (hl m (by simp [consFields])).1,
      (hl m (by simp [consFields])).2]

/-! ## Setters in histories -/

/-- the handle given to a setter -/
def SetterCall.args : SetterCall F → List PrimCell
  | .circleCenter p | .lineStart p | .lineEnd p | .arcCenter p | .point1 p | .point2 p | .middlePoint p | .point p => [.point p]
  | .line1 l | .line2 l | .line l => [.line l]
  | .arc a => [.arc a]
  | .circleRadius _ | .arcRadius _ | .arcStartAngle _ | .arcEndAngle _ | .arcClockwise _ | .desired _ | .desiredPos _ => []

/-- the target exists and refers to existing objects -/
def Target.ok (h : Heap F) : Target → Prop
  | .line l => l < h.nLines ∧ ∀ r ∈ primFields h (.line l), r.live h = true
  | .arc a => a < h.nArcs ∧ ∀ r ∈ primFields h (.arc a), r.live h = true
  | .circle c => c < h.nCircles ∧ ∀ r ∈ primFields h (.circle c), r.live h = true
  | .cons k => k < h.nCons ∧ ∀ r ∈ consFields (h.cons k), r.live h = true

/-- **C67.** Calling a setter on an existing object with an existing handle is one of the calls that histories (C01-C12, C35,
C61) are made of, so everything proved for all histories holds for histories with setters. -/
theorem C67_is_a_call (pinv : PInv F) (h h' : Heap F) (s : Sketch) (t : Target) (call : SetterCall F)
    (e : call.run h t = some h') (ht : t.ok h) (ha : ∀ r ∈ call.args, r.live h = true) :
    ∃ op, step pinv ⟨h, s⟩ op = (.unit, ⟨h', s⟩) := by
  cases t with
  | cons k =>
    simp only [SetterCall.run, Option.map_eq_some_iff] at e
    obtain ⟨c, e, rfl⟩ := e
    refine ⟨.writeCons k c, ?_⟩
    have key : (Op.writeCons k c : Op F).live ⟨h, s⟩ = true := by
      have hs : (h.cons k).sameKind c = true ∧ ∀ r ∈ consFields c, r ∈ consFields (h.cons k) ∨ r ∈ call.args := by
        revert e
        generalize h.cons k = c0
        intro e
        cases call <;> cases c0 <;>
          simp only [SetterCall.onCons, Constraint.setLine1, Constraint.setLine2, Constraint.setLine, Constraint.setPoint1,
            Constraint.setPoint2, Constraint.setMiddlePoint, Constraint.setDesired, Constraint.setDesiredPos,
            Constraint.setPoint, Constraint.setArc, Option.some.injEq, reduceCtorEq] at e <;> subst e <;>
          simp [Constraint.sameKind, consFields, SetterCall.args]
      simp only [Op.live, Bool.and_eq_true, decide_eq_true_eq, List.all_eq_true, consRefs_eq]
      refine ⟨⟨ht.1, hs.1⟩, fun r hr => ?_⟩
      rcases hs.2 r hr with hr | hr
      · exact ht.2 r hr
      · exact ha r hr
    simp [step, key]
  | line n =>
    simp only [Target.ok, primFields, List.mem_cons, List.not_mem_nil, or_false, forall_eq_or_imp, forall_eq] at ht
    have key : ∀ x : Line, (PrimCell.point x.start).live h = true → (PrimCell.point x.stop).live h = true →
        step pinv ⟨h, s⟩ (.writeLine n x) = (.unit, ⟨h.setLine n x, s⟩) := by
      intro x h1 h2
      have : (PrimCell.line n).live h = true := by simpa [PrimCell.live] using ht.1
      simp [step, Op.live, h1, h2, this]
    cases call <;> simp only [SetterCall.run, Option.some.injEq, reduceCtorEq] at e <;> subst e <;>
      simp only [SetterCall.args, List.mem_singleton, forall_eq] at ha
    · exact ⟨_, key _ ha ht.2.2⟩
    · exact ⟨_, key _ ht.2.1 ha⟩
  | arc n =>
    simp only [Target.ok, primFields, List.mem_cons, List.not_mem_nil, or_false, forall_eq] at ht
    have key : ∀ x : Arc F, (PrimCell.point x.center).live h = true →
        step pinv ⟨h, s⟩ (.writeArc n x) = (.unit, ⟨h.setArc n x, s⟩) := by
      intro x h1
      have : (PrimCell.arc n).live h = true := by simpa [PrimCell.live] using ht.1
      simp [step, Op.live, h1, this]
    cases call <;> simp only [SetterCall.run, Option.some.injEq, reduceCtorEq] at e <;> subst e <;>
      simp only [SetterCall.args, List.mem_singleton, forall_eq, List.not_mem_nil, false_imp_iff, implies_true] at ha
    · exact ⟨_, key _ ha⟩
    all_goals exact ⟨_, key _ ht.2⟩
  | circle n =>
    simp only [Target.ok, primFields, List.mem_cons, List.not_mem_nil, or_false, forall_eq] at ht
    have key : ∀ x : Circle F, (PrimCell.point x.center).live h = true →
        step pinv ⟨h, s⟩ (.writeCircle n x) = (.unit, ⟨h.setCircle n x, s⟩) := by
      intro x h1
      have : (PrimCell.circle n).live h = true := by simpa [PrimCell.live] using ht.1
      simp [step, Op.live, h1, this]
    cases call <;> simp only [SetterCall.run, Option.some.injEq, reduceCtorEq] at e <;> subst e <;>
      simp only [SetterCall.args, List.mem_singleton, forall_eq, List.not_mem_nil, false_imp_iff, implies_true] at ha
    · exact ⟨_, key _ ha⟩
    · exact ⟨_, key _ ht.2⟩

/-- every existing object refers to existing objects -/
def SoundHeap (h : Heap F) : Prop :=
  (∀ c : PrimCell, c.live h = true → ∀ r ∈ primFields h c, r.live h = true) ∧
  ∀ k, k < h.nCons → ∀ r ∈ consFields (h.cons k), r.live h = true

theorem SoundHeap.step {h h' : Heap F} (i : SoundHeap h) (g : Grows h h') (kr : KeepRefs h h')
    (n1 : ∀ c : PrimCell, c.live h' = true → c.live h = false → ∀ r ∈ primFields h' c, r.live h = true)
    (n2 : ∀ k, k < h'.nCons → ¬k < h.nCons → ∀ r ∈ consFields (h'.cons k), r.live h = true) : SoundHeap h' := by
  constructor
  · intro c hc r hr
    cases hl : c.live h with
    | false => exact g.live (n1 c hc hl r hr)
    | true => rw [kr.1 c hl] at hr; exact g.live (i.1 c hl r hr)
  · intro k hk r hr
    by_cases hl : k < h.nCons
    · rw [kr.2 k hl] at hr; exact g.live (i.2 k hl r hr)
    · exact g.live (n2 k hk hl r hr)

theorem SoundHeap.same {h h' : Heap F} (i : SoundHeap h) (g : SameRefs h h') : SoundHeap h' := by
  refine i.step g.grows g.keepRefs (fun c h1 h2 => ?_) (fun k h1 h2 => ?_)
  · cases c <;> simp only [PrimCell.live, decide_eq_true_eq, decide_eq_false_iff_not, g.nPoints, g.nLines, g.nArcs, g.nCircles] at h1 h2 <;> omega
  · rw [g.nCons] at h1; exact absurd h1 h2

theorem SoundHeap.allocPoint {h : Heap F} (i : SoundHeap h) (p : Point2 F) : SoundHeap (h.allocPoint p).2 := by
  refine i.step (allocPoint_grows _ _) (allocPoint_keepRefs _ _) (fun c h1 h2 r hr => ?_) (fun k h1 h2 => absurd h1 h2)
  cases c <;> simp only [PrimCell.live, decide_eq_true_eq, decide_eq_false_iff_not] at h1 h2
  · cases hr
  all_goals exact absurd h1 h2

theorem SoundHeap.allocLine {h : Heap F} (i : SoundHeap h) (s e : Nat) (hs : (PrimCell.point s).live h = true)
    (he : (PrimCell.point e).live h = true) : SoundHeap (h.allocLine ⟨s, e⟩).2 := by
  refine i.step (allocLine_grows _ _) (allocLine_keepRefs _ _) (fun c h1 h2 r hr => ?_) (fun k h1 h2 => absurd h1 h2)
  cases c <;> simp only [PrimCell.live, decide_eq_true_eq, decide_eq_false_iff_not] at h1 h2
  case line l =>
    have : l = h.nLines := by simp [Heap.allocLine, Heap.setLine] at h1; omega
    subst this
    simp only [primFields, Heap.allocLine, Heap.setLine, upd_same, List.mem_cons, List.not_mem_nil, or_false] at hr
    rcases hr with rfl | rfl
    · exact hs
    · exact he
  all_goals exact absurd h1 h2

theorem SoundHeap.allocArc {h : Heap F} (i : SoundHeap h) (a : Arc F) (hc : (PrimCell.point a.center).live h = true) :
    SoundHeap (h.allocArc a).2 := by
  refine i.step (allocArc_grows _ _) (allocArc_keepRefs _ _) (fun c h1 h2 r hr => ?_) (fun k h1 h2 => absurd h1 h2)
  cases c <;> simp only [PrimCell.live, decide_eq_true_eq, decide_eq_false_iff_not] at h1 h2
  case arc l =>
    have : l = h.nArcs := by simp [Heap.allocArc, Heap.setArc] at h1; omega
    subst this
    simp only [primFields, Heap.allocArc, Heap.setArc, upd_same, List.mem_cons, List.not_mem_nil, or_false] at hr
    subst hr
    exact hc
  all_goals exact absurd h1 h2

theorem SoundHeap.allocCircle {h : Heap F} (i : SoundHeap h) (a : Circle F) (hc : (PrimCell.point a.center).live h = true) :
    SoundHeap (h.allocCircle a).2 := by
  refine i.step (allocCircle_grows _ _) (allocCircle_keepRefs _ _) (fun c h1 h2 r hr => ?_) (fun k h1 h2 => absurd h1 h2)
  cases c <;> simp only [PrimCell.live, decide_eq_true_eq, decide_eq_false_iff_not] at h1 h2
  case circle l =>
    have : l = h.nCircles := by simp [Heap.allocCircle, Heap.setCircle] at h1; omega
    subst this
    simp only [primFields, Heap.allocCircle, Heap.setCircle, upd_same, List.mem_cons, List.not_mem_nil, or_false] at hr
    subst hr
    exact hc
  all_goals exact absurd h1 h2

theorem SoundHeap.allocCons {h : Heap F} (i : SoundHeap h) (c : Constraint F) (hc : ∀ r ∈ consFields c, r.live h = true) :
    SoundHeap (h.allocCons c).2 := by
  refine i.step (allocCons_grows _ _) (allocCons_keepRefs _ _) (fun c h1 h2 => ?_) (fun k h1 h2 r hr => ?_)
  · cases c <;> simp only [PrimCell.live, decide_eq_true_eq, decide_eq_false_iff_not] at h1 h2 <;> exact absurd h1 h2
  · have : k = h.nCons := by simp [Heap.allocCons, Heap.setCons] at h1; omega
    subst this
    simp only [Heap.allocCons, Heap.setCons, upd_same] at hr
    exact hc r hr

theorem SoundHeap.constrain {w : World F} (i : SoundHeap w.heap) (c : Constraint F)
    (hc : ∀ r ∈ consFields c, r.live w.heap = true) : SoundHeap (constrain w c).2.heap := by
  have := i.allocCons c hc
  unfold Isotope.constrain
  split
  · dsimp only
    split <;> exact this
  · exact i

theorem SoundHeap.set {h : Heap F} (i : SoundHeap h) :
    (∀ a x, SoundHeap (h.setPoint a x)) ∧
    (∀ a x, (∀ r ∈ [PrimCell.point x.start, .point x.stop], r.live h = true) → SoundHeap (h.setLine a x)) ∧
    (∀ a x, (PrimCell.point x.center).live h = true → SoundHeap (h.setArc a x)) ∧
    (∀ a x, (PrimCell.point x.center).live h = true → SoundHeap (h.setCircle a x)) ∧
    (∀ a x, (∀ r ∈ consFields x, r.live h = true) → SoundHeap (h.setCons a x)) := by
  have lv : ∀ (r : PrimCell), (∀ a x, r.live (h.setPoint a x) = r.live h) ∧ (∀ a x, r.live (h.setLine a x) = r.live h) ∧
      (∀ a x, r.live (h.setArc a x) = r.live h) ∧ (∀ a x, r.live (h.setCircle a x) = r.live h) ∧
      (∀ a x, r.live (h.setCons a x) = r.live h) := by
    intro r; cases r <;> exact ⟨fun _ _ => rfl, fun _ _ => rfl, fun _ _ => rfl, fun _ _ => rfl, fun _ _ => rfl⟩
  refine ⟨fun a x => ⟨fun c hc r hr => ?_, fun k hk r hr => ?_⟩, fun a x hx => ⟨fun c hc r hr => ?_, fun k hk r hr => ?_⟩,
    fun a x hx => ⟨fun c hc r hr => ?_, fun k hk r hr => ?_⟩, fun a x hx => ⟨fun c hc r hr => ?_, fun k hk r hr => ?_⟩,
    fun a x hx => ⟨fun c hc r hr => ?_, fun k hk r hr => ?_⟩⟩ <;> simp only [lv] at *
  · exact i.1 c hc r (by cases c <;> exact hr)
  · exact i.2 k hk r hr
  · by_cases e : c = .line a
    · subst e; exact hx r (by simpa [primFields, Heap.setLine] using hr)
    · refine i.1 c hc r ?_
      cases c with
      | line b => simpa [primFields, Heap.setLine, upd_apply, show b ≠ a from fun h => e (by rw [h])] using hr
      | _ => exact hr
  · exact i.2 k hk r hr
  · by_cases e : c = .arc a
    · subst e
      have : r = .point x.center := by simpa [primFields, Heap.setArc] using hr
      rw [this]; exact hx
    · refine i.1 c hc r ?_
      cases c with
      | arc b => simpa [primFields, Heap.setArc, upd_apply, show b ≠ a from fun h => e (by rw [h])] using hr
      | _ => exact hr
  · exact i.2 k hk r hr
  · by_cases e : c = .circle a
    · subst e
      have : r = .point x.center := by simpa [primFields, Heap.setCircle] using hr
      rw [this]; exact hx
    · refine i.1 c hc r ?_
      cases c with
      | circle b => simpa [primFields, Heap.setCircle, upd_apply, show b ≠ a from fun h => e (by rw [h])] using hr
      | _ => exact hr
  · exact i.2 k hk r hr
  · exact i.1 c hc r (by cases c <;> exact hr)
  · by_cases e : k = a
    · subst e; exact hx r (by simpa [Heap.setCons] using hr)
    · exact i.2 k hk r (by simpa [Heap.setCons, upd_apply, e] using hr)

theorem SoundHeap.call (pinv : PInv F) {w : World F} (i : SoundHeap w.heap) (op : Op F) :
    SoundHeap (Isotope.step pinv w op).2.heap := by
  unfold Isotope.step
  cases hl : op.live w with
  | false => simpa using i
  | true =>
    simp only [Bool.not_true, Bool.false_eq_true, if_false]
    obtain ⟨s1, s2, s3, s4, s5⟩ := i.set
    cases op with
    | newPoint x y => exact i.allocPoint _
    | newLine s e => simp only [Op.live, Bool.and_eq_true] at hl; exact i.allocLine s e hl.1 hl.2
    | newArc c r cw sa ea => exact i.allocArc _ hl
    | newCircle c r => exact i.allocCircle _ hl
    | newCons c =>
      simp only [Op.live, List.all_eq_true, consRefs_eq] at hl
      dsimp only
      split
      · exact i.allocCons c hl
      · exact i
    | writePoint a p => exact s1 a p
    | writeLine a l =>
      simp only [Op.live, Bool.and_eq_true] at hl
      exact s2 a l (by simpa using ⟨hl.1.2, hl.2⟩)
    | writeArc a x => simp only [Op.live, Bool.and_eq_true] at hl; exact s3 a x hl.2
    | writeCircle a x => simp only [Op.live, Bool.and_eq_true] at hl; exact s4 a x hl.2
    | writeCons a c =>
      simp only [Op.live, Bool.and_eq_true, List.all_eq_true, consRefs_eq] at hl
      exact s5 a c hl.2
    | addPrimitive p => dsimp only; split <;> exact i
    | addPoint2 x y => dsimp only; rw [addPoint2_heap]; exact i.allocPoint _
    | addLine s e =>
      simp only [Op.live, Bool.and_eq_true] at hl
      dsimp only; rw [addLine_heap]; exact i.allocLine s e hl.1 hl.2
    | addArc c r cw sa ea => dsimp only; rw [addArc_heap]; exact i.allocArc _ hl
    | addConstraint c => dsimp only; split <;> exact i
    | constrainPerpendicularLines l1 l2 =>
      simp only [Op.live, Bool.and_eq_true] at hl
      exact i.constrain _ (by simpa [consFields] using hl)
    | constrainParallelLines l1 l2 =>
      simp only [Op.live, Bool.and_eq_true] at hl
      exact i.constrain _ (by simpa [consFields] using hl)
    | constrainDistanceEuclidean p1 p2 d =>
      simp only [Op.live, Bool.and_eq_true] at hl
      exact i.constrain _ (by simpa [consFields] using hl)
    | constrainFixPoint p pos => exact i.constrain _ (by simpa [consFields, Op.live] using hl)
    | constrainAngleBetweenPoints p1 p2 m a =>
      simp only [Op.live, Bool.and_eq_true] at hl
      exact i.constrain _ (by simpa [consFields, and_assoc] using hl)
    | deletePrimitive id => dsimp only; split <;> exact i
    | deleteConstraint c => dsimp only; split <;> exact i
    | setData d =>
      have := setData_dataOnly w.heap w.sketch d
      dsimp only
      cases e : Isotope.setData w.heap w.sketch d with
      | error h => rw [e] at this; exact i.same this.1
      | ok h => rw [e] at this; exact i.same this.1
    | getGradient =>
      have := getGradient_gradOnly w.heap w.sketch
      dsimp only
      cases e : Isotope.getGradient w.heap w.sketch with
      | error h => rw [e] at this; exact i.same this.1
      | ok h => rw [e] at this; exact i.same this.1
    | getJacobian =>
      have := getJacobian_gradOnly w.heap w.sketch
      dsimp only
      cases e : Isotope.getJacobian w.heap w.sketch with
      | error h => rw [e] at this; exact i.same this.1
      | ok h => rw [e] at this; exact i.same this.1
    | checkGradients eps c ce =>
      have := checkGradients_moves w.heap w.sketch eps c ce
      dsimp only
      cases e : Isotope.checkGradients w.heap w.sketch eps c ce with
      | error h => rw [e] at this; exact i.same this.1
      | ok h => rw [e] at this; exact i.same this.1
    | solve k => exact i.same (runSolver_moves pinv k w.heap w.sketch).1

/-- **C67.** In every history existing objects refer to existing objects only, so the side condition of `C67_is_a_call` about
the target is just that it exists. -/
theorem C67_targets (pinv : PInv F) (ops : List (Op F)) (t : Nat) :
    (∀ l, l < (stateAt pinv ops t).heap.nLines → (Target.line l).ok (stateAt pinv ops t).heap) ∧
    (∀ a, a < (stateAt pinv ops t).heap.nArcs → (Target.arc a).ok (stateAt pinv ops t).heap) ∧
    (∀ c, c < (stateAt pinv ops t).heap.nCircles → (Target.circle c).ok (stateAt pinv ops t).heap) ∧
    ∀ k, k < (stateAt pinv ops t).heap.nCons → (Target.cons k).ok (stateAt pinv ops t).heap := by
  have key : ∀ (ops : List (Op F)) (w : World F), SoundHeap w.heap → SoundHeap (run pinv w ops).2.heap := by
    intro ops
    induction ops with
    | nil => intro w hw; exact hw
    | cons op ops ih => intro w hw; exact ih _ (SoundHeap.call pinv hw op)
  have i : SoundHeap (stateAt pinv ops t).heap := by
    refine key _ _ ⟨fun c hc => ?_, fun k hk => ?_⟩
    · cases c <;> simp [PrimCell.live, World.init, Heap.empty] at hc
    · simp [World.init, Heap.empty] at hk
  exact ⟨fun l hl => ⟨hl, i.1 (.line l) (by simpa [PrimCell.live] using hl)⟩,
    fun l hl => ⟨hl, i.1 (.arc l) (by simpa [PrimCell.live] using hl)⟩,
    fun l hl => ⟨hl, i.1 (.circle l) (by simpa [PrimCell.live] using hl)⟩, fun k hk => ⟨hk, i.2 k hk⟩⟩

/-! ## No validation -/

/-- **C67.** `set_desired_distance`, `set_desired_angle` and `set_desired_pos` accept what `new` rejects: after the call the
object is one that its constructor would have panicked on iff the value is not finite. -/
theorem C67_unvalidated (c c' : Constraint F) (x : F) (v : Vec2 F) :
    ((SetterCall.desired x).onCons c = some c' → consNewOk c' = Num.isFinite x) ∧
    ((SetterCall.desiredPos v).onCons c = some c' → consNewOk c' = v.allFinite) := by
  constructor <;> intro e <;> cases c <;>
    simp only [SetterCall.onCons, Constraint.setDesired, Constraint.setDesiredPos, Option.some.injEq, reduceCtorEq] at e <;>
    subst e <;> rfl

/-- a line of two existing points can be given another existing start -/
example (pinv : PInv F) : ∃ h' op, (SetterCall.lineStart 1 : SetterCall F).run
      { (Heap.empty : Heap F) with nPoints := 2, nLines := 1 } (.line 0) = some h' ∧
    step pinv ⟨{ (Heap.empty : Heap F) with nPoints := 2, nLines := 1 }, Sketch.new⟩ op = (.unit, ⟨h', Sketch.new⟩) := by
  obtain ⟨op, ho⟩ := C67_is_a_call pinv { (Heap.empty : Heap F) with nPoints := 2, nLines := 1 } _ Sketch.new (.line 0)
    (.lineStart 1) rfl (by simp [Target.ok, primFields, Heap.empty, PrimCell.live]) (by simp [SetterCall.args, PrimCell.live])
  exact ⟨_, op, rfl, ho⟩

end Isotope
