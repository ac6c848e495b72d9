import Verif.Lemmas.Data
import Mathlib.Tactic.ByContra

/-! # Bookkeeping of the sketch over histories of calls (any arithmetic) -/

set_option linter.unusedSectionVars false

namespace Isotope
variable {F : Type}

/-! ## `BTreeMap` as a sorted list -/

/-- keys strictly increasing -/
def SortedKeys {α : Type} (l : List (Nat × α)) : Prop := l.Pairwise (fun a b => a.1 < b.1)

theorem mapGet_eq_some {α : Type} {l : List (Nat × α)} (hs : SortedKeys l) {k : Nat} {v : α} :
    mapGet k l = some v ↔ (k, v) ∈ l := by
  induction l with
  | nil => simp [mapGet]
  | cons x l ih =>
    obtain ⟨k', v'⟩ := x
    have hs' := List.pairwise_cons.1 hs
    unfold mapGet
    by_cases e : k' = k
    · subst e
      simp only [if_true, Option.some.injEq, List.mem_cons, Prod.mk.injEq, true_and]
      refine ⟨fun h => .inl h.symm, fun h => h.elim Eq.symm fun h => ?_⟩
      have := hs'.1 _ h; simp at this
    · rw [if_neg e, ih hs'.2]
      simp only [List.mem_cons, Prod.mk.injEq]
      exact ⟨.inr, fun h => h.elim (fun h => absurd h.1.symm e) id⟩

theorem mapGet_eq_none {α : Type} {l : List (Nat × α)} {k : Nat} :
    mapGet k l = none ↔ ∀ v, (k, v) ∉ l := by
  induction l with
  | nil => simp [mapGet]
  | cons x l ih =>
    obtain ⟨k', v'⟩ := x
    unfold mapGet
    by_cases e : k' = k
    · subst e; simp only [if_true, reduceCtorEq, false_iff]
      intro h; exact h v' (by simp)
    · rw [if_neg e, ih]
      simp only [List.mem_cons, Prod.mk.injEq, not_or, not_and]
      exact ⟨fun h v => ⟨fun h' => absurd h'.symm e, h v⟩, fun h v => (h v).2⟩

theorem mapInsert_last {α : Type} {l : List (Nat × α)} {k : Nat} {v : α} (h : ∀ x ∈ l, x.1 < k) :
    mapInsert k v l = l ++ [(k, v)] := by
  induction l with
  | nil => rfl
  | cons x l ih =>
    obtain ⟨k', v'⟩ := x
    have h1 := h (k', v') (by simp)
    simp only at h1
    unfold mapInsert
    rw [if_neg (by omega), if_neg (by omega), ih (fun y hy => h y (by simp [hy]))]
    rfl

theorem mapRemove_eq {α : Type} {l : List (Nat × α)} (hs : SortedKeys l) (k : Nat) :
    mapRemove k l = l.filter (fun x => decide (x.1 ≠ k)) := by
  induction l with
  | nil => rfl
  | cons x l ih =>
    obtain ⟨k', v'⟩ := x
    have hs' := List.pairwise_cons.1 hs
    unfold mapRemove
    by_cases e : k' = k
    · subst e
      rw [if_pos rfl, List.filter_cons]
      simp only [ne_eq, not_true_eq_false, decide_false, Bool.false_eq_true, if_false]
      rw [List.filter_eq_self.2]
      intro a ha; have := hs'.1 a ha; simp only at this; simp; omega
    · rw [if_neg e, List.filter_cons, ih hs'.2]; simp [e]

theorem mapRemove_split {α : Type} {l : List (Nat × α)} {k : Nat} {v : α} (h : mapGet k l = some v) :
    ∃ a b, l = a ++ (k, v) :: b ∧ mapRemove k l = a ++ b ∧ ∀ x ∈ a, x.1 ≠ k := by
  induction l with
  | nil => simp [mapGet] at h
  | cons x l ih =>
    obtain ⟨k', v'⟩ := x
    unfold mapGet at h
    unfold mapRemove
    by_cases e : k' = k
    · rw [if_pos e] at h ⊢
      injection h with h; subst h; subst e
      exact ⟨[], l, rfl, rfl, by simp⟩
    · rw [if_neg e] at h ⊢
      obtain ⟨a, b, e1, e2, e3⟩ := ih h
      refine ⟨(k', v') :: a, b, by rw [e1]; rfl, by rw [e2]; rfl, ?_⟩
      intro x hx; rcases List.mem_cons.1 hx with rfl | hx
      · exact e
      · exact e3 x hx

/-! ## Sketch calls -/

theorem hasPrim_iff (s : Sketch) (x : PrimCell) : s.hasPrim x = true ↔ x ∈ s.cells := by
  unfold Sketch.hasPrim Sketch.cells
  simp only [List.any_eq_true, decide_eq_true_eq, List.mem_map]

theorem refs_missing_iff (s : Sketch) (l : List PrimCell) :
    (l.any (fun r => !s.hasPrim r)) = false ↔ ∀ r ∈ l, r ∈ s.cells := by
  rw [List.any_eq_false]
  simp only [Bool.not_eq_true', Bool.not_eq_false, hasPrim_iff]

/-- `add_primitive`, the three outcomes. -/
theorem addPrimitive_cases (h : Heap F) (s : Sketch) (p : PrimCell) :
    ((∃ r ∈ primFields h p, r ∉ s.cells) ∧ s.addPrimitive h p = (.error .missingSketchReferences, s)) ∨
    ((∀ r ∈ primFields h p, r ∈ s.cells) ∧ p ∈ s.cells ∧ s.addPrimitive h p = (.error .primitiveAlreadyInSketch, s)) ∨
    ((∀ r ∈ primFields h p, r ∈ s.cells) ∧ p ∉ s.cells ∧
      s.addPrimitive h p = (.ok (((s.nextId + 1) % u64Size + (u64Size - 1)) % u64Size),
        { s with prims := mapInsert s.nextId p s.prims, nextId := (s.nextId + 1) % u64Size })) := by
  unfold Sketch.addPrimitive
  rw [primRefs_eq]
  cases hr : (primFields h p).any (fun r => !s.hasPrim r) with
  | true =>
    refine .inl ⟨?_, by simp⟩
    rw [List.any_eq_true] at hr
    obtain ⟨r, h1, h2⟩ := hr
    refine ⟨r, h1, fun h3 => ?_⟩
    rw [← hasPrim_iff] at h3; simp [h3] at h2
  | false =>
    have hr' := (refs_missing_iff s _).1 hr
    right
    cases hp : s.hasPrim p with
    | true => exact .inl ⟨hr', (hasPrim_iff s p).1 hp, by simp⟩
    | false =>
      refine .inr ⟨hr', fun hc => ?_, by simp⟩
      rw [(hasPrim_iff s p).2 hc] at hp; cases hp

theorem addConstraint_cases (h : Heap F) (s : Sketch) (c : Nat) :
    ((∃ r ∈ consFields (h.cons c), r ∉ s.cells) ∧ s.addConstraint h c = (.error .missingSketchReferences, s)) ∨
    ((∀ r ∈ consFields (h.cons c), r ∈ s.cells) ∧ c ∈ s.cons ∧ s.addConstraint h c = (.error .constraintAlreadyInSketch, s)) ∨
    ((∀ r ∈ consFields (h.cons c), r ∈ s.cells) ∧ c ∉ s.cons ∧
      s.addConstraint h c = (.ok (), { s with cons := s.cons ++ [c] })) := by
  unfold Sketch.addConstraint
  have hany : s.cons.any (fun c' => decide (c' = c)) = decide (c ∈ s.cons) := by
    rw [Bool.eq_iff_iff, List.any_eq_true]
    simp
  rw [consRefs_eq]
  cases hr : (consFields (h.cons c)).any (fun r => !s.hasPrim r) with
  | true =>
    refine .inl ⟨?_, by simp⟩
    rw [List.any_eq_true] at hr
    obtain ⟨r, h1, h2⟩ := hr
    refine ⟨r, h1, fun h3 => ?_⟩
    rw [← hasPrim_iff] at h3; simp [h3] at h2
  | false =>
    have hr' := (refs_missing_iff s _).1 hr
    right
    by_cases hp : c ∈ s.cons
    · exact .inl ⟨hr', hp, by simp [hp]⟩
    · exact .inr ⟨hr', hp, by simp [hp]⟩

/-! ## One step -/

/-- allocation only grows -/
structure Grows (h h' : Heap F) : Prop where
  nPoints : h.nPoints ≤ h'.nPoints
  nLines : h.nLines ≤ h'.nLines
  nArcs : h.nArcs ≤ h'.nArcs
  nCircles : h.nCircles ≤ h'.nCircles
  nCons : h.nCons ≤ h'.nCons

theorem Grows.refl (h : Heap F) : Grows h h := ⟨Nat.le_refl _, Nat.le_refl _, Nat.le_refl _, Nat.le_refl _, Nat.le_refl _⟩

theorem SameRefs.grows {h h' : Heap F} (g : SameRefs h h') : Grows h h' :=
  ⟨Nat.le_of_eq g.nPoints.symm, Nat.le_of_eq g.nLines.symm, Nat.le_of_eq g.nArcs.symm, Nat.le_of_eq g.nCircles.symm,
   Nat.le_of_eq g.nCons.symm⟩

theorem Grows.live {h h' : Heap F} (g : Grows h h') {c : PrimCell} (hc : c.live h = true) : c.live h' = true := by
  cases c <;> simp only [PrimCell.live, decide_eq_true_eq] at hc ⊢
  · have := g.nPoints; omega
  · have := g.nLines; omega
  · have := g.nArcs; omega
  · have := g.nCircles; omega

/-- references of allocated objects are the same -/
def KeepRefs (h h' : Heap F) : Prop :=
  (∀ c, c.live h = true → primFields h' c = primFields h c) ∧ ∀ k, k < h.nCons → consFields (h'.cons k) = consFields (h.cons k)

theorem KeepRefs.refl (h : Heap F) : KeepRefs h h := ⟨fun _ _ => rfl, fun _ _ => rfl⟩

theorem SameRefs.keepRefs {h h' : Heap F} (g : SameRefs h h') : KeepRefs h h' := by
  refine ⟨fun c _ => ?_, fun k _ => by rw [g.cons]⟩
  cases c <;> simp [primFields, g.lines, g.arcCenter, g.circleCenter]

/-- is the call an assignment through `borrow_mut()` to an object that holds references? -/
def Op.isRefWrite : Op F → Bool
  | .writeLine .. | .writeArc .. | .writeCircle .. | .writeCons .. => true
  | _ => false

variable [Num F]

/-- how a step may change the sketch -/
inductive StepKind (w : World F) (op : Op F) (out : Out F) (w' : World F) : Prop
  | same (ha : added op out = none) (hd : deleted op out = none) (ho : ∀ n, out ≠ .id n)
      (hp : w'.sketch.prims = w.sketch.prims) (hn : w'.sketch.nextId = w.sketch.nextId)
      (hc : w'.sketch.cons = w.sketch.cons ∨
        (∃ k, k ∉ w.sketch.cons ∧ k < w'.heap.nCons ∧ w'.sketch.cons = w.sketch.cons ++ [k] ∧
          ∀ r ∈ consFields (w'.heap.cons k), r ∈ w.sketch.cells) ∨
        ∃ k, op = .deleteConstraint k ∧ w'.sketch.cons = w.sketch.cons.filter (fun x => decide (x = k)))
  | add (p : PrimCell) (ha : added op out = some p) (hd : deleted op out = none)
      (ho : ∀ n, out = .id n → n = ((w.sketch.nextId + 1) % u64Size + (u64Size - 1)) % u64Size)
      (hl : p.live w'.heap = true) (hf : p ∉ w.sketch.cells)
      (hr : ∀ r ∈ primFields w'.heap p, r ∈ w.sketch.cells)
      (hs : w'.sketch = { w.sketch with prims := mapInsert w.sketch.nextId p w.sketch.prims,
                                        nextId := (w.sketch.nextId + 1) % u64Size })
  | delete (id : Nat) (ha : added op out = none) (hd : deleted op out = some id) (ho : ∀ n, out ≠ .id n)
      (v : PrimCell) (hop : op = .deletePrimitive id) (hg : mapGet id w.sketch.prims = some v)
      (hh : w'.heap = w.heap)
      (hs : w'.sketch = { w.sketch with prims := mapRemove id w.sketch.prims })

theorem allocPoint_grows (h : Heap F) (p : Point2 F) : Grows h (h.allocPoint p).2 := by
  constructor <;> simp [Heap.allocPoint, Heap.setPoint]
theorem allocLine_grows (h : Heap F) (p : Line) : Grows h (h.allocLine p).2 := by
  constructor <;> simp [Heap.allocLine, Heap.setLine]
theorem allocArc_grows (h : Heap F) (p : Arc F) : Grows h (h.allocArc p).2 := by
  constructor <;> simp [Heap.allocArc, Heap.setArc]
theorem allocCircle_grows (h : Heap F) (p : Circle F) : Grows h (h.allocCircle p).2 := by
  constructor <;> simp [Heap.allocCircle, Heap.setCircle]
theorem allocCons_grows (h : Heap F) (p : Constraint F) : Grows h (h.allocCons p).2 := by
  constructor <;> simp [Heap.allocCons, Heap.setCons]

theorem upd_of_lt {α : Type} (f : Nat → α) (v : α) {a n : Nat} (h : a < n) : upd f n v a = f a := by
  unfold upd; rw [if_neg (by omega)]

theorem allocPoint_keepRefs (h : Heap F) (p : Point2 F) : KeepRefs h (h.allocPoint p).2 :=
  ⟨fun c _ => by cases c <;> rfl, fun _ _ => rfl⟩
theorem allocLine_keepRefs (h : Heap F) (p : Line) : KeepRefs h (h.allocLine p).2 := by
  refine ⟨fun c hc => ?_, fun _ _ => rfl⟩
  cases c with
  | line a => simp only [PrimCell.live, decide_eq_true_eq] at hc; simp [primFields, Heap.allocLine, Heap.setLine, upd_of_lt _ _ hc]
  | _ => rfl
theorem allocArc_keepRefs (h : Heap F) (p : Arc F) : KeepRefs h (h.allocArc p).2 := by
  refine ⟨fun c hc => ?_, fun _ _ => rfl⟩
  cases c with
  | arc a => simp only [PrimCell.live, decide_eq_true_eq] at hc; simp [primFields, Heap.allocArc, Heap.setArc, upd_of_lt _ _ hc]
  | _ => rfl
theorem allocCircle_keepRefs (h : Heap F) (p : Circle F) : KeepRefs h (h.allocCircle p).2 := by
  refine ⟨fun c hc => ?_, fun _ _ => rfl⟩
  cases c with
  | circle a => simp only [PrimCell.live, decide_eq_true_eq] at hc; simp [primFields, Heap.allocCircle, Heap.setCircle, upd_of_lt _ _ hc]
  | _ => rfl
theorem allocCons_keepRefs (h : Heap F) (p : Constraint F) : KeepRefs h (h.allocCons p).2 := by
  refine ⟨fun c _ => by cases c <;> rfl, fun k hk => ?_⟩
  simp [Heap.allocCons, Heap.setCons, upd_of_lt _ _ hk]

/-- a helper that allocates a primitive and adds it -/
theorem addNew_kind {w : World F} {op : Op F} {h' : Heap F} {p : PrimCell} {a : Nat}
    (hlive : p.live h' = true) (hadd : added op (.addr a) = some p)
    (hadd' : ∀ e, added op (.err e) = none) (hdel : ∀ o, deleted op o = none) :
    StepKind w op (match w.sketch.addPrimitive h' p with
        | (.error e, s) => (.err e, (⟨h', s⟩ : World F))
        | (.ok _, s) => (.addr a, ⟨h', s⟩) : Out F × World F).1
      (match w.sketch.addPrimitive h' p with
        | (.error e, s) => (.err e, (⟨h', s⟩ : World F))
        | (.ok _, s) => (.addr a, ⟨h', s⟩) : Out F × World F).2 := by
  rcases addPrimitive_cases h' w.sketch p with ⟨_, e⟩ | ⟨_, _, e⟩ | ⟨h1, h2, e⟩ <;> rw [e]
  · exact .same (hadd' _) (hdel _) (by simp) rfl rfl (.inl rfl)
  · exact .same (hadd' _) (hdel _) (by simp) rfl rfl (.inl rfl)
  · exact .add p hadd (hdel _) (by simp) hlive h2 h1 rfl

theorem constrain_kind {w : World F} {op : Op F} (c : Constraint F)
    (hadd : ∀ o, added op o = none) (hdel : ∀ o, deleted op o = none) :
    StepKind w op (constrain w c).1 (constrain w c).2 ∧ Grows w.heap (constrain w c).2.heap ∧
      KeepRefs w.heap (constrain w c).2.heap := by
  unfold constrain
  split
  · rcases addConstraint_cases (w.heap.allocCons c).2 w.sketch (w.heap.allocCons c).1 with ⟨_, e⟩ | ⟨_, _, e⟩ | ⟨h1, h2, e⟩ <;>
      simp only [e]
    · exact ⟨.same (hadd _) (hdel _) (by simp) rfl rfl (.inl rfl), allocCons_grows _ _, allocCons_keepRefs _ _⟩
    · exact ⟨.same (hadd _) (hdel _) (by simp) rfl rfl (.inl rfl), allocCons_grows _ _, allocCons_keepRefs _ _⟩
    · exact ⟨.same (hadd _) (hdel _) (by simp) rfl rfl (.inr (.inl ⟨_, h2, by simp [Heap.allocCons], rfl, h1⟩)),
        allocCons_grows _ _, allocCons_keepRefs _ _⟩
  · exact ⟨.same (hadd _) (hdel _) (by simp) rfl rfl (.inl rfl), Grows.refl _, KeepRefs.refl _⟩

theorem addPoint2_heap (w : World F) (x y : F) : (addPoint2 w x y).2.heap = (w.heap.allocPoint (Point2.new x y)).2 := by
  unfold addPoint2; simp only; split <;> rfl

theorem addLine_heap (w : World F) (s e : Nat) : (addLine w s e).2.heap = (w.heap.allocLine ⟨s, e⟩).2 := by
  unfold addLine; simp only; split <;> rfl

theorem addArc_heap (w : World F) (c : Nat) (r : F) (cw : Bool) (sa ea : F) :
    (addArc w c r cw sa ea).2.heap = (w.heap.allocArc (Arc.new c r cw sa ea)).2 := by
  unfold addArc; simp only; split <;> rfl

/-- Every call: how the sketch changes, that allocation only grows, and that only assignments to objects that hold
references change references. -/
theorem step_kind (pinv : PInv F) (w : World F) (op : Op F) :
    StepKind w op (step pinv w op).1 (step pinv w op).2 ∧ Grows w.heap (step pinv w op).2.heap ∧
      (op.isRefWrite = false → KeepRefs w.heap (step pinv w op).2.heap) := by
  unfold step
  cases hl : op.live w with
  | false =>
    simp only [Bool.not_false, if_true]
    exact ⟨.same (by cases op <;> rfl) (by cases op <;> rfl) (by simp) rfl rfl (.inl rfl), Grows.refl _,
      fun _ => KeepRefs.refl _⟩
  | true =>
    simp only [Bool.not_true, Bool.false_eq_true, if_false]
    cases op with
    | newPoint x y =>
      exact ⟨.same rfl rfl (by simp) rfl rfl (.inl rfl), allocPoint_grows _ _, fun _ => allocPoint_keepRefs _ _⟩
    | newLine s e =>
      exact ⟨.same rfl rfl (by simp) rfl rfl (.inl rfl), allocLine_grows _ _, fun _ => allocLine_keepRefs _ _⟩
    | newArc c r cw sa ea =>
      exact ⟨.same rfl rfl (by simp) rfl rfl (.inl rfl), allocArc_grows _ _, fun _ => allocArc_keepRefs _ _⟩
    | newCircle c r =>
      exact ⟨.same rfl rfl (by simp) rfl rfl (.inl rfl), allocCircle_grows _ _, fun _ => allocCircle_keepRefs _ _⟩
    | newCons c =>
      simp only
      split
      · exact ⟨.same rfl rfl (by simp) rfl rfl (.inl rfl), allocCons_grows _ _, fun _ => allocCons_keepRefs _ _⟩
      · exact ⟨.same rfl rfl (by simp) rfl rfl (.inl rfl), Grows.refl _, fun _ => KeepRefs.refl _⟩
    | writePoint a p =>
      refine ⟨.same rfl rfl (by simp) rfl rfl (.inl rfl), ⟨?_, ?_, ?_, ?_, ?_⟩, fun _ => ⟨fun c _ => ?_, fun _ _ => rfl⟩⟩
      any_goals exact Nat.le_refl _
      cases c <;> rfl
    | writeLine a p =>
      refine ⟨.same rfl rfl (by simp) rfl rfl (.inl rfl), ⟨?_, ?_, ?_, ?_, ?_⟩, fun h => by cases h⟩
      all_goals exact Nat.le_refl _
    | writeArc a p =>
      refine ⟨.same rfl rfl (by simp) rfl rfl (.inl rfl), ⟨?_, ?_, ?_, ?_, ?_⟩, fun h => by cases h⟩
      all_goals exact Nat.le_refl _
    | writeCircle a p =>
      refine ⟨.same rfl rfl (by simp) rfl rfl (.inl rfl), ⟨?_, ?_, ?_, ?_, ?_⟩, fun h => by cases h⟩
      all_goals exact Nat.le_refl _
    | writeCons a p =>
      refine ⟨.same rfl rfl (by simp) rfl rfl (.inl rfl), ⟨?_, ?_, ?_, ?_, ?_⟩, fun h => by cases h⟩
      all_goals exact Nat.le_refl _
    | addPrimitive p =>
      simp only
      rcases addPrimitive_cases w.heap w.sketch p with ⟨_, e⟩ | ⟨_, _, e⟩ | ⟨h1, h2, e⟩ <;> simp only [e]
      · exact ⟨.same rfl rfl (by simp) rfl rfl (.inl rfl), Grows.refl _, fun _ => KeepRefs.refl _⟩
      · exact ⟨.same rfl rfl (by simp) rfl rfl (.inl rfl), Grows.refl _, fun _ => KeepRefs.refl _⟩
      · refine ⟨.add p rfl rfl ?_ hl h2 h1 rfl, Grows.refl _, fun _ => KeepRefs.refl _⟩
        intro n hn; exact (Out.id.inj hn).symm
    | addPoint2 x y =>
      refine ⟨addNew_kind (p := .point (w.heap.allocPoint _).1) (h' := (w.heap.allocPoint _).2) (by simp [PrimCell.live, Heap.allocPoint]) rfl (fun _ => rfl) (fun _ => rfl), ?_, fun _ => ?_⟩
      · simp only [addPoint2_heap]; exact allocPoint_grows _ _
      · simp only [addPoint2_heap]; exact allocPoint_keepRefs _ _
    | addLine s e =>
      refine ⟨addNew_kind (p := .line (w.heap.allocLine _).1) (h' := (w.heap.allocLine _).2) (by simp [PrimCell.live, Heap.allocLine]) rfl (fun _ => rfl) (fun _ => rfl), ?_, fun _ => ?_⟩
      · simp only [addLine_heap]; exact allocLine_grows _ _
      · simp only [addLine_heap]; exact allocLine_keepRefs _ _
    | addArc c r cw sa ea =>
      refine ⟨addNew_kind (p := .arc (w.heap.allocArc _).1) (h' := (w.heap.allocArc _).2) (by simp [PrimCell.live, Heap.allocArc]) rfl (fun _ => rfl) (fun _ => rfl), ?_, fun _ => ?_⟩
      · simp only [addArc_heap]; exact allocArc_grows _ _
      · simp only [addArc_heap]; exact allocArc_keepRefs _ _
    | addConstraint c =>
      simp only
      rcases addConstraint_cases w.heap w.sketch c with ⟨_, e⟩ | ⟨_, _, e⟩ | ⟨h1, h2, e⟩ <;> simp only [e]
      · exact ⟨.same rfl rfl (by simp) rfl rfl (.inl rfl), Grows.refl _, fun _ => KeepRefs.refl _⟩
      · exact ⟨.same rfl rfl (by simp) rfl rfl (.inl rfl), Grows.refl _, fun _ => KeepRefs.refl _⟩
      · refine ⟨.same rfl rfl (by simp) rfl rfl (.inr (.inl ⟨c, h2, ?_, rfl, h1⟩)), Grows.refl _, fun _ => KeepRefs.refl _⟩
        simpa [Op.live] using hl
    | constrainPerpendicularLines l1 l2 =>
      have := constrain_kind (w := w) (op := .constrainPerpendicularLines l1 l2) (.perp l1 l2) (fun _ => rfl) (fun _ => rfl)
      exact ⟨this.1, this.2.1, fun _ => this.2.2⟩
    | constrainParallelLines l1 l2 =>
      have := constrain_kind (w := w) (op := .constrainParallelLines l1 l2) (.parallel l1 l2) (fun _ => rfl) (fun _ => rfl)
      exact ⟨this.1, this.2.1, fun _ => this.2.2⟩
    | constrainDistanceEuclidean p1 p2 d =>
      have := constrain_kind (w := w) (op := .constrainDistanceEuclidean p1 p2 d) (.euclid p1 p2 d) (fun _ => rfl) (fun _ => rfl)
      exact ⟨this.1, this.2.1, fun _ => this.2.2⟩
    | constrainFixPoint p pos =>
      have := constrain_kind (w := w) (op := .constrainFixPoint p pos) (.fix p pos) (fun _ => rfl) (fun _ => rfl)
      exact ⟨this.1, this.2.1, fun _ => this.2.2⟩
    | constrainAngleBetweenPoints p1 p2 m a =>
      have := constrain_kind (w := w) (op := .constrainAngleBetweenPoints p1 p2 m a) (.angle p1 p2 m a) (fun _ => rfl) (fun _ => rfl)
      exact ⟨this.1, this.2.1, fun _ => this.2.2⟩
    | deletePrimitive id =>
      simp only [Sketch.deletePrimitive]
      cases hg : mapGet id w.sketch.prims with
      | none => exact ⟨.same rfl rfl (by simp) rfl rfl (.inl rfl), Grows.refl _, fun _ => KeepRefs.refl _⟩
      | some v => exact ⟨.delete id rfl rfl (by simp) v rfl hg rfl rfl, Grows.refl _, fun _ => KeepRefs.refl _⟩
    | deleteConstraint c =>
      simp only [Sketch.deleteConstraint]
      split <;> rename_i e <;> split at e <;> cases e
      · exact ⟨.same rfl rfl (by simp) rfl rfl (.inr (.inr ⟨c, rfl, rfl⟩)), Grows.refl _, fun _ => KeepRefs.refl _⟩
      · exact ⟨.same rfl rfl (by simp) rfl rfl (.inr (.inr ⟨c, rfl, rfl⟩)), Grows.refl _, fun _ => KeepRefs.refl _⟩
    | setData d =>
      have := setData_dataOnly w.heap w.sketch d
      simp only
      revert this
      cases setData w.heap w.sketch d with
      | ok h => intro this; exact ⟨.same rfl rfl (by simp) rfl rfl (.inl rfl), this.1.grows, fun _ => this.1.keepRefs⟩
      | error h => intro this; exact ⟨.same rfl rfl (by simp) rfl rfl (.inl rfl), this.1.grows, fun _ => this.1.keepRefs⟩
    | getGradient =>
      have := getGradient_gradOnly w.heap w.sketch
      simp only
      revert this
      cases getGradient w.heap w.sketch with
      | ok h => intro this; exact ⟨.same rfl rfl (by simp) rfl rfl (.inl rfl), this.1.grows, fun _ => this.1.keepRefs⟩
      | error h => intro this; exact ⟨.same rfl rfl (by simp) rfl rfl (.inl rfl), this.1.grows, fun _ => this.1.keepRefs⟩
    | getJacobian =>
      have := getJacobian_gradOnly w.heap w.sketch
      simp only
      revert this
      cases getJacobian w.heap w.sketch with
      | ok h => intro this; exact ⟨.same rfl rfl (by simp) rfl rfl (.inl rfl), this.1.grows, fun _ => this.1.keepRefs⟩
      | error h => intro this; exact ⟨.same rfl rfl (by simp) rfl rfl (.inl rfl), this.1.grows, fun _ => this.1.keepRefs⟩
    | checkGradients eps c ce =>
      have := checkGradients_moves w.heap w.sketch eps c ce
      simp only
      revert this
      cases checkGradients w.heap w.sketch eps c ce with
      | ok h => intro this; exact ⟨.same rfl rfl (by simp) rfl rfl (.inl rfl), this.1.grows, fun _ => this.1.keepRefs⟩
      | error h => intro this; exact ⟨.same rfl rfl (by simp) rfl rfl (.inl rfl), this.1.grows, fun _ => this.1.keepRefs⟩
    | solve k =>
      have := runSolver_moves pinv k w.heap w.sketch
      exact ⟨.same rfl rfl (by simp) rfl rfl (.inl rfl), this.1.grows, fun _ => this.1.keepRefs⟩

/-! ## The invariant of histories -/

/-- what the log of a history says about the sketch -/
structure Inv (log : List (Op F × Out F)) (w : World F) : Prop where
  sorted : SortedKeys w.sketch.prims
  mem : ∀ i p, (i, p) ∈ w.sketch.prims ↔ (addedList log)[i]? = some p ∧ i ∉ deletedList log
  next : w.sketch.nextId = (addedList log).length
  delNodup : (deletedList log).Nodup
  delLt : ∀ i ∈ deletedList log, i < (addedList log).length
  count : w.sketch.prims.length + (deletedList log).length = (addedList log).length
  cellsNodup : w.sketch.cells.Nodup
  consNodup : w.sketch.cons.Nodup
  cellsLive : ∀ c ∈ w.sketch.cells, c.live w.heap = true
  consLive : ∀ k ∈ w.sketch.cons, k < w.heap.nCons

theorem Inv.init : Inv ([] : List (Op F × Out F)) (World.init : World F) := by
  constructor <;> simp [World.init, Sketch.new, SortedKeys, addedList, deletedList, Sketch.cells]

theorem addedList_snoc (log : List (Op F × Out F)) (op : Op F) (o : Out F) :
    addedList (log ++ [(op, o)]) = addedList log ++ (added op o).toList := by
  simp only [addedList, List.filterMap_append, List.filterMap_cons, List.filterMap_nil]
  cases added op o <;> rfl

theorem deletedList_snoc (log : List (Op F × Out F)) (op : Op F) (o : Out F) :
    deletedList (log ++ [(op, o)]) = deletedList log ++ (deleted op o).toList := by
  simp only [deletedList, List.filterMap_append, List.filterMap_cons, List.filterMap_nil]
  cases deleted op o <;> rfl

theorem addedList_length_le (log : List (Op F × Out F)) : (addedList log).length ≤ log.length := List.length_filterMap_le _ _

theorem SortedKeys.append {α : Type} {l : List (Nat × α)} (hs : SortedKeys l) {k : Nat} {v : α} (h : ∀ x ∈ l, x.1 < k) :
    SortedKeys (l ++ [(k, v)]) := by
  unfold SortedKeys at *
  rw [List.pairwise_append]
  exact ⟨hs, List.pairwise_singleton _ _, fun a ha b hb => by rw [List.mem_singleton] at hb; subst hb; exact h a ha⟩

theorem id_of_next {n : Nat} (h : n + 1 < u64Size) : ((n + 1) % u64Size + (u64Size - 1)) % u64Size = n := by
  unfold u64Size at *; omega

theorem Inv.key_lt {log : List (Op F × Out F)} {w : World F} (I : Inv log w) {x : Nat × PrimCell}
    (hx : x ∈ w.sketch.prims) : x.1 < w.sketch.nextId := by
  have := (I.mem x.1 x.2).1 hx
  rw [I.next]
  exact (List.getElem?_eq_some_iff.1 this.1).1

theorem Inv.step {log : List (Op F × Out F)} {w : World F} (I : Inv log w) (pinv : PInv F) (op : Op F)
    (hlen : log.length + 1 < u64Size) :
    Inv (log ++ [(op, (step pinv w op).1)]) (step pinv w op).2 ∧
      ∀ n, (step pinv w op).1 = .id n → n = (addedList log).length := by
  have hal := addedList_length_le log
  obtain ⟨K, G, -⟩ := step_kind pinv w op
  generalize (Isotope.step pinv w op).1 = out at *
  generalize (Isotope.step pinv w op).2 = w' at *
  cases K with
  | same ha hd ho hp hn hc =>
    have hcells : w'.sketch.cells = w.sketch.cells := by unfold Sketch.cells; rw [hp]
    refine ⟨?_, fun n h => absurd h (ho n)⟩
    constructor
    · rw [hp]; exact I.sorted
    · intro i p; rw [hp, addedList_snoc, deletedList_snoc, ha, hd]; simpa using I.mem i p
    · rw [hn, addedList_snoc, ha]; simpa using I.next
    · rw [deletedList_snoc, hd]; simpa using I.delNodup
    · rw [deletedList_snoc, hd, addedList_snoc, ha]; simpa using I.delLt
    · rw [hp, deletedList_snoc, hd, addedList_snoc, ha]; simpa using I.count
    · rw [hcells]; exact I.cellsNodup
    · rcases hc with h | ⟨k, h1, _, h3, _⟩ | ⟨k, _, h⟩
      · rw [h]; exact I.consNodup
      · rw [h3, List.nodup_append]
        refine ⟨I.consNodup, by simp, fun a ha b hb => ?_⟩
        rw [List.mem_singleton] at hb; subst hb; exact fun e => h1 (e ▸ ha)
      · rw [h]; exact I.consNodup.sublist List.filter_sublist
    · rw [hcells]; exact fun c hc => G.live (I.cellsLive c hc)
    · rcases hc with h | ⟨k, h1, h2, h3, _⟩ | ⟨k, _, h⟩
      · rw [h]; exact fun k hk => Nat.lt_of_lt_of_le (I.consLive k hk) G.nCons
      · rw [h3]; intro j hj
        rcases List.mem_append.1 hj with hj | hj
        · exact Nat.lt_of_lt_of_le (I.consLive j hj) G.nCons
        · rw [List.mem_singleton] at hj; rw [hj]; exact h2
      · rw [h]; exact fun k hk => Nat.lt_of_lt_of_le (I.consLive k (List.mem_filter.1 hk).1) G.nCons
  | add p ha hd ho hl hf hr hs =>
    have hins : mapInsert w.sketch.nextId p w.sketch.prims = w.sketch.prims ++ [(w.sketch.nextId, p)] :=
      mapInsert_last fun x hx => I.key_lt hx
    have hnx : (w.sketch.nextId + 1) % u64Size = w.sketch.nextId + 1 := by
      rw [I.next]; exact Nat.mod_eq_of_lt (by omega)
    have hcells : w'.sketch.cells = w.sketch.cells ++ [p] := by
      unfold Sketch.cells; rw [hs]; simp only [hins, List.map_append, List.map_cons, List.map_nil]
    refine ⟨?_, fun n h => ?_⟩
    · constructor
      · rw [hs]; simp only [hins]; exact I.sorted.append fun x hx => I.key_lt hx
      · intro i q
        rw [hs, addedList_snoc, deletedList_snoc, ha, hd]
        simp only [hins, List.mem_append, List.mem_singleton, Prod.mk.injEq, I.mem, Option.toList_some, Option.toList_none,
          List.append_nil, List.getElem?_append]
        constructor
        · rintro (⟨h1, h2⟩ | ⟨rfl, rfl⟩)
          · rw [if_pos (List.getElem?_eq_some_iff.1 h1).1]; exact ⟨h1, h2⟩
          · rw [I.next, if_neg (by omega)]
            refine ⟨by simp, fun hd => ?_⟩
            have := I.delLt _ hd; omega
        · rintro ⟨h1, h2⟩
          split at h1
          · exact .inl ⟨h1, h2⟩
          · right
            rw [I.next]
            obtain ⟨h3, h4⟩ := List.getElem?_eq_some_iff.1 h1
            simp only [List.length_singleton] at h3
            refine ⟨by omega, ?_⟩
            rw [← h4]; simp
      · rw [hs, addedList_snoc, ha]; simp only [hnx]; simp [I.next]
      · rw [deletedList_snoc, hd]; simpa using I.delNodup
      · rw [deletedList_snoc, hd, addedList_snoc, ha]
        intro i hi; have := I.delLt i (by simpa using hi); simp; omega
      · rw [hs, deletedList_snoc, hd, addedList_snoc, ha]
        have := I.count
        simp only [hins, List.length_append, Option.toList_none, List.append_nil, Option.toList_some, List.length_singleton]
        omega
      · rw [hcells, List.nodup_append]
        refine ⟨I.cellsNodup, by simp, fun a ha' b hb => ?_⟩
        rw [List.mem_singleton] at hb; subst hb; exact fun e => hf (e ▸ ha')
      · rw [hs]; exact I.consNodup
      · rw [hcells]; intro c hc
        rcases List.mem_append.1 hc with hc | hc
        · exact G.live (I.cellsLive c hc)
        · rw [List.mem_singleton] at hc; rw [hc]; exact hl
      · rw [hs]; exact fun k hk => Nat.lt_of_lt_of_le (I.consLive k hk) G.nCons
    · rw [ho n h, I.next, id_of_next (by omega)]
  | delete id ha hd ho v hop hg hh hs =>
    have hrem : mapRemove id w.sketch.prims = w.sketch.prims.filter (fun x => decide (x.1 ≠ id)) := mapRemove_eq I.sorted id
    have hin : (id, v) ∈ w.sketch.prims := (mapGet_eq_some I.sorted).1 hg
    have hlog := (I.mem id v).1 hin
    have hsub : w'.sketch.cells.Sublist w.sketch.cells := by
      unfold Sketch.cells; rw [hs]; simp only [hrem]; exact List.Sublist.map _ List.filter_sublist
    refine ⟨?_, fun n h => absurd h (ho n)⟩
    constructor
    · rw [hs]; simp only [hrem]; exact I.sorted.sublist List.filter_sublist
    · intro i q
      rw [hs, addedList_snoc, deletedList_snoc, ha, hd]
      simp only [hrem, List.mem_filter, I.mem, Option.toList_none, List.append_nil, Option.toList_some, List.mem_append,
        List.mem_singleton, decide_eq_true_eq]
      exact ⟨fun h => ⟨h.1.1, fun h' => h'.elim h.1.2 h.2⟩, fun h => ⟨⟨h.1, fun h' => h.2 (.inl h')⟩, fun h' => h.2 (.inr h')⟩⟩
    · rw [hs, addedList_snoc, ha]; simpa using I.next
    · rw [deletedList_snoc, hd, Option.toList_some, List.nodup_append]
      refine ⟨I.delNodup, by simp, fun a ha b hb => ?_⟩
      rw [List.mem_singleton] at hb; subst hb; exact fun e => hlog.2 (e ▸ ha)
    · rw [deletedList_snoc, hd, addedList_snoc, ha]
      intro i hi
      simp only [Option.toList_some, List.mem_append, List.mem_singleton] at hi
      rcases hi with hi | hi
      · simpa using I.delLt i hi
      · subst hi; simpa using (List.getElem?_eq_some_iff.1 hlog.1).1
    · rw [hs, deletedList_snoc, hd, addedList_snoc, ha]
      obtain ⟨a, b, e1, e2, _⟩ := mapRemove_split hg
      have := I.count
      rw [e1] at this
      simp only [e2, List.length_append, List.length_cons, Option.toList_none, List.append_nil, Option.toList_some] at this ⊢
      simp; omega
    · exact I.cellsNodup.sublist hsub
    · rw [hs]; exact I.consNodup
    · rw [hh]; exact fun c hc => I.cellsLive c (hsub.subset hc)
    · rw [hs, hh]; exact I.consLive

theorem run_length (pinv : PInv F) (w : World F) (ops : List (Op F)) : (run pinv w ops).1.length = ops.length := by
  induction ops generalizing w with
  | nil => rfl
  | cons op ops ih => simp [run, ih]

theorem run_append (pinv : PInv F) (w : World F) (a b : List (Op F)) :
    run pinv w (a ++ b) = ((run pinv w a).1 ++ (run pinv (run pinv w a).2 b).1, (run pinv (run pinv w a).2 b).2) := by
  induction a generalizing w with
  | nil => rfl
  | cons op a ih => simp [run, ih]

theorem logOf_snoc (pinv : PInv F) (ops : List (Op F)) (op : Op F) :
    logOf pinv (ops ++ [op]) = logOf pinv ops ++ [(op, (step pinv (run pinv World.init ops).2 op).1)] := by
  unfold logOf
  rw [run_append, List.zip_append (run_length _ _ _).symm]
  rfl

theorem logOf_length (pinv : PInv F) (ops : List (Op F)) : (logOf pinv ops).length = ops.length := by
  simp [logOf, run_length]

theorem Inv.run (pinv : PInv F) (ops : List (Op F)) (hlen : ops.length < u64Size) :
    Inv (logOf pinv ops) (run pinv World.init ops).2 := by
  generalize hn : ops.length = n
  induction n generalizing ops with
  | zero => rw [List.length_eq_zero_iff] at hn; subst hn; exact Inv.init
  | succ n ih =>
    obtain ⟨a, op, rfl⟩ : ∃ a op, ops = a ++ [op] := by
      refine ⟨ops.dropLast, ops.getLast (by intro h; simp [h] at hn), (List.dropLast_concat_getLast _).symm⟩
    simp only [List.length_append, List.length_singleton] at hn hlen
    have I := ih a (by omega) (by omega)
    have := (I.step pinv op (by rw [logOf_length]; omega)).1
    rw [logOf_snoc, run_append]
    exact this

theorem run_take_fst (pinv : PInv F) (w : World F) (ops : List (Op F)) (t : Nat) :
    (Isotope.run pinv w (ops.take t)).1 = (Isotope.run pinv w ops).1.take t := by
  induction t generalizing w ops with
  | zero => simp [Isotope.run]
  | succ t ih =>
    cases ops with
    | nil => simp [Isotope.run]
    | cons op ops => simp [Isotope.run, ih]

theorem logOf_take (pinv : PInv F) (ops : List (Op F)) (t : Nat) :
    logOf pinv (ops.take t) = (logOf pinv ops).take t := by
  unfold logOf
  rw [run_take_fst]
  unfold List.zip
  rw [List.take_zipWith]

theorem Inv.at (pinv : PInv F) (ops : List (Op F)) (hlen : ops.length < u64Size) (t : Nat) :
    Inv ((logOf pinv ops).take t) (stateAt pinv ops t) := by
  rw [← logOf_take]
  exact Inv.run pinv _ (Nat.lt_of_le_of_lt (by rw [List.length_take]; exact Nat.min_le_right _ _) hlen)

theorem ran_iff_log (pinv : PInv F) (ops : List (Op F)) (t : Nat) (op : Op F) (out : Out F) :
    Ran pinv ops t op out ↔ (logOf pinv ops)[t]? = some (op, out) := by
  unfold Ran logOf
  rw [List.getElem?_zip_eq_some]

theorem stateAt_succ (pinv : PInv F) (ops : List (Op F)) (t : Nat) (op : Op F) (h : ops[t]? = some op) :
    stateAt pinv ops (t + 1) = (step pinv (stateAt pinv ops t) op).2 := by
  unfold stateAt
  rw [List.take_add_one, h]
  simp only [Option.toList_some, run_append]
  rfl

theorem ran_step (pinv : PInv F) (ops : List (Op F)) (t : Nat) (op : Op F) (out : Out F) (h : Ran pinv ops t op out) :
    step pinv (stateAt pinv ops t) op = (out, stateAt pinv ops (t + 1)) := by
  have h2 := stateAt_succ pinv ops t op h.1
  have hl := (ran_iff_log pinv ops t op out).1 h
  have e := logOf_take pinv ops (t + 1)
  have e2 : ops.take (t + 1) = ops.take t ++ [op] := by rw [List.take_add_one, h.1]; rfl
  have e3 : (logOf pinv ops).take (t + 1) = (logOf pinv ops).take t ++ [(op, out)] := by rw [List.take_add_one, hl]; rfl
  rw [e2, e3, logOf_snoc, logOf_take] at e
  have := List.append_cancel_left e
  simp only [List.cons.injEq, Prod.mk.injEq, true_and, and_true] at this
  rw [h2]
  exact Prod.ext this rfl

/-- the id returned by `add_primitive` is the number of primitives added before -/
theorem ran_id (pinv : PInv F) (ops : List (Op F)) (hlen : ops.length < u64Size) (t : Nat) (op : Op F) (n : Nat)
    (h : Ran pinv ops t op (.id n)) : n = (addedList ((logOf pinv ops).take t)).length := by
  have I := Inv.at pinv ops hlen t
  have ht : t < ops.length := (List.getElem?_eq_some_iff.1 h.1).1
  have := (I.step pinv op (by rw [List.length_take, logOf_length]; omega)).2 n
  rw [ran_step pinv ops t op _ h] at this
  exact this rfl

theorem addedList_take_succ (pinv : PInv F) (ops : List (Op F)) (t : Nat) (op : Op F) (out : Out F)
    (h : Ran pinv ops t op out) :
    addedList ((logOf pinv ops).take (t + 1)) = addedList ((logOf pinv ops).take t) ++ (added op out).toList := by
  rw [List.take_add_one, (ran_iff_log pinv ops t op out).1 h]
  exact addedList_snoc _ _ _

theorem addedList_prefix (log : List (Op F × Out F)) {i j : Nat} (h : i ≤ j) :
    ∃ l, addedList (log.take j) = addedList (log.take i) ++ l := by
  refine ⟨addedList ((log.take j).drop i), ?_⟩
  unfold addedList
  rw [← List.filterMap_append]
  congr 1
  have := List.take_append_drop i (log.take j)
  rw [List.take_take, Nat.min_eq_left h] at this
  exact this.symm

/-- evaluate a concrete history -/
macro "eval_run" : tactic => `(tactic| simp [Ran, stateAt, run, step, Op.live, PrimCell.live, World.init, Heap.empty,
  Heap.allocPoint, Heap.allocLine, Heap.allocArc, Heap.allocCircle, Heap.allocCons, Heap.setPoint, Heap.setLine, Heap.setArc,
  Heap.setCircle, Heap.setCons, upd, addPoint2, addLine, addArc, constrain, consNewOk, Sketch.addPrimitive,
  Sketch.addConstraint, primFields, consFields, Sketch.new, Sketch.hasPrim, Sketch.cells, mapInsert, Sketch.deletePrimitive,
  Sketch.getPrimitiveById, Sketch.getPrimitiveId, mapGet, mapRemove, u64Size, Point2.new, Arc.new,
  Circle.new, Vec2.zeros, Row3.zeros])

end Isotope
