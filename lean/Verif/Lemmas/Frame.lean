import Verif.Spec

/-! # Frame lemmas: which part of the heap each function can change (any arithmetic) -/

set_option linter.unusedSectionVars false

namespace Isotope
variable {F : Type}

@[simp] theorem upd_same {α : Type} (f : Nat → α) (a : Nat) (v : α) : upd f a v a = v := by simp [upd]
theorem upd_other {α : Type} (f : Nat → α) {a b : Nat} (v : α) (h : b ≠ a) : upd f a v b = f b := by simp [upd, h]
theorem upd_apply {α : Type} (f : Nat → α) (a b : Nat) (v : α) : upd f a v b = if b = a then v else f b := rfl
@[simp] theorem upd_self {α : Type} (f : Nat → α) (a : Nat) : upd f a (f a) = f := by
  funext b; simp only [upd]; split <;> simp_all

theorem SameRefs.refl (h : Heap F) : SameRefs h h := ⟨rfl, rfl, fun _ => rfl, fun _ => rfl, fun _ => rfl, rfl, rfl, rfl, rfl, rfl⟩
theorem SameRefs.trans {h1 h2 h3 : Heap F} (a : SameRefs h1 h2) (b : SameRefs h2 h3) : SameRefs h1 h3 :=
  ⟨b.lines.trans a.lines, b.cons.trans a.cons, fun x => (b.arcCenter x).trans (a.arcCenter x),
   fun x => (b.arcClockwise x).trans (a.arcClockwise x), fun x => (b.circleCenter x).trans (a.circleCenter x),
   b.nPoints.trans a.nPoints, b.nLines.trans a.nLines, b.nArcs.trans a.nArcs, b.nCircles.trans a.nCircles,
   b.nCons.trans a.nCons⟩
theorem SameRefs.symm {h1 h2 : Heap F} (a : SameRefs h1 h2) : SameRefs h2 h1 :=
  ⟨a.lines.symm, a.cons.symm, fun x => (a.arcCenter x).symm, fun x => (a.arcClockwise x).symm,
   fun x => (a.circleCenter x).symm, a.nPoints.symm, a.nLines.symm, a.nArcs.symm, a.nCircles.symm, a.nCons.symm⟩

theorem GradOnly.refl (h : Heap F) : GradOnly h h := ⟨.refl h, fun _ => rfl⟩
theorem GradOnly.trans {h1 h2 h3 : Heap F} (a : GradOnly h1 h2) (b : GradOnly h2 h3) : GradOnly h1 h3 :=
  ⟨a.1.trans b.1, fun c => (b.2 c).trans (a.2 c)⟩
theorem GradOnly.symm {h1 h2 : Heap F} (a : GradOnly h1 h2) : GradOnly h2 h1 := ⟨a.1.symm, fun c => (a.2 c).symm⟩
theorem DataOnly.refl (s : Sketch) (h : Heap F) : DataOnly s h h := ⟨.refl h, fun _ => rfl, fun _ _ => rfl⟩
theorem DataOnly.trans {s : Sketch} {h1 h2 h3 : Heap F} (a : DataOnly s h1 h2) (b : DataOnly s h2 h3) :
    DataOnly s h1 h3 :=
  ⟨a.1.trans b.1, fun c => (b.2.1 c).trans (a.2.1 c), fun c hc => (b.2.2 c hc).trans (a.2.2 c hc)⟩
theorem MovesOnly.refl (s : Sketch) (h : Heap F) : MovesOnly s h h := ⟨.refl h, fun _ _ => rfl⟩
theorem MovesOnly.trans {s : Sketch} {h1 h2 h3 : Heap F} (a : MovesOnly s h1 h2) (b : MovesOnly s h2 h3) :
    MovesOnly s h1 h3 := ⟨a.1.trans b.1, fun c hc => (b.2 c hc).trans (a.2 c hc)⟩
theorem GradOnly.moves {s : Sketch} {h h' : Heap F} (a : GradOnly h h') : MovesOnly s h h' := ⟨a.1, fun c _ => a.2 c⟩
theorem DataOnly.moves {s : Sketch} {h h' : Heap F} (a : DataOnly s h h') : MovesOnly s h h' := ⟨a.1, a.2.2⟩

/-- observational extensionality of heaps -/
theorem heap_ext {h h' : Heap F} (r : SameRefs h h') (d : ∀ c, primData h' c = primData h c)
    (g : ∀ c, primGrad h' c = primGrad h c) : h' = h := by
  have e1 : h'.points = h.points := by
    funext a
    have a1 := d (.point a); have a2 := g (.point a)
    simp only [primData, primGrad, List.cons.injEq, and_true] at a1 a2
    rcases hp : h'.points a with ⟨⟨x, y⟩, ⟨gx, gy⟩⟩
    rcases hq : h.points a with ⟨⟨x', y'⟩, ⟨gx', gy'⟩⟩
    simp_all
  have e2 : h'.arcs = h.arcs := by
    funext a
    have a1 := d (.arc a); have a2 := g (.arc a); have a3 := r.arcCenter a; have a4 := r.arcClockwise a
    simp only [primData, primGrad, List.cons.injEq, and_true] at a1 a2
    rcases hp : h'.arcs a with ⟨c, ⟨x, y, z⟩, ⟨gx, gy, gz⟩, cw⟩
    rcases hq : h.arcs a with ⟨c', ⟨x', y', z'⟩, ⟨gx', gy', gz'⟩, cw'⟩
    simp_all
  have e3 : h'.circles = h.circles := by
    funext a
    have a1 := d (.circle a); have a2 := g (.circle a); have a3 := r.circleCenter a
    simp only [primData, primGrad, List.cons.injEq, and_true] at a1 a2
    rcases hp : h'.circles a with ⟨c, x, gx⟩
    rcases hq : h.circles a with ⟨c', x', gx'⟩
    simp_all
  obtain ⟨p, l, a, c, k, n1, n2, n3, n4, n5⟩ := h
  obtain ⟨p', l', a', c', k', n1', n2', n3', n4', n5'⟩ := h'
  obtain ⟨r1, r2, r3, r4, r5, r6, r7, r8, r9, r10⟩ := r
  simp_all

/-! ## Postconditions that hold on return and on panic -/

/-- `P` holds of the heap in which the call ends -/
def Post (r : Except (Heap F) (Heap F)) (P : Heap F → Prop) : Prop := P (endHeap' r)

@[simp] theorem post_ok (h : Heap F) (P : Heap F → Prop) : Post (.ok h) P ↔ P h := Iff.rfl
@[simp] theorem post_error (h : Heap F) (P : Heap F → Prop) : Post (.error h) P ↔ P h := Iff.rfl

theorem post_bind {r : Except (Heap F) (Heap F)} {f : Heap F → Except (Heap F) (Heap F)} {P : Heap F → Prop}
    (h1 : Post r P) (h2 : ∀ h, P h → Post (f h) P) : Post (r >>= f) P := by
  cases r with
  | error e => exact h1
  | ok h => exact h2 h h1

section
variable [Num F]

theorem setPointGrad_gradOnly (h : Heap F) (a : Nat) (g : Vec2 F) :
    GradOnly h (h.setPoint a { h.points a with grad := g }) := by
  refine ⟨⟨rfl, rfl, fun _ => rfl, fun _ => rfl, fun _ => rfl, rfl, rfl, rfl, rfl, rfl⟩, ?_⟩
  intro c; cases c <;> simp [primData, Heap.setPoint, upd_apply]
  split <;> simp_all

theorem setArcGrad_gradOnly (h : Heap F) (a : Nat) (g : Row3 F) :
    GradOnly h (h.setArc a { h.arcs a with grad := g }) := by
  refine ⟨⟨rfl, rfl, ?_, ?_, fun _ => rfl, rfl, rfl, rfl, rfl, rfl⟩, ?_⟩
  · intro b; simp only [Heap.setArc, upd_apply]; split <;> simp_all
  · intro b; simp only [Heap.setArc, upd_apply]; split <;> simp_all
  · intro c; cases c <;> simp [primData, Heap.setArc, upd_apply]
    split <;> simp_all

theorem setCircleGrad_gradOnly (h : Heap F) (a : Nat) (g : F) :
    GradOnly h (h.setCircle a { h.circles a with grad := g }) := by
  refine ⟨⟨rfl, rfl, fun _ => rfl, fun _ => rfl, ?_, rfl, rfl, rfl, rfl, rfl⟩, ?_⟩
  · intro b; simp only [Heap.setCircle, upd_apply]; split <;> simp_all
  · intro c; cases c <;> simp [primData, Heap.setCircle, upd_apply]
    split <;> simp_all

theorem pointAddGrad_gradOnly (h0 h : Heap F) (a : Nat) (g : Vec2 F) (hh : GradOnly h0 h) :
    Post (pointAddGrad h a g) (GradOnly h0) := by
  unfold pointAddGrad
  split
  · exact hh.trans (setPointGrad_gradOnly _ _ _)
  · exact hh

theorem lineAddGrad_gradOnly (h0 h : Heap F) (a : Nat) (g : Row4 F) (hh : GradOnly h0 h) :
    Post (lineAddGrad h a g) (GradOnly h0) := by
  unfold lineAddGrad
  split
  · exact post_bind (pointAddGrad_gradOnly _ _ _ _ hh) fun h1 h1h => pointAddGrad_gradOnly _ _ _ _ h1h
  · exact hh

theorem arcAddGrad_gradOnly (h0 h : Heap F) (a : Nat) (g : Row5 F) (hh : GradOnly h0 h) :
    Post (arcAddGrad h a g) (GradOnly h0) := by
  unfold arcAddGrad
  split
  · exact post_bind (pointAddGrad_gradOnly _ _ _ _ hh) fun h1 h1h => h1h.trans (setArcGrad_gradOnly _ _ _)
  · exact hh

theorem updateGradient_gradOnly (h0 h : Heap F) (c : Constraint F) (hh : GradOnly h0 h) :
    Post (updateGradient h c) (GradOnly h0) := by
  cases c with
  | angle p1 p2 mid d =>
    simp only [updateGradient, angleUpdate]
    split
    · exact hh
    split
    · exact hh
    split
    · exact hh
    exact post_bind (pointAddGrad_gradOnly _ _ _ _ hh) fun h1 h1h =>
      post_bind (pointAddGrad_gradOnly _ _ _ _ h1h) fun h2 h2h => pointAddGrad_gradOnly _ _ _ _ h2h
  | arcEnd a p =>
    exact post_bind (arcAddGrad_gradOnly _ _ _ _ hh) fun h1 h1h => pointAddGrad_gradOnly _ _ _ _ h1h
  | arcStart a p =>
    exact post_bind (arcAddGrad_gradOnly _ _ _ _ hh) fun h1 h1h => pointAddGrad_gradOnly _ _ _ _ h1h
  | euclid p1 p2 d =>
    simp only [updateGradient, euclidUpdate]
    split
    · exact hh
    exact post_bind (pointAddGrad_gradOnly _ _ _ _ hh) fun h1 h1h => pointAddGrad_gradOnly _ _ _ _ h1h
  | horizDist p1 p2 d =>
    exact post_bind (pointAddGrad_gradOnly _ _ _ _ hh) fun h1 h1h => pointAddGrad_gradOnly _ _ _ _ h1h
  | vertDist p1 p2 d =>
    exact post_bind (pointAddGrad_gradOnly _ _ _ _ hh) fun h1 h1h => pointAddGrad_gradOnly _ _ _ _ h1h
  | fix p d => exact pointAddGrad_gradOnly _ _ _ _ hh
  | eqLen l1 l2 =>
    exact post_bind (lineAddGrad_gradOnly _ _ _ _ hh) fun h1 h1h => lineAddGrad_gradOnly _ _ _ _ h1h
  | horizLine l =>
    exact post_bind (lineAddGrad_gradOnly _ _ _ _ hh) fun h1 h1h => lineAddGrad_gradOnly _ _ _ _ h1h
  | vertLine l =>
    exact post_bind (lineAddGrad_gradOnly _ _ _ _ hh) fun h1 h1h => lineAddGrad_gradOnly _ _ _ _ h1h
  | parallel l1 l2 =>
    simp only [updateGradient, parallelUpdate]
    split
    · exact hh
    exact post_bind (lineAddGrad_gradOnly _ _ _ _ hh) fun h1 h1h => lineAddGrad_gradOnly _ _ _ _ h1h
  | perp l1 l2 =>
    simp only [updateGradient, perpUpdate]
    split
    · exact hh
    exact post_bind (lineAddGrad_gradOnly _ _ _ _ hh) fun h1 h1h => lineAddGrad_gradOnly _ _ _ _ h1h

theorem primZeroGrad_gradOnly (h : Heap F) (c : PrimCell) : GradOnly h (primZeroGrad h c) := by
  cases c
  · exact setPointGrad_gradOnly _ _ _
  · exact .refl h
  · exact setArcGrad_gradOnly _ _ _
  · exact setCircleGrad_gradOnly _ _ _

theorem zeroGrads_gradOnly (h : Heap F) (s : Sketch) : GradOnly h (zeroGrads h s) := by
  unfold zeroGrads
  suffices ∀ (l : List (Nat × PrimCell)) (h1 : Heap F), GradOnly h h1 →
      GradOnly h (l.foldl (fun h kp => primZeroGrad h kp.2) h1) from this _ _ (.refl h)
  intro l
  induction l with
  | nil => intro h1 h1h; exact h1h
  | cons kp l ih => intro h1 h1h; exact ih _ (h1h.trans (primZeroGrad_gradOnly _ _))

theorem updateAll_gradOnly (h0 h : Heap F) (cs : List Nat) (hh : GradOnly h0 h) :
    Post (updateAll h cs) (GradOnly h0) := by
  unfold updateAll
  induction cs generalizing h with
  | nil => exact hh
  | cons c cs ih =>
    rw [List.foldlM_cons]
    exact post_bind (updateGradient_gradOnly _ _ _ hh) fun h1 h1h => ih h1 h1h

theorem getGradient_gradOnly (h : Heap F) (s : Sketch) : GradOnly h (endHeap (getGradient h s)) := by
  have := updateAll_gradOnly h _ s.cons (zeroGrads_gradOnly h s)
  unfold getGradient
  cases hu : updateAll (zeroGrads h s) s.cons with
  | error h' => rw [hu] at this; exact this
  | ok h' =>
    rw [hu] at this
    simp only
    cases collectGradient h' s with
    | none => exact this
    | some g => exact this

theorem jacobianRows_gradOnly (s : Sketch) (cs : List Nat) (h0 h : Heap F) (hh : GradOnly h0 h) :
    GradOnly h0 (endHeap (jacobianRows s cs h)) := by
  induction cs generalizing h with
  | nil => exact hh
  | cons c cs ih =>
    unfold jacobianRows
    have h1h := hh.trans (zeroGrads_gradOnly h s)
    have := updateGradient_gradOnly h0 _ ((zeroGrads h s).cons c) h1h
    simp only
    cases hu : updateGradient (zeroGrads h s) ((zeroGrads h s).cons c) with
    | error h2 => rw [hu] at this; exact this
    | ok h2 =>
      rw [hu] at this
      have := ih h2 this
      simp only
      cases hj : jacobianRows s cs h2 with
      | error h3 => rw [hj] at this; exact this
      | ok r => rw [hj] at this; exact this

theorem getJacobian_gradOnly (h : Heap F) (s : Sketch) : GradOnly h (endHeap (getJacobian h s)) :=
  jacobianRows_gradOnly s s.cons h h (.refl h)

/-! ## `set_data` -/

theorem primData_setPointData (h : Heap F) (a : Nat) (v : Vec2 F) (c : PrimCell) (hc : c ≠ .point a) :
    primData (h.setPoint a { h.points a with data := v }) c = primData h c := by
  cases c <;> simp_all [primData, Heap.setPoint, upd_apply]

/-- what a primitive's `set_data` does when it returns or panics -/
theorem primSetData_frame (h : Heap F) (c : PrimCell) (d : List F) :
    Post (primSetData h c d) (fun h' => SameRefs h h' ∧ (∀ x, primGrad h' x = primGrad h x) ∧
      ∀ x, x ≠ c → primData h' x = primData h x) := by
  have triv : SameRefs h h ∧ (∀ x, primGrad h x = primGrad h x) ∧ ∀ x, x ≠ c → primData h x = primData h x :=
    ⟨.refl h, fun _ => rfl, fun _ _ => rfl⟩
  unfold primSetData
  cases c with
  | point a =>
    dsimp only
    split
    · split
      · refine ⟨⟨rfl, rfl, fun _ => rfl, fun _ => rfl, fun _ => rfl, rfl, rfl, rfl, rfl, rfl⟩, ?_, ?_⟩
        · intro x; cases x <;> simp [endHeap', primGrad, Heap.setPoint, upd_apply]
          split <;> simp_all
        · intro x hx; cases x <;> simp_all [endHeap', primData, Heap.setPoint, upd_apply]
      · exact triv
    · exact triv
  | line a => exact triv
  | arc a =>
    dsimp only
    split
    · split
      · refine ⟨⟨rfl, rfl, ?_, ?_, fun _ => rfl, rfl, rfl, rfl, rfl, rfl⟩, ?_, ?_⟩
        · intro b; simp only [endHeap', Heap.setArc, upd_apply]; split <;> simp_all
        · intro b; simp only [endHeap', Heap.setArc, upd_apply]; split <;> simp_all
        · intro x; cases x <;> simp [endHeap', primGrad, Heap.setArc, upd_apply]
          split <;> simp_all
        · intro x hx; cases x <;> simp_all [endHeap', primData, Heap.setArc, upd_apply]
      · exact triv
    · exact triv
  | circle a =>
    dsimp only
    split
    · split
      · refine ⟨⟨rfl, rfl, fun _ => rfl, fun _ => rfl, ?_, rfl, rfl, rfl, rfl, rfl⟩, ?_, ?_⟩
        · intro b; simp only [endHeap', Heap.setCircle, upd_apply]; split <;> simp_all
        · intro x; cases x <;> simp [endHeap', primGrad, Heap.setCircle, upd_apply]
          split <;> simp_all
        · intro x hx; cases x <;> simp_all [endHeap', primData, Heap.setCircle, upd_apply]
      · exact triv
    · exact triv

theorem setDataLoop_dataOnly (s : Sketch) (d : List F) (kps : List (Nat × PrimCell)) (hk : ∀ kp ∈ kps, kp.2 ∈ s.cells)
    (i : Nat) (h0 h : Heap F) (hh : DataOnly s h0 h) : Post (setDataLoop d kps i h) (DataOnly s h0) := by
  induction kps generalizing i h with
  | nil => exact hh
  | cons kp kps ih =>
    unfold setDataLoop
    have fr := primSetData_frame h kp.2 ((d.drop i).take (primData h kp.2).length)
    have key : ∀ h', (SameRefs h h' ∧ (∀ x, primGrad h' x = primGrad h x) ∧
        ∀ x, x ≠ kp.2 → primData h' x = primData h x) → DataOnly s h0 h' := by
      intro h' ⟨a, b, c⟩
      refine hh.trans ⟨a, b, fun x hx => c x ?_⟩
      rintro rfl; exact hx (hk kp (by simp))
    dsimp only
    cases hp : primSetData h kp.2 ((d.drop i).take (primData h kp.2).length) with
    | error h' => rw [hp] at fr; exact key _ fr
    | ok h' => rw [hp] at fr; exact ih (fun x hx => hk x (by simp [hx])) _ _ (key _ fr)

theorem setData_dataOnly (h : Heap F) (s : Sketch) (d : List F) : Post (setData h s d) (DataOnly s h) := by
  unfold setData
  split
  · exact setDataLoop_dataOnly s d s.prims (fun kp hkp => List.mem_map_of_mem hkp) 0 h h (.refl s h)
  · exact DataOnly.refl s h

/-! ## Solvers and `check_gradients` -/

theorem lsLoop_moves (s : Sketch) (dir x0 : List F) (loss m : F) (n : Nat) (alpha : F) (h0 h : Heap F)
    (hh : MovesOnly s h0 h) : MovesOnly s h0 (lsLoop s dir x0 loss m n alpha h).2 := by
  induction n generalizing alpha h with
  | zero => exact hh
  | succ n ih =>
    unfold lsLoop
    have sd := setData_dataOnly h s (vadd x0 (vscale alpha dir))
    cases hs : setData h s (vadd x0 (vscale alpha dir)) with
    | error h' => rw [hs] at sd; exact hh.trans (DataOnly.moves sd)
    | ok h1 =>
      rw [hs] at sd
      have h1h := hh.trans (DataOnly.moves sd)
      dsimp only
      split
      · have gg := getGradient_gradOnly h1 s
        cases hg : getGradient h1 s with
        | error h' => rw [hg] at gg; exact h1h.trans gg.moves
        | ok r =>
          rw [hg] at gg
          have h2h := h1h.trans (GradOnly.moves (s := s) gg)
          dsimp only
          split
          · exact h2h
          · exact ih _ _ h2h
      · exact ih _ _ h1h

theorem lineSearch_moves (h : Heap F) (s : Sketch) (dir g : List F) : MovesOnly s h (lineSearch h s dir g).2 := by
  unfold lineSearch
  dsimp only
  split
  · exact .refl s h
  · exact lsLoop_moves _ _ _ _ _ _ _ h h (.refl s h)

theorem setData_moves {h0 h : Heap F} {s : Sketch} (d : List F) (hh : MovesOnly s h0 h) :
    Post (setData h s d) (MovesOnly s h0) := hh.trans (DataOnly.moves (setData_dataOnly h s d))

theorem setData_moves_end {h0 h : Heap F} {s : Sketch} {d : List F} {r : Except (Heap F) (Heap F)}
    (hh : MovesOnly s h0 h) (e : setData h s d = r) : MovesOnly s h0 (endHeap' r) := by
  have := setData_moves d hh; rw [e] at this; exact this

theorem getGradient_moves {h0 h : Heap F} {s : Sketch} (hh : MovesOnly s h0 h) :
    MovesOnly s h0 (endHeap (getGradient h s)) := hh.trans (getGradient_gradOnly h s).moves

theorem lineSearch_moves' {h0 h : Heap F} {s : Sketch} (dir g : List F) (hh : MovesOnly s h0 h) :
    MovesOnly s h0 (lineSearch h s dir g).2 := hh.trans (lineSearch_moves h s dir g)

theorem gdLoop_moves (p : GDParams F) (s : Sketch) (n : Nat) (h0 h : Heap F) (g : List F) (gn loss : F)
    (hh : MovesOnly s h0 h) : MovesOnly s h0 (gdLoop p s n h g gn loss).heap := by
  induction n generalizing h g gn loss with
  | zero => exact hh
  | succ n ih =>
    unfold gdLoop
    split
    · exact hh
    split
    · exact hh
    dsimp only
    have ls := lineSearch_moves' (vneg g) g hh
    split
    next h' e => rw [e] at ls; exact ls
    next h' e => rw [e] at ls; exact ls
    next h' e => rw [e] at ls; exact ls
    next alpha h1 e =>
      rw [e] at ls
      have sd := setData_moves (axpy (getData h s) alpha (vneg g)) ls
      split
      next h' e2 => rw [e2] at sd; exact sd
      next h2 e2 =>
        rw [e2] at sd
        have gg := getGradient_moves sd
        split
        next h' e3 => rw [endHeap', e3] at gg; exact gg
        next g' h3 e3 => rw [endHeap', e3] at gg; exact ih _ _ _ _ gg

theorem gdSolve_moves (p : GDParams F) (h : Heap F) (s : Sketch) : MovesOnly s h (gdSolve p h s).heap := by
  unfold gdSolve
  have gg := getGradient_moves (.refl s h)
  split
  next h' e => rw [e] at gg; exact gg
  next g h1 e => rw [e] at gg; exact gdLoop_moves _ _ _ _ _ _ _ _ gg

theorem bfgsLoop_moves (p : BFGSParams F) (s : Sketch) (nd : Nat) (n : Nat) (reset : Bool) (hm : List (List F))
    (data : List F) (h0 h : Heap F) (hh : MovesOnly s h0 h) :
    MovesOnly s h0 (bfgsLoop p s nd n reset hm data h).heap := by
  fun_induction bfgsLoop p s nd n reset hm data h with
  | case1 => exact hh
  | case2 => exact hh
  | case3 n reset hm data h hl h' e =>
    have gg := getGradient_moves hh; rw [e] at gg; exact gg
  | case4 n reset hm data h hl g h1 e =>
    have gg := getGradient_moves hh; rw [e] at gg; exact gg
  | case5 n reset hm data h hl g h1 e =>
    have gg := getGradient_moves hh; rw [e] at gg; exact gg
  | case6 n reset hm data h hl g h1 e =>
    have gg := getGradient_moves hh; rw [e] at gg; exact gg
  | case7 n reset hm data h hl g h1 e _ _ dir _ h' e2 =>
    have gg := getGradient_moves hh; rw [e] at gg
    have ls := lineSearch_moves' dir g gg; rw [endHeap, e2] at ls; exact ls
  | case8 n reset hm data h hl g h1 e _ _ dir _ h' e2 =>
    have gg := getGradient_moves hh; rw [e] at gg
    have ls := lineSearch_moves' dir g gg; rw [endHeap, e2] at ls; exact ls
  | case9 n hm data h hl g h1 e _ _ dir _ h' e2 =>
    have gg := getGradient_moves hh; rw [e] at gg
    have ls := lineSearch_moves' dir g gg; rw [endHeap, e2] at ls; exact ls
  | case10 n hm data h hl g h1 e _ _ dir _ h' e2 ih =>
    have gg := getGradient_moves hh; rw [e] at gg
    have ls := lineSearch_moves' dir g gg; rw [endHeap, e2] at ls; exact ih ls
  | case11 n reset hm data h hl g h1 e _ _ dir _ alpha h2 e2 st nd h' e3 =>
    have gg := getGradient_moves hh; rw [e] at gg
    have ls := lineSearch_moves' dir g gg; rw [endHeap, e2] at ls
    have sd := setData_moves nd ls; rw [e3] at sd; exact sd
  | case12 n reset hm data h hl g h1 e _ _ dir _ alpha h2 e2 st nd h3 e3 h' e4 =>
    have gg := getGradient_moves hh; rw [e] at gg
    have ls := lineSearch_moves' dir g gg; rw [endHeap, e2] at ls
    have sd := setData_moves nd ls; rw [e3] at sd
    have g2 := getGradient_moves sd; rw [endHeap', e4] at g2; exact g2
  | case13 n reset hm data h hl g h1 e _ _ dir _ alpha h2 e2 st nd h3 e3 g' h4 e4 y ih =>
    have gg := getGradient_moves hh; rw [e] at gg
    have ls := lineSearch_moves' dir g gg; rw [endHeap, e2] at ls
    have sd := setData_moves nd ls; rw [e3] at sd
    have g2 := getGradient_moves sd; rw [endHeap', e4] at g2; exact ih g2

theorem bfgsSolve_moves (p : BFGSParams F) (h : Heap F) (s : Sketch) : MovesOnly s h (bfgsSolve p h s).heap :=
  bfgsLoop_moves _ _ _ _ _ _ _ _ _ (.refl s h)

theorem newtonLoop_moves (pinv : PInv F) (a b c : F) (nrm : Nat → List (List F) → List (List F)) (s : Sketch) (n : Nat)
    (ls : F) (h0 h : Heap F) (hh : MovesOnly s h0 h) :
    MovesOnly s h0 (newtonLoop pinv a b c nrm s n ls h).heap := by
  induction n generalizing ls h with
  | zero => exact hh
  | succ n ih =>
    unfold newtonLoop
    split
    · dsimp only
      have jj := hh.trans (getJacobian_gradOnly h s).moves
      split
      next h' e => rw [e] at jj; exact jj
      next jac h1 e =>
        rw [e] at jj
        split
        · exact jj
        · exact jj
        next pi e2 =>
          split
          next h' e3 => exact setData_moves_end jj e3
          next h2 e3 => exact ih _ _ (setData_moves_end jj e3)
    · exact hh

theorem runSolver_moves (pinv : PInv F) (k : SolverKind F) (h : Heap F) (s : Sketch) :
    MovesOnly s h (runSolver pinv k h s).heap := by
  cases k with
  | gd p => exact gdSolve_moves p h s
  | bfgs p => exact bfgsSolve_moves p h s
  | gn p => exact newtonLoop_moves _ _ _ _ _ _ _ _ _ _ (.refl s h)
  | lm p => exact newtonLoop_moves _ _ _ _ _ _ _ _ _ _ (.refl s h)

theorem checkPrimLoop_moves (s : Sketch) (c : Nat) (eps cl : F) (p : PrimCell) (hp : p ∈ s.cells) (orig : List F)
    (is : List Nat) (h0 h : Heap F) (hh : MovesOnly s h0 h) :
    MovesOnly s h0 (endHeap (checkPrimLoop c eps cl p orig is h)) := by
  have key : ∀ (h : Heap F) d, MovesOnly s h0 h → Post (primSetData h p d) (MovesOnly s h0) := by
    intro h d hh
    have := primSetData_frame h p d
    exact hh.trans ⟨this.1, fun x hx => this.2.2 x (by rintro rfl; exact hx hp)⟩
  induction is generalizing h with
  | nil => exact hh
  | cons i is ih =>
    unfold checkPrimLoop
    split
    next h' e => have := key h (orig.set i (orig.getD i 0.0 + eps)) hh; rw [e] at this; exact this
    next h1 e =>
      have k1 := key h (orig.set i (orig.getD i 0.0 + eps)) hh; rw [e] at k1
      dsimp only
      split
      next h' e2 => have := key h1 orig k1; rw [e2] at this; exact this
      next h2 e2 =>
        have k2 := key h1 orig k1; rw [e2] at k2
        have := ih h2 k2
        split
        next h' e3 => rw [e3] at this; exact this
        next g h3 e3 => rw [e3] at this; exact this

theorem checkPrims_moves (s : Sketch) (c : Nat) (eps cl ce : F) (kps : List (Nat × PrimCell))
    (hk : ∀ kp ∈ kps, kp.2 ∈ s.cells) (h0 h : Heap F) (hh : MovesOnly s h0 h) :
    Post (checkPrims c eps cl ce kps h) (MovesOnly s h0) := by
  induction kps generalizing h with
  | nil => exact hh
  | cons kp kps ih =>
    unfold checkPrims
    dsimp only
    split
    · have := checkPrimLoop_moves s c eps cl kp.2 (hk kp (by simp)) (primData h kp.2)
        (List.range (primData h kp.2).length) h0 h hh
      split
      next h' e => rw [e] at this; exact this
      next g h1 e =>
        rw [e] at this
        split
        · exact ih (fun x hx => hk x (by simp [hx])) _ this
        · exact this
    · exact hh

theorem checkGradients_moves (h : Heap F) (s : Sketch) (eps : F) (c : Nat) (ce : F) :
    Post (checkGradients h s eps c ce) (MovesOnly s h) := by
  unfold checkGradients
  have gg := getGradient_moves (.refl s h)
  split
  next h' e => rw [e] at gg; exact gg
  next g h1 e =>
    rw [e] at gg
    exact checkPrims_moves s c eps _ ce s.prims (fun kp hkp => List.mem_map_of_mem hkp) h h1 gg

end
end Isotope
