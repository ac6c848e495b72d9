import Verif.Lemmas.Chunk
import Verif.Lemmas.Hist
import Verif.XR

/-!
# Reading and writing the data vector (C12, C13, C14), queries (C23), solver frame (C35, C36), check_gradients (C54),
# validation (C55)

All theorems here hold for any arithmetic.
-/

set_option linter.unusedSectionVars false
set_option linter.unusedSimpArgs false

namespace Isotope
variable {F : Type} [Num F]

/-- the example sketch: a point, an arc around it, a circle around it -/
def exSketch : Sketch := ⟨[(0, .point 0), (3, .arc 0), (4, .circle 0)], 5, []⟩

/-! ## C12 -/

/-- **C12.** Layout of the data vector: the coordinates of the primitives in the order of their ids, nothing else. -/
theorem C12_layout (h : Heap F) (s : Sketch) : getData h s = (s.prims.map (fun kp => primData h kp.2)).flatten := by
  rw [getData_eq, Sketch.cells, List.flatMap_map]; rfl

/-- **C12.** If `set_data(d)` returns, `get_data()` then returns `d`.  (That no primitive is twice in a sketch is C05.) -/
theorem C12_roundtrip (h h' : Heap F) (s : Sketch) (d : List F) (hn : s.cells.Nodup) (ok : setData h s d = .ok h') :
    getData h' s = d := by
  unfold setData at ok
  split at ok
  · rename_i hl
    rw [getNDofs_eq] at hl
    cases hf : d.all Num.isFinite with
    | true =>
      obtain ⟨h1, e1, p1, -⟩ := setDataLoop_ok d s.prims 0 h hn (by simpa [Sketch.cells] using hl) (by simpa using hf)
      rw [e1] at ok
      cases ok
      rw [getData_eq]; simpa [Sketch.cells] using p1
    | false =>
      obtain ⟨pre, kp, post, h1, e0, e1, -⟩ :=
        setDataLoop_panic d s.prims 0 h hn (by simpa [Sketch.cells] using hl) (by simpa using hf)
      rw [e1] at ok; cases ok
  · cases ok

/-- the same for histories: whenever the call `set_data(d)` returns, `get_data()` in the state after it is `d` -/
theorem C12_history (pinv : PInv F) (ops : List (Op F)) (t : Nat) (d : List F) (hlen : ops.length < u64Size)
    (hr : Ran pinv ops t (.setData d) .unit) :
    getData (stateAt pinv ops (t + 1)).heap (stateAt pinv ops (t + 1)).sketch = d := by
  have hs := ran_step pinv ops t _ _ hr
  have hn : (stateAt pinv ops t).sketch.cells.Nodup := (Inv.at pinv ops hlen t).cellsNodup
  generalize stateAt pinv ops t = w at *
  generalize stateAt pinv ops (t + 1) = w' at *
  simp only [step, Op.live, Bool.not_true, Bool.false_eq_true, if_false] at hs
  cases e : setData w.heap w.sketch d with
  | error h' => rw [e] at hs; cases hs
  | ok h' =>
    rw [e] at hs
    cases hs
    exact C12_roundtrip _ _ _ _ hn e

example : ∃ h', setData (F := XR) Heap.empty exSketch [.fin 1, .fin 2, .fin 3, .fin 4, .fin 5, .fin 6] = .ok h' ∧
    exSketch.cells.Nodup :=
  ⟨_, by simp [setData, getNDofs, exSketch, primData, setDataLoop, primSetData]; rfl, by decide⟩

/-! ## C13 -/

/-- **C13.** Writing back the current data succeeds when it is finite, and changes nothing at all: the resulting heap is
the same heap. -/
theorem C13_write_back (h : Heap F) (s : Sketch) (hn : s.cells.Nodup) (hf : (getData h s).all Num.isFinite = true) :
    setData h s (getData h s) = .ok h := by
  have hl : (getData h s).length = getNDofs h s := getData_length h s
  have hl' : ((getData h s).drop 0).length = ((s.prims.map (·.2)).flatMap (primData h)).length := by
    rw [List.drop_zero, hl, getNDofs_eq, Sketch.cells]
  obtain ⟨h1, e1, p1, f1⟩ := setDataLoop_ok (getData h s) s.prims 0 h hn hl' (by simpa using hf)
  have fr := setData_dataOnly h s (getData h s)
  have e : setData h s (getData h s) = .ok h1 := by unfold setData; rw [if_pos hl, e1]
  rw [e] at fr
  rw [e]
  congr 1
  refine heap_ext fr.1 (fun c => ?_) fr.2.1
  by_cases hc : c ∈ s.cells
  · rw [List.drop_zero, getData_eq] at p1
    unfold Sketch.cells at *
    generalize s.prims.map (·.2) = cs at *
    clear hn hf e1 f1 e fr hl hl'
    induction cs with
    | nil => cases hc
    | cons x cs ih =>
      rw [List.flatMap_cons, List.flatMap_cons] at p1
      have := List.append_inj p1 (primData_length h h1 x)
      rcases List.mem_cons.1 hc with rfl | hc
      · exact this.1
      · exact ih this.2 hc
  · exact fr.2.2 c hc

example : exSketch.cells.Nodup ∧ (getData (F := XR) Heap.empty exSketch).all Num.isFinite = true :=
  ⟨by decide, by
    simp [getData, getNDofs, exSketch, primData, Heap.empty, zerosVec, blit, Point2.new, Arc.new, Circle.new]⟩

/-! ## C14 -/

/-- **C14.** `set_data(d)` returns iff `d` has as many entries as the sketch has degrees of freedom and all are finite. -/
theorem C14_ok_iff (h : Heap F) (s : Sketch) (hn : s.cells.Nodup) (d : List F) :
    (∃ h', setData h s d = .ok h') ↔ d.length = getNDofs h s ∧ ∀ x ∈ d, Num.isFinite x = true := by
  have key : (∀ x ∈ d, Num.isFinite x = true) ↔ d.all Num.isFinite = true := by rw [List.all_eq_true]
  rw [key]
  unfold setData
  by_cases hl : d.length = getNDofs h s
  · rw [if_pos hl]
    have hl' : (d.drop 0).length = ((s.prims.map (·.2)).flatMap (primData h)).length := by
      rw [List.drop_zero, hl, getNDofs_eq, Sketch.cells]
    cases hf : d.all Num.isFinite with
    | true =>
      obtain ⟨h1, e1, -⟩ := setDataLoop_ok d s.prims 0 h hn hl' (by simpa using hf)
      exact ⟨fun _ => ⟨hl, rfl⟩, fun _ => ⟨h1, e1⟩⟩
    | false =>
      obtain ⟨pre, kp, post, h1, e0, e1, -⟩ := setDataLoop_panic d s.prims 0 h hn hl' (by simpa using hf)
      simp [e1]
  · simp [hl]

/-- **C14.** A vector of the wrong length: panic, nothing written. -/
theorem C14_wrong_length (h : Heap F) (s : Sketch) (d : List F) (hl : d.length ≠ getNDofs h s) :
    setData h s d = .error h := by
  unfold setData; rw [if_neg hl]

/-- **C14.** A non-finite entry: panic, and exactly the primitives before (in id order) the first one with a bad entry
have been written, with the values of `d`; that first one and everything else have their old coordinates. -/
theorem C14_non_finite (h : Heap F) (s : Sketch) (hn : s.cells.Nodup) (d : List F) (hl : d.length = getNDofs h s)
    (hbad : ∃ x ∈ d, Num.isFinite x = false) :
    ∃ (pre : List PrimCell) (c : PrimCell) (post : List PrimCell) (dpre dc dpost : List F) (h' : Heap F),
      s.cells = pre ++ c :: post ∧ d = dpre ++ dc ++ dpost ∧
      dpre.length = (pre.map (fun x => (primData h x).length)).sum ∧ dc.length = (primData h c).length ∧
      (∀ x ∈ dpre, Num.isFinite x = true) ∧ (∃ x ∈ dc, Num.isFinite x = false) ∧
      setData h s d = .error h' ∧
      (pre.map (primData h')).flatten = dpre ∧ ∀ x, x ∉ pre → primData h' x = primData h x := by
  have hl' : (d.drop 0).length = ((s.prims.map (·.2)).flatMap (primData h)).length := by
    rw [List.drop_zero, hl, getNDofs_eq, Sketch.cells]
  have hf : (d.drop 0).all Num.isFinite = false := by
    obtain ⟨x, hx, hb⟩ := hbad
    rw [List.drop_zero, List.all_eq_false]; exact ⟨x, hx, by simp [hb]⟩
  obtain ⟨pre, kp, post, h1, e0, e1, p1, q1, r1, f1⟩ := setDataLoop_panic d s.prims 0 h hn hl' hf
  rw [List.drop_zero] at p1 r1 hl'
  generalize hm : ((pre.map (·.2)).flatMap (primData h)).length = m at *
  have hlen : m + (primData h kp.2).length ≤ d.length := by
    rw [hl', e0]; simp only [List.map_append, List.map_cons, List.flatMap_append, List.flatMap_cons, List.length_append]
    omega
  refine ⟨pre.map (·.2), kp.2, post.map (·.2), d.take m, (d.drop m).take (primData h kp.2).length,
    (d.drop m).drop (primData h kp.2).length, h1, ?_, ?_, ?_, ?_, ?_, ?_, ?_, ?_, f1⟩
  · rw [Sketch.cells, e0]; simp
  · rw [List.append_assoc, List.take_append_drop, List.take_append_drop]
  · rw [List.length_take, ← hm, List.length_flatMap]
    rw [List.length_flatMap] at hm
    rw [hm]; omega
  · rw [List.length_take, List.length_drop]; omega
  · rw [← p1]; exact List.all_eq_true.1 q1
  · rw [List.all_eq_false] at r1
    obtain ⟨x, hx, hb⟩ := r1
    exact ⟨x, hx, by simpa using hb⟩
  · unfold setData; rw [if_pos hl, e1]
  · rw [← p1]; rfl

/-- **C14.** Frame, whether `set_data` returns or panics, for any vector: no gradient, reference, orientation flag,
constraint or allocation changes, and no coordinate of a primitive outside the sketch. -/
theorem C14_frame (h : Heap F) (s : Sketch) (d : List F) : DataOnly s h (endHeap' (setData h s d)) :=
  setData_dataOnly h s d

example : exSketch.cells.Nodup ∧
    ([.fin 1, .fin 2, .fin 3, .nan, .fin 5, .fin 6] : List XR).length = getNDofs (F := XR) Heap.empty exSketch ∧
    ∃ x ∈ ([.fin 1, .fin 2, .fin 3, .nan, .fin 5, .fin 6] : List XR), Num.isFinite x = false :=
  ⟨by decide, by simp [getNDofs, exSketch, primData], .nan, by simp, rfl⟩

/-! ## C23 -/

/-- **C23.** `get_gradient` changes gradients only: every coordinate, reference, constraint stays, whether it returns or
panics. -/
theorem C23_gradient_frame (h : Heap F) (s : Sketch) : GradOnly h (endHeap (getGradient h s)) := getGradient_gradOnly h s

/-- **C23.** `get_jacobian` too. -/
theorem C23_jacobian_frame (h : Heap F) (s : Sketch) : GradOnly h (endHeap (getJacobian h s)) := getJacobian_gradOnly h s

/-- the value returned by a call, `none` if it panicked -/
def returned {α : Type} : Except (Heap F) (α × Heap F) → Option α
  | .ok r => some r.1
  | .error _ => none

/-- **C23.** The result of `get_gradient` (value or panic) does not depend on gradients: in two heaps with the same
coordinates and references it is the same. -/
theorem C23_gradient_independent (h h' : Heap F) (s : Sketch) (g : GradOnly h h') :
    returned (getGradient h' s) = returned (getGradient h s) := by
  have z := zeroGrads_agree s g
  have e1 := updateAll_eq h (zeroGrads h s) s.cons (zeroGrads_gradOnly h s)
  have e2 := updateAll_eq h' (zeroGrads h' s) s.cons (zeroGrads_gradOnly h' s)
  have e3 : s.cons.flatMap (fun c => chunks h' (h'.cons c)) = s.cons.flatMap (fun c => chunks h (h.cons c)) := by
    congr 1; funext c; rw [g.1.cons, g.chunks]
  have A := foldChunks_agree (s.cons.flatMap (fun c => chunks h (h.cons c))) z
  rw [e3] at e2
  unfold getGradient
  rw [e1, e2]
  cases h1 : (s.cons.flatMap (fun c => chunks h (h.cons c))).foldlM applyChunk (zeroGrads h s) with
  | error a =>
    cases h2 : (s.cons.flatMap (fun c => chunks h (h.cons c))).foldlM applyChunk (zeroGrads h' s) with
    | error b => rfl
    | ok b => rw [h1, h2] at A; exact A.elim
  | ok a =>
    cases h2 : (s.cons.flatMap (fun c => chunks h (h.cons c))).foldlM applyChunk (zeroGrads h' s) with
    | error b => rw [h1, h2] at A; exact A.elim
    | ok b =>
      rw [h1, h2] at A
      dsimp only
      rw [collect_agree s A]
      cases collectGradient a s <;> rfl

/-- **C23.** Calling `get_gradient` a second time gives the same result. -/
theorem C23_gradient_idempotent (h h' : Heap F) (s : Sketch) (g : List F) (e : getGradient h s = .ok (g, h')) :
    ∃ h'', getGradient h' s = .ok (g, h'') := by
  have fr := getGradient_gradOnly h s
  rw [e] at fr
  have := C23_gradient_independent h h' s fr
  rw [e] at this
  cases e2 : getGradient h' s with
  | error x => rw [e2] at this; cases this
  | ok r => rw [e2] at this; cases this; exact ⟨r.2, rfl⟩

theorem jacobianRows_independent (s : Sketch) (cs : List Nat) (h h' : Heap F) (g : GradOnly h h') :
    returned (jacobianRows s cs h') = returned (jacobianRows s cs h) := by
  induction cs generalizing h h' with
  | nil => rfl
  | cons c cs ih =>
    have z := zeroGrads_agree s g
    have zc := zeroGrads_gradOnly h s
    have A := foldChunks_agree (chunks h (h.cons c)) z
    have e1 : updateGradient (zeroGrads h s) ((zeroGrads h s).cons c) =
        (chunks h (h.cons c)).foldlM applyChunk (zeroGrads h s) := by
      rw [updateGradient_eq, zc.1.cons, zc.chunks]
    have zc' := zeroGrads_gradOnly h' s
    have e2 : updateGradient (zeroGrads h' s) ((zeroGrads h' s).cons c) =
        (chunks h (h.cons c)).foldlM applyChunk (zeroGrads h' s) := by
      rw [updateGradient_eq, zc'.1.cons, zc'.chunks, g.1.cons, g.chunks]
    unfold jacobianRows
    dsimp only
    rw [e1, e2]
    cases h1 : (chunks h (h.cons c)).foldlM applyChunk (zeroGrads h s) with
    | error a =>
      cases h2 : (chunks h (h.cons c)).foldlM applyChunk (zeroGrads h' s) with
      | error b => rfl
      | ok b => rw [h1, h2] at A; exact A.elim
    | ok a =>
      cases h2 : (chunks h (h.cons c)).foldlM applyChunk (zeroGrads h' s) with
      | error b => rw [h1, h2] at A; exact A.elim
      | ok b =>
        rw [h1, h2] at A
        have I := ih a b A.1
        dsimp only
        have er : jacobianRow b s = jacobianRow a s := by
          rw [jacobianRow_eq, jacobianRow_eq]; exact flatMap_congr_mem fun c hc => A.2 c hc
        rw [er]
        cases e4 : jacobianRows s cs a with
        | error x =>
          rw [e4] at I
          cases e5 : jacobianRows s cs b with
          | error y => rfl
          | ok y => rw [e5] at I; cases I
        | ok x =>
          rw [e4] at I
          cases e5 : jacobianRows s cs b with
          | error y => rw [e5] at I; cases I
          | ok y => rw [e5] at I; simp only [returned, Option.some.injEq] at I ⊢; rw [I]

/-- **C23.** The result of `get_jacobian` does not depend on gradients either. -/
theorem C23_jacobian_independent (h h' : Heap F) (s : Sketch) (g : GradOnly h h') :
    returned (getJacobian h' s) = returned (getJacobian h s) := jacobianRows_independent s s.cons h h' g

/-- two heaps with the same coordinates and different gradients, and a constraint acting on them -/
example : ∃ h h' : Heap XR, GradOnly h h' ∧ h ≠ h' ∧ (h.cons 0 = .fix 0 ⟨.fin 5, .fin 5⟩) := by
  refine ⟨Heap.empty.setCons 0 (.fix 0 ⟨.fin 5, .fin 5⟩),
    (Heap.empty.setCons 0 (.fix 0 ⟨.fin 5, .fin 5⟩)).setPoint 0 ⟨⟨.fin 0, .fin 0⟩, ⟨.fin 1, .fin 1⟩⟩, ⟨?_, ?_⟩, ?_, rfl⟩
  · exact ⟨rfl, rfl, fun _ => rfl, fun _ => rfl, fun _ => rfl, rfl, rfl, rfl, rfl, rfl⟩
  · intro c
    cases c with
    | point a =>
      by_cases e : a = 0
      · subst e
        simp [primData, Heap.setPoint, Heap.setCons, Heap.empty, Point2.new]
        norm_num
      · simp [primData, Heap.setPoint, upd_other _ _ e]
    | _ => rfl
  · intro e
    have := congrArg (fun h => (h.points 0).grad.x) e
    simp [Heap.setPoint, Heap.setCons, Heap.empty, Point2.new, Vec2.zeros] at this
    norm_num at this

/-! ## C35 -/

/-- **C35.** Whatever a solver does — return, fail or panic — it changes only gradients and the coordinates of primitives
of the sketch.  (The sketch itself, ids and membership, is not changed because `solve` only gets the `Rc`s; see
`C35_world`.)  For Gauss-Newton and Levenberg-Marquardt, whatever `pseudo_inverse` returns. -/
theorem C35_solver_frame (pinv : PInv F) (k : SolverKind F) (h : Heap F) (s : Sketch) :
    MovesOnly s h (runSolver pinv k h s).heap := runSolver_moves pinv k h s

/-- **C35.** As a call in a history: the sketch's ids, members, constraints and next id are the same afterwards. -/
theorem C35_world (pinv : PInv F) (k : SolverKind F) (w : World F) :
    (step pinv w (.solve k)).2.sketch = w.sketch ∧ MovesOnly w.sketch w.heap (step pinv w (.solve k)).2.heap :=
  ⟨by simp [step, Op.live], by simpa [step, Op.live] using runSolver_moves pinv k w.heap w.sketch⟩

/-! ## C36 -/

/-- **C36.** Gradient descent on a sketch whose gradient norm is below `min_grad` or whose loss is below `min_loss`: `Ok`,
no step, no line search, no coordinate moved. -/
theorem C36_gd_stays (p : GDParams F) (h h1 : Heap F) (s : Sketch) (g : List F) (hg : getGradient h s = .ok (g, h1))
    (small : (normL g <. p.minGrad) = true ∨ (getLoss h s <. p.minLoss) = true) :
    (gdSolve p h s).res = .ok ∧ (gdSolve p h s).steps = [] ∧ (gdSolve p h s).searches = 0 ∧
      GradOnly h (gdSolve p h s).heap := by
  have fr : GradOnly h h1 := by have := getGradient_gradOnly h s; rwa [hg] at this
  have hs : getLoss h1 s = getLoss h s := fr.getLoss s
  unfold gdSolve
  rw [hg]
  dsimp only
  rw [hs]
  cases p.maxIterations with
  | zero => exact ⟨rfl, rfl, rfl, fr⟩
  | succ n =>
    unfold gdLoop
    rcases small with hm | hm
    · rw [if_pos hm]; exact ⟨rfl, rfl, rfl, fr⟩
    · split
      · exact ⟨rfl, rfl, rfl, fr⟩
      · exact ⟨rfl, rfl, rfl, fr⟩

/-- **C36.** BFGS on a sketch whose loss is below `min_loss`: `Ok` and not even a gradient changes. -/
theorem C36_bfgs_stays (p : BFGSParams F) (h : Heap F) (s : Sketch) (small : (getLoss h s <. p.minLoss) = true) :
    bfgsSolve p h s = ⟨.ok, h, [], 0, 0⟩ := by
  unfold bfgsSolve
  dsimp only
  unfold bfgsLoop
  cases p.maxIterations with
  | zero => rfl
  | succ n => dsimp only; rw [if_pos small]

/-- **C36.** BFGS on a sketch whose (finite) gradient is below the threshold in every entry: `Ok`, no coordinate moved. -/
theorem C36_bfgs_stays_gradient (p : BFGSParams F) (h h1 : Heap F) (s : Sketch) (g : List F)
    (hg : getGradient h s = .ok (g, h1)) (hfin : ∀ x ∈ g, Num.isFinite x = true)
    (small : (uniformNorm g <. p.gradientThreshold) = true) :
    (bfgsSolve p h s).res = .ok ∧ (bfgsSolve p h s).steps = [] ∧ (bfgsSolve p h s).searches = 0 ∧
      GradOnly h (bfgsSolve p h s).heap := by
  have fr : GradOnly h h1 := by have := getGradient_gradOnly h s; rwa [hg] at this
  unfold bfgsSolve
  dsimp only
  unfold bfgsLoop
  cases p.maxIterations with
  | zero => exact ⟨rfl, rfl, rfl, .refl h⟩
  | succ n =>
    dsimp only
    split
    · exact ⟨rfl, rfl, rfl, .refl h⟩
    · rw [hg]
      dsimp only
      rw [if_neg (by simpa using hfin), if_pos small]
      exact ⟨rfl, rfl, rfl, fr⟩

/-! ## C54 -/

theorem primSetData_restore {h h1 h2 : Heap F} {p : PrimCell} {d : List F} (e1 : primSetData h p d = .ok h1)
    (e2 : primSetData h1 p (primData h p) = .ok h2) : h2 = h := by
  have f1 := primSetData_ok_frame e1
  have f2 := primSetData_ok_frame e2
  have fin : (primData h p).all Num.isFinite = true := by
    cases hb : (primData h p).all Num.isFinite with
    | true => rfl
    | false => rw [primSetData_panic h1 p (primData h p) (primData_length h1 h p) hb] at e2; cases e2
  obtain ⟨h3, e3, p3⟩ := primSetData_ok h1 p (primData h p) (primData_length h1 h p) fin
  rw [e3] at e2
  cases e2
  refine heap_ext (f1.1.trans f2.1) (fun c => ?_) (fun c => (f2.2.1 c).trans (f1.2.1 c))
  by_cases hc : c = p
  · subst hc; exact p3
  · rw [f2.2.2 c hc, f1.2.2 c hc]

theorem checkPrimLoop_restores (c : Nat) (eps cl : F) (p : PrimCell) (is : List Nat) (h : Heap F) (g : List F)
    (h' : Heap F) (e : checkPrimLoop c eps cl p (primData h p) is h = .ok (g, h')) : h' = h := by
  induction is generalizing g h' with
  | nil => cases e; rfl
  | cons i is ih =>
    unfold checkPrimLoop at e
    cases e1 : primSetData h p ((primData h p).set i ((primData h p).getD i 0.0 + eps)) with
    | error x => rw [e1] at e; cases e
    | ok h1 =>
      rw [e1] at e
      dsimp only at e
      cases e2 : primSetData h1 p (primData h p) with
      | error x => rw [e2] at e; cases e
      | ok h2 =>
        rw [e2] at e
        dsimp only at e
        have := primSetData_restore e1 e2
        subst this
        cases e3 : checkPrimLoop c eps cl p (primData h2 p) is h2 with
        | error x => rw [e3] at e; cases e
        | ok r => rw [e3] at e; cases e; exact ih _ _ e3

theorem checkPrims_restores (c : Nat) (eps cl ce : F) (kps : List (Nat × PrimCell)) (h h' : Heap F)
    (e : checkPrims c eps cl ce kps h = .ok h') : h' = h := by
  induction kps with
  | nil => cases e; rfl
  | cons kp kps ih =>
    unfold checkPrims at e
    dsimp only at e
    split at e
    · cases e1 : checkPrimLoop c eps cl kp.2 (primData h kp.2) (List.range (primData h kp.2).length) h with
      | error x => rw [e1] at e; cases e
      | ok r =>
        rw [e1] at e
        have := checkPrimLoop_restores c eps cl kp.2 _ h r.1 r.2 e1
        dsimp only at e
        rw [this] at e
        split at e
        · exact ih e
        · cases e
    · cases e

/-- **C54.** If `check_gradients` returns, every coordinate is as before; only gradients may differ. -/
theorem C54_restores (h h' : Heap F) (s : Sketch) (eps : F) (c : Nat) (ce : F)
    (e : checkGradients h s eps c ce = .ok h') : GradOnly h h' := by
  unfold checkGradients at e
  have fr := getGradient_gradOnly h s
  cases e1 : getGradient h s with
  | error x => rw [e1] at e; cases e
  | ok r =>
    rw [e1] at e fr
    dsimp only at e
    have := checkPrims_restores _ _ _ _ _ _ _ e
    rw [this]
    exact fr

theorem checkPrimLoop_restores_panic (c : Nat) (eps cl : F) (p : PrimCell) (is : List Nat) (h : Heap F)
    (hf : (primData h p).all Num.isFinite = true)
    (h' : Heap F) (e : checkPrimLoop c eps cl p (primData h p) is h = .error h') : h' = h := by
  induction is with
  | nil => cases e
  | cons i is ih =>
    unfold checkPrimLoop at e
    have hlen : ((primData h p).set i ((primData h p).getD i 0.0 + eps)).length = (primData h p).length := by simp
    cases e1 : primSetData h p ((primData h p).set i ((primData h p).getD i 0.0 + eps)) with
    | error x =>
      rw [e1] at e; cases e
      cases hb : ((primData h p).set i ((primData h p).getD i 0.0 + eps)).all Num.isFinite with
      | true =>
        obtain ⟨y, ey, -⟩ := primSetData_ok h p _ hlen hb
        rw [ey] at e1; cases e1
      | false => rw [primSetData_panic h p _ hlen hb] at e1; cases e1; rfl
    | ok h1 =>
      rw [e1] at e
      dsimp only at e
      obtain ⟨h2, e2, -⟩ := primSetData_ok h1 p (primData h p) (primData_length h1 h p) hf
      rw [e2] at e
      dsimp only at e
      have := primSetData_restore e1 e2
      subst this
      cases e3 : checkPrimLoop c eps cl p (primData h2 p) is h2 with
      | error x => rw [e3] at e; cases e; exact ih e3
      | ok r => rw [e3] at e; cases e

theorem checkPrims_restores_panic (c : Nat) (eps cl ce : F) (kps : List (Nat × PrimCell)) (h h' : Heap F)
    (hf : ∀ kp ∈ kps, (primData h kp.2).all Num.isFinite = true)
    (e : checkPrims c eps cl ce kps h = .error h') : h' = h := by
  induction kps with
  | nil => cases e
  | cons kp kps ih =>
    unfold checkPrims at e
    dsimp only at e
    split at e
    · cases e1 : checkPrimLoop c eps cl kp.2 (primData h kp.2) (List.range (primData h kp.2).length) h with
      | error x =>
        rw [e1] at e; cases e
        exact checkPrimLoop_restores_panic _ _ _ _ _ _ (hf kp (by simp)) _ e1
      | ok r =>
        rw [e1] at e
        have := checkPrimLoop_restores c eps cl kp.2 _ h r.1 r.2 e1
        dsimp only at e
        rw [this] at e
        split at e
        · exact ih (fun k hk => hf k (by simp [hk])) e
        · cases e; rfl
    · cases e; rfl

/-- **C54.** If the coordinates are finite, they are restored also when `check_gradients` panics, that is also when the
check fails. -/
theorem C54_restores_on_panic (h h' : Heap F) (s : Sketch) (eps : F) (c : Nat) (ce : F)
    (hf : ∀ x ∈ getData h s, Num.isFinite x = true)
    (e : checkGradients h s eps c ce = .error h') : GradOnly h h' := by
  unfold checkGradients at e
  have fr := getGradient_gradOnly h s
  cases e1 : getGradient h s with
  | error x => rw [e1] at e fr; cases e; exact fr
  | ok r =>
    rw [e1] at e fr
    dsimp only at e
    have := checkPrims_restores_panic _ _ _ _ _ _ _ (fun kp hkp => by
      rw [List.all_eq_true]
      intro x hx
      have h2 := fr.2 kp.2
      rw [show endHeap (Except.ok r) = r.2 from rfl] at h2
      rw [h2] at hx
      exact hf x (by rw [getData_eq, List.mem_flatMap]; exact ⟨kp.2, List.mem_map_of_mem hkp, hx⟩)) e
    rw [this]
    exact fr

/-! ## C55 -/

/-- **C55.** `Point2::set_x` panics exactly on non-finite input, leaving everything; otherwise it changes that coordinate
of that point only. -/
theorem C55_set_x (h : Heap F) (a : Nat) (x : F) :
    (Num.isFinite x = false → pointSetX h a x = .error h) ∧
    (Num.isFinite x = true → ∃ h', pointSetX h a x = .ok h' ∧ SameRefs h h' ∧ (∀ c, primGrad h' c = primGrad h c) ∧
      primData h' (.point a) = [x, (h.points a).data.y] ∧ ∀ c, c ≠ .point a → primData h' c = primData h c) := by
  unfold pointSetX
  refine ⟨fun e => by simp [e], fun e => ?_⟩
  rw [if_pos e]
  refine ⟨_, rfl, ⟨rfl, rfl, fun _ => rfl, fun _ => rfl, fun _ => rfl, rfl, rfl, rfl, rfl, rfl⟩, ?_, ?_, ?_⟩
  · intro c; cases c <;> simp [primGrad, Heap.setPoint, upd_apply]
    split <;> simp_all
  · simp [primData, Heap.setPoint]
  · intro c hc; cases c <;> simp_all [primData, Heap.setPoint, upd_apply]

/-- **C55.** `Point2::set_y` likewise. -/
theorem C55_set_y (h : Heap F) (a : Nat) (y : F) :
    (Num.isFinite y = false → pointSetY h a y = .error h) ∧
    (Num.isFinite y = true → ∃ h', pointSetY h a y = .ok h' ∧ SameRefs h h' ∧ (∀ c, primGrad h' c = primGrad h c) ∧
      primData h' (.point a) = [(h.points a).data.x, y] ∧ ∀ c, c ≠ .point a → primData h' c = primData h c) := by
  unfold pointSetY
  refine ⟨fun e => by simp [e], fun e => ?_⟩
  rw [if_pos e]
  refine ⟨_, rfl, ⟨rfl, rfl, fun _ => rfl, fun _ => rfl, fun _ => rfl, rfl, rfl, rfl, rfl, rfl⟩, ?_, ?_, ?_⟩
  · intro c; cases c <;> simp [primGrad, Heap.setPoint, upd_apply]
    split <;> simp_all
  · simp [primData, Heap.setPoint]
  · intro c hc; cases c <;> simp_all [primData, Heap.setPoint, upd_apply]

/-- **C55.** `set_data` of a point, arc or circle panics exactly on a wrong length or a non-finite entry, leaving
everything; otherwise it sets exactly that primitive's coordinates.  A line ignores the call. -/
theorem C55_prim_set_data (h : Heap F) (c : PrimCell) (d : List F) (hl : ∀ a, c ≠ .line a) :
    (d.length ≠ (primData h c).length ∨ (∃ x ∈ d, Num.isFinite x = false) → primSetData h c d = .error h) ∧
    (d.length = (primData h c).length ∧ (∀ x ∈ d, Num.isFinite x = true) → ∃ h', primSetData h c d = .ok h' ∧
      SameRefs h h' ∧ (∀ x, primGrad h' x = primGrad h x) ∧ primData h' c = d ∧
      ∀ x, x ≠ c → primData h' x = primData h x) := by
  refine ⟨?_, ?_⟩
  · intro hb
    have key : d.all Num.isFinite = true → d.length = (primData h c).length → False := by
      intro h1 h2
      rcases hb with hb | ⟨x, hx, hb⟩
      · exact hb h2
      · rw [List.all_eq_true] at h1; rw [h1 x hx] at hb; cases hb
    unfold primSetData
    cases c with
    | line a => exact (hl a rfl).elim
    | point a =>
      dsimp only; split
      · rename_i hf
        split
        · exact (key hf rfl).elim
        · rfl
      · rfl
    | arc a =>
      dsimp only; split
      · rename_i hf
        split
        · exact (key hf rfl).elim
        · rfl
      · rfl
    | circle a =>
      dsimp only; split
      · rename_i hf
        split
        · exact (key hf rfl).elim
        · rfl
      · rfl
  · rintro ⟨h1, h2⟩
    obtain ⟨h', e, p⟩ := primSetData_ok h c d h1 (List.all_eq_true.2 h2)
    have fr := primSetData_ok_frame e
    exact ⟨h', e, fr.1, fr.2.1, p, fr.2.2⟩

/-- **C55.** The constructor of a constraint (and the `constrain_*` helpers) panic exactly if a desired value is not
finite, before anything has changed. -/
theorem C55_constructors (w : World F) (c : Constraint F) :
    (consNewOk c = false ↔ ∃ x ∈ consParams c, Num.isFinite x = false) ∧
    ((∃ x ∈ consParams c, Num.isFinite x = false) → constrain w c = (.panic, w)) ∧
    ((∀ x ∈ consParams c, Num.isFinite x = true) → ∀ w', constrain w c ≠ (.panic, w')) := by
  have k : consNewOk c = false ↔ ∃ x ∈ consParams c, Num.isFinite x = false := by
    cases c <;> simp [consNewOk, consParams, Vec2.allFinite]
    case fix p d => cases Num.isFinite d.x <;> simp
  refine ⟨k, fun hb => ?_, fun hg w' => ?_⟩
  · unfold constrain; rw [k.2 hb]; rfl
  · have : consNewOk c = true := by
      cases e : consNewOk c with
      | true => rfl
      | false => obtain ⟨x, hx, hb⟩ := k.1 e; rw [hg x hx] at hb; cases hb
    unfold constrain
    rw [if_pos this]
    dsimp only
    split <;> simp

/-- **C55.** The other constructors and setters accept anything: `Point2::new` and `Arc::set_radius`-style writes put
whatever value they are given (here: NaN) into the sketch, and `get_data` hands it out. -/
theorem C55_unchecked (pinv : PInv F) (x y : F) :
    getData (step pinv World.init (.addPoint2 x y)).2.heap (step pinv World.init (.addPoint2 x y)).2.sketch = [x, y] := by
  simp [step, Op.live, Isotope.addPoint2, World.init, Heap.allocPoint, Sketch.new, Sketch.addPrimitive, primFields,
    Sketch.hasPrim, mapInsert, getData_eq, Sketch.cells, primData, Heap.setPoint, Point2.new]

example : consParams (.fix 0 ⟨.fin 1, .nan⟩ : Constraint XR) = [.fin 1, .nan] := rfl
example : ∃ x ∈ consParams (.fix 0 ⟨.fin 1, .nan⟩ : Constraint XR), Num.isFinite x = false := ⟨.nan, by simp [consParams], rfl⟩

end Isotope
