import Verif.Lemmas.Apart
import Verif.Lemmas.ExRun
import Verif.Props.Newton

/-!
# C91: sketches that share no object do not see each other

`SameObjects`, `Heap.graft`, `Sketch.Apart` and `Op.computes` are in `SpecApart.lean`.  (any arithmetic)
-/

namespace Isotope
variable {F : Type} [Num F]

/-- **C91 (reads).** If the primitives and constraints of a sketch are the same in two heaps, whatever else these hold, every solver makes
the same run on both: same result, same number of steps and line searches, same step sizes and matrices, and the same objects of the sketch
before and after every step and at the end. -/
theorem C91_reads (pinv : PInv F) (k : SolverKind F) {h h' : Heap F} {s : Sketch} (hc : Closed ⟨h, s⟩) (q : SameObjects s h h') :
    SameRun (SameObjects s) (SameObjects s) Eq (runSolver pinv k h s) (runSolver pinv k h' s) := by
  have r := run_graft h' hc pinv k
  rw [← q.eq] at r
  refine ⟨r.res, fun e => ?_, fun e => ?_, r.searches, r.failed, r.steps.imp fun a b e => ⟨?_, e.2.1, ?_, e.2.2.2⟩⟩
  · rw [(r.heap e).2]; exact sameObjects_graft _ _
  · rw [r.panicked e]; exact sameObjects_graft _ _
  · rw [e.1.2]; exact sameObjects_graft _ _
  · rw [e.2.2.1.2]; exact sameObjects_graft _ _

/-- **C91 (writes).** A solver leaves every object outside of its sketch exactly as it was, gradients included, also when it panics. -/
theorem C91_writes (pinv : PInv F) (k : SolverKind F) {h : Heap F} {s : Sketch} (hc : Closed ⟨h, s⟩) :
    (∀ a, .point a ∉ s.cells → (runSolver pinv k h s).heap.points a = h.points a) ∧
    (∀ a, .arc a ∉ s.cells → (runSolver pinv k h s).heap.arcs a = h.arcs a) ∧
    (∀ a, .circle a ∉ s.cells → (runSolver pinv k h s).heap.circles a = h.circles a) ∧
    (runSolver pinv k h s).heap.lines = h.lines ∧ (runSolver pinv k h s).heap.cons = h.cons := by
  have e := run_graft_heap h hc pinv k
  rw [← (SameObjects.refl s h).eq] at e
  have r := (runSolver_moves pinv k h s).1
  refine ⟨fun a ha => ?_, fun a ha => ?_, fun a ha => ?_, r.lines, r.cons⟩
  all_goals rw [e]; exact if_neg ha

omit [Num F] in
theorem heap_of_objects {h1 h2 : Heap F} (r : SameRefs h1 h2) (p : ∀ a, h2.points a = h1.points a) (q : ∀ a, h2.arcs a = h1.arcs a)
    (c : ∀ a, h2.circles a = h1.circles a) : h2 = h1 := by
  cases h1; cases h2
  simp only [Heap.mk.injEq]
  exact ⟨funext p, r.lines, funext q, funext c, r.cons, r.nPoints, r.nLines, r.nArcs, r.nCircles, r.nCons⟩

/-- **C91 (order).** Two sketches without a common primitive can be solved in either order, by any two solvers: each run gives the same
result as it would alone, and the final heaps are identical in every object, coordinate and gradient. -/
theorem C91_either_order (pinv pinv' : PInv F) (k k' : SolverKind F) {h : Heap F} {s t : Sketch} (hs : Closed ⟨h, s⟩)
    (ht : Closed ⟨h, t⟩) (ha : Sketch.Apart s t) :
    (runSolver pinv' k' (runSolver pinv k h s).heap t).res = (runSolver pinv' k' h t).res ∧
    (runSolver pinv k (runSolver pinv' k' h t).heap s).res = (runSolver pinv k h s).res ∧
    (runSolver pinv' k' (runSolver pinv k h s).heap t).heap = (runSolver pinv k (runSolver pinv' k' h t).heap s).heap := by
  have ha' : Sketch.Apart t s := fun c hc hm => ha c hm hc
  have other : ∀ {s t : Sketch} (pinv : PInv F) (k : SolverKind F), Closed ⟨h, s⟩ → Sketch.Apart t s →
      SameObjects t h (runSolver pinv k h s).heap := fun {s t} pinv k hs ha => by
    obtain ⟨p, a, c, l, n⟩ := C91_writes pinv k hs
    exact ⟨fun x hx => p x (ha _ hx), fun x _ => by rw [l], fun x hx => a x (ha _ hx), fun x hx => c x (ha _ hx), fun x _ => by rw [n]⟩
  have ot := other pinv k hs ha'
  have os := other pinv' k' ht ha
  have rs := (runSolver_moves pinv k h s).1
  have rt := (runSolver_moves pinv' k' h t).1
  have et := run_graft_heap (runSolver pinv k h s).heap ht pinv' k'
  rw [← ot.eq] at et
  have es := run_graft_heap (runSolver pinv' k' h t).heap hs pinv k
  rw [← os.eq] at es
  obtain ⟨ps, as, cs, -, -⟩ := C91_writes pinv k hs
  obtain ⟨pt, at', ct, -, -⟩ := C91_writes pinv' k' ht
  refine ⟨(C91_reads pinv' k' ht ot).res.symm, (C91_reads pinv k hs os).res.symm, ?_⟩
  have r1 := (runSolver_moves pinv' k' (runSolver pinv k h s).heap t).1
  have r2 := (runSolver_moves pinv k (runSolver pinv' k' h t).heap s).1
  refine heap_of_objects ((rt.trans r2).symm.trans (rs.trans r1)) (fun a => ?_) (fun a => ?_) (fun a => ?_)
  all_goals rw [et, es]; simp only [Heap.graft]
  · by_cases h1 : PrimCell.point a ∈ s.cells
    · rw [if_pos h1, if_neg (ha _ h1)]
    · rw [if_neg h1]
      split
      · rfl
      · rw [ps a h1, pt a ‹_›]
  · by_cases h1 : PrimCell.arc a ∈ s.cells
    · rw [if_pos h1, if_neg (ha _ h1)]
    · rw [if_neg h1]
      split
      · rfl
      · rw [as a h1, at' a ‹_›]
  · by_cases h1 : PrimCell.circle a ∈ s.cells
    · rw [if_pos h1, if_neg (ha _ h1)]
    · rw [if_neg h1]
      split
      · rfl
      · rw [cs a h1, ct a ‹_›]

/-- **C91 (histories).** A program owns any number of sketches.  Sketch `i` shares no primitive with the others.  In any history of
computing calls - `set_data`, `get_gradient`, `get_jacobian`, `check_gradients` of own constraints, solving with any solver - on these
sketches, in any order, the calls on sketch `i` return exactly what they would return if no call on any other sketch were made, and the
objects of sketch `i` end up the same. -/
theorem C91_histories (pinv : PInv F) (m : Multi F) (i : Nat) (s : Sketch) (hi : m.sketches[i]? = some s)
    (hcl : ∀ t ∈ m.sketches, Closed ⟨m.heap, t⟩) (ha : ∀ j t, j ≠ i → m.sketches[j]? = some t → Sketch.Apart s t) (ops : List (MOp F))
    (ho : ∀ x ∈ ops, ∃ j t op, x = .on j op ∧ m.sketches[j]? = some t ∧ op.computes t) :
    outsOn i ops (mrun pinv m ops).1 = (run pinv ⟨m.heap, s⟩ (callsOn i ops)).1 ∧
    SameObjects s (run pinv ⟨m.heap, s⟩ (callsOn i ops)).2.heap (mrun pinv m ops).2.heap := by
  suffices H : ∀ (ops : List (MOp F)) (h : Heap F) (m : Multi F), Closed ⟨h, s⟩ → SameObjects s h m.heap → m.heap.nCons = h.nCons →
      m.sketches[i]? = some s → (∀ t ∈ m.sketches, Closed ⟨m.heap, t⟩) → (∀ j t, j ≠ i → m.sketches[j]? = some t → Sketch.Apart s t) →
      (∀ x ∈ ops, ∃ j t op, x = .on j op ∧ m.sketches[j]? = some t ∧ op.computes t) →
      outsOn i ops (mrun pinv m ops).1 = (run pinv ⟨h, s⟩ (callsOn i ops)).1 ∧
      SameObjects s (run pinv ⟨h, s⟩ (callsOn i ops)).2.heap (mrun pinv m ops).2.heap from
    H ops m.heap m (hcl s (List.mem_of_getElem? hi)) (.refl s _) rfl hi hcl ha ho
  intro ops
  induction ops with
  | nil => intro h m _ q _ _ _ _ _; exact ⟨rfl, q⟩
  | cons x ops ih =>
    intro h m hc q hn hi hcl ha ho
    obtain ⟨j, t, op, rfl, hj, hop⟩ := ho x (by simp)
    obtain ⟨rt, st⟩ := step_refs pinv m.heap hop
    have htc := hcl t (List.mem_of_getElem? hj)
    have hjl := (List.getElem?_eq_some_iff.1 hj).1
    have hset : m.sketches.set j t = m.sketches := by
      apply List.ext_getElem?
      intro n
      by_cases e : j = n
      · subst e; rw [List.getElem?_set_self hjl, hj]
      · rw [List.getElem?_set_ne e]
    have em : (mstep pinv m (.on j op)).2 = ⟨(step pinv ⟨m.heap, t⟩ op).2.heap, m.sketches⟩ := by
      rw [mstep_on hj, st, hset]
    have eo : (mstep pinv m (.on j op)).1 = (step pinv ⟨m.heap, t⟩ op).1 := by rw [mstep_on hj]
    have hcl' : ∀ u ∈ m.sketches, Closed ⟨(step pinv ⟨m.heap, t⟩ op).2.heap, u⟩ := fun u hu => (hcl u hu).same rt
    have ho' : ∀ x ∈ ops, ∃ j t op, x = .on j op ∧ m.sketches[j]? = some t ∧ op.computes t := fun x hx => ho x (by simp [hx])
    by_cases e : j = i
    · subst e
      obtain rfl : t = s := Option.some.inj (hj.symm.trans hi)
      obtain ⟨o1, q1⟩ := step_same pinv hc q hn hop
      obtain ⟨rs, ss⟩ := step_refs pinv h hop
      have := ih (step pinv ⟨h, t⟩ op).2.heap ⟨(step pinv ⟨m.heap, t⟩ op).2.heap, m.sketches⟩ (hc.same rs) q1
        (by show (step pinv ⟨m.heap, t⟩ op).2.heap.nCons = _; rw [rt.nCons, rs.nCons, hn]) hi hcl' ha ho'
      have ew : (⟨(step pinv ⟨h, t⟩ op).2.heap, t⟩ : World F) = (step pinv ⟨h, t⟩ op).2 := by
        conv_rhs => rw [show (step pinv ⟨h, t⟩ op).2 = ⟨(step pinv ⟨h, t⟩ op).2.heap, (step pinv ⟨h, t⟩ op).2.sketch⟩ from rfl, ss]
      have ec : callsOn j (.on j op :: ops) = op :: callsOn j ops := by simp [callsOn]
      rw [ew] at this
      rw [ec]
      simp only [mrun, run, em, eo]
      refine ⟨?_, this.2⟩
      rw [← this.1, ← o1]
      simp [outsOn]
    · have qo := step_other pinv htc hop (ha j t e hj)
      have := ih h ⟨(step pinv ⟨m.heap, t⟩ op).2.heap, m.sketches⟩ hc (q.trans qo)
        (by show (step pinv ⟨m.heap, t⟩ op).2.heap.nCons = _; rw [rt.nCons, hn]) hi hcl' ha ho'
      have ec : callsOn i (.on j op :: ops) = callsOn i ops := by simp [callsOn, e]
      rw [ec]
      simp only [mrun, em]
      refine ⟨?_, this.2⟩
      rw [← this.1]
      simp [outsOn, e]

/-! ## Example -/

open XR

/-- two points at the origin, point 0 to be fixed at `(3, 4)`, point 1 at `(5, 6)` -/
noncomputable def pairHeap : Heap XR :=
  { (fixHeap 3 4 0 0 0 0) with
    cons := upd (fixHeap 3 4 0 0 0 0).cons 1 (.fix 1 ⟨fin 5, fin 6⟩)
    nPoints := 2
    nCons := 2 }

/-- the sketch with point 1 and its constraint -/
def otherSketch : Sketch := ⟨[(0, .point 1)], 1, [1]⟩

theorem pair_closed : Closed ⟨pairHeap, fixSketch⟩ ∧ Closed ⟨pairHeap, otherSketch⟩ := by
  constructor <;> constructor <;>
    simp [pairHeap, fixHeap, fixSketch, otherSketch, Sketch.cells, primFields, consFields, upd]

theorem pair_apart : Sketch.Apart fixSketch otherSketch := by simp [Sketch.Apart, fixSketch, otherSketch, Sketch.cells]

theorem pair_objects : SameObjects fixSketch (fixHeap 3 4 0 0 0 0) pairHeap := by
  constructor <;> simp [pairHeap, fixHeap, fixSketch, Sketch.cells, upd]

/-- gradient descent takes point 0 to `(3, 4)` and leaves point 1 where it is -/
example (pinv : PInv XR) : (runSolver pinv (.gd ⟨10, 1e-14, 1e-10⟩) pairHeap fixSketch).res = .ok ∧
    ptData (runSolver pinv (.gd ⟨10, 1e-14, 1e-10⟩) pairHeap fixSketch).heap 0 = ⟨fin 3, fin 4⟩ ∧
    (runSolver pinv (.gd ⟨10, 1e-14, 1e-10⟩) pairHeap fixSketch).heap.points 1 = pairHeap.points 1 := by
  have e := fix_gdSolve (x := 3) (y := 4) (a := 0) (b := 0) (u := 0) (v := 0) 9 (by norm_num)
  have e' : runSolver pinv (.gd ⟨10, 1e-14, 1e-10⟩) (fixHeap 3 4 0 0 0 0) fixSketch = _ := e
  have q := C91_reads pinv (.gd ⟨10, 1e-14, 1e-10⟩) (fix_closed 3 4 0 0 0 0) pair_objects
  refine ⟨by rw [← q.res, e'], ?_, (C91_writes pinv _ pair_closed.1).1 1 (by simp [fixSketch, Sketch.cells])⟩
  have p := (q.heap (by rw [e']; simp)).points 0 (by simp [fixSketch, Sketch.cells])
  rw [e'] at p
  unfold ptData
  rw [p]
  simp [fixHeap, upd]

/-- either order, BFGS for the one and gradient descent for the other -/
example (pinv : PInv XR) (p : BFGSParams XR) (g : GDParams XR) :
    (runSolver pinv (.gd g) (runSolver pinv (.bfgs p) pairHeap fixSketch).heap otherSketch).heap =
      (runSolver pinv (.bfgs p) (runSolver pinv (.gd g) pairHeap otherSketch).heap fixSketch).heap :=
  (C91_either_order pinv pinv (.bfgs p) (.gd g) pair_closed.1 pair_closed.2 pair_apart).2.2

/-- the solver run on sketch 0 between calls on sketch 1 returns `Ok` -/
example (pinv : PInv XR) (p : BFGSParams XR) (d : List XR) :
    outsOn 0 [.on 1 (.solve (.bfgs p)), .on 0 (.solve (.gd ⟨10, 1e-14, 1e-10⟩)), .on 1 (.setData d)]
      (mrun pinv ⟨pairHeap, [fixSketch, otherSketch]⟩
        [.on 1 (.solve (.bfgs p)), .on 0 (.solve (.gd ⟨10, 1e-14, 1e-10⟩)), .on 1 (.setData d)]).1 = [.solved .ok] := by
  have q := C91_histories pinv ⟨pairHeap, [fixSketch, otherSketch]⟩ 0 fixSketch rfl
    (by simpa using pair_closed)
    (by
      intro j t hj ht
      match j with
      | 0 => exact absurd rfl hj
      | 1 => cases ht; exact pair_apart
      | n + 2 => cases ht)
    [.on 1 (.solve (.bfgs p)), .on 0 (.solve (.gd ⟨10, 1e-14, 1e-10⟩)), .on 1 (.setData d)]
    (by
      intro x hx
      simp only [List.mem_cons, List.not_mem_nil, or_false] at hx
      rcases hx with rfl | rfl | rfl
      · exact ⟨1, otherSketch, _, rfl, rfl, trivial⟩
      · exact ⟨0, fixSketch, _, rfl, rfl, trivial⟩
      · exact ⟨1, otherSketch, _, rfl, rfl, trivial⟩)
  rw [q.1]
  have e := fix_gdSolve (x := 3) (y := 4) (a := 0) (b := 0) (u := 0) (v := 0) 9 (by norm_num)
  have e' : runSolver pinv (.gd ⟨10, 1e-14, 1e-10⟩) (fixHeap 3 4 0 0 0 0) fixSketch = _ := e
  have r := (C91_reads pinv (.gd ⟨10, 1e-14, 1e-10⟩) (fix_closed 3 4 0 0 0 0) pair_objects).res
  rw [e'] at r
  simp only [callsOn, run, step, Op.live, List.filterMap_cons, List.filterMap_nil, Nat.one_ne_zero, if_false, if_true, Bool.not_true,
    Bool.false_eq_true, ← r]

end Isotope
