import Verif.Lemmas.Still
import Verif.Props.Part

/-!
# C96: solving leaves alone what is satisfied and not connected to anything else

`Sketch.MadeOf`, `Sketch.Covers`, `Satisfied`, `AlikeKeeping` and `SolverKind.Exact` are in `SpecStill.lean`, `SameRun` in `SpecAlike.lean`,
`CutPInv` in `SpecCut.lean`.  (exact arithmetic)
-/

namespace Isotope
open XR

section
variable {pinv : PInv XR} {k : SolverKind XR} {h : Heap XR} {s t u : Sketch}

theorem Satisfied.each (hf : FiniteSketch h s) (hc : s.Covers h) (w : Satisfied h s) {k : Nat} (hk : k ∈ s.cons) :
    lossValue h (h.cons k) = fin 0 ∧ ¬DegenerateEqLen h (h.cons k) := by
  refine ⟨w.1 k hk, fun hd => ?_⟩
  obtain ⟨q, e⟩ := w.2
  obtain ⟨h', e'⟩ := (getGradient_exact h s (hc.finite hf)).2 ⟨k, hk, hd⟩
  rw [e'] at e; cases e

/-- **C96 (as if it were not there).** Let a sketch be made of two sketches `s` and `t` that have no primitive in common and whose constraints
look only at primitives of their own, and let all constraints of `s` be satisfied.  Then all four solvers run on the whole as they run
on `t` alone: same result, same number of steps and line searches, same step sizes, at every step and at the end the same
coordinates of everything; the coordinates of `s` are always those at the start. -/
theorem C96_run (hp : CutPInv pinv) (hk : k.Exact) (hn : u.cells.Nodup) (made : u.MadeOf s t) (hs : s.Covers h) (ht : t.Covers h)
    (hne : 0 < getNDofs h t) (hf : FiniteSketch h u) (sat : Satisfied h s) :
    SameRun (AlikeKeeping h s) (AlikeKeeping h s) (fun _ _ => True) (runSolver pinv k h u) (runSolver pinv k h t) := by
  have hfs := (made_finite made hf).2
  refine sameRun_mono (beside_run made hn hs ht (fun _ hk => sat.each hfs hs hk) hp hk ?_ hf) (fun a b w => ⟨w.grad, w.still⟩)
    (fun a b w => ⟨w.grad, w.still⟩) fun _ _ => id
  rintro e
  rw [← dofs_length h, e] at hne
  exact absurd hne (by simp)

/-- **C96 (it stays).** In the same situation no coordinate of `s` is changed, neither by a step nor at the end, whatever the result - even a
panic. -/
theorem C96_stays (hp : CutPInv pinv) (hk : k.Exact) (hn : u.cells.Nodup) (made : u.MadeOf s t) (hs : s.Covers h) (ht : t.Covers h)
    (hne : 0 < getNDofs h t) (hf : FiniteSketch h u) (sat : Satisfied h s) :
    SameData s h (runSolver pinv k h u).heap ∧ ∀ r ∈ (runSolver pinv k h u).steps, SameData s h r.pre ∧ SameData s h r.post := by
  have w := C96_run hp hk hn made hs ht hne hf sat
  refine ⟨?_, ?_⟩
  · by_cases hr : (runSolver pinv k h u).res = .panic
    · exact (w.panicked hr).2
    · exact (w.heap hr).2
  · have := w.steps
    generalize (runSolver pinv k h u).steps = l at this
    generalize (runSolver pinv k h t).steps = l' at this
    induction this with
    | nil => simp
    | cons q _ ih =>
      intro r hr
      rcases List.mem_cons.1 hr with rfl | hr
      · exact ⟨q.1.2, q.2.2.1.2⟩
      · exact ih r hr

/-- every constraint looks at a coordinate -/
theorem deps_dofs (h : Heap XR) (c : Constraint XR) : ∃ x ∈ consDeps h c, dofs x ≠ [] := by
  cases c with
  | angle a _ _ _ => exact ⟨.point a, by simp [consDeps, consFields], by simp [dofs]⟩
  | arcEnd _ p | arcStart _ p | fix p _ | euclid p _ _ | horizDist p _ _ | vertDist p _ _ =>
    exact ⟨.point p, by simp [consDeps, consFields], by simp [dofs]⟩
  | eqLen l _ | parallel l _ | perp l _ | horizLine l | vertLine l =>
    exact ⟨.point (h.lines l).start, by simp [consDeps, consFields, primFields], by simp [dofs]⟩

open Classical in
/-- **C96 (what no constraint looks at).** A primitive that no constraint of the sketch looks at - it is neither mentioned in a constraint nor
the end of a line mentioned in one - is not moved by any solver, not even for a while. -/
theorem C96_free (hp : CutPInv pinv) (hk : k.Exact) (hn : u.cells.Nodup) (hu : u.Covers h) (hne : u.cons ≠ []) (hf : FiniteSketch h u) {c : PrimCell}
    (hc : c ∈ u.cells) (free : ∀ k ∈ u.cons, c ∉ consDeps h (h.cons k)) :
    primData (runSolver pinv k h u).heap c = primData h c ∧
    ∀ r ∈ (runSolver pinv k h u).steps, primData r.pre c = primData h c ∧ primData r.post c = primData h c := by
  let P : Nat × PrimCell → Bool := fun x => decide (∀ k ∈ u.cons, x.2 ∉ consDeps h (h.cons k))
  let s : Sketch := ⟨u.prims.filter P, 0, []⟩
  let t : Sketch := ⟨u.prims.filter (fun x => !P x), 0, u.cons⟩
  have made : u.MadeOf s t := by
    refine ⟨?_, .refl _⟩
    have := (List.filter_append_perm P u.prims).symm.map (fun x => x.2)
    rw [List.map_append] at this
    exact this
  have mt : ∀ x ∈ u.cells, (∃ k ∈ u.cons, x ∈ consDeps h (h.cons k)) → x ∈ t.cells := by
    intro x hx hk
    obtain ⟨y, hy, rfl⟩ := List.mem_map.1 hx
    refine List.mem_map.2 ⟨y, List.mem_filter.2 ⟨hy, ?_⟩, rfl⟩
    simp only [P, Bool.not_eq_true', decide_eq_false_iff_not]
    push Not
    exact hk
  have ms : c ∈ s.cells := by
    obtain ⟨y, hy, rfl⟩ := List.mem_map.1 hc
    refine List.mem_map.2 ⟨y, List.mem_filter.2 ⟨hy, ?_⟩, rfl⟩
    simpa [P] using free
  have ht : t.Covers h := fun k hk x hx => mt x (hu k hk x hx) ⟨k, hk, hx⟩
  have hne' : 0 < getNDofs h t := by
    obtain ⟨k, hk⟩ := List.exists_mem_of_ne_nil _ hne
    obtain ⟨x, hx, hd⟩ := deps_dofs h (h.cons k)
    obtain ⟨d, hd⟩ := List.exists_mem_of_ne_nil _ hd
    rw [← dofs_length]
    exact List.length_pos_of_mem (List.mem_flatMap.2 ⟨x, ht k hk x hx, hd⟩)
  have hs : s.Covers h := fun k hk => absurd hk (by simp [s])
  have sat : Satisfied h s := by
    refine ⟨fun k hk => absurd hk (by simp [s]), ?_⟩
    obtain ⟨h', -, -, e⟩ := (getGradient_exact h s (hs.finite (made_finite made hf).2)).1 fun k hk => absurd hk (by simp [s])
    exact ⟨_, e⟩
  obtain ⟨a, b⟩ := C96_stays hp hk hn made hs ht hne' hf sat
  exact ⟨a c ms, fun r hr => ⟨(b r hr).1 c ms, (b r hr).2 c ms⟩⟩

end

/-! ## Examples -/

/-- point 1 with its two constraints -/
def duoRest : Sketch := ⟨[(0, .point 1)], 1, [1, 2]⟩

/-- point 0 is where it should be, point 1 is not: the hypotheses are met, for all four solvers -/
example (k : SolverKind XR) (hk : k.Exact) : SameRun (AlikeKeeping (duoHeap 1 0 0 0) fixSketch) (AlikeKeeping (duoHeap 1 0 0 0) fixSketch)
    (fun _ _ => True) (runSolver cutPInv k (duoHeap 1 0 0 0) duoSketch) (runSolver cutPInv k (duoHeap 1 0 0 0) duoRest) := by
  have hs : fixSketch.Covers (duoHeap 1 0 0 0) := by
    simp [Sketch.Covers, fixSketch, duoHeap, Sketch.cells, consDeps, consFields, primFields, upd]
  have ht : duoRest.Covers (duoHeap 1 0 0 0) := by
    simp [Sketch.Covers, duoRest, duoHeap, Sketch.cells, consDeps, consFields, primFields, upd]
  have made : duoSketch.MadeOf fixSketch duoRest := by
    refine ⟨?_, ?_⟩ <;> simp [duoSketch, fixSketch, duoRest, Sketch.cells]
  have hf := duo_finite 1 0 0 0
  refine C96_run cutPInv_cut hk (by simp [duoSketch, Sketch.cells]) made hs ht (by simp [duoRest, getNDofs, primData]) hf ?_
  have loss : ∀ k ∈ fixSketch.cons, lossValue (duoHeap 1 0 0 0) ((duoHeap 1 0 0 0).cons k) = fin 0 := by
    simp [fixSketch, duoHeap, lossValue, ptData, Vec2.normSq, upd]
  refine ⟨loss, ?_⟩
  obtain ⟨h', -, -, e⟩ := (getGradient_exact _ fixSketch (hs.finite (made_finite made hf).2)).1 (by
    simp [fixSketch, duoHeap, DegenerateEqLen, upd])
  exact ⟨_, e⟩

/-- default parameters are such parameters -/
example : (SolverKind.gn ⟨10000, fin 1e-6, fin 1e-3, fin 1e-6⟩ : SolverKind XR).Exact ∧
    (SolverKind.lm ⟨1000, fin 1e-10, fin 0.1, fin 1e-6, fin 1e-5⟩ : SolverKind XR).Exact :=
  ⟨⟨⟨_, rfl⟩, _, rfl, by norm_num⟩, ⟨_, rfl⟩, ⟨_, rfl, by norm_num⟩, _, rfl, by norm_num⟩

/-- points 0 and 1 of which only point 1 is constrained -/
example (k : SolverKind XR) (hk : k.Exact) (a c : ℝ) :
    ptData (runSolver cutPInv k (duoHeap a c 0 0) { duoSketch with cons := [1] }).heap 0 = ⟨fin a, fin 0⟩ := by
  have q := (C96_free (u := { duoSketch with cons := [1] }) (h := duoHeap a c 0 0) (c := .point 0) cutPInv_cut hk
    (by simp [duoSketch, Sketch.cells])
    (by simp [Sketch.Covers, duoSketch, duoHeap, Sketch.cells, consDeps, consFields, primFields, upd]) (by simp)
    ⟨(duo_finite a c 0 0).1, by simp [duoHeap, upd, consParams]⟩ (by simp [duoSketch, Sketch.cells])
    (by simp [duoHeap, consDeps, consFields, primFields, upd])).1
  refine (pt_of_primData q).trans ?_
  simp [duoHeap, upd]

end Isotope
