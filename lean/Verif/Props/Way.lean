import Verif.Lemmas.Way
import Verif.Props.LeastSquares
import Verif.Props.Spread

/-!
# C115: gradient descent moves a sketch no farther than the loss it gains allows

`dataWay` is in `SpecWay.lean`; `spreadAbout` and `ScaleFree` are in `SpecSpread.lean`.
-/

namespace Isotope
open XR

variable {h : Heap XR} {s : Sketch}

/-- the steps of a run, seen from the start -/
theorem gd_ways (hn : s.cells.Nodup) (hc : Closed ⟨h, s⟩) (hf : FiniteSketch h s) (p : GDParams XR) {L : ℝ}
    {hE : Heap XR} {l : List (StepRec XR)} (hl : ∀ st ∈ l, st ∈ (gdSolve p h s).steps) {h1 : Heap XR} (hl1 : Leads h1 l hE)
    (hL1 : getLoss h1 s = fin L) : ∃ L', getLoss hE s = fin L' ∧
      (l.map fun st => dataWay (getData st.pre s) (getData st.post s)).sum ≤ 10 ^ 4 * 1.5 ^ 14 * (L - L') := by
  induction l generalizing h1 L with
  | nil => exact ⟨L, by rw [hl1.getLoss, hL1], by simp⟩
  | cons r l ih =>
    obtain ⟨L2, e2, w2⟩ := gd_way hn (fun i hi c q => hc.deps hi q) hf p (hl r List.mem_cons_self) (L := L) (by rw [hl1.1.getLoss, hL1])
    obtain ⟨L3, e3, w3⟩ := ih (fun st hst => hl st (List.mem_cons_of_mem _ hst)) hl1.2 e2
    refine ⟨L3, e3, ?_⟩
    rw [List.map_cons, List.sum_cons]
    linarith

/-- **C115.** In exact arithmetic, on any sketch with finite coordinates, parameters and loss: if gradient descent ends without an error, then the loss
is finite at the end and the squares of the changes of all coordinates in all steps add up to at most `10⁴ · 1.5¹⁴` times the loss gained. -/
theorem C115_ways (hn : s.cells.Nodup) (hc : Closed ⟨h, s⟩) (hf : FiniteSketch h s) (p : GDParams XR) {L : ℝ} (hL : getLoss h s = fin L)
    (hr : (gdSolve p h s).res = .ok) : ∃ L', getLoss (gdSolve p h s).heap s = fin L' ∧
      ((gdSolve p h s).steps.map fun st => dataWay (getData st.pre s) (getData st.post s)).sum ≤ 10 ^ 4 * 1.5 ^ 14 * (L - L') :=
  gd_ways hn hc hf p (fun _ => id) ((gdSolve_run p h s).2.2 hr).1 hL

/-- **C115.** The square of the way of the whole sketch, from the first to the last state, is at most the number of steps times that. -/
theorem C115_far (hn : s.cells.Nodup) (hc : Closed ⟨h, s⟩) (hf : FiniteSketch h s) (p : GDParams XR) {L : ℝ} (hL : getLoss h s = fin L)
    (hr : (gdSolve p h s).res = .ok) : ∃ L', getLoss (gdSolve p h s).heap s = fin L' ∧
      dataWay (getData h s) (getData (gdSolve p h s).heap s) ≤ (gdSolve p h s).steps.length * (10 ^ 4 * 1.5 ^ 14 * (L - L')) := by
  obtain ⟨L', e, w⟩ := C115_ways hn hc hf p hL hr
  refine ⟨L', e, le_trans ?_ (mul_le_mul_of_nonneg_left w (Nat.cast_nonneg _))⟩
  have lead := ((gdSolve_run p h s).2.2 hr).1
  rw [dataWay_dofs]
  simp only [dataWay_dofs]
  generalize (gdSolve p h s).steps = l at lead ⊢
  have sw : (l.map fun st => (s.dofs.map fun d => ((val st.post d).toReal - (val st.pre d).toReal) ^ 2).sum).sum =
      (s.dofs.map fun d => (l.map fun st => ((val st.post d).toReal - (val st.pre d).toReal) ^ 2).sum).sum := by
    clear w lead
    induction l with
    | nil => simp
    | cons r l ih => simp only [List.map_cons, List.sum_cons, ih, ← List.sum_map_add]
  rw [sw, ← List.sum_map_mul_left]
  exact List.sum_le_sum fun d _ => way_steps d _ _ lead

/-- **C115.** With the default parameters: a sketch whose loss is below `ε² / (3·10¹⁰)` is nowhere moved by more than `ε`. -/
theorem C115_default (hn : s.cells.Nodup) (hc : Closed ⟨h, s⟩) (hf : FiniteSketch h s) {L ε : ℝ} (hL : getLoss h s = fin L)
    (hε : 3 * 10 ^ 10 * L ≤ ε ^ 2) (h0 : 0 ≤ ε) (hr : (gdSolve GDParams.default h s).res = .ok) {a : Nat} (ha : .point a ∈ s.cells) :
    |((gdSolve GDParams.default h s).heap.points a).data.x.toReal - (h.points a).data.x.toReal| ≤ ε ∧
    |((gdSolve GDParams.default h s).heap.points a).data.y.toReal - (h.points a).data.y.toReal| ≤ ε := by
  obtain ⟨L', e, w⟩ := C115_far hn hc hf GDParams.default hL hr
  have n1 : ((gdSolve GDParams.default h s).steps.length : ℝ) ≤ 10000 := by
    have := (gdSolve_run (GDParams.default : GDParams XR) h s).1
    exact_mod_cast this
  have p0 : ∀ {k : Heap XR} {x : ℝ}, getLoss k s = fin x → 0 ≤ x := fun {k x} q => by
    rcases loss_total_notNeg k s with ⟨r, r0, e⟩ | e | e <;> rw [q] at e <;> cases e
    exact r0
  have l0 := p0 e
  have l1 := p0 hL
  have b : dataWay (getData h s) (getData (gdSolve GDParams.default h s).heap s) ≤ ε ^ 2 := by
    by_cases q : L - L' < 0
    · have : (gdSolve GDParams.default h s).steps.length * (10 ^ 4 * 1.5 ^ 14 * (L - L')) ≤ 0 :=
        mul_nonpos_of_nonneg_of_nonpos (Nat.cast_nonneg _) (by nlinarith)
      exact w.trans (this.trans (sq_nonneg ε))
    · refine w.trans (le_trans (mul_le_mul_of_nonneg_right n1 (mul_nonneg (by norm_num) (not_lt.1 q))) (le_trans ?_ hε))
      norm_num
      linarith
  rw [dataWay_dofs] at b
  have one : ∀ d ∈ s.dofs, |(val (gdSolve GDParams.default h s).heap d).toReal - (val h d).toReal| ≤ ε := fun d hd => by
    refine abs_le_of_sq_le_sq (le_trans ?_ b) h0
    exact List.single_le_sum (l := s.dofs.map fun d => ((val (gdSolve GDParams.default h s).heap d).toReal - (val h d).toReal) ^ 2)
      (fun x hx => by obtain ⟨c, -, rfl⟩ := List.mem_map.1 hx; positivity) _ (List.mem_map_of_mem hd)
  exact ⟨one (.px a) (mem_sketch_dofs.2 ha), one (.py a) (mem_sketch_dofs.2 ha)⟩

/-- **C115.** If the constraints are about directions only (C114), gradient descent does not blow the sketch up either, however many steps it makes:
its spread about any point grows by no more than `10⁴ · 1.5¹⁴` times the loss gained. -/
theorem C115_spread (hn : s.cells.Nodup) (hc : Closed ⟨h, s⟩) (hf : FiniteSketch h s) (hu : ∀ i ∈ s.cons, ScaleFree (h.cons i))
    (p : GDParams XR) {L : ℝ} (hL : getLoss h s = fin L) (hr : (gdSolve p h s).res = .ok) (u v : ℝ) :
    ∃ L', getLoss (gdSolve p h s).heap s = fin L' ∧ spreadAbout s u v h ≤ spreadAbout s u v (gdSolve p h s).heap ∧
      spreadAbout s u v (gdSolve p h s).heap ≤ spreadAbout s u v h + 10 ^ 4 * 1.5 ^ 14 * (L - L') := by
  obtain ⟨L', e, w⟩ := C115_ways hn hc hf p hL hr
  refine ⟨L', e, C114_grows cutPInv_real cutPInv_cut (k := .gd p) trivial (by simp) hn hc hf hu hr u v, ?_⟩
  have := C114_run cutPInv_real cutPInv_cut (k := .gd p) trivial (by simp) hn hc hf hu hr u v
  refine (le_of_eq this).trans (add_le_add_right (le_trans (List.sum_le_sum fun st _ => ?_) w) _)
  rw [dataWay_dofs]
  unfold walkSq Sketch.dofs
  rw [List.map_flatMap]
  induction s.cells with
  | nil => simp
  | cons c l ih =>
    rw [List.map_cons, List.sum_cons, List.flatMap_cons, List.sum_append]
    refine add_le_add ?_ ih
    cases c <;> simp [primWalk, dofs, val] <;> positivity

/-! ## Examples -/

theorem five_ok : (gdSolve GDParams.default fiveHeap clashSketch).res = .ok := by
  obtain ⟨-, -, -, -, -, e, -⟩ := C94_gd (h := fiveHeap) (s := clashSketch) (N := 2) (K := 3) (by decide)
    ((clash_closed 0).sameRefs five_refs) five_finite (clash_linear 0) (by decide) (by decide) (by decide) (by decide) (by decide) (by decide)
    10000 (ml := 1e-14) (mg := 1e-10) (by norm_num)
  exact e

theorem five_total : getLoss fiveHeap clashSketch = fin (∑ i ∈ Finset.range 3, (5 - clashGoal i) ^ 2 / 2) :=
  getLoss_of_sum (s := clashSketch) fun i hi => by
    have : clashSketch.cons[i] = i := by
      have : i = 0 ∨ i = 1 ∨ i = 2 := by simp [clashSketch] at hi; omega
      rcases this with rfl | rfl | rfl <;> rfl
    rw [five_loss (List.getElem_mem hi), this]

/-- the sketch of C94 with three clashing distances, solved with the default parameters -/
example : ∃ L', getLoss (gdSolve GDParams.default fiveHeap clashSketch).heap clashSketch = fin L' ∧
    dataWay (getData fiveHeap clashSketch) (getData (gdSolve GDParams.default fiveHeap clashSketch).heap clashSketch) ≤
      (gdSolve GDParams.default fiveHeap clashSketch).steps.length *
        (10 ^ 4 * 1.5 ^ 14 * ((∑ i ∈ Finset.range 3, (5 - clashGoal i) ^ 2 / 2) - L')) :=
  C115_far (by decide) ((clash_closed 0).sameRefs five_refs) five_finite _ five_total five_ok

example : ∃ L', getLoss (gdSolve GDParams.default fiveHeap clashSketch).heap clashSketch = fin L' ∧
    ((gdSolve GDParams.default fiveHeap clashSketch).steps.map fun st => dataWay (getData st.pre clashSketch) (getData st.post clashSketch)).sum ≤
      10 ^ 4 * 1.5 ^ 14 * ((∑ i ∈ Finset.range 3, (5 - clashGoal i) ^ 2 / 2) - L') :=
  C115_ways (by decide) ((clash_closed 0).sameRefs five_refs) five_finite _ five_total five_ok

/-- its second point -/
example {ε : ℝ} (h0 : 0 ≤ ε) (hε : 3 * 10 ^ 10 * (∑ i ∈ Finset.range 3, (5 - clashGoal i) ^ 2 / 2) ≤ ε ^ 2) :
    |((gdSolve GDParams.default fiveHeap clashSketch).heap.points 1).data.x.toReal - 5| ≤ ε := by
  have := (C115_default (a := 1) (by decide) ((clash_closed 0).sameRefs five_refs) five_finite five_total hε h0 five_ok (by decide)).1
  simpa [fiveHeap, toReal_fin] using this

/-- the stair of C114 -/
example (p : GDParams XR) {L : ℝ} (hL : getLoss stairHeap stairSketch = fin L) (hr : (gdSolve p stairHeap stairSketch).res = .ok) :
    ∃ L', getLoss (gdSolve p stairHeap stairSketch).heap stairSketch = fin L' ∧
      spreadAbout stairSketch 0 0 stairHeap ≤ spreadAbout stairSketch 0 0 (gdSolve p stairHeap stairSketch).heap ∧
      spreadAbout stairSketch 0 0 (gdSolve p stairHeap stairSketch).heap ≤ spreadAbout stairSketch 0 0 stairHeap + 10 ^ 4 * 1.5 ^ 14 * (L - L') :=
  C115_spread stair_nodup stair_closed stair_finite stair_scaleFree p hL hr 0 0

end Isotope
