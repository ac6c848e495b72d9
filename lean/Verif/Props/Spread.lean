import Verif.Lemmas.Spread
import Verif.Props.Balance
import Verif.Props.Cut

/-!
# C114: constraints about directions never shrink a sketch

`spreadAbout`, `walkSq`, `apartSq` and `ScaleFree` are in `SpecSpread.lean`; `SolverKind.Exact` in `SpecStill.lean`; `RealPInv` in `SpecReal.lean`
and `CutPInv` in `SpecCut.lean`.
-/

namespace Isotope
open XR

variable {h : Heap XR} {s : Sketch}

/-- **C114.** The constraints of the sketch are `AngleBetweenPoints`, `ParallelLines` and `PerpendicularLines`.  In exact arithmetic a step of gradient
descent, of Gauss-Newton or of Levenberg-Marquardt makes the spread of the sketch about any point `(u, v)` larger by the squares of the ways of the
points. -/
theorem C114_step {pinv : PInv XR} (hp : RealPInv pinv) (hcut : CutPInv pinv) {k : SolverKind XR} (hk : k.Exact) (hb : ∀ p, k ≠ .bfgs p)
    (hn : s.cells.Nodup) (hc : Closed ⟨h, s⟩) (hf : FiniteSketch h s) (hu : ∀ i ∈ s.cons, ScaleFree (h.cons i)) (u v : ℝ) :
    ∀ st ∈ (runSolver pinv k h s).steps, spreadAbout s u v st.post = spreadAbout s u v st.pre + walkSq s st.pre st.post := by
  intro st hst
  have r := (step_field hp hcut hk hb hn hc hf hst (n := fun _ => 0) fun _ _ _ _ _ => by simp [form]).1
  rw [spread_form st.pre st.post, (step_field hp hcut hk hb hn hc hf hst (n := swell u v st.pre) fun cu fu i hi _ => ?_).2, mul_zero, add_zero]
  have := swell_form (u := u) (v := v) hn cu fu hi
  rw [r.cons] at this
  exact this (hu i hi)

theorem runSolver_leads {pinv : PInv XR} {k : SolverKind XR} (hb : ∀ p, k ≠ .bfgs p) (hr : (runSolver pinv k h s).res = .ok) :
    Leads h (runSolver pinv k h s).steps (runSolver pinv k h s).heap := by
  cases k with
  | gd p => exact ((gdSolve_run p h s).2.2 hr).1
  | bfgs p => exact absurd rfl (hb p)
  | gn p => exact C34_gn_leads pinv p h s (by change (gnSolve pinv p h s).res = .ok at hr; rw [hr]; simp)
  | lm p => exact C34_lm_leads pinv p h s (by change (lmSolve pinv p h s).res = .ok at hr; rw [hr]; simp)

/-- **C114.** Over a whole run the squares of the ways of the points in all steps add up to the growth of the spread. -/
theorem C114_run {pinv : PInv XR} (hp : RealPInv pinv) (hcut : CutPInv pinv) {k : SolverKind XR} (hk : k.Exact) (hb : ∀ p, k ≠ .bfgs p)
    (hn : s.cells.Nodup) (hc : Closed ⟨h, s⟩) (hf : FiniteSketch h s) (hu : ∀ i ∈ s.cons, ScaleFree (h.cons i))
    (hr : (runSolver pinv k h s).res = .ok) (u v : ℝ) :
    spreadAbout s u v (runSolver pinv k h s).heap =
      spreadAbout s u v h + ((runSolver pinv k h s).steps.map fun st => walkSq s st.pre st.post).sum := by
  have st := C114_step hp hcut hk hb hn hc hf hu u v
  have L := runSolver_leads hb hr
  generalize (runSolver pinv k h s).heap = hE at L ⊢
  generalize (runSolver pinv k h s).steps = l at L st ⊢
  clear hf hc hu hr
  induction l generalizing h with
  | nil => rw [spread_gradOnly L]; simp
  | cons r l ih =>
    rw [ih (h := r.post) L.2 (fun x hx => st x (List.mem_cons_of_mem _ hx)), st r List.mem_cons_self, spread_gradOnly L.1, List.map_cons,
      List.sum_cons]
    ring

/-- **C114.** So a run ends with a sketch that is spread at least as far about every point as the one it started from. -/
theorem C114_grows {pinv : PInv XR} (hp : RealPInv pinv) (hcut : CutPInv pinv) {k : SolverKind XR} (hk : k.Exact) (hb : ∀ p, k ≠ .bfgs p)
    (hn : s.cells.Nodup) (hc : Closed ⟨h, s⟩) (hf : FiniteSketch h s) (hu : ∀ i ∈ s.cons, ScaleFree (h.cons i))
    (hr : (runSolver pinv k h s).res = .ok) (u v : ℝ) : spreadAbout s u v h ≤ spreadAbout s u v (runSolver pinv k h s).heap := by
  rw [C114_run hp hcut hk hb hn hc hf hu hr u v]
  have : 0 ≤ ((runSolver pinv k h s).steps.map fun st => walkSq s st.pre st.post).sum :=
    List.sum_nonneg fun x hx => by obtain ⟨c, -, rfl⟩ := List.mem_map.1 hx; exact walkSq_nonneg _ _
  linarith

/-- **C114.** Nor does the sum of the squares of the distances of all pairs of points become smaller. -/
theorem C114_apart {pinv : PInv XR} (hp : RealPInv pinv) (hcut : CutPInv pinv) {k : SolverKind XR} (hk : k.Exact) (hb : ∀ p, k ≠ .bfgs p)
    (hn : s.cells.Nodup) (hc : Closed ⟨h, s⟩) (hf : FiniteSketch h s) (hu : ∀ i ∈ s.cons, ScaleFree (h.cons i))
    (hr : (runSolver pinv k h s).res = .ok) : apartSq s h ≤ apartSq s (runSolver pinv k h s).heap := by
  have a0 := C114_run hp hcut hk hb hn hc hf hu hr 0 0
  have a1 := C114_run hp hcut hk hb hn hc hf hu hr 1 0
  have a2 := C114_run hp hcut hk hb hn hc hf hu hr 0 1
  have a3 := C114_grows hp hcut hk hb hn hc hf hu hr 0 0
  unfold spreadAbout at a0 a1 a2 a3
  simp only [spread_expand] at a0 a1 a2 a3
  unfold apartSq
  rw [apart_expand, apart_expand]
  have x : cellsX s.cells (runSolver pinv k h s).heap = cellsX s.cells h := by linarith
  have y : cellsY s.cells (runSolver pinv k h s).heap = cellsY s.cells h := by linarith
  have n : 0 ≤ cellsN s.cells := List.sum_nonneg fun z hz => by
    obtain ⟨c, -, rfl⟩ := List.mem_map.1 hz
    cases c <;> simp
  rw [x, y]
  have := mul_le_mul_of_nonneg_left (show cellsQ s.cells h ≤ cellsQ s.cells (runSolver pinv k h s).heap by linarith) n
  linarith

/-- **C114.** In particular a sketch with two points at different places never ends with all points at one place. -/
theorem C114_collapse {pinv : PInv XR} (hp : RealPInv pinv) (hcut : CutPInv pinv) {k : SolverKind XR} (hk : k.Exact) (hb : ∀ p, k ≠ .bfgs p)
    (hn : s.cells.Nodup) (hc : Closed ⟨h, s⟩) (hf : FiniteSketch h s) (hu : ∀ i ∈ s.cons, ScaleFree (h.cons i))
    (hr : (runSolver pinv k h s).res = .ok) {a b : Nat} (ha : .point a ∈ s.cells) (hb' : .point b ∈ s.cells)
    (hx : ((h.points a).data.x.toReal, (h.points a).data.y.toReal) ≠ ((h.points b).data.x.toReal, (h.points b).data.y.toReal)) (u v : ℝ) :
    ∃ c, .point c ∈ s.cells ∧
      (((runSolver pinv k h s).heap.points c).data.x.toReal, ((runSolver pinv k h s).heap.points c).data.y.toReal) ≠ (u, v) := by
  by_contra hA
  push Not at hA
  have z : spreadAbout s u v (runSolver pinv k h s).heap = 0 := List.sum_eq_zero fun x hx => by
    obtain ⟨c, hm, rfl⟩ := List.mem_map.1 hx
    cases c with
    | point c =>
      obtain ⟨e1, e2⟩ := Prod.mk.inj (hA c hm)
      simp [primSpread, e1, e2]
    | _ => rfl
  have g := C114_grows hp hcut hk hb hn hc hf hu hr u v
  rw [z] at g
  have at0 : ∀ c, .point c ∈ s.cells → (h.points c).data.x.toReal = u ∧ (h.points c).data.y.toReal = v := fun c hm => by
    have le : primSpread u v h (.point c) ≤ spreadAbout s u v h :=
      List.single_le_sum (fun x hx => by obtain ⟨c, -, rfl⟩ := List.mem_map.1 hx; exact primSpread_nonneg c) _ (List.mem_map_of_mem hm)
    simp only [primSpread] at le
    have a1 := sq_nonneg ((h.points c).data.x.toReal - u)
    have a2 := sq_nonneg ((h.points c).data.y.toReal - v)
    exact ⟨sub_eq_zero.1 (pow_eq_zero_iff two_ne_zero |>.1 (by linarith)), sub_eq_zero.1 (pow_eq_zero_iff two_ne_zero |>.1 (by linarith))⟩
  exact hx (Prod.ext ((at0 a ha).1.trans (at0 b hb').1.symm) ((at0 a ha).2.trans (at0 b hb').2.symm))

/-! ## Examples -/

/-- four points, three lines in a chain, the first two to be at right angles, the first and the third parallel, and an angle of 1 at point 2 -/
noncomputable def stairHeap : Heap XR :=
  { (Heap.empty : Heap XR) with
    points := fun a => if a = 0 then ⟨⟨fin 0, fin 0⟩, ⟨fin 0, fin 0⟩⟩ else if a = 1 then ⟨⟨fin 4, fin 1⟩, ⟨fin 0, fin 0⟩⟩ else
      if a = 2 then ⟨⟨fin 5, fin 3⟩, ⟨fin 0, fin 0⟩⟩ else ⟨⟨fin 9, fin 3⟩, ⟨fin 0, fin 0⟩⟩
    nPoints := 4
    lines := fun l => ⟨l, l + 1⟩
    nLines := 3
    cons := fun k => if k = 0 then .perp 0 1 else if k = 1 then .parallel 0 2 else .angle 1 3 2 (fin 1)
    nCons := 3 }

def stairSketch : Sketch := ⟨[(0, .point 0), (1, .point 1), (2, .point 2), (3, .point 3), (4, .line 0), (5, .line 1), (6, .line 2)], 7, [0, 1, 2]⟩

theorem stair_nodup : stairSketch.cells.Nodup := by simp [Sketch.cells, stairSketch]
theorem stair_closed : Closed ⟨stairHeap, stairSketch⟩ := by
  simp [Closed, stairSketch, stairHeap, consFields, primFields, Sketch.cells]
theorem stair_finite : FiniteSketch stairHeap stairSketch :=
  ⟨by simp [getData, getNDofs, stairSketch, stairHeap, primData, zerosVec, blit], by simp [stairSketch, stairHeap, consParams]⟩
theorem stair_scaleFree : ∀ i ∈ stairSketch.cons, ScaleFree (stairHeap.cons i) := by simp [stairSketch, stairHeap, ScaleFree]

example (p : GDParams XR) (u v : ℝ) : ∀ st ∈ (runSolver cutPInv (.gd p) stairHeap stairSketch).steps,
    spreadAbout stairSketch u v st.post = spreadAbout stairSketch u v st.pre + walkSq stairSketch st.pre st.post :=
  C114_step cutPInv_real cutPInv_cut (k := .gd p) trivial (by simp) stair_nodup stair_closed stair_finite stair_scaleFree u v

/-- Gauss-Newton with its default parameters -/
example (hr : (runSolver cutPInv (.gn GNParams.default) stairHeap stairSketch).res = .ok) :
    apartSq stairSketch stairHeap ≤ apartSq stairSketch (runSolver cutPInv (.gn GNParams.default) stairHeap stairSketch).heap :=
  C114_apart cutPInv_real cutPInv_cut (k := .gn GNParams.default) ⟨⟨_, sci ..⟩, _, sci .., by norm_num⟩ (by simp) stair_nodup stair_closed stair_finite
    stair_scaleFree hr

/-- that run does end well: 141 is the spread of the stair about the origin at the start -/
example : 141 ≤ spreadAbout stairSketch 0 0 (runSolver cutPInv (.gn GNParams.default) stairHeap stairSketch).heap := by
  have hr : (runSolver cutPInv (.gn GNParams.default) stairHeap stairSketch).res = .ok :=
    C34_gn_ok cutPInv_good _ stair_nodup stair_closed stair_finite _ (sci ..) (by simp [getNDofs, stairSketch, stairHeap, primData])
      (by simp [stairSketch, stairHeap])
  refine le_trans (le_of_eq ?_) (C114_grows cutPInv_real cutPInv_cut (k := .gn GNParams.default) ⟨⟨_, sci ..⟩, _, sci .., by norm_num⟩ (by simp)
    stair_nodup stair_closed stair_finite stair_scaleFree hr 0 0)
  simp [spreadAbout, stairSketch, stairHeap, Sketch.cells, primSpread, toReal_fin]
  norm_num

/-- the spread of the stair about the origin is 0 + 17 + 34 + 90 -/
example (p : GDParams XR) (hr : (runSolver cutPInv (.gd p) stairHeap stairSketch).res = .ok) :
    141 ≤ spreadAbout stairSketch 0 0 (runSolver cutPInv (.gd p) stairHeap stairSketch).heap := by
  refine le_trans (le_of_eq ?_) (C114_grows cutPInv_real cutPInv_cut (k := .gd p) trivial (by simp) stair_nodup stair_closed stair_finite
    stair_scaleFree hr 0 0)
  simp [spreadAbout, stairSketch, stairHeap, Sketch.cells, primSpread, toReal_fin]
  norm_num

example (p : GDParams XR) (hr : (runSolver cutPInv (.gd p) stairHeap stairSketch).res = .ok) (u v : ℝ) :
    ∃ c, .point c ∈ stairSketch.cells ∧ (((runSolver cutPInv (.gd p) stairHeap stairSketch).heap.points c).data.x.toReal,
      ((runSolver cutPInv (.gd p) stairHeap stairSketch).heap.points c).data.y.toReal) ≠ (u, v) :=
  C114_collapse cutPInv_real cutPInv_cut (k := .gd p) trivial (by simp) stair_nodup stair_closed stair_finite stair_scaleFree hr (a := 0) (b := 1)
    (by simp [stairSketch, Sketch.cells]) (by simp [stairSketch, Sketch.cells]) (by simp [stairHeap, toReal_fin]) u v

end Isotope
