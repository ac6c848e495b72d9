import Verif.Lemmas.Torque
import Verif.Props.Balance

/-!
# C113: no step turns a sketch

`turning` and `Undirected` are in `SpecTorque.lean`; `SolverKind.Exact` in `SpecStill.lean`; `RealPInv` in `SpecReal.lean` and `CutPInv` in
`SpecCut.lean`.
-/

namespace Isotope
open XR
open Matrix

variable {h : Heap XR} {s : Sketch}

/-- **C113.** Every constraint of the sketch refers neither to a place nor to a direction, or is a `FixPoint` of a point which is at `(u, v)` before
the step.  In exact arithmetic the movements of a step of gradient descent, of Gauss-Newton or of Levenberg-Marquardt do not turn the sketch about
`(u, v)`: the cross products of the places of the points, seen from there, with their movements and the changes of the angles of the arcs add up to
zero. -/
theorem C113_pinned {pinv : PInv XR} (hp : RealPInv pinv) (hcut : CutPInv pinv) {k : SolverKind XR} (hk : k.Exact) (hb : ∀ p, k ≠ .bfgs p)
    (hn : s.cells.Nodup) (hc : Closed ⟨h, s⟩) (hf : FiniteSketch h s) {st : StepRec XR} (hst : st ∈ (runSolver pinv k h s).steps) {u v : ℝ}
    (hu : ∀ i ∈ s.cons, HoldsAt u v st.pre (h.cons i)) : turning s u v st.pre st.post = 0 := by
  rw [turning_form]
  refine (step_field hp hcut hk hb hn hc hf hst fun cu fu i hi hd => ?_).2
  have r := (step_field hp hcut hk hb hn hc hf hst (n := fun _ => 0) fun _ _ _ _ _ => by simp [form]).1
  have := spin_zero (u := u) (v := v) hn cu fu hi
  rw [r.cons] at this
  exact this (hu i hi) hd

/-- **C113.** No constraint of the sketch refers to a place or to a direction.  Then a step turns the sketch about no point `(u, v)`. -/
theorem C113_step {pinv : PInv XR} (hp : RealPInv pinv) (hcut : CutPInv pinv) {k : SolverKind XR} (hk : k.Exact) (hb : ∀ p, k ≠ .bfgs p)
    (hn : s.cells.Nodup) (hc : Closed ⟨h, s⟩) (hf : FiniteSketch h s) (hu : ∀ i ∈ s.cons, Undirected (h.cons i)) (u v : ℝ) :
    ∀ st ∈ (runSolver pinv k h s).steps, turning s u v st.pre st.post = 0 := fun _ hst =>
  C113_pinned hp hcut hk hb hn hc hf hst fun i hi => .inl (hu i hi)

/-- **C113.** The sketch has no arcs, `φ` is no multiple of a half turn, and not all points are at `(u, v)`.  Then no step turns the sketch by `φ`
about `(u, v)`: there is a point which does not end at its turned place. -/
theorem C113_rigid {pinv : PInv XR} (hp : RealPInv pinv) (hcut : CutPInv pinv) {k : SolverKind XR} (hk : k.Exact) (hb : ∀ p, k ≠ .bfgs p)
    (hn : s.cells.Nodup) (hc : Closed ⟨h, s⟩) (hf : FiniteSketch h s) (hu : ∀ i ∈ s.cons, Undirected (h.cons i))
    (ha : ∀ a, .arc a ∉ s.cells) (u v φ : ℝ) (hφ : Real.sin φ ≠ 0) {st : StepRec XR} (hst : st ∈ (runSolver pinv k h s).steps)
    (hx : ∃ a, .point a ∈ s.cells ∧ ((st.pre.points a).data.x.toReal, (st.pre.points a).data.y.toReal) ≠ (u, v)) :
    ∃ a, .point a ∈ s.cells ∧ ((st.post.points a).data.x.toReal, (st.post.points a).data.y.toReal) ≠
      (u + Real.cos φ * ((st.pre.points a).data.x.toReal - u) - Real.sin φ * ((st.pre.points a).data.y.toReal - v),
       v + Real.sin φ * ((st.pre.points a).data.x.toReal - u) + Real.cos φ * ((st.pre.points a).data.y.toReal - v)) := by
  by_contra hr
  push Not at hr
  have t := C113_step hp hcut hk hb hn hc hf hu u v st hst
  let q : PrimCell → ℝ := fun | .point a => ((st.pre.points a).data.x.toReal - u) ^ 2 + ((st.pre.points a).data.y.toReal - v) ^ 2 | _ => 0
  have q0 : ∀ c, 0 ≤ q c := fun c => by cases c <;> simp only [q] <;> positivity
  have e : turning s u v st.pre st.post = Real.sin φ * (s.cells.map q).sum := by
    unfold turning
    rw [← List.sum_map_mul_left]
    refine congrArg List.sum (List.map_congr_left fun c hm => ?_)
    cases c with
    | point a =>
      obtain ⟨e1, e2⟩ := Prod.mk.inj (hr a hm)
      simp only [primTurn, q]
      linear_combination ((st.pre.points a).data.x.toReal - u) * e2 - ((st.pre.points a).data.y.toReal - v) * e1
    | arc a => exact absurd hm (ha a)
    | line l => simp [primTurn, q]
    | circle c => simp [primTurn, q]
  rw [e] at t
  have z := (mul_eq_zero.1 t).resolve_left hφ
  obtain ⟨a, hm, hne⟩ := hx
  have le : q (.point a) ≤ (s.cells.map q).sum :=
    List.single_le_sum (fun x hx => by obtain ⟨c, -, rfl⟩ := List.mem_map.1 hx; exact q0 c) _ (List.mem_map_of_mem hm)
  rw [z] at le
  simp only [q] at le
  have a1 := sq_nonneg ((st.pre.points a).data.x.toReal - u)
  have a2 := sq_nonneg ((st.pre.points a).data.y.toReal - v)
  exact hne (Prod.ext (sub_eq_zero.1 (pow_eq_zero_iff two_ne_zero |>.1 (by linarith))) (sub_eq_zero.1 (pow_eq_zero_iff two_ne_zero |>.1 (by linarith))))

/-- **C113.** The forces behind this: the gradients of the points, seen from any point, and those of the angles of the arcs have no turning force. -/
theorem C113_gradient (hn : s.cells.Nodup) (hc : s.Covers h) (hf : FiniteSketch h s) (hu : ∀ i ∈ s.cons, Undirected (h.cons i)) (u v : ℝ)
    {g : List XR} {h' : Heap XR} (e : getGradient h s = .ok (g, h')) :
    (s.cells.map (primTorque u v h')).sum = 0 := by
  obtain ⟨A, B⟩ := getGradient_exact h s (hc.finite hf)
  have hnd : ∀ k ∈ s.cons, ¬DegenerateEqLen h (h.cons k) := fun i hi q => by
    obtain ⟨h1, e1⟩ := B ⟨i, hi, q⟩
    rw [e1] at e; cases e
  obtain ⟨h1, g1, hv, e1⟩ := A hnd
  rw [e1] at e
  cases e
  have t : (s.cells.map (primTorque u v h')).sum = form s.dofs (spin u v h) fun d => (gr h' d).toReal := by
    have pd : ∀ a, (h'.points a).data = (h.points a).data := fun a => by
      have x1 := g1.val (.px a)
      have x2 := g1.val (.py a)
      simp only [val] at x1 x2
      cases q : (h'.points a).data; cases q' : (h.points a).data
      rw [q, q'] at x1 x2
      simp only at x1 x2
      rw [x1, x2]
    unfold form Sketch.dofs
    rw [List.map_flatMap]
    clear hc hf hv e1 A B hnd hn hu
    induction s.cells with
    | nil => rfl
    | cons c l ih =>
      rw [List.map_cons, List.sum_cons, List.flatMap_cons, List.sum_append, ih]
      congr 1
      cases c <;> simp [primTorque, dofs, spin, gr, pd]
      ring
  rw [t]
  have : form s.dofs (spin u v h) (fun d => (gr h' d).toReal) =
      form s.dofs (spin u v h) fun d => (s.cons.map fun k => total (contribs h (h.cons k)) d).sum :=
    form_congr fun d hd => by rw [hv d hd, toReal_fin, total_flatMap]
  rw [this, form_sum s.cons fun k d => total (contribs h (h.cons k)) d]
  refine List.sum_eq_zero fun x hx => ?_
  obtain ⟨k, hk, rfl⟩ := List.mem_map.1 hx
  exact spin_zero hn hc hf hk (.inl (hu k hk)) (hnd k hk)

/-! ## Examples -/

/-- three points, the first two to be 5 apart, the first at the start of an arc about the third -/
noncomputable def craneHeap : Heap XR :=
  { (Heap.empty : Heap XR) with
    points := fun a => if a = 0 then ⟨⟨fin 3, fin 0⟩, ⟨fin 0, fin 0⟩⟩ else
      if a = 1 then ⟨⟨fin 0, fin 7⟩, ⟨fin 0, fin 0⟩⟩ else ⟨⟨fin 1, fin 1⟩, ⟨fin 0, fin 0⟩⟩
    nPoints := 3
    arcs := fun _ => ⟨2, ⟨fin 2, fin 1, fin 3⟩, ⟨fin 0, fin 0, fin 0⟩, false⟩
    nArcs := 1
    cons := fun k => if k = 0 then .euclid 0 1 (fin 5) else .arcStart 0 0
    nCons := 2 }

def craneSketch : Sketch := ⟨[(0, .point 0), (1, .point 1), (2, .point 2), (3, .arc 0)], 4, [0, 1]⟩

theorem crane_nodup : craneSketch.cells.Nodup := by simp [Sketch.cells, craneSketch]
theorem crane_closed : Closed ⟨craneHeap, craneSketch⟩ := by
  simp [Closed, craneSketch, craneHeap, consFields, primFields, Sketch.cells]
theorem crane_finite : FiniteSketch craneHeap craneSketch :=
  ⟨by simp [getData, getNDofs, craneSketch, craneHeap, primData, zerosVec, blit], by simp [craneSketch, craneHeap, consParams]⟩
theorem crane_undirected : ∀ i ∈ craneSketch.cons, Undirected (craneHeap.cons i) := by simp [craneSketch, craneHeap, Undirected]

example (p : GDParams XR) (u v : ℝ) : ∀ st ∈ (runSolver cutPInv (.gd p) craneHeap craneSketch).steps, turning craneSketch u v st.pre st.post = 0 :=
  C113_step cutPInv_real cutPInv_cut (k := .gd p) trivial (by simp) crane_nodup crane_closed crane_finite crane_undirected u v

/-- Gauss-Newton with its default parameters -/
example (u v : ℝ) : ∀ st ∈ (runSolver cutPInv (.gn GNParams.default) craneHeap craneSketch).steps, turning craneSketch u v st.pre st.post = 0 :=
  C113_step cutPInv_real cutPInv_cut (k := .gn GNParams.default) ⟨⟨_, sci ..⟩, _, sci .., by norm_num⟩ (by simp) crane_nodup crane_closed crane_finite
    crane_undirected u v

/-- the first two points alone: a step does not turn them by a right angle about the origin, where they are not -/
example (p : GDParams XR) {st : StepRec XR} (hst : st ∈ (runSolver cutPInv (.gd p) craneHeap ⟨[(0, .point 0), (1, .point 1)], 2, [0]⟩).steps)
    (hx : st.pre = craneHeap) : ∃ a, .point a ∈ (⟨[(0, .point 0), (1, .point 1)], 2, [0]⟩ : Sketch).cells ∧
      ((st.post.points a).data.x.toReal, (st.post.points a).data.y.toReal) ≠
        (0 + Real.cos (Real.pi / 2) * ((st.pre.points a).data.x.toReal - 0) - Real.sin (Real.pi / 2) * ((st.pre.points a).data.y.toReal - 0),
         0 + Real.sin (Real.pi / 2) * ((st.pre.points a).data.x.toReal - 0) + Real.cos (Real.pi / 2) * ((st.pre.points a).data.y.toReal - 0)) :=
  C113_rigid cutPInv_real cutPInv_cut (k := .gd p) trivial (by simp) (by simp [Sketch.cells])
    (by simp [Closed, craneHeap, consFields, primFields, Sketch.cells])
    ⟨by simp [getData, getNDofs, craneHeap, primData, zerosVec, blit], by simp [craneHeap, consParams]⟩
    (by simp [craneHeap, Undirected]) (by simp [Sketch.cells]) 0 0 (Real.pi / 2) (by simp) hst
    ⟨0, by simp [Sketch.cells], by simp [hx, craneHeap, XR.toReal]⟩

/-- the chain of C81, held at its first point: no step turns it about the place of that point -/
example (p : GDParams XR) {st : StepRec XR} (hst : st ∈ (runSolver cutPInv (.gd p) linkHeap linkSketch).steps) :
    turning linkSketch (st.pre.points 0).data.x.toReal (st.pre.points 0).data.y.toReal st.pre st.post = 0 := by
  refine C113_pinned cutPInv_real cutPInv_cut (k := .gd p) trivial (by simp) link_nodup link_closed link_finite hst fun i hi => ?_
  have : i = 0 ∨ i = 1 ∨ i = 2 := by revert hi; simp [linkSketch]; tauto
  rcases this with rfl | rfl | rfl
  · exact .inr ⟨0, _, rfl, rfl, rfl⟩
  · exact .inl (by simp [linkHeap, Undirected])
  · exact .inl (by simp [linkHeap, Undirected])

/-- the forces at the start -/
example (u v : ℝ) {g : List XR} {h' : Heap XR} (e : getGradient craneHeap craneSketch = .ok (g, h')) :
    (craneSketch.cells.map (primTorque u v h')).sum = 0 :=
  C113_gradient crane_nodup (fun _ hi _ q => crane_closed.deps hi q) crane_finite crane_undirected u v e

end Isotope
