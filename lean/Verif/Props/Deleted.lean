import Verif.Lemmas.Deleted
import Verif.Props.Gradient
import Verif.Props.Data

/-!
# A deleted primitive is held in place (C102)
-/

namespace Isotope

section gen
variable {F : Type} [Num F]
variable {s s' : Sketch} {id : Nat} {p : PrimCell}

/-- **C102.** After `delete_primitive` all losses are as before, and the data vector has lost exactly the block of the deleted
primitive.  Any arithmetic. -/
theorem C102_data (hs : SortedKeys s.prims) (hp : (id, p) ∈ s.prims) (hd : s.deletePrimitive id = (.ok (), s')) (h : Heap F) :
    getLoss h s' = getLoss h s ∧ getLossPerConstraint h s' = getLossPerConstraint h s ∧
    getData h s' = cutOut (blockStart h s id) (primData h p).length (getData h s) ∧
    ((getData h s).drop (blockStart h s id)).take (primData h p).length = primData h p := by
  obtain ⟨a, b, e1, e2, e3, e4⟩ := delete_split hs hp hd h
  have d1 : getData h s = (a.map (·.2)).flatMap (primData h) ++ (primData h p ++ (b.map (·.2)).flatMap (primData h)) := by
    rw [getData_eq]; simp [Sketch.cells, e1]
  have d2 : getData h s' = (a.map (·.2)).flatMap (primData h) ++ (b.map (·.2)).flatMap (primData h) := by
    rw [getData_eq]; simp [Sketch.cells, e2]
  refine ⟨by unfold getLoss; rw [e3], by unfold getLossPerConstraint; rw [e3], ?_, ?_⟩
  · rw [d1, d2, cutOut_blocks e4 rfl]
  · rw [d1, e4, List.drop_left', List.take_left'] <;> rfl

theorem dofs_cut (hs : SortedKeys s.prims) (hp : (id, p) ∈ s.prims) (hd : s.deletePrimitive id = (.ok (), s')) (h : Heap F)
    (f : Dof → F) : s'.dofs.map f = cutOut (blockStart h s id) (primData h p).length (s.dofs.map f) := by
  obtain ⟨a, b, e1, e2, e3, e4⟩ := delete_split hs hp hd h
  have d1 : s.dofs = (a.map (·.2)).flatMap dofs ++ (dofs p ++ (b.map (·.2)).flatMap dofs) := by
    simp [Sketch.dofs, Sketch.cells, e1]
  have d2 : s'.dofs = (a.map (·.2)).flatMap dofs ++ (b.map (·.2)).flatMap dofs := by
    simp [Sketch.dofs, Sketch.cells, e2]
  rw [d1, d2, List.map_append, List.map_append, List.map_append, cutOut_blocks]
  · rw [e4, List.length_map]
    have : (a.map (·.2)).flatMap (primData h) = ((a.map (·.2)).flatMap dofs).map (val h) := by
      rw [List.map_flatMap]; congr 1; funext c; exact primData_dofs h c
    rw [this, List.length_map]
  · rw [primData_dofs, List.length_map, List.length_map]

/-- **C102.** If `get_gradient` succeeds it also succeeds after the deletion, and the gradient has lost exactly the block of the
deleted primitive.  (The converse fails: the assertion that the sums are finite does not look at the deleted primitive.)  Any
arithmetic. -/
theorem C102_gradient (hs : SortedKeys s.prims) (hp : (id, p) ∈ s.prims) (hd : s.deletePrimitive id = (.ok (), s')) (h h1 : Heap F)
    (g : List F) (e : getGradient h s = .ok (g, h1)) :
    ∃ h2, getGradient h s' = .ok (cutOut (blockStart h s id) (primData h p).length g, h2) := by
  obtain ⟨a, b, e1, e2, e3, -⟩ := delete_split hs hp hd h
  obtain ⟨A, B⟩ := getGradient_iff h s
  by_cases hc : (∀ k ∈ s.cons, ∀ c ∈ chunks h (h.cons k), c.finite = true) ∧ ∀ d ∈ s.dofs, Num.isFinite (gradOf h s.cons d) = true
  · obtain ⟨h', e'⟩ := A hc
    rw [e'] at e
    obtain ⟨rfl, rfl⟩ := Prod.mk.inj (Except.ok.inj e)
    obtain ⟨h2, e2'⟩ := (getGradient_iff h s').1 ⟨by rw [e3]; exact hc.1, fun d hd' => by
      rw [e3]
      apply hc.2 d
      have h1 : ∀ c, c ∈ s'.cells → c ∈ s.cells := by
        intro c
        simp only [Sketch.cells, e1, e2, List.map_append, List.map_cons, List.mem_append, List.mem_cons]
        tauto
      exact mem_sketch_dofs.2 (h1 _ (mem_sketch_dofs.1 hd'))⟩
    refine ⟨h2, ?_⟩
    rw [e2', e3, dofs_cut hs hp hd h]
  · obtain ⟨h', e'⟩ := B hc
    rw [e'] at e
    cases e

/-- **C102.** `get_jacobian` after the deletion: the same rows without the columns of the deleted primitive; it panics exactly
when it did before.  Any arithmetic. -/
theorem C102_jacobian (hs : SortedKeys s.prims) (hp : (id, p) ∈ s.prims) (hd : s.deletePrimitive id = (.ok (), s')) (h : Heap F) :
    (∀ rows h1, getJacobian h s = .ok (rows, h1) →
      ∃ h2, getJacobian h s' = .ok (rows.map (cutOut (blockStart h s id) (primData h p).length), h2)) ∧
    (∀ h1, getJacobian h s = .error h1 → ∃ h2, getJacobian h s' = .error h2) := by
  obtain ⟨-, -, -, -, e3, -⟩ := delete_split hs hp hd h
  obtain ⟨A, B⟩ := jacobianRows_iff h s s.cons h (.refl h)
  obtain ⟨A', B'⟩ := jacobianRows_iff h s' s'.cons h (.refl h)
  rw [e3] at A' B'
  by_cases hc : ∀ k ∈ s.cons, ∀ c ∈ chunks h (h.cons k), c.finite = true
  · obtain ⟨h', e'⟩ := A hc
    obtain ⟨h'', e''⟩ := A' hc
    refine ⟨fun rows h1 e => ⟨h'', ?_⟩, fun h1 e => ?_⟩
    · unfold getJacobian at e ⊢
      rw [e'] at e
      obtain ⟨rfl, rfl⟩ := Prod.mk.inj (Except.ok.inj e)
      rw [e3, e'', List.map_map]
      congr 2
      refine List.map_congr_left fun k _ => ?_
      exact dofs_cut hs hp hd h _
    · unfold getJacobian at e
      rw [e'] at e
      cases e
  · obtain ⟨h', e'⟩ := B hc
    obtain ⟨h'', e''⟩ := B' hc
    refine ⟨fun rows h1 e => ?_, fun h1 e => ⟨h'', ?_⟩⟩
    · unfold getJacobian at e
      rw [e'] at e
      cases e
    · unfold getJacobian
      rw [e3, e'']

/-- **C102.** `set_data` after the deletion does exactly what `set_data` did before when it was given the deleted primitive's own
coordinates for its block: same heap, same panics.  Any arithmetic; the deleted primitive's coordinates must be finite. -/
theorem C102_write (hs : SortedKeys s.prims) (hn : s.cells.Nodup) (hp : (id, p) ∈ s.prims)
    (hd : s.deletePrimitive id = (.ok (), s')) (h : Heap F) (hf : ∀ x ∈ primData h p, Num.isFinite x = true) (v : List F) :
    setData h s' v = setData h s (putIn (blockStart h s id) (primData h p) v) := by
  obtain ⟨a, b, e1, e2, -, e4⟩ := delete_split hs hp hd h
  have n1 : getNDofs h s = ((a.map (·.2)).flatMap (primData h)).length + ((primData h p).length + ((b.map (·.2)).flatMap (primData h)).length) := by
    rw [getNDofs_eq]; simp [Sketch.cells, e1]
  have n2 : getNDofs h s' = ((a.map (·.2)).flatMap (primData h)).length + ((b.map (·.2)).flatMap (primData h)).length := by
    rw [getNDofs_eq]; simp [Sketch.cells, e2]
  have lp : (putIn (blockStart h s id) (primData h p) v).length = v.length + (primData h p).length := by
    unfold putIn
    simp only [List.length_append, List.length_take, List.length_drop]
    omega
  unfold setData
  by_cases hv : v.length = getNDofs h s'
  · rw [if_pos hv, if_pos (by rw [lp, hv, n1, n2]; omega), e1, e2, setDataLoop_append, setDataLoop_append]
    rw [e4]
    generalize hA : ((a.map (·.2)).flatMap (primData h)).length = A at *
    generalize hD : primData h p = D at *
    have lx : (v.take A).length = A := by rw [List.length_take, hv, n2]; omega
    have s1 : setDataLoop (putIn A D v) a 0 h = setDataLoop v a 0 h := by
      refine setDataLoop_shift a _ _ 0 0 h fun n hn' => ?_
      rw [hA] at hn'
      unfold putIn
      rw [List.drop_zero, List.drop_zero, List.append_assoc, List.take_append_of_le_length (by rw [lx]; exact hn'), List.take_take,
        Nat.min_eq_left hn']
    rw [s1]
    have hpa : p ∉ a.map (·.2) := by
      unfold Sketch.cells at hn
      rw [e1, List.map_append, List.map_cons] at hn
      intro hm
      exact (List.nodup_append.1 hn).2.2 p hm p (by simp) rfl
    have hfr := setDataLoop_dataOnly { s with prims := a } v a (fun kp hkp => List.mem_map_of_mem hkp) 0 h h (.refl _ h)
    cases e : setDataLoop v a 0 h with
    | error h1 => rfl
    | ok h1 =>
      rw [e] at hfr
      have hp1 : primData h1 p = D := by rw [← hD]; exact hfr.2.2 p hpa
      dsimp only
      rw [show setDataLoop (putIn A D v) ((id, p) :: b) (0 + A) h1 = setDataLoop (putIn A D v) b (0 + A + D.length) h1 by
        simp only [setDataLoop]
        have : ((putIn A D v).drop (0 + A)).take (primData h1 p).length = D := by
          rw [hp1]; unfold putIn
          rw [List.append_assoc, List.drop_left' (by rw [lx]; omega), List.take_left' rfl]
        rw [this]
        have hself := primSetData_self h1 p (by rw [hp1]; exact hf)
        rw [hp1] at hself
        rw [hself, hp1]]
      refine setDataLoop_shift b _ _ _ _ h1 fun n _ => ?_
      unfold putIn
      rw [List.drop_left' (l₂ := v.drop A) (by rw [List.length_append, lx]; omega)]
      simp
  · rw [if_neg hv, if_neg (by rw [lp, n1]; omega)]

/-- **C102.** No solver moves the deleted primitive.  Any arithmetic. -/
theorem C102_solvers (hs : SortedKeys s.prims) (hn : s.cells.Nodup) (hp : (id, p) ∈ s.prims)
    (hd : s.deletePrimitive id = (.ok (), s')) (pinv : PInv F) (k : SolverKind F) (h : Heap F) :
    primData (runSolver pinv k h s').heap p = primData h p := by
  obtain ⟨a, b, e1, e2, -, -⟩ := delete_split hs hp hd h
  refine (C35_solver_frame pinv k h s').2 p ?_
  unfold Sketch.cells at hn ⊢
  rw [e1, List.map_append, List.map_cons] at hn
  rw [e2, List.map_append]
  have h1 := List.nodup_append.1 hn
  intro hm
  rcases List.mem_append.1 hm with hm | hm
  · exact h1.2.2 p hm p (by simp) rfl
  · exact (List.nodup_cons.1 h1.2.1).1 hm

end gen

/-! ## Exact arithmetic: the remaining gradient -/

section exact_
open XR
variable {h : Heap XR} {s : Sketch}

/-- reading the data vector of a sketch that need not contain everything its constraints use -/
theorem depEq_open {h1 : Heap XR} (hm : MovesOnly s h h1) {v : Fin (getNDofs h s) → ℝ}
    (e : getData h1 s = List.ofFn (fun i => fin (v i))) {k : Nat} (hf : FiniteCons h (h.cons k)) :
    DepEq (h.withDofs (coordOf h s v)) h1 (h.cons k) := by
  obtain ⟨r, hm⟩ := hm
  refine ⟨⟨?_, ?_, ?_, ?_, ?_, ?_, ?_, ?_, ?_, ?_⟩, fun p hp => ?_⟩
  · exact r.lines
  · exact r.cons
  · exact r.arcCenter
  · exact r.arcClockwise
  · exact r.circleCenter
  · exact r.nPoints
  · exact r.nLines
  · exact r.nArcs
  · exact r.nCircles
  · exact r.nCons
  · have hp' : p ∈ consDeps h (h.cons k) := by
      have : consDeps (h.withDofs (coordOf h s v)) (h.cons k) = consDeps h (h.cons k) := by
        unfold consDeps; congr 2
      rw [← this]; exact hp
    by_cases hin : p ∈ s.cells
    · rw [primData_dofs, primData_dofs]
      refine List.map_congr_left fun d hd => ?_
      rw [val_withDofs]
      refine val_of_data e (mem_sketch_dofs.2 ?_)
      rwa [dofs_owner (mem_dofs_owner d) hd]
    · rw [hm p hin]
      have hfin := hf.1 p hp'
      rw [primData_dofs] at hfin
      rw [primData_dofs, primData_dofs]
      refine List.map_congr_left fun d hd => ?_
      rw [val_withDofs]
      have hd' : d ∉ s.dofs := fun hd' => hin (by
        have := mem_sketch_dofs.1 hd'
        rwa [dofs_owner (mem_dofs_owner d) hd] at this)
      unfold coordOf
      rw [dif_neg (by rw [← dofs_length]; exact fun hh => hd' (List.idxOf_lt_length_iff.1 hh))]
      obtain ⟨x, hx⟩ := (isFinite_iff _).1 (hfin (val h d) (List.mem_map_of_mem hd))
      rw [hx]; rfl

/-- finiteness of what a constraint uses survives `set_data` with reals -/
theorem finiteCons_open {h1 : Heap XR} (hm : MovesOnly s h h1) {v : Fin (getNDofs h s) → ℝ}
    (e : getData h1 s = List.ofFn (fun i => fin (v i))) {k : Nat} (hf : FiniteCons h (h.cons k)) : FiniteCons h1 (h1.cons k) := by
  rw [hm.1.cons]
  refine ⟨fun p hp x hx => ?_, hf.2⟩
  have hp' : p ∈ consDeps h (h.cons k) := by
    have : consDeps h1 (h.cons k) = consDeps h (h.cons k) := by
      unfold consDeps; congr 1; exact flatMap_congr_mem fun q _ => primRefs_sameRefs hm.1 q
    rw [← this]; exact hp
  by_cases hin : p ∈ s.cells
  · have : x ∈ getData h1 s := by rw [getData_eq]; exact List.mem_flatMap.2 ⟨p, hin, hx⟩
    rw [e] at this
    obtain ⟨i, rfl⟩ := List.mem_ofFn.1 this
    rfl
  · rw [hm.2 p hin] at hx
    exact hf.1 p hp' x hx

theorem setData_open (hn : s.cells.Nodup) (hf : ∀ k ∈ s.cons, FiniteCons h (h.cons k)) (v : Fin (getNDofs h s) → ℝ) :
    ∃ h', setData h s (List.ofFn (fun i => fin (v i))) = .ok h' ∧
      ∀ k ∈ s.cons, ∃ x : ℝ, lossValue h' (h'.cons k) = fin x ∧
        x = (lossValue (h.withDofs (coordOf h s v)) (h.cons k)).toReal := by
  obtain ⟨h', e, r, ed⟩ := setData_vec hn v
  have hm : MovesOnly s h h' := by
    have := setData_dataOnly h s (List.ofFn (fun i => fin (v i)))
    rw [e] at this
    exact this.moves
  refine ⟨h', e, fun k hk => ?_⟩
  obtain ⟨x, -, hx⟩ := (finiteCons_open hm ed (hf k hk)).real.loss
  refine ⟨x, hx, ?_⟩
  rw [← (depEq_open hm ed (hf k hk)).all.1, ← r.cons, hx]
  rfl

theorem lossAfter_open (hn : s.cells.Nodup) (hf : ∀ k ∈ s.cons, FiniteCons h (h.cons k)) (v : Fin (getNDofs h s) → ℝ) :
    lossAfter h s v = (s.cons.map (fun k => (lossValue (h.withDofs (coordOf h s v)) (h.cons k)).toReal)).sum := by
  obtain ⟨h', e, hl⟩ := setData_open hn hf v
  unfold lossAfter
  rw [e]; dsimp only
  rw [getLoss_fin fun k hk => (hl k hk).imp fun x hx => hx.1]
  show List.sum _ = List.sum _
  congr 1
  refine List.map_congr_left fun k hk => ?_
  obtain ⟨x, hx, hx'⟩ := hl k hk
  rw [hx, ← hx']
  rfl

/-- **C102.** In a sketch that need not contain everything its constraints use, `set_data` succeeds with every vector of reals,
and the loss afterwards is a real number. -/
theorem C102_domain (hn : s.cells.Nodup) (hf : ∀ k ∈ s.cons, FiniteCons h (h.cons k)) (v : Fin (getNDofs h s) → ℝ) :
    ∃ h', setData h s (List.ofFn (fun i => fin (v i))) = .ok h' ∧ getLoss h' s = fin (lossAfter h s v) := by
  obtain ⟨h', e, hl⟩ := setData_open hn hf v
  refine ⟨h', e, ?_⟩
  unfold lossAfter
  rw [e]; dsimp only
  rw [getLoss_fin fun k hk => (hl k hk).imp fun x hx => hx.1]
  rfl

/-- **C102.** In a sketch that need not contain everything its constraints use, `get_gradient` is the gradient of the loss as a
function of the data vector: what is outside the sketch counts as fixed. -/
theorem C102_derivative (hn : s.cells.Nodup) (hf : ∀ k ∈ s.cons, FiniteCons h (h.cons k))
    (hr : ∀ k ∈ s.cons, Regular h (h.cons k)) (q : Fin (getNDofs h s) → ℝ)
    (hq : getData h s = List.ofFn (fun i => fin (q i))) :
    ∃ g h', getGradient h s = .ok (List.ofFn (fun i => fin (g i)), h') ∧ HasFDerivAt (lossAfter h s) (linForm g) q := by
  obtain ⟨h', -, -, e⟩ := (getGradient_exact h s hf).1 fun k hk => regular_not_degenerate (hf k hk) (hr k hk)
  refine ⟨fun i => total (s.cons.flatMap (fun k => contribs h (h.cons k)))
    (s.dofs[i.1]'(by rw [dofs_length h]; exact i.2)), h', ?_, ?_⟩
  · rw [e]
    congr 2
    apply List.ext_getElem
    · simp [dofs_length h s]
    · intro i h1 h2; simp
  · have hl : lossAfter h s = fun v => (s.cons.map (fun k => (lossValue (h.withDofs (coordOf h s v)) (h.cons k)).toReal)).sum :=
      funext fun v => lossAfter_open hn hf v
    rw [hl, ← sum_contribs hn]
    have := hasFDerivAt_list_sum s.cons (fun k v => (lossValue (h.withDofs (coordOf h s v)) (h.cons k)).toReal)
      (fun k => ((contribs h (h.cons k)).map (fun e => e.2 • coordOf' h s e.1)).sum) q (by
        intro k hk
        have de := depEq_open (.refl s h) hq (hf k hk)
        have := hasFDerivAt_loss (H := h) (θ := coordOf h s) (q0 := q) (hasFDerivAt_coordOf q) (h.cons k) (hf k hk).2
          (de.all.2.2.1 (hr k hk))
        rw [de.contribs]
        exact this)
    have e2 : ((s.cons.flatMap (fun k => contribs h (h.cons k))).map (fun e => e.2 • coordOf' h s e.1)).sum =
        (s.cons.map (fun k => ((contribs h (h.cons k)).map (fun e => e.2 • coordOf' h s e.1)).sum)).sum := by
      generalize s.cons = l
      induction l with
      | nil => rfl
      | cons k l ih => simp only [List.flatMap_cons, List.map_append, List.sum_append, ih, List.map_cons, List.sum_cons]
    rw [e2]
    exact this

/-! ## Example: the corner point of the triangle is deleted while both legs and all three constraints stay -/

/-- the sketch after `delete_primitive(1)` -/
def cutSketch : Sketch := ⟨[(0, .point 0), (2, .point 2), (3, .line 0), (4, .line 1)], 5, [0, 1, 2]⟩

theorem cut_delete : gSketch.deletePrimitive 1 = (.ok (), cutSketch) := rfl

theorem cut_sorted : SortedKeys gSketch.prims := by simp [SortedKeys, gSketch]

example : blockStart exHeap gSketch 1 = 2 ∧ getData exHeap cutSketch = [fin 0, fin 0, fin 0, fin 4] ∧
    getLoss exHeap cutSketch = getLoss exHeap gSketch ∧ ¬Closed ⟨exHeap, cutSketch⟩ := by
  have hb : blockStart exHeap gSketch 1 = 2 := by simp [blockStart, gSketch, primData]
  obtain ⟨a, -, c, -⟩ := C102_data cut_sorted (p := .point 1) (by simp [gSketch]) cut_delete exHeap
  refine ⟨hb, ?_, a, ?_⟩
  · rw [c, hb, ex_data]; rfl
  · intro hc
    have := hc.2 0 (by simp [cutSketch]) (.point 1) (by simp [exHeap, consFields])
    simp [cutSketch, Sketch.cells] at this

example : ∃ (q g : Fin (getNDofs exHeap cutSketch) → ℝ) (h' : Heap XR),
    getGradient exHeap cutSketch = .ok (List.ofFn (fun i => fin (g i)), h') ∧
    HasFDerivAt (lossAfter exHeap cutSketch) (linForm g) q := by
  have hd : getData exHeap cutSketch = [fin 0, fin 0, fin 0, fin 4] := by
    rw [getData_eq]; simp [cutSketch, exHeap, Sketch.cells, primData]
  have hq : getData exHeap cutSketch = List.ofFn (fun i : Fin (getNDofs exHeap cutSketch) =>
      fin ([0, 0, 0, 4].getD i.1 0)) := by
    have hl := getData_length exHeap cutSketch
    apply List.ext_getElem (by simp [hl])
    intro i h1 h2
    simp only [hd, List.getElem_ofFn]
    have : i < 4 := by rw [hd] at h1; simpa using h1
    interval_cases i <;> simp
  obtain ⟨g, h', e, hd⟩ := C102_derivative (h := exHeap) (s := cutSketch) (by simp [cutSketch, Sketch.cells])
    (ex_finite.cons ex_closed) ex_regular _ hq
  exact ⟨_, g, h', e, hd⟩

end exact_
end Isotope
