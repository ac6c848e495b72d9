import Verif.Lemmas.NewtonStep

/-!
# Constraints on one coordinate difference
-/

namespace Isotope
open XR
open Matrix

/-- the degrees of freedom whose difference a constraint looks at -/
def diffDofs (h : Heap XR) : Constraint XR → Dof × Dof
  | .horizDist p1 p2 _ => (.px p1, .px p2)
  | .vertDist p1 p2 _ => (.py p1, .py p2)
  | .horizLine l => (.py (h.lines l).start, .py (h.lines l).stop)
  | .vertLine l => (.px (h.lines l).start, .px (h.lines l).stop)
  | _ => (.px 0, .px 0)

/-- the desired value of that difference -/
noncomputable def diffGoal : Constraint XR → ℝ
  | .horizDist _ _ d | .vertDist _ _ d => d.toReal
  | _ => 0

variable {h : Heap XR} {s : Sketch} {c : Constraint XR}

theorem diffDofs_sameRefs {h' : Heap XR} (r : SameRefs h h') (c : Constraint XR) : diffDofs h' c = diffDofs h c := by
  cases c <;> simp [diffDofs, r.lines]

theorem finite_points (hf : FiniteCons h c) (p : Nat) (hp : PrimCell.point p ∈ consDeps h c) :
    ∃ x y, ptData h p = ⟨fin x, fin y⟩ := finite_pt (hf.1 _ hp)

theorem ptOf_of {p : Nat} {x y : ℝ} (e : ptData h p = ⟨fin x, fin y⟩) : ptOf h p 0 = x ∧ ptOf h p 1 = y := by
  unfold ptData at e
  unfold ptOf
  rw [e]
  exact ⟨rfl, rfl⟩

/-- everything about such a constraint in one heap -/
theorem diff_facts (hf : FiniteCons h c) (hd : IsDiff c) :
    diffError h c = (val h (diffDofs h c).2).toReal - (val h (diffDofs h c).1).toReal - diffGoal c ∧
    lossValue h c = fin (diffError h c ^ 2 / 2) ∧
    (∀ d, total (contribs h c) d =
      diffError h c * ((if (diffDofs h c).2 = d then 1 else 0) - (if (diffDofs h c).1 = d then 1 else 0))) := by
  cases c with
  | horizDist p1 p2 D =>
    obtain ⟨x1, y1, e1⟩ := finite_points hf p1 (by simp [consDeps, consFields, primFields])
    obtain ⟨x2, y2, e2⟩ := finite_points hf p2 (by simp [consDeps, consFields, primFields])
    obtain ⟨D, rfl⟩ := (isFinite_iff _).1 (hf.2 D (by simp [consParams]))
    have he : diffError h (.horizDist p1 p2 (fin D)) = x2 - x1 - D := by
      simp only [diffError, (ptOf_of e1).1, (ptOf_of e2).1]; rfl
    refine ⟨?_, ?_, fun d => ?_⟩
    · rw [he]; simp only [diffDofs, val, diffGoal]; unfold ptData at e1 e2; rw [e1, e2]; rfl
    · rw [he, loss_horiz e1 e2]
    · rw [he, contribs, chunks_horiz e1 e2]
      simp only [List.flatMap_cons, List.flatMap_nil, Chunk.contrib, List.append_nil, List.cons_append, List.nil_append,
        total_cons, total_nil, toReal_fin]
      show _ = _ * ((if Dof.px p2 = d then (1 : ℝ) else 0) - (if Dof.px p1 = d then 1 else 0))
      split_ifs <;> ring
  | vertDist p1 p2 D =>
    obtain ⟨x1, y1, e1⟩ := finite_points hf p1 (by simp [consDeps, consFields, primFields])
    obtain ⟨x2, y2, e2⟩ := finite_points hf p2 (by simp [consDeps, consFields, primFields])
    obtain ⟨D, rfl⟩ := (isFinite_iff _).1 (hf.2 D (by simp [consParams]))
    have he : diffError h (.vertDist p1 p2 (fin D)) = y2 - y1 - D := by
      simp only [diffError, (ptOf_of e1).2, (ptOf_of e2).2]; rfl
    refine ⟨?_, ?_, fun d => ?_⟩
    · rw [he]; simp only [diffDofs, val, diffGoal]; unfold ptData at e1 e2; rw [e1, e2]; rfl
    · rw [he, loss_vert e1 e2]
    · rw [he, contribs, chunks_vert e1 e2]
      simp only [List.flatMap_cons, List.flatMap_nil, Chunk.contrib, List.append_nil, List.cons_append, List.nil_append,
        total_cons, total_nil, toReal_fin]
      show _ = _ * ((if Dof.py p2 = d then (1 : ℝ) else 0) - (if Dof.py p1 = d then 1 else 0))
      split_ifs <;> ring
  | horizLine l =>
    obtain ⟨x1, y1, e1⟩ := finite_points hf (h.lines l).start (by simp [consDeps, consFields, primFields])
    obtain ⟨x2, y2, e2⟩ := finite_points hf (h.lines l).stop (by simp [consDeps, consFields, primFields])
    have he : diffError h (.horizLine l) = y2 - y1 := by
      simp only [diffError, (ptOf_of e1).2, (ptOf_of e2).2]
    refine ⟨?_, ?_, fun d => ?_⟩
    · rw [he]; simp only [diffDofs, val, diffGoal]; unfold ptData at e1 e2; rw [e1, e2]; simp
    · rw [he, loss_horizLine e1 e2]
    · rw [he, contribs, chunks_horizLine e1 e2]
      simp only [List.flatMap_cons, List.flatMap_nil, Chunk.contrib, List.append_nil, List.cons_append, List.nil_append,
        total_cons, total_nil, toReal_fin]
      show _ = _ * ((if Dof.py (h.lines l).stop = d then (1 : ℝ) else 0) - (if Dof.py (h.lines l).start = d then 1 else 0))
      split_ifs <;> ring
  | vertLine l =>
    obtain ⟨x1, y1, e1⟩ := finite_points hf (h.lines l).start (by simp [consDeps, consFields, primFields])
    obtain ⟨x2, y2, e2⟩ := finite_points hf (h.lines l).stop (by simp [consDeps, consFields, primFields])
    have he : diffError h (.vertLine l) = x2 - x1 := by
      simp only [diffError, (ptOf_of e1).1, (ptOf_of e2).1]
    refine ⟨?_, ?_, fun d => ?_⟩
    · rw [he]; simp only [diffDofs, val, diffGoal]; unfold ptData at e1 e2; rw [e1, e2]; simp
    · rw [he, loss_vertLine e1 e2]
    · rw [he, contribs, chunks_vertLine e1 e2]
      simp only [List.flatMap_cons, List.flatMap_nil, Chunk.contrib, List.append_nil, List.cons_append, List.nil_append,
        total_cons, total_nil, toReal_fin]
      show _ = _ * ((if Dof.px (h.lines l).stop = d then (1 : ℝ) else 0) - (if Dof.px (h.lines l).start = d then 1 else 0))
      split_ifs <;> ring
  | _ => exact hd.elim

/-- the coordinates whose difference is constrained belong to the sketch -/
theorem diffDofs_mem (hc : Closed ⟨h, s⟩) {k : Nat} (hk : k ∈ s.cons) (hd : IsDiff (h.cons k)) :
    (diffDofs h (h.cons k)).1 ∈ s.dofs ∧ (diffDofs h (h.cons k)).2 ∈ s.dofs := by
  have P : ∀ p, PrimCell.point p ∈ consDeps h (h.cons k) → Dof.px p ∈ s.dofs ∧ Dof.py p ∈ s.dofs := by
    intro p hp
    have : PrimCell.point p ∈ s.cells := by
      unfold consDeps at hp
      rcases List.mem_append.1 hp with hp | hp
      · exact hc.2 k hk _ hp
      · obtain ⟨x, hx, hp⟩ := List.mem_flatMap.1 hp
        exact hc.1 x (hc.2 k hk x hx) _ hp
    exact ⟨mem_sketch_dofs.2 this, mem_sketch_dofs.2 this⟩
  generalize h.cons k = c at *
  cases c with
  | horizDist p1 p2 D =>
    exact ⟨(P p1 (by simp [consDeps, consFields, primFields])).1, (P p2 (by simp [consDeps, consFields, primFields])).1⟩
  | vertDist p1 p2 D =>
    exact ⟨(P p1 (by simp [consDeps, consFields, primFields])).2, (P p2 (by simp [consDeps, consFields, primFields])).2⟩
  | horizLine l => exact ⟨(P _ (by simp [consDeps, consFields, primFields])).2, (P _ (by simp [consDeps, consFields, primFields])).2⟩
  | vertLine l => exact ⟨(P _ (by simp [consDeps, consFields, primFields])).1, (P _ (by simp [consDeps, consFields, primFields])).1⟩
  | _ => exact hd.elim

/-- the degree of freedom of a coordinate of a point -/
def keyDof (k : Nat × Fin 2) : Dof := if k.2 = 0 then .px k.1 else .py k.1

theorem diffForm_apply (hd : IsDiff c) (k : Nat × Fin 2) :
    diffForm h c k = (if (diffDofs h c).2 = keyDof k then 1 else 0) - (if (diffDofs h c).1 = keyDof k then 1 else 0) := by
  obtain ⟨p, i⟩ := k
  have h01 : ∀ i : Fin 2, i ≠ 0 → i = 1 := by decide
  cases c with
  | horizDist p1 p2 D =>
    show (Finsupp.single _ _ - Finsupp.single _ _ : Nat × Fin 2 →₀ ℝ) _ =
      (if Dof.px p2 = _ then (1 : ℝ) else 0) - (if Dof.px p1 = _ then (1 : ℝ) else 0)
    by_cases hi : i = 0
    · subst hi; simp [keyDof, Finsupp.single_apply]
    · cases h01 i hi; simp [keyDof]
  | vertDist p1 p2 D =>
    show (Finsupp.single _ _ - Finsupp.single _ _ : Nat × Fin 2 →₀ ℝ) _ =
      (if Dof.py p2 = _ then (1 : ℝ) else 0) - (if Dof.py p1 = _ then (1 : ℝ) else 0)
    by_cases hi : i = 0
    · subst hi; simp [keyDof]
    · cases h01 i hi; simp [keyDof, Finsupp.single_apply]
  | horizLine l =>
    show (Finsupp.single _ _ - Finsupp.single _ _ : Nat × Fin 2 →₀ ℝ) _ =
      (if Dof.py (h.lines l).stop = _ then (1 : ℝ) else 0) - (if Dof.py (h.lines l).start = _ then (1 : ℝ) else 0)
    by_cases hi : i = 0
    · subst hi; simp [keyDof]
    · cases h01 i hi; simp [keyDof, Finsupp.single_apply]
  | vertLine l =>
    show (Finsupp.single _ _ - Finsupp.single _ _ : Nat × Fin 2 →₀ ℝ) _ =
      (if Dof.px (h.lines l).stop = _ then (1 : ℝ) else 0) - (if Dof.px (h.lines l).start = _ then (1 : ℝ) else 0)
    by_cases hi : i = 0
    · subst hi; simp [keyDof, Finsupp.single_apply]
    · cases h01 i hi; simp [keyDof]
  | _ => exact hd.elim

/-- the entries of the Jacobian -/
theorem getJacobian_entries {h1 h' : Heap XR} (hc : Closed ⟨h1, s⟩) (hf : FiniteSketch h1 s)
    {J : Matrix (Fin s.cons.length) (Fin (getNDofs h s)) ℝ} (e : getJacobian h1 s = .ok (mat J, h')) (i j) :
    J i j = total (contribs h1 (h1.cons s.cons[i.1])) (s.dofs[j.1]'(by rw [dofs_length h]; exact j.2)) := by
  obtain ⟨A, B⟩ := jacobianRows_exact h1 s s.cons h1 (.refl h1) (hf.cons hc)
  by_cases hd : ∃ k ∈ s.cons, DegenerateEqLen h1 (h1.cons k)
  · obtain ⟨h2, e2⟩ := B hd
    unfold getJacobian at e
    rw [e2] at e; cases e
  · obtain ⟨h2, -, e2⟩ := A fun k hk hh => hd ⟨k, hk, hh⟩
    unfold getJacobian at e
    rw [e2] at e
    have e3 := congrArg Prod.fst (Except.ok.inj e)
    have hj : j.1 < s.dofs.length := by rw [dofs_length h]; exact j.2
    have e4 := congrArg (fun q => q[i.1]?.bind (fun r => r[j.1]?)) e3
    simp only [mat, vec, List.getElem?_map, List.getElem?_eq_getElem i.2, Option.map_some, Option.bind_some,
      List.getElem?_eq_getElem hj, List.getElem?_ofFn, i.2, j.2, dif_pos, Option.some.injEq, Fin.eta] at e4
    exact (XR.fin.inj e4).symm

/-- a row of the Jacobian of a difference constraint, applied to a vector -/
theorem diff_row_mul (hn : s.cells.Nodup) {h1 h' : Heap XR} (r1 : SameRefs h h1) (hc : Closed ⟨h1, s⟩) (hf : FiniteSketch h1 s)
    {J : Matrix (Fin s.cons.length) (Fin (getNDofs h s)) ℝ} (e : getJacobian h1 s = .ok (mat J, h')) (i)
    (hd : IsDiff (h.cons s.cons[i.1])) (z : Fin (getNDofs h s) → ℝ) :
    (J *ᵥ z) i = diffError h1 (h.cons s.cons[i.1]) *
      (coordOf' h s (diffDofs h (h.cons s.cons[i.1])).2 z - coordOf' h s (diffDofs h (h.cons s.cons[i.1])).1 z) := by
  have hk : s.cons[i.1] ∈ s.cons := List.getElem_mem i.2
  have hfc := hf.cons hc _ hk
  rw [r1.cons] at hfc
  obtain ⟨-, -, f3⟩ := diff_facts hfc hd
  have : (J *ᵥ z) i = linForm (fun j => J i j) z := by rw [linForm_apply]; rfl
  rw [this]
  have e1 : (fun j => J i j) = fun j : Fin (getNDofs h s) =>
      total [((diffDofs h (h.cons s.cons[i.1])).2, diffError h1 (h.cons s.cons[i.1])),
        ((diffDofs h (h.cons s.cons[i.1])).1, -diffError h1 (h.cons s.cons[i.1]))]
        (s.dofs[j.1]'(by rw [dofs_length h]; exact j.2)) := by
    funext j
    rw [getJacobian_entries hc hf e, r1.cons, f3, diffDofs_sameRefs r1]
    simp only [total_cons, total_nil, add_zero]
    split_ifs <;> ring
  rw [e1, ← sum_contribs hn]
  simp
  ring

/-- how a difference constraint changes when the coordinates change -/
theorem diff_change {h1 h2 : Heap XR} (r1 : SameRefs h h1) (r2 : SameRefs h h2) (hc : Closed ⟨h, s⟩) (hf1 : FiniteSketch h1 s)
    (hf2 : FiniteSketch h2 s) {x1 x2 : Fin (getNDofs h s) → ℝ} (e1 : getData h1 s = vec x1) (e2 : getData h2 s = vec x2)
    {k : Nat} (hk : k ∈ s.cons) (hd : IsDiff (h.cons k)) :
    diffError h2 (h.cons k) - diffError h1 (h.cons k) =
      coordOf' h s (diffDofs h (h.cons k)).2 (x2 - x1) - coordOf' h s (diffDofs h (h.cons k)).1 (x2 - x1) := by
  obtain ⟨m1, m2⟩ := diffDofs_mem hc hk hd
  have A : ∀ {h1 : Heap XR} {x : Fin (getNDofs h s) → ℝ}, SameRefs h h1 → FiniteSketch h1 s → getData h1 s = vec x →
      diffError h1 (h.cons k) = coordOf' h s (diffDofs h (h.cons k)).2 x - coordOf' h s (diffDofs h (h.cons k)).1 x -
        diffGoal (h.cons k) := by
    intro h1 x r1 hf1 e1
    have hfc := hf1.cons (hc.sameRefs r1) k hk
    rw [r1.cons] at hfc
    obtain ⟨f1, -, -⟩ := diff_facts hfc hd
    rw [f1, diffDofs_sameRefs r1, val_of_data e1 m1, val_of_data e1 m2]
    have C : ∀ d ∈ s.dofs, coordOf h s x d = coordOf' h s d x := by
      intro d hd
      unfold coordOf coordOf'
      rw [dif_pos (idxOf_lt hd), dif_pos (idxOf_lt hd)]
      rfl
    rw [C _ m1, C _ m2]; rfl
  rw [A r2 hf2 e2, A r1 hf1 e1, map_sub, map_sub]
  ring

end Isotope
