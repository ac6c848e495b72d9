import Verif.Lemmas.ReorderCut
import Verif.Props.AnyOrder
import Verif.Lemmas.GenInv
import Mathlib.LinearAlgebra.Matrix.NonsingularInverse

/-!
# C87: the order of the primitives does not matter to the solvers

`GradOnly` and `MovesOnly` are in `Spec.lean`; `SameRun`, `Reordered` and `FollowsOrder` in `SpecAlike.lean`; `CutPInv` in
`SpecCut.lean`.
-/

namespace Isotope
open XR

/-- **C87.** In exact arithmetic the order in which primitives and constraints were added to a sketch, and the ids the primitives have, do not
matter to any solver (for the Gauss-Newton and Levenberg-Marquardt solvers: if the pseudo-inverse does not depend on the order of rows and
columns).  Let `s` and `s'` be sketches of the same primitives, without repetition, and the same constraints.  From states with the same
coordinates and with any parameters the runs have the same result, as many steps and line searches, the same step sizes, the same
coordinates before and after each step and at the end, and the BFGS matrices are the same up to the order of rows and columns.  If the one
panics so does the other; then only coordinates of the primitives of the sketch can differ. -/
theorem C87_any_order (pinv : PInv XR) (k : SolverKind XR) {h h' : Heap XR} (g : GradOnly h h') {s s' : Sketch}
    (hn : s.cells.Nodup) (hc : s.cells.Perm s'.cells) (hk : s.cons.Perm s'.cons)
    (hp : FollowsOrder pinv ∨ (∃ p, k = .gd p) ∨ ∃ p, k = .bfgs p) :
    SameRun GradOnly (MovesOnly s) (fun A A' => A = [] ∧ A' = [] ∨ Reordered s.dofs s'.dofs A A')
      (runSolver pinv k h s) (runSolver pinv k h' s') := by
  have a := alike_reorder hc hn hk
  cases k with
  | gd p => exact a.toAlike.gd (.inl ⟨rfl, rfl⟩) p g
  | bfgs p =>
    have q := a.bfgs p g (by rw [getData_dofs, List.length_map]) (by rw [getData_dofs, List.length_map]; exact (dofs_perm hc).length_eq.symm)
    exact ⟨q.res, q.heap, q.panicked, q.searches, q.failed, q.steps.imp fun _ _ w => ⟨w.1, w.2.1, w.2.2.1, .inr w.2.2.2⟩⟩
  | gn p =>
    have hp : FollowsOrder pinv := by
      rcases hp with hp | ⟨_, e⟩ | ⟨_, e⟩
      · exact hp
      · cases e
      · cases e
    exact (newton_reorder hc hn hk gnNormal _ fun ρ _ => hp _ _ _ _ _ (Sketch.dofs_nodup hn) (dofs_perm hc) (gn_reorder (dofs_perm hc) hk ρ)).newton
      (.inl ⟨rfl, rfl⟩) _ trivial _ _ g
  | lm p =>
    have hp : FollowsOrder pinv := by
      rcases hp with hp | ⟨_, e⟩ | ⟨_, e⟩
      · exact hp
      · cases e
      · cases e
    exact (newton_reorder hc hn hk (lmNormal p.beta) _ fun ρ _ => hp _ _ _ _ _ (Sketch.dofs_nodup hn) (dofs_perm hc)
      (lm_reorder (Sketch.dofs_nodup hn) (dofs_perm hc) hk ρ _)).newton
      (.inl ⟨rfl, rfl⟩) _ trivial _ _ g

/-- **C87.** The pseudo-inverse with cut-off does not depend on the order of rows and columns, so with it the order of primitives and
constraints and the ids do not matter to the Gauss-Newton solver. -/
theorem C87_gauss_newton {pinv : PInv XR} (hp : CutPInv pinv) (p : GNParams XR) {ε : ℝ} (hε : p.pinvEps = fin ε) (h0 : 0 ≤ ε)
    {h h' : Heap XR} (g : GradOnly h h') {s s' : Sketch} (hd : s.dofs ≠ [])
    (hn : s.cells.Nodup) (hc : s.cells.Perm s'.cells) (hk : s.cons.Perm s'.cons) :
    SameRun GradOnly (MovesOnly s) (fun A A' => A = [] ∧ A' = []) (runSolver pinv (.gn p) h s) (runSolver pinv (.gn p) h' s') := by
  refine (newton_reorder hc hn hk gnNormal _ fun ρ hρ => ?_).newton ⟨rfl, rfl⟩ _ trivial _ _ g
  rw [hε]
  exact cut_follows_gn hp h0 hd (Sketch.dofs_nodup hn) (dofs_perm hc) hk hρ

/-- **C87.** The same for the Levenberg-Marquardt solver. -/
theorem C87_levenberg_marquardt {pinv : PInv XR} (hp : CutPInv pinv) (p : LMParams XR) {ε β : ℝ} (hε : p.pinvEps = fin ε) (h0 : 0 ≤ ε)
    (hβ : p.beta = fin β) (h1 : 0 ≤ β) {h h' : Heap XR} (g : GradOnly h h') {s s' : Sketch} (hd : s.dofs ≠ [])
    (hn : s.cells.Nodup) (hc : s.cells.Perm s'.cells) (hk : s.cons.Perm s'.cons) :
    SameRun GradOnly (MovesOnly s) (fun A A' => A = [] ∧ A' = []) (runSolver pinv (.lm p) h s) (runSolver pinv (.lm p) h' s') := by
  refine (newton_reorder hc hn hk (lmNormal p.beta) _ fun ρ hρ => ?_).newton ⟨rfl, rfl⟩ _ trivial _ _ g
  rw [hε, hβ]
  exact cut_follows_lm hp h0 h1 hd (Sketch.dofs_nodup hn) (dofs_perm hc) hk hρ

/-- two points, a circle and two constraints, added in two different orders -/
example (h : Heap XR) : SameRun GradOnly (MovesOnly ⟨[(0, .point 0), (1, .point 1), (2, .circle 0)], 3, [0, 1]⟩)
    (fun A A' => A = [] ∧ A' = [])
    (runSolver cutPInv (.gn ⟨10, fin 1, fin 1, fin 1⟩) h ⟨[(0, .point 0), (1, .point 1), (2, .circle 0)], 3, [0, 1]⟩)
    (runSolver cutPInv (.gn ⟨10, fin 1, fin 1, fin 1⟩) h ⟨[(4, .point 1), (5, .circle 0), (7, .point 0)], 8, [1, 0]⟩) :=
  C87_gauss_newton cutPInv_cut ⟨10, fin 1, fin 1, fin 1⟩ rfl zero_le_one (.refl h) (s := ⟨[(0, .point 0), (1, .point 1), (2, .circle 0)], 3, [0, 1]⟩)
    (s' := ⟨[(4, .point 1), (5, .circle 0), (7, .point 0)], 8, [1, 0]⟩) (by simp [Sketch.dofs, Sketch.cells, dofs])
    (by simp [Sketch.cells]) (by simp only [Sketch.cells]; decide) (.swap ..)

example (h : Heap XR) : SameRun GradOnly (MovesOnly ⟨[(0, .point 0), (1, .point 1), (2, .circle 0)], 3, [0, 1]⟩)
    (fun A A' => A = [] ∧ A' = [])
    (runSolver cutPInv (.lm ⟨10, fin 1, fin 1, fin 1, fin 1⟩) h ⟨[(0, .point 0), (1, .point 1), (2, .circle 0)], 3, [0, 1]⟩)
    (runSolver cutPInv (.lm ⟨10, fin 1, fin 1, fin 1, fin 1⟩) h ⟨[(4, .point 1), (5, .circle 0), (7, .point 0)], 8, [1, 0]⟩) :=
  C87_levenberg_marquardt cutPInv_cut ⟨10, fin 1, fin 1, fin 1, fin 1⟩ rfl zero_le_one rfl zero_le_one (.refl h)
    (s := ⟨[(0, .point 0), (1, .point 1), (2, .circle 0)], 3, [0, 1]⟩)
    (s' := ⟨[(4, .point 1), (5, .circle 0), (7, .point 0)], 8, [1, 0]⟩) (by simp [Sketch.dofs, Sketch.cells, dofs])
    (by simp [Sketch.cells]) (by simp only [Sketch.cells]; decide) (.swap ..)

/-! ## A pseudo-inverse that does not depend on the order -/

open Classical in
/-- the inverse of an invertible real matrix; an error for any other -/
noncomputable def exactInverse : PInv XR := fun A _ =>
  if w : ∃ (n : Nat) (B : Matrix (Fin n) (Fin n) ℝ), A = mat B ∧ IsUnit B.det then .ok (mat (w.choose_spec.choose)⁻¹) else .err

theorem exactInverse_listed {n : Nat} (B : Matrix (Fin n) (Fin n) ℝ) (hB : IsUnit B.det) (eps : XR) :
    exactInverse (mat B) eps = .ok (mat B⁻¹) := by
  have w : ∃ (n' : Nat) (B' : Matrix (Fin n') (Fin n') ℝ), mat B = mat B' ∧ IsUnit B'.det := ⟨n, B, rfl, hB⟩
  unfold exactInverse
  rw [dif_pos w]
  obtain ⟨e, -⟩ := w.choose_spec.choose_spec
  generalize w.choose_spec.choose = B' at e
  revert B' e
  have hl : ∀ n' (B' : Matrix (Fin n') (Fin n') ℝ), mat B = mat B' → n = n' := by
    intro n' B' e
    have := congrArg List.length e
    simpa [mat] using this
  generalize w.choose = n'
  intro B' e
  obtain rfl := hl n' B' e
  rw [mat_injective e]

theorem exactInverse_follows : FollowsOrder exactInverse := by
  have key : ∀ (L L' : List Dof) (m : Dof → Dof → XR) (eps : XR), L.Nodup → L.Perm L' →
      ∀ B : Matrix (Fin L.length) (Fin L.length) ℝ, IsUnit B.det → L.map (fun i => L.map (m i)) = mat B →
      SamePInv L L' (exactInverse (L.map (fun i => L.map (m i))) eps) (exactInverse (L'.map (fun i => L'.map (m i))) eps) := by
    intro L L' m eps hn p B hB e
    obtain ⟨σ, hσ⟩ := exists_reindex hn p
    have e' : L'.map (fun i => L'.map (m i)) = mat (B.submatrix σ σ) :=
      (table_listed m _).2 fun i j => by rw [← hσ i, ← hσ j]; exact (table_listed m B).1 e (σ i) (σ j)
    have hB' : IsUnit (B.submatrix σ σ).det := by rwa [Matrix.det_submatrix_equiv_self]
    rw [e, e', exactInverse_listed B hB, exactInverse_listed _ hB', Matrix.inv_submatrix_equiv]
    obtain ⟨q, hq⟩ := exists_table hn B⁻¹
    exact ⟨q, ((table_listed q _).2 hq).symm, ((table_listed q _).2 fun i j => by rw [← hσ i, ← hσ j]; exact hq (σ i) (σ j)).symm⟩
  intro L L' A A' eps hn p ⟨m, e, e'⟩
  subst e e'
  by_cases w : ∃ B : Matrix (Fin L.length) (Fin L.length) ℝ, L.map (fun i => L.map (m i)) = mat B ∧ IsUnit B.det
  · obtain ⟨B, e, hB⟩ := w
    exact key L L' m eps hn p B hB e
  · have no : ∀ l : List Dof, (¬ ∃ B : Matrix (Fin l.length) (Fin l.length) ℝ, l.map (fun i => l.map (m i)) = mat B ∧ IsUnit B.det) →
        exactInverse (l.map (fun i => l.map (m i))) eps = .err := by
      intro l w
      refine dif_neg ?_
      rintro ⟨n, B, e, hB⟩
      have : n = l.length := by have := congrArg List.length e; simpa [mat] using this.symm
      subst this
      exact w ⟨B, e, hB⟩
    rw [no L w, no L' ?_]
    · trivial
    · rintro ⟨B, e, hB⟩
      obtain ⟨σ, hσ⟩ := exists_reindex (p.nodup_iff.1 hn) p.symm
      refine w ⟨B.submatrix σ σ, (table_listed m _).2 fun i j => ?_, by rwa [Matrix.det_submatrix_equiv_self]⟩
      rw [← hσ i, ← hσ j]
      exact (table_listed m B).1 e (σ i) (σ j)

/-- two points and a circle with two constraints, added in two different orders; the solver is Levenberg-Marquardt with the true inverse -/
example (h : Heap XR) (p : LMParams XR) :
    SameRun GradOnly (MovesOnly ⟨[(0, .point 0), (1, .point 1), (2, .circle 0)], 3, [0, 1]⟩)
      (fun A A' => A = [] ∧ A' = [] ∨ Reordered [.px 0, .py 0, .px 1, .py 1, .cr 0] [.px 1, .py 1, .cr 0, .px 0, .py 0] A A')
      (runSolver exactInverse (.lm p) h ⟨[(0, .point 0), (1, .point 1), (2, .circle 0)], 3, [0, 1]⟩)
      (runSolver exactInverse (.lm p) h ⟨[(4, .point 1), (5, .circle 0), (7, .point 0)], 8, [1, 0]⟩) :=
  C87_any_order exactInverse (.lm p) (.refl h) (s := ⟨[(0, .point 0), (1, .point 1), (2, .circle 0)], 3, [0, 1]⟩)
    (s' := ⟨[(4, .point 1), (5, .circle 0), (7, .point 0)], 8, [1, 0]⟩) (by simp [Sketch.cells]) (by simp only [Sketch.cells]; decide)
    (.swap ..) (.inl exactInverse_follows)

end Isotope
