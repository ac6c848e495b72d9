import Verif.Lemmas.TurnNewton
import Verif.Props.Newton
import Verif.Props.Reorder

/-!
# C89: how a sketch is turned does not matter to the solvers

`Turn`, `Heap.turn` and `TurnedM` are in `SpecTurn.lean`; `SameRun` in `SpecAlike.lean`; `CutPInv` in `SpecCut.lean`; `Closed`, `FiniteSketch`
and `GradOnly` in `Spec.lean`.
-/

namespace Isotope
open XR

theorem turns_start {t : Turn} {h h' : Heap XR} {s : Sketch} (g : GradOnly (h.turn t) h') (hc : Closed ⟨h, s⟩) (hf : FiniteSketch h s)
    (ht : t.Square ∨ ∀ k ∈ s.cons, ¬(h.cons k).Directed) : Turns t s h h' :=
  ⟨g, hc, hf, fun k hk d => ht.resolve_right fun w => w k hk d⟩

theorem SameRun.weaken {F : Type} {R R' E : Heap F → Heap F → Prop} {M M' : List (List F) → List (List F) → Prop} {o o' : SolveOut F}
    (w : SameRun R E M o o') (hR : ∀ {h h'}, R h h' → R' h h') (hM : ∀ {A A'}, M A A' → M' A A') : SameRun R' E M' o o' :=
  ⟨w.res, fun e => hR (w.heap e), w.panicked, w.searches, w.failed, w.steps.imp fun _ _ q => ⟨hR q.1, q.2.1, hR q.2.2.1, hM q.2.2.2⟩⟩

/-- **C89.** In exact arithmetic, turn a sketch by any angle about the origin, or mirror it and turn it: its points, the angles of its arcs
and the desired places of its `FixPoint` constraints.  If constraints speak of the x- or y-direction, the turn must be by a multiple of 90
degrees, and these constraints turn along, too.  Then every constraint has the same loss as before. -/
theorem C89_losses (t : Turn) {h h' : Heap XR} {s : Sketch} (g : GradOnly (h.turn t) h') (hc : Closed ⟨h, s⟩) (hf : FiniteSketch h s)
    (ht : t.Square ∨ ∀ k ∈ s.cons, ¬(h.cons k).Directed) : getLossPerConstraint h' s = getLossPerConstraint h s :=
  (turns_start g hc hf ht).lossPer

/-- **C89.** Gradient descent treats the sketch and the turned sketch alike: the runs have the same result, as many steps and line searches
and the same step sizes, and before and after each step and at the end the one sketch is the other one turned; if the one panics so does
the other. -/
theorem C89_gradient_descent (t : Turn) (pinv : PInv XR) (p : GDParams XR) {h h' : Heap XR} {s : Sketch} (g : GradOnly (h.turn t) h')
    (hn : s.cells.Nodup) (hc : Closed ⟨h, s⟩) (hf : FiniteSketch h s) (ht : t.Square ∨ ∀ k ∈ s.cons, ¬(h.cons k).Directed) :
    SameRun (fun h h' => GradOnly (h.turn t) h') (fun h h' => GradOnly (h.turn t) h') (fun A A' => A = [] ∧ A' = [])
      (runSolver pinv (.gd p) h s) (runSolver pinv (.gd p) h' s) :=
  SameRun.weaken ((alike_turn hn).gd ⟨rfl, rfl⟩ p (turns_start g hc hf ht)) (fun w => w.grad) (fun w => w)

/-- **C89.** BFGS treats the sketch and the sketch turned by a multiple of 90 degrees alike - its stop test looks at single coordinates of
the gradient -, and the matrices turn along. -/
theorem C89_bfgs {t : Turn} (ht : t.Square) (pinv : PInv XR) (p : BFGSParams XR) {h h' : Heap XR} {s : Sketch} (g : GradOnly (h.turn t) h')
    (hn : s.cells.Nodup) (hc : Closed ⟨h, s⟩) (hf : FiniteSketch h s) :
    SameRun (fun h h' => GradOnly (h.turn t) h') (fun h h' => GradOnly (h.turn t) h') (TurnedM t s.dofs)
      (runSolver pinv (.bfgs p) h s) (runSolver pinv (.bfgs p) h' s) :=
  SameRun.weaken ((alikeM_turn hn ht).bfgs p (turns_start g hc hf (.inl ht)) (by rw [getData_dofs, List.length_map]) (by rw [getData_dofs, List.length_map]))
    (fun w => w.grad) (fun w => w.turned hn)

/-- **C89.** With the pseudo-inverse with cut-off, a finite step size and a finite cut-off that is not negative, the Gauss-Newton solver
treats the sketch and the turned sketch alike. -/
theorem C89_gauss_newton (t : Turn) {pinv : PInv XR} (hp : CutPInv pinv) (p : GNParams XR) {σ ε : ℝ} (hσ : p.stepSize = fin σ)
    (hε : p.pinvEps = fin ε) (h0 : 0 ≤ ε) {h h' : Heap XR} {s : Sketch} (g : GradOnly (h.turn t) h') (hd : getNDofs h s ≠ 0)
    (hn : s.cells.Nodup) (hc : Closed ⟨h, s⟩) (hf : FiniteSketch h s) (ht : t.Square ∨ ∀ k ∈ s.cons, ¬(h.cons k).Directed) :
    SameRun (fun h h' => GradOnly (h.turn t) h') (fun h h' => GradOnly (h.turn t) h') (fun A A' => A = [] ∧ A' = [])
      (runSolver pinv (.gn p) h s) (runSolver pinv (.gn p) h' s) := by
  have hd' : s.dofs ≠ [] := fun e => hd (by rw [← getData_length, getData_dofs, e]; rfl)
  refine SameRun.weaken (R := Turns t s) (M := fun A A' => A = [] ∧ A' = []) ?_ (fun w => w.grad) (fun w => w)
  have q := (alikeN_turn hn hp h0 hd' (t := t) turn_gn).newton (M := fun A A' => A = [] ∧ A' = []) ⟨rfl, rfl⟩ p.minLoss ⟨σ, rfl⟩
    p.maxIterations Num.inf (turns_start g hc hf ht)
  rw [← hσ, ← hε] at q
  exact q

/-- **C89.** The same for the Levenberg-Marquardt solver with a finite damping that is not negative. -/
theorem C89_levenberg_marquardt (t : Turn) {pinv : PInv XR} (hp : CutPInv pinv) (p : LMParams XR) {σ ε β : ℝ} (hσ : p.stepSize = fin σ)
    (hε : p.pinvEps = fin ε) (h0 : 0 ≤ ε) (hβ : p.beta = fin β) (h1 : 0 ≤ β) {h h' : Heap XR} {s : Sketch} (g : GradOnly (h.turn t) h')
    (hd : getNDofs h s ≠ 0) (hn : s.cells.Nodup) (hc : Closed ⟨h, s⟩) (hf : FiniteSketch h s)
    (ht : t.Square ∨ ∀ k ∈ s.cons, ¬(h.cons k).Directed) :
    SameRun (fun h h' => GradOnly (h.turn t) h') (fun h h' => GradOnly (h.turn t) h') (fun A A' => A = [] ∧ A' = [])
      (runSolver pinv (.lm p) h s) (runSolver pinv (.lm p) h' s) := by
  have hd' : s.dofs ≠ [] := fun e => hd (by rw [← getData_length, getData_dofs, e]; rfl)
  refine SameRun.weaken (R := Turns t s) (M := fun A A' => A = [] ∧ A' = []) ?_ (fun w => w.grad) (fun w => w)
  have q := (alikeN_turn hn hp h0 hd' (t := t) (turn_lm hn h1)).newton (M := fun A A' => A = [] ∧ A' = []) ⟨rfl, rfl⟩ p.minLoss ⟨σ, rfl⟩
    p.maxIterations Num.inf (turns_start g hc hf ht)
  rw [← hσ, ← hε, ← hβ] at q
  exact q

/-! ## Examples -/

/-- gradient descent takes the point from `(0, 0)` to `(3, 4)` in one step; turned by 90 degrees, to `(-4, 3)` -/
example (pinv : PInv XR) :
    (runSolver pinv (.gd ⟨10, 1e-14, 1e-10⟩) ((fixHeap 3 4 0 0 0 0).turn ⟨Real.pi / 2, false⟩) fixSketch).res = .ok ∧
    ptData (runSolver pinv (.gd ⟨10, 1e-14, 1e-10⟩) ((fixHeap 3 4 0 0 0 0).turn ⟨Real.pi / 2, false⟩) fixSketch).heap 0 = ⟨fin (-4), fin 3⟩ := by
  have e := fix_gdSolve (x := 3) (y := 4) (a := 0) (b := 0) (u := 0) (v := 0) 9 (by norm_num)
  have q := C89_gradient_descent ⟨Real.pi / 2, false⟩ pinv ⟨10, 1e-14, 1e-10⟩ (.refl _) fixSketch_nodup (fix_closed 3 4 0 0 0 0)
    (fix_finite 3 4 0 0 0 0) (.inl (.inr Real.cos_pi_div_two))
  have e' : runSolver pinv (.gd ⟨10, 1e-14, 1e-10⟩) (fixHeap 3 4 0 0 0 0) fixSketch = _ := e
  refine ⟨by rw [← q.res, e'], ?_⟩
  rw [(q.heap (by rw [e']; simp)).pt, e', turn_pt (x := 3) (y := 4) _ (by simp [ptData, fixHeap, upd])]
  simp [Turn.u, Turn.v, Turn.c, Turn.s, Turn.e]

/-- the mirror image in the x-axis: to `(3, -4)` -/
example (pinv : PInv XR) :
    (runSolver pinv (.gd ⟨10, 1e-14, 1e-10⟩) ((fixHeap 3 4 0 0 0 0).turn ⟨0, true⟩) fixSketch).res = .ok ∧
    ptData (runSolver pinv (.gd ⟨10, 1e-14, 1e-10⟩) ((fixHeap 3 4 0 0 0 0).turn ⟨0, true⟩) fixSketch).heap 0 = ⟨fin 3, fin (-4)⟩ := by
  have e := fix_gdSolve (x := 3) (y := 4) (a := 0) (b := 0) (u := 0) (v := 0) 9 (by norm_num)
  have q := C89_gradient_descent ⟨0, true⟩ pinv ⟨10, 1e-14, 1e-10⟩ (.refl _) fixSketch_nodup (fix_closed 3 4 0 0 0 0)
    (fix_finite 3 4 0 0 0 0) (.inl (.inl Real.sin_zero))
  have e' : runSolver pinv (.gd ⟨10, 1e-14, 1e-10⟩) (fixHeap 3 4 0 0 0 0) fixSketch = _ := e
  refine ⟨by rw [← q.res, e'], ?_⟩
  rw [(q.heap (by rw [e']; simp)).pt, e', turn_pt (x := 3) (y := 4) _ (by simp [ptData, fixHeap, upd])]
  simp [Turn.u, Turn.v, Turn.c, Turn.s, Turn.e]

theorem fix_undirected (x y a b : ℝ) : ∀ k ∈ fixSketch.cons, ¬((fixHeap x y a b 0 0).cons k).Directed := by
  intro k hk
  obtain rfl : k = 0 := by simpa [fixSketch] using hk
  simp [fixHeap, upd, Constraint.Directed]

theorem fix_dofs (h : Heap XR) : getNDofs h fixSketch ≠ 0 := by
  rw [← getData_length, getData_dofs, List.length_map]
  simp [Sketch.dofs, Sketch.cells, fixSketch, dofs]

/-- a turn by any angle, and mirror images, for Gauss-Newton -/
example (a : ℝ) (m : Bool) :
    SameRun (fun h h' => GradOnly (h.turn ⟨a, m⟩) h') (fun h h' => GradOnly (h.turn ⟨a, m⟩) h') (fun A A' => A = [] ∧ A' = [])
      (runSolver cutPInv (.gn ⟨10, fin 1, fin 1, fin 1⟩) (fixHeap 3 4 0 0 0 0) fixSketch)
      (runSolver cutPInv (.gn ⟨10, fin 1, fin 1, fin 1⟩) ((fixHeap 3 4 0 0 0 0).turn ⟨a, m⟩) fixSketch) :=
  C89_gauss_newton ⟨a, m⟩ cutPInv_cut ⟨10, fin 1, fin 1, fin 1⟩ (σ := 1) (ε := 1) rfl rfl zero_le_one (.refl _) (fix_dofs _) fixSketch_nodup
    (fix_closed ..) (fix_finite ..) (.inr (fix_undirected 3 4 0 0))

/-- and for Levenberg-Marquardt -/
example (a : ℝ) (m : Bool) :
    SameRun (fun h h' => GradOnly (h.turn ⟨a, m⟩) h') (fun h h' => GradOnly (h.turn ⟨a, m⟩) h') (fun A A' => A = [] ∧ A' = [])
      (runSolver cutPInv (.lm ⟨10, fin 1, fin 1, fin 1, fin 1⟩) (fixHeap 3 4 0 0 0 0) fixSketch)
      (runSolver cutPInv (.lm ⟨10, fin 1, fin 1, fin 1, fin 1⟩) ((fixHeap 3 4 0 0 0 0).turn ⟨a, m⟩) fixSketch) :=
  C89_levenberg_marquardt ⟨a, m⟩ cutPInv_cut ⟨10, fin 1, fin 1, fin 1, fin 1⟩ (σ := 1) (ε := 1) (β := 1) rfl rfl zero_le_one rfl zero_le_one
    (.refl _) (fix_dofs _) fixSketch_nodup (fix_closed ..) (fix_finite ..) (.inr (fix_undirected 3 4 0 0))

/-- BFGS upside down -/
example (m : Bool) (p : BFGSParams XR) :
    SameRun (fun h h' => GradOnly (h.turn ⟨Real.pi, m⟩) h') (fun h h' => GradOnly (h.turn ⟨Real.pi, m⟩) h') (TurnedM ⟨Real.pi, m⟩ fixSketch.dofs)
      (runSolver cutPInv (.bfgs p) (fixHeap 3 4 0 0 0 0) fixSketch)
      (runSolver cutPInv (.bfgs p) ((fixHeap 3 4 0 0 0 0).turn ⟨Real.pi, m⟩) fixSketch) :=
  C89_bfgs (t := ⟨Real.pi, m⟩) (.inl Real.sin_pi) cutPInv p (.refl _) fixSketch_nodup (fix_closed ..) (fix_finite ..)

end Isotope
