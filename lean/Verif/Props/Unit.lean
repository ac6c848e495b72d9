import Verif.Lemmas.Unit
import Verif.Lemmas.ExRun
import Verif.Props.Turn

/-!
# C107: the unit of length

`Heap.inUnit`, `Constraint.IsLength`, `NoArcs` and `Lengths` are in `SpecUnit.lean`, `SameRun` in `SpecAlike.lean`, `CutPInv` in
`SpecCut.lean`.
-/

namespace Isotope
open XR Matrix

/-- **C107.** In exact arithmetic, write a sketch in another unit of length: coordinates, radii and desired places and distances times
`c`.  Every loss of a constraint about lengths (fixed point, horizontal and vertical distance and line, equal lengths) is multiplied by
`c²`. -/
theorem C107_losses {c : ℝ} (hc : 0 < c) {h : Heap XR} {s : Sketch} (hl : Lengths s h) :
    getLossPerConstraint (h.inUnit c) s = (getLossPerConstraint h s).map (fin (c * c) * ·) := unit_losses hc h hl

/-- **C107.** Gradient descent treats the sketch in the one unit and in the other alike if `min_loss` is multiplied by `c²` and `min_grad`
by `c`: from any state, with any parameters, the runs have the same result, as many steps and line searches and the same step sizes, and
before and after each step and at the end the one sketch is the other one in the other unit; if the one panics so does the other. -/
theorem C107_gradient_descent {c : ℝ} (hc : 0 < c) (pinv : PInv XR) (p : GDParams XR) {h : Heap XR} {s : Sketch} (ha : NoArcs s)
    (hl : Lengths s h) :
    SameRun (fun h h' => h' = h.inUnit c) (fun h h' => h' = h.inUnit c) Eq (runSolver pinv (.gd p) h s)
      (runSolver pinv (.gd ⟨p.maxIterations, fin (c * c) * p.minLoss, fin c * p.minGrad⟩) (h.inUnit c) s) :=
  SameRun.weaken (unit_gd hc ha p h hl) (fun w => w.1) (fun w => w)

theorem unit_inf {k : ℝ} (hk : 0 < k) : (Num.inf : XR) = fin k * Num.inf := by
  show XR.pinf = XR.infOf k
  rw [XR.infOf, if_pos hk]

/-- **C107.** So does Gauss-Newton, if `min_loss` and the cut-off of the pseudo-inverse are multiplied by `c²`; the step size stays. -/
theorem C107_gauss_newton {c : ℝ} (hc : 0 < c) {pinv : PInv XR} (hp : CutPInv pinv) (p : GNParams XR) {σ ε : ℝ} (hσ : p.stepSize = fin σ)
    (hε : p.pinvEps = fin ε) (h0 : 0 ≤ ε) {h : Heap XR} {s : Sketch} (ha : NoArcs s) (hl : Lengths s h) (hd : getNDofs h s ≠ 0)
    (hn : s.cells.Nodup) (hcl : Closed ⟨h, s⟩) (hf : FiniteSketch h s) :
    SameRun (fun h h' => h' = h.inUnit c) (fun h h' => h' = h.inUnit c) Eq (runSolver pinv (.gn p) h s)
      (runSolver pinv (.gn ⟨p.maxIterations, fin (c * c) * p.minLoss, p.stepSize, fin (c * c) * p.pinvEps⟩) (h.inUnit c) s) := by
  obtain ⟨n, ml, σ', ε'⟩ := p
  obtain rfl : σ' = fin σ := hσ
  obtain rfl : ε' = fin ε := hε
  have q := unit_newton hc ha hp (unit_gn (c := c)) (σ := σ) h0 ml hn n Num.inf Num.inf (unit_inf (mul_pos hc hc)) h hd hl hcl hf
  simpa only [runSolver, gnSolve, mul_fin] using SameRun.weaken q (fun w => w.1) (fun w => w)

/-- **C107.** So does Levenberg-Marquardt, if the damping `beta` is multiplied by `c²`, too. -/
theorem C107_levenberg_marquardt {c : ℝ} (hc : 0 < c) {pinv : PInv XR} (hp : CutPInv pinv) (p : LMParams XR) {σ ε β : ℝ}
    (hσ : p.stepSize = fin σ) (hε : p.pinvEps = fin ε) (h0 : 0 ≤ ε) (hβ : p.beta = fin β) (h1 : 0 ≤ β) {h : Heap XR} {s : Sketch}
    (ha : NoArcs s) (hl : Lengths s h) (hd : getNDofs h s ≠ 0) (hn : s.cells.Nodup) (hcl : Closed ⟨h, s⟩) (hf : FiniteSketch h s) :
    SameRun (fun h h' => h' = h.inUnit c) (fun h h' => h' = h.inUnit c) Eq (runSolver pinv (.lm p) h s)
      (runSolver pinv (.lm ⟨p.maxIterations, fin (c * c) * p.minLoss, p.stepSize, fin (c * c) * p.pinvEps, fin (c * c) * p.beta⟩)
        (h.inUnit c) s) := by
  obtain ⟨n, ml, σ', ε', β'⟩ := p
  obtain rfl : σ' = fin σ := hσ
  obtain rfl : ε' = fin ε := hε
  obtain rfl : β' = fin β := hβ
  have q := unit_newton hc ha hp (unit_lm (c := c) h1) (σ := σ) h0 ml hn n Num.inf Num.inf (unit_inf (mul_pos hc hc)) h hd hl hcl hf
  simpa only [runSolver, lmSolve, mul_fin] using SameRun.weaken q (fun w => w.1) (fun w => w)

/-- **C107.** With the default parameters the unit does matter.  Any sketch of constraints about lengths, no two of whose lines with equal
lengths are degenerate (so that the gradient can be computed) is, in a unit large enough, left as it is by gradient descent, BFGS and
Gauss-Newton: all three return `Ok` and no coordinate has changed, however large the losses are in the unit it was drawn in. -/
theorem C107_too_small {pinv : PInv XR} (hp : CutPInv pinv) {h : Heap XR} {s : Sketch} (ha : NoArcs s) (hl : Lengths s h)
    (hd : getNDofs h s ≠ 0) (hn : s.cells.Nodup) (hcl : Closed ⟨h, s⟩) (hf : FiniteSketch h s)
    (hpr : ∀ k ∈ s.cons, ∀ l m, h.cons k = .eqLen l m → ProperLine h l ∧ ProperLine h m) :
    ∃ c₀ : ℝ, 0 < c₀ ∧ ∀ c : ℝ, 0 < c → c ≤ c₀ →
      ∀ k ∈ [SolverKind.gd .default, .bfgs .default, .gn .default],
        (runSolver pinv k (h.inUnit c) s).res = .ok ∧ GradOnly (h.inUnit c) (runSolver pinv k (h.inUnit c) s).heap := by
  obtain ⟨g, h1, eg⟩ : ∃ g h1, getGradient h s = .ok (g, h1) := by
    cases e : getGradient h s with
    | ok q => exact ⟨q.1, q.2, rfl⟩
    | error h' =>
      obtain ⟨k, hk, l, m, e1, e2⟩ := (C22_panics_iff hcl hf).1 ⟨h', e⟩
      have := hpr k hk l m e1
      tauto
  obtain ⟨J, h2, ej⟩ : ∃ J h2, getJacobian h s = .ok (J, h2) := by
    obtain ⟨-, B⟩ := getGradient_exact h s (hf.cons hcl)
    obtain ⟨A, -⟩ := jacobianRows_exact h s s.cons h (.refl h) (hf.cons hcl)
    obtain ⟨h2, -, e2⟩ := A fun k hk hdg => by
      obtain ⟨h', e⟩ := B ⟨k, hk, hdg⟩
      rw [eg] at e
      cases e
    exact ⟨_, h2, e2⟩
  obtain ⟨J, rfl⟩ := getJacobian_mat hcl hf ej
  obtain ⟨l, el⟩ := losses_vec hcl hf
  obtain ⟨x, ex⟩ := exists_vec' (List.all_eq_true.2 hf.1) (getData_length h s)
  obtain ⟨L, eL⟩ : ∃ L, getLoss h s = fin L := ⟨_, getLoss_fin fun k hk => by
    have : lossValue h (h.cons k) ∈ getLossPerConstraint h s := List.mem_map_of_mem hk
    rw [el] at this
    obtain ⟨i, e⟩ := List.mem_ofFn.1 this
    exact ⟨_, e.symm⟩⟩
  have hK : 0 ≤ ∑ i, ∑ j, J i j ^ 2 := Finset.sum_nonneg fun i _ => Finset.sum_nonneg fun j _ => sq_nonneg _
  have hF := frobenius J
  generalize (∑ i, ∑ j, J i j ^ 2) = K at hK hF
  have hB : 1 ≤ 1 + |L| + K := by have := abs_nonneg L; linarith
  refine ⟨1e-8 / (1 + |L| + K), div_pos (by norm_num) (by linarith), fun c hc hc0 => ?_⟩
  rw [le_div_iff₀ (by linarith)] at hc0
  have hcB : c * c * ((1 + |L| + K) * (1 + |L| + K)) ≤ 1e-16 := by
    have := mul_le_mul hc0 hc0 (mul_nonneg hc.le (by linarith)) (by norm_num)
    have e : (1e-8 : ℝ) * 1e-8 = 1e-16 := by norm_num
    rw [e] at this
    linarith [this]
  have hBB : 1 + |L| + K ≤ (1 + |L| + K) * (1 + |L| + K) := le_mul_of_one_le_left (by linarith) hB
  have hcc := mul_pos hc hc
  have hcL : c * c * L < 1e-16 := by
    have h3 : L < (1 + |L| + K) * (1 + |L| + K) := by have := le_abs_self L; linarith
    have := mul_lt_mul_of_pos_left h3 hcc
    linarith
  have hcK : c * c * K ≤ 1e-6 := by
    have h3 : K ≤ (1 + |L| + K) * (1 + |L| + K) := by have := abs_nonneg L; linarith
    have := mul_le_mul_of_nonneg_left h3 hcc.le
    norm_num at this hcB ⊢
    linarith
  have eL' : getLoss (h.inUnit c) s = fin (c * c * L) := by rw [unit_getLoss hc h hl, eL, mul_fin]
  have eg' : getGradient (h.inUnit c) s = .ok (inUnitL c g, h1.inUnit c) := by rw [unit_gradient hc ha h hl, eg]; rfl
  have gg : GradOnly (h.inUnit c) (h1.inUnit c) := by have := getGradient_gradOnly (h.inUnit c) s; rwa [eg'] at this
  intro k hk
  simp only [List.mem_cons, List.not_mem_nil, or_false] at hk
  rcases hk with rfl | rfl | rfl
  · have : runSolver pinv (.gd .default) (h.inUnit c) s = ⟨.ok, h1.inUnit c, [], 0, 0⟩ := by
      simp only [runSolver, gdSolve, eg', GDParams.default]
      rw [show (10000 : Nat) = 9999 + 1 from rfl, gdLoop]
      split
      · rfl
      · rw [if_pos]
        rw [gg.getLoss, eL']
        simp only [sci, lt_fin, decide_eq_true_eq]
        refine hcL.trans ?_
        norm_num
    rw [this]
    exact ⟨rfl, gg⟩
  · have : runSolver pinv (.bfgs .default) (h.inUnit c) s = ⟨.ok, h.inUnit c, [], 0, 0⟩ := by
      simp only [runSolver, bfgsSolve, BFGSParams.default]
      rw [show (1000 : Nat) = 999 + 1 from rfl, bfgsLoop, if_pos]
      rw [eL']
      simp only [sci, lt_fin, decide_eq_true_eq]
      exact hcL
    rw [this]
    exact ⟨rfl, .refl _⟩
  · have ej' : getJacobian (h.inUnit c) s = .ok (mat (c • J), h2.inUnit c) := by
      rw [show getJacobian (h.inUnit c) s = _ from unit_rows hc ha h s.cons hl, show jacobianRows s s.cons h = _ from ej, ← unit_mat]
      rfl
    have nd : getNDofs (h.inUnit c) s = getNDofs h s := getNDofs_congr ..
    have q := newton_stuck hp (h := h.inUnit c) (h0 := h2.inUnit c) (s := s) (ε := 1e-6) (σ := 1e-3) hn hd (by norm_num) (fin 1e-6)
      (x := c • x) (by rw [unit_getData ha, ex, unit_vec]) (l := (c * c) • l) (by rw [unit_losses hc h hl, el, unit_vec]) ej'
      (fun z => by
        rw [smul_mulVec, smul_dotProduct, dotProduct_smul, smul_eq_mul, smul_eq_mul, ← mul_assoc]
        have a := mul_le_mul_of_nonneg_left (hF z) hcc.le
        have b := mul_le_mul_of_nonneg_right hcK (dot_self_nonneg z)
        rw [← mul_assoc] at a
        exact a.trans b) 10000 Num.inf (h.inUnit c) (.refl _)
    simpa only [runSolver, gnSolve, GNParams.default, sci] using q

/-! ## Examples -/

theorem fix_noArcs : NoArcs fixSketch := by simp [NoArcs, fixSketch, Sketch.cells]

theorem fix_lengths (x y a b u v : ℝ) : Lengths fixSketch (fixHeap x y a b u v) := by
  intro k hk
  obtain rfl : k = 0 := by simpa [fixSketch] using hk
  simp [fixHeap, upd, Constraint.IsLength]

/-- gradient descent takes a point from `(0, 0)` to `(3, 4)` in metres, and from `(0, 0)` to `(300, 400)` in centimetres -/
example (pinv : PInv XR) : (runSolver pinv (.gd ⟨10, 1e-14, 1e-10⟩) (fixHeap 3 4 0 0 0 0) fixSketch).res = .ok ∧
    (runSolver pinv (.gd ⟨10, fin (100 * 100) * 1e-14, fin 100 * 1e-10⟩) ((fixHeap 3 4 0 0 0 0).inUnit 100) fixSketch).res = .ok ∧
    ptData (runSolver pinv (.gd ⟨10, fin (100 * 100) * 1e-14, fin 100 * 1e-10⟩) ((fixHeap 3 4 0 0 0 0).inUnit 100) fixSketch).heap 0 =
      ⟨fin 300, fin 400⟩ := by
  have e := fix_gdSolve (x := 3) (y := 4) (a := 0) (b := 0) (u := 0) (v := 0) 9 (by norm_num)
  have q := C107_gradient_descent (c := 100) (by norm_num) pinv ⟨10, 1e-14, 1e-10⟩ fix_noArcs (fix_lengths 3 4 0 0 0 0)
  have e' : runSolver pinv (.gd ⟨10, 1e-14, 1e-10⟩) (fixHeap 3 4 0 0 0 0) fixSketch = _ := e
  refine ⟨by rw [e'], by rw [← q.res, e'], ?_⟩
  rw [q.heap (by rw [e']; simp), e']
  simp only [ptData, Heap.inUnit, fixHeap, upd, if_true, mul_fin]
  norm_num

/-- Gauss-Newton in another unit -/
example :
    SameRun (fun h h' => h' = h.inUnit 100) (fun h h' => h' = h.inUnit 100) Eq
      (runSolver cutPInv (.gn ⟨10, fin 1, fin 1, fin 1⟩) (fixHeap 3 4 0 0 0 0) fixSketch)
      (runSolver cutPInv (.gn ⟨10, fin (100 * 100) * fin 1, fin 1, fin (100 * 100) * fin 1⟩) ((fixHeap 3 4 0 0 0 0).inUnit 100) fixSketch) :=
  C107_gauss_newton (by norm_num) cutPInv_cut ⟨10, fin 1, fin 1, fin 1⟩ (σ := 1) (ε := 1) rfl rfl zero_le_one fix_noArcs
    (fix_lengths 3 4 0 0 0 0) (fix_dofs _) fixSketch_nodup (fix_closed ..) (fix_finite ..)

/-- and Levenberg-Marquardt -/
example :
    SameRun (fun h h' => h' = h.inUnit 100) (fun h h' => h' = h.inUnit 100) Eq
      (runSolver cutPInv (.lm ⟨10, fin 1, fin 1, fin 1, fin 1⟩) (fixHeap 3 4 0 0 0 0) fixSketch)
      (runSolver cutPInv (.lm ⟨10, fin (100 * 100) * fin 1, fin 1, fin (100 * 100) * fin 1, fin (100 * 100) * fin 1⟩)
        ((fixHeap 3 4 0 0 0 0).inUnit 100) fixSketch) :=
  C107_levenberg_marquardt (by norm_num) cutPInv_cut ⟨10, fin 1, fin 1, fin 1, fin 1⟩ (σ := 1) (ε := 1) (β := 1) rfl rfl zero_le_one rfl
    zero_le_one fix_noArcs (fix_lengths 3 4 0 0 0 0) (fix_dofs _) fixSketch_nodup (fix_closed ..) (fix_finite ..)

/-- the point that is to go to `(3, 4)` stays at `(0, 0)` if the unit is large enough, and all three solvers say `Ok` -/
example : ∃ c₀ : ℝ, 0 < c₀ ∧ ∀ c : ℝ, 0 < c → c ≤ c₀ →
      ∀ k ∈ [SolverKind.gd .default, .bfgs .default, .gn .default],
        (runSolver cutPInv k ((fixHeap 3 4 0 0 0 0).inUnit c) fixSketch).res = .ok ∧
        GradOnly ((fixHeap 3 4 0 0 0 0).inUnit c) (runSolver cutPInv k ((fixHeap 3 4 0 0 0 0).inUnit c) fixSketch).heap :=
  C107_too_small cutPInv_cut fix_noArcs (fix_lengths 3 4 0 0 0 0) (fix_dofs _) fixSketch_nodup (fix_closed ..) (fix_finite ..) (by
    intro k hk l m e
    obtain rfl : k = 0 := by simpa [fixSketch] using hk
    simp [fixHeap, upd] at e)

end Isotope
