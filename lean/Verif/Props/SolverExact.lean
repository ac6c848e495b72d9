import Verif.Lemmas.Newton
import Verif.Lemmas.ExRun
import Verif.Props.Solver

/-!
# Solvers in exact arithmetic (C27, C31, C32, C34, C37) and examples for `Props/Solver.lean`
-/

namespace Isotope
open XR
open Matrix

/-! ## C27 -/

theorem le_false_of_neg {x : XR} (hx : Num.lt x (0.0 : XR) = false) {c : ℝ} (hc : c < 0) : (x <=. fin c) = false := by
  rw [zero_lit] at hx
  cases x with
  | fin x => simp only [lt_fin, decide_eq_false_iff_not, not_lt] at hx; simp only [le_fin, decide_eq_false_iff_not]; linarith
  | _ => first | rfl | (exact absurd hx (by simp [Num.lt, XR.lt]))

theorem lsLoop_stiff (s : Sketch) (hn : s.cells.Nodup) (nd : Nat) (dir x : Fin nd → ℝ) (L m : ℝ) (hm : m ≤ 0) (k : Nat)
    (a : ℝ) (ha : 0 < a) (h : Heap XR) (hd : getNDofs h s = nd) (hs : L + 1e-4 * (a * (1 / 2) ^ k) * m < 0) :
    ∃ h', lsLoop s (vec dir) (vec x) (fin L) (fin m) (k + 1) (fin a) h = (.searchFailed, h') ∧
      getData h' s = vec (x + (a * (1 / 2) ^ k) • dir) := by
  induction k generalizing a h with
  | zero =>
    subst hd
    obtain ⟨h1, e1, -, ed⟩ := setData_vec hn (x + a • dir)
    refine ⟨h1, ?_, by rw [pow_zero, mul_one]; exact ed⟩
    unfold lsLoop
    rw [vscale_vec, vadd_vec, show vec (x + a • dir) = _ from rfl, vec, e1]
    dsimp only
    have : wolfeC1 * fin a * fin m = fin (1e-4 * a * m) := by simp only [wolfeC1, sci, mul_fin]
    rw [this, add_fin, le_false_of_neg (C15_total_nonneg h1 s) (by simpa using hs)]
    rfl
  | succ k ih =>
    obtain ⟨h1, e1, r1, ed⟩ := setData_vec (h := h) hn (fun i => (x + a • dir) (i.cast hd))
    have hv : List.ofFn (fun i => fin ((x + a • dir) (Fin.cast hd i))) = vec (x + a • dir) := by subst hd; rfl
    rw [hv] at e1 ed
    have hh : (1 / 2 : ℝ) ^ (k + 1) ≤ 1 := pow_le_one₀ (by norm_num) (by norm_num)
    have h1n : getNDofs h1 s = nd := (getNDofs_congr h h1 s).trans hd
    obtain ⟨h2, e2, d2⟩ := ih (a * 0.5) (by linarith) h1 h1n (by
      have : a * 0.5 * (1 / 2) ^ k = a * (1 / 2) ^ (k + 1) := by rw [pow_succ]; ring
      rw [this]; exact hs)
    refine ⟨h2, ?_, ?_⟩
    · unfold lsLoop
      rw [vscale_vec, vadd_vec, e1]
      dsimp only
      have : wolfeC1 * fin a * fin m = fin (1e-4 * a * m) := by simp only [wolfeC1, sci, mul_fin]
      rw [this, add_fin, le_false_of_neg (C15_total_nonneg h1 s) (by
        have : a * (1 / 2) ^ (k + 1) ≤ a := by nlinarith
        nlinarith)]
      have : fin a * (0.5 : XR) = fin (a * 0.5) := by simp only [sci, mul_fin]
      rw [this]
      exact e2
    · rw [d2]
      have : a * 0.5 * (1 / 2) ^ k = a * (1 / 2) ^ (k + 1) := by rw [pow_succ]; ring
      rw [this]

/-- **C27.** What happens: if the gradient is large compared to the loss (more than `1e-4 * 2^-14 * |g|^2`), then no step
size passes the sufficient decrease test, gradient descent fails and leaves the sketch moved by `2^-14` times the
gradient. -/
theorem C27_stiff (p : GDParams XR) (h h1 : Heap XR) (s : Sketch) (hn : s.cells.Nodup) {n : Nat} (x g : Fin n → ℝ)
    (ex : getData h s = vec x) (eg : getGradient h s = .ok (vec g, h1)) (L : ℝ) (eL : getLoss h s = fin L)
    (hs : L < 1e-4 * (1 / 2) ^ 14 * (g ⬝ᵥ g)) (hmax : 0 < p.maxIterations) (hg : (normL (vec g) <. p.minGrad) = false)
    (hl : (fin L <. p.minLoss) = false) :
    (gdSolve p h s).res = .err .searchFailed ∧ getData (gdSolve p h s).heap s = vec (x - ((1 : ℝ) / 2) ^ 14 • g) := by
  have hnd : getNDofs h s = n := by rw [← getData_length, ex, length_vec]
  have fr := getGradient_frame eg
  have hgg : 0 ≤ g ⬝ᵥ g := Finset.sum_nonneg fun i _ => mul_self_nonneg _
  obtain ⟨h2, e2, d2⟩ := lsLoop_stiff s hn n (-g) x L (-(g ⬝ᵥ g)) (by linarith) 14 1 one_pos h1
    ((getNDofs_congr h h1 s).trans hnd) (by linarith)
  have hls : lineSearch h1 s (vec (-g)) (vec g) = (.searchFailed, h2) := by
    have hL0 : 0 ≤ L := by
      have := C15_total_nonneg h s
      rw [eL, zero_lit] at this
      simpa using this
    unfold lineSearch
    dsimp only
    rw [dotV_vec, dotProduct_neg, fr.getData, fr.getLoss, ex, eL, zero_lit, one_lit, if_neg]
    · exact e2
    · simp only [ge, le_fin, decide_eq_true_eq, not_le]
      by_contra hc
      have : g ⬝ᵥ g = 0 := by linarith
      rw [this] at hs
      linarith
  unfold gdSolve
  rw [eg]
  obtain ⟨k, hk⟩ : ∃ k, p.maxIterations = k + 1 := ⟨_, (Nat.succ_pred_eq_of_pos hmax).symm⟩
  dsimp only
  rw [hk]
  unfold gdLoop
  rw [hg, fr.getLoss, eL, hl]
  dsimp only
  rw [vneg_vec, hls]
  refine ⟨rfl, ?_⟩
  show getData h2 s = _
  rw [d2, one_mul, smul_neg, sub_eq_add_neg]

/-- the history of the counterexample to "a failed solve leaves the sketch where it was": an arc of radius 16384 around the
origin that is to start at a point one unit from where it starts -/
def arcOps : List (Op XR) :=
  [.addPoint2 (fin 0) (fin 0), .addPoint2 (fin 16384) (fin 1), .addArc 0 (fin 16384) false (fin 0) (fin 1),
   .newCons (.arcStart 0 1), .addConstraint 0]

/-- what it leads to -/
noncomputable def arcHeap : Heap XR :=
  { (Heap.empty : Heap XR) with
    points := upd (upd Heap.empty.points 0 (Point2.new (fin 0) (fin 0))) 1 (Point2.new (fin 16384) (fin 1))
    arcs := upd Heap.empty.arcs 0 (Arc.new 0 (fin 16384) false (fin 0) (fin 1))
    cons := upd Heap.empty.cons 0 (.arcStart 0 1)
    nPoints := 2
    nArcs := 1
    nCons := 1 }
def arcSketch : Sketch := ⟨[(0, .point 0), (1, .point 1), (2, .arc 0)], 3, [0]⟩

theorem arc_run (pinv : PInv XR) : (run pinv World.init arcOps).2 = ⟨arcHeap, arcSketch⟩ := by
  have hc : ∀ a b c : XR, (Arc.new 0 a false b c).center = 0 := fun _ _ _ => rfl
  simp [hc, run, step, Op.live, PrimCell.live, World.init, Heap.empty, addArc, Heap.allocArc, Heap.setArc,
  Heap.allocPoint, Heap.allocCons, addPoint2, consNewOk, Sketch.addPrimitive, Sketch.addConstraint, primFields,
  consFields, Sketch.new, Sketch.hasPrim, mapInsert, u64Size, arcHeap, arcSketch, arcOps, upd, Heap.setPoint, Heap.setCons]

theorem arc_nodup : arcSketch.cells.Nodup := by simp [arcSketch, Sketch.cells]
theorem arc_data : getData arcHeap arcSketch = vec ![0, 0, 16384, 1, 16384, 0, 1] := by
  rw [getData_eq]; simp [arcHeap, arcSketch, Sketch.cells, primData, upd, Point2.new, Arc.new, vec]
theorem arc_loss_of {h : Heap XR} {cx cy x y r t0 t1 : ℝ} (hc : h.cons = arcHeap.cons) (ha : (h.arcs 0).center = 0)
    (hd : getData h arcSketch = [fin cx, fin cy, fin x, fin y, fin r, fin t0, fin t1]) :
    getLoss h arcSketch = fin (((cx + r * Real.cos t0 - x) ^ 2 + (cy + r * Real.sin t0 - y) ^ 2) / 2) ∧
    chunks h (h.cons 0) = (let u := cx + r * Real.cos t0 - x
      let v := cy + r * Real.sin t0 - y
      [.arc 0 ⟨fin u, fin v, fin (u * Real.cos t0 + v * Real.sin t0),
        fin (u * (-r * Real.sin t0) + v * (r * Real.cos t0)), fin 0⟩, .point 1 ⟨fin (-u), fin (-v)⟩]) := by
  rw [getData_eq] at hd
  simp [arcSketch, Sketch.cells, primData] at hd
  obtain ⟨h1, h2, h3, h4, h5, h6, h7⟩ := hd
  have e0 : ptData h 0 = ⟨fin cx, fin cy⟩ := by rw [← h1, ← h2]; rfl
  have e1 : ptData h 1 = ⟨fin x, fin y⟩ := by rw [← h3, ← h4]; rfl
  have e2 : (h.arcs 0).data = ⟨fin r, fin t0, fin t1⟩ := by rw [← h5, ← h6, ← h7]
  rw [← ha] at e0
  have ec : h.cons 0 = .arcStart 0 1 := by rw [hc]; simp [arcHeap, upd]
  have hl := loss_arcStart e1 (startPoint_fin e0 e2)
  constructor
  · rw [getLoss_fin (by
      intro k hk
      have : k = 0 := by simpa [arcSketch] using hk
      subst this
      exact ⟨_, by rw [ec]; exact hl⟩)]
    simp [arcSketch, ec, hl]
  · rw [ec]
    exact chunks_arcStart e1 e0 e2

/-- **C27.** "A failed solve leaves the sketch where it was" is false: on this sketch, reachable by five calls, gradient
descent with default parameters returns `Err(SearchFailed)`, has turned the arc by one radian, and the loss has grown from
1/2 to more than a million. -/
theorem C27_failed_moves (pinv : PInv XR) :
    ∃ h : Heap XR, ∃ s : Sketch, (run pinv World.init arcOps).2 = ⟨h, s⟩ ∧
    (runSolver pinv (.gd .default) h s).res = .err .searchFailed ∧
    ((h.arcs 0).startAngle = fin 0 ∧ ((runSolver pinv (.gd .default) h s).heap.arcs 0).startAngle = fin 1) ∧
    getLoss h s = fin (1 / 2) ∧
    ∃ L, getLoss (runSolver pinv (.gd .default) h s).heap s = fin L ∧ 1000000 < L := by
  refine ⟨arcHeap, arcSketch, arc_run pinv, ?_⟩
  have hcl : Closed ⟨arcHeap, arcSketch⟩ := by
    have hc : ∀ a b c : XR, (Arc.new 0 a false b c).center = 0 := fun _ _ _ => rfl
    simp [Closed, arcSketch, arcHeap, Sketch.cells, primFields, consFields, upd, hc]
  have hfs : FiniteSketch arcHeap arcSketch :=
    ⟨by rw [arc_data]; intro x hx; obtain ⟨i, rfl⟩ := List.mem_ofFn.1 hx; rfl, by simp [arcSketch, arcHeap, consParams, upd]⟩
  have hdat := arc_data
  have hv : vec ![0, 0, 16384, 1, 16384, 0, 1] = [fin 0, fin 0, fin 16384, fin 1, fin 16384, fin 0, fin 1] := by simp [vec]
  rw [hv] at hdat
  obtain ⟨hl, hch⟩ := arc_loss_of rfl rfl hdat
  norm_num at hl hch
  have hcen : (arcHeap.arcs 0).center = 0 := rfl
  obtain ⟨h1, -, -, eg⟩ := (getGradient_exact arcHeap arcSketch (hfs.cons hcl)).1 (by
    intro k hk
    have : k = 0 := by simpa [arcSketch] using hk
    subst this
    have : arcHeap.cons 0 = .arcStart 0 1 := by simp [arcHeap, upd]
    rw [this]; exact id)
  have eg' : getGradient arcHeap arcSketch = .ok (vec ![0, -1, 0, 1, 0, -16384, 0], h1) := by
    rw [eg]
    congr 2
    simp [arcSketch, Sketch.dofs, Sketch.cells, dofs, contribs, hch, Chunk.contrib, hcen, vec]
  have hgg : (![0, -1, 0, 1, 0, -16384, 0] : Fin 7 → ℝ) ⬝ᵥ ![0, -1, 0, 1, 0, -16384, 0] = 268435458 := by
    simp [dotProduct, Fin.sum_univ_succ]; norm_num
  obtain ⟨r1, r2⟩ := C27_stiff .default arcHeap h1 arcSketch arc_nodup _ _ arc_data eg' (1 / 2) (by rw [hl])
    (by rw [hgg]; norm_num) (by simp [GDParams.default]) (by
    rw [normL, dotV_vec, hgg, sqrt_fin_of_nonneg (by norm_num)]
    simp only [GDParams.default, sci, lt_fin, decide_eq_false_iff_not, not_lt]
    exact Real.le_sqrt_of_sq_le (by norm_num)) (by
    simp only [GDParams.default, sci, lt_fin, decide_eq_false_iff_not, not_lt]; norm_num)
  have hm := (C35_solver_frame pinv (.gd .default) arcHeap arcSketch).1
  have r2' : getData (gdSolve .default arcHeap arcSketch).heap arcSketch =
      [fin 0, fin ((1 / 2) ^ 14), fin 16384, fin (1 - (1 / 2) ^ 14), fin 16384, fin 1, fin 1] := by
    rw [r2]; simp [vec]; norm_num
  obtain ⟨hl', -⟩ := arc_loss_of hm.cons (by rw [hm.arcCenter]; exact hcen) r2'
  refine ⟨r1, ⟨rfl, ?_⟩, by rw [hl], _, hl', ?_⟩
  · rw [getData_eq] at r2'
    simp [arcSketch, Sketch.cells, primData] at r2'
    exact r2'.2.2.2.2.2.1
  · have hc := Real.cos_one_le
    nlinarith [sq_nonneg (0 + 16384 * Real.cos 1 - 16384)]

/-! ## C31, C32 -/

theorem posDef_one' {n : Nat} : (1 : Matrix (Fin n) (Fin n) ℝ).PosDef := by
  refine PosDef.of_dotProduct_mulVec_pos (by simp [IsHermitian]) fun x hx => ?_
  rw [star_trivial, one_mulVec]
  obtain ⟨i, hi⟩ : ∃ i, x i ≠ 0 := by
    by_contra hh
    exact hx (funext fun i => by by_contra h1; exact hh ⟨i, h1⟩)
  exact Finset.sum_pos' (fun i _ => mul_self_nonneg _) ⟨i, Finset.mem_univ i, mul_self_pos.2 hi⟩

/-- **C31.** In a run of BFGS without failed line search the matrix after every step is symmetric and positive definite. -/
theorem C31_positive_definite (p : BFGSParams XR) (h : Heap XR) (s : Sketch) (hn : s.cells.Nodup)
    (hf : (bfgsSolve p h s).failed = 0) :
    ∀ r ∈ (bfgsSolve p h s).steps, ∃ B : Matrix (Fin (getNDofs h s)) (Fin (getNDofs h s)) ℝ, B.PosDef ∧ r.mat = mat B := by
  intro r hr
  unfold bfgsSolve at hr hf
  dsimp only at hr hf
  rw [getData_length] at hr hf
  obtain ⟨B, _, _, _, _, _, _, hB, eB, -⟩ := (bfgsLoop_spd p s hn _ _ _ _ _ h rfl rfl
    ⟨1, posDef_one', identity_mat⟩ hf).1 r hr
  exact ⟨B, hB, eB⟩

/-- **C31.** In a run of BFGS without failed line search and with a positive gradient threshold the search direction is
always a descent direction: the solver does not return `NotDescentDirection`. -/
theorem C31_descent (p : BFGSParams XR) (h : Heap XR) (s : Sketch) (hn : s.cells.Nodup)
    (hf : (bfgsSolve p h s).failed = 0) (t : ℝ) (ht : 0 < t) (hp : p.gradientThreshold = fin t) :
    (bfgsSolve p h s).res ≠ .err .notDescentDirection := by
  unfold bfgsSolve at hf ⊢
  dsimp only at hf ⊢
  rw [getData_length] at hf ⊢
  exact (bfgsLoop_spd p s hn _ _ _ _ _ h rfl rfl ⟨1, posDef_one', identity_mat⟩ hf).2 t ht hp

/-- **C32.** The update of the BFGS matrix satisfies the secant equation unless `s . y` is tiny: the new matrix maps `y` to
`s`. -/
theorem C32_secant {n : Nat} (A : Matrix (Fin n) (Fin n) ℝ) (hA : A.IsSymm) (s y : Fin n → ℝ) (hsy : 1e-16 ≤ |s ⬝ᵥ y|) :
    ∃ B : Matrix (Fin n) (Fin n) ℝ, bfgsUpdate (mat A) (vec s) (vec y) = mat B ∧ B.IsSymm ∧ B *ᵥ y = s := by
  refine ⟨_, bfgsUpdate_mat A s y, ?_, upd_secant A s y (rhoOf_ne s y) ?_⟩
  · unfold updR IsSymm
    simp only [transpose_add, transpose_smul, transpose_vecMulVec, hA.eq]
    abel
  · unfold rhoOf
    rw [if_neg (not_lt.2 hsy)]

/-- **C32.** In a run of BFGS without failed line search: every step changes coordinates by `x1 - x0` and the gradient by
`g1 - g0` with positive inner product, and unless that product is tiny the matrix after the step maps `g1 - g0` to
`x1 - x0`. -/
theorem C32_run (p : BFGSParams XR) (h : Heap XR) (s : Sketch) (hn : s.cells.Nodup) (hf : (bfgsSolve p h s).failed = 0) :
    ∀ r ∈ (bfgsSolve p h s).steps,
      ∃ (B : Matrix (Fin (getNDofs h s)) (Fin (getNDofs h s)) ℝ) (x0 x1 g0 g1 : Fin (getNDofs h s) → ℝ) (h0 h1 : Heap XR),
        r.mat = mat B ∧ getData r.pre s = vec x0 ∧ getData r.post s = vec x1 ∧
        getGradient r.pre s = .ok (vec g0, h0) ∧ getGradient r.post s = .ok (vec g1, h1) ∧
        0 < (x1 - x0) ⬝ᵥ (g1 - g0) ∧ (1e-16 ≤ (x1 - x0) ⬝ᵥ (g1 - g0) → B *ᵥ (g1 - g0) = x1 - x0) := by
  intro r hr
  unfold bfgsSolve at hr hf
  dsimp only at hr hf
  rw [getData_length] at hr hf
  obtain ⟨B, x0, x1, g0, g1, h0, h1, hB, eB, r⟩ := (bfgsLoop_spd p s hn _ _ _ _ _ h rfl rfl
    ⟨1, posDef_one', identity_mat⟩ hf).1 r hr
  exact ⟨B, x0, x1, g0, g1, h0, h1, eB, r⟩

/-! ## C34 -/

theorem gt_inf (x : ℝ) : gt (Num.inf : XR) (fin x) = true := rfl

theorem noForce_of_proper {h : Heap XR} {s : Sketch} (hc : Closed ⟨h, s⟩) (hf : FiniteSketch h s)
    (hl : ∀ k ∈ s.cons, ∀ l m, h.cons k = .eqLen l m → ProperLine h l ∧ ProperLine h m) (k : Nat) (hk : k ∈ s.cons)
    (hz : lossValue h (h.cons k) = fin 0) : NoForce h (h.cons k) := by
  have hd : ¬DegenerateEqLen h (h.cons k) := by
    have := hl k hk
    revert this
    cases h.cons k <;> try exact fun _ hd => hd
    rename_i l m
    intro hl hd
    obtain ⟨h1, h2⟩ := hl l m rfl
    rcases hd with hd | hd
    · exact h1 (by unfold ptOf; unfold lineStart lineEnd ptData at hd; rw [hd])
    · exact h2 (by unfold ptOf; unfold lineStart lineEnd ptData at hd; rw [hd])
  exact ⟨hd, (hf.cons hc k hk).real.contribs_zero hz hd⟩

theorem gn_noForce {pinv : PInv XR} (hp : GoodPInv pinv) (p : GNParams XR) {h : Heap XR} {s : Sketch}
    (hn : s.cells.Nodup) (hc : Closed ⟨h, s⟩) (hf : FiniteSketch h s) (hd : 0 < getNDofs h s)
    (hz : ∀ k ∈ s.cons, NoForce h (h.cons k)) (σ : ℝ) (hσ : p.stepSize = fin σ) :
    (gnSolve pinv p h s).res = .ok ∧ GradOnly h (gnSolve pinv p h s).heap ∧
    (gt (sumL (getLossPerConstraint h s)) p.minLoss = false → gt (Num.inf : XR) p.minLoss = true → 0 < p.maxIterations →
      (gnSolve pinv p h s).steps.length = 1) := by
  obtain ⟨P, hP⟩ := hp _ (((0 : Matrix (Fin s.cons.length) (Fin (getNDofs h s)) ℝ))ᵀ *
    (0 : Matrix (Fin s.cons.length) (Fin (getNDofs h s)) ℝ)) p.pinvEps hd
  rw [← gnNormal_mat] at hP
  obtain ⟨h1, h2, -, h4⟩ := newtonLoop_noForce hn hc hf hz pinv p.minLoss p.pinvEps σ gnNormal hP p.maxIterations Num.inf h
    (.refl h)
  unfold gnSolve
  rw [hσ]
  exact ⟨h1, h2, h4⟩

theorem lm_noForce {pinv : PInv XR} (hp : GoodPInv pinv) (p : LMParams XR) {h : Heap XR} {s : Sketch}
    (hn : s.cells.Nodup) (hc : Closed ⟨h, s⟩) (hf : FiniteSketch h s) (hd : 0 < getNDofs h s)
    (hz : ∀ k ∈ s.cons, NoForce h (h.cons k)) (σ β : ℝ) (hσ : p.stepSize = fin σ) (hβ : p.beta = fin β) :
    (lmSolve pinv p h s).res = .ok ∧ GradOnly h (lmSolve pinv p h s).heap ∧
    (gt (sumL (getLossPerConstraint h s)) p.minLoss = false → gt (Num.inf : XR) p.minLoss = true → 0 < p.maxIterations →
      (lmSolve pinv p h s).steps.length = 1) := by
  obtain ⟨P, hP⟩ := hp _ (((0 : Matrix (Fin s.cons.length) (Fin (getNDofs h s)) ℝ))ᵀ *
    (0 : Matrix (Fin s.cons.length) (Fin (getNDofs h s)) ℝ) + β • 1) p.pinvEps hd
  rw [← lmNormal_mat, ← hβ] at hP
  obtain ⟨h1, h2, -, h4⟩ := newtonLoop_noForce hn hc hf hz pinv p.minLoss p.pinvEps σ (lmNormal p.beta) hP p.maxIterations
    Num.inf h (.refl h)
  unfold lmSolve
  rw [hσ]
  exact ⟨h1, h2, h4⟩

theorem sum_not_gt {h : Heap XR} {s : Sketch} (hz : getLoss h s = fin 0) {ml : ℝ} (h0 : 0 ≤ ml) :
    gt (sumL (getLossPerConstraint h s)) (fin ml) = false := by
  rw [sumL_zero]
  · simp [gt, h0]
  · intro x hx
    obtain ⟨k, hk, rfl⟩ := List.mem_map.1 hx
    exact (C15_zero_iff h s).1 hz k hk

/-- **C34.** Gauss-Newton on a sketch whose loss is zero: no coordinate moves and it stops after one step. -/
theorem C34_gn_fixed {pinv : PInv XR} (hp : GoodPInv pinv) (p : GNParams XR) (h : Heap XR) (s : Sketch)
    (hn : s.cells.Nodup) (hc : Closed ⟨h, s⟩) (hf : FiniteSketch h s) (hd : 0 < getNDofs h s)
    (hl : ∀ k ∈ s.cons, ∀ l m, h.cons k = .eqLen l m → ProperLine h l ∧ ProperLine h m)
    (hz : getLoss h s = fin 0) (σ ml : ℝ) (hσ : p.stepSize = fin σ) (hml : p.minLoss = fin ml) (h0 : 0 ≤ ml)
    (hm : 0 < p.maxIterations) :
    (gnSolve pinv p h s).res = .ok ∧ GradOnly h (gnSolve pinv p h s).heap ∧ (gnSolve pinv p h s).steps.length = 1 := by
  obtain ⟨h1, h2, h3⟩ := gn_noForce hp p hn hc hf hd
    (fun k hk => noForce_of_proper hc hf hl k hk ((C15_zero_iff h s).1 hz k hk)) σ hσ
  rw [hml] at h3
  exact ⟨h1, h2, h3 (sum_not_gt hz h0) (gt_inf ml) hm⟩

/-- **C34.** The same for Levenberg-Marquardt. -/
theorem C34_lm_fixed {pinv : PInv XR} (hp : GoodPInv pinv) (p : LMParams XR) (h : Heap XR) (s : Sketch)
    (hn : s.cells.Nodup) (hc : Closed ⟨h, s⟩) (hf : FiniteSketch h s) (hd : 0 < getNDofs h s)
    (hl : ∀ k ∈ s.cons, ∀ l m, h.cons k = .eqLen l m → ProperLine h l ∧ ProperLine h m)
    (hz : getLoss h s = fin 0) (σ ml β : ℝ) (hσ : p.stepSize = fin σ) (hml : p.minLoss = fin ml) (h0 : 0 ≤ ml)
    (hβ : p.beta = fin β) (hm : 0 < p.maxIterations) :
    (lmSolve pinv p h s).res = .ok ∧ GradOnly h (lmSolve pinv p h s).heap ∧ (lmSolve pinv p h s).steps.length = 1 := by
  obtain ⟨h1, h2, h3⟩ := lm_noForce hp p hn hc hf hd
    (fun k hk => noForce_of_proper hc hf hl k hk ((C15_zero_iff h s).1 hz k hk)) σ β hσ hβ
  rw [hml] at h3
  exact ⟨h1, h2, h3 (sum_not_gt hz h0) (gt_inf ml) hm⟩

/-! ## C37 -/

/-- The constraint is satisfied (and not an equal-length constraint of a line without length), or it is a distance
constraint between two points less than `1e-6` apart. -/
def Stuck (h : Heap XR) (c : Constraint XR) : Prop :=
  (lossValue h c = fin 0 ∧ ∀ l m, c = .eqLen l m → ProperLine h l ∧ ProperLine h m) ∨
  ∃ p1 p2 d, c = .euclid p1 p2 d ∧ dist (ptOf h p1) (ptOf h p2) < 1e-6

/-- **C37.** What is true: if every constraint is satisfied or is a distance constraint between two points less than
`1e-6` apart, then each of the four solvers with default parameters returns `Ok` and moves nothing, whatever the loss. -/
theorem C37_stuck {pinv : PInv XR} (hp : GoodPInv pinv) (h : Heap XR) (s : Sketch) (hn : s.cells.Nodup)
    (hc : Closed ⟨h, s⟩) (hf : FiniteSketch h s) (hd : 0 < getNDofs h s) (hs : ∀ k ∈ s.cons, Stuck h (h.cons k)) :
    ∀ k ∈ [SolverKind.gd .default, .bfgs .default, .gn .default, .lm .default],
      (runSolver pinv k h s).res = .ok ∧ GradOnly h (runSolver pinv k h s).heap := by
  have hfc := hf.cons hc
  have hz : ∀ k ∈ s.cons, NoForce h (h.cons k) := by
    intro k hk
    rcases hs k hk with ⟨h1, h2⟩ | ⟨p1, p2, d, e, hd⟩
    · have hd : ¬DegenerateEqLen h (h.cons k) := by
        revert h2
        cases h.cons k <;> try exact fun _ hd => hd
        rename_i l m
        intro hl hd
        obtain ⟨h1, h2⟩ := hl l m rfl
        rcases hd with hd | hd
        · exact h1 (by unfold ptOf; unfold lineStart lineEnd ptData at hd; rw [hd])
        · exact h2 (by unfold ptOf; unfold lineStart lineEnd ptData at hd; rw [hd])
      exact ⟨hd, (hfc k hk).real.contribs_zero h1 hd⟩
    · have hr := (hfc k hk).real
      rw [e] at hr ⊢
      refine ⟨fun hd => hd, ?_⟩
      cases hr with
      | @euclid _ _ x1 y1 x2 y2 _ e1 e2 =>
        unfold contribs
        rw [chunks_euclid e1 e2]
        have : hyp (x1 - x2) (y1 - y2) < 1e-6 := by
          rw [hyp_eq_dist]
          unfold ptOf at hd
          unfold ptData at e1 e2
          rw [e1, e2] at hd
          exact hd
        dsimp only
        rw [if_pos this]
        simp
  obtain ⟨hg, -, -, eg⟩ := (getGradient_exact h s hfc).1 fun k hk => (hz k hk).1
  have hg0 : ∀ x ∈ s.dofs.map (fun c => fin (total (s.cons.flatMap (fun k => contribs h (h.cons k))) c)), x = fin 0 := by
    intro x hx
    obtain ⟨c, -, rfl⟩ := List.mem_map.1 hx
    rw [total_zero]
    intro e he
    obtain ⟨k, hk, hek⟩ := List.mem_flatMap.1 he
    exact (hz k hk).2 e hek
  intro k hk
  simp only [List.mem_cons, List.not_mem_nil, or_false] at hk
  rcases hk with rfl | rfl | rfl | rfl
  · obtain ⟨h1, -, -, h4⟩ := C36_gd_stays .default h hg s _ eg (.inl (by
      rw [normL, dotV_eq, dotL_zero (fin'_of_zero hg0) (fin'_of_zero hg0) (.inl hg0), sqrt_fin_of_nonneg le_rfl, Real.sqrt_zero]
      simp [GDParams.default]
      norm_num))
    exact ⟨h1, h4⟩
  · obtain ⟨h1, -, -, h4⟩ := C36_bfgs_stays_gradient .default h hg s _ eg (fun x hx => by rw [hg0 x hx]; rfl) (by
      rw [uniformNorm_zero _ hg0]
      simp [BFGSParams.default]
      norm_num)
    exact ⟨h1, h4⟩
  · obtain ⟨h1, h2, -⟩ := gn_noForce hp .default hn hc hf hd hz 1e-3 (by simp only [GNParams.default, sci])
    exact ⟨h1, h2⟩
  · obtain ⟨h1, h2, -⟩ := lm_noForce hp .default hn hc hf hd hz 1e-1 1e-5 (by simp only [LMParams.default, sci])
      (by simp only [LMParams.default, sci])
    exact ⟨h1, h2⟩

/-- the history of the counterexample to "`Ok` means solved": two points at the origin, to be 10 apart -/
def stuckOps : List (Op XR) := [.addPoint2 (fin 0) (fin 0), .addPoint2 (fin 0) (fin 0), .constrainDistanceEuclidean 0 1 (fin 10)]

/-- what it leads to -/
noncomputable def stuckHeap : Heap XR :=
  { (Heap.empty : Heap XR) with
    points := upd (upd Heap.empty.points 0 (Point2.new (fin 0) (fin 0))) 1 (Point2.new (fin 0) (fin 0))
    cons := upd Heap.empty.cons 0 (.euclid 0 1 (fin 10))
    nPoints := 2
    nCons := 1 }
def stuckSketch : Sketch := ⟨[(0, .point 0), (1, .point 1)], 2, [0]⟩

theorem stuck_run (pinv : PInv XR) : (run pinv World.init stuckOps).2 = ⟨stuckHeap, stuckSketch⟩ := by
  simp [run, step, Op.live, PrimCell.live, World.init, Heap.empty,
  Heap.allocPoint, Heap.allocCons, addPoint2, constrain, consNewOk, Sketch.addPrimitive, Sketch.addConstraint, primFields,
  consFields, Sketch.new, Sketch.hasPrim, mapInsert, u64Size, stuckHeap, stuckSketch, stuckOps, upd, Heap.setPoint, Heap.setCons]

theorem stuck_data : getData stuckHeap stuckSketch = [fin 0, fin 0, fin 0, fin 0] := by
  rw [getData_eq]; simp [stuckHeap, stuckSketch, Sketch.cells, primData, upd, Point2.new]
theorem stuck_loss : getLoss stuckHeap stuckSketch = fin 50 := by
  have e : ptData stuckHeap 0 = ⟨fin 0, fin 0⟩ ∧ ptData stuckHeap 1 = ⟨fin 0, fin 0⟩ := by
    constructor <;> simp [ptData, stuckHeap, upd, Point2.new]
  have : lossValue stuckHeap (.euclid 0 1 (fin 10)) = fin 50 := by
    rw [loss_euclid e.1 e.2]
    have : hyp 0 0 = 0 := by simp [hyp]
    norm_num [this]
  rw [getLoss_fin (by
    intro k hk
    have : k = 0 := by simpa [stuckSketch] using hk
    subst this
    exact ⟨_, this⟩)]
  have e : stuckHeap.cons 0 = .euclid 0 1 (fin 10) := by simp [stuckHeap, upd]
  simp [stuckSketch, e, this]

/-- **C37.** "`Ok` means solved" is false: two points created at the same place, with the constraint to be 10 apart.  Each
solver with default parameters returns `Ok`, and the loss is 50 before and after. -/
theorem C37_ok_not_solved {pinv : PInv XR} (hp : GoodPInv pinv) :
    ∃ h : Heap XR, ∃ s : Sketch, (run pinv World.init stuckOps).2 = ⟨h, s⟩ ∧ getLoss h s = fin 50 ∧
    ∀ k ∈ [SolverKind.gd .default, .bfgs .default, .gn .default, .lm .default],
      (runSolver pinv k h s).res = .ok ∧ getData (runSolver pinv k h s).heap s = getData h s ∧
      getLoss (runSolver pinv k h s).heap s = fin 50 := by
  refine ⟨_, _, stuck_run pinv, stuck_loss, fun k hk => ?_⟩
  obtain ⟨h1, h2⟩ := C37_stuck hp stuckHeap stuckSketch (by simp [stuckSketch, Sketch.cells])
    (by simp [Closed, stuckSketch, stuckHeap, Sketch.cells, primFields, consFields, upd])
    ⟨by rw [stuck_data]; simp, by simp [stuckSketch, stuckHeap, consParams, upd]⟩
    (by rw [← getData_length, stuck_data]; simp) (by
      intro k hk
      have : k = 0 := by simpa [stuckSketch] using hk
      subst this
      refine .inr ⟨0, 1, fin 10, rfl, ?_⟩
      have : ptOf stuckHeap 0 = ptOf stuckHeap 1 := by simp [ptOf, stuckHeap, upd]
      rw [this, dist_self]
      norm_num) k hk
  exact ⟨h1, h2.getData _, by rw [h2.getLoss]; exact stuck_loss⟩

/-! ## Cases that meet the hypotheses -/

/-- C26: an accepted line search: the point (0, 0) is to be at (3, 4) -/
example : lineSearch (fixHeap 3 4 0 0 0 0) fixSketch [fin (3 - 0), fin (4 - 0)] [fin (0 - 3), fin (0 - 4)] =
    (.ok (fin 1), fixHeap 3 4 3 4 0 0) := fix_lineSearch _ _ (by norm_num)

/-- C26: a direction that is refused -/
example : lineSearch (fixHeap 3 4 0 0 0 0) fixSketch [fin 3, fin 4] [fin 3, fin 4] = (.notDescent, fixHeap 3 4 0 0 0 0) :=
  (C26_not_descent _ _ _ _ _).2 ⟨by simp only [dotV_eq, dotL, zero_lit]; simp; norm_num, rfl⟩

/-- C28, C29: a run of gradient descent with default parameters that makes a step -/
example : (gdSolve GDParams.default (fixHeap 3 4 0 0 0 0) fixSketch).res = .ok ∧
    (gdSolve GDParams.default (fixHeap 3 4 0 0 0 0) fixSketch).steps.length = 1 := by
  have := fix_gdSolve (x := 3) (y := 4) (a := 0) (b := 0) 0 0 9999 (by norm_num)
  rw [GDParams.default, this]
  exact ⟨rfl, rfl⟩

/-- C30-C33: a run of BFGS with default parameters that makes a step, without failed line search -/
example : (bfgsSolve BFGSParams.default (fixHeap 3 4 0 0 0 0) fixSketch).res = .ok ∧
    (bfgsSolve BFGSParams.default (fixHeap 3 4 0 0 0 0) fixSketch).failed = 0 ∧
    (bfgsSolve BFGSParams.default (fixHeap 3 4 0 0 0 0) fixSketch).steps.length = 1 := by
  obtain ⟨M, this⟩ := fix_bfgsSolve (x := 3) (y := 4) (a := 0) (b := 0) 0 0 999 (by norm_num) (by norm_num)
  rw [BFGSParams.default, this]
  exact ⟨rfl, rfl, rfl⟩

/-- C34, C37: a pseudo-inverse as assumed -/
theorem goodPInv_identity : GoodPInv (fun m _ => .ok (identity m.length)) := by
  intro n A eps _
  refine ⟨1, ?_⟩
  have : (mat A).length = n := by simp [mat]
  dsimp only
  rw [this, identity_mat]

/-- C34: a sketch with loss zero -/
example : (gnSolve (fun m _ => .ok (identity m.length)) GNParams.default (fixHeap 3 4 3 4 0 0) fixSketch).steps.length = 1 := by
  refine (C34_gn_fixed goodPInv_identity .default (fixHeap 3 4 3 4 0 0) fixSketch fixSketch_nodup ?_ ?_ ?_ ?_ ?_ 1e-3 1e-6
    ?_ ?_ ?_ ?_).2.2
  · simp [Closed, fixSketch, fixHeap, Sketch.cells, primFields, consFields, upd]
  · exact ⟨by rw [fix_data]; simp, by simp [fixSketch, fixHeap, consParams, upd]⟩
  · rw [← getData_length, fix_data]; simp
  · intro k hk l m e
    have : k = 0 := by simpa [fixSketch] using hk
    subst this
    simp [fixHeap, upd] at e
  · rw [fix_loss]; norm_num
  · simp only [GNParams.default, sci]
  · simp only [GNParams.default, sci]
  · norm_num
  · simp [GNParams.default]

/-- C36: hypotheses of the two theorems -/
example : (getLoss (fixHeap 3 4 3 4 0 0) fixSketch <. (GDParams.default : GDParams XR).minLoss) = true := by
  rw [fix_loss]; simp only [GDParams.default, sci, lt_fin, decide_eq_true_eq]; norm_num

end Isotope
