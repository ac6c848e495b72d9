import Mathlib.Analysis.Real.Pi.Bounds
import Mathlib.Analysis.SpecialFunctions.Trigonometric.Arctan
import Verif.Lemmas.AloneStep
import Verif.Props.SolverExact

/-!
# BFGS after a failed line search (C33)

`bfgs_solver.rs:72-83` leaves the sketch at the last trial point when a line search fails and tries again from there, with
the gradient of that point, but `bfgs_solver.rs:91` adds the step to the coordinates from before the failed search. This file
has a sketch on which the loss grows that way although the solver returns `Ok`.
-/

namespace Isotope
open XR Matrix

/-- an arc of radius `r` around the origin from angle `t`, with the point `(x, y)` as start point -/
def staleOps (x y r t : ℝ) : List (Op XR) :=
  [.addPoint2 (fin 0) (fin 0), .addPoint2 (fin x) (fin y), .addArc 0 (fin r) false (fin t) (fin 0),
   .newCons (.arcStart 0 1), .addConstraint 0]

/-- what it leads to -/
noncomputable def staleHeap (x y r t : ℝ) : Heap XR :=
  { (Heap.empty : Heap XR) with
    points := upd (upd Heap.empty.points 0 (Point2.new (fin 0) (fin 0))) 1 (Point2.new (fin x) (fin y))
    arcs := upd Heap.empty.arcs 0 (Arc.new 0 (fin r) false (fin t) (fin 0))
    cons := upd Heap.empty.cons 0 (.arcStart 0 1)
    nPoints := 2
    nArcs := 1
    nCons := 1 }

theorem stale_run (pinv : PInv XR) (x y r t : ℝ) : (run pinv World.init (staleOps x y r t)).2 = ⟨staleHeap x y r t, arcSketch⟩ := by
  have hc : ∀ a b c : XR, (Arc.new 0 a false b c).center = 0 := fun _ _ _ => rfl
  simp [hc, run, step, Op.live, PrimCell.live, World.init, Heap.empty, addArc, Heap.allocArc, Heap.setArc,
  Heap.allocPoint, Heap.allocCons, addPoint2, consNewOk, Sketch.addPrimitive, Sketch.addConstraint, primFields,
  consFields, Sketch.new, Sketch.hasPrim, mapInsert, u64Size, staleHeap, arcSketch, staleOps, upd, Heap.setPoint, Heap.setCons]

theorem stale_data (x y r t : ℝ) : getData (staleHeap x y r t) arcSketch = vec ![0, 0, x, y, r, t, 0] := by
  rw [getData_eq]; simp [staleHeap, arcSketch, Sketch.cells, primData, upd, Point2.new, Arc.new, vec]

/-- loss and gradient of any state of that sketch -/
theorem stale_spec {H : Heap XR} (hk : H.cons = arcHeap.cons) (hcen : (H.arcs 0).center = 0) {cx cy x y r t t' u v : ℝ}
    (hd : getData H arcSketch = vec ![cx, cy, x, y, r, t, t']) (hu : cx + r * Real.cos t - x = u) (hv : cy + r * Real.sin t - y = v) :
    getLoss H arcSketch = fin ((u ^ 2 + v ^ 2) / 2) ∧ ∃ H', GradOnly H H' ∧ getGradient H arcSketch =
      .ok (vec ![u, v, -u, -v, u * Real.cos t + v * Real.sin t, u * (-r * Real.sin t) + v * (r * Real.cos t), 0], H') := by
  have hv' : vec ![cx, cy, x, y, r, t, t'] = [fin cx, fin cy, fin x, fin y, fin r, fin t, fin t'] := by simp [vec]
  have hd' := hd
  rw [hv'] at hd'
  obtain ⟨hl, hch⟩ := arc_loss_of hk hcen hd'
  simp only [hu, hv] at hl hch
  refine ⟨hl, ?_⟩
  have ec : H.cons 0 = .arcStart 0 1 := by rw [hk]; simp [arcHeap, upd]
  have hcl : Closed ⟨H, arcSketch⟩ := by
    simp [Closed, arcSketch, Sketch.cells, primFields, consFields, hcen, ec]
  have hfs : FiniteSketch H arcSketch :=
    ⟨by rw [hd]; intro x hx; obtain ⟨i, rfl⟩ := List.mem_ofFn.1 hx; rfl, by simp [arcSketch, ec, consParams]⟩
  obtain ⟨h1, g1, -, eg⟩ := (getGradient_exact H arcSketch (hfs.cons hcl)).1 (by
    intro k hk
    have : k = 0 := by simpa [arcSketch] using hk
    subst this
    rw [ec]; exact id)
  refine ⟨h1, g1, ?_⟩
  rw [eg]
  congr 2
  simp [arcSketch, Sketch.dofs, Sketch.cells, dofs, contribs, hch, Chunk.contrib, hcen, vec]

theorem stale_set {H : Heap XR} (v : Fin 7 → ℝ) : ∃ H', setData H arcSketch (vec v) = .ok H' ∧ SameRefs H H' ∧ getData H' arcSketch = vec v :=
  setData_vec (h := H) arc_nodup v

theorem stale_refs {H H' : Heap XR} (r : SameRefs H H') (hk : H.cons = arcHeap.cons) (hcen : (H.arcs 0).center = 0) :
    H'.cons = arcHeap.cons ∧ (H'.arcs 0).center = 0 := ⟨r.cons.trans hk, (r.arcCenter 0).trans hcen⟩

/-- the first search: no trial step passes, and the last one is kept -/
theorem stale_first {H : Heap XR} {x g : Fin 7 → ℝ} {L : ℝ} (ex : getData H arcSketch = vec x) (eL : getLoss H arcSketch = fin L)
    (hs : L < 1e-4 * (1 / 2) ^ 14 * (g ⬝ᵥ g)) (L0 : 0 ≤ L) :
    ∃ H', lineSearch H arcSketch (vec (-g)) (vec g) = (.searchFailed, H') ∧ SameRefs H H' ∧
      getData H' arcSketch = vec (x - ((1 : ℝ) / 2) ^ 14 • g) := by
  have hgg : 0 ≤ g ⬝ᵥ g := Finset.sum_nonneg fun i _ => mul_self_nonneg _
  obtain ⟨h2, e2, d2⟩ := lsLoop_stiff arcSketch arc_nodup 7 (-g) x L (-(g ⬝ᵥ g)) (by linarith) 14 1 one_pos H rfl (by linarith)
  have hls : lineSearch H arcSketch (vec (-g)) (vec g) = (.searchFailed, h2) := by
    unfold lineSearch
    dsimp only
    rw [dotV_vec, dotProduct_neg, ex, eL, zero_lit, one_lit, if_neg]
    · exact e2
    · simp only [ge, le_fin, decide_eq_true_eq, not_le]
      by_contra hc
      have : g ⬝ᵥ g = 0 := by linarith
      rw [this] at hs
      linarith
  refine ⟨h2, hls, ?_, ?_⟩
  · have := (lineSearch_moves H arcSketch (vec (-g)) (vec g)).1
    rw [hls] at this
    exact this
  · rw [d2, one_mul, smul_neg, sub_eq_add_neg]

/-- the second search: the arc points away from its start point and is pushed back through its centre -/
theorem stale_second {H : Heap XR} (hk : H.cons = arcHeap.cons) (hcen : (H.arcs 0).center = 0) {cx cy x r t' N : ℝ} (hN : 0 < N)
    (ex : getData H arcSketch = vec ![cx, cy, x, cy, r, Real.pi, t']) (hu : cx - r - x = -N) :
    ∃ H', lineSearch H arcSketch (vec (-![-N, 0, N, 0, N, 0, 0])) (vec ![-N, 0, N, 0, N, 0, 0]) = (.ok (fin 0.5), H') ∧ SameRefs H H' := by
  have hm : (![-N, 0, N, 0, N, 0, 0] : Fin 7 → ℝ) ⬝ᵥ -![-N, 0, N, 0, N, 0, 0] = -(3 * N ^ 2) := by
    simp [dotProduct, Fin.sum_univ_succ]; ring
  have e0 := (stale_spec hk hcen ex (u := -N) (v := 0) (by rw [Real.cos_pi]; linarith) (by rw [Real.sin_pi]; ring)).1
  have hx : ∀ a : ℝ, ![cx, cy, x, cy, r, Real.pi, t'] + a • -![-N, 0, N, 0, N, 0, 0] =
      ![cx + a * N, cy, x - a * N, cy, r - a * N, Real.pi, t'] := by
    intro a
    ext i
    fin_cases i <;> simp <;> ring
  have hN2 : 0 < N ^ 2 := by positivity
  unfold lineSearch
  simp only [dotV_vec, hm, ex, e0, zero_lit, one_lit, ge, le_fin]
  rw [if_neg (by simpa using hN2), show lsMaxIter = 13 + 1 + 1 from rfl]
  obtain ⟨H1, e1, r1, d1⟩ := stale_set (H := H) ![cx + 1 * N, cy, x - 1 * N, cy, r - 1 * N, Real.pi, t']
  obtain ⟨k1, c1⟩ := stale_refs r1 hk hcen
  have l1 := (stale_spec k1 c1 d1 (u := 2 * N) (v := 0) (by rw [Real.cos_pi]; linarith) (by rw [Real.sin_pi]; ring)).1
  rw [lsLoop, vscale_vec, vadd_vec, hx, e1]
  simp only [l1, half_lit, c1_lit, mul_fin, add_fin, le_fin, decide_eq_true_eq]
  rw [if_neg (by rw [not_le]; nlinarith)]
  obtain ⟨H2, e2, r2, d2⟩ := stale_set (H := H1) ![cx + 1 * 0.5 * N, cy, x - 1 * 0.5 * N, cy, r - 1 * 0.5 * N, Real.pi, t']
  obtain ⟨k2, c2⟩ := stale_refs r2 k1 c1
  obtain ⟨l2, H3, g3, e3⟩ := stale_spec k2 c2 d2 (u := N / 2) (v := 0) (by rw [Real.cos_pi]; linarith) (by rw [Real.sin_pi]; ring)
  rw [lsLoop, vscale_vec, vadd_vec, hx, e2]
  have hm2 : (![N / 2, 0, -(N / 2), -0, N / 2 * Real.cos Real.pi + 0 * Real.sin Real.pi,
      N / 2 * (-(r - 1 * 0.5 * N) * Real.sin Real.pi) + 0 * ((r - 1 * 0.5 * N) * Real.cos Real.pi), 0] : Fin 7 → ℝ) ⬝ᵥ
      -![-N, 0, N, 0, N, 0, 0] = 3 / 2 * N ^ 2 := by
    simp [dotProduct, Fin.sum_univ_succ]; ring
  simp only [l2, e3, c1_lit, c2_lit, mul_fin, add_fin, dotV_vec, ge, le_fin, decide_eq_true_eq]
  rw [if_pos (by nlinarith), hm2, if_pos (by nlinarith), show (1 : ℝ) * 0.5 = 0.5 by ring]
  exact ⟨H3, rfl, r1.trans (r2.trans g3.1)⟩

/-- the whole run, for any numbers that make the failed search end with the arc pointing away from its start point -/
theorem stale_bfgs {R e w C S : ℝ} (hR : 1 ≤ R) (he : 1 ≤ e) (hC : Real.cos w = C) (hS : Real.sin w = S) (hC0 : 0 ≤ C) (hS0 : 0 ≤ S)
    (hturn : -w + (1 / 2) ^ 14 * (R * e) = Real.pi) (hal : (1 - 2 * (1 / 2) ^ 14) * (e * C) = R * S)
    (hst : 1 / 2 < 1e-4 * (1 / 2) ^ 14 * R ^ 2) :
    ∃ N, R ≤ N ∧ getLoss (staleHeap (R * C + e * S) (-R * S + e * C) R (-w)) arcSketch = fin (e ^ 2 / 2) ∧
    (bfgsSolve ⟨1, 1e-16, 1e-8⟩ (staleHeap (R * C + e * S) (-R * S + e * C) R (-w)) arcSketch).res = .ok ∧
    (bfgsSolve ⟨1, 1e-16, 1e-8⟩ (staleHeap (R * C + e * S) (-R * S + e * C) R (-w)) arcSketch).failed = 1 ∧
    (bfgsSolve ⟨1, 1e-16, 1e-8⟩ (staleHeap (R * C + e * S) (-R * S + e * C) R (-w)) arcSketch).steps.length = 1 ∧
    getLoss (bfgsSolve ⟨1, 1e-16, 1e-8⟩ (staleHeap (R * C + e * S) (-R * S + e * C) R (-w)) arcSketch).heap arcSketch =
      fin (((N - N * C / 2 - e * S) ^ 2 + (N * S / 2 - e * C) ^ 2) / 2) := by
  have hcs : S ^ 2 + C ^ 2 = 1 := by rw [← hC, ← hS]; exact Real.sin_sq_add_cos_sq w
  generalize hH : staleHeap (R * C + e * S) (-R * S + e * C) R (-w) = H
  have hk : H.cons = arcHeap.cons := by rw [← hH]; rfl
  have hcen : (H.arcs 0).center = 0 := by rw [← hH]; rfl
  have hd : getData H arcSketch = vec ![0, 0, R * C + e * S, -R * S + e * C, R, -w, 0] := by rw [← hH]; exact stale_data _ _ _ _
  obtain ⟨l0, H1, g1, e1⟩ := stale_spec hk hcen hd (u := -(e * S)) (v := -(e * C))
    (by rw [Real.cos_neg, hC]; ring) (by rw [Real.sin_neg, hS]; ring)
  rw [show ((-(e * S)) ^ 2 + (-(e * C)) ^ 2) / 2 = e ^ 2 / 2 by linear_combination e ^ 2 / 2 * hcs] at l0
  have eg : (![-(e * S), -(e * C), -(-(e * S)), -(-(e * C)), -(e * S) * Real.cos (-w) + -(e * C) * Real.sin (-w),
      -(e * S) * (-R * Real.sin (-w)) + -(e * C) * (R * Real.cos (-w)), 0] : Fin 7 → ℝ) =
      ![-(e * S), -(e * C), e * S, e * C, 0, -(R * e), 0] := by
    rw [Real.cos_neg, Real.sin_neg, hC, hS]
    ext i
    fin_cases i <;> simp
    · ring
    · linear_combination (-R * e) * hcs
  rw [eg] at e1
  obtain ⟨k1, c1⟩ := stale_refs g1.1 hk hcen
  have d1 : getData H1 arcSketch = _ := (g1.getData arcSketch).trans hd
  have l1 : getLoss H1 arcSketch = _ := (g1.getLoss arcSketch).trans l0
  have hgg : (![-(e * S), -(e * C), e * S, e * C, 0, -(R * e), 0] : Fin 7 → ℝ) ⬝ᵥ ![-(e * S), -(e * C), e * S, e * C, 0, -(R * e), 0] =
      2 * e ^ 2 + R ^ 2 * e ^ 2 := by
    simp [dotProduct, Fin.sum_univ_succ]
    linear_combination 2 * e ^ 2 * hcs
  obtain ⟨H2, e2, r2, d2⟩ := stale_first d1 l1 (g := ![-(e * S), -(e * C), e * S, e * C, 0, -(R * e), 0]) (by
    rw [hgg]
    have q0 : 0 < (1 / 2 : ℝ) ^ 14 := by positivity
    generalize (1 / 2 : ℝ) ^ 14 = q at hst q0 ⊢
    have he2 : 0 < e ^ 2 := by positivity
    have k1 := mul_lt_mul_of_pos_right hst he2
    have k2 : 0 < 1e-4 * q * (2 * e ^ 2) := by positivity
    linarith) (by positivity)
  generalize hN : R + R * C + (1 - 2 * (1 / 2) ^ 14) * (e * S) = N
  have hRN : R ≤ N := by
    have : 0 ≤ (1 - 2 * (1 / 2 : ℝ) ^ 14) * (e * S) := mul_nonneg (by norm_num) (by positivity)
    have : 0 ≤ R * C := by positivity
    linarith
  have hN0 : 0 < N := by linarith
  have hx2 : ![0, 0, R * C + e * S, -R * S + e * C, R, -w, 0] - ((1 : ℝ) / 2) ^ 14 • ![-(e * S), -(e * C), e * S, e * C, 0, -(R * e), 0] =
      ![(1 / 2) ^ 14 * (e * S), (1 / 2) ^ 14 * (e * C), R * C + e * S - (1 / 2) ^ 14 * (e * S), (1 / 2) ^ 14 * (e * C), R, Real.pi, 0] := by
    rw [← hturn]
    have hal' : -R * S + e * C - (1 / 2) ^ 14 * (e * C) = (1 / 2) ^ 14 * (e * C) := by linear_combination hal
    generalize (1 / 2 : ℝ) ^ 14 = q at hal' ⊢
    ext i
    fin_cases i <;> simp <;> linarith
  rw [hx2] at d2
  obtain ⟨k2, c2⟩ := stale_refs r2 k1 c1
  obtain ⟨l2, H3, g3, e3⟩ := stale_spec k2 c2 d2 (u := -N) (v := 0) (by rw [Real.cos_pi, ← hN]; ring) (by rw [Real.sin_pi]; ring)
  have eg3 : (![-N, 0, - -N, -0, -N * Real.cos Real.pi + 0 * Real.sin Real.pi,
      -N * (-R * Real.sin Real.pi) + 0 * (R * Real.cos Real.pi), 0] : Fin 7 → ℝ) = ![-N, 0, N, 0, N, 0, 0] := by
    rw [Real.cos_pi, Real.sin_pi]
    ext i
    fin_cases i <;> simp
  rw [eg3] at e3
  obtain ⟨k3, c3⟩ := stale_refs g3.1 k2 c2
  obtain ⟨H4, e4, r4⟩ := stale_second k3 c3 hN0 ((g3.getData arcSketch).trans d2) (by rw [← hN]; ring)
  obtain ⟨k4, c4⟩ := stale_refs r4 k3 c3
  obtain ⟨H5, e5, r5, d5⟩ := stale_set (H := H4) ![N / 2, 0, R * C + e * S - N / 2, -R * S + e * C, R - N / 2, -w, 0]
  obtain ⟨k5, c5⟩ := stale_refs r5 k4 c4
  obtain ⟨l5, H6, g6, e6⟩ := stale_spec k5 c5 d5 (u := N - N * C / 2 - e * S) (v := N * S / 2 - e * C)
    (by rw [Real.cos_neg, hC]; ring) (by rw [Real.sin_neg, hS]; ring)
  have hx5 : ![0, 0, R * C + e * S, -R * S + e * C, R, -w, 0] + (0.5 : ℝ) • -![-N, 0, N, 0, N, 0, 0] =
      ![N / 2, 0, R * C + e * S - N / 2, -R * S + e * C, R - N / 2, -w, 0] := by
    ext i
    fin_cases i <;> simp <;> ring
  have n0 : ∀ L : ℝ, 1e-16 ≤ L → ¬((fin L <. (1e-16 : XR)) = true) := by
    intro L hL
    simpa only [sci, lt_fin, decide_eq_true_eq, not_lt] using hL
  have u1 : ∀ g : Fin 7 → ℝ, (∃ i, 1 ≤ |g i|) → ¬((uniformNorm (vec g) <. (1e-8 : XR)) = true) := by
    rintro g ⟨i, hi⟩
    obtain ⟨u, eu, hu⟩ := uniformNorm_vec g
    rw [eu]
    simp only [sci, lt_fin, decide_eq_true_eq]
    intro hh
    have := (hu _ (by norm_num)).1 hh i
    norm_num at this
    linarith
  have eid : (identity 7 : List (List XR)) = mat (1 : Matrix (Fin 7) (Fin 7) ℝ) := identity_mat
  have key : bfgsSolve ⟨1, 1e-16, 1e-8⟩ H arcSketch = ⟨.ok, H6, (bfgsSolve ⟨1, 1e-16, 1e-8⟩ H arcSketch).steps, 2, 1⟩ ∧
      (bfgsSolve ⟨1, 1e-16, 1e-8⟩ H arcSketch).steps.length = 1 := by
    unfold bfgsSolve
    simp only [hd, length_vec]
    rw [bfgsLoop]
    simp only [l0, e1]
    rw [if_neg (n0 _ (by nlinarith)), if_neg (by simp [vec]), if_neg (u1 _ ⟨5, by
      show 1 ≤ |(-(R * e))|
      rw [abs_neg, abs_of_pos (by positivity)]; nlinarith⟩), eid, matNeg_mat, matVec_mat, neg_mulVec, one_mulVec, if_neg (by simp [vec]), e2]
    dsimp only
    rw [bfgsLoop]
    simp only [l2, e3]
    rw [if_neg (n0 _ (by nlinarith)), if_neg (by simp [vec]), if_neg (u1 _ ⟨0, by
      show 1 ≤ |(-N)|
      rw [abs_neg, abs_of_pos hN0]; linarith⟩), matNeg_mat, matVec_mat, neg_mulVec, one_mulVec, if_neg (by simp [vec]), e4]
    dsimp only
    rw [vscale_vec, vadd_vec, hx5, e5]
    dsimp only
    rw [e6]
    dsimp only
    rw [bfgsLoop]
    exact ⟨rfl, rfl⟩
  rw [key.1]
  exact ⟨N, hRN, l0, rfl, rfl, key.2, (g6.getLoss arcSketch).trans l5⟩

/-- **C33.** "BFGS never increases the loss" is false once a line search fails, even if the solver returns `Ok`: on this
sketch, reachable by five calls, BFGS with `max_iterations = 1` returns `Ok` after one failed search and one step, and the
loss has grown from less than ten to more than ten million. -/
theorem C33_stale_step (pinv : PInv XR) :
    ∃ x y r t : ℝ, ∃ h : Heap XR, ∃ s : Sketch, (run pinv World.init
      [.addPoint2 (fin 0) (fin 0), .addPoint2 (fin x) (fin y), .addArc 0 (fin r) false (fin t) (fin 0),
        .newCons (.arcStart 0 1), .addConstraint 0]).2 = ⟨h, s⟩ ∧
    (runSolver pinv (.bfgs ⟨1, 1e-16, 1e-8⟩) h s).res = .ok ∧
    (runSolver pinv (.bfgs ⟨1, 1e-16, 1e-8⟩) h s).failed = 1 ∧
    (runSolver pinv (.bfgs ⟨1, 1e-16, 1e-8⟩) h s).steps.length = 1 ∧
    (∃ L, getLoss h s = fin L ∧ L < 10) ∧
    ∃ L, getLoss (runSolver pinv (.bfgs ⟨1, 1e-16, 1e-8⟩) h s).heap s = fin L ∧ 10000000 < L := by
  have hw0 : 0 < Real.arctan (1 / 4000) := by rw [← Real.arctan_zero]; exact Real.arctan_strictMono (by norm_num)
  have hw1 : Real.arctan (1 / 4000) ≤ 1 / 4000 := by
    have := Real.le_tan hw0.le (Real.arctan_lt_pi_div_two _)
    rwa [Real.tan_arctan] at this
  have hC0 := Real.cos_arctan_pos (1 / 4000)
  have hC1 := Real.cos_le_one (Real.arctan (1 / 4000))
  have hSC : Real.sin (Real.arctan (1 / 4000)) = 1 / 4000 * Real.cos (Real.arctan (1 / 4000)) := by
    have := Real.tan_arctan (1 / 4000)
    rw [Real.tan_eq_sin_div_cos, div_eq_iff hC0.ne'] at this
    exact this
  generalize Real.arctan (1 / 4000) = w at *
  have hS1 := Real.sin_le_one w
  have p1 := Real.pi_gt_d2
  have p2 := Real.pi_lt_d2
  obtain ⟨R, hR0, hR2⟩ : ∃ R : ℝ, 0 < R ∧ R ^ 2 = (Real.pi + w) * (8191 / 8192 * 16384 * 4000) :=
    ⟨Real.sqrt _, Real.sqrt_pos.2 (by positivity), Real.sq_sqrt (by positivity)⟩
  have hR : 14000 ≤ R := by nlinarith
  have hR' : R ≤ 14400 := by nlinarith
  have hq : (1 / 2 : ℝ) ^ 14 = 1 / 16384 := by norm_num
  obtain ⟨N, hN, a1, a2, a3, a4, a5⟩ := stale_bfgs (R := R) (e := R / 4000 * (8192 / 8191)) (w := w) (by linarith) (by linarith) rfl rfl hC0.le
    (by rw [hSC]; positivity) (by rw [hq]; nlinarith) (by rw [hq, hSC]; ring) (by rw [hq, hR2]; nlinarith)
  refine ⟨_, _, _, _, _, _, stale_run pinv _ _ _ _, a2, a3, a4, ⟨_, a1, by nlinarith⟩, _, a5, ?_⟩
  have hS0 : 0 ≤ Real.sin w := by rw [hSC]; positivity
  have k1 : N * Real.cos w ≤ N := mul_le_of_le_one_right (by linarith) hC1
  have k2 : R / 4000 * (8192 / 8191) * Real.sin w ≤ R / 4000 * (8192 / 8191) := mul_le_of_le_one_right (by positivity) hS1
  have k3 : 6900 ≤ N - N * Real.cos w / 2 - R / 4000 * (8192 / 8191) * Real.sin w := by linarith
  nlinarith [sq_nonneg (N * Real.sin w / 2 - R / 4000 * (8192 / 8191) * Real.cos w)]

end Isotope
