import Verif.Lemmas.NearestNewton

/-!
# Solving moves a sketch towards the nearest solution (C103)

A sketch that is not fully constrained has many solutions.  For linear sketches (fixed points, horizontal and vertical distances and
lines) all four solvers head for the one nearest to where the sketch was drawn: every step is orthogonal to the set of solutions
(positions with least loss, if the constraints cannot be met together).  All theorems of this file are about exact arithmetic (`XR`).
-/

namespace Isotope
open XR
open Matrix

variable {h : Heap XR} {s : Sketch} {q : Fin (getNDofs h s) → ℝ}

section alg
variable {m : Nat} {R : Matrix (Fin m) (Fin (getNDofs h s)) ℝ} {b : Fin m → ℝ}

theorem LinAt.best_iff (l : LinAt h s R b) {z : Fin (getNDofs h s) → ℝ} : Best h s z ↔ quadGrad R b z = 0 := by
  unfold Best
  rw [l.lossAfter]
  refine ⟨fun hle => ?_, l.isLeast⟩
  obtain ⟨x0, h0⟩ := exists_least R b
  have k := hle.2 ⟨x0, l.lossAfter x0⟩
  rw [quad_shift h0 z] at k
  have k0 := quad_nonneg R (R *ᵥ x0) z
  have k1 : quad R (R *ᵥ x0) z = 0 := by linarith
  unfold quad at k1
  have k2 := dotProduct_self_eq_zero.1 ((div_eq_zero_iff.1 k1).resolve_right (by norm_num))
  rw [← quadGrad_shift h0 z]
  unfold quadGrad
  rw [k2, mulVec_zero]

theorem LinAt.straight (l : LinAt h s R b) {H : Heap XR} (w : Way h s R q H) : Straight h s q H := by
  obtain ⟨r, x, ex, hx⟩ := w
  refine ⟨r, x, ex, fun z z' hz hz' => ?_⟩
  have := distSq_across hx (rest_sub (l.best_iff.1 hz) (l.best_iff.1 hz'))
  linarith

/-- moving a solution along a direction that does not change the residual -/
theorem LinAt.best_add (l : LinAt h s R b) {z u : Fin (getNDofs h s) → ℝ} (hz : Best h s z) (hu : R *ᵥ u = 0) : Best h s (z + u) := by
  rw [l.best_iff, quadGrad_add, hu, mulVec_zero, add_zero]
  exact l.best_iff.1 hz

theorem LinAt.across_nearest (l : LinAt h s R b) {z : Fin (getNDofs h s) → ℝ} : Nearest h s q z ↔ Best h s z ∧ Across R (q - z) := by
  constructor
  · rintro ⟨hz, hm⟩
    refine ⟨hz, fun u hu => ?_⟩
    have key : ∀ t : ℝ, 2 * t * ((q - z) ⬝ᵥ u) ≤ t ^ 2 * (u ⬝ᵥ u) := by
      intro t
      have k := hm _ (l.best_add hz (u := t • u) (by rw [mulVec_smul, hu, smul_zero]))
      rw [distSq_dot, distSq_dot, ← sub_sub] at k
      generalize q - z = d at k ⊢
      simp only [sub_dotProduct, dotProduct_sub, smul_dotProduct, dotProduct_smul, smul_eq_mul] at k
      rw [dotProduct_comm u d] at k
      linarith
    have k0 := dot_self_nonneg u
    generalize (q - z) ⬝ᵥ u = c at key ⊢
    generalize u ⬝ᵥ u = n at key k0
    by_contra hc
    have k1 := key (c / (n + 1))
    have hn : 0 < n + 1 := by linarith
    have hc2 : 0 < c ^ 2 := by positivity
    have k2 : 2 * (c / (n + 1)) * c = 2 * c ^ 2 / (n + 1) := by ring
    have k3 : (c / (n + 1)) ^ 2 * n = c ^ 2 * n / (n + 1) / (n + 1) := by field_simp
    rw [k2, k3, div_le_div_iff_of_pos_right hn, le_div_iff₀ hn] at k1
    nlinarith
  · rintro ⟨hz, ha⟩
    refine ⟨hz, fun z' hz' => ?_⟩
    have hu := rest_sub (l.best_iff.1 hz) (l.best_iff.1 hz')
    have k := ha _ hu
    have k2 := dot_self_nonneg (z - z')
    have e : q - z' = (q - z) + (z - z') := by abel
    rw [distSq_dot, distSq_dot, e, add_dotProduct, dotProduct_add, dotProduct_add, dotProduct_comm (z - z') (q - z), k]
    linarith

end alg

/-- **C103.** To every position `q` there is exactly one nearest among the positions with least loss. -/
theorem C103_nearest (hn : s.cells.Nodup) (hc : Closed ⟨h, s⟩) (hf : FiniteSketch h s) (hl : ∀ k ∈ s.cons, IsLinear (h.cons k))
    (q : Fin (getNDofs h s) → ℝ) : ∃! z, Nearest h s q z := by
  obtain ⟨m, R, b, l⟩ := exists_linAt hn hc hf hl
  obtain ⟨z, h0, hz⟩ := exists_nearest R b q
  refine ⟨z, l.across_nearest.2 ⟨l.best_iff.2 h0, hz⟩, fun z' hz' => ?_⟩
  obtain ⟨b', a'⟩ := l.across_nearest.1 hz'
  have hu := rest_sub (l.best_iff.1 b') h0
  have k1 := hz _ hu
  have k2 := a' _ hu
  have k3 : (z' - z) ⬝ᵥ (z' - z) = 0 := by
    have e : z' - z = (q - z) - (q - z') := by abel
    conv_lhs => enter [1]; rw [e]
    rw [sub_dotProduct, k1, k2, sub_zero]
  exact sub_eq_zero.1 (dotProduct_self_eq_zero.1 k3)

/-- **C103.** Gradient descent, with any parameters and whatever its outcome: after every step and at the end, the squares of the
distances to all positions with least loss have changed by the same amount since the start. -/
theorem C103_gd (hn : s.cells.Nodup) (hc : Closed ⟨h, s⟩) (hf : FiniteSketch h s) (hl : ∀ k ∈ s.cons, IsLinear (h.cons k))
    (hq : getData h s = vec q) (p : GDParams XR) :
    (gdSolve p h s).res ≠ .panic ∧ Straight h s q (gdSolve p h s).heap ∧ ∀ r ∈ (gdSolve p h s).steps, Straight h s q r.post := by
  obtain ⟨m, R, b, l⟩ := exists_linAt hn hc hf hl
  obtain ⟨-, h1, g1, e1⟩ := l.at (SameRefs.refl h) hq
  have w : Way h s R q h := ⟨SameRefs.refl h, q, hq, by rw [sub_self]; exact Across.zero⟩
  unfold gdSolve
  rw [e1]
  obtain ⟨i1, i2, i3⟩ := l.gdWay p p.maxIterations h1 (w.grad g1) (across_quadGrad (b := b) q) (normL (vec (quadGrad R b q))) (getLoss h1 s)
  exact ⟨i1, l.straight i2, fun r hr => l.straight (i3 r hr)⟩

/-- **C103.** The same for BFGS (also when line searches fail). -/
theorem C103_bfgs (hn : s.cells.Nodup) (hc : Closed ⟨h, s⟩) (hf : FiniteSketch h s) (hl : ∀ k ∈ s.cons, IsLinear (h.cons k))
    (hq : getData h s = vec q) (p : BFGSParams XR) :
    (bfgsSolve p h s).res ≠ .panic ∧ Straight h s q (bfgsSolve p h s).heap ∧ ∀ r ∈ (bfgsSolve p h s).steps, Straight h s q r.post := by
  obtain ⟨m, R, b, l⟩ := exists_linAt hn hc hf hl
  have w : Way h s R q h := ⟨SameRefs.refl h, q, hq, by rw [sub_self]; exact Across.zero⟩
  unfold bfgsSolve
  dsimp only
  rw [getData_length, identity_mat, hq]
  obtain ⟨i1, i2, i3⟩ := l.bfgsWay p p.maxIterations false 1 (fun v hv => by rwa [one_mulVec]) q (by rw [sub_self]; exact Across.zero) h w
  exact ⟨i1, l.straight i2, fun r hr => l.straight (i3 r hr)⟩

theorem newton_straight (hn : s.cells.Nodup) (hc : Closed ⟨h, s⟩) (hf : FiniteSketch h s) (hl : ∀ k ∈ s.cons, IsLinear (h.cons k))
    (hq : getData h s = vec q) {pinv : PInv XR} (hcut : CutPInv pinv) {ε σ β : ℝ} (hε : 0 ≤ ε) (hβ : 0 ≤ β)
    {steps : List (StepRec XR)} {hE : Heap XR} (ld : Leads h steps hE)
    (st : ∀ r ∈ steps, NewtonStep pinv (fin ε) σ h s (fun J => Jᵀ * J + β • 1) r) :
    Straight h s q hE ∧ ∀ r ∈ steps, Straight h s q r.post := by
  obtain ⟨m, R, b, l⟩ := exists_linAt hn hc hf hl
  have w : Way h s R q h := ⟨SameRefs.refl h, q, hq, by rw [sub_self]; exact Across.zero⟩
  obtain ⟨k1, k2⟩ := leads_inv (Q := Way h s R q) (fun _ _ g w => w.grad g) steps h ld w
    fun r hr w => l.newtonWay hc hl hcut hε hβ (st r hr) w
  exact ⟨l.straight k1, fun r hr => l.straight (l.newtonWay hc hl hcut hε hβ (st r hr) (k2 r hr))⟩

/-- **C103.** The same for Gauss-Newton, with nalgebra's cut-off of singular values and unless `pseudo_inverse` panics. -/
theorem C103_gn {pinv : PInv XR} (hp : RealPInv pinv) (hcut : CutPInv pinv) (hn : s.cells.Nodup) (hc : Closed ⟨h, s⟩)
    (hf : FiniteSketch h s) (hl : ∀ k ∈ s.cons, IsLinear (h.cons k)) (hq : getData h s = vec q) (n : Nat) (ml : XR) (σ : ℝ) {ε : ℝ}
    (hε : 0 ≤ ε) (hok : (gnSolve pinv ⟨n, ml, fin σ, fin ε⟩ h s).res ≠ .panic) :
    Straight h s q (gnSolve pinv ⟨n, ml, fin σ, fin ε⟩ h s).heap ∧
    ∀ r ∈ (gnSolve pinv ⟨n, ml, fin σ, fin ε⟩ h s).steps, Straight h s q r.post :=
  newton_straight hn hc hf hl hq hcut hε le_rfl (C34_gn_leads pinv _ h s hok)
    (newtonLoop_steps hn hc hp ml (fin ε) σ gnNormal (fun J => Jᵀ * J + (0 : ℝ) • 1) (fun J => by rw [gnNormal_mat, zero_smul, add_zero])
      n Num.inf h (.refl h) hf)

/-- **C103.** The same for Levenberg-Marquardt. -/
theorem C103_lm {pinv : PInv XR} (hp : RealPInv pinv) (hcut : CutPInv pinv) (hn : s.cells.Nodup) (hc : Closed ⟨h, s⟩)
    (hf : FiniteSketch h s) (hl : ∀ k ∈ s.cons, IsLinear (h.cons k)) (hq : getData h s = vec q) (n : Nat) (ml : XR) (σ : ℝ) {ε β : ℝ}
    (hε : 0 ≤ ε) (hβ : 0 ≤ β) (hok : (lmSolve pinv ⟨n, ml, fin σ, fin ε, fin β⟩ h s).res ≠ .panic) :
    Straight h s q (lmSolve pinv ⟨n, ml, fin σ, fin ε, fin β⟩ h s).heap ∧
    ∀ r ∈ (lmSolve pinv ⟨n, ml, fin σ, fin ε, fin β⟩ h s).steps, Straight h s q r.post :=
  newton_straight hn hc hf hl hq hcut hε hβ (C34_lm_leads pinv _ h s hok)
    (newtonLoop_steps hn hc hp ml (fin ε) σ (lmNormal (fin β)) (fun J => Jᵀ * J + β • 1) (fun J => lmNormal_mat β J)
      n Num.inf h (.refl h) hf)

/-- **C103.** Hence the nearest position with least loss stays the same during solving, and the loss says how far it is at most: in a
sketch with at most `N` points, the square of the distance is at most `2 N²` times what the loss exceeds the least one by. -/
theorem C103_distance (hn : s.cells.Nodup) (hc : Closed ⟨h, s⟩) (hf : FiniteSketch h s) (hl : ∀ k ∈ s.cons, IsLinear (h.cons k))
    {H : Heap XR} (hs : Straight h s q H) {x z : Fin (getNDofs h s) → ℝ} (hx : getData H s = vec x) :
    (Nearest h s x z ↔ Nearest h s q z) ∧
    ∀ {N : Nat} {L : ℝ}, 0 < N → (pointIds s).length ≤ N → getLoss H s = fin L → Nearest h s q z →
      distSq x z ≤ 2 * N ^ 2 * (L - lossAfter h s z) := by
  obtain ⟨m, R, b, l⟩ := exists_linAt hn hc hf hl
  obtain ⟨r, x', ex, hd⟩ := hs
  obtain rfl : x = x' := vec_inj (hx.symm.trans ex)
  have hi : Nearest h s x z ↔ Nearest h s q z := by
    constructor
    · rintro ⟨hz, hm⟩
      refine ⟨hz, fun z' hz' => ?_⟩
      have := hd z z' hz hz'
      have := hm z' hz'
      linarith
    · rintro ⟨hz, hm⟩
      refine ⟨hz, fun z' hz' => ?_⟩
      have := hd z z' hz hz'
      have := hm z' hz'
      linarith
  refine ⟨hi, fun {N L} hN0 hN hL hz => ?_⟩
  obtain ⟨hb, ha⟩ := l.across_nearest.1 (hi.2 hz)
  have k := (l.sized hc hl hN0 hN le_rfl).distSq (b := b) (by positivity) (l.best_iff.1 hb) ha
  have hNr : (0 : ℝ) < (N : ℝ) ^ 2 := by positivity
  rw [div_mul_eq_mul_div, one_mul, div_le_iff₀ hNr] at k
  rw [(l.at r hx).1] at hL
  rw [l.lossAfter, ← XR.fin.inj hL]
  linarith

theorem lossAfter_nonneg (hn : s.cells.Nodup) (hc : Closed ⟨h, s⟩) (hf : FiniteSketch h s) (hl : ∀ k ∈ s.cons, IsLinear (h.cons k))
    (z : Fin (getNDofs h s) → ℝ) : 0 ≤ lossAfter h s z := by
  obtain ⟨m, R, b, l⟩ := exists_linAt hn hc hf hl
  rw [l.lossAfter]
  exact quad_nonneg _ _ _

/-- **C103.** Gradient descent with its default parameters on a linear sketch with at most 54 points and at most 16382 constraints, whether
or not the constraints can be met together: if it stops before its 10000 iterations are used up, then the sketch is within `1e-5` of the
position with least loss that is nearest to the start. -/
theorem C103_gd_default (hn : s.cells.Nodup) (hc : Closed ⟨h, s⟩) (hf : FiniteSketch h s) (hl : ∀ k ∈ s.cons, IsLinear (h.cons k))
    (hN : (pointIds s).length ≤ 54) (hK : s.cons.length ≤ 16382) (hq : getData h s = vec q) {z : Fin (getNDofs h s) → ℝ}
    (hz : Nearest h s q z) (hlt : (gdSolve GDParams.default h s).steps.length < 10000) :
    ∃ x : Fin (getNDofs h s) → ℝ, getData (gdSolve GDParams.default h s).heap s = vec x ∧ Real.sqrt (distSq x z) < 1e-5 := by
  obtain ⟨L0, L1, Lmin, hm, -, -, e1, -, -, hstop⟩ := C94_gd hn hc hf hl hN (by norm_num) le_rfl hK (by norm_num) le_rfl 10000 (ml := 1e-14)
    (mg := 1e-10) (by norm_num)
  obtain ⟨-, hs, -⟩ := C103_gd hn hc hf hl hq GDParams.default
  obtain ⟨r, x, ex, hd⟩ := hs
  refine ⟨x, ex, ?_⟩
  have k := (C103_distance hn hc hf hl ⟨r, x, ex, hd⟩ ex).2 (N := 54) (by norm_num) hN e1 hz
  have e2 : lossAfter h s z = Lmin := hz.1.unique hm
  have k0 := lossAfter_nonneg hn hc hf hl z
  have k1 := hstop hlt
  rw [Real.sqrt_lt' (by norm_num)]
  rcases k1 with k1 | ⟨k1, -⟩
  · norm_num at k k1 ⊢
    linarith
  · norm_num at k k1 ⊢
    linarith

/-- **C103.** The same for BFGS: the square of the distance is less than `1e-9` times the number of coordinates. -/
theorem C103_bfgs_default (hn : s.cells.Nodup) (hc : Closed ⟨h, s⟩) (hf : FiniteSketch h s) (hl : ∀ k ∈ s.cons, IsLinear (h.cons k))
    (hN : (pointIds s).length ≤ 54) (hK : s.cons.length ≤ 16382) (hq : getData h s = vec q) {z : Fin (getNDofs h s) → ℝ}
    (hz : Nearest h s q z) (hpos : 0 < getNDofs h s) (hlt : (bfgsSolve BFGSParams.default h s).steps.length < 1000) :
    ∃ x : Fin (getNDofs h s) → ℝ, getData (bfgsSolve BFGSParams.default h s).heap s = vec x ∧ distSq x z < 1e-9 * getNDofs h s := by
  obtain ⟨L0, L1, Lmin, hm, -, -, -, e1, -, -, hstop⟩ := C94_bfgs hn hc hf hl hN (by norm_num) le_rfl hK (by norm_num) le_rfl (n := 1000)
    (by norm_num) (ml := 1e-16) (gt := 1e-8) (by norm_num)
  obtain ⟨-, hs, -⟩ := C103_bfgs hn hc hf hl hq BFGSParams.default
  obtain ⟨r, x, ex, hd⟩ := hs
  refine ⟨x, ex, ?_⟩
  have k := (C103_distance hn hc hf hl ⟨r, x, ex, hd⟩ ex).2 (N := 54) (by norm_num) hN e1 hz
  have e2 : lossAfter h s z = Lmin := hz.1.unique hm
  have k0 := lossAfter_nonneg hn hc hf hl z
  have k1 := hstop hlt
  have hp : (1 : ℝ) ≤ getNDofs h s := by exact_mod_cast hpos
  rcases k1 with k1 | ⟨k1, -⟩
  · norm_num at k k1 ⊢
    linarith
  · norm_num at k k1 ⊢
    linarith

/-! ### Examples -/

theorem five_data : getData fiveHeap clashSketch = vec (![0, 0, 5, 0] : Fin 4 → ℝ) := by
  have e : getData fiveHeap clashSketch = [fin 0, fin 0, fin 5, fin 0] := by
    simp [getData, getNDofs, clashSketch, fiveHeap, primData, zerosVec, blit]
  rw [e]
  simp [vec]

theorem five_after (v : Fin (getNDofs fiveHeap clashSketch) → ℝ) : lossAfter fiveHeap clashSketch v =
    ((v (2 : Fin 4) - v (0 : Fin 4)) ^ 2 + (v (2 : Fin 4) - v (0 : Fin 4) - 2) ^ 2 + (v (2 : Fin 4) - v (0 : Fin 4) - 1) ^ 2) / 2 := by
  have hc := (clash_closed 0).sameRefs five_refs
  obtain ⟨m, R, b, l⟩ := exists_linAt (h := fiveHeap) (s := clashSketch) (by decide) hc five_finite (clash_linear 0)
  rw [l.lossAfter, l.quad_eq hc (clash_linear 0)]
  have p0 : placeIn fiveHeap clashSketch v 0 0 = v (0 : Fin 4) := by
    simp [placeIn, coordOf', axDof, Sketch.dofs, clashSketch, Sketch.cells]
    rfl
  have p1 : placeIn fiveHeap clashSketch v 1 0 = v (2 : Fin 4) := by
    simp [placeIn, coordOf', axDof, Sketch.dofs, clashSketch, Sketch.cells]
    rfl
  generalize placeIn fiveHeap clashSketch v = f at *
  rw [← p0, ← p1]
  simp [clashSketch, axErr, axRow, axGoal, fiveHeap, clashHeap, clashGoal]
  ring

theorem five_best (v : Fin (getNDofs fiveHeap clashSketch) → ℝ) :
    Best fiveHeap clashSketch v ↔ v (2 : Fin 4) - v (0 : Fin 4) = 1 := by
  constructor
  · intro hb
    have k := hb.2 ⟨(![0, 0, 1, 0] : Fin 4 → ℝ), five_after (![0, 0, 1, 0] : Fin 4 → ℝ)⟩
    rw [five_after] at k
    simp at k
    generalize v (2 : Fin 4) - v (0 : Fin 4) = t at *
    have k2 : (t - 1) ^ 2 ≤ 0 := by nlinarith
    have := pow_eq_zero_iff (two_ne_zero) |>.1 (le_antisymm k2 (sq_nonneg _))
    linarith
  · intro hv
    refine ⟨⟨v, rfl⟩, ?_⟩
    rintro _ ⟨w, rfl⟩
    rw [five_after, five_after, hv]
    nlinarith [sq_nonneg (w (2 : Fin 4) - w (0 : Fin 4) - 1)]

theorem five_nearest : Nearest fiveHeap clashSketch (![0, 0, 5, 0] : Fin 4 → ℝ) (![2, 0, 3, 0] : Fin 4 → ℝ) := by
  refine ⟨(five_best _).2 (by simp; norm_num), fun z' hz' => ?_⟩
  have k := (five_best z').1 hz'
  have e : ∀ z : Fin 4 → ℝ, distSq (![0, 0, 5, 0] : Fin 4 → ℝ) z = z 0 ^ 2 + z 1 ^ 2 + (5 - z 2) ^ 2 + z 3 ^ 2 := by
    intro z
    simp [distSq, Fin.sum_univ_four]
  refine (e ![2, 0, 3, 0]).trans_le (le_of_le_of_eq ?_ (e z').symm)
  simp
  change z' (2 : Fin 4) - z' (0 : Fin 4) = 1 at k
  have : z' (2 : Fin 4) = 1 + z' (0 : Fin 4) := by linarith
  nlinarith [sq_nonneg (z' (1 : Fin 4)), sq_nonneg (z' (3 : Fin 4)), sq_nonneg (z' (0 : Fin 4) - 2)]

/-- C103: two points stand five apart, and three constraints ask for the horizontal distances 0, 2 and 1.  The nearest position with least
loss has both points moved by 2 towards each other; gradient descent with its default parameters goes there. -/
example (hlt : (gdSolve GDParams.default fiveHeap clashSketch).steps.length < 10000) :
    ∃ x : Fin (getNDofs fiveHeap clashSketch) → ℝ, getData (gdSolve GDParams.default fiveHeap clashSketch).heap clashSketch = vec x ∧
      Real.sqrt (distSq x (![2, 0, 3, 0] : Fin 4 → ℝ)) < 1e-5 :=
  C103_gd_default (h := fiveHeap) (s := clashSketch) (by decide) ((clash_closed 0).sameRefs five_refs) five_finite (clash_linear 0)
    (by decide) (by decide) five_data five_nearest hlt

/-- C103: Gauss-Newton and Levenberg-Marquardt with a pseudo-inverse that cuts off small singular values -/
example : Straight fiveHeap clashSketch (![0, 0, 5, 0] : Fin 4 → ℝ) (gnSolve cutPInv GNParams.default fiveHeap clashSketch).heap ∧
    Straight fiveHeap clashSketch (![0, 0, 5, 0] : Fin 4 → ℝ) (lmSolve cutPInv LMParams.default fiveHeap clashSketch).heap := by
  have hc := (clash_closed 0).sameRefs five_refs
  have ne : ∀ k ∈ clashSketch.cons, ∀ l m, fiveHeap.cons k ≠ .eqLen l m := fun k _ l m hh => by cases hh
  have hp : 0 < getNDofs fiveHeap clashSketch := by show 0 < 4; norm_num
  refine ⟨(C103_gn cutPInv_real cutPInv_cut (by decide) hc five_finite (clash_linear 0) five_data 10000 1e-6 1e-3 (ε := 1e-6) (by norm_num)
    ?_).1, (C103_lm cutPInv_real cutPInv_cut (by decide) hc five_finite (clash_linear 0) five_data 1000 1e-10 1e-1 (ε := 1e-6) (β := 1e-5)
    (by norm_num) (by norm_num) ?_).1⟩
  · rw [C34_gn_ok cutPInv_good _ (by decide) hc five_finite 1e-3 rfl hp ne]; simp
  · rw [C34_lm_ok cutPInv_good _ (by decide) hc five_finite 1e-1 1e-5 rfl rfl hp ne]; simp

/-- C103: runs that stop before the limit, so that the theorems for the default parameters apply: a point fixed elsewhere -/
example : (gdSolve GDParams.default (fixHeap 3 4 0 0 0 0) fixSketch).steps.length = 1 ∧
    (bfgsSolve BFGSParams.default (fixHeap 3 4 0 0 0 0) fixSketch).steps.length = 1 ∧ (pointIds fixSketch).length ≤ 54 ∧
    fixSketch.cons.length ≤ 16382 ∧ (∀ k ∈ fixSketch.cons, IsLinear ((fixHeap 3 4 0 0 0 0).cons k)) ∧
    ∃ q z, getData (fixHeap 3 4 0 0 0 0) fixSketch = vec q ∧ Nearest (fixHeap 3 4 0 0 0 0) fixSketch q z := by
  have hl : ∀ k ∈ fixSketch.cons, IsLinear ((fixHeap 3 4 0 0 0 0).cons k) := fun k hk => by
    obtain rfl : k = 0 := by simpa [fixSketch] using hk
    exact .inl trivial
  have e1 : (gdSolve GDParams.default (fixHeap 3 4 0 0 0 0) fixSketch).steps.length = 1 := by
    have e := fix_gdSolve (x := 3) (y := 4) (a := 0) (b := 0) (u := 0) (v := 0) 9999 (by norm_num)
    exact congrArg (fun o => o.steps.length) e
  have e2 : (bfgsSolve BFGSParams.default (fixHeap 3 4 0 0 0 0) fixSketch).steps.length = 1 := by
    obtain ⟨M, e⟩ := fix_bfgsSolve (x := 3) (y := 4) (a := 0) (b := 0) 0 0 999 (by norm_num) (by norm_num)
    exact congrArg (fun o => o.steps.length) e
  obtain ⟨z, hz, -⟩ := C103_nearest (h := fixHeap 3 4 0 0 0 0) (s := fixSketch) (by decide) (fix_closed _ _ _ _ _ _) (fix_finite _ _ _ _ _ _)
    hl (![0, 0] : Fin 2 → ℝ)
  exact ⟨e1, e2, by decide, by decide, hl, (![0, 0] : Fin 2 → ℝ), z, by rw [fix_data]; simp [vec]; rfl, hz⟩

end Isotope
