import Verif.Lemmas.LongLines
import Verif.Lemmas.LinearBFGS
import Mathlib.Analysis.Calculus.Deriv.MeanValue

/-!
# Solvers among perpendicular and parallel constraints of long lines
-/

namespace Isotope
open XR Matrix

variable {h : Heap XR} {s : Sketch} {x : Fin (getNDofs h s) → ℝ}

/-- the line search when no step size tried is long enough -/
theorem lsLoop_short (hn : s.cells.Nodup) (hc : Closed ⟨h, s⟩) (hf : FiniteSketch h s) {d : Fin (getNDofs h s) → ℝ} {m L : ℝ}
    (hU : ∀ a, 0 < a → a ≤ 1.5 ^ 14 → Good h s (x + a • d) ∧ lossAfter h s (x + a • d) ≤ L + 1e-4 * a * m ∧
      gradAt h s (x + a • d) ⬝ᵥ d < 0.9 * m) (n j : Nat) (hj : n + j = 14) (H : Heap XR) (r : SameRefs h H) :
    ∃ H', SameRefs h H' ∧ getData H' s = vec (x + (1.5 : ℝ) ^ 14 • d) ∧
      lsLoop s (vec d) (vec x) (fin L) (fin m) (n + 1) (fin (1.5 ^ j)) H = (.searchFailed, H') := by
  induction n generalizing j H with
  | zero =>
    obtain rfl : j = 14 := by omega
    obtain ⟨u1, u2, u3⟩ := hU (1.5 ^ 14) (by positivity) le_rfl
    generalize (1.5 : ℝ) ^ 14 = a at *
    have ev : vadd (vec x) (vscale (fin a) (vec d)) = vec (x + a • d) := by rw [vscale_vec, vadd_vec]
    obtain ⟨H1, e1, r1, ed⟩ := setData_at hn r (x + a • d)
    obtain ⟨el, hgr⟩ := spec_at hn hc hf r1 ed
    obtain ⟨H2, g2, e2⟩ := hgr u1
    refine ⟨H2, r1.trans g2.1, by rw [g2.getData, ed], ?_⟩
    rw [lsLoop, ev, e1]
    simp only [el, e2, c1_lit, c2_lit, mul_fin, add_fin, dotV_vec, ge, le_fin, decide_eq_true_eq]
    rw [if_pos u2, if_neg (not_le.2 u3)]
    rfl
  | succ n ih =>
    have hj14 : (1.5 : ℝ) ^ j ≤ 1.5 ^ 14 := pow_le_pow_right₀ (by norm_num) (by omega)
    obtain ⟨u1, u2, u3⟩ := hU (1.5 ^ j) (by positivity) hj14
    have ih' := ih (j + 1) (by omega)
    rw [pow_succ (1.5 : ℝ) j] at ih'
    generalize (1.5 : ℝ) ^ j = a at *
    have ev : vadd (vec x) (vscale (fin a) (vec d)) = vec (x + a • d) := by rw [vscale_vec, vadd_vec]
    obtain ⟨H1, e1, r1, ed⟩ := setData_at hn r (x + a • d)
    obtain ⟨el, hgr⟩ := spec_at hn hc hf r1 ed
    obtain ⟨H2, g2, e2⟩ := hgr u1
    obtain ⟨H3, r3, ed3, e3⟩ := ih' H2 (r1.trans g2.1)
    refine ⟨H3, r3, ed3, ?_⟩
    rw [lsLoop, ev, e1]
    simp only [el, e2, c1_lit, c2_lit, mul_fin, add_fin, dotV_vec, ge, le_fin, decide_eq_true_eq]
    rw [if_pos u2, if_neg (not_le.2 u3), onehalf_lit, mul_fin, e3]

variable (hn : s.cells.Nodup) (hc : Closed ⟨h, s⟩) (hf : FiniteSketch h s)

include hn hc hf in
set_option maxHeartbeats 1000000 in
/-- One line search: it fails, and leaves the sketch at the last position tried, where the loss is smaller and the lines are still long. -/
theorem long_search {len : ℝ} (hl : 0 < len) (hv : LongAt h s len x) (hK : 32000 * (s.cons.length : ℝ) ≤ len ^ 2) (hg : gradAt h s x ≠ 0)
    (H : Heap XR) (r : SameRefs h H) (ed : getData H s = vec x) :
    ∃ H', SameRefs h H' ∧ getData H' s = vec (x - (1.5 : ℝ) ^ 14 • gradAt h s x) ∧
      lineSearch H s (vec (-gradAt h s x)) (vec (gradAt h s x)) = (.searchFailed, H') ∧
      lossAfter h s (x - (1.5 : ℝ) ^ 14 • gradAt h s x) < lossAfter h s x ∧
      ∃ len', 0 < len' ∧ len ^ 2 - 1168 * (s.cons.length : ℝ) ≤ len' ^ 2 ∧ LongAt h s len' (x - (1.5 : ℝ) ^ 14 • gradAt h s x) := by
  have hp : 0 < gradAt h s x ⬝ᵥ gradAt h s x := dot_self_pos hg
  have hdd : -gradAt h s x ⬝ᵥ -gradAt h s x = gradAt h s x ⬝ᵥ gradAt h s x := by rw [neg_dotProduct, dotProduct_neg, neg_neg]
  have hm : gradAt h s x ⬝ᵥ -gradAt h s x = -(gradAt h s x ⬝ᵥ gradAt h s x) := by rw [dotProduct_neg]
  have T1 : (0 : ℝ) < 1.5 ^ 14 := by positivity
  have T2 : (1.5 : ℝ) ^ 14 ≤ 292 := by norm_num
  have ej := fun H r => lsLoop_short (x := x) (d := -gradAt h s x) (m := -(gradAt h s x ⬝ᵥ gradAt h s x)) (L := lossAfter h s x) hn hc hf
    (n := 14) (j := 0) (hj := rfl) (H := H) (r := r)
  rw [show x - (1.5 : ℝ) ^ 14 • gradAt h s x = x + (1.5 : ℝ) ^ 14 • -gradAt h s x by rw [smul_neg, sub_eq_add_neg]]
  generalize (1.5 : ℝ) ^ 14 = T at *
  -- the gradient is short
  obtain ⟨N, hN0, hN⟩ : ∃ N : ℝ, 0 ≤ N ∧ N ^ 2 = 2 * (gradAt h s x ⬝ᵥ gradAt h s x) :=
    ⟨√(2 * (gradAt h s x ⬝ᵥ gradAt h s x)), Real.sqrt_nonneg _, Real.sq_sqrt (by linarith)⟩
  have hd : 2 * (-gradAt h s x ⬝ᵥ -gradAt h s x) ≤ N ^ 2 := by rw [hdd, hN]
  have small := slope_small hn hc hf hl hv hN0 hd
  rw [hm, abs_neg, abs_of_pos hp] at small
  have hNp : 0 < N := by
    rcases hN0.lt_or_eq with hh | hh
    · exact hh
    · rw [← hh] at hN; norm_num at hN; rw [hN] at hg; exact absurd rfl hg
  have hNl : N * len ≤ 2 * (s.cons.length : ℝ) := by
    have h1 : N ^ 2 / 2 ≤ s.cons.length * (N / len) := by rw [hN]; linarith
    rw [← mul_div_assoc, le_div_iff₀ hl] at h1
    have h2 : N * (N * len) ≤ N * (2 * s.cons.length) := by nlinarith
    exact le_of_mul_le_mul_left h2 hNp
  have hKp : 0 < (s.cons.length : ℝ) := by
    have : 0 < N * len := by positivity
    linarith
  have hTN : T * N * len ≤ 584 * (s.cons.length : ℝ) := by
    rw [mul_assoc]
    have h1 : T * (N * len) ≤ 292 * (2 * (s.cons.length : ℝ)) :=
      mul_le_mul T2 hNl (by positivity) (by norm_num)
    linarith
  have hTN1 : T * N < len := by
    by_contra hh
    have : len * len ≤ T * N * len := mul_le_mul_of_nonneg_right (not_lt.1 hh) hl.le
    nlinarith
  have hlen' : len ^ 2 - 1168 * (s.cons.length : ℝ) ≤ (len - T * N) ^ 2 := by
    nlinarith [sq_nonneg (T * N)]
  have hlong : ∀ t : ℝ, 0 ≤ t → t ≤ T → LongAt h s (len - T * N) (x + t • -gradAt h s x) :=
    fun t t0 tT => hv.shrink hn hl hN0 hd t0 tT hTN1.le
  have hslope : ∀ t : ℝ, 0 ≤ t → t ≤ T →
      gradAt h s (x + t • -gradAt h s x) ⬝ᵥ -gradAt h s x < 0.9 * -(gradAt h s x ⬝ᵥ gradAt h s x) := by
    intro t t0 tT
    have h1 := slope_change hn hc hf (by linarith : 0 < len - T * N) t0 (fun t' a b => hlong t' a (b.trans tT)) hN0 hd
    rw [hm, div_pow, hN] at h1
    have h2 := (abs_le.1 h1).2
    have l0 : 0 < (len - T * N) ^ 2 := by
      have : 0 < len - T * N := by linarith
      positivity
    have h3 : s.cons.length * (5 * (2 * (gradAt h s x ⬝ᵥ gradAt h s x) / (len - T * N) ^ 2) * t) <
        0.1 * (gradAt h s x ⬝ᵥ gradAt h s x) := by
      have e : s.cons.length * (5 * (2 * (gradAt h s x ⬝ᵥ gradAt h s x) / (len - T * N) ^ 2) * t) =
          10 * s.cons.length * t * (gradAt h s x ⬝ᵥ gradAt h s x) / (len - T * N) ^ 2 := by ring
      rw [e, div_lt_iff₀ l0]
      have tt : t ≤ 292 := tT.trans T2
      have h4 : 10 * s.cons.length * t < 0.1 * (len - T * N) ^ 2 := by
        have : (s.cons.length : ℝ) * t ≤ s.cons.length * 292 := mul_le_mul_of_nonneg_left tt hKp.le
        generalize (len - T * N) ^ 2 = Q at *
        linarith
      have := mul_lt_mul_of_pos_right h4 hp
      linarith
    linarith
  have hloss : ∀ a : ℝ, 0 < a → a ≤ T → lossAfter h s (x + a • -gradAt h s x) ≤
      lossAfter h s x + 0.9 * -(gradAt h s x ⬝ᵥ gradAt h s x) * a := by
    intro a a0 aT
    have der : ∀ t ∈ Set.Icc (0 : ℝ) a, HasDerivAt (fun t : ℝ => lossAfter h s (x + t • -gradAt h s x))
        (gradAt h s (x + t • -gradAt h s x) ⬝ᵥ -gradAt h s x) t := fun t ht =>
      hasDerivAt_along hn hc hf ((hlong t ht.1 (ht.2.trans aT)).good (by linarith))
    have := Convex.image_sub_le_mul_sub_of_deriv_le (convex_Icc (0 : ℝ) a) (f := fun t : ℝ => lossAfter h s (x + t • -gradAt h s x))
      (C := 0.9 * -(gradAt h s x ⬝ᵥ gradAt h s x)) (fun t ht => (der t ht).continuousAt.continuousWithinAt)
      (fun t ht => (der t (interior_subset ht)).differentiableAt.differentiableWithinAt)
      (fun t ht => by
        have ht' := interior_subset ht
        rw [(der t ht').deriv]
        exact (hslope t ht'.1 (ht'.2.trans aT)).le)
      0 (Set.left_mem_Icc.2 a0.le) a (Set.right_mem_Icc.2 a0.le) a0.le
    simp only [zero_smul, add_zero, sub_zero] at this
    linarith
  obtain ⟨H', r', ed', e'⟩ := ej H r (fun a a0 aT => ⟨(hlong a a0.le aT).good (by linarith), by
    have h1 := hloss a a0 aT
    have h2 : 0 < a * (gradAt h s x ⬝ᵥ gradAt h s x) := by positivity
    linarith, hslope a a0.le aT⟩)
  refine ⟨H', r', ed', ?_, ?_, _, by linarith, hlen', hlong _ T1.le le_rfl⟩
  · unfold lineSearch
    simp only [dotV_vec, hm, ed, (spec_at hn hc hf r ed).1, zero_lit, one_lit, ge, le_fin]
    rw [if_neg (by simpa using hp), show lsMaxIter = 14 + 1 from rfl]
    rw [pow_zero] at e'
    exact e'
  · have h1 := hloss _ T1 le_rfl
    have h2 : 0 < T * (gradAt h s x ⬝ᵥ gradAt h s x) := by positivity
    linarith

include hn hc hf in
/-- gradient descent -/
theorem long_gd {len : ℝ} (hl : 0 < len) (hv : LongAt h s len x) (hK : 32000 * (s.cons.length : ℝ) ≤ len ^ 2) (ed : getData h s = vec x)
    (p : GDParams XR) {ml gt : ℝ} (el : p.minLoss = fin ml) (eg : p.minGrad = fin gt) (hgt : 0 < gt) (hi : 1 ≤ p.maxIterations)
    (h1 : ml ≤ lossAfter h s x) (h2 : gt ≤ √(gradAt h s x ⬝ᵥ gradAt h s x)) :
    (gdSolve p h s).res = .err .searchFailed ∧ (gdSolve p h s).steps = [] ∧
    getData (gdSolve p h s).heap s = vec (x - (1.5 : ℝ) ^ 14 • gradAt h s x) ∧
    ∃ L, getLoss (gdSolve p h s).heap s = fin L ∧ L < lossAfter h s x := by
  obtain ⟨eL, hgr⟩ := spec_at hn hc hf (SameRefs.refl h) ed
  obtain ⟨H1, g1, e1⟩ := hgr (hv.good hl)
  have hg : gradAt h s x ≠ 0 := by
    intro e0
    rw [e0] at h2
    simp at h2
    linarith
  have ed1 : getData H1 s = vec x := by rw [g1.getData, ed]
  obtain ⟨H2, r2, ed2, e2, l2, -⟩ := long_search hn hc hf hl hv hK hg H1 g1.1 ed1
  obtain ⟨n, hn'⟩ : ∃ n, p.maxIterations = n + 1 := ⟨p.maxIterations - 1, by omega⟩
  have e : gdSolve p h s = ⟨.err .searchFailed, H2, [], 1, 1⟩ := by
    unfold gdSolve
    rw [e1]
    simp only
    rw [hn', gdLoop, normL_vec, (spec_at hn hc hf g1.1 ed1).1, eg, el, if_neg (by simpa using h2), if_neg (by simpa using h1)]
    simp only [vneg_vec, e2]
  rw [e]
  exact ⟨rfl, rfl, ed2, _, (spec_at hn hc hf r2 ed2).1, l2⟩

include hn hc hf in
/-- BFGS: both line searches fail -/
theorem long_bfgs {len : ℝ} (hl : 0 < len) (hv : LongAt h s len x) (hK : 33168 * (s.cons.length : ℝ) ≤ len ^ 2) (ed : getData h s = vec x)
    (p : BFGSParams XR) {ml gt : ℝ} (el : p.minLoss = fin ml) (eg : p.gradientThreshold = fin gt) (hgt : 0 < gt) :
    ((bfgsSolve p h s).res = .ok ∨ (bfgsSolve p h s).res = .err .failedTwice) ∧ (bfgsSolve p h s).steps = [] ∧
    ∃ L, getLoss (bfgsSolve p h s).heap s = fin L ∧ L ≤ lossAfter h s x := by
  have hK0 : 0 ≤ (s.cons.length : ℝ) := by positivity
  have idm : ∀ m, identity m = mat (1 : Matrix (Fin m) (Fin m) ℝ) := fun _ => identity_mat
  have key : ∀ (reset : Bool) (len : ℝ) (v : Fin (getNDofs h s) → ℝ) (H : Heap XR) (data : List XR), 0 < len → LongAt h s len v →
      (if reset then 32000 else 33168) * (s.cons.length : ℝ) ≤ len ^ 2 → SameRefs h H → getData H s = vec v → ∀ n,
      let o := bfgsLoop p s (getNDofs h s) n reset (identity (getNDofs h s)) data H
      (o.res = .ok ∨ o.res = .err .failedTwice) ∧ o.steps = [] ∧ ∃ L, getLoss o.heap s = fin L ∧ L ≤ lossAfter h s v := by
    have step : ∀ (reset : Bool), (reset = true ∨ ∀ (len : ℝ) (v : Fin (getNDofs h s) → ℝ) (H : Heap XR) (data : List XR), 0 < len →
      LongAt h s len v → 32000 * (s.cons.length : ℝ) ≤ len ^ 2 → SameRefs h H → getData H s = vec v → ∀ n,
      let o := bfgsLoop p s (getNDofs h s) n true (identity (getNDofs h s)) data H
      (o.res = .ok ∨ o.res = .err .failedTwice) ∧ o.steps = [] ∧ ∃ L, getLoss o.heap s = fin L ∧ L ≤ lossAfter h s v) →
      ∀ (len : ℝ) (v : Fin (getNDofs h s) → ℝ) (H : Heap XR) (data : List XR), 0 < len → LongAt h s len v →
      (if reset then 32000 else 33168) * (s.cons.length : ℝ) ≤ len ^ 2 → SameRefs h H → getData H s = vec v → ∀ n,
      let o := bfgsLoop p s (getNDofs h s) n reset (identity (getNDofs h s)) data H
      (o.res = .ok ∨ o.res = .err .failedTwice) ∧ o.steps = [] ∧ ∃ L, getLoss o.heap s = fin L ∧ L ≤ lossAfter h s v := by
      intro reset hh len v H data hl hv hK r ed n
      have hK' : 32000 * (s.cons.length : ℝ) ≤ len ^ 2 := by
        cases reset <;> simp at hK <;> linarith
      obtain ⟨eL, hgr⟩ := spec_at hn hc hf r ed
      obtain ⟨H1, g1, e1⟩ := hgr (hv.good hl)
      have ed1 : getData H1 s = vec v := by rw [g1.getData, ed]
      have eL1 := (spec_at hn hc hf (r.trans g1.1) ed1).1
      cases n with
      | zero =>
        dsimp only
        rw [bfgsLoop]
        exact ⟨.inl rfl, rfl, _, eL, le_rfl⟩
      | succ n =>
        dsimp only
        rw [bfgsLoop, el, eL]
        by_cases c2 : lossAfter h s v < ml
        · rw [if_pos (by simpa using c2)]
          exact ⟨.inl rfl, rfl, _, eL, le_rfl⟩
        · rw [if_neg (by simpa using c2), e1]
          dsimp only
          rw [if_neg (by simp [vec])]
          obtain ⟨u, eu, hu⟩ := uniformNorm_vec (gradAt h s v)
          rw [eu, eg]
          by_cases c1 : u < gt
          · rw [if_pos (by simpa using c1)]
            exact ⟨.inl rfl, rfl, _, eL1, le_rfl⟩
          · have hg : gradAt h s v ≠ 0 := by
              intro e0
              rw [e0] at hu
              exact c1 ((hu gt hgt).2 fun i => by simpa using hgt)
            obtain ⟨H2, r2, ed2, e2, l2, len', b1, b2, b3⟩ := long_search hn hc hf hl hv hK' hg H1 (r.trans g1.1) ed1
            rw [if_neg (by simpa using c1), idm, matNeg_mat, matVec_mat, neg_mulVec, one_mulVec, if_neg (by simp [vec]), e2]
            cases reset with
            | true => exact ⟨.inr rfl, rfl, _, (spec_at hn hc hf r2 ed2).1, l2.le⟩
            | false =>
              rcases hh with hh | hh
              · exact absurd hh (by simp)
              · rw [← idm]
                obtain ⟨i1, i2, L, i3, i4⟩ := hh len' _ H2 data b1 b3 (by simp at hK; linarith) r2 ed2 (n + 1)
                exact ⟨i1, i2, L, i3, i4.trans l2.le⟩
    intro reset len v H data hl hv hK r ed n
    refine step reset (.inr ?_) len v H data hl hv hK r ed n
    intro len v H data hl hv hK r ed n
    exact step true (.inl rfl) len v H data hl hv (by simpa using hK) r ed n
  have := key false len x h (getData h s) hl hv (by simpa using hK) (SameRefs.refl h) ed p.maxIterations
  unfold bfgsSolve
  dsimp only
  rw [getData_length]
  exact this

end Isotope
