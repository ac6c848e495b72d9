import Verif.Lemmas.LeastSquares
import Verif.Props.Conflict

/-!
# Solving sketches whose constraints conflict (C94)

`README.md:104`: the solver finds "a state of the sketch that satisfies all the constraints as much as possible".  For linear sketches
(fixed points, horizontal and vertical distances and lines), whether their constraints can be met together or not: gradient descent
and BFGS get to the least possible loss.  All theorems of this file are about exact arithmetic (`XR`).
-/

namespace Isotope
open XR
open Matrix

variable {h : Heap XR} {s : Sketch}

theorem LinAt.atRest_iff {m : Nat} {R : Matrix (Fin m) (Fin (getNDofs h s)) ℝ} {b : Fin m → ℝ} (l : LinAt h s R b) {H : Heap XR}
    (r : SameRefs h H) {x : Fin (getNDofs h s) → ℝ} (ex : getData H s = vec x) : AtRest H s ↔ quadGrad R b x = 0 := by
  obtain ⟨-, H2, -, e2⟩ := l.at r ex
  constructor
  · rintro ⟨g, h', e, hz⟩
    rw [e] at e2
    obtain ⟨rfl, -⟩ := Prod.mk.inj (Except.ok.inj e2)
    funext i
    exact XR.fin.inj (hz _ (List.mem_ofFn.2 ⟨i, rfl⟩))
  · intro e0
    refine ⟨_, H2, e2, fun y hy => ?_⟩
    obtain ⟨i, rfl⟩ := List.mem_ofFn.1 hy
    rw [e0]
    rfl

theorem LinAt.isLeast {m : Nat} {R : Matrix (Fin m) (Fin (getNDofs h s)) ℝ} {b : Fin m → ℝ} (l : LinAt h s R b)
    {x0 : Fin (getNDofs h s) → ℝ} (h0 : quadGrad R b x0 = 0) : IsLeast (Set.range (Isotope.lossAfter h s)) (quad R b x0) := by
  refine ⟨⟨x0, l.lossAfter x0⟩, ?_⟩
  rintro _ ⟨v, rfl⟩
  rw [l.lossAfter, quad_shift h0 v]
  linarith [quad_nonneg R (R *ᵥ x0) v]

/-- **C94.** A linear sketch can be moved to a position where the gradient vanishes, and the gradient vanishes exactly where the loss is
least. -/
theorem C94_least (hn : s.cells.Nodup) (hc : Closed ⟨h, s⟩) (hf : FiniteSketch h s) (hl : ∀ k ∈ s.cons, IsLinear (h.cons k)) :
    (∃ (v : Fin (getNDofs h s) → ℝ) (h' : Heap XR), setData h s (vec v) = .ok h' ∧ AtRest h' s) ∧
    ∃ L, getLoss h s = fin L ∧ (AtRest h s ↔ IsLeast (Set.range (lossAfter h s)) L) := by
  obtain ⟨m, R, b, l⟩ := exists_linAt hn hc hf hl
  obtain ⟨x0, h0⟩ := exists_least R b
  obtain ⟨q, hq⟩ : ∃ q : Fin (getNDofs h s) → ℝ, getData h s = vec q := exists_vec' (List.all_eq_true.2 hf.1) (getData_length h s)
  refine ⟨?_, quad R b q, (l.at (SameRefs.refl h) hq).1, ?_⟩
  · obtain ⟨H, e, r, ed⟩ := l.set (SameRefs.refl h) x0
    exact ⟨x0, H, e, (l.atRest_iff r ed).2 h0⟩
  · rw [l.atRest_iff (SameRefs.refl h) hq]
    refine ⟨l.isLeast, fun hle => ?_⟩
    have k := hle.2 ⟨x0, l.lossAfter x0⟩
    rw [quad_shift h0 q] at k
    have k0 := quad_nonneg R (R *ᵥ x0) q
    have k1 : quad R (R *ᵥ x0) q = 0 := by linarith
    unfold quad at k1
    have k2 := dotProduct_self_eq_zero.1 ((div_eq_zero_iff.1 k1).resolve_right (by norm_num))
    rw [← quadGrad_shift h0 q]
    unfold quadGrad
    rw [k2, mulVec_zero]

/-- **C94.** Gradient descent on a linear sketch with at most `N ≤ 54` points and at most `K ≤ 16382` constraints, from any finite start
and whether or not the constraints can be met together: it returns `Ok`, every step reduces the distance of the loss from the least
possible one at least by the factor `1 - 1.9998e-4 / (K N²)`, and if it stops before `max_iterations` steps, then either the loss is
below `min_loss`, or the gradient is shorter than `min_grad` and the loss exceeds the least one by less than `(N · min_grad)² / 2`. -/
theorem C94_gd (hn : s.cells.Nodup) (hc : Closed ⟨h, s⟩) (hf : FiniteSketch h s) (hl : ∀ k ∈ s.cons, IsLinear (h.cons k))
    {N K : Nat} (hN : (pointIds s).length ≤ N) (hN0 : 0 < N) (hN1 : N ≤ 54) (hK : s.cons.length ≤ K) (hK0 : 0 < K) (hK1 : K ≤ 16382)
    (n : Nat) {ml mg : ℝ} (hmg : 0 < mg) :
    ∃ L0 L1 Lmin : ℝ, IsLeast (Set.range (lossAfter h s)) Lmin ∧ getLoss h s = fin L0 ∧
      (gdSolve ⟨n, fin ml, fin mg⟩ h s).res = .ok ∧
      getLoss (gdSolve ⟨n, fin ml, fin mg⟩ h s).heap s = fin L1 ∧
      (gdSolve ⟨n, fin ml, fin mg⟩ h s).steps.length ≤ n ∧
      L1 - Lmin ≤ (1 - 1.9998e-4 / (K * N ^ 2)) ^ (gdSolve ⟨n, fin ml, fin mg⟩ h s).steps.length * (L0 - Lmin) ∧
      ((gdSolve ⟨n, fin ml, fin mg⟩ h s).steps.length < n → L1 < ml ∨
        (2 * (L1 - Lmin) < (N * mg) ^ 2 ∧ ∃ (g : Fin (getNDofs h s) → ℝ) (h1 : Heap XR),
          getGradient (gdSolve ⟨n, fin ml, fin mg⟩ h s).heap s = .ok (vec g, h1) ∧ ∑ i, g i ^ 2 < mg ^ 2)) := by
  obtain ⟨m, R, b, l⟩ := exists_linAt hn hc hf hl
  obtain ⟨x0, h0⟩ := exists_least R b
  obtain ⟨q, hq⟩ : ∃ q : Fin (getNDofs h s) → ℝ, getData h s = vec q := exists_vec' (List.all_eq_true.2 hf.1) (getData_length h s)
  obtain ⟨e0, h1, g1, e1⟩ := l.at (SameRefs.refl h) hq
  have w := (l.sized hc hl hN0 hN hK).wellPosed x0
  have hNr : (0 : ℝ) < N := by exact_mod_cast hN0
  have hKr : (1 : ℝ) ≤ K := by exact_mod_cast hK0
  have hN2 : (N : ℝ) ≤ 54 := by exact_mod_cast hN1
  have hK2 : (K : ℝ) ≤ 16382 := by exact_mod_cast hK1
  have hmu : (0 : ℝ) < 1 / (N : ℝ) ^ 2 := by positivity
  have key := l.gdLoop' (quadGrad_shift h0) w hmu (by linarith)
    (by
      have : (N : ℝ) ^ 2 ≤ 2916 := by nlinarith
      rw [div_mul_eq_mul_div, le_div_iff₀ (by positivity)]
      norm_num
      linarith) (by norm_num; linarith) ⟨n, fin ml, fin mg⟩ rfl rfl hmg n h1 g1.1 q (by rw [g1.getData, hq])
  unfold gdSolve
  rw [e1]
  dsimp only at key ⊢
  obtain ⟨i1, i2, x', i3, i4, i5, i6⟩ := key
  have es : shrink (1 / (N : ℝ) ^ 2) (2 * K) = 1 - 1.9998e-4 / (K * N ^ 2) := by
    unfold shrink
    field_simp
    ring
  rw [es] at i5
  have k1 := quad_shift h0 x'
  have k2 := quad_shift h0 q
  refine ⟨quad R b q, quad R b x', quad R b x0, l.isLeast h0, e0, i1, (l.at i3 i4).1, i2, ?_, fun hh => ?_⟩
  · rw [k1, k2, add_sub_cancel_left, add_sub_cancel_left]
    exact i5
  · rcases i6 hh with k | k
    · exact .inl k
    · obtain ⟨-, h2, -, e2⟩ := l.at i3 i4
      have k3 := (Real.sqrt_lt' hmg).1 k
      refine .inr ⟨?_, _, h2, e2, ?_⟩
      · have b1 := (w.bounds hmu x').1
        rw [quadGrad_shift h0] at b1
        rw [k1, add_sub_cancel_left, mul_pow]
        have b2 : 2 * (1 / (N : ℝ) ^ 2) * quad R (R *ᵥ x0) x' < mg ^ 2 := lt_of_le_of_lt b1 k3
        have hN3 : (0 : ℝ) < (N : ℝ) ^ 2 := by positivity
        rw [show 2 * (1 / (N : ℝ) ^ 2) * quad R (R *ᵥ x0) x' = 2 * quad R (R *ᵥ x0) x' / (N : ℝ) ^ 2 by ring, div_lt_iff₀ hN3] at b2
        linarith
      · simpa only [dotProduct, pow_two] using k3

/-- **C94.** With enough iterations gradient descent gets the loss below `min_loss` or within `(N · min_grad)² / 2` of the least one. -/
theorem C94_gd_enough (hn : s.cells.Nodup) (hc : Closed ⟨h, s⟩) (hf : FiniteSketch h s) (hl : ∀ k ∈ s.cons, IsLinear (h.cons k))
    {N K : Nat} (hN : (pointIds s).length ≤ N) (hN0 : 0 < N) (hN1 : N ≤ 54) (hK : s.cons.length ≤ K) (hK0 : 0 < K) (hK1 : K ≤ 16382)
    {ml mg : ℝ} (hmg : 0 < mg) :
    ∃ Lmin, IsLeast (Set.range (lossAfter h s)) Lmin ∧
    ∃ n0, ∀ n ≥ n0, ∃ L1 : ℝ, getLoss (gdSolve ⟨n, fin ml, fin mg⟩ h s).heap s = fin L1 ∧ (L1 < ml ∨ 2 * (L1 - Lmin) < (N * mg) ^ 2) := by
  have hNr : (1 : ℝ) ≤ N := by exact_mod_cast hN0
  have hKr : (1 : ℝ) ≤ K := by exact_mod_cast hK0
  obtain ⟨L0, -, Lmin, hmin, e0, -⟩ := C94_gd hn hc hf hl hN hN0 hN1 hK hK0 hK1 0 hmg (ml := ml)
  refine ⟨Lmin, hmin, ?_⟩
  have hKN : (1 : ℝ) ≤ K * N ^ 2 := by nlinarith
  have hr1 : 1 - 1.9998e-4 / ((K : ℝ) * N ^ 2) < 1 := by
    have : (0 : ℝ) < 1.9998e-4 / ((K : ℝ) * N ^ 2) := by positivity
    linarith
  have hr0 : 0 ≤ 1 - 1.9998e-4 / ((K : ℝ) * N ^ 2) := by
    rw [sub_nonneg, div_le_one (by linarith)]
    linarith
  have ht : Filter.Tendsto (fun n : ℕ => (1 - 1.9998e-4 / ((K : ℝ) * N ^ 2)) ^ n * (L0 - Lmin)) Filter.atTop (nhds (0 * (L0 - Lmin))) :=
    (tendsto_pow_atTop_nhds_zero_of_lt_one hr0 hr1).mul_const _
  rw [zero_mul] at ht
  obtain ⟨n0, hn0⟩ := Filter.eventually_atTop.1 (ht.eventually (gt_mem_nhds (show 0 < (N * mg) ^ 2 / 2 by positivity)))
  refine ⟨n0, fun n hnn => ?_⟩
  obtain ⟨L0', L1, Lmin', hmin', e0', -, e1, i3, i4, i5⟩ := C94_gd hn hc hf hl hN hN0 hN1 hK hK0 hK1 n hmg (ml := ml)
  rw [e0] at e0'
  cases e0'
  obtain rfl := hmin.unique hmin'
  refine ⟨L1, e1, ?_⟩
  rcases i3.lt_or_eq with k | k
  · exact (i5 k).imp_right And.left
  · right
    rw [k] at i4
    have := hn0 n hnn
    linarith

/-- **C94.** BFGS on such a sketch, with at most 10¹⁰ iterations: it returns `Ok`, no line search fails, every step reduces the distance of
the loss from the least possible one by a fixed factor, and if it stops before `max_iterations` steps, then either the loss is below
`min_loss`, or all entries of the gradient are below the threshold and the loss exceeds the least one by at most
`(number of coordinates) · (N · threshold)² / 2`. -/
theorem C94_bfgs (hn : s.cells.Nodup) (hc : Closed ⟨h, s⟩) (hf : FiniteSketch h s) (hl : ∀ k ∈ s.cons, IsLinear (h.cons k))
    {N K : Nat} (hN : (pointIds s).length ≤ N) (hN0 : 0 < N) (hN1 : N ≤ 54) (hK : s.cons.length ≤ K) (hK0 : 0 < K) (hK1 : K ≤ 16382)
    {n : Nat} (hn1 : n ≤ 10 ^ 10) {ml gt : ℝ} (hgt : 0 < gt) :
    ∃ L0 L1 Lmin : ℝ, IsLeast (Set.range (lossAfter h s)) Lmin ∧ getLoss h s = fin L0 ∧
      (bfgsSolve ⟨n, fin ml, fin gt⟩ h s).res = .ok ∧ (bfgsSolve ⟨n, fin ml, fin gt⟩ h s).failed = 0 ∧
      getLoss (bfgsSolve ⟨n, fin ml, fin gt⟩ h s).heap s = fin L1 ∧
      (bfgsSolve ⟨n, fin ml, fin gt⟩ h s).steps.length ≤ n ∧
      L1 - Lmin ≤ (1 - 1.9998e-4 / (K * (N ^ 2 + 1))) ^ (bfgsSolve ⟨n, fin ml, fin gt⟩ h s).steps.length * (L0 - Lmin) ∧
      ((bfgsSolve ⟨n, fin ml, fin gt⟩ h s).steps.length < n → L1 < ml ∨
        (2 * (L1 - Lmin) ≤ getNDofs h s * (N * gt) ^ 2 ∧ ∃ (g : Fin (getNDofs h s) → ℝ) (h1 : Heap XR),
          getGradient (bfgsSolve ⟨n, fin ml, fin gt⟩ h s).heap s = .ok (vec g, h1) ∧ ∀ i, |g i| < gt)) := by
  obtain ⟨m, R, b, l⟩ := exists_linAt hn hc hf hl
  obtain ⟨x0, h0⟩ := exists_least R b
  obtain ⟨q, hq⟩ : ∃ q : Fin (getNDofs h s) → ℝ, getData h s = vec q := exists_vec' (List.all_eq_true.2 hf.1) (getData_length h s)
  have w := (l.sized hc hl hN0 hN hK).wellPosed x0
  have hNr : (1 : ℝ) ≤ N := by exact_mod_cast hN0
  have hKr : (1 : ℝ) ≤ K := by exact_mod_cast hK0
  have hN2 : (N : ℝ) ≤ 54 := by exact_mod_cast hN1
  have hK2 : (K : ℝ) ≤ 16382 := by exact_mod_cast hK1
  have hnr : (n : ℝ) ≤ 10 ^ 10 := by exact_mod_cast hn1
  have hNN : (N : ℝ) ^ 2 ≤ 2916 := by nlinarith
  have hN3 : (1 : ℝ) ≤ (N : ℝ) ^ 2 := by nlinarith
  have hmu : (0 : ℝ) < 1 / (N : ℝ) ^ 2 := by positivity
  have ei : 1 / (1 / (N : ℝ) ^ 2) = (N : ℝ) ^ 2 := one_div_one_div _
  have f1 := Fits.one w hmu
  rw [ei] at f1
  have key := l.bfgsLoop' (quadGrad_shift h0) ⟨x0, rfl⟩ (M := 2 * K) (nuN := N ^ 2 + 1) (by linarith) (by norm_num; linarith)
    (by norm_num; linarith) ⟨n, fin ml, fin gt⟩ rfl rfl hgt n false 1 (N ^ 2) hN3 (by linarith) f1 h (SameRefs.refl h) q hq
  unfold bfgsSolve
  dsimp only at key ⊢
  rw [getData_length, identity_mat, hq]
  obtain ⟨i1, i2, i3, x', i4, i5, i6, i7⟩ := key
  have es : 3.9996e-4 / (((N : ℝ) ^ 2 + 1) * (2 * K)) = 1.9998e-4 / (K * (N ^ 2 + 1)) := by
    field_simp
    norm_num
  rw [es] at i6
  have k1 := quad_shift h0 x'
  have k2 := quad_shift h0 q
  refine ⟨quad R b q, quad R b x', quad R b x0, l.isLeast h0, (l.at (SameRefs.refl h) hq).1, i1, i2, (l.at i4 i5).1, i3, ?_, fun hh => ?_⟩
  · rw [k1, k2, add_sub_cancel_left, add_sub_cancel_left]
    exact i6
  · rcases i7 hh with k | k
    · exact .inl k
    · obtain ⟨-, h2, -, e2⟩ := l.at i4 i5
      refine .inr ⟨?_, _, h2, e2, k⟩
      have b1 := (w.bounds hmu x').1
      rw [quadGrad_shift h0] at b1
      rw [k1, add_sub_cancel_left]
      have k3 : quadGrad R b x' ⬝ᵥ quadGrad R b x' ≤ getNDofs h s * gt ^ 2 := by
        rw [dotProduct]
        calc _ ≤ ∑ i : Fin (getNDofs h s), gt ^ 2 := Finset.sum_le_sum fun i _ => by
              rw [← sq, ← sq_abs]
              exact pow_le_pow_left₀ (abs_nonneg _) (k i).le 2
          _ = _ := by simp
      have b2 := b1.trans k3
      rw [show 2 * (1 / (N : ℝ) ^ 2) * quad R (R *ᵥ x0) x' = 2 * quad R (R *ᵥ x0) x' / (N : ℝ) ^ 2 by ring, div_le_iff₀ (by linarith)] at b2
      rw [mul_pow]
      linarith

theorem sqrt_close {a a' c e : ℝ} (ha : 0 ≤ a) (hc : 0 ≤ c) (e1 : a' = a + c + e) (e2 : e ^ 2 ≤ 4 * a * c) :
    Real.sqrt a' ≤ Real.sqrt a + Real.sqrt c := by
  apply Real.sqrt_le_iff.2
  refine ⟨by positivity, ?_⟩
  rw [add_sq, Real.sq_sqrt ha, Real.sq_sqrt hc, e1]
  have : e ≤ 2 * (Real.sqrt a * Real.sqrt c) := by
    apply le_of_abs_le
    apply abs_le_of_sq_le_sq _ (by positivity)
    rw [mul_pow, mul_pow, Real.sq_sqrt ha, Real.sq_sqrt hc]
    linarith
  linarith

/-- **C94.** How far the losses of single constraints are from their values at rest: the square roots differ by at most the square root of
how far the whole loss is from the least one. -/
theorem C94_losses {h' : Heap XR} (hn : s.cells.Nodup) (hc : Closed ⟨h, s⟩) (hf : FiniteSketch h s) (hl : ∀ k ∈ s.cons, IsLinear (h.cons k))
    (r : SameRefs h h') (hf' : FiniteSketch h' s) (hr : AtRest h s) {L L' a a' : ℝ} (hL : getLoss h s = fin L) (hL' : getLoss h' s = fin L')
    {k : Nat} (hk : k ∈ s.cons) (ha : lossValue h (h.cons k) = fin a) (ha' : lossValue h' (h'.cons k) = fin a') :
    L ≤ L' ∧ |Real.sqrt a' - Real.sqrt a| ≤ Real.sqrt (L' - L) := by
  obtain ⟨m, R, b, l⟩ := exists_linAt hn hc hf hl
  obtain ⟨x, hx⟩ : ∃ q : Fin (getNDofs h s) → ℝ, getData h s = vec q := exists_vec' (List.all_eq_true.2 hf.1) (getData_length h s)
  obtain ⟨x', hx'⟩ : ∃ q : Fin (getNDofs h s) → ℝ, getData h' s = vec q := exists_vec' (List.all_eq_true.2 hf'.1) (by
    rw [getData_length, ← dofs_length, ← dofs_length])
  have g0 := (l.atRest_iff (SameRefs.refl h) hx).1 hr
  rw [(l.at (SameRefs.refl h) hx).1] at hL
  rw [(l.at r hx').1] at hL'
  rw [l.value hc hl (SameRefs.refl h) hx hk] at ha
  rw [l.value hc hl r hx' hk] at ha'
  have hL := XR.fin.inj hL
  have hL' := XR.fin.inj hL'
  have ha := XR.fin.inj ha
  have ha' := XR.fin.inj ha'
  have hd : L' - L = (R *ᵥ (x' - x)) ⬝ᵥ (R *ᵥ (x' - x)) / 2 := by
    have : x' = x + (x' - x) := by abel
    rw [← hL, ← hL']
    conv_lhs => rw [this, quad_add, g0, zero_dotProduct]
    ring
  rw [l.form hc hl] at hd
  have h1 : axLin h s (x' - x) 0 (h.cons k) ^ 2 + axLin h s (x' - x) 1 (h.cons k) ^ 2 ≤ 2 * (L' - L) := by
    have := List.single_le_sum (l := s.cons.map (fun k => axLin h s (x' - x) 0 (h.cons k) ^ 2 + axLin h s (x' - x) 1 (h.cons k) ^ 2)) (by
      intro y hy
      obtain ⟨j, -, rfl⟩ := List.mem_map.1 hy
      positivity) _ (List.mem_map.2 ⟨k, hk, rfl⟩)
    linarith
  have key : ∀ e a, axErr h (placeIn h s e) a (h.cons k) = axLin h s e a (h.cons k) - axGoal a (h.cons k) := fun _ _ => rfl
  simp only [key] at ha ha'
  simp only [axLin_sub] at h1
  generalize axLin h s x 0 (h.cons k) = u0 at *
  generalize axLin h s x 1 (h.cons k) = u1 at *
  generalize axLin h s x' 0 (h.cons k) = w0 at *
  generalize axLin h s x' 1 (h.cons k) = w1 at *
  generalize axGoal 0 (h.cons k) = t0 at *
  generalize axGoal 1 (h.cons k) = t1 at *
  have hle : Real.sqrt (((w0 - u0) ^ 2 + (w1 - u1) ^ 2) / 2) ≤ Real.sqrt (L' - L) := Real.sqrt_le_sqrt (by linarith)
  refine ⟨by nlinarith [sq_nonneg (w0 - u0), sq_nonneg (w1 - u1)], ?_⟩
  subst ha ha'
  have s1 := sqrt_close (a := ((u0 - t0) ^ 2 + (u1 - t1) ^ 2) / 2) (a' := ((w0 - t0) ^ 2 + (w1 - t1) ^ 2) / 2)
    (c := ((w0 - u0) ^ 2 + (w1 - u1) ^ 2) / 2) (e := (u0 - t0) * (w0 - u0) + (u1 - t1) * (w1 - u1)) (by positivity) (by positivity)
    (by ring) (by nlinarith [sq_nonneg ((u0 - t0) * (w1 - u1) - (u1 - t1) * (w0 - u0))])
  have s2 := sqrt_close (a := ((w0 - t0) ^ 2 + (w1 - t1) ^ 2) / 2) (a' := ((u0 - t0) ^ 2 + (u1 - t1) ^ 2) / 2)
    (c := ((w0 - u0) ^ 2 + (w1 - u1) ^ 2) / 2) (e := (w0 - t0) * (u0 - w0) + (w1 - t1) * (u1 - w1)) (by positivity) (by positivity)
    (by ring) (by nlinarith [sq_nonneg ((w0 - t0) * (u1 - w1) - (w1 - t1) * (u0 - w0))])
  rw [abs_le]
  constructor <;> linarith

theorem metBy_congr {h' : Heap XR} (r : SameRefs h h') (q : Nat → Fin 2 → ℝ) (c : Constraint XR) : MetBy h' q c ↔ MetBy h q c := by
  cases c <;> simp [MetBy, r.lines]

theorem compatible_congr {h' : Heap XR} (r : SameRefs h h') (T : Set Nat) : Compatible h' T ↔ Compatible h T := by
  unfold Compatible
  simp only [metBy_congr r, r.cons]

/-- **C94.** Recognising conflicts short of rest: wherever a linear sketch with at most `N` points stands, a constraint whose loss is larger
than `N²/2` times the square of the gradient belongs to a minimal conflict.  (So no constraint is shown by mistake if the threshold
takes the gradient into account.) -/
theorem C94_highlight (hn : s.cells.Nodup) (hc : Closed ⟨h, s⟩) (hf : FiniteSketch h s) (hl : ∀ k ∈ s.cons, IsLinear (h.cons k))
    {N : Nat} (hN : (pointIds s).length ≤ N) (hN0 : 0 < N) {g : Fin (getNDofs h s) → ℝ} {h1 : Heap XR}
    (hg : getGradient h s = .ok (vec g, h1)) {k : Nat} (hk : k ∈ s.cons) {a : ℝ} (ha : lossValue h (h.cons k) = fin a)
    (hb : N ^ 2 * ∑ i, g i ^ 2 < 2 * a) :
    ∃ M : Finset Nat, k ∈ M ∧ (∀ j ∈ M, j ∈ s.cons) ∧ MinimalConflict h M := by
  obtain ⟨m, R, b, l⟩ := exists_linAt hn hc hf hl
  obtain ⟨x, hx⟩ : ∃ q : Fin (getNDofs h s) → ℝ, getData h s = vec q := exists_vec' (List.all_eq_true.2 hf.1) (getData_length h s)
  obtain ⟨eL, h2, -, e2⟩ := l.at (SameRefs.refl h) hx
  rw [hg] at e2
  have eg : g = quadGrad R b x := vec_inj (Prod.mk.inj (Except.ok.inj e2)).1
  obtain ⟨x0, h0⟩ := exists_least R b
  obtain ⟨H, -, r, ed⟩ := l.set (SameRefs.refl h) x0
  have hr : AtRest H s := (l.atRest_iff r ed).2 h0
  have hfH : FiniteSketch H s := finite_at l.par r (v := x0) ed
  have hcH := hc.sameRefs r
  have hlH : ∀ k ∈ s.cons, IsLinear (H.cons k) := fun k hk => by rw [r.cons]; exact hl k hk
  have eLH := (l.at r ed).1
  have eaH := l.value hc hl r ed hk
  obtain ⟨-, c2⟩ := C94_losses hn hcH hfH hlH r.symm hf hr eLH eL hk eaH ha
  have hNr : (0 : ℝ) < (N : ℝ) ^ 2 := by positivity
  have hmu : (0 : ℝ) < 1 / (N : ℝ) ^ 2 := by positivity
  have b1 := (((l.sized hc hl hN0 hN le_rfl).wellPosed x0).bounds hmu x).1
  rw [quadGrad_shift h0, ← eg, show 2 * (1 / (N : ℝ) ^ 2) * quad R (R *ᵥ x0) x = 2 * quad R (R *ᵥ x0) x / (N : ℝ) ^ 2 by ring,
    div_le_iff₀ hNr] at b1
  have b2 : g ⬝ᵥ g = ∑ i, g i ^ 2 := by simp only [dotProduct, pow_two]
  rw [quad_shift h0 x, add_sub_cancel_left] at c2
  have b3 : quad R (R *ᵥ x0) x < a := by rw [b2] at b1; linarith
  have hpos : lossValue H (H.cons k) ≠ fin 0 := by
    rw [eaH]
    intro hz
    have hz := XR.fin.inj hz
    rw [hz, Real.sqrt_zero, sub_zero, abs_of_nonneg (Real.sqrt_nonneg _)] at c2
    have := (Real.sqrt_le_sqrt_iff (quad_nonneg _ _ _)).1 c2
    linarith
  obtain ⟨M, m1, m2, m3⟩ := C93_conflict hcH hfH hlH hr hk hpos
  refine ⟨M, m1, fun j hj => (m2 j hj).1, ?_⟩
  unfold MinimalConflict at m3 ⊢
  simpa only [compatible_congr r] using m3

/-! ### Examples -/

/-- two points five apart, for which horizontal distances 0, 2 and 1 are asked -/
noncomputable def fiveHeap : Heap XR :=
  { clashHeap 0 with points := fun p => ⟨⟨fin (if p = 0 then 0 else 5), fin 0⟩, ⟨fin 0, fin 0⟩⟩ }

theorem five_refs : SameRefs (clashHeap 0) fiveHeap :=
  ⟨rfl, rfl, fun _ => rfl, fun _ => rfl, fun _ => rfl, rfl, rfl, rfl, rfl, rfl⟩

theorem five_finite : FiniteSketch fiveHeap clashSketch := by
  refine ⟨fun x hx => ?_, fun k hk x hx => (clash_finite 0).2 k hk x hx⟩
  have e : getData fiveHeap clashSketch = [fin 0, fin 0, fin 5, fin 0] := by
    simp [getData, getNDofs, clashSketch, fiveHeap, primData, zerosVec, blit]
  rw [e] at hx
  simp at hx
  rcases hx with rfl | rfl | rfl <;> rfl

theorem five_loss {k : Nat} (hk : k ∈ clashSketch.cons) : lossValue fiveHeap (fiveHeap.cons k) = fin ((5 - clashGoal k) ^ 2 / 2) := by
  rw [ax_loss (five_finite.cons ((clash_closed 0).sameRefs five_refs) k hk) (clash_linear 0 k hk)]
  simp [axErr, axRow, axGoal, fiveHeap, clashHeap, placeOf]

/-- C94: gradient descent with its default parameters on a sketch that cannot be solved -/
example : (gdSolve GDParams.default fiveHeap clashSketch).res = .ok := by
  obtain ⟨-, -, -, -, -, e, -⟩ := C94_gd (h := fiveHeap) (s := clashSketch) (N := 2) (K := 3) (by decide)
    ((clash_closed 0).sameRefs five_refs) five_finite (clash_linear 0) (by decide) (by decide) (by decide) (by decide) (by decide) (by decide)
    10000 (ml := 1e-14) (mg := 1e-10) (by norm_num)
  exact e

/-- C94: BFGS with its default parameters on the same sketch -/
example : (bfgsSolve BFGSParams.default fiveHeap clashSketch).res = .ok := by
  obtain ⟨-, -, -, -, -, e, -⟩ := C94_bfgs (h := fiveHeap) (s := clashSketch) (N := 2) (K := 3) (by decide)
    ((clash_closed 0).sameRefs five_refs) five_finite (clash_linear 0) (by decide) (by decide) (by decide) (by decide) (by decide) (by decide)
    (n := 1000) (by norm_num) (ml := 1e-16) (gt := 1e-8) (by norm_num)
  exact e

/-- C94: the loss of the first constraint (25/2) is that at rest (1/2) up to the distance of the whole loss from the least one -/
example {L L' : ℝ} (hL : getLoss (clashHeap 0) clashSketch = fin L) (hL' : getLoss fiveHeap clashSketch = fin L') :
    |Real.sqrt ((5 - clashGoal 0) ^ 2 / 2) - Real.sqrt ((1 - clashGoal 0) ^ 2 / 2)| ≤ Real.sqrt (L' - L) :=
  (C94_losses (by decide) (clash_closed 0) (clash_finite 0) (clash_linear 0) five_refs five_finite (clash_rest 0) hL hL' (k := 0)
    (by simp [clashSketch]) (clash_loss 0 (by simp [clashSketch])) (five_loss (by simp [clashSketch]))).2

/-- C94: at rest, the first constraint (with loss 1/2) is recognised as being in conflict -/
example : ∃ M : Finset Nat, 0 ∈ M ∧ (∀ j ∈ M, j ∈ clashSketch.cons) ∧ MinimalConflict (clashHeap 0) M := by
  obtain ⟨g, h', e, hz⟩ := clash_rest 0
  obtain ⟨m, R, b, l⟩ := exists_linAt (h := clashHeap 0) (s := clashSketch) (by decide) (clash_closed 0) (clash_finite 0) (clash_linear 0)
  obtain ⟨x, hx⟩ : ∃ q : Fin (getNDofs (clashHeap 0) clashSketch) → ℝ, getData (clashHeap 0) clashSketch = vec q :=
    exists_vec' (List.all_eq_true.2 (clash_finite 0).1) (getData_length _ _)
  obtain ⟨-, h2, -, e2⟩ := l.at (SameRefs.refl _) hx
  rw [(l.atRest_iff (SameRefs.refl _) hx).1 (clash_rest 0)] at e2
  exact C94_highlight (by decide) (clash_closed 0) (clash_finite 0) (clash_linear 0) (N := 2) (by decide) (by decide) e2
    (by simp [clashSketch]) (clash_loss 0 (by simp [clashSketch])) (by simp [clashGoal])

end Isotope
