import Verif.Lemmas.FloatSmall
import Verif.Props.FloatClose

/-!
# C106: in binary64 a sketch that is solved is recognised as solved
-/

namespace Isotope
open Round Val XR

variable {lm : Libm} {h : Heap (B64 lm)} {s : Sketch}

/-- **C106.** The loss computed in binary64 is finite and at most half the sum of the squares of what the constraints are missed by in the
reals, each increased by its rounding error (and `0.2%` for the additions). -/
theorem C106_loss {κ : ℝ} (hl : lm.Accurate κ) (hκ : κ ≤ 2 ^ (-45 : ℤ)) (hc : Closed ⟨h, s⟩) (hm : Modest h s)
    (hr : ∀ k ∈ s.cons, Clear h (h.cons k)) (hn : s.cons.length ≤ 2 ^ 40) :
    ∃ v, (getLoss h s).Is v ∧ 0 ≤ v ∧ v ≤ 0.501 * (s.cons.map (fun k => (missOf h (h.cons k) + roundoff κ h (h.cons k)) ^ 2)).sum :=
  loss_small hl hκ hc hm hr hn

/-- **C106.** BFGS in binary64 returns `Ok` at once and changes nothing when the constraints are met closely enough. -/
theorem C106_bfgs {κ : ℝ} (hl : lm.Accurate κ) (hκ : κ ≤ 2 ^ (-45 : ℤ)) (hc : Closed ⟨h, s⟩) (hm : Modest h s)
    (hr : ∀ k ∈ s.cons, Clear h (h.cons k)) (hn : s.cons.length ≤ 2 ^ 40) (n : Nat) {ml : B64 lm} (gt : B64 lm) {m : ℝ} (hml : ml.Is m)
    (small : 0.501 * (s.cons.map (fun k => (missOf h (h.cons k) + roundoff κ h (h.cons k)) ^ 2)).sum < m) :
    bfgsSolve ⟨n, ml, gt⟩ h s = ⟨.ok, h, [], 0, 0⟩ := by
  obtain ⟨v, h1, -, h2⟩ := C106_loss hl hκ hc hm hr hn
  exact C36_bfgs_stays _ h s ((h1.lt_iff hml).2 (h2.trans_lt small))

/-- **C106.** Gradient descent in binary64 returns `Ok` at once and moves nothing when the constraints are met closely enough. -/
theorem C106_gd {κ : ℝ} (hl : lm.Accurate κ) (hκ : κ ≤ 2 ^ (-45 : ℤ)) (hc : Closed ⟨h, s⟩) (hm : Modest h s)
    (hr : ∀ k ∈ s.cons, Clear h (h.cons k)) (hn : s.cons.length < 2 ^ 40) (n : Nat) {ml : B64 lm} (mg : B64 lm) {m : ℝ} (hml : ml.Is m)
    (small : 0.501 * (s.cons.map (fun k => (missOf h (h.cons k) + roundoff κ h (h.cons k)) ^ 2)).sum < m) :
    (gdSolve ⟨n, ml, mg⟩ h s).res = .ok ∧ (gdSolve ⟨n, ml, mg⟩ h s).steps = [] ∧ (gdSolve ⟨n, ml, mg⟩ h s).searches = 0 ∧
      GradOnly h (gdSolve ⟨n, ml, mg⟩ h s).heap := by
  obtain ⟨v, h1, -, h2⟩ := C106_loss hl hκ hc hm hr hn.le
  obtain ⟨h', H', g, G, e, -⟩ := gradient_near hl hκ hc hm hr hn
  exact C36_gd_stays _ h h' s _ e (.inr ((h1.lt_iff hml).2 (h2.trans_lt small)))

theorem newton_short (pinv : PInv (B64 lm)) {ml : B64 lm} (σ e : B64 lm) (normal : Nat → List (List (B64 lm)) → List (List (B64 lm)))
    (small : (getLoss h s <. ml) = true) (n : Nat) (start : B64 lm) : (newtonLoop pinv ml σ e normal s n start h).steps.length ≤ 1 := by
  have key : ∀ (n : Nat) (h' : Heap (B64 lm)), (newtonLoop pinv ml σ e normal s n (sumL (getLossPerConstraint h s)) h').steps = [] := by
    intro n h'
    have hg : gt (sumL (getLossPerConstraint h s)) ml = false := by
      rw [sumL_getLoss]
      have h1 := (B64.lt_iff _ _).1 small
      rw [← Bool.not_eq_true, gt, B64.lt_iff]
      rintro ⟨-, -, h2⟩
      exact absurd (h1.2.2.trans h2) (lt_irrefl _)
    cases n with
    | zero => rfl
    | succ n => unfold newtonLoop; rw [hg]; rfl
  cases n with
  | zero => exact Nat.zero_le _
  | succ n =>
    unfold newtonLoop
    split
    · dsimp only
      split
      · exact Nat.zero_le _
      · split
        · exact Nat.zero_le _
        · exact Nat.zero_le _
        · split
          · exact Nat.zero_le _
          · simp [key]
    · exact Nat.zero_le _

/-- **C106.** Gauss-Newton and Levenberg-Marquardt in binary64, which look at the loss only after a step, make at most one step when the
constraints are met closely enough. -/
theorem C106_newton {κ : ℝ} (hl : lm.Accurate κ) (hκ : κ ≤ 2 ^ (-45 : ℤ)) (hc : Closed ⟨h, s⟩) (hm : Modest h s)
    (hr : ∀ k ∈ s.cons, Clear h (h.cons k)) (hn : s.cons.length ≤ 2 ^ 40) (pinv : PInv (B64 lm)) (n : Nat) {ml : B64 lm} (σ e β : B64 lm) {m : ℝ}
    (hml : ml.Is m) (small : 0.501 * (s.cons.map (fun k => (missOf h (h.cons k) + roundoff κ h (h.cons k)) ^ 2)).sum < m) :
    (gnSolve pinv ⟨n, ml, σ, e⟩ h s).steps.length ≤ 1 ∧ (lmSolve pinv ⟨n, ml, σ, e, β⟩ h s).steps.length ≤ 1 := by
  obtain ⟨v, h1, -, h2⟩ := C106_loss hl hκ hc hm hr hn
  have hlt := (h1.lt_iff hml).2 (h2.trans_lt small)
  exact ⟨newton_short pinv σ e _ hlt n _, newton_short pinv σ e _ hlt n _⟩

theorem missOf_nonneg (h : Heap (B64 lm)) (c : Constraint (B64 lm)) : 0 ≤ missOf h c := by
  cases c <;> simp only [missOf, lenOf, distOf] <;> positivity

theorem badness_bound {c : Constraint (B64 lm)} (hc : Clear h c) : 0 ≤ badness h c ∧ badness h c ≤ 32 := by
  cases c with
  | angle p q o d =>
    simp only [Clear] at hc
    have e : (2 : ℝ) ^ (-5 : ℤ) = 1 / 32 := by norm_num
    rw [e] at hc
    have h0 : 0 < sinOf h p q o := by linarith [hc.2.2]
    simp only [badness]
    refine ⟨by positivity, ?_⟩
    rw [div_le_iff₀ h0]
    linarith [hc.2.2]
  | _ => simp only [badness]; norm_num

theorem total_small {κ : ℝ} (k0 : 0 ≤ κ) (hκ : κ ≤ 2 ^ (-50 : ℤ)) (hr : ∀ k ∈ s.cons, Clear h (h.cons k)) (hn : s.cons.length ≤ 100)
    (met : ∀ k ∈ s.cons, missOf h (h.cons k) ≤ 1e-9) (hs : ∀ k ∈ s.cons, spanOf h (h.cons k) * badness h (h.cons k) ≤ 1000) :
    0.501 * (s.cons.map (fun k => (missOf h (h.cons k) + roundoff κ h (h.cons k)) ^ 2)).sum < 9e-17 := by
  have one : ∀ x ∈ s.cons.map (fun k => (missOf h (h.cons k) + roundoff κ h (h.cons k)) ^ 2), x ≤ 1.2e-18 := by
    intro x hx
    obtain ⟨k, hk, rfl⟩ := List.mem_map.1 hx
    have h1 := met k hk
    have h2 := hs k hk
    obtain ⟨b0, b1⟩ := badness_bound (hr k hk)
    have m0 := missOf_nonneg h (h.cons k)
    have hT : (spanOf h (h.cons k) + 2 ^ (-100 : ℤ)) * badness h (h.cons k) ≤ 1001 := by
      have e : (2 : ℝ) ^ (-100 : ℤ) ≤ 1 / 1000 := by norm_num
      have e' := mul_le_mul e b1 b0 (by norm_num)
      rw [add_mul]
      generalize (2 : ℝ) ^ (-100 : ℤ) * badness h (h.cons k) = ε at *
      norm_num at e'
      linarith
    have hT0 : 0 ≤ (spanOf h (h.cons k) + 2 ^ (-100 : ℤ)) * badness h (h.cons k) :=
      mul_nonneg ((two_pos _).le.trans (floor_le h (h.cons k))) b0
    have e0 : 0 ≤ 80 * ((2 : ℝ) ^ (-53 : ℤ) + κ) := by positivity
    have e1 : 80 * ((2 : ℝ) ^ (-53 : ℤ) + κ) ≤ 8e-14 := by norm_num at hκ ⊢; linarith
    have hR : roundoff κ h (h.cons k) ≤ 8e-14 * 1001 := mul_le_mul e1 hT hT0 (by norm_num)
    have hR0 : 0 ≤ roundoff κ h (h.cons k) := mul_nonneg e0 hT0
    calc (missOf h (h.cons k) + roundoff κ h (h.cons k)) ^ 2 ≤ (1e-9 + 8e-14 * 1001) ^ 2 :=
          pow_le_pow_left₀ (by linarith) (by linarith) 2
      _ ≤ 1.2e-18 := by norm_num
  have hsum := List.sum_le_card_nsmul _ _ one
  rw [List.length_map, nsmul_eq_mul] at hsum
  have hN : (s.cons.length : ℝ) ≤ 100 := by exact_mod_cast hn
  nlinarith

/-- **C106.** With default parameters: a sketch of at most 100 constraints, each met up to `1e-9`, with sizes up to 1000 and a
mathematical library that is accurate to the last digits, is recognised as solved by BFGS and by gradient descent, which return `Ok` at once
and move nothing. -/
theorem C106_default {κ : ℝ} (hl : lm.Accurate κ) (hκ : κ ≤ 2 ^ (-50 : ℤ)) (hc : Closed ⟨h, s⟩) (hm : Modest h s)
    (hr : ∀ k ∈ s.cons, Clear h (h.cons k)) (hn : s.cons.length ≤ 100) (met : ∀ k ∈ s.cons, missOf h (h.cons k) ≤ 1e-9)
    (hs : ∀ k ∈ s.cons, spanOf h (h.cons k) * badness h (h.cons k) ≤ 1000) :
    bfgsSolve BFGSParams.default h s = ⟨.ok, h, [], 0, 0⟩ ∧
    (gdSolve GDParams.default h s).res = .ok ∧ (gdSolve GDParams.default h s).steps = [] ∧ GradOnly h (gdSolve GDParams.default h s).heap := by
  have k0 : 0 ≤ κ := by
    obtain ⟨c, -, h2⟩ := hl.cos _ _ B64.is_zero
    exact (abs_nonneg _).trans h2
  have ht := total_small k0 hκ hr hn met hs
  obtain ⟨m, hm1, hm2, -, -⟩ := lit_small (lm := lm) 1 16 rfl (by norm_num) (by norm_num)
  obtain ⟨m', hm1', hm2', -, -⟩ := lit_small (lm := lm) 1 14 rfl (by norm_num) (by norm_num)
  have a1 := (abs_le.1 hm2).1
  have a2 := (abs_le.1 hm2').1
  rw [ulp_eq] at a1 a2
  have hκ' : κ ≤ 2 ^ (-45 : ℤ) := hκ.trans (two_le (by norm_num))
  have g := C106_gd hl hκ' hc hm hr (by omega) 10000 (1e-10) hm1' (ht.trans (by norm_num at a2 ⊢; linarith))
  exact ⟨C106_bfgs hl hκ' hc hm hr (by omega) 1000 (1e-8) hm1 (ht.trans (by norm_num at a1 ⊢; linarith)), g.1, g.2.1, g.2.2.2⟩

/-! ## Example -/

/-- two sides of the unit square, with their lengths, directions and the angle between them; the right angle is the number that the
mathematical library returns for `acos(0)` -/
noncomputable def squareHeap : Heap (B64 roundedLibm) :=
  { (Heap.empty : Heap (B64 roundedLibm)) with
    points := upd (upd (upd Heap.empty.points 0 (Point2.new 1.0 0.0)) 1 (Point2.new 0.0 1.0)) 2 (Point2.new 0.0 0.0)
    lines := upd (upd (Heap.empty : Heap (B64 roundedLibm)).lines 0 ⟨2, 0⟩) 1 ⟨2, 1⟩
    cons := upd (upd (upd (upd (upd Heap.empty.cons 0 (.fix 2 ⟨0.0, 0.0⟩)) 1 (.euclid 0 2 1.0)) 2 (.eqLen 0 1)) 3 (.horizLine 0)) 4
      (.angle 0 1 2 (Num.acos 0.0))
    nPoints := 3
    nLines := 2
    nCons := 5 }
def squareSketch : Sketch := ⟨[(0, .point 0), (1, .point 1), (2, .point 2), (3, .line 0), (4, .line 1)], 5, [0, 1, 2, 3, 4]⟩

theorem square_closed : Closed (⟨squareHeap, squareSketch⟩ : World (B64 roundedLibm)) := by
  simp [Closed, squareSketch, squareHeap, Sketch.cells, primFields, consFields, upd]

theorem square_right : ∃ θ, (Num.acos (0.0 : B64 roundedLibm)).Is θ ∧ |θ - Real.pi / 2| ≤ 2 ^ (-50 : ℤ) := by
  obtain ⟨θ, h1, h2⟩ := roundedLibm_accurate.acos _ _ B64.is_zero (by norm_num)
  exact ⟨θ, h1, by rwa [Real.arccos_zero] at h2⟩

theorem square_modest : Modest squareHeap squareSketch := by
  have b0 : ∃ r : ℝ, (0.0 : B64 roundedLibm).Is r ∧ |r| ≤ 2 ^ (100 : ℤ) := ⟨0, B64.is_zero, by rw [abs_zero]; exact (two_pos _).le⟩
  have b1 : ∃ r : ℝ, (1.0 : B64 roundedLibm).Is r ∧ |r| ≤ 2 ^ (100 : ℤ) := ⟨1, B64.is_one, by rw [abs_one]; norm_num⟩
  have b2 : ∃ r : ℝ, (Num.acos (0.0 : B64 roundedLibm)).Is r ∧ |r| ≤ 2 ^ (100 : ℤ) := by
    obtain ⟨θ, h1, h2⟩ := square_right
    refine ⟨θ, h1, ?_⟩
    have h3 := abs_le.1 h2
    have := Real.pi_pos; have := Real.pi_le_four
    refine le_trans (b := (4 : ℝ)) ?_ (by norm_num)
    norm_num at h3
    exact abs_le.2 ⟨by linarith, by linarith⟩
  constructor
  · rw [getData_eq]
    simp only [squareSketch, squareHeap, Sketch.cells, List.map_cons, List.map_nil, List.flatMap_cons, List.flatMap_nil, primData, upd,
      if_true, Heap.empty, Point2.new, List.append_nil, List.mem_cons, List.mem_append, List.not_mem_nil, or_false,
      show (0 : Nat) ≠ 1 by decide, show (0 : Nat) ≠ 2 by decide, show (1 : Nat) ≠ 2 by decide, if_false]
    rintro x ((rfl | rfl) | (rfl | rfl) | rfl | rfl) <;> assumption
  · simp only [squareSketch, List.forall_mem_cons]
    refine ⟨?_, ?_, ?_, ?_, ?_, by simp⟩
    · show ∀ x ∈ [(0.0 : B64 roundedLibm), 0.0], _
      simpa using b0
    · show ∀ x ∈ [(1.0 : B64 roundedLibm)], _
      simpa using b1
    · show ∀ x ∈ [], _
      simp
    · show ∀ x ∈ [], _
      simp
    · show ∀ x ∈ [Num.acos (0.0 : B64 roundedLibm)], _
      simpa using b2

theorem square_at : xOf squareHeap 0 = 1 ∧ yOf squareHeap 0 = 0 ∧ xOf squareHeap 1 = 0 ∧ yOf squareHeap 1 = 1 ∧
    xOf squareHeap 2 = 0 ∧ yOf squareHeap 2 = 0 := by
  have z : (0.0 : B64 roundedLibm).real = 0 := by unfold B64.real; rw [B64.is_zero.exact]; rfl
  have o : (1.0 : B64 roundedLibm).real = 1 := by unfold B64.real; rw [B64.is_one.exact]; rfl
  exact ⟨o, z, z, o, z, z⟩

theorem square_dists : distOf squareHeap 0 2 = 1 ∧ distOf squareHeap 1 2 = 1 ∧ sinOf squareHeap 0 1 2 = 1 := by
  obtain ⟨a, b, c, d, e, f⟩ := square_at
  have d0 : distOf squareHeap 0 2 = 1 := by unfold distOf; rw [a, b, e, f]; norm_num
  have d1 : distOf squareHeap 1 2 = 1 := by unfold distOf; rw [c, d, e, f]; norm_num
  exact ⟨d0, d1, by unfold sinOf; rw [d0, d1, a, b, c, d, e, f]; norm_num⟩

theorem square_clear : ∀ k ∈ squareSketch.cons, Clear squareHeap (squareHeap.cons k) := by
  obtain ⟨d0, d1, s1⟩ := square_dists
  simp only [squareSketch, List.forall_mem_cons]
  refine ⟨trivial, ?_, ?_, trivial, ?_, by simp⟩
  · show (2 : ℝ) ^ (-19 : ℤ) ≤ distOf squareHeap 0 2
    rw [d0]; norm_num
  · show (2 : ℝ) ^ (-100 : ℤ) ≤ distOf squareHeap 0 2 ∧ (2 : ℝ) ^ (-100 : ℤ) ≤ distOf squareHeap 1 2
    rw [d0, d1]; norm_num
  · show (2 : ℝ) ^ (-19 : ℤ) ≤ distOf squareHeap 0 2 ∧ (2 : ℝ) ^ (-19 : ℤ) ≤ distOf squareHeap 1 2 ∧ (2 : ℝ) ^ (-5 : ℤ) ≤ sinOf squareHeap 0 1 2
    rw [d0, d1, s1]; norm_num

theorem square_met : (∀ k ∈ squareSketch.cons, missOf squareHeap (squareHeap.cons k) ≤ 1e-9) ∧
    ∀ k ∈ squareSketch.cons, spanOf squareHeap (squareHeap.cons k) * badness squareHeap (squareHeap.cons k) ≤ 1000 := by
  obtain ⟨a, b, c, d, e, f⟩ := square_at
  obtain ⟨d0, d1, s1⟩ := square_dists
  obtain ⟨θ, h1, h2⟩ := square_right
  have z : (0.0 : B64 roundedLibm).real = 0 := by unfold B64.real; rw [B64.is_zero.exact]; rfl
  have o : (1.0 : B64 roundedLibm).real = 1 := by unfold B64.real; rw [B64.is_one.exact]; rfl
  have r : (Num.acos (0.0 : B64 roundedLibm)).real = θ := by unfold B64.real; rw [h1.exact]; rfl
  have c0 : squareHeap.cons 0 = .fix 2 ⟨0.0, 0.0⟩ := rfl
  have c1 : squareHeap.cons 1 = .euclid 0 2 1.0 := rfl
  have c2 : squareHeap.cons 2 = .eqLen 0 1 := rfl
  have c3 : squareHeap.cons 3 = .horizLine 0 := rfl
  have c4 : squareHeap.cons 4 = .angle 0 1 2 (Num.acos 0.0) := rfl
  have l0 : squareHeap.lines 0 = ⟨2, 0⟩ := rfl
  have l1 : squareHeap.lines 1 = ⟨2, 1⟩ := rfl
  norm_num at h2
  constructor
  · simp only [squareSketch, List.forall_mem_cons, c0, c1, c2, c3, c4, missOf, lenOf, l0, l1, d0, d1, a, b, c, d, e, f, z, o, r]
    refine ⟨by norm_num, by norm_num, by norm_num, by norm_num, ?_, by simp⟩
    rw [show ((1 : ℝ) - 0) * (0 - 0) + (0 - 0) * (1 - 0) = 0 by norm_num, zero_div, Real.arccos_zero, abs_sub_comm]
    exact h2.trans (by norm_num)
  · simp only [squareSketch, List.forall_mem_cons, c0, c1, c2, c3, c4, spanOf, badness, lenOf, l0, l1, d0, d1, s1, b, e, f, z, o, r]
    refine ⟨by norm_num, by norm_num, by norm_num, by norm_num, ?_, by simp⟩
    have h3 := abs_le.1 h2
    have := Real.pi_pos; have := Real.pi_le_four
    have : |θ| ≤ 4 := abs_le.2 ⟨by linarith, by linarith⟩
    norm_num
    linarith

/-- `C106_default` (and with it `C106_loss`, `C106_bfgs`, `C106_gd`): the two sides are recognised as solved -/
example : bfgsSolve BFGSParams.default squareHeap squareSketch = ⟨.ok, squareHeap, [], 0, 0⟩ :=
  (C106_default roundedLibm_accurate le_rfl square_closed square_modest square_clear (by simp [squareSketch]) square_met.1 square_met.2).1

/-- `C106_newton`: Gauss-Newton makes at most one step -/
example (pinv : PInv (B64 roundedLibm)) : (gnSolve pinv GNParams.default squareHeap squareSketch).steps.length ≤ 1 := by
  obtain ⟨m, hm1, hm2, -, -⟩ := lit_small (lm := roundedLibm) 1 6 rfl (by norm_num) (by norm_num)
  have a1 := (abs_le.1 hm2).1
  rw [ulp_eq] at a1
  have ht := total_small (s := squareSketch) (κ := 2 ^ (-50 : ℤ)) (two_pos _).le le_rfl square_clear (by simp [squareSketch]) square_met.1 square_met.2
  exact (C106_newton roundedLibm_accurate (two_le (by norm_num)) square_closed square_modest square_clear (by simp [squareSketch]) pinv 10000
    1e-3 1e-6 1e-6 hm1 (ht.trans (by norm_num at a1 ⊢; linarith))).1

end Isotope
