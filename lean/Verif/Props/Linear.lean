import Verif.Lemmas.LinearGD
import Verif.Lemmas.ExFix

/-!
# The line search and gradient descent on linear sketches (C71, C72)

A sketch is *linear* if all its constraints are `FixPoint`, horizontal or vertical distances, horizontal or vertical lines.
All theorems of this file are about exact arithmetic (`XR`).
-/

namespace Isotope
open XR
open Matrix

variable {h : Heap XR} {s : Sketch}

/-- How much the loss bends on the way from `q` to `q - g`: twice by how much the loss at `q - g` exceeds its linear approximation at
`q` (for `g` the gradient), divided by the square of the length of `g`. -/
noncomputable def bend (h : Heap XR) (s : Sketch) (q g : Fin (getNDofs h s) → ℝ) : ℝ :=
  2 * (lossAfter h s (q - g) - lossAfter h s q + g ⬝ᵥ g) / (g ⬝ᵥ g)

theorem LinAt.bend_eq {m : Nat} {R : Matrix (Fin m) (Fin (getNDofs h s)) ℝ} {b : Fin m → ℝ} (l : LinAt h s R b)
    {q g : Fin (getNDofs h s) → ℝ} (eg : g = quadGrad R b q) : bend h s q g = (R *ᵥ g) ⬝ᵥ (R *ᵥ g) / (g ⬝ᵥ g) := by
  unfold bend
  rw [l.lossAfter, l.lossAfter, sub_eq_add_neg q, quad_add, ← eg, mulVec_neg]
  simp only [dotProduct_neg, neg_dotProduct, neg_neg]
  congr 1
  ring

/-- the linear system, and what its gradient is -/
theorem linAt_gradient (hn : s.cells.Nodup) (hc : Closed ⟨h, s⟩) (hf : FiniteSketch h s) (hl : ∀ k ∈ s.cons, IsLinear (h.cons k))
    {q g : Fin (getNDofs h s) → ℝ} (hq : getData h s = vec q) {h1 : Heap XR} (hg : getGradient h s = .ok (vec g, h1)) :
    ∃ (m : Nat) (R : Matrix (Fin m) (Fin (getNDofs h s)) ℝ) (b : Fin m → ℝ), LinAt h s R b ∧ g = quadGrad R b q ∧
      SameRefs h h1 ∧ getData h1 s = vec q := by
  obtain ⟨m, R, b, l⟩ := exists_linAt hn hc hf hl
  obtain ⟨-, h2, g2, e2⟩ := l.at (SameRefs.refl h) hq
  rw [hg] at e2
  injection e2 with e2
  obtain ⟨e3, rfl⟩ := Prod.mk.inj e2
  exact ⟨m, R, b, l, vec_inj e3, g2.1, by rw [g2.getData, hq]⟩

/-- **C71.** Against the gradient the loss of a linear sketch is a parabola that opens upwards. -/
theorem C71_parabola (hn : s.cells.Nodup) (hc : Closed ⟨h, s⟩) (hf : FiniteSketch h s) (hl : ∀ k ∈ s.cons, IsLinear (h.cons k))
    {q g : Fin (getNDofs h s) → ℝ} (hq : getData h s = vec q) {h1 : Heap XR} (hg : getGradient h s = .ok (vec g, h1)) (h0 : g ≠ 0) :
    0 < bend h s q g ∧
    ∀ a : ℝ, lossAfter h s (q - a • g) = lossAfter h s q - a * (g ⬝ᵥ g) + a ^ 2 * (bend h s q g * (g ⬝ᵥ g)) / 2 := by
  obtain ⟨m, R, b, l, eg, -, -⟩ := linAt_gradient hn hc hf hl hq hg
  have hG := dot_self_pos h0
  rw [l.bend_eq eg]
  refine ⟨?_, fun a => ?_⟩
  · refine div_pos (dot_self_pos fun e => ?_) hG
    have : g ⬝ᵥ g = (R *ᵥ q - b) ⬝ᵥ (R *ᵥ g) := by
      rw [← dot_mulVec]
      exact congrArg (· ⬝ᵥ g) eg
    rw [e, dotProduct_zero] at this
    linarith
  · rw [l.lossAfter, l.lossAfter, sub_eq_add_neg, ← smul_neg, quad_add, ← eg, mulVec_smul, mulVec_neg, div_mul_cancel₀ _ hG.ne']
    simp only [dotProduct_smul, smul_dotProduct, dotProduct_neg, neg_dotProduct, smul_eq_mul]
    ring

/-- **C71.** The line search against the gradient of a linear sketch finds a step exactly if the loss bends neither too little nor
too much: between `0.1 / 1.5¹⁴` (about 1/2919) and `1.9998 · 2¹⁴` (about 32765).  Otherwise it returns `SearchFailed`; it never
panics and never returns `NotDescentDirection`. -/
theorem C71_search (hn : s.cells.Nodup) (hc : Closed ⟨h, s⟩) (hf : FiniteSketch h s) (hl : ∀ k ∈ s.cons, IsLinear (h.cons k))
    {q g : Fin (getNDofs h s) → ℝ} (hq : getData h s = vec q) {h1 : Heap XR} (hg : getGradient h s = .ok (vec g, h1)) (h0 : g ≠ 0) :
    ((∃ a h2, lineSearch h1 s (vneg (vec g)) (vec g) = (.ok (fin a), h2)) ↔
      0.1 ≤ bend h s q g * 1.5 ^ 14 ∧ bend h s q g ≤ 1.9998 * 2 ^ 14) ∧
    ((∃ h2, lineSearch h1 s (vneg (vec g)) (vec g) = (.searchFailed, h2)) ↔
      bend h s q g * 1.5 ^ 14 < 0.1 ∨ 1.9998 * 2 ^ 14 < bend h s q g) := by
  have hb := (C71_parabola hn hc hf hl hq hg h0).1
  obtain ⟨m, R, b, l, eg, r1, e1⟩ := linAt_gradient hn hc hf hl hq hg
  obtain ⟨H, -, e⟩ := l.search q g eg h0 h1 r1 e1
  rw [← l.bend_eq eg] at e
  obtain ⟨t1, -⟩ := trials_spec hb
  rw [e]
  cases et : trials (bend h s q g) 15 1 with
  | none =>
    have := t1.1 et
    refine ⟨⟨?_, ?_⟩, fun _ => this, fun _ => ⟨H, rfl⟩⟩
    · rintro ⟨a, h2, e'⟩; cases e'
    · rintro ⟨k1, k2⟩
      rcases this with hh | hh <;> exfalso <;> linarith
  | some a =>
    rw [et] at t1
    have : ¬(bend h s q g * 1.5 ^ 14 < 0.1 ∨ 1.9998 * 2 ^ 14 < bend h s q g) := fun hh => absurd (t1.2 hh) (by simp)
    rw [not_or, not_lt, not_lt] at this
    refine ⟨⟨fun _ => this, fun _ => ⟨a, H, rfl⟩⟩, ?_, fun hh => ?_⟩
    · rintro ⟨h2, e'⟩; cases e'
    · rcases hh with hh | hh <;> exfalso <;> linarith [this.1, this.2]

/-- **C71.** Which step it finds: with `j < 15`, either `1/2ʲ`, the first of the halved steps whose product with the bend is at most
1.9998, or `1.5ʲ`, the first of the enlarged steps whose product with the bend is at least 0.1. -/
theorem C71_step (hn : s.cells.Nodup) (hc : Closed ⟨h, s⟩) (hf : FiniteSketch h s) (hl : ∀ k ∈ s.cons, IsLinear (h.cons k))
    {q g : Fin (getNDofs h s) → ℝ} (hq : getData h s = vec q) {h1 : Heap XR} (hg : getGradient h s = .ok (vec g, h1)) (h0 : g ≠ 0)
    {a : ℝ} {h2 : Heap XR} (hs : lineSearch h1 s (vneg (vec g)) (vec g) = (.ok (fin a), h2)) :
    0.1 ≤ a * bend h s q g ∧ a * bend h s q g ≤ 1.9998 ∧
    ∃ j < 15, (a = (1 / 2) ^ j ∧ ∀ i < j, 1.9998 < (1 / 2) ^ i * bend h s q g) ∨
      (a = 1.5 ^ j ∧ ∀ i < j, 1.5 ^ i * bend h s q g < 0.1) := by
  have hb := (C71_parabola hn hc hf hl hq hg h0).1
  obtain ⟨m, R, b, l, eg, r1, e1⟩ := linAt_gradient hn hc hf hl hq hg
  obtain ⟨H, -, e⟩ := l.search q g eg h0 h1 r1 e1
  rw [← l.bend_eq eg] at e
  obtain ⟨-, t2⟩ := trials_spec hb
  rw [hs] at e
  cases et : trials (bend h s q g) 15 1 with
  | none => rw [et] at e; cases e
  | some a' =>
    rw [et] at e
    cases e
    obtain ⟨k1, k2, j, hj, k3 | k3⟩ := t2 a et
    · refine ⟨k1, k2, j, hj, .inl ⟨k3.1, fun i hi => ?_⟩⟩
      have k4 := k3.2 (by omega)
      rw [k3.1, show j = (j - 1 - i) + (i + 1) by omega, pow_add, pow_succ] at k4
      have p1 : (0 : ℝ) < (1 / 2) ^ i * bend h s q g := mul_pos (by positivity) hb
      have p2 : ((1 : ℝ) / 2) ^ (j - 1 - i) ≤ 1 := pow_le_one₀ (by norm_num) (by norm_num)
      nlinarith
    · refine ⟨k1, k2, j, hj, .inr ⟨k3.1, fun i hi => ?_⟩⟩
      have k4 := k3.2 (by omega)
      rw [k3.1, show j = (j - 1 - i) + (i + 1) by omega, pow_add, pow_succ] at k4
      have p1 : (0 : ℝ) < 1.5 ^ i * bend h s q g := mul_pos (by positivity) hb
      have p2 : (1 : ℝ) ≤ 1.5 ^ (j - 1 - i) := one_le_pow₀ (by norm_num)
      nlinarith

/-- **C71.** Where the loss bends too little or too much, gradient descent returns `Err(SearchFailed)` without one accepted step
(unless it stops before its first line search). -/
theorem C71_gd_fails (hn : s.cells.Nodup) (hc : Closed ⟨h, s⟩) (hf : FiniteSketch h s) (hl : ∀ k ∈ s.cons, IsLinear (h.cons k))
    {q g : Fin (getNDofs h s) → ℝ} (hq : getData h s = vec q) {h1 : Heap XR} (hg : getGradient h s = .ok (vec g, h1)) (h0 : g ≠ 0)
    (hb : bend h s q g * 1.5 ^ 14 < 0.1 ∨ 1.9998 * 2 ^ 14 < bend h s q g) (p : GDParams XR) (hp : 0 < p.maxIterations)
    (h2 : (normL (vec g) <. p.minGrad) = false) (h3 : (getLoss h s <. p.minLoss) = false) :
    (gdSolve p h s).res = .err .searchFailed ∧ (gdSolve p h s).steps = [] := by
  obtain ⟨H, e⟩ := (C71_search hn hc hf hl hq hg h0).2.2 hb
  have hgl := (getGradient_frame hg).getLoss s
  unfold gdSolve
  rw [hg]
  dsimp only
  obtain ⟨k, ek⟩ : ∃ k, p.maxIterations = k + 1 := ⟨_, (Nat.succ_pred_eq_of_pos hp).symm⟩
  rw [ek, gdLoop, hgl, h2, h3]
  simp only [e]
  exact ⟨rfl, rfl⟩

/-- How much the loss bends on the way from `q` to `q + d`: twice by how much the loss at `q + d` exceeds its linear approximation at
`q` (for `g` the gradient), divided by the slope. -/
noncomputable def bendAlong (h : Heap XR) (s : Sketch) (q g d : Fin (getNDofs h s) → ℝ) : ℝ :=
  2 * (lossAfter h s (q + d) - lossAfter h s q - g ⬝ᵥ d) / -(g ⬝ᵥ d)

theorem LinAt.bendAlong_eq {m : Nat} {R : Matrix (Fin m) (Fin (getNDofs h s)) ℝ} {b : Fin m → ℝ} (l : LinAt h s R b)
    {q g : Fin (getNDofs h s) → ℝ} (d : Fin (getNDofs h s) → ℝ) (eg : g = quadGrad R b q) :
    bendAlong h s q g d = (R *ᵥ d) ⬝ᵥ (R *ᵥ d) / -(g ⬝ᵥ d) := by
  unfold bendAlong
  rw [l.lossAfter, l.lossAfter, quad_add, ← eg]
  congr 1
  ring

/-- **C71.** The line search of a linear sketch in any direction `d` (BFGS calls it with other directions than the negative
gradient): it returns `NotDescentDirection` exactly if the loss does not decrease along `d`.  Otherwise it finds a step exactly if the
loss bends along `d` neither too little nor too much; the product of step and bend is then between 0.1 and 1.9998. -/
theorem C71_direction (hn : s.cells.Nodup) (hc : Closed ⟨h, s⟩) (hf : FiniteSketch h s) (hl : ∀ k ∈ s.cons, IsLinear (h.cons k))
    {q g : Fin (getNDofs h s) → ℝ} (hq : getData h s = vec q) {h1 : Heap XR} (hg : getGradient h s = .ok (vec g, h1))
    (d : Fin (getNDofs h s) → ℝ) :
    (g ⬝ᵥ d < 0 ∨ (lineSearch h1 s (vec d) (vec g)).1 = .notDescent) ∧
    (g ⬝ᵥ d < 0 →
      (0.1 ≤ bendAlong h s q g d * 1.5 ^ 14 ∧ bendAlong h s q g d ≤ 1.9998 * 2 ^ 14 ∧
        ∃ a, (lineSearch h1 s (vec d) (vec g)).1 = .ok (fin a) ∧ 0.1 ≤ a * bendAlong h s q g d ∧ a * bendAlong h s q g d ≤ 1.9998) ∨
      ((bendAlong h s q g d * 1.5 ^ 14 < 0.1 ∨ 1.9998 * 2 ^ 14 < bendAlong h s q g d) ∧
        (lineSearch h1 s (vec d) (vec g)).1 = .searchFailed)) := by
  obtain ⟨m, R, b, l, eg, r1, e1⟩ := linAt_gradient hn hc hf hl hq hg
  refine ⟨or_iff_not_imp_left.2 fun hd => ?_, fun hd => ?_⟩
  · unfold lineSearch
    dsimp only
    rw [dotV_vec, if_pos]
    rw [zero_lit]
    simpa [ge] using not_lt.1 hd
  · obtain ⟨H, -, e⟩ := l.searchDir q d (by rw [← eg]; exact hd) h1 r1 e1
    rw [← eg, ← l.bendAlong_eq d eg] at e
    rw [e]
    have hb : 0 ≤ bendAlong h s q g d := by
      rw [l.bendAlong_eq d eg]
      exact div_nonneg (dot_self_nonneg _) (by linarith)
    rcases hb.eq_or_lt with h0 | h0
    · rw [← h0]
      refine .inr ⟨.inl (by norm_num), ?_⟩
      have : ∀ n a, trials 0 n a = none := by
        intro n
        induction n with
        | zero => exact fun _ => rfl
        | succ n ih => intro a; rw [trials, mul_zero, if_neg (by norm_num), if_pos (by norm_num), ih]
      rw [this]
      rfl
    · obtain ⟨t1, t2⟩ := trials_spec h0
      cases et : trials (bendAlong h s q g d) 15 1 with
      | none => exact .inr ⟨t1.1 et, rfl⟩
      | some a =>
        obtain ⟨k1, k2, -⟩ := t2 a et
        rw [et] at t1
        have : ¬(bendAlong h s q g d * 1.5 ^ 14 < 0.1 ∨ 1.9998 * 2 ^ 14 < bendAlong h s q g d) := fun hh => absurd (t1.2 hh) (by simp)
        rw [not_or, not_lt, not_lt] at this
        exact .inl ⟨this.1, this.2, a, rfl, k1, k2⟩

/-! ## C72 -/

/-- The loss of the sketch is squeezed between two parabolas around its solutions: everywhere there is a solution near enough that
twice the loss is at least `mu` times the squared distance, and at most `M` times the squared distance from any solution. -/
structure Squeezed (h : Heap XR) (s : Sketch) (mu M : ℝ) : Prop where
  low : ∀ v, ∃ v0, lossAfter h s v0 = 0 ∧ mu * ((v - v0) ⬝ᵥ (v - v0)) ≤ 2 * lossAfter h s v
  high : ∀ v v0, lossAfter h s v0 = 0 → 2 * lossAfter h s v ≤ M * ((v - v0) ⬝ᵥ (v - v0))

theorem Squeezed.wellPosed {m : Nat} {R : Matrix (Fin m) (Fin (getNDofs h s)) ℝ} {b : Fin m → ℝ} (l : LinAt h s R b) {mu M : ℝ}
    (w : Squeezed h s mu M) : WellPosed R b mu M := by
  have z : ∀ v, lossAfter h s v = 0 → R *ᵥ v = b := by
    intro v hv
    rw [l.lossAfter] at hv
    unfold quad at hv
    have := dotProduct_self_eq_zero.1 ((div_eq_zero_iff.1 hv).resolve_right (by norm_num))
    exact sub_eq_zero.1 this
  refine ⟨fun v => ?_, fun g => ?_⟩
  · obtain ⟨v0, e0, hh⟩ := w.low v
    rw [l.lossAfter v] at hh
    exact ⟨v0, z _ e0, hh⟩
  · obtain ⟨v0, e0, -⟩ := w.low 0
    have := w.high (v0 + g) v0 e0
    rw [add_sub_cancel_left, l.lossAfter] at this
    unfold quad at this
    rw [mulVec_add, z _ e0, add_sub_cancel_left] at this
    linarith

/-- **C72.** Gradient descent on a linear sketch whose loss is squeezed between two parabolas, from any finite start: it returns
`Ok`, every step reduces the loss at least by the factor `1 - 3.9996e-4 · mu / M`, and if it stops before `max_iterations` steps,
then either the loss is below `min_loss` or it is below `min_grad² / (2 mu)`. -/
theorem C72_converges (hn : s.cells.Nodup) (hc : Closed ⟨h, s⟩) (hf : FiniteSketch h s) (hl : ∀ k ∈ s.cons, IsLinear (h.cons k))
    {mu M : ℝ} (w : Squeezed h s mu M) (lo : 0.1 ≤ mu * 1.5 ^ 14) (hi : M ≤ 1.9998 * 2 ^ 14) (hM' : mu ≤ M)
    (n : Nat) {ml mg : ℝ} (hmg : 0 < mg) :
    ∃ L0 L1 : ℝ, getLoss h s = fin L0 ∧
      (gdSolve ⟨n, fin ml, fin mg⟩ h s).res = .ok ∧
      getLoss (gdSolve ⟨n, fin ml, fin mg⟩ h s).heap s = fin L1 ∧ 0 ≤ L1 ∧
      (gdSolve ⟨n, fin ml, fin mg⟩ h s).steps.length ≤ n ∧
      L1 ≤ (1 - 3.9996e-4 * (mu / M)) ^ (gdSolve ⟨n, fin ml, fin mg⟩ h s).steps.length * L0 ∧
      ((gdSolve ⟨n, fin ml, fin mg⟩ h s).steps.length < n → L1 < ml ∨ 2 * mu * L1 < mg ^ 2) := by
  obtain ⟨m, R, b, l⟩ := exists_linAt hn hc hf hl
  obtain ⟨q, hq⟩ : ∃ q : Fin (getNDofs h s) → ℝ, getData h s = vec q := exists_vec' (List.all_eq_true.2 hf.1) (getData_length h s)
  obtain ⟨e0, h1, g1, e1⟩ := l.at (SameRefs.refl h) hq
  have hmu : 0 < mu := by
    by_contra hh
    have : mu * 1.5 ^ 14 ≤ 0 := mul_nonpos_of_nonpos_of_nonneg (not_lt.1 hh) (by positivity)
    linarith
  have hM : 0 < M := lt_of_lt_of_le hmu hM'
  have key := l.gdLoop (w.wellPosed l) hmu hM lo hi ⟨n, fin ml, fin mg⟩ rfl rfl hmg n h1 g1.1 q (by rw [g1.getData, hq])
  unfold gdSolve
  rw [e1]
  dsimp only at key ⊢
  obtain ⟨i1, i2, x', i3, i4, i5, i6⟩ := key
  refine ⟨quad R b q, quad R b x', e0, i1, (l.at i3 i4).1, quad_nonneg _ _ _, i2, i5, fun hh => ?_⟩
  rcases i6 hh with k | k
  · exact .inl k
  · right
    have b1 := ((w.wellPosed l).bounds hmu x').1
    have := (Real.sqrt_lt' hmg).1 k
    linarith

/-- **C72.** With enough iterations the loss gets below `min_loss` or below `min_grad² / (2 mu)`. -/
theorem C72_enough (hn : s.cells.Nodup) (hc : Closed ⟨h, s⟩) (hf : FiniteSketch h s) (hl : ∀ k ∈ s.cons, IsLinear (h.cons k))
    {mu M : ℝ} (w : Squeezed h s mu M) (lo : 0.1 ≤ mu * 1.5 ^ 14) (hi : M ≤ 1.9998 * 2 ^ 14) (hM' : mu ≤ M)
    {ml mg : ℝ} (hml : 0 < ml) (hmg : 0 < mg) :
    ∃ N, ∀ n ≥ N, (gdSolve ⟨n, fin ml, fin mg⟩ h s).res = .ok ∧
      ∃ L1 : ℝ, getLoss (gdSolve ⟨n, fin ml, fin mg⟩ h s).heap s = fin L1 ∧ (L1 < ml ∨ 2 * mu * L1 < mg ^ 2) := by
  have hmu : 0 < mu := by
    by_contra hh
    have : mu * 1.5 ^ 14 ≤ 0 := mul_nonpos_of_nonpos_of_nonneg (not_lt.1 hh) (by positivity)
    linarith
  have hM : 0 < M := lt_of_lt_of_le hmu hM'
  obtain ⟨L0, -, e0, -⟩ := C72_converges hn hc hf hl w lo hi hM' 0 hmg (ml := ml)
  set rho := 1 - 3.9996e-4 * (mu / M) with er
  have hr1 : rho < 1 := by
    have : 0 < mu / M := div_pos hmu hM
    linarith
  have hr0 : 0 ≤ rho := by
    have : mu / M ≤ 1 := (div_le_one hM).2 hM'
    linarith
  have ht : Filter.Tendsto (fun n : ℕ => rho ^ n * L0) Filter.atTop (nhds (0 * L0)) :=
    (tendsto_pow_atTop_nhds_zero_of_lt_one hr0 hr1).mul_const L0
  rw [zero_mul] at ht
  obtain ⟨N, hN⟩ := Filter.eventually_atTop.1 (ht.eventually (gt_mem_nhds hml))
  refine ⟨N, fun n hnN => ?_⟩
  obtain ⟨L0', L1, e0', i1, i2, -, i3, i4, i5⟩ := C72_converges hn hc hf hl w lo hi hM' n hmg (ml := ml)
  rw [e0] at e0'
  cases e0'
  refine ⟨i1, L1, i2, ?_⟩
  rcases i3.lt_or_eq with k | k
  · exact i5 k
  · left
    rw [k] at i4
    exact lt_of_le_of_lt i4 (hN n hnN)

/-- C71: a point at the origin that is to be at (3, 4).  The gradient is not zero and the bend is 1, so the first step is accepted. -/
example : ∃ (q g : Fin (getNDofs (fixHeap 3 4 0 0 0 0) fixSketch) → ℝ) (h1 : Heap XR),
    Closed ⟨fixHeap 3 4 0 0 0 0, fixSketch⟩ ∧ FiniteSketch (fixHeap 3 4 0 0 0 0) fixSketch ∧
    (∀ k ∈ fixSketch.cons, IsLinear ((fixHeap 3 4 0 0 0 0).cons k)) ∧
    getData (fixHeap 3 4 0 0 0 0) fixSketch = vec q ∧ getGradient (fixHeap 3 4 0 0 0 0) fixSketch = .ok (vec g, h1) ∧ g ≠ 0 ∧
    bend (fixHeap 3 4 0 0 0 0) fixSketch q g = 1 := by
  have en : getNDofs (fixHeap 3 4 0 0 0 0) fixSketch = 2 := by rw [← getData_length, fix_data]; rfl
  have key : ∀ n, n = 2 → ∃ q g : Fin n → ℝ, [fin 0, fin 0] = vec q ∧ [fin (0 - 3), fin (0 - 4)] = vec g ∧ g ≠ 0 ∧ g ⬝ᵥ g = 25 ∧
      vec (q - g) = [fin 3, fin 4] := by
    rintro n rfl
    refine ⟨![0, 0], ![-3, -4], by simp [vec], by simp [vec], ?_, ?_, by simp [vec]⟩
    · intro e; have := congrFun e 0; simp at this
    · simp [dotProduct, Fin.sum_univ_two]; norm_num
  obtain ⟨q, g, e1, e2, e3, e4, e5⟩ := key _ en
  have hd := fix_data 3 4 0 0 0 0
  have hg := fix_gradient 3 4 0 0 0 0
  rw [e1] at hd
  rw [e2] at hg
  refine ⟨q, g, _, ?_, ?_, ?_, hd, hg, e3, ?_⟩
  · simp [Closed, fixSketch, fixHeap, Sketch.cells, primFields, consFields, upd]
  · exact ⟨by rw [fix_data]; simp, by simp [fixSketch, fixHeap, consParams, upd]⟩
  · intro k hk
    have : k = 0 := by simpa [fixSketch] using hk
    subst this
    exact .inl trivial
  · have l1 : lossAfter (fixHeap 3 4 0 0 0 0) fixSketch (q - g) = 0 := by
      unfold lossAfter
      change (match setData (fixHeap 3 4 0 0 0 0) fixSketch (vec (q - g)) with | .ok h' => (getLoss h' fixSketch).toReal | .error _ => 0) = 0
      rw [e5, fix_setData]
      dsimp only
      rw [fix_loss]
      simp
    have l2 : lossAfter (fixHeap 3 4 0 0 0 0) fixSketch q = 25 / 2 := by
      unfold lossAfter
      change (match setData (fixHeap 3 4 0 0 0 0) fixSketch (vec q) with | .ok h' => (getLoss h' fixSketch).toReal | .error _ => 0) = _
      rw [← e1, fix_setData]
      dsimp only
      rw [fix_loss, toReal_fin]
      norm_num
    unfold bend
    rw [l1, l2, e4]
    norm_num

end Isotope
