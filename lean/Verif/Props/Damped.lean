import Verif.Props.Cut

/-!
# The speed of Levenberg-Marquardt (C76)
-/

namespace Isotope
open XR
open Matrix

variable {h : Heap XR} {s : Sketch}

/-! ## The sequence of errors -/

/-- one step of the sequence of errors -/
theorem damped_step {e σ β : ℝ} (hβ : 0 < β) (hσ : 0 < σ) (hσ2 : σ < 2) (he : e ≠ 0) :
    e - σ * (e ^ 3 / (2 * e ^ 2 + β)) ≠ 0 ∧
    ((e - σ * (e ^ 3 / (2 * e ^ 2 + β))) ^ 2)⁻¹ ≤ (e ^ 2)⁻¹ + σ * (2 - σ / 2) / (β * (1 - σ / 2) ^ 2) ∧
    (e ^ 2)⁻¹ + 2 * σ / (2 * e ^ 2 + β) ≤ ((e - σ * (e ^ 3 / (2 * e ^ 2 + β))) ^ 2)⁻¹ ∧
    (e - σ * (e ^ 3 / (2 * e ^ 2 + β))) ^ 2 ≤ e ^ 2 := by
  have hsq : 0 < e ^ 2 := by positivity
  have hd : 0 < 2 * e ^ 2 + β := by positivity
  set t := σ * e ^ 2 / (2 * e ^ 2 + β) with ht
  have ht0 : 0 < t := by positivity
  have ht1 : t < σ / 2 := by
    rw [ht, div_lt_iff₀ hd]
    nlinarith [mul_pos hσ hβ]
  have e1 : e - σ * (e ^ 3 / (2 * e ^ 2 + β)) = e * (1 - t) := by rw [ht]; field_simp
  have hu : (e ^ 2)⁻¹ * t = σ / (2 * e ^ 2 + β) := by rw [ht]; field_simp
  have hu2 : (e ^ 2)⁻¹ * t ≤ σ / β := by
    rw [hu]
    exact div_le_div_of_nonneg_left hσ.le hβ (by linarith)
  have h1t : 0 < 1 - t := by linarith
  have h1σ : 0 < 1 - σ / 2 := by linarith
  have hui : 0 < (e ^ 2)⁻¹ := by positivity
  rw [e1, mul_pow, mul_inv]
  have hup : ((1 - t) ^ 2)⁻¹ ≤ 1 + (2 - σ / 2) / (1 - σ / 2) ^ 2 * t := by
    have ha : (2 - t) / (1 - t) ^ 2 ≤ (2 - σ / 2) / (1 - σ / 2) ^ 2 := by
      rw [div_le_div_iff₀ (by positivity) (by positivity)]
      have h3 : 0 < σ / 2 - t := by linarith
      nlinarith [mul_pos h3 h1t, mul_pos h3 h1σ, mul_pos (mul_pos h3 h1t) h1σ]
    have hb : ((1 - t) ^ 2)⁻¹ = 1 + (2 - t) / (1 - t) ^ 2 * t := by field_simp; ring
    rw [hb]
    have := mul_le_mul_of_nonneg_right ha ht0.le
    linarith
  have hlo : 1 + 2 * t ≤ ((1 - t) ^ 2)⁻¹ := by
    have hb : ((1 - t) ^ 2)⁻¹ = 1 + (2 - t) / (1 - t) ^ 2 * t := by field_simp; ring
    have ha : 2 ≤ (2 - t) / (1 - t) ^ 2 := by
      rw [le_div_iff₀ (by positivity)]
      nlinarith
    rw [hb]
    have := mul_le_mul_of_nonneg_right ha ht0.le
    linarith
  refine ⟨mul_ne_zero he h1t.ne', ?_, ?_, ?_⟩
  · have h2 := mul_le_mul_of_nonneg_left hup hui.le
    have hc : 0 ≤ (2 - σ / 2) / (1 - σ / 2) ^ 2 := by
      have : 0 < 2 - σ / 2 := by linarith
      positivity
    have h3 := mul_le_mul_of_nonneg_left hu2 hc
    have h4 : (2 - σ / 2) / (1 - σ / 2) ^ 2 * (σ / β) = σ * (2 - σ / 2) / (β * (1 - σ / 2) ^ 2) := by field_simp
    rw [h4] at h3
    linarith
  · have h2 := mul_le_mul_of_nonneg_left hlo hui.le
    have h4 : 2 * σ / (2 * e ^ 2 + β) = 2 * ((e ^ 2)⁻¹ * t) := by rw [hu]; ring
    rw [h4]
    linarith
  · have : (1 - t) ^ 2 ≤ 1 := by nlinarith
    nlinarith

/-! ## Steps and runs -/

/-- **C76.** On constraints on pairwise different coordinates a Levenberg-Marquardt step with step size `σ` and damping `β`
(above `pseudo_inverse_eps`) changes every error `e` to `(1 - σe²/(2e² + β)) e`. -/
theorem C76_step {pinv : PInv XR} (hp : RealPInv pinv) (hcut : CutPInv pinv) (p : LMParams XR) (hn : s.cells.Nodup)
    (hc : Closed ⟨h, s⟩) (hf : FiniteSketch h s) (hi : DisjointDiffs h s) (σ ε β : ℝ) (hσ : p.stepSize = fin σ)
    (hε : p.pinvEps = fin ε) (hβ : p.beta = fin β) (hε0 : 0 ≤ ε) (hεβ : ε < β) :
    ∀ r ∈ (lmSolve pinv p h s).steps, ∀ k ∈ s.cons,
      diffError r.post (h.cons k) = (1 - σ * diffError r.pre (h.cons k) ^ 2 / (2 * diffError r.pre (h.cons k) ^ 2 + β)) *
        diffError r.pre (h.cons k) := by
  intro r hr k hk
  unfold lmSolve at hr
  rw [hσ, hε, hβ] at hr
  have := newtonStep_damped hcut hε0 (hε0.trans hεβ.le) hn hc hi (newtonLoop_steps hn hc hp p.minLoss (fin ε) σ (lmNormal (fin β))
    (fun J => Jᵀ * J + β • 1) (fun J => lmNormal_mat β J) _ _ h (.refl h) hf r hr) k hk
  rw [this, if_pos (by have := sq_nonneg (diffError r.pre (h.cons k)); linarith)]
  ring

theorem lm_step_finite {pinv : PInv XR} (hp : RealPInv pinv) (p : LMParams XR) (hn : s.cells.Nodup) (hc : Closed ⟨h, s⟩)
    (hf : FiniteSketch h s) (σ β : ℝ) (hσ : p.stepSize = fin σ) (hβ : p.beta = fin β) :
    ∀ r ∈ (lmSolve pinv p h s).steps, SameRefs h r.pre ∧ FiniteSketch r.pre s ∧ SameRefs h r.post ∧ FiniteSketch r.post s := by
  intro r hr
  unfold lmSolve at hr
  rw [hσ, hβ] at hr
  obtain ⟨J, P, x, l, h', r1, f1, r2, f2, -⟩ := newtonLoop_steps hn hc hp p.minLoss p.pinvEps σ (lmNormal (fin β))
    (fun J => Jᵀ * J + β • 1) (fun J => lmNormal_mat β J) _ _ h (.refl h) hf r hr
  exact ⟨r1, f1, r2, f2⟩

theorem lm_end_finite {pinv : PInv XR} (hp : RealPInv pinv) (p : LMParams XR) (hn : s.cells.Nodup) (hc : Closed ⟨h, s⟩)
    (hf : FiniteSketch h s) (σ β : ℝ) (hσ : p.stepSize = fin σ) (hβ : p.beta = fin β)
    (hok : (lmSolve pinv p h s).res ≠ .panic) :
    SameRefs h (lmSolve pinv p h s).heap ∧ FiniteSketch (lmSolve pinv p h s).heap s := by
  have hs := lm_step_finite hp p hn hc hf σ β hσ hβ
  refine (leads_inv (Q := fun a => SameRefs h a ∧ FiniteSketch a s) ?_ _ _ (C34_lm_leads pinv p h s hok) ⟨.refl h, hf⟩
    fun r hr _ => ⟨(hs r hr).2.2.1, (hs r hr).2.2.2⟩).1
  intro a b g ⟨q1, q2⟩
  refine ⟨q1.trans g.1, ?_, ?_⟩
  · rw [g.getData]; exact q2.1
  · rw [g.1.cons]; exact q2.2

/-- the errors along a run -/
theorem lm_errors {σ β : ℝ} (hβ : 0 < β) (hσ0 : 0 < σ) (hσ2 : σ < 2) {c : Constraint XR} {hE : Heap XR}
    (steps : List (StepRec XR)) (h1 : Heap XR) (hl : Leads h1 steps hE)
    (hs : ∀ r ∈ steps, diffError r.post c =
      (1 - σ * diffError r.pre c ^ 2 / (2 * diffError r.pre c ^ 2 + β)) * diffError r.pre c)
    (h0 : diffError h1 c ≠ 0) :
    diffError hE c ≠ 0 ∧
    (diffError hE c ^ 2)⁻¹ ≤ (diffError h1 c ^ 2)⁻¹ + steps.length * (σ * (2 - σ / 2) / (β * (1 - σ / 2) ^ 2)) ∧
    (diffError h1 c ^ 2)⁻¹ + steps.length * (2 * σ / (2 * diffError h1 c ^ 2 + β)) ≤ (diffError hE c ^ 2)⁻¹ ∧
    (∀ r ∈ steps, diffError r.pre c ≠ 0 ∧ (diffError r.pre c ^ 2)⁻¹ ≤ (diffError hE c ^ 2)⁻¹) := by
  induction steps generalizing h1 with
  | nil =>
    have e := diffError_gradOnly hl c
    rw [e]
    exact ⟨h0, by simp, by simp, by simp⟩
  | cons r rs ih =>
    have e := diffError_gradOnly hl.1 c
    have e1 := hs r (by simp)
    rw [e] at e1
    have e2 : (1 - σ * diffError h1 c ^ 2 / (2 * diffError h1 c ^ 2 + β)) * diffError h1 c =
        diffError h1 c - σ * (diffError h1 c ^ 3 / (2 * diffError h1 c ^ 2 + β)) := by ring
    rw [e2] at e1
    obtain ⟨a1, a2, a3, a4⟩ := damped_step hβ hσ0 hσ2 h0
    rw [← e1] at a1 a2 a3 a4
    obtain ⟨b1, b2, b3, b4⟩ := ih r.post hl.2 (fun r hr => hs r (by simp [hr])) a1
    have hsq : 0 < diffError h1 c ^ 2 := by positivity
    have hsq' : 0 < diffError r.post c ^ 2 := by positivity
    have hlen : (0 : ℝ) ≤ rs.length := Nat.cast_nonneg _
    have hmono : 2 * σ / (2 * diffError h1 c ^ 2 + β) ≤ 2 * σ / (2 * diffError r.post c ^ 2 + β) :=
      div_le_div_of_nonneg_left (by positivity) (by positivity) (by linarith)
    have hm2 := mul_le_mul_of_nonneg_left hmono hlen
    have hpos : 0 ≤ 2 * σ / (2 * diffError r.post c ^ 2 + β) := by positivity
    have hpos1 : 0 ≤ 2 * σ / (2 * diffError h1 c ^ 2 + β) := by positivity
    have hpos2 := mul_nonneg hlen hpos
    simp only [List.length_cons, Nat.cast_add, Nat.cast_one]
    refine ⟨b1, by linarith, by linarith, fun r' hr' => ?_⟩
    rcases List.mem_cons.1 hr' with rfl | hr'
    · rw [e]
      exact ⟨h0, by linarith⟩
    · exact b4 r' hr'

/-- **C76.** After `K` steps of Levenberg-Marquardt an error `e` that is not 0 satisfies
`1/e₀² + K 2σ/(2e₀² + β) ≤ 1/e² ≤ 1/e₀² + K σ(2 - σ/2)/(β(1 - σ/2)²)`: the error shrinks like `1/√K` only. -/
theorem C76_run {pinv : PInv XR} (hp : RealPInv pinv) (hcut : CutPInv pinv) (p : LMParams XR) (hn : s.cells.Nodup)
    (hc : Closed ⟨h, s⟩) (hf : FiniteSketch h s) (hi : DisjointDiffs h s) (σ ε β : ℝ) (hσ : p.stepSize = fin σ)
    (hε : p.pinvEps = fin ε) (hβ : p.beta = fin β) (hε0 : 0 ≤ ε) (hεβ : ε < β) (hσ0 : 0 < σ) (hσ2 : σ < 2)
    (hok : (lmSolve pinv p h s).res ≠ .panic) (k : Nat) (hk : k ∈ s.cons) (h0 : diffError h (h.cons k) ≠ 0) :
    diffError (lmSolve pinv p h s).heap (h.cons k) ≠ 0 ∧
    (diffError (lmSolve pinv p h s).heap (h.cons k) ^ 2)⁻¹ ≤ (diffError h (h.cons k) ^ 2)⁻¹ +
      (lmSolve pinv p h s).steps.length * (σ * (2 - σ / 2) / (β * (1 - σ / 2) ^ 2)) ∧
    (diffError h (h.cons k) ^ 2)⁻¹ + (lmSolve pinv p h s).steps.length * (2 * σ / (2 * diffError h (h.cons k) ^ 2 + β)) ≤
      (diffError (lmSolve pinv p h s).heap (h.cons k) ^ 2)⁻¹ := by
  have hs := C76_step hp hcut p hn hc hf hi σ ε β hσ hε hβ hε0 hεβ
  obtain ⟨a, b, c, -⟩ := lm_errors (lt_of_le_of_lt hε0 hεβ) hσ0 hσ2 _ _ (C34_lm_leads pinv p h s hok)
    (fun r hr => hs r hr k hk) h0
  exact ⟨a, b, c⟩

theorem lm_diffs_ok {pinv : PInv XR} (hg : GoodPInv pinv) (p : LMParams XR) (hn : s.cells.Nodup) (hc : Closed ⟨h, s⟩)
    (hf : FiniteSketch h s) (hi : DisjointDiffs h s) (hne : s.cons ≠ []) (σ β : ℝ) (hσ : p.stepSize = fin σ)
    (hβ : p.beta = fin β) : (lmSolve pinv p h s).res = .ok := by
  obtain ⟨k0, hk0⟩ := List.exists_mem_of_ne_nil _ hne
  have hpos : 0 < getNDofs h s := by
    have := (diffDofs_mem hc hk0 (hi.1 k0 hk0).1).1
    rw [← dofs_length]
    exact List.length_pos_of_mem this
  exact C34_lm_ok hg p hn hc hf σ β hσ hβ hpos (by
    intro k hk l m e
    have := (hi.1 k hk).1
    rw [e] at this
    exact this)

/-- **C76.** With default parameters Levenberg-Marquardt solves such a sketch only if it was solved from the start: a single
error of 1.42e-5 (the solver's `min_loss` of 1e-10 amounts to an error of 1.4142e-5) is enough to let it use all its 1000
iterations and return `Ok` with a loss above `min_loss`. -/
theorem C76_default_fails {pinv : PInv XR} (hp : RealPInv pinv) (hg : GoodPInv pinv) (hcut : CutPInv pinv)
    (hn : s.cells.Nodup) (hc : Closed ⟨h, s⟩) (hf : FiniteSketch h s) (hi : DisjointDiffs h s) (k : Nat) (hk : k ∈ s.cons)
    (h0 : 1.42e-5 ≤ |diffError h (h.cons k)|) :
    (lmSolve pinv .default h s).res = .ok ∧ (lmSolve pinv .default h s).steps.length = 1000 ∧
    ∃ L : ℝ, getLoss (lmSolve pinv .default h s).heap s = fin L ∧ (LMParams.default : LMParams XR).minLoss = fin 1e-10 ∧
      1e-10 < L := by
  have hσ : (LMParams.default : LMParams XR).stepSize = fin 1e-1 := by simp only [LMParams.default, sci]
  have hβ : (LMParams.default : LMParams XR).beta = fin 1e-5 := by simp only [LMParams.default, sci]
  have hε : (LMParams.default : LMParams XR).pinvEps = fin 1e-6 := by simp only [LMParams.default, sci]
  have hml : (LMParams.default : LMParams XR).minLoss = fin 1e-10 := by simp only [LMParams.default, sci]
  have hok := lm_diffs_ok hg .default hn hc hf hi (List.ne_nil_of_mem hk) _ _ hσ hβ
  have hnp : (lmSolve pinv .default h s).res ≠ .panic := by rw [hok]; simp
  have hs := C76_step hp hcut .default hn hc hf hi _ _ _ hσ hε hβ (by norm_num) (by norm_num)
  have hl := C34_lm_leads pinv .default h s hnp
  have hstop := C34_lm_stop pinv .default h s hok
  have hlen : (lmSolve pinv .default h s).steps.length ≤ 1000 := C34_lm_terminates pinv .default h s
  have hfin := lm_step_finite hp .default hn hc hf _ _ hσ hβ
  obtain ⟨rE, fE⟩ := lm_end_finite hp .default hn hc hf _ _ hσ hβ hnp
  have hsq := pow_le_pow_left₀ (by norm_num) h0 2
  rw [sq_abs] at hsq
  have hne : diffError h (h.cons k) ≠ 0 := by
    intro q; rw [q] at hsq; norm_num at hsq
  obtain ⟨a, b, -, d⟩ := lm_errors (by norm_num) (by norm_num) (by norm_num) _ _ hl (fun r hr => hs r hr k hk) hne
  have hu : (diffError (lmSolve pinv .default h s).heap (h.cons k) ^ 2)⁻¹ < 5e9 := by
    have h1 : (diffError h (h.cons k) ^ 2)⁻¹ ≤ ((1.42e-5 : ℝ) ^ 2)⁻¹ := inv_anti₀ (by norm_num) hsq
    have h2 : ((lmSolve pinv .default h s).steps.length : ℝ) ≤ 1000 := by exact_mod_cast hlen
    have h3 : (1e-1 * (2 - 1e-1 / 2) / (1e-5 * (1 - 1e-1 / 2) ^ 2) : ℝ) ≤ 21607 := by norm_num
    have h3' : (0 : ℝ) < (1e-1 * (2 - 1e-1 / 2) / (1e-5 * (1 - 1e-1 / 2) ^ 2) : ℝ) := by norm_num
    have h4 : ((1.42e-5 : ℝ) ^ 2)⁻¹ + 1000 * 21607 < 5e9 := by norm_num
    nlinarith
  have hbig : ∀ a, SameRefs h a → FiniteSketch a s → diffError a (h.cons k) ≠ 0 → (diffError a (h.cons k) ^ 2)⁻¹ < 5e9 →
      ∃ L : ℝ, getLoss a s = fin L ∧ 1e-10 < L := by
    intro a ra fa q0 q
    refine ⟨_, diffs_loss hc (fun k hk => (hi.1 k hk).1) ra fa, ?_⟩
    have hle : diffError a (h.cons k) ^ 2 / 2 ≤ (s.cons.map (fun k => diffError a (h.cons k) ^ 2 / 2)).sum := by
      refine List.single_le_sum ?_ _ (List.mem_map_of_mem (f := fun k => diffError a (h.cons k) ^ 2 / 2) hk)
      intro x hx
      obtain ⟨k', -, rfl⟩ := List.mem_map.1 hx
      positivity
    have hp2 : 0 < diffError a (h.cons k) ^ 2 := by positivity
    have : (5e9 : ℝ)⁻¹ < diffError a (h.cons k) ^ 2 := inv_lt_of_inv_lt₀ hp2 q
    have h5 : (5e9 : ℝ)⁻¹ = 2e-10 := by norm_num
    rw [h5] at this
    have : (1e-10 : ℝ) < diffError a (h.cons k) ^ 2 / 2 := by linarith
    linarith
  obtain ⟨L, eL, hL⟩ := hbig _ rE fE a hu
  refine ⟨hok, ?_, L, eL, hml, hL⟩
  rcases hstop with ⟨-, q⟩ | q | ⟨r, hr, q⟩
  · rw [hml] at q
    have q2 : (fin 1e-10 <. (pinf : XR)) = true := rfl
    exact absurd (q2.symm.trans q) (by simp)
  · exact q
  · exfalso
    have hm := List.mem_of_getLast? hr
    obtain ⟨L, eL, hL⟩ := hbig _ (hfin r hm).1 (hfin r hm).2.1 (d r hm).1 (lt_of_le_of_lt (d r hm).2 hu)
    rw [sumL_losses, eL, hml] at q
    simp [hL] at q

/-- **C76.** It does get there, slowly: with `max_iterations` at least `N (2E² + β) / (4 σ min_loss)` for `N` constraints with
errors up to `E`, the loss ends at most at `min_loss`. -/
theorem C76_enough {pinv : PInv XR} (hp : RealPInv pinv) (hg : GoodPInv pinv) (hcut : CutPInv pinv) (p : LMParams XR)
    (hn : s.cells.Nodup) (hc : Closed ⟨h, s⟩) (hf : FiniteSketch h s) (hi : DisjointDiffs h s) (hne : s.cons ≠ [])
    (σ ε β ml E : ℝ) (hσ : p.stepSize = fin σ) (hε : p.pinvEps = fin ε) (hβ : p.beta = fin β) (hml : p.minLoss = fin ml)
    (hε0 : 0 ≤ ε) (hεβ : ε < β) (hσ0 : 0 < σ) (hσ2 : σ < 2) (hml0 : 0 < ml)
    (hE : ∀ k ∈ s.cons, |diffError h (h.cons k)| ≤ E)
    (hit : s.cons.length * (2 * E ^ 2 + β) / (4 * σ * ml) ≤ p.maxIterations) :
    (lmSolve pinv p h s).res = .ok ∧ ∃ L : ℝ, getLoss (lmSolve pinv p h s).heap s = fin L ∧ L ≤ ml := by
  have hok := lm_diffs_ok hg p hn hc hf hi hne _ _ hσ hβ
  have hnp : (lmSolve pinv p h s).res ≠ .panic := by rw [hok]; simp
  have hβ0 : 0 < β := lt_of_le_of_lt hε0 hεβ
  have hs := C76_step hp hcut p hn hc hf hi σ ε β hσ hε hβ hε0 hεβ
  have hl := C34_lm_leads pinv p h s hnp
  have hstop := C34_lm_stop pinv p h s hok
  have hfin := lm_step_finite hp p hn hc hf σ β hσ hβ
  obtain ⟨rE, fE⟩ := lm_end_finite hp p hn hc hf σ β hσ hβ hnp
  refine ⟨hok, _, diffs_loss hc (fun k hk => (hi.1 k hk).1) rE fE, ?_⟩
  have hN : (0 : ℝ) < s.cons.length := by
    have := List.length_pos_of_ne_nil hne
    exact_mod_cast this
  rcases hstop with ⟨-, q⟩ | q | ⟨r, hr, q⟩
  · rw [hml] at q
    have q2 : (fin ml <. (pinf : XR)) = true := rfl
    exact absurd (q2.symm.trans q) (by simp)
  · have hb : ∀ k ∈ s.cons, diffError (lmSolve pinv p h s).heap (h.cons k) ^ 2 / 2 ≤ ml / s.cons.length := by
      intro k hk
      by_cases h0 : diffError h (h.cons k) = 0
      · have : diffError (lmSolve pinv p h s).heap (h.cons k) = 0 := by
          refine (leads_inv (Q := fun a => diffError a (h.cons k) = 0) (fun a b g q => by rw [diffError_gradOnly g]; exact q) _ _
            hl h0 fun r hr q => ?_).1
          rw [hs r hr k hk, q, mul_zero]
        rw [this]
        have : 0 < ml / s.cons.length := by positivity
        norm_num
        linarith
      · obtain ⟨a, -, c, -⟩ := lm_errors hβ0 hσ0 hσ2 _ _ hl (fun r hr => hs r hr k hk) h0
        rw [q] at c
        have hE2 : diffError h (h.cons k) ^ 2 ≤ E ^ 2 := by
          rw [← sq_abs]; exact pow_le_pow_left₀ (abs_nonneg _) (hE k hk) 2
        have hp2 : 0 < diffError (lmSolve pinv p h s).heap (h.cons k) ^ 2 := by positivity
        have hp0 : 0 < (diffError h (h.cons k) ^ 2)⁻¹ := by positivity
        have hm : 2 * σ / (2 * E ^ 2 + β) ≤ 2 * σ / (2 * diffError h (h.cons k) ^ 2 + β) :=
          div_le_div_of_nonneg_left (by positivity) (by positivity) (by linarith)
        have h1 : s.cons.length / (2 * ml) ≤ (p.maxIterations : ℝ) * (2 * σ / (2 * E ^ 2 + β)) := by
          have hpos : 0 < 2 * σ / (2 * E ^ 2 + β) := by positivity
          refine le_trans (le_of_eq ?_) (mul_le_mul_of_nonneg_right hit hpos.le)
          have : (2 * E ^ 2 + β) ≠ 0 := by positivity
          field_simp
          ring
        have h2 := mul_le_mul_of_nonneg_left hm (Nat.cast_nonneg (α := ℝ) p.maxIterations)
        have h3 : s.cons.length / (2 * ml) ≤ (diffError (lmSolve pinv p h s).heap (h.cons k) ^ 2)⁻¹ := by linarith
        have h4 := inv_anti₀ (by positivity) h3
        rw [inv_inv, inv_div] at h4
        have h5 : 2 * ml / (s.cons.length : ℝ) = 2 * (ml / s.cons.length) := by ring
        rw [h5] at h4
        linarith
    refine le_trans (sum_le' hb) (le_of_eq ?_)
    field_simp
  · have hm := List.mem_of_getLast? hr
    have eL := diffs_loss hc (fun k hk => (hi.1 k hk).1) (hfin r hm).1 (hfin r hm).2.1
    rw [sumL_losses, eL, hml] at q
    refine le_trans ?_ (by simpa using q)
    refine List.sum_le_sum fun k hk => ?_
    rw [diffError_gradOnly (leads_last _ _ hl r hr), hs r hm k hk]
    by_cases h0 : diffError r.pre (h.cons k) = 0
    · rw [h0]; norm_num
    · have := (damped_step hβ0 hσ0 hσ2 h0).2.2.2
      have e2 : (1 - σ * diffError r.pre (h.cons k) ^ 2 / (2 * diffError r.pre (h.cons k) ^ 2 + β)) * diffError r.pre (h.cons k) =
        diffError r.pre (h.cons k) - σ * (diffError r.pre (h.cons k) ^ 3 / (2 * diffError r.pre (h.cons k) ^ 2 + β)) := by ring
      rw [e2]
      linarith

/-! ## Examples -/

/-- C76: two points that should be 1 apart -/
example : (lmSolve cutPInv .default (rodsHeap 1 1) (rods 1)).steps.length = 1000 ∧
    ∃ L : ℝ, getLoss (lmSolve cutPInv .default (rodsHeap 1 1) (rods 1)).heap (rods 1) = fin L ∧ 1e-10 < L := by
  obtain ⟨-, a, L, eL, -, hL⟩ := C76_default_fails cutPInv_real cutPInv_good cutPInv_cut (rods_nodup 1) (rods_closed 1 1)
    (rods_finite 1 1) (rods_disjoint 1 1) 0 (by simp [rods]) (by rw [rods_error]; norm_num)
  exact ⟨a, L, eL, hL⟩

/-- C76: the same with 10^11 iterations -/
example : ∃ L : ℝ, getLoss (lmSolve cutPInv { (LMParams.default : LMParams XR) with maxIterations := 10 ^ 11 } (rodsHeap 1 1)
    (rods 1)).heap (rods 1) = fin L ∧ L ≤ 1e-10 :=
  (C76_enough cutPInv_real cutPInv_good cutPInv_cut { (LMParams.default : LMParams XR) with maxIterations := 10 ^ 11 }
    (rods_nodup 1) (rods_closed 1 1) (rods_finite 1 1) (rods_disjoint 1 1) (by simp [rods]) 1e-1 1e-6 1e-5 1e-10 1
    (by simp only [LMParams.default, sci]) (by simp only [LMParams.default, sci]) (by simp only [LMParams.default, sci])
    (by simp only [LMParams.default, sci]) (by norm_num) (by norm_num) (by norm_num) (by norm_num) (by norm_num)
    (fun k _ => by rw [rods_error]; norm_num) (by simp [rods]; norm_num)).2

end Isotope
