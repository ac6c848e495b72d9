import Verif.Lemmas.SketchResid
import Verif.Lemmas.LinearGD

/-!
# The line search and gradient descent near a solution
-/

namespace Isotope
open XR
open Matrix

open Classical in
/-- the trials of the line search: `S` is the sufficient-decrease test, `C` the curvature test -/
noncomputable def hunt (S C : ℝ → Prop) : Nat → ℝ → Option ℝ
  | 0, _ => none
  | n + 1, a => if S a then (if C a then some a else hunt S C n (a * 1.5)) else hunt S C n (a * 0.5)

section hunt
variable {S C : ℝ → Prop} {κ η T : ℝ}

theorem hunt_down (hη : η ≤ 0.01) (hS : ∀ a, 0 < a → a ≤ T → ¬S a → 1.9998 - η < a * κ) (hC : ∀ a, 0 < a → a ≤ T → ¬C a → a * κ < 0.1 + η)
    (n : Nat) (a : ℝ) (ha : 0 < a) (haT : a ≤ T) (h1 : 0.5 < a * κ) (h2 : a * κ ≤ (1.9998 - η) * 2 ^ n) :
    ∃ c, hunt S C (n + 1) a = some c ∧ 0 < c ∧ c ≤ T ∧ S c ∧ C c := by
  induction n generalizing a with
  | zero =>
    have s : S a := by
      by_contra hh
      have := hS a ha haT hh
      simp only [pow_zero, mul_one] at h2
      linarith
    have c : C a := by
      by_contra hh
      have := hC a ha haT hh
      linarith
    exact ⟨a, by rw [hunt, if_pos s, if_pos c], ha, haT, s, c⟩
  | succ n ih =>
    have c : C a := by
      by_contra hh
      have := hC a ha haT hh
      linarith
    by_cases s : S a
    · exact ⟨a, by rw [hunt, if_pos s, if_pos c], ha, haT, s, c⟩
    · have := hS a ha haT s
      rw [hunt, if_neg s]
      rw [pow_succ] at h2
      exact ih (a * 0.5) (by linarith) (by linarith) (by linarith) (by linarith)

theorem hunt_up (hη : η ≤ 0.01) (hS : ∀ a, 0 < a → a ≤ T → ¬S a → 1.9998 - η < a * κ) (hC : ∀ a, 0 < a → a ≤ T → ¬C a → a * κ < 0.1 + η)
    (n : Nat) (a : ℝ) (ha : 0 < a) (haT : a * 1.5 ^ n ≤ T) (h1 : a * κ < 0.5) (h2 : 0.1 + η ≤ a * κ * 1.5 ^ n) :
    ∃ c, hunt S C (n + 1) a = some c ∧ 0 < c ∧ c ≤ T ∧ S c ∧ C c := by
  have haT' : a ≤ T := le_trans (le_mul_of_one_le_right ha.le (one_le_pow₀ (by norm_num))) haT
  have s : S a := by
    by_contra hh
    have := hS a ha haT' hh
    linarith
  induction n generalizing a with
  | zero =>
    have c : C a := by
      by_contra hh
      have := hC a ha haT' hh
      simp only [pow_zero, mul_one] at h2
      linarith
    exact ⟨a, by rw [hunt, if_pos s, if_pos c], ha, haT', s, c⟩
  | succ n ih =>
    by_cases c : C a
    · exact ⟨a, by rw [hunt, if_pos s, if_pos c], ha, haT', s, c⟩
    · have := hC a ha haT' c
      rw [hunt, if_pos s, if_neg c]
      rw [pow_succ] at h2 haT
      have q1 : a * 1.5 * 1.5 ^ n ≤ T := by linarith
      have q2 : a * 1.5 ≤ T := le_trans (le_mul_of_one_le_right (by linarith) (one_le_pow₀ (by norm_num))) q1
      refine ih (a * 1.5) (by linarith) q1 (by linarith) (by linarith) q2 ?_
      by_contra hh
      have := hS _ (by linarith) q2 hh
      linarith

/-- the fifteen trials end with a step size that passes both tests -/
theorem hunt_spec (hη : η ≤ 0.01) (hS : ∀ a, 0 < a → a ≤ 1.5 ^ 14 → ¬S a → 1.9998 - η < a * κ)
    (hC : ∀ a, 0 < a → a ≤ 1.5 ^ 14 → ¬C a → a * κ < 0.1 + η) (lo : 0.1 + η ≤ κ * 1.5 ^ 14) (hi : κ ≤ (1.9998 - η) * 2 ^ 14) :
    ∃ c, hunt S C 15 1 = some c ∧ 0 < c ∧ c ≤ 1.5 ^ 14 ∧ S c ∧ C c := by
  have h1 : (1 : ℝ) ≤ 1.5 ^ 14 := one_le_pow₀ (by norm_num)
  by_cases hk : 0.5 < κ
  · exact hunt_down hη hS hC 14 1 one_pos h1 (by linarith) (by linarith)
  · by_cases hk' : κ < 0.5
    · exact hunt_up hη hS hC 14 1 one_pos (by linarith) (by linarith) (by linarith)
    · have e : κ = 0.5 := by linarith
      have s : S 1 := by
        by_contra hh
        have := hS 1 one_pos h1 hh
        linarith
      have c : C 1 := by
        by_contra hh
        have := hC 1 one_pos h1 hh
        linarith
      exact ⟨1, by rw [hunt, if_pos s, if_pos c], one_pos, h1, s, c⟩

end hunt

variable {h : Heap XR} {s : Sketch}

/-- the line search where no constraint is degenerate -/
theorem lsLoop_hunt (hn : s.cells.Nodup) (hc : Closed ⟨h, s⟩) (hf : FiniteSketch h s) (x d : Fin (getNDofs h s) → ℝ) (m T : ℝ)
    (hU : ∀ a, 0 < a → a ≤ T → Good h s (x + a • d)) (n : Nat) (a : ℝ) (ha : 0 < a) (haT : a * 1.5 ^ n ≤ T * 1.5) (H : Heap XR)
    (r : SameRefs h H) :
    ∃ H', SameRefs h H' ∧ lsLoop s (vec d) (vec x) (fin (lossAfter h s x)) (fin m) n (fin a) H =
      (searchRes (hunt (fun a => lossAfter h s (x + a • d) ≤ lossAfter h s x + 1e-4 * a * m)
        (fun a => 0.9 * m ≤ gradAt h s (x + a • d) ⬝ᵥ d) n a), H') := by
  induction n generalizing a H with
  | zero => exact ⟨H, r, rfl⟩
  | succ n ih =>
    have ev : vadd (vec x) (vscale (fin a) (vec d)) = vec (x + a • d) := by rw [vscale_vec, vadd_vec]
    obtain ⟨H1, e1, r1, ed⟩ := setData_at hn r (x + a • d)
    have haT' : a ≤ T := by
      rw [pow_succ] at haT
      have : a * 1 ≤ a * 1.5 ^ n := mul_le_mul_of_nonneg_left (one_le_pow₀ (by norm_num)) ha.le
      linarith
    obtain ⟨el, hgr⟩ := spec_at hn hc hf r1 ed
    obtain ⟨H2, g2, e2⟩ := hgr (hU a ha haT')
    unfold lsLoop
    rw [ev, e1]
    simp only [el, e2, half_lit, onehalf_lit, c1_lit, c2_lit, mul_fin, add_fin, dotV_vec, ge, le_fin, decide_eq_true_eq]
    rw [hunt]
    by_cases t1 : lossAfter h s (x + a • d) ≤ lossAfter h s x + 1e-4 * a * m
    · rw [if_pos t1, if_pos t1]
      by_cases t2 : 0.9 * m ≤ gradAt h s (x + a • d) ⬝ᵥ d
      · rw [if_pos t2, if_pos t2]
        exact ⟨H2, r1.trans g2.1, rfl⟩
      · rw [if_neg t2, if_neg t2]
        exact ih (a * 1.5) (by linarith) (by rw [pow_succ] at haT; linarith) H2 (r1.trans g2.1)
    · rw [if_neg t1, if_neg t1]
      refine ih (a * 0.5) (by linarith) ?_ H1 r1
      rw [pow_succ] at haT
      have : 0 ≤ a * 1.5 ^ n := by positivity
      linarith

/-- the Euclidean length of a vector -/
noncomputable def len {n : Nat} (v : Fin n → ℝ) : ℝ := ‖(WithLp.toLp 2 v : EuclideanSpace ℝ (Fin n))‖

theorem len_nonneg {n : Nat} (v : Fin n → ℝ) : 0 ≤ len v := norm_nonneg _

theorem len_sq {n : Nat} (v : Fin n → ℝ) : len v ^ 2 = v ⬝ᵥ v := by
  rw [len, EuclideanSpace.norm_sq_eq]
  simp [dotProduct, sq]

theorem len_add_le {n : Nat} (v w : Fin n → ℝ) : len (v + w) ≤ len v + len w := norm_add_le _ _

theorem len_smul {n : Nat} {a : ℝ} (ha : 0 ≤ a) (v : Fin n → ℝ) : len (a • v) = a * len v := by
  unfold len
  rw [WithLp.toLp_smul, norm_smul, Real.norm_of_nonneg ha]

theorem len_neg {n : Nat} (v : Fin n → ℝ) : len (-v) = len v := by
  unfold len
  rw [WithLp.toLp_neg, norm_neg]

/-- Within `δ` of `z` the loss `L` is, along its gradient `g`, a parabola up to a relative error `η`. -/
structure Tame {n : Nat} (L : (Fin n → ℝ) → ℝ) (g : (Fin n → ℝ) → Fin n → ℝ) (z : Fin n → ℝ) (δ mu M B η : ℝ) : Prop where
  nonneg : ∀ x, len (x - z) < δ → 0 ≤ L x
  low : ∀ x, len (x - z) < δ → 2 * mu * L x ≤ g x ⬝ᵥ g x
  high : ∀ x, len (x - z) < δ → len (g x) ≤ B * Real.sqrt (L x)
  bend : ∀ x, len (x - z) < δ → g x ≠ 0 → ∃ k, mu ≤ k ∧ k ≤ M ∧ ∀ a, 0 ≤ a → a ≤ 1.5 ^ 14 → len (x + a • -g x - z) < δ →
    |2 * L (x + a • -g x) - (2 * L x - 2 * a * (g x ⬝ᵥ g x) + a ^ 2 * (k * (g x ⬝ᵥ g x)))| ≤ a * η * (g x ⬝ᵥ g x) ∧
    |g (x + a • -g x) ⬝ᵥ g x - (g x ⬝ᵥ g x - a * (k * (g x ⬝ᵥ g x)))| ≤ η * (g x ⬝ᵥ g x)

section step
variable {n : Nat} {L : (Fin n → ℝ) → ℝ} {g : (Fin n → ℝ) → Fin n → ℝ} {z : Fin n → ℝ} {δ mu M B η : ℝ}

/-- trial points stay close -/
theorem Tame.trial (t : Tame L g z δ mu M B η) {x : Fin n → ℝ} (hx : len (x - z) < δ) {a : ℝ} (ha : 0 ≤ a) (haT : a ≤ 1.5 ^ 14) :
    len (x + a • -g x - z) ≤ len (x - z) + 1.5 ^ 14 * B * Real.sqrt (L x) := by
  have e : x + a • -g x - z = (x - z) + a • -g x := by abel
  rw [e]
  refine (len_add_le _ _).trans ?_
  rw [len_smul ha, len_neg]
  have h1 := t.high x hx
  have h2 := len_nonneg (g x)
  have : a * len (g x) ≤ 1.5 ^ 14 * (B * Real.sqrt (L x)) := mul_le_mul haT h1 h2 (by positivity)
  linarith

/-- the search finds a step, and the step reduces the loss -/
theorem Tame.step (t : Tame L g z δ mu M B η) (hmu : 0 < mu) (hη : η ≤ 0.01) (lo : 0.1 + η ≤ mu * 1.5 ^ 14) (hi : M ≤ (1.9998 - η) * 2 ^ 14)
    {x : Fin n → ℝ} (hx : len (x - z) + 1.5 ^ 14 * B * Real.sqrt (L x) < δ) (hB : 0 ≤ B) (hg : g x ≠ 0) :
    ∃ c, hunt (fun a => L (x + a • -g x) ≤ L x + 1e-4 * a * (g x ⬝ᵥ -g x)) (fun a => 0.9 * (g x ⬝ᵥ -g x) ≤ g (x + a • -g x) ⬝ᵥ -g x) 15 1 = some c ∧
      0 ≤ c ∧ c ≤ 1.5 ^ 14 ∧ L (x + c • -g x) ≤ (1 - 1.8e-5 * (mu / M)) * L x := by
  have hx' : len (x - z) < δ := by
    have : 0 ≤ 1.5 ^ 14 * B * Real.sqrt (L x) := by positivity
    linarith
  obtain ⟨k, k1, k2, hb⟩ := t.bend x hx' hg
  have hG := dot_self_pos hg
  have hkp : 0 < k := hmu.trans_le k1
  have hM : 0 < M := hkp.trans_le k2
  have hpt : ∀ a : ℝ, 0 < a → a ≤ 1.5 ^ 14 → len (x + a • -g x - z) < δ := fun a ha haT => (t.trial hx' ha.le haT).trans_lt hx
  have hlow := t.low x hx'
  have hnn := t.nonneg x hx'
  generalize hGe : g x ⬝ᵥ g x = G at *
  simp only [dotProduct_neg, hGe]
  obtain ⟨c, e, c0, cT, sc, cc⟩ := hunt_spec (S := fun a => L (x + a • -g x) ≤ L x + 1e-4 * a * -G)
    (C := fun a => 0.9 * -G ≤ -(g (x + a • -g x) ⬝ᵥ g x)) (κ := k) (η := η) hη (by
      intro a ha haT hs
      have q := (abs_le.1 (hb a ha.le haT (hpt a ha haT)).1).2
      rw [not_le] at hs
      by_contra hh
      rw [not_lt] at hh
      have : a * G * (a * k) ≤ a * G * (1.9998 - η) := mul_le_mul_of_nonneg_left hh (by positivity)
      nlinarith) (by
      intro a ha haT hs
      have q := (abs_le.1 (hb a ha.le haT (hpt a ha haT)).2).2
      rw [not_le] at hs
      by_contra hh
      rw [not_lt] at hh
      have : G * (0.1 + η) ≤ G * (a * k) := mul_le_mul_of_nonneg_left hh (by positivity)
      nlinarith) (lo.trans (mul_le_mul_of_nonneg_right k1 (by positivity))) (k2.trans hi)
  refine ⟨c, e, c0.le, cT, ?_⟩
  have q := (abs_le.1 (hb c c0.le cT (hpt c c0 cT)).2).1
  have hck : 0.09 ≤ c * k := by
    by_contra hh
    rw [not_le] at hh
    have : G * (c * k) < G * 0.09 := mul_lt_mul_of_pos_left hh hG
    nlinarith
  have hcM : 0.09 / M ≤ c := by
    rw [div_le_iff₀ hM]
    exact hck.trans (mul_le_mul_of_nonneg_left k2 c0.le)
  have hfin : 0.09 / M * (2 * mu * L x) ≤ c * G := mul_le_mul hcM hlow (by positivity) c0.le
  have e1 : (1 - 1.8e-5 * (mu / M)) * L x = L x - 1e-4 * (0.09 / M * (2 * mu * L x)) := by ring
  rw [e1]
  linarith

end step

/-- the loss decreases by this factor with every step -/
noncomputable def shrink' (mu M : ℝ) : ℝ := 1 - 1.8e-5 * (mu / M)

theorem gdLoop_local (hn : s.cells.Nodup) (hc : Closed ⟨h, s⟩) (hf : FiniteSketch h s) {z : Fin (getNDofs h s) → ℝ} {δ mu M B η q : ℝ}
    (t : Tame (lossAfter h s) (gradAt h s) z δ mu M B η) (hU : ∀ x, len (x - z) < δ → Good h s x)
    (hmu : 0 < mu) (hη : η ≤ 0.01) (lo : 0.1 + η ≤ mu * 1.5 ^ 14) (hi : M ≤ (1.9998 - η) * 2 ^ 14) (hB : 0 ≤ B)
    (hq0 : 0 ≤ q) (hq : q < 1) (hqs : shrink' mu M ≤ q ^ 2) (hs0 : 0 ≤ shrink' mu M)
    (p : GDParams XR) {mg ml : ℝ} (eg : p.minGrad = fin mg) (el : p.minLoss = fin ml) (hmg : 0 < mg)
    (n : Nat) (H : Heap XR) (r : SameRefs h H) (x : Fin (getNDofs h s) → ℝ) (ex : getData H s = vec x) {D : ℝ} (hD : D ≤ δ)
    (hx : len (x - z) + 1.5 ^ 14 * B / (1 - q) * Real.sqrt (lossAfter h s x) < D) :
    let o := Isotope.gdLoop p s n H (vec (gradAt h s x)) (normL (vec (gradAt h s x))) (getLoss H s)
    o.res = .ok ∧ o.steps.length ≤ n ∧ ∃ x', SameRefs h o.heap ∧ getData o.heap s = vec x' ∧
      len (x' - z) + 1.5 ^ 14 * B / (1 - q) * Real.sqrt (lossAfter h s x') < D ∧
      lossAfter h s x' ≤ shrink' mu M ^ o.steps.length * lossAfter h s x ∧
      (o.steps.length < n → lossAfter h s x' < ml ∨ len (gradAt h s x') < mg) := by
  induction n generalizing H x with
  | zero => exact ⟨rfl, le_rfl, x, r, ex, hx, by simp [Isotope.gdLoop], fun hh => absurd hh (by simp)⟩
  | succ n ih =>
    have hq' : 0 < 1 - q := by linarith
    have hsq := Real.sqrt_nonneg (lossAfter h s x)
    have hb1 : 1.5 ^ 14 * B ≤ 1.5 ^ 14 * B / (1 - q) := by
      rw [le_div_iff₀ hq']
      have : 0 ≤ 1.5 ^ 14 * B := by positivity
      nlinarith
    have hx2 : len (x - z) + 1.5 ^ 14 * B * Real.sqrt (lossAfter h s x) < δ :=
      lt_of_le_of_lt (add_le_add le_rfl (mul_le_mul_of_nonneg_right hb1 hsq)) (hx.trans_le hD)
    have hx1 : len (x - z) < δ := by
      have : 0 ≤ 1.5 ^ 14 * B * Real.sqrt (lossAfter h s x) := by positivity
      linarith
    have hnl : normL (vec (gradAt h s x)) = fin (len (gradAt h s x)) := by
      rw [normL_vec, ← len_sq, Real.sqrt_sq (len_nonneg _)]
    dsimp only
    rw [Isotope.gdLoop, hnl, eg, el, (spec_at hn hc hf r ex).1]
    by_cases c1 : len (gradAt h s x) < mg
    · rw [if_pos (by simpa using c1)]
      exact ⟨rfl, by simp, x, r, ex, hx, by simp, fun _ => .inr c1⟩
    · rw [if_neg (by simpa using c1)]
      by_cases c2 : lossAfter h s x < ml
      · rw [if_pos (by simpa using c2)]
        exact ⟨rfl, by simp, x, r, ex, hx, by simp, fun _ => .inl c2⟩
      · rw [if_neg (by simpa using c2)]
        have hg : gradAt h s x ≠ 0 := by
          intro e0
          have := len_sq (gradAt h s x)
          rw [e0, dotProduct_zero] at this
          rw [e0] at c1
          have := pow_eq_zero_iff (two_ne_zero) |>.1 this
          linarith
        have hG := dot_self_pos hg
        obtain ⟨c, ec, c0, cT, hdec⟩ := t.step hmu hη lo hi hx2 hB hg
        have hpt : ∀ a : ℝ, 0 < a → a ≤ 1.5 ^ 14 → Good h s (x + a • -gradAt h s x) := fun a ha haT =>
          hU _ ((t.trial hx1 ha.le haT).trans_lt hx2)
        obtain ⟨H1, r1, e1⟩ := lsLoop_hunt hn hc hf x (-gradAt h s x) (gradAt h s x ⬝ᵥ -gradAt h s x) (1.5 ^ 14) hpt 15 1 one_pos
          (by norm_num) H r
        rw [ec] at e1
        have hls : lineSearch H s (vneg (vec (gradAt h s x))) (vec (gradAt h s x)) = (.ok (fin c), H1) := by
          unfold lineSearch
          dsimp only
          rw [vneg_vec, dotV_vec, ex, (spec_at hn hc hf r ex).1, if_neg (by
            simp only [ge, zero_lit, le_fin, decide_eq_true_eq, dotProduct_neg]
            linarith), one_lit]
          exact e1
        simp only [hls]
        rw [ex, vneg_vec, axpy_vec]
        obtain ⟨H2, e2, r2, ed⟩ := setData_at hn r1 (x + c • -gradAt h s x)
        have hlen := t.trial hx1 c0 cT
        obtain ⟨H3, g3, e3⟩ := (spec_at hn hc hf r2 ed).2 (hU _ (hlen.trans_lt hx2))
        simp only [e2, e3]
        rw [← g3.getLoss s]
        have hnew : len (x + c • -gradAt h s x - z) + 1.5 ^ 14 * B / (1 - q) * Real.sqrt (lossAfter h s (x + c • -gradAt h s x)) < D := by
          have hsq2 : Real.sqrt (lossAfter h s (x + c • -gradAt h s x)) ≤ q * Real.sqrt (lossAfter h s x) := by
            rw [← Real.sqrt_sq hq0, ← Real.sqrt_mul (sq_nonneg q)]
            exact Real.sqrt_le_sqrt (hdec.trans (mul_le_mul_of_nonneg_right hqs (t.nonneg x hx1)))
          have hk : 0 ≤ 1.5 ^ 14 * B / (1 - q) := by positivity
          have h3 := mul_le_mul_of_nonneg_left hsq2 hk
          have h4 : 1.5 ^ 14 * B * Real.sqrt (lossAfter h s x) + 1.5 ^ 14 * B / (1 - q) * (q * Real.sqrt (lossAfter h s x)) =
              1.5 ^ 14 * B / (1 - q) * Real.sqrt (lossAfter h s x) := by
            field_simp
            ring
          linarith
        obtain ⟨i1, i2, x', i3, i4, i5, i6, i7⟩ := ih H3 (r2.trans g3.1) (x + c • -gradAt h s x) (by rw [g3.getData, ed]) hnew
        refine ⟨i1, by simpa [SolveOut.cons] using i2, x', i3, i4, i5, ?_, fun hh => i7 (by simpa [SolveOut.cons] using hh)⟩
        simp only [SolveOut.cons, List.length_cons]
        rw [pow_succ, mul_assoc]
        exact i6.trans (mul_le_mul_of_nonneg_left hdec (pow_nonneg hs0 _))

end Isotope
