import Verif.Lemmas.Linear

/-!
# The line search along the gradient of a linear sketch
-/

namespace Isotope
open XR
open Matrix

/-- half the square of the residual -/
noncomputable def quad {m n : Nat} (R : Matrix (Fin m) (Fin n) ℝ) (b : Fin m → ℝ) (x : Fin n → ℝ) : ℝ :=
  (R *ᵥ x - b) ⬝ᵥ (R *ᵥ x - b) / 2

/-- its gradient -/
noncomputable def quadGrad {m n : Nat} (R : Matrix (Fin m) (Fin n) ℝ) (b : Fin m → ℝ) (x : Fin n → ℝ) : Fin n → ℝ :=
  Rᵀ *ᵥ (R *ᵥ x - b)

section quad
variable {m n : Nat} (R : Matrix (Fin m) (Fin n) ℝ) (b : Fin m → ℝ)

theorem dot_mulVec (u : Fin n → ℝ) (v : Fin m → ℝ) : (Rᵀ *ᵥ v) ⬝ᵥ u = v ⬝ᵥ (R *ᵥ u) := by
  rw [mulVec_transpose, dotProduct_mulVec]

theorem quad_add (x z : Fin n → ℝ) :
    quad R b (x + z) = quad R b x + quadGrad R b x ⬝ᵥ z + (R *ᵥ z) ⬝ᵥ (R *ᵥ z) / 2 := by
  unfold quad quadGrad
  rw [dot_mulVec, mulVec_add, add_sub_right_comm]
  simp only [add_dotProduct, dotProduct_add]
  rw [dotProduct_comm (R *ᵥ z) (R *ᵥ x - b)]
  ring

theorem quadGrad_add (x z : Fin n → ℝ) : quadGrad R b (x + z) = quadGrad R b x + Rᵀ *ᵥ (R *ᵥ z) := by
  unfold quadGrad
  rw [mulVec_add, add_sub_right_comm, mulVec_add]

/-- Cauchy-Schwarz -/
theorem dot_sq_le {k : Nat} (u v : Fin k → ℝ) : (u ⬝ᵥ v) ^ 2 ≤ (u ⬝ᵥ u) * (v ⬝ᵥ v) := by
  have := Finset.sum_mul_sq_le_sq_mul_sq Finset.univ u v
  simpa only [dotProduct, pow_two] using this

theorem quad_nonneg (x : Fin n → ℝ) : 0 ≤ quad R b x := div_nonneg (dot_self_nonneg _) (by norm_num)

end quad

/-- a sketch with its linear system -/
structure LinAt (h : Heap XR) (s : Sketch) {m : Nat} (R : Matrix (Fin m) (Fin (getNDofs h s)) ℝ) (b : Fin m → ℝ) : Prop where
  nodup : s.cells.Nodup
  par : ∀ k ∈ s.cons, ∀ x ∈ consParams (h.cons k), Num.isFinite x = true
  spec : ∀ h1, SameRefs h h1 → FiniteSketch h1 s → ∀ x, getData h1 s = vec x →
        getLoss h1 s = fin (quad R b x) ∧
        ∃ h2, GradOnly h1 h2 ∧ getGradient h1 s = .ok (vec (quadGrad R b x), h2)

variable {h : Heap XR} {s : Sketch} {m : Nat} {R : Matrix (Fin m) (Fin (getNDofs h s)) ℝ} {b : Fin m → ℝ}

theorem exists_linAt (hn : s.cells.Nodup) (hc : Closed ⟨h, s⟩) (hf : FiniteSketch h s) (hl : ∀ k ∈ s.cons, IsLinear (h.cons k)) :
    ∃ (m : Nat) (R : Matrix (Fin m) (Fin (getNDofs h s)) ℝ) (b : Fin m → ℝ), LinAt h s R b := by
  obtain ⟨m, R, b, hs⟩ := linear_system hn hc hl
  exact ⟨m, R, b, hn, hf.2, hs⟩

theorem LinAt.at (l : LinAt h s R b) {H : Heap XR} (r : SameRefs h H) {x : Fin (getNDofs h s) → ℝ} (ex : getData H s = vec x) :
    getLoss H s = fin (quad R b x) ∧ ∃ h2, GradOnly H h2 ∧ getGradient H s = .ok (vec (quadGrad R b x), h2) := by
  refine l.spec H r ⟨fun y hy => ?_, fun k hk y hy => l.par k hk y ?_⟩ x ex
  · rw [ex] at hy
    obtain ⟨i, rfl⟩ := List.mem_ofFn.1 hy
    rfl
  · rw [r.cons] at hy; exact hy

theorem LinAt.set (l : LinAt h s R b) {H : Heap XR} (r : SameRefs h H) (v : Fin (getNDofs h s) → ℝ) :
    ∃ H', setData H s (vec v) = .ok H' ∧ SameRefs h H' ∧ getData H' s = vec v := by
  have key : ∀ (n : Nat) (v : Fin n → ℝ), n = getNDofs H s →
      ∃ H', setData H s (vec v) = .ok H' ∧ SameRefs H H' ∧ getData H' s = vec v := by
    rintro n v rfl
    exact setData_vec l.nodup v
  obtain ⟨H', e, r', ed⟩ := key _ v (by rw [← dofs_length, ← dofs_length])
  exact ⟨H', e, r.trans r', ed⟩

theorem LinAt.lossAfter (l : LinAt h s R b) (v : Fin (getNDofs h s) → ℝ) : lossAfter h s v = quad R b v := by
  obtain ⟨H, e, r, ed⟩ := l.set (SameRefs.refl h) v
  unfold Isotope.lossAfter
  change setData h s (List.ofFn fun i => fin (v i)) = .ok H at e
  rw [e]
  dsimp only
  rw [(l.at r ed).1]
  rfl

/-- the trials of the line search when the loss bends `lam` times as much as a unit parabola -/
noncomputable def trials (lam : ℝ) : Nat → ℝ → Option ℝ
  | 0, _ => none
  | n + 1, a => if 1.9998 < a * lam then trials lam n (a * 0.5) else if a * lam < 0.1 then trials lam n (a * 1.5) else some a

/-- what the line search returns for a trial result -/
noncomputable def searchRes : Option ℝ → LSRes XR
  | none => .searchFailed
  | some a => .ok (fin a)

theorem half_lit : (0.5 : XR) = fin 0.5 := rfl
theorem onehalf_lit : (1.5 : XR) = fin 1.5 := rfl
theorem c1_lit : (wolfeC1 : XR) = fin 1e-4 := rfl
theorem c2_lit : (wolfeC2 : XR) = fin 0.9 := rfl

theorem LinAt.loop (l : LinAt h s R b) (x d : Fin (getNDofs h s) → ℝ) {M : ℝ} (eM : quadGrad R b x ⬝ᵥ d = -M) (hM : 0 < M) (n : Nat)
    (a : ℝ) (ha : 0 < a) (H : Heap XR) (r : SameRefs h H) :
    ∃ H', SameRefs h H' ∧ lsLoop s (vec d) (vec x) (fin (quad R b x)) (fin (-M)) n (fin a) H =
      (searchRes (trials ((R *ᵥ d) ⬝ᵥ (R *ᵥ d) / M) n a), H') := by
  induction n generalizing a H with
  | zero => exact ⟨H, r, rfl⟩
  | succ n ih =>
    set Q := (R *ᵥ d) ⬝ᵥ (R *ᵥ d) with eQ
    have ev : vadd (vec x) (vscale (fin a) (vec d)) = vec (x + a • d) := by rw [vscale_vec, vadd_vec]
    obtain ⟨H1, e1, r1, ed⟩ := l.set r (x + a • d)
    obtain ⟨el, H2, g2, e2⟩ := l.at r1 ed
    have hz : R *ᵥ (a • d) = a • (R *ᵥ d) := mulVec_smul _ _ _
    have hloss : quad R b (x + a • d) = quad R b x - a * M + a ^ 2 * Q / 2 := by
      rw [quad_add, hz]
      simp only [dotProduct_smul, smul_dotProduct, smul_eq_mul, eM, ← eQ]
      ring
    have hcurv : quadGrad R b (x + a • d) ⬝ᵥ d = -M + a * Q := by
      rw [quadGrad_add, hz, add_dotProduct, dot_mulVec]
      simp only [smul_dotProduct, smul_eq_mul, eM, ← eQ]
    have hpos : ∀ {t : ℝ}, 0 < t → 0 < a * t := fun ht => mul_pos ha ht
    unfold lsLoop
    rw [ev, e1]
    simp only [el, e2, half_lit, onehalf_lit, c1_lit, c2_lit, mul_fin, add_fin, dotV_vec, hcurv, hloss]
    have c1 : ((fin (quad R b x - a * M + a ^ 2 * Q / 2) : XR) <=. fin (quad R b x + 1e-4 * a * -M)) = !decide (1.9998 < a * (Q / M)) := by
      rw [le_fin, ← decide_not]
      congr 1
      rw [not_lt, mul_div_assoc', div_le_iff₀ hM]
      apply propext
      constructor
      · intro hh
        have : a * (a * Q) ≤ a * (1.9998 * M) := by nlinarith
        exact le_of_mul_le_mul_left this ha
      · intro hh
        nlinarith [mul_le_mul_of_nonneg_left hh ha.le]
    have c2 : ge (fin (-M + a * Q) : XR) (fin (0.9 * -M)) = !decide (a * (Q / M) < 0.1) := by
      rw [ge, le_fin, ← decide_not]
      congr 1
      rw [not_lt, mul_div_assoc', le_div_iff₀ hM]
      apply propext
      constructor <;> intro hh <;> linarith
    rw [c1, c2, trials]
    by_cases t1 : 1.9998 < a * (Q / M)
    · obtain ⟨H', r', e'⟩ := ih (a * 0.5) (hpos (by norm_num)) H1 r1
      refine ⟨H', r', ?_⟩
      simpa [t1] using e'
    · by_cases t2 : a * (Q / M) < 0.1
      · obtain ⟨H', r', e'⟩ := ih (a * 1.5) (hpos (by norm_num)) H2 (r1.trans g2.1)
        refine ⟨H', r', ?_⟩
        simpa [t1, t2] using e'
      · refine ⟨H2, r1.trans g2.1, ?_⟩
        simp [t1, t2, searchRes]

/-- the line search in any descent direction -/
theorem LinAt.searchDir (l : LinAt h s R b) (x d : Fin (getNDofs h s) → ℝ) (hm : quadGrad R b x ⬝ᵥ d < 0)
    (H : Heap XR) (r : SameRefs h H) (ex : getData H s = vec x) :
    ∃ H', SameRefs h H' ∧ lineSearch H s (vec d) (vec (quadGrad R b x)) =
      (searchRes (trials ((R *ᵥ d) ⬝ᵥ (R *ᵥ d) / -(quadGrad R b x ⬝ᵥ d)) 15 1), H') := by
  unfold lineSearch
  dsimp only
  rw [dotV_vec, ex, (l.at r ex).1, if_neg (by
    simp only [ge, zero_lit, le_fin, decide_eq_true_eq]
    linarith)]
  obtain ⟨M, eM⟩ : ∃ M, quadGrad R b x ⬝ᵥ d = -M := ⟨_, (neg_neg _).symm⟩
  rw [one_lit, eM, neg_neg]
  exact l.loop x d eM (by linarith) 15 1 one_pos H r

theorem LinAt.search (l : LinAt h s R b) (x g : Fin (getNDofs h s) → ℝ) (eg : g = quadGrad R b x) (hg : g ≠ 0)
    (H : Heap XR) (r : SameRefs h H) (ex : getData H s = vec x) :
    ∃ H', SameRefs h H' ∧ lineSearch H s (vneg (vec g)) (vec g) =
      (searchRes (trials ((R *ᵥ g) ⬝ᵥ (R *ᵥ g) / (g ⬝ᵥ g)) 15 1), H') := by
  have hG := dot_self_pos hg
  have := l.searchDir x (-g) (by rw [← eg, dotProduct_neg]; linarith) H r ex
  rw [← eg, dotProduct_neg, neg_neg, mulVec_neg, neg_dotProduct, dotProduct_neg, neg_neg] at this
  rw [vneg_vec]
  exact this

/-! ## The trials -/

theorem trials_down {lam : ℝ} (n : Nat) (a : ℝ) (ha : 0.9999 < a * lam) :
    (trials lam n a = none ↔ 1.9998 * 2 ^ n < 2 * (a * lam)) ∧
    ∀ c, trials lam n a = some c → c * lam ≤ 1.9998 ∧ ∃ j < n, c = a * (1 / 2) ^ j ∧ (j ≠ 0 → 0.9999 < c * lam) := by
  induction n generalizing a with
  | zero =>
    refine ⟨⟨fun _ => by linarith, fun _ => rfl⟩, fun c e => by cases e⟩
  | succ n ih =>
    rw [trials]
    by_cases h1 : 1.9998 < a * lam
    · rw [if_pos h1]
      obtain ⟨i1, i2⟩ := ih (a * 0.5) (by linarith)
      refine ⟨i1.trans ?_, fun c e => ?_⟩
      · rw [pow_succ]
        constructor <;> intro hh <;> linarith
      · obtain ⟨k1, j, hj, rfl, k2⟩ := i2 c e
        refine ⟨k1, j + 1, by omega, by rw [pow_succ]; ring, fun _ => ?_⟩
        rcases eq_or_ne j 0 with rfl | hj0
        · simp only [pow_zero, mul_one]; linarith
        · exact k2 hj0
    · rw [if_neg h1, if_neg (by linarith)]
      refine ⟨⟨fun hh => absurd hh (by simp), fun hh => ?_⟩, fun c e => ?_⟩
      · exfalso
        have : (1 : ℝ) ≤ 2 ^ n := one_le_pow₀ (by norm_num)
        rw [pow_succ] at hh
        linarith
      · cases e
        exact ⟨by linarith, 0, by omega, by simp, fun h0 => absurd rfl h0⟩

theorem trials_up {lam : ℝ} (n : Nat) (a : ℝ) (h0 : 0 < a * lam) (ha : a * lam < 0.15) :
    (trials lam n a = none ↔ a * lam * 1.5 ^ n < 0.15) ∧
    ∀ c, trials lam n a = some c → 0.1 ≤ c * lam ∧ ∃ j < n, c = a * 1.5 ^ j ∧ (j ≠ 0 → c * lam < 0.15) := by
  induction n generalizing a with
  | zero =>
    refine ⟨⟨fun _ => by linarith, fun _ => rfl⟩, fun c e => by cases e⟩
  | succ n ih =>
    rw [trials, if_neg (by linarith)]
    by_cases h1 : a * lam < 0.1
    · rw [if_pos h1]
      obtain ⟨i1, i2⟩ := ih (a * 1.5) (by linarith) (by linarith)
      refine ⟨i1.trans ?_, fun c e => ?_⟩
      · rw [pow_succ]
        constructor <;> intro hh <;> linarith
      · obtain ⟨k1, j, hj, rfl, k2⟩ := i2 c e
        refine ⟨k1, j + 1, by omega, by rw [pow_succ]; ring, fun _ => ?_⟩
        rcases eq_or_ne j 0 with rfl | hj0
        · simp only [pow_zero, mul_one]; linarith
        · exact k2 hj0
    · rw [if_neg h1]
      refine ⟨⟨fun hh => absurd hh (by simp), fun hh => ?_⟩, fun c e => ?_⟩
      · exfalso
        have : (1 : ℝ) ≤ 1.5 ^ n := one_le_pow₀ (by norm_num)
        rw [pow_succ] at hh
        nlinarith
      · cases e
        exact ⟨by linarith, 0, by omega, by simp, fun h0 => absurd rfl h0⟩

/-- What the fifteen trials find: a step is found exactly for `lam` in a certain range. -/
theorem trials_spec {lam : ℝ} (h0 : 0 < lam) :
    (trials lam 15 1 = none ↔ lam * 1.5 ^ 14 < 0.1 ∨ 1.9998 * 2 ^ 14 < lam) ∧
    ∀ c, trials lam 15 1 = some c → 0.1 ≤ c * lam ∧ c * lam ≤ 1.9998 ∧
      ∃ j < 15, (c = (1 / 2) ^ j ∧ (j ≠ 0 → 0.9999 < c * lam)) ∨ (c = 1.5 ^ j ∧ (j ≠ 0 → c * lam < 0.15)) := by
  by_cases h1 : 1.9998 < lam
  · obtain ⟨i1, i2⟩ := trials_down (lam := lam) 15 1 (by linarith)
    refine ⟨i1.trans ?_, fun c e => ?_⟩
    · constructor
      · intro hh; right; linarith
      · rintro (hh | hh)
        · exfalso
          have : (1 : ℝ) ≤ 1.5 ^ 14 := one_le_pow₀ (by norm_num)
          nlinarith
        · linarith
    · obtain ⟨k1, j, hj, k2, k3⟩ := i2 c e
      rw [one_mul] at k2
      refine ⟨?_, k1, j, hj, .inl ⟨k2, k3⟩⟩
      rcases eq_or_ne j 0 with rfl | hj0
      · rw [k2] at k1; simp only [pow_zero, one_mul] at k1; linarith
      · have := k3 hj0; linarith
  · by_cases h2 : lam < 0.1
    · obtain ⟨i1, i2⟩ := trials_up (lam := lam) 15 1 (by linarith) (by linarith)
      refine ⟨i1.trans ?_, fun c e => ?_⟩
      · constructor
        · intro hh; left
          rw [pow_succ] at hh
          linarith
        · rintro (hh | hh)
          · rw [pow_succ]; linarith
          · norm_num at hh; linarith
      · obtain ⟨k1, j, hj, k2, k3⟩ := i2 c e
        rw [one_mul] at k2
        refine ⟨k1, ?_, j, hj, .inr ⟨k2, k3⟩⟩
        rcases eq_or_ne j 0 with rfl | hj0
        · rw [k2] at k1; simp only [pow_zero, one_mul] at k1; linarith
        · have := k3 hj0; linarith
    · have e1 : trials lam 15 1 = some 1 := by
        rw [trials, if_neg (by linarith), if_neg (by linarith)]
      rw [e1]
      refine ⟨⟨fun hh => absurd hh (by simp), ?_⟩, fun c e => ?_⟩
      · rintro (hh | hh)
        · exfalso
          have : (1 : ℝ) ≤ 1.5 ^ 14 := one_le_pow₀ (by norm_num)
          nlinarith
        · norm_num at hh; linarith
      · cases e
        exact ⟨by linarith, by linarith, 0, by omega, .inl ⟨by simp, fun h0 => absurd rfl h0⟩⟩

end Isotope
