import Verif.Lemmas.LinearSearch

/-!
# Gradient descent on a linear sketch
-/

namespace Isotope
open XR
open Matrix

variable {h : Heap XR} {s : Sketch} {m : Nat} {R : Matrix (Fin m) (Fin (getNDofs h s)) ℝ} {b : Fin m → ℝ}

/-- the conditioning of a linear system that has a solution -/
structure WellPosed {m n : Nat} (R : Matrix (Fin m) (Fin n) ℝ) (b : Fin m → ℝ) (mu M : ℝ) : Prop where
  low : ∀ v, ∃ v0, R *ᵥ v0 = b ∧ mu * ((v - v0) ⬝ᵥ (v - v0)) ≤ 2 * quad R b v
  high : ∀ g : Fin n → ℝ, (R *ᵥ g) ⬝ᵥ (R *ᵥ g) ≤ M * (g ⬝ᵥ g)

section alg
variable {n : Nat} {A : Matrix (Fin m) (Fin n) ℝ} {c : Fin m → ℝ} {mu M : ℝ}

/-- the gradient is large where the loss is, and the loss bends neither too little nor too much along it -/
theorem WellPosed.bounds (w : WellPosed A c mu M) (hmu : 0 < mu) (v : Fin n → ℝ) :
    2 * mu * quad A c v ≤ quadGrad A c v ⬝ᵥ quadGrad A c v ∧
    (quadGrad A c v ≠ 0 → mu ≤ (A *ᵥ quadGrad A c v) ⬝ᵥ (A *ᵥ quadGrad A c v) / (quadGrad A c v ⬝ᵥ quadGrad A c v) ∧
      (A *ᵥ quadGrad A c v) ⬝ᵥ (A *ᵥ quadGrad A c v) / (quadGrad A c v ⬝ᵥ quadGrad A c v) ≤ M) := by
  obtain ⟨v0, e0, hlow⟩ := w.low v
  set e := v - v0 with ee
  have hres : A *ᵥ v - c = A *ᵥ e := by rw [ee, mulVec_sub, e0]
  have hL : 2 * quad A c v = (A *ᵥ e) ⬝ᵥ (A *ᵥ e) := by unfold quad; rw [hres]; ring
  have hg : quadGrad A c v = Aᵀ *ᵥ (A *ᵥ e) := by unfold quadGrad; rw [hres]
  set g := quadGrad A c v with eg
  have hge : g ⬝ᵥ e = 2 * quad A c v := by rw [hg, dot_mulVec, hL]
  have hgg : g ⬝ᵥ g = (A *ᵥ e) ⬝ᵥ (A *ᵥ g) := by
    conv_lhs => rw [hg]
    rw [dot_mulVec, ← hg]
  have cs1 := dot_sq_le g e
  have cs2 := dot_sq_le (A *ᵥ e) (A *ᵥ g)
  rw [hge] at cs1
  rw [← hgg, ← hL] at cs2
  have hn := quad_nonneg A c v
  set L := quad A c v
  have hgn := dot_self_nonneg g
  have pl : 2 * mu * L ≤ g ⬝ᵥ g := by
    rcases hn.eq_or_lt with h0 | h0
    · rw [← h0, mul_zero]; exact hgn
    · have : mu * (2 * L) ^ 2 ≤ (g ⬝ᵥ g) * (2 * L) := by
        calc mu * (2 * L) ^ 2 ≤ mu * ((g ⬝ᵥ g) * (e ⬝ᵥ e)) := mul_le_mul_of_nonneg_left cs1 hmu.le
          _ = (g ⬝ᵥ g) * (mu * (e ⬝ᵥ e)) := by ring
          _ ≤ (g ⬝ᵥ g) * (2 * L) := mul_le_mul_of_nonneg_left hlow hgn
      have h2 : (2 * mu * L) * (2 * L) ≤ (g ⬝ᵥ g) * (2 * L) := by nlinarith
      exact le_of_mul_le_mul_right h2 (by linarith)
  refine ⟨pl, fun hg0 => ?_⟩
  have hgp := dot_self_pos hg0
  refine ⟨?_, ?_⟩
  · rw [le_div_iff₀ hgp]
    have hQ := dot_self_nonneg (A *ᵥ g)
    have : (g ⬝ᵥ g) * (mu * (g ⬝ᵥ g)) ≤ (g ⬝ᵥ g) * ((A *ᵥ g) ⬝ᵥ (A *ᵥ g)) := by
      calc (g ⬝ᵥ g) * (mu * (g ⬝ᵥ g)) = mu * (g ⬝ᵥ g) ^ 2 := by ring
        _ ≤ mu * (2 * L * ((A *ᵥ g) ⬝ᵥ (A *ᵥ g))) := mul_le_mul_of_nonneg_left cs2 hmu.le
        _ = (2 * mu * L) * ((A *ᵥ g) ⬝ᵥ (A *ᵥ g)) := by ring
        _ ≤ (g ⬝ᵥ g) * ((A *ᵥ g) ⬝ᵥ (A *ᵥ g)) := mul_le_mul_of_nonneg_right pl hQ
    exact le_of_mul_le_mul_left this hgp
  · rw [div_le_iff₀ hgp]
    exact w.high g

end alg

/-- the loss decreases by this factor with every step -/
noncomputable def shrink (mu M : ℝ) : ℝ := 1 - 3.9996e-4 * (mu / M)

theorem normL_vec {n : Nat} (g : Fin n → ℝ) : normL (vec g) = fin (Real.sqrt (g ⬝ᵥ g)) := by
  rw [normL, dotV_vec, sqrt_fin_of_nonneg (dot_self_nonneg g)]

theorem axpy_vec {n : Nat} (x g : Fin n → ℝ) (a : ℝ) : axpy (vec x) (fin a) (vec g) = vec (x + a • g) := by
  unfold axpy vec
  rw [zipWith_ofFn]
  congr 1
  funext i
  simp only [one_lit, mul_fin, add_fin, one_mul, Pi.add_apply, Pi.smul_apply, smul_eq_mul]
  rw [add_comm]

/-- one accepted step -/
theorem LinAt.decrease (w : WellPosed R b mu M) (hmu : 0 < mu) {x g : Fin (getNDofs h s) → ℝ}
    (eg : g = quadGrad R b x) (hg : g ≠ 0) {a : ℝ}
    (h1 : 0.1 ≤ a * ((R *ᵥ g) ⬝ᵥ (R *ᵥ g) / (g ⬝ᵥ g))) (h2 : a * ((R *ᵥ g) ⬝ᵥ (R *ᵥ g) / (g ⬝ᵥ g)) ≤ 1.9998) :
    quad R b (x + a • -g) ≤ shrink mu M * quad R b x := by
  obtain ⟨b1, b2⟩ := w.bounds hmu x
  rw [← eg] at b1 b2
  obtain ⟨b2, b3⟩ := b2 hg
  have hG := dot_self_pos hg
  set Q := (R *ᵥ g) ⬝ᵥ (R *ᵥ g) with eQ
  set G := g ⬝ᵥ g with eG
  set lam := Q / G with el
  have hQ : Q = lam * G := by rw [el, div_mul_cancel₀ _ hG.ne']
  have hlam : 0 < lam := lt_of_lt_of_le hmu b2
  have hz : R *ᵥ (a • -g) = (-a) • (R *ᵥ g) := by rw [mulVec_smul, mulVec_neg, smul_neg, neg_smul]
  have hloss : quad R b (x + a • -g) = quad R b x - a * G + a ^ 2 * Q / 2 := by
    rw [quad_add, hz, ← eg]
    simp only [dotProduct_smul, smul_dotProduct, dotProduct_neg, smul_eq_mul, ← eG, ← eQ]
    ring
  rw [hloss, hQ]
  have hL := quad_nonneg R b x
  set L := quad R b x
  set t := a * lam with et
  have ea : a = t / lam := by rw [et, mul_div_assoc, div_self hlam.ne', mul_one]
  have k1 : 1.9998e-4 ≤ t * (1 - t / 2) := by nlinarith
  have k2 : a * G - a ^ 2 * (lam * G) / 2 = t * (1 - t / 2) * G / lam := by
    rw [ea]; field_simp
  have k3 : 1.9998e-4 * (2 * mu * L) / M ≤ t * (1 - t / 2) * G / lam := by
    apply div_le_div₀
    · exact mul_nonneg (by linarith) hG.le
    · exact mul_le_mul k1 b1 (by positivity) (by linarith)
    · exact hlam
    · exact b3
  have k4 : shrink mu M * L = L - 1.9998e-4 * (2 * mu * L) / M := by
    unfold shrink; ring
  rw [k4]
  linarith

/-- Gradient descent sees of the loss (of `b`) only its gradient, which is that of the system with right-hand side `b'`, and whether
it is below `min_loss`. -/
theorem LinAt.gdLoop' {b' : Fin m → ℝ} (l : LinAt h s R b) (hgr : ∀ x, quadGrad R b' x = quadGrad R b x) (w : WellPosed R b' mu M) (hmu : 0 < mu) (hM : 0 < M) (lo : 0.1 ≤ mu * 1.5 ^ 14)
    (hi : M ≤ 1.9998 * 2 ^ 14) (p : GDParams XR) {mg ml : ℝ} (eg : p.minGrad = fin mg) (el : p.minLoss = fin ml) (hmg : 0 < mg)
    (n : Nat) (H : Heap XR) (r : SameRefs h H) (x : Fin (getNDofs h s) → ℝ) (ex : getData H s = vec x) :
    let o := Isotope.gdLoop p s n H (vec (quadGrad R b x)) (normL (vec (quadGrad R b x))) (getLoss H s)
    o.res = .ok ∧ o.steps.length ≤ n ∧ ∃ x', SameRefs h o.heap ∧ getData o.heap s = vec x' ∧
      quad R b' x' ≤ shrink mu M ^ o.steps.length * quad R b' x ∧
      (o.steps.length < n → quad R b x' < ml ∨ Real.sqrt (quadGrad R b x' ⬝ᵥ quadGrad R b x') < mg) := by
  induction n generalizing H x with
  | zero => exact ⟨rfl, le_rfl, x, r, ex, by simp [Isotope.gdLoop], fun hh => absurd hh (by simp)⟩
  | succ n ih =>
    dsimp only
    rw [Isotope.gdLoop, normL_vec, eg, el, (l.at r ex).1]
    by_cases c1 : Real.sqrt (quadGrad R b x ⬝ᵥ quadGrad R b x) < mg
    · rw [if_pos (by simpa using c1)]
      exact ⟨rfl, by simp, x, r, ex, by simp, fun _ => .inr c1⟩
    · rw [if_neg (by simpa using c1)]
      by_cases c2 : quad R b x < ml
      · rw [if_pos (by simpa using c2)]
        exact ⟨rfl, by simp, x, r, ex, by simp, fun _ => .inl c2⟩
      · rw [if_neg (by simpa using c2)]
        have hg : quadGrad R b x ≠ 0 := by
          intro e0
          rw [e0] at c1
          simp at c1
          linarith
        obtain ⟨b2, b3⟩ := (w.bounds hmu x).2 (by rw [hgr]; exact hg)
        rw [hgr] at b2 b3
        obtain ⟨H1, r1, e1⟩ := l.search x _ rfl hg H r ex
        generalize hlam : (R *ᵥ quadGrad R b x) ⬝ᵥ (R *ᵥ quadGrad R b x) / (quadGrad R b x ⬝ᵥ quadGrad R b x) = lam at *
        obtain ⟨t1, t2⟩ := trials_spec (lt_of_lt_of_le hmu b2)
        cases et : trials lam 15 1 with
        | none =>
          exfalso
          rcases t1.1 et with hh | hh
          · have : mu * 1.5 ^ 14 ≤ lam * 1.5 ^ 14 := mul_le_mul_of_nonneg_right b2 (by positivity)
            linarith
          · linarith
        | some a =>
          obtain ⟨a1, a2, -⟩ := t2 a et
          rw [et] at e1
          simp only [e1, searchRes]
          rw [ex, vneg_vec, axpy_vec]
          obtain ⟨H2, e2, r2, ed⟩ := l.set r1 (x + a • -quadGrad R b x)
          obtain ⟨-, H3, g3, e3⟩ := l.at r2 ed
          simp only [e2, e3]
          rw [← g3.getLoss s]
          obtain ⟨i1, i2, x', i3, i4, i5, i6⟩ := ih H3 (r2.trans g3.1) (x + a • -quadGrad R b x) (by rw [g3.getData, ed])
          refine ⟨i1, by simpa [SolveOut.cons] using i2, x', i3, i4, ?_, fun hh => i6 (by simpa [SolveOut.cons] using hh)⟩
          have hd := LinAt.decrease w hmu (a := a) (hgr x).symm hg (by rw [hlam]; exact a1) (by rw [hlam]; exact a2)
          have hs : 0 ≤ shrink mu M := by
            unfold shrink
            have : mu / M ≤ 1 := by
              rw [div_le_one hM]; linarith
            linarith
          simp only [SolveOut.cons, List.length_cons]
          rw [pow_succ, mul_assoc]
          exact i5.trans (mul_le_mul_of_nonneg_left hd (pow_nonneg hs _))

theorem LinAt.gdLoop (l : LinAt h s R b) (w : WellPosed R b mu M) (hmu : 0 < mu) (hM : 0 < M) (lo : 0.1 ≤ mu * 1.5 ^ 14)
    (hi : M ≤ 1.9998 * 2 ^ 14) (p : GDParams XR) {mg ml : ℝ} (eg : p.minGrad = fin mg) (el : p.minLoss = fin ml) (hmg : 0 < mg)
    (n : Nat) (H : Heap XR) (r : SameRefs h H) (x : Fin (getNDofs h s) → ℝ) (ex : getData H s = vec x) :
    let o := Isotope.gdLoop p s n H (vec (quadGrad R b x)) (normL (vec (quadGrad R b x))) (getLoss H s)
    o.res = .ok ∧ o.steps.length ≤ n ∧ ∃ x', SameRefs h o.heap ∧ getData o.heap s = vec x' ∧
      quad R b x' ≤ shrink mu M ^ o.steps.length * quad R b x ∧
      (o.steps.length < n → quad R b x' < ml ∨ Real.sqrt (quadGrad R b x' ⬝ᵥ quadGrad R b x') < mg) :=
  l.gdLoop' (fun _ => rfl) w hmu hM lo hi p eg el hmg n H r x ex

end Isotope
