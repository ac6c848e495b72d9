import Verif.Lemmas.LinearGD

/-!
# Descent on a linear system with inexact losses and gradients
-/

namespace Isotope
open Matrix

/-- the length of a vector -/
noncomputable def vlen {n : Nat} (v : Fin n → ℝ) : ℝ := Real.sqrt (v ⬝ᵥ v)

section vlen
variable {n : Nat} (u v : Fin n → ℝ)

theorem vlen_nonneg : 0 ≤ vlen v := Real.sqrt_nonneg _

theorem vlen_mul_self : vlen v * vlen v = v ⬝ᵥ v := Real.mul_self_sqrt (dot_self_nonneg v)

theorem vlen_sq : vlen v ^ 2 = v ⬝ᵥ v := Real.sq_sqrt (dot_self_nonneg v)

theorem abs_dot_le : |u ⬝ᵥ v| ≤ vlen u * vlen v := by
  apply abs_le_of_sq_le_sq _ (mul_nonneg (vlen_nonneg u) (vlen_nonneg v))
  rw [mul_pow, vlen_sq, vlen_sq]
  exact dot_sq_le u v

theorem vlen_neg : vlen (-v) = vlen v := by
  unfold vlen; rw [neg_dotProduct, dotProduct_neg, neg_neg]

theorem vlen_smul (a : ℝ) : vlen (a • v) = |a| * vlen v := by
  unfold vlen
  rw [smul_dotProduct, dotProduct_smul, smul_eq_mul, smul_eq_mul, ← mul_assoc, Real.sqrt_mul (mul_self_nonneg a), Real.sqrt_mul_self_eq_abs]

theorem vlen_add_le : vlen (u + v) ≤ vlen u + vlen v := by
  have h1 := vlen_nonneg u
  have h2 := vlen_nonneg v
  apply le_of_sq_le_sq _ (add_nonneg h1 h2)
  rw [vlen_sq, add_sq, vlen_sq, vlen_sq, add_dotProduct, dotProduct_add, dotProduct_add, dotProduct_comm v u]
  have := (abs_le.1 (abs_dot_le u v)).2
  linarith

theorem vlen_sub_le : vlen (u - v) ≤ vlen u + vlen v := by
  rw [sub_eq_add_neg]
  exact (vlen_add_le u (-v)).trans (by rw [vlen_neg])

theorem vlen_le_add : vlen u ≤ vlen v + vlen (u - v) := by
  have := vlen_add_le v (u - v)
  rwa [add_sub_cancel] at this

theorem vlen_sub_comm : vlen (u - v) = vlen (v - u) := by rw [← vlen_neg, neg_sub]

theorem abs_le_vlen (i : Fin n) : |v i| ≤ vlen v := by
  apply Real.abs_le_sqrt
  rw [sq]
  exact Finset.single_le_sum (f := fun i => v i * v i) (fun i _ => mul_self_nonneg (v i)) (Finset.mem_univ i)

theorem vlen_le_of_abs {b : ℝ} (hb : 0 ≤ b) (h : ∀ i, |v i| ≤ b) : vlen v ≤ Real.sqrt n * b := by
  have : v ⬝ᵥ v ≤ n * b ^ 2 := by
    calc v ⬝ᵥ v ≤ ∑ _i : Fin n, b ^ 2 := Finset.sum_le_sum fun i _ => by
          rw [← sq, ← sq_abs]
          exact pow_le_pow_left₀ (abs_nonneg _) (h i) 2
      _ = n * b ^ 2 := by simp
  unfold vlen
  refine (Real.sqrt_le_sqrt this).trans ?_
  rw [Real.sqrt_mul (Nat.cast_nonneg n), Real.sqrt_sq hb]

end vlen

/-- what is seen of the loss and the gradient at a point -/
structure Noisy {m n : Nat} (A : Matrix (Fin m) (Fin n) ℝ) (eps kap : ℝ) (ρ : Fin m → ℝ) (L : ℝ) (g : Fin n → ℝ)
    (q : Fin m → ℝ) : Prop where
  res : vlen (q - ρ) ≤ eps
  loss : |Real.sqrt (2 * L) - vlen q| ≤ kap * vlen q + eps
  nonneg : 0 ≤ L
  grad : vlen (g - Aᵀ *ᵥ q) ≤ kap * vlen q

section
variable {m n : Nat} {A : Matrix (Fin m) (Fin n) ℝ} {c : Fin m → ℝ} {mu M : ℝ}

theorem WellPosed.mulVec_le (w : WellPosed A c mu M) (hM : 0 < M) (v : Fin n → ℝ) : vlen (A *ᵥ v) ≤ Real.sqrt M * vlen v := by
  unfold vlen
  rw [← Real.sqrt_mul hM.le]
  exact Real.sqrt_le_sqrt (w.high v)

theorem WellPosed.transpose_le (w : WellPosed A c mu M) (hM : 0 < M) (t : Fin m → ℝ) : vlen (Aᵀ *ᵥ t) ≤ Real.sqrt M * vlen t := by
  have h1 : vlen (Aᵀ *ᵥ t) * vlen (Aᵀ *ᵥ t) ≤ (Real.sqrt M * vlen t) * vlen (Aᵀ *ᵥ t) := by
    rw [vlen_mul_self, dot_mulVec]
    refine (abs_le.1 (abs_dot_le _ _)).2.trans ?_
    calc vlen t * vlen (A *ᵥ (Aᵀ *ᵥ t)) ≤ vlen t * (Real.sqrt M * vlen (Aᵀ *ᵥ t)) :=
          mul_le_mul_of_nonneg_left (w.mulVec_le hM _) (vlen_nonneg t)
      _ = _ := by ring
  rcases (vlen_nonneg (Aᵀ *ᵥ t)).eq_or_lt with h0 | h0
  · rw [← h0]; exact mul_nonneg (Real.sqrt_nonneg M) (vlen_nonneg t)
  · exact le_of_mul_le_mul_right h1 h0

/-- on combinations of the rows, the matrix does not shrink lengths much -/
theorem WellPosed.range_le (w : WellPosed A c mu M) (hmu : 0 < mu) (t : Fin m → ℝ) :
    Real.sqrt mu * vlen (Aᵀ *ᵥ t) ≤ vlen (A *ᵥ (Aᵀ *ᵥ t)) := by
  set e := Aᵀ *ᵥ t with ee
  obtain ⟨v0, e0, -⟩ := w.low 0
  obtain ⟨v1, e1, h1⟩ := w.low (v0 + e)
  -- v0 + e - v1 has the same image as e
  have hA : A *ᵥ (v0 + e - v1) = A *ᵥ e := by rw [mulVec_sub, mulVec_add, e0, e1]; abel
  have hL : 2 * quad A c (v0 + e) = (A *ᵥ e) ⬝ᵥ (A *ᵥ e) := by
    unfold quad
    rw [mulVec_add, e0, add_sub_cancel_left]; ring
  rw [hL] at h1
  generalize v0 + e - v1 = d at hA h1
  -- e is the projection of d
  have h2 : e ⬝ᵥ e = e ⬝ᵥ d := by
    conv_lhs => rw [ee, dot_mulVec, ← ee, ← hA, ← dot_mulVec]
  have h3 : e ⬝ᵥ e ≤ d ⬝ᵥ d := by
    have := dot_self_nonneg (d - e)
    rw [sub_dotProduct, dotProduct_sub, dotProduct_sub, dotProduct_comm d e] at this
    linarith
  unfold vlen
  rw [← Real.sqrt_mul hmu.le]
  exact Real.sqrt_le_sqrt ((mul_le_mul_of_nonneg_left h3 hmu.le).trans h1)

theorem WellPosed.grad_ge (w : WellPosed A c mu M) (hmu : 0 < mu) (x : Fin n → ℝ) :
    Real.sqrt mu * vlen (A *ᵥ x - c) ≤ vlen (Aᵀ *ᵥ (A *ᵥ x - c)) := by
  have := (w.bounds hmu x).1
  unfold vlen
  rw [← Real.sqrt_mul hmu.le]
  refine Real.sqrt_le_sqrt ?_
  have e : 2 * mu * quad A c x = mu * ((A *ᵥ x - c) ⬝ᵥ (A *ᵥ x - c)) := by unfold quad; ring
  rw [← e]
  exact this

/-- how small the noise has to be -/
noncomputable def tol (mu M : ℝ) : ℝ := mu / (4096 * (1 + M))

theorem tol_pos (hmu : 0 < mu) (hM : mu ≤ M) : 0 < tol mu M := div_pos hmu (by linarith)

theorem tol_mul (hmu : 0 < mu) (hM : mu ≤ M) : tol mu M * (4096 * (1 + M)) = mu := div_mul_cancel₀ _ (by linarith)

theorem tol_facts (hmu : 0 < mu) (hM : mu ≤ M) :
    (Real.sqrt M + 1.01) * tol mu M ≤ 0.0004 * Real.sqrt mu ∧ Real.sqrt M * ((Real.sqrt M + 1.01) * tol mu M) ≤ 0.0004 * mu ∧
    tol mu M ≤ 1 / 4096 := by
  have t0 := tol_pos hmu hM
  have t1 := tol_mul hmu hM
  have hM0 : 0 < M := by linarith
  have a1 := Real.mul_self_sqrt hmu.le
  have a2 := Real.mul_self_sqrt hM0.le
  have a3 := Real.sqrt_le_sqrt hM
  have a4 := Real.sqrt_pos.2 hmu
  set sm := Real.sqrt mu
  set sM := Real.sqrt M
  set t := tol mu M
  have a5 : 2 * sM ≤ 1 + M := by nlinarith [mul_self_nonneg (sM - 1)]
  have b1 : (sM + 1.01) * sm ≤ 1.51 * (1 + M) := by
    have : sM * sm ≤ sM * sM := mul_le_mul_of_nonneg_left a3 (a4.le.trans a3)
    nlinarith
  have b2 : sM * (sM + 1.01) ≤ 1.51 * (1 + M) := by nlinarith
  refine ⟨?_, ?_, ?_⟩
  · have h1 : ((sM + 1.01) * t) * sm ≤ (0.0004 * sm) * sm := by
      calc ((sM + 1.01) * t) * sm = ((sM + 1.01) * sm) * t := by ring
        _ ≤ (1.51 * (1 + M)) * t := mul_le_mul_of_nonneg_right b1 t0.le
        _ = 1.51 / 4096 * (t * (4096 * (1 + M))) := by ring
        _ = 1.51 / 4096 * (sm * sm) := by rw [t1, a1]
        _ ≤ _ := by nlinarith
    exact le_of_mul_le_mul_right h1 a4
  · calc sM * ((sM + 1.01) * t) = (sM * (sM + 1.01)) * t := by ring
      _ ≤ (1.51 * (1 + M)) * t := mul_le_mul_of_nonneg_right b2 t0.le
      _ = 1.51 / 4096 * (t * (4096 * (1 + M))) := by ring
      _ = 1.51 / 4096 * mu := by rw [t1]
      _ ≤ _ := by nlinarith
  · have : t * (4096 * (1 + M)) ≤ 1 / 4096 * (4096 * (1 + M)) := by rw [t1]; linarith
    exact le_of_mul_le_mul_right this (by linarith)

/-- the seen gradient is close to the true one -/
theorem Noisy.grad_near (w : WellPosed A c mu M) (hM0 : 0 < M) {eps kap L r t : ℝ} {g : Fin n → ℝ} {ρ q : Fin m → ℝ}
    (h : Noisy A eps kap ρ L g q) (he : eps ≤ t * r) (hk : kap ≤ t) (ht : 0 ≤ t) (hq : vlen q ≤ 1.01 * r) :
    vlen (g - Aᵀ *ᵥ ρ) ≤ (Real.sqrt M + 1.01) * t * r := by
  have e : g - Aᵀ *ᵥ ρ = (g - Aᵀ *ᵥ q) + Aᵀ *ᵥ (q - ρ) := by rw [mulVec_sub Aᵀ q]; abel
  rw [e]
  refine (vlen_add_le _ _).trans ?_
  have h1 : vlen (g - Aᵀ *ᵥ q) ≤ t * (1.01 * r) :=
    h.grad.trans (mul_le_mul hk hq (vlen_nonneg q) ht)
  have h2 : vlen (Aᵀ *ᵥ (q - ρ)) ≤ Real.sqrt M * (t * r) :=
    (w.transpose_le hM0 _).trans (mul_le_mul_of_nonneg_left (h.res.trans he) (Real.sqrt_nonneg M))
  linarith

/-- what is known at the base of a line search -/
structure Base (A : Matrix (Fin m) (Fin n) ℝ) (mu M : ℝ) (ρ : Fin m → ℝ) (g : Fin n → ℝ) (L : ℝ) : Prop where
  pos : 0 < vlen ρ
  a_pos : 0 < vlen g
  a_ge : 0.9996 * (Real.sqrt mu * vlen ρ) ≤ vlen g
  a_le : vlen g ≤ 1.0004 * (Real.sqrt M * vlen ρ)
  near : |ρ ⬝ᵥ (A *ᵥ g) - vlen g ^ 2| ≤ 0.00041 * vlen g ^ 2
  d_ge : 0.998 * mu * vlen g ^ 2 ≤ vlen (A *ᵥ g) ^ 2
  d_le : vlen (A *ᵥ g) ^ 2 ≤ M * vlen g ^ 2
  loss : |Real.sqrt (2 * L) - vlen ρ| ≤ 3.01 * tol mu M * vlen ρ
  nonneg : 0 ≤ L

theorem Noisy.base (w : WellPosed A c mu M) (hmu : 0 < mu) (hM : mu ≤ M) {eps kap L : ℝ} {x g : Fin n → ℝ} {ρ q : Fin m → ℝ}
    (eρ : ρ = A *ᵥ x - c) (h : Noisy A eps kap ρ L g q) (he : eps ≤ tol mu M * vlen ρ) (hk : kap ≤ tol mu M) (hr : 0 < vlen ρ) :
    Base A mu M ρ g L := by
  have hM0 : 0 < M := by linarith
  obtain ⟨t1, t2, t3⟩ := tol_facts hmu hM
  have t0 := tol_pos hmu hM
  have a1 := Real.mul_self_sqrt hmu.le
  have a2 := Real.mul_self_sqrt hM0.le
  have a3 := Real.sqrt_le_sqrt hM
  have a4 := Real.sqrt_pos.2 hmu
  have hq : vlen q ≤ (1 + tol mu M) * vlen ρ := by
    have := vlen_le_add q ρ
    have := h.res
    linarith
  have hq' : vlen q ≤ 1.01 * vlen ρ := by nlinarith
  have hn := h.grad_near w hM0 he hk t0.le hq'
  have hg := w.grad_ge hmu x
  rw [← eρ] at hg
  have hG := w.transpose_le hM0 ρ
  have hR := w.range_le hmu ρ
  have hql : |vlen q - vlen ρ| ≤ tol mu M * vlen ρ := by
    have b1 := vlen_le_add q ρ
    have b2 := vlen_le_add ρ q
    rw [vlen_sub_comm ρ] at b2
    have := h.res
    rw [abs_le]
    constructor <;> linarith
  have hloss := h.loss
  have hnn := h.nonneg
  set g0 := Aᵀ *ᵥ ρ with eg0
  set r := vlen ρ
  set sm := Real.sqrt mu
  set sM := Real.sqrt M
  set t := tol mu M
  have hθ : vlen (g - g0) ≤ 0.0004 * (sm * r) := hn.trans (by nlinarith)
  have hsr : 0 < sm * r := mul_pos a4 hr
  have b1 := vlen_le_add g g0
  have b2 := vlen_le_add g0 g
  rw [vlen_sub_comm] at b2
  have ha : 0.9996 * (sm * r) ≤ vlen g := by linarith
  have ha0 : 0 < vlen g := by linarith
  have hθa : vlen (g - g0) ≤ 0.00041 * vlen g := by linarith
  have hw : ρ ⬝ᵥ (A *ᵥ g) = g0 ⬝ᵥ g := by rw [eg0, dot_mulVec]
  refine ⟨hr, ha0, ha, ?_, ?_, ?_, ?_, ?_, hnn⟩
  · have : sm * r ≤ sM * r := mul_le_mul_of_nonneg_right a3 hr.le
    linarith
  · rw [hw, vlen_sq, ← sub_dotProduct]
    refine (abs_dot_le _ _).trans ?_
    rw [vlen_sub_comm, ← vlen_mul_self, ← mul_assoc]
    exact mul_le_mul_of_nonneg_right hθa ha0.le
  · -- the image of the gradient
    have c1 := vlen_le_add (A *ᵥ g0) (A *ᵥ g)
    rw [← mulVec_sub] at c1
    have c2 := w.mulVec_le hM0 (g0 - g)
    rw [vlen_sub_comm g0 g] at c2
    have c3 : sM * vlen (g - g0) ≤ 0.0004 * (mu * r) := by
      calc sM * vlen (g - g0) ≤ sM * ((sM + 1.01) * t * r) := mul_le_mul_of_nonneg_left hn (Real.sqrt_nonneg M)
        _ = (sM * ((sM + 1.01) * t)) * r := by ring
        _ ≤ (0.0004 * mu) * r := mul_le_mul_of_nonneg_right t2 hr.le
        _ = _ := by ring
    have c4 : mu * r ≤ sm * vlen g0 := by
      rw [← a1, mul_assoc]
      exact mul_le_mul_of_nonneg_left hg a4.le
    have c5 : 0.9996 * (sm * vlen g0) ≤ vlen (A *ᵥ g) := by linarith
    have c6 : 0.9995 * vlen g ≤ vlen g0 := by linarith
    have c7 : 0.999 * (sm * vlen g) ≤ vlen (A *ᵥ g) := by
      have : sm * (0.9995 * vlen g) ≤ sm * vlen g0 := mul_le_mul_of_nonneg_left c6 a4.le
      have := mul_pos a4 ha0
      linarith
    have c8 : 0 ≤ 0.999 * (sm * vlen g) := by have := mul_pos a4 ha0; linarith
    have c9 : (0.999 * (sm * vlen g)) ^ 2 ≤ vlen (A *ᵥ g) ^ 2 := pow_le_pow_left₀ c8 c7 2
    have c10 : (0.999 * (sm * vlen g)) ^ 2 = 0.998001 * (mu * vlen g ^ 2) := by rw [← a1]; ring
    rw [c10] at c9
    have : 0 < mu * vlen g ^ 2 := mul_pos hmu (pow_pos ha0 2)
    linarith
  · rw [vlen_sq, vlen_sq]; exact w.high g
  · have c1 : kap * vlen q ≤ t * ((1 + t) * r) := mul_le_mul hk hq (vlen_nonneg q) t0.le
    have c2 : |Real.sqrt (2 * L) - r| ≤ |Real.sqrt (2 * L) - vlen q| + |vlen q - r| := abs_sub_le _ _ _
    have c3 : t * ((1 + t) * r) ≤ 1.01 * t * r := by
      have := mul_pos t0 hr
      nlinarith
    linarith


section base
variable {ρ ρy qy : Fin m → ℝ} {g gy : Fin n → ℝ} {L Ly eps kap α : ℝ}

/-- steps that are not tiny are large compared to the noise -/
theorem Base.step_ge (b : Base A mu M ρ g L) (hmu : 0 < mu) (hM : mu ≤ M) (hα : 0.95 ≤ α * (1 + M)) :
    3880 * (tol mu M * vlen ρ ^ 2) ≤ α * vlen g ^ 2 := by
  have t0 := tol_pos hmu hM
  have t1 := tol_mul hmu hM
  have a1 := Real.mul_self_sqrt hmu.le
  have a4 := Real.sqrt_pos.2 hmu
  have hr := b.pos
  have ha := b.a_ge
  set r := vlen ρ
  set a := vlen g
  set sm := Real.sqrt mu
  set t := tol mu M
  have hsr : 0 < sm * r := mul_pos a4 hr
  have h1 : (0.9996 * (sm * r)) ^ 2 ≤ a ^ 2 := pow_le_pow_left₀ (by linarith) ha 2
  have h2 : (0.9996 * (sm * r)) ^ 2 = 0.99920016 * (4096 * (1 + M) * (t * r ^ 2)) := by
    rw [show 4096 * (1 + M) * (t * r ^ 2) = (t * (4096 * (1 + M))) * r ^ 2 by ring, t1, ← a1]; ring
  rw [h2] at h1
  have h3 : 0 < t * r ^ 2 := mul_pos t0 (pow_pos hr 2)
  have hα0 : 0 < α := by
    by_contra hh
    have : α * (1 + M) ≤ 0 := mul_nonpos_of_nonpos_of_nonneg (not_lt.1 hh) (by linarith)
    linarith
  have h4 := mul_le_mul_of_nonneg_left h1 hα0.le
  have h5 : 0.95 * (t * r ^ 2) ≤ α * (1 + M) * (t * r ^ 2) := mul_le_mul_of_nonneg_right hα h3.le
  nlinarith

/-- the residual after a step -/
theorem Base.parabola (ρ : Fin m → ℝ) (z : Fin m → ℝ) (α : ℝ) :
    vlen (ρ - α • z) ^ 2 = vlen ρ ^ 2 - 2 * α * (ρ ⬝ᵥ z) + α ^ 2 * vlen z ^ 2 := by
  rw [vlen_sq, vlen_sq, vlen_sq]
  simp only [sub_dotProduct, dotProduct_sub, smul_dotProduct, dotProduct_smul, smul_eq_mul, dotProduct_comm z ρ]
  ring

theorem noise_above {Sy p t r : ℝ} (s0 : 0 ≤ Sy) (k3 : Sy ≤ p + 4.01 * (t * r)) (k2 : p ≤ r) (t0 : 0 < t) (t3 : t ≤ 1 / 4096)
    (hr : 0 < r) : Sy ^ 2 ≤ p ^ 2 + 8.1 * (t * r ^ 2) := by
  have tr : 0 < t * r := mul_pos t0 hr
  have e1 : Sy ^ 2 ≤ (p + 4.01 * (t * r)) ^ 2 := pow_le_pow_left₀ s0 k3 2
  have e2 : p * (t * r) ≤ r * (t * r) := mul_le_mul_of_nonneg_right k2 tr.le
  have e3 : (t * r) * (t * r) ≤ (1 / 4096 * r) * (t * r) :=
    mul_le_mul_of_nonneg_right (mul_le_mul_of_nonneg_right t3 hr.le) tr.le
  have e4 : 0 < t * r ^ 2 := mul_pos t0 (pow_pos hr 2)
  nlinarith

theorem noise_below {S t r : ℝ} (e1 : r - 3.01 * (t * r) ≤ S)  (t3 : t ≤ 1 / 4096) (hr : 0 < r) :
    r ^ 2 - 6.02 * (t * r ^ 2) ≤ S ^ 2 := by
  have e0 : 0 ≤ r - 3.01 * (t * r) := by
    have : t * r ≤ 1 / 4096 * r := mul_le_mul_of_nonneg_right t3 hr.le
    linarith
  have e2 := pow_le_pow_left₀ e0 e1 2
  nlinarith [sq_nonneg (t * r)]

/-- steps that are not too long decrease the loss enough -/
theorem Base.armijo (b : Base A mu M ρ g L) (hmu : 0 < mu) (hM : mu ≤ M) (h : Noisy A eps kap ρy Ly gy qy)
    (he : eps ≤ tol mu M * vlen ρ) (hk : kap ≤ tol mu M) (hρ : vlen (ρy - (ρ - α • (A *ᵥ g))) ≤ tol mu M * vlen ρ)
    (hα : 0.95 ≤ α * (1 + M)) (hβ : α * vlen (A *ᵥ g) ^ 2 ≤ 1.9 * vlen g ^ 2) : Ly ≤ L - 0.04 * (α * vlen g ^ 2) := by
  have hst := b.step_ge hmu hM hα
  have t0 := tol_pos hmu hM
  have t3 := (tol_facts hmu hM).2.2
  have hpar := Base.parabola ρ (A *ᵥ g) α
  have hα0 : 0 < α := by
    by_contra hh
    have : α * (1 + M) ≤ 0 := mul_nonpos_of_nonpos_of_nonneg (not_lt.1 hh) (by linarith)
    linarith
  have hw := (abs_le.1 b.near).1
  have hloss := (abs_le.1 b.loss).1
  have hly := (abs_le.1 h.loss).2
  have hr := b.pos
  have ha := pow_pos b.a_pos 2
  have c1 := vlen_le_add ρy (ρ - α • (A *ᵥ g))
  have c2 := vlen_le_add qy ρy
  have c3 := h.res
  have p0 := vlen_nonneg (ρ - α • (A *ᵥ g))
  have q0 := vlen_nonneg qy
  have hL : Real.sqrt (2 * L) ^ 2 = 2 * L := Real.sq_sqrt (by linarith [b.nonneg])
  have hLy : Real.sqrt (2 * Ly) ^ 2 = 2 * Ly := Real.sq_sqrt (by linarith [h.nonneg])
  have s0 := Real.sqrt_nonneg (2 * Ly)
  set p := vlen (ρ - α • (A *ᵥ g))
  set w := ρ ⬝ᵥ (A *ᵥ g)
  set d2 := vlen (A *ᵥ g) ^ 2
  set r := vlen ρ
  set a2 := vlen g ^ 2
  set t := tol mu M
  set S := Real.sqrt (2 * L)
  set Sy := Real.sqrt (2 * Ly)
  have hαa : 0 < α * a2 := mul_pos hα0 ha
  have k1 : p ^ 2 ≤ r ^ 2 - 0.0991 * (α * a2) := by
    have e1 : α ^ 2 * d2 ≤ α * (1.9 * a2) := by
      rw [sq, mul_assoc]; exact mul_le_mul_of_nonneg_left hβ hα0.le
    have e2 : α * (0.99959 * a2) ≤ α * w := mul_le_mul_of_nonneg_left (by linarith) hα0.le
    rw [hpar]
    linarith
  have k2 : p ≤ r := by
    apply le_of_sq_le_sq _ hr.le
    linarith
  have tr : 0 < t * r := mul_pos t0 hr
  have k3 : Sy ≤ p + 4.01 * (t * r) := by
    have e1 : vlen qy ≤ p + 2 * (t * r) := by linarith
    have e2 : kap * vlen qy ≤ t * (p + 2 * (t * r)) := mul_le_mul hk e1 q0 t0.le
    have e3 : t * (p + 2 * (t * r)) ≤ t * (r + 2 * (1 / 4096 * r)) :=
      mul_le_mul_of_nonneg_left (by nlinarith) t0.le
    nlinarith
  have k4 : Sy ^ 2 ≤ p ^ 2 + 8.1 * (t * r ^ 2) := noise_above s0 k3 k2 t0 t3 hr
  have k5 : r ^ 2 - 6.02 * (t * r ^ 2) ≤ S ^ 2 := noise_below (by linarith) t3 hr
  rw [hLy] at k4
  rw [hL] at k5
  linarith

/-- steps that are not too short and do not increase the loss flatten the slope enough -/
theorem Base.curvature (b : Base A mu M ρ g L) (w : WellPosed A c mu M) (hmu : 0 < mu) (hM : mu ≤ M) (h : Noisy A eps kap ρy Ly gy qy)
    (he : eps ≤ tol mu M * vlen ρ) (hk : kap ≤ tol mu M) (hρ : vlen (ρy - (ρ - α • (A *ᵥ g))) ≤ tol mu M * vlen ρ)
    (hβ : 0.12 * vlen g ^ 2 ≤ α * vlen (A *ᵥ g) ^ 2) (hL : Ly ≤ L) :
    gy ⬝ᵥ g ≤ 0.89 * vlen g ^ 2 ∧ vlen gy * vlen g ≤ 1.02 * (Real.sqrt M * vlen ρ) * vlen g := by
  have hM0 : 0 < M := by linarith
  have t0 := tol_pos hmu hM
  obtain ⟨t1, t2, t3⟩ := tol_facts hmu hM
  have a3 := Real.sqrt_le_sqrt hM
  have a4 := Real.sqrt_pos.2 hmu
  have hS : Real.sqrt (2 * Ly) ≤ Real.sqrt (2 * L) := Real.sqrt_le_sqrt (by linarith)
  have hr := b.pos
  have ha := b.a_pos
  have hw := (abs_le.1 b.near).2
  have hl := (abs_le.1 b.loss).2
  have hly := (abs_le.1 h.loss).1
  have q0 := vlen_nonneg qy
  have hage := b.a_ge
  have hkap : kap * vlen qy ≤ tol mu M * vlen qy := mul_le_mul_of_nonneg_right hk q0
  have tr : 0 < tol mu M * vlen ρ := mul_pos t0 hr
  have hq : vlen qy ≤ 1.005 * vlen ρ := by
    have e1 : vlen qy * (1 - tol mu M) ≤ (1 + 4.01 * tol mu M) * vlen ρ := by linarith
    have e2 : vlen qy * (1 - 1 / 4096) ≤ vlen qy * (1 - tol mu M) := mul_le_mul_of_nonneg_left (by linarith) q0
    have e3 : (1 + 4.01 * tol mu M) * vlen ρ ≤ (1 + 4.01 / 4096) * vlen ρ := mul_le_mul_of_nonneg_right (by linarith) hr.le
    linarith
  have hn := h.grad_near w hM0 he hk t0.le (by linarith : vlen qy ≤ 1.01 * vlen ρ)
  have key : gy ⬝ᵥ g = ρ ⬝ᵥ (A *ᵥ g) - α * vlen (A *ᵥ g) ^ 2 + (ρy - (ρ - α • (A *ᵥ g))) ⬝ᵥ (A *ᵥ g) + (gy - Aᵀ *ᵥ ρy) ⬝ᵥ g := by
    rw [sub_dotProduct gy, dot_mulVec, sub_dotProduct, sub_dotProduct, smul_dotProduct, vlen_sq, smul_eq_mul]
    ring
  have e1 := (abs_le.1 (abs_dot_le (ρy - (ρ - α • (A *ᵥ g))) (A *ᵥ g))).2
  have e2 := (abs_le.1 (abs_dot_le (gy - Aᵀ *ᵥ ρy) g)).2
  have e3 : vlen (ρy - (ρ - α • (A *ᵥ g))) * vlen (A *ᵥ g) ≤ (tol mu M * vlen ρ) * (Real.sqrt M * vlen g) :=
    mul_le_mul hρ (w.mulVec_le hM0 g) (vlen_nonneg _) tr.le
  have e4 : vlen (gy - Aᵀ *ᵥ ρy) * vlen g ≤ ((Real.sqrt M + 1.01) * tol mu M * vlen ρ) * vlen g :=
    mul_le_mul_of_nonneg_right hn ha.le
  have e5 : ((Real.sqrt M + 1.01) * tol mu M * vlen ρ) ≤ 0.00041 * vlen g := by
    have : (Real.sqrt M + 1.01) * tol mu M * vlen ρ ≤ 0.0004 * Real.sqrt mu * vlen ρ := mul_le_mul_of_nonneg_right t1 hr.le
    have : 0 < Real.sqrt mu * vlen ρ := mul_pos a4 hr
    linarith
  have e6 : ((Real.sqrt M + 1.01) * tol mu M * vlen ρ) * vlen g ≤ (0.00041 * vlen g) * vlen g := mul_le_mul_of_nonneg_right e5 ha.le
  have e7 : (tol mu M * vlen ρ) * (Real.sqrt M * vlen g) ≤ ((Real.sqrt M + 1.01) * tol mu M * vlen ρ) * vlen g := by
    have : 0 ≤ tol mu M * vlen ρ * vlen g := mul_nonneg tr.le ha.le
    nlinarith
  constructor
  · rw [key]
    nlinarith
  · refine mul_le_mul_of_nonneg_right ?_ ha.le
    have f1 := vlen_le_add gy (Aᵀ *ᵥ qy)
    have f2 := w.transpose_le hM0 qy
    have f3 := h.grad
    have f4 : Real.sqrt M * vlen qy ≤ Real.sqrt M * (1.005 * vlen ρ) := mul_le_mul_of_nonneg_left hq (Real.sqrt_nonneg M)
    have f5 : tol mu M * vlen qy ≤ tol mu M * (1.005 * vlen ρ) := mul_le_mul_of_nonneg_left hq t0.le
    have f6 : tol mu M * vlen ρ ≤ 0.0004 * (Real.sqrt M * vlen ρ) := by
      have g1 : tol mu M ≤ 0.0004 * Real.sqrt mu := by
        have := Real.sqrt_nonneg M
        nlinarith
      have g2 : tol mu M * vlen ρ ≤ (0.0004 * Real.sqrt M) * vlen ρ := mul_le_mul_of_nonneg_right (by linarith) hr.le
      linarith
    have f7 : 0 ≤ Real.sqrt M * vlen ρ := mul_nonneg (Real.sqrt_nonneg M) hr.le
    linarith

/-- the length of a trial step -/
theorem Base.step_le (b : Base A mu M ρ g L) (hmu : 0 < mu) (hα : 0 < α)
    (hs : α ≤ 1 ∨ α * vlen (A *ᵥ g) ^ 2 ≤ 0.18 * vlen g ^ 2) :
    α * vlen g ≤ 1.01 * (Real.sqrt M + 1 / Real.sqrt mu) * vlen ρ := by
  have hr := b.pos
  have ha := b.a_pos
  have a4 := Real.sqrt_pos.2 hmu
  have hd0 : 0 < vlen (A *ᵥ g) := by
    rcases (vlen_nonneg (A *ᵥ g)).eq_or_lt with h0 | h0
    · exfalso
      have := b.d_ge
      rw [← h0] at this
      have := mul_pos hmu (pow_pos ha 2)
      linarith
    · exact h0
  have hm : 0 < 1 / Real.sqrt mu * vlen ρ := mul_pos (by positivity) hr
  have hM' : 0 ≤ Real.sqrt M * vlen ρ := mul_nonneg (Real.sqrt_nonneg M) hr.le
  rcases hs with hs | hs
  · have := b.a_le
    have : α * vlen g ≤ 1 * vlen g := mul_le_mul_of_nonneg_right hs ha.le
    linarith
  · -- a² ≤ 1.001 r d and 0.998 √μ a ≤ d
    have h1 : 0.999 * vlen g ^ 2 ≤ vlen ρ * vlen (A *ᵥ g) := by
      have e1 := (abs_le.1 b.near).1
      have e2 := (abs_le.1 (abs_dot_le ρ (A *ᵥ g))).2
      have := pow_pos ha 2
      linarith
    have h2 : 0.99 * (Real.sqrt mu * vlen g) ≤ vlen (A *ᵥ g) := by
      apply le_of_sq_le_sq _ hd0.le
      have := b.d_ge
      rw [mul_pow, mul_pow, Real.sq_sqrt hmu.le]
      have := mul_pos hmu (pow_pos ha 2)
      nlinarith
    -- α d² ≤ 0.18 a², so α d ≤ 0.181 r
    have h3 : α * vlen (A *ᵥ g) ≤ 0.181 * vlen ρ := by
      have : (α * vlen (A *ᵥ g)) * vlen (A *ᵥ g) ≤ (0.181 * vlen ρ) * vlen (A *ᵥ g) := by nlinarith
      exact le_of_mul_le_mul_right this hd0
    have h4 : α * (0.99 * (Real.sqrt mu * vlen g)) ≤ α * vlen (A *ᵥ g) := mul_le_mul_of_nonneg_left h2 hα.le
    have h5 : α * vlen g ≤ 0.19 * (1 / Real.sqrt mu * vlen ρ) := by
      have : (α * vlen g) * Real.sqrt mu ≤ (0.19 * (1 / Real.sqrt mu * vlen ρ)) * Real.sqrt mu := by
        have e : (0.19 * (1 / Real.sqrt mu * vlen ρ)) * Real.sqrt mu = 0.19 * vlen ρ := by field_simp
        rw [e]
        nlinarith
      exact le_of_mul_le_mul_right this a4
    linarith

/-- the decrease of the loss in a step the line search accepts -/
theorem Base.decrease (b : Base A mu M ρ g L) (hmu : 0 < mu) (hM : mu ≤ M) (hα : 0.95 ≤ α * (1 + M))
    (hL : Ly ≤ L - 0.98e-4 * (α * vlen g ^ 2)) : Ly ≤ (1 - 1.8e-4 * (mu / (1 + M))) * L := by
  have hst := b.step_ge hmu hM hα
  have t0 := tol_pos hmu hM
  have t1 := tol_mul hmu hM
  have t3 := (tol_facts hmu hM).2.2
  have hr := b.pos
  have hl := (abs_le.1 b.loss).2
  have h1 : Real.sqrt (2 * L) ≤ 1.001 * vlen ρ := by nlinarith
  have h2 : 2 * L ≤ (1.001 * vlen ρ) ^ 2 := by
    have := pow_le_pow_left₀ (Real.sqrt_nonneg _) h1 2
    rwa [Real.sq_sqrt (by linarith [b.nonneg])] at this
  have e : mu / (1 + M) = 4096 * tol mu M := by
    unfold tol
    have : (1 + M) ≠ 0 := by linarith
    field_simp
  rw [e]
  have h3 : tol mu M * (2 * L) ≤ tol mu M * (1.001 * vlen ρ) ^ 2 := mul_le_mul_of_nonneg_left h2 t0.le
  have h4 : 0 ≤ tol mu M * L := mul_nonneg t0.le b.nonneg
  have h5 : 0 ≤ tol mu M * vlen ρ ^ 2 := mul_nonneg t0.le (sq_nonneg _)
  nlinarith

end base

end

end Isotope
