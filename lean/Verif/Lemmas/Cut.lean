import Verif.SpecCut
import Verif.Lemmas.GenInv
import Mathlib.Analysis.Matrix.Spectrum

/-!
# The cut-off of `pseudo_inverse`: eigenvectors
-/

namespace Isotope
open XR
open Matrix

variable {n : Nat}

/-- a symmetric matrix has a basis of eigenvectors -/
theorem exists_eigenbasis {A : Matrix (Fin n) (Fin n) ℝ} (hA : Aᵀ = A) :
    ∃ (b : Module.Basis (Fin n) ℝ (Fin n → ℝ)) (w : Fin n → ℝ), ∀ i, A *ᵥ b i = w i • b i := by
  have hH : A.IsHermitian := by
    rw [Matrix.IsHermitian, conjTranspose_eq_transpose_of_trivial, hA]
  refine ⟨hH.eigenvectorBasis.toBasis.map (WithLp.linearEquiv 2 ℝ (Fin n → ℝ)), hH.eigenvalues, fun i => ?_⟩
  have := hH.mulVec_eigenvectorBasis i
  simpa using this

/-- a matrix that scales the eigenvectors of a symmetric matrix by a function of their eigenvalues -/
theorem exists_scaled {A : Matrix (Fin n) (Fin n) ℝ} (hA : Aᵀ = A) (f : ℝ → ℝ) :
    ∃ P : Matrix (Fin n) (Fin n) ℝ, ∀ (x : Fin n → ℝ) (w : ℝ), A *ᵥ x = w • x → P *ᵥ x = f w • x := by
  obtain ⟨b, w, hb⟩ := exists_eigenbasis hA
  refine ⟨LinearMap.toMatrix' (b.constr ℝ fun i => f (w i) • b i), fun x v hx => ?_⟩
  have hP : LinearMap.toMatrix' (b.constr ℝ fun i => f (w i) • b i) *ᵥ x = (b.constr ℝ fun i => f (w i) • b i) x := by
    rw [← Matrix.toLin'_apply, Matrix.toLin'_toMatrix']
  rw [hP]
  have hsum := b.sum_repr x
  have hc : ∀ i, b.repr x i * w i = v * b.repr x i := by
    have e : ∑ i, (b.repr x i * w i - v * b.repr x i) • b i = 0 := by
      simp only [sub_smul, Finset.sum_sub_distrib, mul_smul, ← Finset.smul_sum, hsum]
      rw [← hx]
      conv_rhs => rw [← sub_self (A *ᵥ x)]
      congr 1
      conv_rhs => rw [← hsum]
      rw [mulVec_sum]
      refine Finset.sum_congr rfl fun i _ => ?_
      rw [mulVec_smul, hb]
    intro i
    have := Fintype.linearIndependent_iff.1 b.linearIndependent _ e i
    linarith
  conv_lhs => rw [← hsum]
  conv_rhs => rw [← hsum]
  rw [map_sum, Finset.smul_sum]
  refine Finset.sum_congr rfl fun i _ => ?_
  rw [map_smul, b.constr_basis, smul_smul, smul_smul]
  congr 1
  by_cases h0 : b.repr x i = 0
  · simp [h0]
  · have : w i = v := by
      have := hc i
      field_simp at this
      exact this
    rw [this, mul_comm]

open Classical in
/-- a pseudo-inverse with cut-off, in exact arithmetic -/
noncomputable def cutPInv : PInv XR := fun m eps =>
  if e : ∃ (n : Nat) (A : Matrix (Fin n) (Fin n) ℝ), m = mat A ∧ Aᵀ = A then
    .ok (mat (exists_scaled e.choose_spec.choose_spec.2 fun w => if eps.toReal < w then w⁻¹ else 0).choose)
  else genPInv m eps

theorem cutPInv_spec (A : Matrix (Fin n) (Fin n) ℝ) (ε : ℝ) (hA : Aᵀ = A) :
    ∃ P, cutPInv (mat A) (fin ε) = .ok (mat P) ∧
      ∀ (x : Fin n → ℝ) (w : ℝ), A *ᵥ x = w • x → P *ᵥ x = (if ε < w then w⁻¹ else 0) • x := by
  have e : ∃ (k : Nat) (B : Matrix (Fin k) (Fin k) ℝ), mat A = mat B ∧ Bᵀ = B := ⟨n, A, rfl, hA⟩
  unfold cutPInv
  rw [dif_pos e]
  have e2 := e.choose_spec.choose_spec
  have e3 := (exists_scaled e2.2 fun w => if (fin ε).toReal < w then w⁻¹ else 0).choose_spec
  generalize (exists_scaled e2.2 fun w => if (fin ε).toReal < w then w⁻¹ else 0).choose = P at *
  generalize e.choose_spec.choose = B at *
  generalize e.choose = k at *
  have hk : n = k := by simpa [mat] using congrArg List.length e2.1
  subst hk
  cases mat_injective e2.1
  exact ⟨P, rfl, e3⟩

theorem cutPInv_cut : CutPInv cutPInv := fun _ A ε _ hA _ _ => cutPInv_spec A ε hA

theorem cutPInv_good : GoodPInv cutPInv := by
  intro n A eps hn
  by_cases e : ∃ (k : Nat) (B : Matrix (Fin k) (Fin k) ℝ), mat A = mat B ∧ Bᵀ = B
  · unfold cutPInv
    rw [dif_pos e]
    have e2 := e.choose_spec.choose_spec
    generalize (exists_scaled e2.2 fun w => if eps.toReal < w then w⁻¹ else 0).choose = P at *
    generalize e.choose_spec.choose = B at *
    generalize e.choose = k at *
    have hk : n = k := by simpa [mat] using congrArg List.length e2.1
    subst hk
    exact ⟨P, rfl⟩
  · unfold cutPInv
    rw [dif_neg e]
    exact genPInv_good n A eps hn

theorem cutPInv_real : RealPInv cutPInv := by
  intro n A eps m hm
  rcases Nat.eq_zero_or_pos n with rfl | hn
  · by_cases e : ∃ (k : Nat) (B : Matrix (Fin k) (Fin k) ℝ), mat A = mat B ∧ Bᵀ = B
    · unfold cutPInv at hm
      rw [dif_pos e] at hm
      have e2 := e.choose_spec.choose_spec
      generalize (exists_scaled e2.2 fun w => if eps.toReal < w then w⁻¹ else 0).choose = P at *
      generalize e.choose_spec.choose = B at *
      generalize e.choose = k at *
      have hk : 0 = k := by simpa [mat] using congrArg List.length e2.1
      subst hk
      exact ⟨P, (PInvRes.ok.inj hm).symm⟩
    · unfold cutPInv at hm
      rw [dif_neg e] at hm
      exact genPInv_real 0 A eps m hm
  · obtain ⟨P, e⟩ := cutPInv_good n A eps hn
    rw [e] at hm
    exact ⟨P, (PInvRes.ok.inj hm).symm⟩

/-- if all eigenvalues are cut off, the pseudo-inverse is 0 -/
theorem cut_zero {A P : Matrix (Fin n) (Fin n) ℝ} {ε : ℝ} (hA : Aᵀ = A)
    (hP : ∀ (x : Fin n → ℝ) (w : ℝ), A *ᵥ x = w • x → P *ᵥ x = (if ε < w then w⁻¹ else 0) • x)
    (hs : ∀ x, x ⬝ᵥ (A *ᵥ x) ≤ ε * (x ⬝ᵥ x)) (y : Fin n → ℝ) : P *ᵥ y = 0 := by
  obtain ⟨b, w, hb⟩ := exists_eigenbasis hA
  have h0 : ∀ i, P *ᵥ b i = 0 := by
    intro i
    rw [hP _ _ (hb i), if_neg, zero_smul]
    have h1 := hs (b i)
    rw [hb, dotProduct_smul, smul_eq_mul] at h1
    have h2 : 0 < b i ⬝ᵥ b i := by
      have h3 : 0 ≤ b i ⬝ᵥ b i := Finset.sum_nonneg fun _ _ => mul_self_nonneg _
      rcases h3.lt_or_eq with h3 | h3
      · exact h3
      · exact absurd (dotProduct_self_eq_zero.1 h3.symm) (b.ne_zero i)
    exact not_lt.2 (le_of_mul_le_mul_right h1 h2)
  rw [← b.sum_repr y, mulVec_sum]
  refine Finset.sum_eq_zero fun i _ => ?_
  rw [mulVec_smul, h0, smul_zero]

end Isotope
