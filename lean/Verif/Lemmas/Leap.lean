import Verif.Lemmas.Way

/-!
# How long a step of Gauss-Newton or Levenberg-Marquardt is
-/

namespace Isotope
open XR
open Matrix

section alg
variable {m n : Nat}

/-- a symmetric matrix has an orthonormal basis of eigenvectors -/
theorem exists_orthobasis {A : Matrix (Fin n) (Fin n) ℝ} (hA : Aᵀ = A) :
    ∃ (b : Fin n → Fin n → ℝ) (w : Fin n → ℝ), (∀ i, A *ᵥ b i = w i • b i) ∧ ∀ x y : Fin n → ℝ, x ⬝ᵥ y = ∑ i, (x ⬝ᵥ b i) * (y ⬝ᵥ b i) := by
  have hH : A.IsHermitian := by
    rw [Matrix.IsHermitian, conjTranspose_eq_transpose_of_trivial, hA]
  refine ⟨fun i => (hH.eigenvectorBasis i).ofLp, hH.eigenvalues, fun i => ?_, fun x y => ?_⟩
  · simpa using hH.mulVec_eigenvectorBasis i
  · have := hH.eigenvectorBasis.sum_inner_mul_inner (WithLp.toLp 2 x) (WithLp.toLp 2 y)
    simp only [EuclideanSpace.inner_eq_star_dotProduct, star_trivial] at this
    rw [dotProduct_comm x y, ← this]
    refine Finset.sum_congr rfl fun i _ => ?_
    rw [dotProduct_comm x]

/-- the step `x = P Jᵀ l` for the pseudo-inverse `P` of `Jᵀ J + β` with cut-off `ε` -/
theorem leap_bound {J : Matrix (Fin m) (Fin n) ℝ} {P : Matrix (Fin n) (Fin n) ℝ} {β ε : ℝ} (hε : 0 ≤ ε)
    (hP : ∀ (x : Fin n → ℝ) (w : ℝ), (Jᵀ * J + β • 1) *ᵥ x = w • x → P *ᵥ x = (if ε < w then w⁻¹ else 0) • x) (l : Fin m → ℝ) (hβ : 0 ≤ β) :
    ε * ((P *ᵥ (Jᵀ *ᵥ l)) ⬝ᵥ (P *ᵥ (Jᵀ *ᵥ l))) ≤ l ⬝ᵥ l ∧ 4 * β * ((P *ᵥ (Jᵀ *ᵥ l)) ⬝ᵥ (P *ᵥ (Jᵀ *ᵥ l))) ≤ l ⬝ᵥ l := by
  have hA := lm_symm J β
  obtain ⟨b, w, hb, par⟩ := exists_orthobasis hA
  have xb : ∀ i, (P *ᵥ (Jᵀ *ᵥ l)) ⬝ᵥ b i = (if ε < w i then (w i)⁻¹ else 0) * ((Jᵀ *ᵥ l) ⬝ᵥ b i) := fun i =>
    scaled_symm hA (f := fun w => if ε < w then w⁻¹ else 0) hP (hb i) _
  have xv : (P *ᵥ (Jᵀ *ᵥ l)) ⬝ᵥ (Jᵀ *ᵥ l) = (J *ᵥ (P *ᵥ (Jᵀ *ᵥ l))) ⬝ᵥ l := by
    rw [dotProduct_mulVec, vecMul_transpose]
  generalize ev : Jᵀ *ᵥ l = v at *
  generalize P *ᵥ v = x at *
  have Ab : ∀ i, ((Jᵀ * J + β • 1) *ᵥ x) ⬝ᵥ b i = w i * (x ⬝ᵥ b i) := fun i => by
    have : ((Jᵀ * J + β • 1) *ᵥ x) ⬝ᵥ b i = x ⬝ᵥ ((Jᵀ * J + β • 1) *ᵥ b i) := by
      rw [dotProduct_mulVec x, ← mulVec_transpose, hA]
    rw [this, hb i, dotProduct_smul, smul_eq_mul]
  have xA : x ⬝ᵥ ((Jᵀ * J + β • 1) *ᵥ x) = x ⬝ᵥ v := by
    rw [par x, par x v]
    refine Finset.sum_congr rfl fun i _ => ?_
    rw [Ab i, xb i]
    split
    · rename_i q
      have : w i ≠ 0 := (lt_of_le_of_lt hε q).ne'
      field_simp
    · simp
  have xε : ε * (x ⬝ᵥ x) ≤ x ⬝ᵥ v := by
    rw [par x x, par x v, Finset.mul_sum]
    refine Finset.sum_le_sum fun i _ => ?_
    rw [xb i]
    split
    · rename_i q
      have w0 : 0 < w i := lt_of_le_of_lt hε q
      have : ε * (w i)⁻¹ ≤ 1 := by rw [← div_eq_mul_inv]; exact (div_le_one w0).2 q.le
      have i0 := inv_pos.2 w0
      have k := mul_le_mul_of_nonneg_right this (mul_nonneg i0.le (mul_self_nonneg (v ⬝ᵥ b i)))
      calc ε * ((w i)⁻¹ * (v ⬝ᵥ b i) * ((w i)⁻¹ * (v ⬝ᵥ b i))) = ε * (w i)⁻¹ * ((w i)⁻¹ * ((v ⬝ᵥ b i) * (v ⬝ᵥ b i))) := by ring
        _ ≤ 1 * ((w i)⁻¹ * ((v ⬝ᵥ b i) * (v ⬝ᵥ b i))) := k
        _ = _ := by ring
    · simp
  rw [Matrix.add_mulVec, dotProduct_add, gram_form, Matrix.smul_mulVec, Matrix.one_mulVec, dotProduct_smul, smul_eq_mul, xv] at xA
  rw [xv] at xε
  generalize J *ᵥ x = q at xA xε
  have s1 := dot_self_nonneg (q - l)
  have s2 := dot_self_nonneg ((2 : ℝ) • q - l)
  have s3 := mul_nonneg hβ (dot_self_nonneg x)
  simp only [sub_dotProduct, dotProduct_sub, smul_dotProduct, dotProduct_smul, smul_eq_mul] at s1 s2
  rw [dotProduct_comm l q] at s1 s2
  constructor <;> linarith

end alg

variable {h : Heap XR} {s : Sketch}

theorem leap_step {pinv : PInv XR} (hp : CutPInv pinv)
    {ε σ β : ℝ} (hε : 0 ≤ ε) (hβ : 0 ≤ β) {st : StepRec XR} (w : NewtonStep pinv (fin ε) σ h s (fun J => Jᵀ * J + β • 1) st) :
    ε * dataWay (getData st.pre s) (getData st.post s) ≤ σ ^ 2 * ((getLossPerConstraint st.pre s).map fun x => x.toReal ^ 2).sum ∧
    4 * β * dataWay (getData st.pre s) (getData st.post s) ≤ σ ^ 2 * ((getLossPerConstraint st.pre s).map fun x => x.toReal ^ 2).sum ∧
    ∃ v : List ℝ, getLossPerConstraint st.pre s = v.map fin := by
  obtain ⟨J, P, x, l, h', r1, f1, r2, f2, ej, ex, el, ep, ed⟩ := w
  have el' : ((getLossPerConstraint st.pre s).map fun x => x.toReal ^ 2).sum = l ⬝ᵥ l := by
    rw [el, vec, List.map_ofFn, List.sum_ofFn]
    refine Finset.sum_congr rfl fun i _ => ?_
    simp [toReal_fin, sq]
  have dw : dataWay (getData st.pre s) (getData st.post s) = σ ^ 2 * ((P *ᵥ (Jᵀ *ᵥ l)) ⬝ᵥ (P *ᵥ (Jᵀ *ᵥ l))) := by
    rw [ex, ed, dataWay]
    have : List.zipWith (fun x y : XR => (y.toReal - x.toReal) ^ 2) (vec x) (vec (x - σ • (P *ᵥ (Jᵀ *ᵥ l)))) =
        List.ofFn fun i => σ ^ 2 * ((P *ᵥ (Jᵀ *ᵥ l)) i * (P *ᵥ (Jᵀ *ᵥ l)) i) := by
      refine List.ext_getElem (by simp [vec]) fun i a1 a2 => ?_
      simp [vec, toReal_fin]
      ring
    rw [this, List.sum_ofFn, ← Finset.mul_sum]
    rfl
  have psd : ∀ x, 0 ≤ x ⬝ᵥ ((Jᵀ * J + β • (1 : Matrix (Fin (getNDofs h s)) (Fin (getNDofs h s)) ℝ)) *ᵥ x) := fun x => by
    rw [Matrix.add_mulVec, dotProduct_add, gram_form, Matrix.smul_mulVec, Matrix.one_mulVec, dotProduct_smul, smul_eq_mul]
    have := dot_self_nonneg (J *ᵥ x)
    have := mul_nonneg hβ (dot_self_nonneg x)
    linarith
  have fin' : ∃ v : List ℝ, getLossPerConstraint st.pre s = v.map fin := ⟨List.ofFn l, by rw [el, vec, List.map_ofFn]; rfl⟩
  rcases Nat.eq_zero_or_pos (getNDofs h s) with hz | hpos
  · have : (P *ᵥ (Jᵀ *ᵥ l)) ⬝ᵥ (P *ᵥ (Jᵀ *ᵥ l)) = 0 := Finset.sum_eq_zero fun i _ => by have := i.2; omega
    have := mul_nonneg (sq_nonneg σ) (dot_self_nonneg l)
    rw [dw, el', ‹(P *ᵥ (Jᵀ *ᵥ l)) ⬝ᵥ (P *ᵥ (Jᵀ *ᵥ l)) = 0›]
    exact ⟨by simpa using this, by simpa using this, fin'⟩
  obtain ⟨P', eP, hP⟩ := hp _ _ ε hpos (lm_symm J β) psd hε
  rw [eP] at ep
  obtain rfl : P = P' := (mat_injective (PInvRes.ok.inj ep)).symm
  obtain ⟨b1, b2⟩ := leap_bound hε hP l hβ
  rw [dw, el']
  have k1 := mul_le_mul_of_nonneg_left b1 (sq_nonneg σ)
  have k2 := mul_le_mul_of_nonneg_left b2 (sq_nonneg σ)
  exact ⟨by linarith, by linarith, fin'⟩

/-- the squares of losses add up to at most the square of their sum -/
theorem losses_sq {h : Heap XR} {v : List ℝ} (e : getLossPerConstraint h s = v.map fin) :
    ((getLossPerConstraint h s).map fun x => x.toReal ^ 2).sum ≤ (getLoss h s).toReal ^ 2 := by
  obtain ⟨v', p, e', hs⟩ := getLoss_eq_fin (getLoss_of_fin e)
  rw [getLoss_of_fin e', e', toReal_fin, List.map_map]
  have key : ∀ v : List ℝ, (∀ r ∈ v, 0 ≤ r) → 0 ≤ v.sum ∧ (v.map ((fun x : XR => x.toReal ^ 2) ∘ fin)).sum ≤ v.sum ^ 2 := by
    intro v
    induction v with
    | nil => intro _; simp
    | cons a v ih =>
      intro h0
      obtain ⟨i1, i2⟩ := ih fun r hr => h0 r (List.mem_cons_of_mem _ hr)
      have a0 := h0 a List.mem_cons_self
      rw [List.map_cons, List.sum_cons, List.sum_cons]
      refine ⟨add_nonneg a0 i1, ?_⟩
      simp only [Function.comp_apply, toReal_fin] at i2 ⊢
      nlinarith [mul_nonneg a0 i1]
  exact (key v' p).2

end Isotope
