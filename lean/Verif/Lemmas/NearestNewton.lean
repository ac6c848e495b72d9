import Verif.Lemmas.Nearest
import Verif.Lemmas.Deleted
import Verif.Props.Damped

/-!
# Gauss-Newton and Levenberg-Marquardt move a linear sketch only across its solutions
-/

namespace Isotope
open XR
open Matrix

section alg
variable {m n : Nat} {R : Matrix (Fin m) (Fin n) ℝ} {b : Fin m → ℝ}

/-- a matrix with the same eigenvectors as a symmetric one is symmetric, seen from an eigenvector -/
theorem scaled_symm {A P : Matrix (Fin n) (Fin n) ℝ} (hA : Aᵀ = A) {f : ℝ → ℝ}
    (hP : ∀ (x : Fin n → ℝ) (w : ℝ), A *ᵥ x = w • x → P *ᵥ x = f w • x) {u : Fin n → ℝ} {w : ℝ} (hu : A *ᵥ u = w • u) (v : Fin n → ℝ) :
    (P *ᵥ v) ⬝ᵥ u = f w * (v ⬝ᵥ u) := by
  obtain ⟨B, e, hB⟩ := exists_eigenbasis hA
  have key : ∀ i, (P *ᵥ B i) ⬝ᵥ u = f w * (B i ⬝ᵥ u) := by
    intro i
    rw [hP _ _ (hB i), smul_dotProduct, smul_eq_mul]
    by_cases hw : e i = w
    · rw [hw]
    · have k : (A *ᵥ B i) ⬝ᵥ u = B i ⬝ᵥ (A *ᵥ u) := by
        rw [dotProduct_mulVec, ← mulVec_transpose, hA]
      rw [hB i, hu, smul_dotProduct, dotProduct_smul, smul_eq_mul, smul_eq_mul] at k
      have k0 : (e i - w) * (B i ⬝ᵥ u) = 0 := by linarith
      rw [(mul_eq_zero.1 k0).resolve_left (sub_ne_zero.2 hw), mul_zero, mul_zero]
  have hl : ((dotProductBilin ℝ ℝ).flip u ∘ₗ P.mulVecLin) = f w • (dotProductBilin ℝ ℝ).flip u := by
    refine B.ext fun i => ?_
    simpa using key i
  simpa using congrArg (fun L => L v) hl

end alg

variable {h : Heap XR} {s : Sketch} {m : Nat} {R : Matrix (Fin m) (Fin (getNDofs h s)) ℝ} {b : Fin m → ℝ} {q : Fin (getNDofs h s) → ℝ}

/-- the Jacobian vanishes along the solutions -/
theorem LinAt.jacobian_along (l : LinAt h s R b) (hc : Closed ⟨h, s⟩) (hl : ∀ k ∈ s.cons, IsLinear (h.cons k)) {H H' : Heap XR}
    (r : SameRefs h H) (hf : FiniteSketch H s) {J : Matrix (Fin s.cons.length) (Fin (getNDofs h s)) ℝ}
    (e : getJacobian H s = .ok (mat J, H')) {u : Fin (getNDofs h s) → ℝ} (hu : R *ᵥ u = 0) : J *ᵥ u = 0 := by
  have hnd : getNDofs H s = getNDofs h s := getNDofs_congr h H s
  obtain ⟨x, ex⟩ := exists_vec' (List.all_eq_true.2 hf.1) ((getData_length H s).trans hnd)
  have hsum := l.form hc hl u
  rw [hu, zero_dotProduct] at hsum
  have hrows := jacobianRows_iff H s s.cons H (.refl H)
  have hfin : ∀ k ∈ s.cons, ∀ c ∈ chunks H (H.cons k), c.finite = true := by
    by_contra hh
    obtain ⟨h', e'⟩ := hrows.2 hh
    unfold getJacobian at e
    rw [e'] at e; cases e
  obtain ⟨h', e'⟩ := hrows.1 hfin
  unfold getJacobian at e
  rw [e'] at e
  have em := (Prod.mk.inj (Except.ok.inj e)).1
  funext i
  have hk : s.cons[i.1] ∈ s.cons := List.getElem_mem _
  -- the sketch with this constraint only
  have hk1 : ∀ k ∈ [s.cons[i.1]], k ∈ s.cons := fun k hk' => by rw [List.mem_singleton.1 hk']; exact hk
  have hc1 : Closed ⟨h, ⟨s.prims, s.nextId, [s.cons[i.1]]⟩⟩ := ⟨hc.1, fun k hk' => hc.2 k (hk1 k hk')⟩
  have hl1 : ∀ k ∈ [s.cons[i.1]], IsLinear (h.cons k) := fun k hk' => hl k (hk1 k hk')
  obtain ⟨m1, R1, b1, hs1⟩ := linear_system (h := h) (s := ⟨s.prims, s.nextId, [s.cons[i.1]]⟩) l.nodup hc1 hl1
  have l1 : LinAt h ⟨s.prims, s.nextId, [s.cons[i.1]]⟩ R1 b1 := ⟨l.nodup, fun k hk' => l.par k (hk1 k hk'), hs1⟩
  have hu1 : R1 *ᵥ u = 0 := by
    have k1 := l1.form hc1 hl1 u
    have k2 : axLin h s u 0 (h.cons s.cons[i.1]) ^ 2 + axLin h s u 1 (h.cons s.cons[i.1]) ^ 2 = 0 := by
      have hnn : ∀ y ∈ s.cons.map (fun k => axLin h s u 0 (h.cons k) ^ 2 + axLin h s u 1 (h.cons k) ^ 2), 0 ≤ y := by
        intro y hy
        obtain ⟨k, -, rfl⟩ := List.mem_map.1 hy
        positivity
      have k3 := List.single_le_sum hnn _ (List.mem_map.2 ⟨_, hk, rfl⟩)
      have k4 := hnn _ (List.mem_map.2 ⟨_, hk, rfl⟩)
      linarith
    have k5 : (R1 *ᵥ u) ⬝ᵥ (R1 *ᵥ u) = axLin h s u 0 (h.cons s.cons[i.1]) ^ 2 + axLin h s u 1 (h.cons s.cons[i.1]) ^ 2 := by
      rw [k1]
      simp only [List.map_cons, List.map_nil, List.sum_cons, List.sum_nil, add_zero]
      rfl
    exact dotProduct_self_eq_zero.1 (k5.trans k2)
  obtain ⟨-, H2, -, e2⟩ := l1.at r (x := x) ex
  have hg := getGradient_iff H ⟨s.prims, s.nextId, [s.cons[i.1]]⟩
  have e3 : vec (quadGrad R1 b1 x) = s.dofs.map (gradOf H [s.cons[i.1]]) := by
    by_cases hh : (∀ k ∈ [s.cons[i.1]], ∀ c ∈ chunks H (H.cons k), c.finite = true) ∧
        ∀ d ∈ s.dofs, Num.isFinite (gradOf H [s.cons[i.1]] d) = true
    · obtain ⟨h'', e''⟩ := hg.1 hh
      rw [e''] at e2
      exact (Prod.mk.inj (Except.ok.inj e2)).1.symm
    · obtain ⟨h'', e''⟩ := hg.2 hh
      rw [e''] at e2; cases e2
  have e4 : vec (J i) = s.dofs.map (gradOf H [s.cons[i.1]]) := by
    have k1 : (mat J)[i.1]'(by simp [mat]) = vec (J i) := by simp [mat]
    rw [← k1]
    simp only [← em, List.getElem_map]
  have e5 : J i = quadGrad R1 b1 x := vec_injective (e4.trans e3.symm)
  change J i ⬝ᵥ u = 0
  rw [e5]
  exact across_quadGrad x u hu1

/-- the way of Gauss-Newton and Levenberg-Marquardt; `β` is what is added to the matrix -/
theorem LinAt.newtonWay (l : LinAt h s R b) (hc : Closed ⟨h, s⟩) (hl : ∀ k ∈ s.cons, IsLinear (h.cons k)) {pinv : PInv XR}
    (hcut : CutPInv pinv) {ε σ β : ℝ} (hε : 0 ≤ ε) (hβ : 0 ≤ β) {r : StepRec XR}
    (st : NewtonStep pinv (fin ε) σ h s (fun J => Jᵀ * J + β • 1) r) (w : Way h s R q r.pre) : Way h s R q r.post := by
  obtain ⟨J, P, x, lo, h', r1, f1, r2, f2, ej, ex, -, ep, ed⟩ := st
  obtain ⟨-, x', ex', hx⟩ := w
  obtain rfl : x' = x := vec_injective (ex'.symm.trans ex)
  refine ⟨r2, _, ed, ?_⟩
  have e : x' - σ • P *ᵥ Jᵀ *ᵥ lo - q = x' - q - σ • P *ᵥ Jᵀ *ᵥ lo := by abel
  rw [e]
  refine hx.sub (Across.smul ?_ σ)
  intro u hu
  have hJ := l.jacobian_along hc hl r1 f1 ej hu
  have hv : (Jᵀ *ᵥ lo) ⬝ᵥ u = 0 := by rw [dot_mulVec, hJ, dotProduct_zero]
  rcases Nat.eq_zero_or_pos (getNDofs h s) with h0 | hpos
  · have : u = 0 := funext fun i => absurd i.2 (by omega)
    rw [this, dotProduct_zero]
  · have hA := lm_symm J β
    obtain ⟨P', e', hP'⟩ := hcut _ (Jᵀ * J + β • (1 : Matrix (Fin (getNDofs h s)) (Fin (getNDofs h s)) ℝ)) ε hpos hA (fun z => by
      rw [add_mulVec, dotProduct_add, gram_form, smul_mulVec, one_mulVec, dotProduct_smul, smul_eq_mul]
      exact add_nonneg (dot_self_nonneg _) (mul_nonneg hβ (dot_self_nonneg _))) hε
    have e2 : (PInvRes.ok (mat P) : PInvRes XR) = .ok (mat P') := ep.symm.trans e'
    obtain rfl : P = P' := mat_injective (PInvRes.ok.inj e2)
    rw [scaled_symm hA hP' (u := u) (w := β) (by rw [add_mulVec, ← mulVec_mulVec, hJ, mulVec_zero, zero_add, smul_mulVec, one_mulVec]) _, hv,
      mul_zero]

end Isotope
