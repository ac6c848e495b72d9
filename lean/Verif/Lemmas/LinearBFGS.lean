import Verif.Lemmas.LinearGD
import Verif.Lemmas.ExRun

/-!
# BFGS on a linear sketch

On a linear system the matrix of BFGS never gets worse in a certain sense: the ratio between the curvature along the search
direction and the slope stays between the bounds it has at the start (or 1).
-/

namespace Isotope
open XR
open Matrix

section alg
variable {m n : Nat}

/-- The matrix `A` fits the linear system: `nu` and `M` bound the curvature that the line search sees in the direction `-A g`. -/
structure Fits (R : Matrix (Fin m) (Fin n) ℝ) (A : Matrix (Fin n) (Fin n) ℝ) (nu M : ℝ) : Prop where
  pd : A.PosDef
  high : ∀ g, (R *ᵥ (A *ᵥ g)) ⬝ᵥ (R *ᵥ (A *ᵥ g)) ≤ M * (g ⬝ᵥ A *ᵥ g)
  low : ∀ w v, ((Rᵀ *ᵥ w) ⬝ᵥ v) ^ 2 ≤ nu * ((Rᵀ *ᵥ w) ⬝ᵥ A *ᵥ (Rᵀ *ᵥ w)) * ((R *ᵥ v) ⬝ᵥ (R *ᵥ v))

variable {R : Matrix (Fin m) (Fin n) ℝ} {A : Matrix (Fin n) (Fin n) ℝ} {b : Fin m → ℝ} {nu mu M : ℝ}

theorem Fits.one (w : WellPosed R b mu M) (hmu : 0 < mu) : Fits R 1 (1 / mu) M := by
  refine ⟨PosDef.one, fun g => by simpa using w.high g, fun u v => ?_⟩
  obtain ⟨v1, e1, -⟩ := w.low 0
  obtain ⟨v0, e0, hl⟩ := w.low (v1 + v)
  have hq : 2 * quad R b (v1 + v) = (R *ᵥ v) ⬝ᵥ (R *ᵥ v) := by
    unfold quad
    rw [mulVec_add, e1, add_sub_cancel_left]
    ring
  rw [hq] at hl
  have hz : (Rᵀ *ᵥ u) ⬝ᵥ v = (Rᵀ *ᵥ u) ⬝ᵥ (v1 + v - v0) := by
    rw [dot_mulVec, dot_mulVec, mulVec_sub, mulVec_add, e0, e1, add_sub_cancel_left]
  have cs := dot_sq_le (Rᵀ *ᵥ u) (v1 + v - v0)
  rw [one_mulVec, hz, div_mul_eq_mul_div, div_mul_eq_mul_div, one_mul, le_div_iff₀ hmu]
  have hn := dot_self_nonneg (Rᵀ *ᵥ u)
  calc _ ≤ (Rᵀ *ᵥ u ⬝ᵥ Rᵀ *ᵥ u) * ((v1 + v - v0) ⬝ᵥ (v1 + v - v0)) * mu := mul_le_mul_of_nonneg_right cs hmu.le
    _ = (Rᵀ *ᵥ u ⬝ᵥ Rᵀ *ᵥ u) * (mu * ((v1 + v - v0) ⬝ᵥ (v1 + v - v0))) := by ring
    _ ≤ _ := mul_le_mul_of_nonneg_left hl hn

theorem PosDef.dot_symm (hA : A.PosDef) (u v : Fin n → ℝ) : (A *ᵥ u) ⬝ᵥ v = u ⬝ᵥ A *ᵥ v := by
  have hsym : Aᵀ = A := by have := hA.isHermitian; rwa [IsHermitian, conjTranspose_eq_transpose_of_trivial] at this
  rw [dotProduct_mulVec, ← mulVec_transpose, hsym]

theorem upd_quad (hA : A.PosDef) (s y x : Fin n → ℝ) {ρ : ℝ} (hρ : 0 < ρ) :
    x ⬝ᵥ updR A s y ρ *ᵥ x =
      (x - ((s ⬝ᵥ x) / ρ) • y) ⬝ᵥ A *ᵥ (x - ((s ⬝ᵥ x) / ρ) • y) + (s ⬝ᵥ x) ^ 2 / ρ := by
  have hq := PosDef.dot_symm hA
  rw [upd_mulVec]
  simp only [dotProduct_add, dotProduct_smul, mulVec_sub, mulVec_smul, sub_dotProduct, dotProduct_sub, smul_dotProduct,
    smul_eq_mul, dotProduct_comm x s, hq]
  have e : y ⬝ᵥ A *ᵥ x = x ⬝ᵥ A *ᵥ y := by rw [← hq, dotProduct_comm]
  rw [e]
  field_simp
  ring

theorem updR_apply (hA : A.PosDef) (s y x : Fin n → ℝ) {ρ : ℝ} (hρ : 0 < ρ) :
    updR A s y ρ *ᵥ x = A *ᵥ (x - ((s ⬝ᵥ x) / ρ) • y) +
      ((s ⬝ᵥ x) / ρ - (y ⬝ᵥ A *ᵥ (x - ((s ⬝ᵥ x) / ρ) • y)) / ρ) • s := by
  have hq := PosDef.dot_symm hA
  rw [upd_mulVec, hq]
  funext i
  simp only [mulVec_sub, mulVec_smul, dotProduct_sub, dotProduct_smul, Pi.add_apply, Pi.sub_apply, Pi.smul_apply, smul_eq_mul]
  field_simp
  ring

/-- the update keeps the upper bound -/
theorem Fits.upd_high (f : Fits R A nu M) (hM : 1 ≤ M) (s : Fin n → ℝ) {ρ : ℝ} (hρ : 0 < ρ)
    (hle : (R *ᵥ s) ⬝ᵥ (R *ᵥ s) ≤ ρ) (g : Fin n → ℝ) :
    (R *ᵥ (updR A s (Rᵀ *ᵥ (R *ᵥ s)) ρ *ᵥ g)) ⬝ᵥ (R *ᵥ (updR A s (Rᵀ *ᵥ (R *ᵥ s)) ρ *ᵥ g)) ≤
      M * (g ⬝ᵥ updR A s (Rᵀ *ᵥ (R *ᵥ s)) ρ *ᵥ g) := by
  rw [upd_quad f.pd s _ g hρ, updR_apply f.pd s _ g hρ]
  set p := g - ((s ⬝ᵥ g) / ρ) • (Rᵀ *ᵥ (R *ᵥ s)) with ep
  have hh := f.high p
  rw [dot_mulVec]
  set w := A *ᵥ p with ew
  have hb : R *ᵥ (w + ((s ⬝ᵥ g) / ρ - (R *ᵥ s) ⬝ᵥ (R *ᵥ w) / ρ) • s) =
      R *ᵥ w + ((s ⬝ᵥ g) / ρ - (R *ᵥ s) ⬝ᵥ (R *ᵥ w) / ρ) • (R *ᵥ s) := by rw [mulVec_add, mulVec_smul]
  rw [hb]
  simp only [add_dotProduct, dotProduct_add, smul_dotProduct, dotProduct_smul, smul_eq_mul, dotProduct_comm (R *ᵥ w) (R *ᵥ s)]
  generalize (R *ᵥ s) ⬝ᵥ (R *ᵥ s) = S at *
  generalize (R *ᵥ s) ⬝ᵥ (R *ᵥ w) = X at *
  generalize s ⬝ᵥ g = Y at *
  generalize (R *ᵥ w) ⬝ᵥ (R *ᵥ w) = W at *
  generalize p ⬝ᵥ w = P at *
  have e : W + (Y / ρ - X / ρ) * X + ((Y / ρ - X / ρ) * (X + (Y / ρ - X / ρ) * S)) =
      W + Y ^ 2 / ρ - ((Y - X) ^ 2 * (1 - S / ρ) + X ^ 2) / ρ := by field_simp; ring
  have h1 : 0 ≤ ((Y - X) ^ 2 * (1 - S / ρ) + X ^ 2) / ρ := by
    have : S / ρ ≤ 1 := (div_le_one hρ).2 hle
    apply div_nonneg _ hρ.le
    have := mul_nonneg (sq_nonneg (Y - X)) (sub_nonneg.2 this)
    nlinarith
  have h2 : Y ^ 2 / ρ ≤ M * (Y ^ 2 / ρ) := le_mul_of_one_le_left (by positivity) hM
  linarith

theorem cauchy2 {x y a b c d : ℝ} (ha : 0 ≤ a) (hb : 0 ≤ b) (hc : 0 ≤ c) (hd : 0 ≤ d) (h1 : x ^ 2 ≤ a * b) (h2 : y ^ 2 ≤ c * d) :
    (x + y) ^ 2 ≤ (a + c) * (b + d) := by
  have h3 : (2 * (x * y)) ^ 2 ≤ (a * d + c * b) ^ 2 := by
    have : x ^ 2 * y ^ 2 ≤ (a * b) * (c * d) := mul_le_mul h1 h2 (sq_nonneg _) (mul_nonneg ha hb)
    nlinarith [sq_nonneg (a * d - c * b)]
  have h4 : 2 * (x * y) ≤ a * d + c * b := (abs_le.1 (abs_le_of_sq_le_sq h3 (by positivity))).2
  nlinarith

/-- an update that satisfies the secant equation keeps the lower bound -/
theorem Fits.upd_low (f : Fits R A nu M) (hnu : 1 ≤ nu) (s : Fin n → ℝ) (hs : 0 < (R *ᵥ s) ⬝ᵥ (R *ᵥ s)) (w : Fin m → ℝ)
    (v : Fin n → ℝ) :
    ((Rᵀ *ᵥ w) ⬝ᵥ v) ^ 2 ≤ nu * ((Rᵀ *ᵥ w) ⬝ᵥ updR A s (Rᵀ *ᵥ (R *ᵥ s)) ((R *ᵥ s) ⬝ᵥ (R *ᵥ s)) *ᵥ (Rᵀ *ᵥ w)) *
      ((R *ᵥ v) ⬝ᵥ (R *ᵥ v)) := by
  rw [upd_quad f.pd _ _ _ hs]
  set S := (R *ᵥ s) ⬝ᵥ (R *ᵥ s) with eS
  have ew : Rᵀ *ᵥ w - (s ⬝ᵥ Rᵀ *ᵥ w / S) • (Rᵀ *ᵥ (R *ᵥ s)) = Rᵀ *ᵥ (w - (s ⬝ᵥ Rᵀ *ᵥ w / S) • (R *ᵥ s)) := by
    rw [mulVec_sub, mulVec_smul]
  rw [ew]
  have hl := f.low (w - (s ⬝ᵥ Rᵀ *ᵥ w / S) • (R *ᵥ s)) (v - (((R *ᵥ s) ⬝ᵥ (R *ᵥ v)) / S) • s)
  have hP : 0 ≤ (Rᵀ *ᵥ (w - (s ⬝ᵥ Rᵀ *ᵥ w / S) • (R *ᵥ s))) ⬝ᵥ A *ᵥ (Rᵀ *ᵥ (w - (s ⬝ᵥ Rᵀ *ᵥ w / S) • (R *ᵥ s))) := by
    have := f.pd.posSemidef.dotProduct_mulVec_nonneg (Rᵀ *ᵥ (w - (s ⬝ᵥ Rᵀ *ᵥ w / S) • (R *ᵥ s)))
    rwa [star_trivial] at this
  generalize (Rᵀ *ᵥ (w - (s ⬝ᵥ Rᵀ *ᵥ w / S) • (R *ᵥ s))) ⬝ᵥ A *ᵥ (Rᵀ *ᵥ (w - (s ⬝ᵥ Rᵀ *ᵥ w / S) • (R *ᵥ s))) = P at *
  rw [dot_mulVec] at hl ⊢
  rw [dotProduct_comm s, dot_mulVec] at hl ⊢
  have e1 : R *ᵥ (v - ((R *ᵥ s) ⬝ᵥ (R *ᵥ v) / S) • s) = R *ᵥ v - ((R *ᵥ s) ⬝ᵥ (R *ᵥ v) / S) • (R *ᵥ s) := by
    rw [mulVec_sub, mulVec_smul]
  rw [e1] at hl
  have hV := dot_self_nonneg (R *ᵥ v - ((R *ᵥ s) ⬝ᵥ (R *ᵥ v) / S) • (R *ᵥ s))
  simp only [sub_dotProduct, dotProduct_sub, smul_dotProduct, dotProduct_smul, smul_eq_mul, dotProduct_comm (R *ᵥ v) (R *ᵥ s),
    ← eS] at hl hV
  generalize (R *ᵥ s) ⬝ᵥ (R *ᵥ v) = X at *
  generalize w ⬝ᵥ (R *ᵥ s) = Y at *
  generalize (R *ᵥ v) ⬝ᵥ (R *ᵥ v) = V at *
  generalize w ⬝ᵥ (R *ᵥ v) = Z at *
  clear_value S
  have e2 : V - X / S * X - X / S * (X - X / S * S) = V - X ^ 2 / S := by field_simp; ring
  have e3 : Z - Y / S * X - X / S * (Y - Y / S * S) = Z - X * Y / S := by field_simp; ring
  rw [e2] at hl hV
  have k := cauchy2 (x := Z - X * Y / S) (y := X * Y / S) (a := nu * P) (b := V - X ^ 2 / S) (c := nu * (Y ^ 2 / S)) (d := X ^ 2 / S)
    (by positivity) hV (by positivity) (by positivity) ?_ ?_
  · have e4 : Z - X * Y / S + X * Y / S = Z := by ring
    have e5 : V - X ^ 2 / S + X ^ 2 / S = V := by ring
    rw [e4, e5, ← mul_add] at k
    exact k
  · rw [← e3]
    exact hl
  · have : (X * Y / S) ^ 2 = Y ^ 2 / S * (X ^ 2 / S) := by field_simp
    rw [this, mul_assoc]
    exact le_mul_of_one_le_left (by positivity) hnu

/-- an update with a larger divisor makes the lower bound only a little worse -/
theorem Fits.upd_low' (f : Fits R A nu M) (hnu : 0 ≤ nu) (s : Fin n → ℝ) {ρ : ℝ} (hs : 0 ≤ (R *ᵥ s) ⬝ᵥ (R *ᵥ s)) (hρ : 0 < ρ) (w : Fin m → ℝ)
    (v : Fin n → ℝ) :
    ((Rᵀ *ᵥ w) ⬝ᵥ v) ^ 2 ≤ (nu + (R *ᵥ s) ⬝ᵥ (R *ᵥ s) / ρ) *
      ((Rᵀ *ᵥ w) ⬝ᵥ updR A s (Rᵀ *ᵥ (R *ᵥ s)) ρ *ᵥ (Rᵀ *ᵥ w)) * ((R *ᵥ v) ⬝ᵥ (R *ᵥ v)) := by
  rw [upd_quad f.pd _ _ _ hρ]
  have ew : Rᵀ *ᵥ w - (s ⬝ᵥ Rᵀ *ᵥ w / ρ) • (Rᵀ *ᵥ (R *ᵥ s)) = Rᵀ *ᵥ (w - (s ⬝ᵥ Rᵀ *ᵥ w / ρ) • (R *ᵥ s)) := by
    rw [mulVec_sub, mulVec_smul]
  rw [ew]
  have hl := f.low (w - (s ⬝ᵥ Rᵀ *ᵥ w / ρ) • (R *ᵥ s)) v
  have hP : 0 ≤ (Rᵀ *ᵥ (w - (s ⬝ᵥ Rᵀ *ᵥ w / ρ) • (R *ᵥ s))) ⬝ᵥ A *ᵥ (Rᵀ *ᵥ (w - (s ⬝ᵥ Rᵀ *ᵥ w / ρ) • (R *ᵥ s))) := by
    have := f.pd.posSemidef.dotProduct_mulVec_nonneg (Rᵀ *ᵥ (w - (s ⬝ᵥ Rᵀ *ᵥ w / ρ) • (R *ᵥ s)))
    rwa [star_trivial] at this
  generalize (Rᵀ *ᵥ (w - (s ⬝ᵥ Rᵀ *ᵥ w / ρ) • (R *ᵥ s))) ⬝ᵥ A *ᵥ (Rᵀ *ᵥ (w - (s ⬝ᵥ Rᵀ *ᵥ w / ρ) • (R *ᵥ s))) = P at *
  rw [dot_mulVec] at hl ⊢
  rw [dotProduct_comm s, dot_mulVec] at hl ⊢
  have cs := dot_sq_le (R *ᵥ s) (R *ᵥ v)
  have hV := dot_self_nonneg (R *ᵥ v)
  simp only [sub_dotProduct, smul_dotProduct, smul_eq_mul] at hl
  generalize (R *ᵥ s) ⬝ᵥ (R *ᵥ s) = S at *
  generalize (R *ᵥ s) ⬝ᵥ (R *ᵥ v) = X at *
  generalize w ⬝ᵥ (R *ᵥ s) = Y at *
  generalize (R *ᵥ v) ⬝ᵥ (R *ᵥ v) = V at *
  generalize w ⬝ᵥ (R *ᵥ v) = Z at *
  have k := cauchy2 (x := Z - Y / ρ * X) (y := Y / ρ * X) (a := P) (b := nu * V) (c := Y ^ 2 / ρ) (d := S / ρ * V)
    hP (by positivity) (by positivity) (by positivity) (hl.trans (le_of_eq (by ring))) ?_
  · have e4 : Z - Y / ρ * X + Y / ρ * X = Z := by ring
    rw [e4] at k
    exact k.trans (le_of_eq (by ring))
  · have e : (Y / ρ * X) ^ 2 = Y ^ 2 / ρ * (X ^ 2 / ρ) := by field_simp
    rw [e, div_mul_eq_mul_div S]
    exact mul_le_mul_of_nonneg_left (div_le_div_of_nonneg_right cs hρ.le) (by positivity)

theorem Fits.mono (f : Fits R A nu M) {nu' M' : ℝ} (h1 : nu ≤ nu') (h2 : M ≤ M') : Fits R A nu' M' := by
  have hP : ∀ g, 0 ≤ g ⬝ᵥ A *ᵥ g := fun g => by
    have := f.pd.posSemidef.dotProduct_mulVec_nonneg g
    rwa [star_trivial] at this
  refine ⟨f.pd, fun g => (f.high g).trans (mul_le_mul_of_nonneg_right h2 (hP g)), fun w v => (f.low w v).trans ?_⟩
  exact mul_le_mul_of_nonneg_right (mul_le_mul_of_nonneg_right h1 (hP _)) (dot_self_nonneg _)

/-- the update of the code -/
theorem Fits.update (f : Fits R A nu M) (hnu : 1 ≤ nu) (hM : 1 ≤ M) (s : Fin n → ℝ) (hs : 0 < (R *ᵥ s) ⬝ᵥ (R *ᵥ s)) :
    Fits R (updR A s (Rᵀ *ᵥ (R *ᵥ s)) (rhoOf s (Rᵀ *ᵥ (R *ᵥ s)))) (nu + 1e-10) M := by
  have e : s ⬝ᵥ Rᵀ *ᵥ (R *ᵥ s) = (R *ᵥ s) ⬝ᵥ (R *ᵥ s) := by rw [dotProduct_comm, dot_mulVec]
  unfold rhoOf
  rw [e]
  split
  next hh =>
    rw [abs_of_pos hs] at hh
    have hρ : 0 < (R *ᵥ s) ⬝ᵥ (R *ᵥ s) + 1e-6 := by linarith
    refine Fits.mono (nu := nu + (R *ᵥ s) ⬝ᵥ (R *ᵥ s) / ((R *ᵥ s) ⬝ᵥ (R *ᵥ s) + 1e-6)) (M := M) ⟨upd_posDef f.pd _ _ hρ, ?_, ?_⟩ ?_ le_rfl
    · exact f.upd_high hM s hρ (by linarith)
    · exact f.upd_low' (by linarith) s hs.le hρ
    · rw [add_le_add_iff_left, div_le_iff₀ hρ]
      linarith
  next hh =>
    refine Fits.mono (nu := nu) (M := M) ⟨upd_posDef f.pd _ _ hs, ?_, ?_⟩ (by linarith) le_rfl
    · exact f.upd_high hM s hs le_rfl
    · exact f.upd_low hnu s hs

/-- the slope is steep where the loss is large, and the curvature along the direction is neither too small nor too large -/
theorem Fits.bounds (f : Fits R A nu M) (hsol : ∃ v0, R *ᵥ v0 = b) (v : Fin n → ℝ) (hg : quadGrad R b v ≠ 0) :
    0 < quadGrad R b v ⬝ᵥ A *ᵥ quadGrad R b v ∧
    2 * quad R b v ≤ nu * (quadGrad R b v ⬝ᵥ A *ᵥ quadGrad R b v) ∧
    quadGrad R b v ⬝ᵥ A *ᵥ quadGrad R b v ≤ nu * ((R *ᵥ (A *ᵥ quadGrad R b v)) ⬝ᵥ (R *ᵥ (A *ᵥ quadGrad R b v))) ∧
    (R *ᵥ (A *ᵥ quadGrad R b v)) ⬝ᵥ (R *ᵥ (A *ᵥ quadGrad R b v)) ≤ M * (quadGrad R b v ⬝ᵥ A *ᵥ quadGrad R b v) := by
  obtain ⟨v0, e0⟩ := hsol
  have hp : 0 < quadGrad R b v ⬝ᵥ A *ᵥ quadGrad R b v := by
    have := f.pd.dotProduct_mulVec_pos hg
    rwa [star_trivial] at this
  refine ⟨hp, ?_, ?_, f.high _⟩
  · have hres : R *ᵥ v - b = R *ᵥ (v - v0) := by rw [mulVec_sub, e0]
    have k := f.low (R *ᵥ v - b) (v - v0)
    rw [dot_mulVec, ← hres] at k
    have hL : (R *ᵥ v - b) ⬝ᵥ (R *ᵥ v - b) = 2 * quad R b v := by unfold quad; ring
    rw [hL] at k
    change _ ≤ nu * (quadGrad R b v ⬝ᵥ A *ᵥ quadGrad R b v) * _ at k
    rcases (quad_nonneg R b v).eq_or_lt with h0 | h0
    · exfalso
      rw [← h0, mul_zero] at hL
      apply hg
      unfold quadGrad
      rw [dotProduct_self_eq_zero.1 hL, mulVec_zero]
    · exact le_of_mul_le_mul_right (by linarith [sq (2 * quad R b v)]) (by linarith : 0 < 2 * quad R b v)
  · have k := f.low (R *ᵥ v - b) (A *ᵥ quadGrad R b v)
    change (quadGrad R b v ⬝ᵥ A *ᵥ quadGrad R b v) ^ 2 ≤ nu * (quadGrad R b v ⬝ᵥ A *ᵥ quadGrad R b v) * _ at k
    refine le_of_mul_le_mul_left ?_ hp
    calc _ = (quadGrad R b v ⬝ᵥ A *ᵥ quadGrad R b v) ^ 2 := by ring
      _ ≤ _ := k
      _ = _ := by ring

/-- one accepted step in a direction that fits -/
theorem Fits.decrease (f : Fits R A nu M) (hsol : ∃ v0, R *ᵥ v0 = b) (hnu : 0 < nu) (hM : 0 < M) {x g d : Fin n → ℝ}
    (eg : g = quadGrad R b x) (hg : g ≠ 0) (ed : d = -(A *ᵥ g)) {a : ℝ}
    (h1 : 0.1 ≤ a * ((R *ᵥ d) ⬝ᵥ (R *ᵥ d) / -(g ⬝ᵥ d))) (h2 : a * ((R *ᵥ d) ⬝ᵥ (R *ᵥ d) / -(g ⬝ᵥ d)) ≤ 1.9998) :
    quad R b (x + a • d) ≤ (1 - 3.9996e-4 / (nu * M)) * quad R b x := by
  obtain ⟨b0, b1, b2, b3⟩ := f.bounds hsol x (eg ▸ hg)
  rw [← eg] at b0 b1 b2 b3
  have hQ' : (R *ᵥ d) ⬝ᵥ (R *ᵥ d) = (R *ᵥ (A *ᵥ g)) ⬝ᵥ (R *ᵥ (A *ᵥ g)) := by
    rw [ed, mulVec_neg, neg_dotProduct, dotProduct_neg, neg_neg]
  have hgd : -(g ⬝ᵥ d) = g ⬝ᵥ A *ᵥ g := by rw [ed, dotProduct_neg, neg_neg]
  rw [← hQ', ← hgd] at b3
  rw [← hgd] at b0 b1 b2
  rw [← hQ'] at b2
  have hloss : quad R b (x + a • d) = quad R b x - a * -(g ⬝ᵥ d) + a ^ 2 * ((R *ᵥ d) ⬝ᵥ (R *ᵥ d)) / 2 := by
    rw [quad_add, ← eg, mulVec_smul]
    simp only [dotProduct_smul, smul_dotProduct, smul_eq_mul]
    ring
  rw [hloss]
  have hL := quad_nonneg R b x
  generalize quad R b x = L at *
  generalize -(g ⬝ᵥ d) = G at *
  generalize (R *ᵥ d) ⬝ᵥ (R *ᵥ d) = Q at *
  have hQ : Q = Q / G * G := by rw [div_mul_cancel₀ _ b0.ne']
  have hlam : 0 < Q / G := by
    apply div_pos _ b0
    by_contra hh
    have := mul_nonpos_of_nonneg_of_nonpos hnu.le (not_lt.1 hh)
    linarith
  have b4 : Q / G ≤ M := (div_le_iff₀ b0).2 b3
  set lam := Q / G with el
  rw [hQ]
  set t := a * lam with et
  have ea : a = t / lam := by rw [et, mul_div_assoc, div_self hlam.ne', mul_one]
  have k1 : 1.9998e-4 ≤ t * (1 - t / 2) := by nlinarith
  have k2 : a * G - a ^ 2 * (lam * G) / 2 = t * (1 - t / 2) * G / lam := by
    rw [ea]; field_simp
  have b5 : 2 * L / nu ≤ G := by rw [div_le_iff₀ hnu]; linarith
  have k3 : 1.9998e-4 * (2 * L / nu) / M ≤ t * (1 - t / 2) * G / lam := by
    apply div_le_div₀
    · exact mul_nonneg (by linarith) b0.le
    · exact mul_le_mul k1 b5 (by positivity) (by linarith)
    · exact hlam
    · exact b4
  have k4 : (1 - 3.9996e-4 / (nu * M)) * L = L - 1.9998e-4 * (2 * L / nu) / M := by
    field_simp; ring
  rw [k4]
  linarith

theorem uniformNorm_vec (g : Fin n → ℝ) : ∃ u, uniformNorm (vec g) = fin u ∧ ∀ t : ℝ, 0 < t → (u < t ↔ ∀ i, |g i| < t) := by
  have key : ∀ (L : List ℝ) (a : ℝ), ∃ u, (L.map fin).foldl (fun acc z => fmax acc (Num.abs z)) (fin a) = fin u ∧
      ∀ t, u < t ↔ a < t ∧ ∀ z ∈ L, |z| < t := by
    intro L
    induction L with
    | nil => exact fun a => ⟨a, rfl, by simp⟩
    | cons z L ih =>
      intro a
      obtain ⟨u, e, hu⟩ := ih (max a |z|)
      refine ⟨u, ?_, fun t => ?_⟩
      · rw [List.map_cons, List.foldl_cons, abs_fin, fmax_fin]
        exact e
      · rw [hu, max_lt_iff, List.forall_mem_cons, and_assoc]
  obtain ⟨u, e, hu⟩ := key (List.ofFn g) 0
  refine ⟨u, ?_, fun t ht => ?_⟩
  · rw [uniformNorm, zero_lit, vec_map]
    exact e
  · rw [hu]
    simp [ht, List.mem_ofFn]

end alg

variable {h : Heap XR} {s : Sketch} {m : Nat} {R : Matrix (Fin m) (Fin (getNDofs h s)) ℝ} {b : Fin m → ℝ}

/-- BFGS sees of the loss (of `b`) only its gradient, which is that of the system with right-hand side `b'`, and whether it is below
`min_loss`. -/
theorem LinAt.bfgsLoop' {b' : Fin m → ℝ} (l : LinAt h s R b) (hgr : ∀ x, quadGrad R b' x = quadGrad R b x)
    (hsol : ∃ v0, R *ᵥ v0 = b') {M nuN : ℝ} (hM : 1 ≤ M) (hi : M ≤ 1.9998 * 2 ^ 14)
    (lo : 0.1 * nuN ≤ 1.5 ^ 14) (p : BFGSParams XR) {ml gt : ℝ} (el : p.minLoss = fin ml) (egt : p.gradientThreshold = fin gt)
    (hgt : 0 < gt) (n : Nat) (reset : Bool) (A : Matrix (Fin (getNDofs h s)) (Fin (getNDofs h s)) ℝ) (nu : ℝ) (hnu : 1 ≤ nu)
    (hN : nu + n * 1e-10 ≤ nuN) (f : Fits R A nu M) (H : Heap XR) (r : SameRefs h H) (x : Fin (getNDofs h s) → ℝ)
    (ex : getData H s = vec x) :
    let o := Isotope.bfgsLoop p s (getNDofs h s) n reset (mat A) (vec x) H
    o.res = .ok ∧ o.failed = 0 ∧ o.steps.length ≤ n ∧ ∃ x', SameRefs h o.heap ∧ getData o.heap s = vec x' ∧
      quad R b' x' ≤ (1 - 3.9996e-4 / (nuN * M)) ^ o.steps.length * quad R b' x ∧
      (o.steps.length < n → quad R b x' < ml ∨ ∀ i, |quadGrad R b x' i| < gt) := by
  induction n generalizing reset A nu H x with
  | zero =>
    dsimp only
    rw [Isotope.bfgsLoop]
    exact ⟨rfl, rfl, le_rfl, x, r, ex, by simp, fun hh => absurd hh (by simp)⟩
  | succ n ih =>
    dsimp only
    obtain ⟨eL, H1, g1, e1⟩ := l.at r ex
    rw [Isotope.bfgsLoop, el, eL]
    by_cases c2 : quad R b x < ml
    · rw [if_pos (by simpa using c2)]
      exact ⟨rfl, rfl, by simp, x, r, ex, by simp, fun _ => .inl c2⟩
    · rw [if_neg (by simpa using c2), e1]
      dsimp only
      rw [if_neg (by simp [vec])]
      obtain ⟨u, eu, hu⟩ := uniformNorm_vec (quadGrad R b x)
      rw [eu, egt]
      by_cases c1 : u < gt
      · rw [if_pos (by simpa using c1)]
        exact ⟨rfl, rfl, by simp, x, r.trans g1.1, by rw [g1.getData, ex], by simp, fun _ => .inr ((hu gt hgt).1 c1)⟩
      · rw [if_neg (by simpa using c1), matNeg_mat, matVec_mat, neg_mulVec, if_neg (by simp [vec])]
        have hg : quadGrad R b x ≠ 0 := by
          intro e0
          rw [e0] at hu
          exact c1 ((hu gt hgt).2 fun i => by simpa using hgt)
        obtain ⟨b0, b1, b2, b3⟩ := f.bounds hsol x (by rw [hgr]; exact hg)
        rw [hgr] at b0 b1 b2 b3
        have er1 : getData H1 s = vec x := by rw [g1.getData, ex]
        have hgd : quadGrad R b x ⬝ᵥ -(A *ᵥ quadGrad R b x) < 0 := by rw [dotProduct_neg]; linarith
        obtain ⟨H2, r2, e2⟩ := l.searchDir x (-(A *ᵥ quadGrad R b x)) hgd H1 (r.trans g1.1) er1
        have hQ : (R *ᵥ -(A *ᵥ quadGrad R b x)) ⬝ᵥ (R *ᵥ -(A *ᵥ quadGrad R b x)) =
            (R *ᵥ (A *ᵥ quadGrad R b x)) ⬝ᵥ (R *ᵥ (A *ᵥ quadGrad R b x)) := by
          rw [mulVec_neg, neg_dotProduct, dotProduct_neg, neg_neg]
        have hnuN : nu ≤ nuN := by
          have : (0 : ℝ) ≤ ((n + 1 : ℕ) : ℝ) * 1e-10 := by positivity
          linarith
        have hlam : 0 < (R *ᵥ -(A *ᵥ quadGrad R b x)) ⬝ᵥ (R *ᵥ -(A *ᵥ quadGrad R b x)) / -(quadGrad R b x ⬝ᵥ -(A *ᵥ quadGrad R b x)) ∧
            1 ≤ nuN * ((R *ᵥ -(A *ᵥ quadGrad R b x)) ⬝ᵥ (R *ᵥ -(A *ᵥ quadGrad R b x)) / -(quadGrad R b x ⬝ᵥ -(A *ᵥ quadGrad R b x))) ∧
            (R *ᵥ -(A *ᵥ quadGrad R b x)) ⬝ᵥ (R *ᵥ -(A *ᵥ quadGrad R b x)) / -(quadGrad R b x ⬝ᵥ -(A *ᵥ quadGrad R b x)) ≤ M := by
          rw [hQ, dotProduct_neg, neg_neg]
          have hQn := dot_self_nonneg (R *ᵥ (A *ᵥ quadGrad R b x))
          generalize (R *ᵥ (A *ᵥ quadGrad R b x)) ⬝ᵥ (R *ᵥ (A *ᵥ quadGrad R b x)) = Q at *
          generalize quadGrad R b x ⬝ᵥ A *ᵥ quadGrad R b x = G at *
          have b4 : G ≤ nuN * Q := b2.trans (mul_le_mul_of_nonneg_right hnuN hQn)
          refine ⟨div_pos ?_ b0, ?_, (div_le_iff₀ b0).2 b3⟩
          · by_contra hh
            have : Q = 0 := le_antisymm (not_lt.1 hh) hQn
            rw [this, mul_zero] at b4
            linarith
          · rw [← mul_div_assoc, le_div_iff₀ b0]
            linarith
        have hdec := fun a => f.decrease (b := b') hsol (by linarith) (by linarith) (x := x) (hgr x).symm hg rfl (a := a)
        obtain ⟨l0, l1, l2⟩ := hlam
        rw [e2]
        generalize (R *ᵥ -(A *ᵥ quadGrad R b x)) ⬝ᵥ (R *ᵥ -(A *ᵥ quadGrad R b x)) / -(quadGrad R b x ⬝ᵥ -(A *ᵥ quadGrad R b x)) = lam at *
        obtain ⟨t1, t2⟩ := trials_spec l0
        cases et : trials lam 15 1 with
        | none =>
          exfalso
          rcases t1.1 et with hh | hh
          · have k1 : 0.1 * (nuN * lam) ≤ 1.5 ^ 14 * lam := by
              rw [← mul_assoc]; exact mul_le_mul_of_nonneg_right lo l0.le
            linarith
          · linarith
        | some a =>
          obtain ⟨a1, a2, -⟩ := t2 a et
          simp only [searchRes]
          rw [vscale_vec, vadd_vec]
          obtain ⟨H3, e3, r3, ed⟩ := l.set r2 (x + a • -(A *ᵥ quadGrad R b x))
          obtain ⟨-, H4, g4, e4⟩ := l.at r3 ed
          simp only [e3, e4]
          rw [vsub_vec, bfgsUpdate_mat, quadGrad_add, add_sub_cancel_left]
          have hs : 0 < (R *ᵥ (a • -(A *ᵥ quadGrad R b x))) ⬝ᵥ (R *ᵥ (a • -(A *ᵥ quadGrad R b x))) := by
            apply dot_self_pos
            rw [mulVec_smul]
            intro e0
            rcases smul_eq_zero.1 e0 with hh | hh
            · rw [hh] at a1; norm_num at a1
            · rw [hh] at hQ
              rw [← hQ, zero_dotProduct, mul_zero] at b2
              linarith
          obtain ⟨i1, i2, i3, x', i4, i5, i6, i7⟩ := ih false _ (nu + 1e-10) (by linarith) (by push_cast at hN; linarith)
            (f.update hnu hM _ hs) H4 (r3.trans g4.1) (x + a • -(A *ᵥ quadGrad R b x)) (by rw [g4.getData, ed])
          refine ⟨i1, i2, by simpa [SolveOut.cons] using i3, x', i4, i5, ?_, fun hh => i7 (by simpa [SolveOut.cons] using hh)⟩
          have hMn : 0 < nu * M := mul_pos (by linarith) (by linarith)
          have hMN : 0 < nuN * M := mul_pos (by linarith) (by linarith)
          have hr : 3.9996e-4 / (nuN * M) ≤ 3.9996e-4 / (nu * M) :=
            div_le_div_of_nonneg_left (by norm_num) hMn (mul_le_mul_of_nonneg_right hnuN (by linarith))
          have hr1 : 3.9996e-4 / (nuN * M) ≤ 1 := by
            rw [div_le_one hMN]
            nlinarith
          have hd := (hdec a a1 a2).trans (mul_le_mul_of_nonneg_right (sub_le_sub_left hr 1) (quad_nonneg R b' x))
          simp only [SolveOut.cons, List.length_cons]
          rw [pow_succ, mul_assoc]
          exact i6.trans (mul_le_mul_of_nonneg_left hd (pow_nonneg (by linarith) _))

theorem LinAt.bfgsLoop (l : LinAt h s R b) (hsol : ∃ v0, R *ᵥ v0 = b) {M nuN : ℝ} (hM : 1 ≤ M) (hi : M ≤ 1.9998 * 2 ^ 14)
    (lo : 0.1 * nuN ≤ 1.5 ^ 14) (p : BFGSParams XR) {ml gt : ℝ} (el : p.minLoss = fin ml) (egt : p.gradientThreshold = fin gt)
    (hgt : 0 < gt) (n : Nat) (reset : Bool) (A : Matrix (Fin (getNDofs h s)) (Fin (getNDofs h s)) ℝ) (nu : ℝ) (hnu : 1 ≤ nu)
    (hN : nu + n * 1e-10 ≤ nuN) (f : Fits R A nu M) (H : Heap XR) (r : SameRefs h H) (x : Fin (getNDofs h s) → ℝ)
    (ex : getData H s = vec x) :
    let o := Isotope.bfgsLoop p s (getNDofs h s) n reset (mat A) (vec x) H
    o.res = .ok ∧ o.failed = 0 ∧ o.steps.length ≤ n ∧ ∃ x', SameRefs h o.heap ∧ getData o.heap s = vec x' ∧
      quad R b x' ≤ (1 - 3.9996e-4 / (nuN * M)) ^ o.steps.length * quad R b x ∧
      (o.steps.length < n → quad R b x' < ml ∨ ∀ i, |quadGrad R b x' i| < gt) :=
  l.bfgsLoop' (fun _ => rfl) hsol hM hi lo p el egt hgt n reset A nu hnu hN f H r x ex

end Isotope
