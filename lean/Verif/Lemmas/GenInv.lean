import Verif.SpecReal
import Mathlib.LinearAlgebra.Basis.VectorSpace
import Mathlib.LinearAlgebra.Matrix.ToLin

/-!
# A pseudo-inverse as assumed by the theorems on Gauss-Newton and Levenberg-Marquardt exists
-/

namespace Isotope
open XR
open Matrix

theorem exists_genInv {n : Nat} (A : Matrix (Fin n) (Fin n) ℝ) : ∃ P : Matrix (Fin n) (Fin n) ℝ, A * P * A = A := by
  obtain ⟨g, hg⟩ := (Matrix.toLin' A).rangeRestrict.exists_rightInverse_of_surjective (LinearMap.range_rangeRestrict _)
  obtain ⟨g', hg'⟩ := LinearMap.exists_extend g
  refine ⟨LinearMap.toMatrix' g', ?_⟩
  apply Matrix.toLin'.injective
  rw [Matrix.toLin'_mul, Matrix.toLin'_mul, Matrix.toLin'_toMatrix']
  ext1 i
  ext1
  have h1 : ∀ x, g' (Matrix.toLin' A x) = g ((Matrix.toLin' A).rangeRestrict x) := fun x =>
    LinearMap.congr_fun hg' ((Matrix.toLin' A).rangeRestrict x)
  have h2 : ∀ y, Matrix.toLin' A (g y) = y := fun y => congrArg Subtype.val (LinearMap.congr_fun hg y)
  simp only [LinearMap.comp_apply, h1, h2]
  rfl

theorem vec_injective {n : Nat} {v w : Fin n → ℝ} (e : vec v = vec w) : v = w := by
  funext i
  exact XR.fin.inj (congrFun (List.ofFn_injective e) i)

theorem mat_injective {n m : Nat} {A B : Matrix (Fin n) (Fin m) ℝ} (e : mat A = mat B) : A = B := by
  funext i
  exact vec_injective (congrFun (List.ofFn_injective e) i)

open Classical in
/-- a "pseudo-inverse" that returns a generalised inverse of every matrix of reals -/
noncomputable def genPInv : PInv XR := fun m _ =>
  if e : ∃ (n : Nat) (A : Matrix (Fin n) (Fin n) ℝ), m = mat A then .ok (mat (exists_genInv e.choose_spec.choose).choose) else .err

theorem genPInv_spec {n : Nat} (A : Matrix (Fin n) (Fin n) ℝ) (eps : XR) :
    ∃ P, genPInv (mat A) eps = .ok (mat P) ∧ A * P * A = A := by
  have e : ∃ (k : Nat) (B : Matrix (Fin k) (Fin k) ℝ), mat A = mat B := ⟨n, A, rfl⟩
  unfold genPInv
  rw [dif_pos e]
  have e2 := e.choose_spec.choose_spec
  have e3 := (exists_genInv e.choose_spec.choose).choose_spec
  generalize (exists_genInv e.choose_spec.choose).choose = P at *
  generalize e.choose_spec.choose = B at *
  generalize e.choose = k at *
  have hk : n = k := by simpa [mat] using congrArg List.length e2
  subst hk
  cases mat_injective e2
  exact ⟨P, rfl, e3⟩

theorem genPInv_real : RealPInv genPInv := by
  intro n A eps m hm
  obtain ⟨P, e, -⟩ := genPInv_spec A eps
  rw [e] at hm
  exact ⟨P, (PInvRes.ok.inj hm).symm⟩

theorem genPInv_good : GoodPInv genPInv := by
  intro n A eps _
  obtain ⟨P, e, -⟩ := genPInv_spec A eps
  exact ⟨P, e⟩

theorem genPInv_inverts (eps : XR) (h : Heap XR) (s : Sketch) : InvertsAt genPInv eps h s := by
  intro n m J h' P _ e
  obtain ⟨P', e', hP⟩ := genPInv_spec (J.transpose * J) eps
  rw [e'] at e
  rw [← mat_injective (PInvRes.ok.inj e)]
  exact hP

end Isotope
