import Verif.Lemmas.Turn
import Verif.Lemmas.ReorderCut
import Mathlib.LinearAlgebra.Matrix.NonsingularInverse

/-!
# Turning a sketch: the orthogonal matrix of a turn
-/

namespace Isotope
open XR
open Matrix

namespace Turn
variable (t : Turn)

theorem lin_add (f g : Dof → ℝ) (d : Dof) : t.lin (fun a => f a + g a) d = t.lin f d + t.lin g d := by
  cases d <;> simp only [lin] <;> ring

theorem lin_smul (k : ℝ) (f : Dof → ℝ) (d : Dof) : t.lin (fun a => k * f a) d = k * t.lin f d := by
  cases d <;> simp only [lin] <;> ring

theorem lin_zero (d : Dof) : t.lin (fun _ => 0) d = 0 := by
  cases d <;> simp [lin]

theorem lin_congr {f g : Dof → ℝ} {d : Dof} (e : ∀ a, a.owner = d.owner → f a = g a) : t.lin f d = t.lin g d := by
  cases d with
  | px p => simp only [lin, e (.px p) rfl, e (.py p) rfl]
  | py p => simp only [lin, e (.px p) rfl, e (.py p) rfl]
  | ar a => simp only [lin, e (.ar a) rfl]
  | as a => simp only [lin, e (.as a) rfl]
  | ae a => simp only [lin, e (.ae a) rfl]
  | cr a => simp only [lin, e (.cr a) rfl]

theorem lin_sum {n : Nat} (k : Fin n → ℝ) (f : Fin n → Dof → ℝ) (d : Dof) :
    t.lin (fun a => ∑ j, k j * f j a) d = ∑ j, k j * t.lin (f j) d := by
  induction n with
  | zero => simp [lin_zero]
  | succ n ih =>
    simp only [Fin.sum_univ_succ]
    rw [lin_add, lin_smul, ih]

/-- products over the degrees of freedom of one primitive do not change -/
theorem lin_cell (f g : Dof → ℝ) (c : PrimCell) :
    ((Isotope.dofs c).map (fun d => t.lin f d * t.lin g d)).sum = ((Isotope.dofs c).map (fun d => f d * g d)).sum := by
  cases c with
  | point p =>
    have := t.inner (f (.px p)) (f (.py p)) (g (.px p)) (g (.py p))
    simp only [u, v] at this
    simpa [Isotope.dofs, lin] using this
  | line l => rfl
  | arc a =>
    simp only [Isotope.dofs, lin, List.map_cons, List.map_nil, List.sum_cons, List.sum_nil]
    linear_combination (f (.as a) * g (.as a) + f (.ae a) * g (.ae a)) * t.e_sq
  | circle a => rfl

end Turn

variable (t : Turn) {s : Sketch}

/-- products over all degrees of freedom of a sketch do not change -/
theorem turn_products (f g : Dof → ℝ) :
    (s.dofs.map (fun d => t.lin f d * t.lin g d)).sum = (s.dofs.map (fun d => f d * g d)).sum := by
  unfold Sketch.dofs
  induction s.cells with
  | nil => rfl
  | cons c cs ih => simp only [List.flatMap_cons, List.map_append, List.sum_append, ih, t.lin_cell]

variable (s)

/-- the turn as a matrix -/
noncomputable def turnMat : Matrix (Fin s.dofs.length) (Fin s.dofs.length) ℝ :=
  fun i j => t.lin (fun a => if s.dofs[j] = a then 1 else 0) s.dofs[i]

variable {s}

theorem partner_mem {d a : Dof} (h : d ∈ s.dofs) (e : a.owner = d.owner) : a ∈ s.dofs := by
  rw [mem_sketch_dofs] at h ⊢; rwa [e]

variable (hn : s.cells.Nodup)
include hn

theorem turnMat_mulVec (f : Dof → ℝ) : turnMat t s *ᵥ (fun i => f s.dofs[i]) = fun i => t.lin f s.dofs[i] := by
  funext i
  have e : t.lin f s.dofs[i] = t.lin (fun a => ∑ j : Fin s.dofs.length, f s.dofs[j] * (if s.dofs[j] = a then 1 else 0)) s.dofs[i] := by
    refine t.lin_congr fun a ha => ?_
    obtain ⟨j, hj, rfl⟩ := List.getElem_of_mem (partner_mem (List.getElem_mem i.2) ha)
    have nd := Sketch.dofs_nodup hn
    rw [Finset.sum_eq_single (⟨j, hj⟩ : Fin s.dofs.length)]
    · simp
    · intro b _ hb
      rw [if_neg, mul_zero]
      intro q
      exact hb (Fin.ext (nd.getElem_inj_iff.1 q))
    · simp
  rw [e, t.lin_sum]
  simp only [mulVec, dotProduct, turnMat]
  exact Finset.sum_congr rfl fun j _ => mul_comm _ _

theorem exists_fn (x : Fin s.dofs.length → ℝ) : ∃ f : Dof → ℝ, x = fun i => f s.dofs[i] := by
  have inj : Function.Injective (fun i : Fin s.dofs.length => s.dofs[i]) := fun i j e =>
    Fin.ext ((Sketch.dofs_nodup hn).getElem_inj_iff.1 e)
  exact ⟨Function.extend (fun i : Fin s.dofs.length => s.dofs[i]) x (fun _ => 0), funext fun i => (inj.extend_apply x _ i).symm⟩

omit hn in
theorem sum_fn (f g : Dof → ℝ) : (fun i : Fin s.dofs.length => f s.dofs[i]) ⬝ᵥ (fun i => g s.dofs[i]) = (s.dofs.map (fun d => f d * g d)).sum := by
  simp only [dotProduct, Fin.getElem_fin]
  rw [Fin.sum_univ_def, ← List.ofFn_eq_map]
  congr 1
  refine List.ext_getElem (by simp) fun i h1 h2 => by simp

theorem turnMat_dot (x y : Fin s.dofs.length → ℝ) : (turnMat t s *ᵥ x) ⬝ᵥ (turnMat t s *ᵥ y) = x ⬝ᵥ y := by
  obtain ⟨f, rfl⟩ := exists_fn hn x
  obtain ⟨g, rfl⟩ := exists_fn hn y
  rw [turnMat_mulVec t hn, turnMat_mulVec t hn, sum_fn, sum_fn, turn_products]

theorem turnMat_left : (turnMat t s)ᵀ * turnMat t s = 1 := by
  ext i j
  have := turnMat_dot t hn (Pi.single i 1) (Pi.single j 1)
  rw [dotProduct_mulVec, vecMul_mulVec, ← dotProduct_mulVec] at this
  simpa [Matrix.one_apply, Pi.single_apply, eq_comm] using this

theorem turnMat_right : turnMat t s * (turnMat t s)ᵀ = 1 := mul_eq_one_comm.1 (turnMat_left t hn)

end Isotope
