import Verif.Spec
import Verif.XR

/-!
# The exact numbers satisfy the order laws
-/

namespace Isotope
open XR

theorem alphaOf_fin (l : List Bool) : ∃ r : ℝ, 0 < r ∧ (1 / 2 : ℝ) ^ l.length ≤ r ∧ (alphaOf l : XR) = fin r := by
  unfold alphaOf
  have : ∀ (l : List Bool) (a : ℝ), 0 < a → ∃ r : ℝ, 0 < r ∧ (1 / 2 : ℝ) ^ l.length * a ≤ r ∧
      l.foldl (fun a b => a * (if b then (1.5 : XR) else 0.5)) (fin a) = fin r := by
    intro l
    induction l with
    | nil => intro a ha; exact ⟨a, ha, by simp, rfl⟩
    | cons b l ih =>
      intro a ha
      cases b
      · obtain ⟨r, h1, h2, h3⟩ := ih (a * (1 / 2)) (by linarith)
        refine ⟨r, h1, ?_, ?_⟩
        · rw [List.length_cons, pow_succ]; linarith
        · rw [List.foldl_cons, ← h3]; simp only [Bool.false_eq_true, if_false, sci, mul_fin]; norm_num
      · obtain ⟨r, h1, h2, h3⟩ := ih (a * (3 / 2)) (by linarith)
        refine ⟨r, h1, ?_, ?_⟩
        · rw [List.length_cons, pow_succ]
          have : 0 < (1 / 2 : ℝ) ^ l.length * a := by positivity
          linarith
        · rw [List.foldl_cons, ← h3]; simp only [if_true, sci, mul_fin]; norm_num
  obtain ⟨r, h1, h2, h3⟩ := this l 1 one_pos
  refine ⟨r, h1, by simpa using h2, ?_⟩
  rw [← h3]; simp only [sci]; norm_num

/-- `<=` is transitive on exact numbers -/
theorem XR.le_trans' (x y z : XR) (h1 : (x <=. y) = true) (h2 : (y <=. z) = true) : (x <=. z) = true := by
  cases x <;> cases y <;> cases z <;> simp_all [Num.le, XR.le]
  exact _root_.le_trans h1 h2

instance : FloatLaws XR where
  le_trans := XR.le_trans'
  le_of_le_add x y z h1 h2 := by
    have z0 : (0.0 : XR) = fin 0 := by simp only [sci]; norm_num
    rw [z0] at h2
    cases x <;> cases y <;> cases z <;> first
      | rfl
      | (simp [Num.lt, XR.lt] at h2; done)
      | (simp [Num.le, XR.le, HAdd.hAdd, Add.add, Num.add, XR.add] at h1; done)
      | skip
    simp only [add_fin, le_fin, decide_eq_true_eq, lt_fin, decide_eq_false_iff_not, not_lt] at *
    linarith
  mul_not_pos a b h1 h2 := by
    have z0 : (0.0 : XR) = fin 0 := by simp only [sci]; norm_num
    rw [z0] at h1 h2 ⊢
    cases a <;> cases b <;> first
      | rfl
      | (simp [Num.lt, XR.lt] at h1; done)
      | (simp [Num.le, XR.le] at h2; done)
      | skip
    · simp only [mul_fin, le_fin, decide_eq_true_eq, lt_fin, decide_eq_false_iff_not, not_lt, not_le] at *
      nlinarith
    · simp only [lt_fin, decide_eq_true_eq] at h1
      simp [HMul.hMul, Mul.mul, Num.mul, XR.mul, XR.infOf, Num.lt, XR.lt, not_lt.2 h1.le, h1]
    · simp only [le_fin, decide_eq_false_iff_not, not_le] at h2
      simp [HMul.hMul, Mul.mul, Num.mul, XR.mul, XR.infOf, Num.lt, XR.lt, not_lt.2 h2.le, h2]
  alpha_pos l _ := by
    obtain ⟨r, h1, -, h2⟩ := alphaOf_fin l
    rw [h2]
    simp only [sci, mul_fin, lt_fin, decide_eq_true_eq]
    norm_num
    exact h1
  one_mul x := by
    have o : (1.0 : XR) = fin 1 := by simp only [sci]; norm_num
    rw [o]
    cases x with
    | fin r => rw [mul_fin, _root_.one_mul]
    | _ => simp [HMul.hMul, Mul.mul, Num.mul, XR.mul, XR.infOf]
  add_comm x y := by
    cases x <;> cases y <;> simp [HAdd.hAdd, Add.add, Num.add, XR.add]
    exact _root_.add_comm _ _

end Isotope
