import Verif.Num
import Mathlib.Analysis.SpecialFunctions.Trigonometric.Inverse
import Mathlib.Analysis.SpecialFunctions.Complex.Arg
import Mathlib.Analysis.SpecialFunctions.Sqrt
import Mathlib.Data.Rat.Floor
import Mathlib.Algebra.Order.Floor.Ring
import Mathlib.Tactic.NormNum
import Mathlib.Tactic.Linarith
import Mathlib.Tactic.FieldSimp
import Mathlib.Tactic.Ring

/-!
# Exact arithmetic with infinities and NaN

`XR` is the reals plus `+∞`, `-∞` and NaN, with the IEEE rules for exceptional operands but without rounding, overflow
and signed zeros.  Theorems "in exact arithmetic" are about the model run on `XR`.
-/

namespace Isotope

/-- reals with `+∞`, `-∞`, NaN -/
inductive XR where
  | fin (r : ℝ)
  | pinf
  | ninf
  | nan

namespace XR
open Classical

/-- sum; `∞ - ∞` is NaN -/
def add : XR → XR → XR
  | fin a, fin b => fin (a + b)
  | nan, _ => nan
  | _, nan => nan
  | pinf, ninf => nan
  | ninf, pinf => nan
  | pinf, _ => pinf
  | _, pinf => pinf
  | ninf, _ => ninf
  | _, ninf => ninf

/-- negation -/
def neg : XR → XR
  | fin a => fin (-a)
  | pinf => ninf
  | ninf => pinf
  | nan => nan

/-- `±∞` by the sign of a real, NaN for zero -/
noncomputable def infOf (a : ℝ) : XR := if 0 < a then pinf else if a < 0 then ninf else nan

/-- product; `0 * ∞` is NaN -/
noncomputable def mul : XR → XR → XR
  | fin a, fin b => fin (a * b)
  | nan, _ => nan
  | _, nan => nan
  | fin a, pinf => infOf a
  | fin a, ninf => infOf (-a)
  | pinf, fin a => infOf a
  | ninf, fin a => infOf (-a)
  | pinf, pinf => pinf
  | pinf, ninf => ninf
  | ninf, pinf => ninf
  | ninf, ninf => pinf

/-- quotient; `a / 0` is `±∞` by the sign of `a` (zeros are unsigned), `0 / 0` and `∞ / ∞` are NaN -/
noncomputable def div : XR → XR → XR
  | fin a, fin b => if b = 0 then infOf a else fin (a / b)
  | fin _, pinf => fin 0
  | fin _, ninf => fin 0
  | pinf, fin b => if b < 0 then ninf else pinf
  | ninf, fin b => if b < 0 then pinf else ninf
  | _, _ => nan

/-- truncation toward zero -/
noncomputable def trunc (a : ℝ) : ℝ := if a < 0 then (⌈a⌉ : ℤ) else (⌊a⌋ : ℤ)

/-- Rust's `%`: sign of the dividend -/
noncomputable def rem : XR → XR → XR
  | fin a, fin b => if b = 0 then nan else fin (a - b * trunc (a / b))
  | fin a, pinf => fin a
  | fin a, ninf => fin a
  | _, _ => nan

/-- absolute value -/
noncomputable def abs : XR → XR
  | fin a => fin |a|
  | pinf => pinf
  | ninf => pinf
  | nan => nan

/-- square root; NaN for negative numbers -/
noncomputable def sqrt : XR → XR
  | fin a => if a < 0 then nan else fin (Real.sqrt a)
  | pinf => pinf
  | _ => nan

/-- lift of a real function, NaN at the infinities -/
def lift (f : ℝ → ℝ) : XR → XR
  | fin a => fin (f a)
  | _ => nan

/-- arc cosine; NaN outside `[-1, 1]` -/
noncomputable def acos : XR → XR
  | fin a => if a < -1 ∨ 1 < a then nan else fin (Real.arccos a)
  | _ => nan

/-- `y.atan2(x)` on finite arguments: the argument of `x + i y` in `(-π, π]`; NaN at the infinities (not modelled) -/
noncomputable def atan2 : XR → XR → XR
  | fin y, fin x => fin (Complex.arg ⟨x, y⟩)
  | _, _ => nan

/-- `<` -/
noncomputable def lt : XR → XR → Bool
  | fin a, fin b => decide (a < b)
  | ninf, fin _ => true
  | fin _, pinf => true
  | ninf, pinf => true
  | _, _ => false

/-- `<=` -/
noncomputable def le : XR → XR → Bool
  | fin a, fin b => decide (a ≤ b)
  | ninf, fin _ => true
  | fin _, pinf => true
  | ninf, pinf => true
  | pinf, pinf => true
  | ninf, ninf => true
  | _, _ => false

/-- `==` -/
noncomputable def eq : XR → XR → Bool
  | fin a, fin b => decide (a = b)
  | pinf, pinf => true
  | ninf, ninf => true
  | _, _ => false

/-- `is_finite` -/
def isFinite : XR → Bool
  | fin _ => true
  | _ => false

/-- `total_cmp(..) != Greater`: NaN last -/
noncomputable def totalLe : XR → XR → Bool
  | _, nan => true
  | nan, _ => false
  | a, b => le a b

noncomputable instance : Num XR where
  add := add
  sub a b := add a (neg b)
  mul := mul
  div := div
  neg := neg
  rem := rem
  abs := abs
  sqrt := sqrt
  cos := lift Real.cos
  sin := lift Real.sin
  acos := acos
  atan2 := atan2
  ofSci m s e := fin (OfScientific.ofScientific m s e)
  ofNat n := fin n
  pi := fin Real.pi
  tau := fin (2 * Real.pi)
  inf := pinf
  lt := lt
  le := le
  eq := eq
  isFinite := isFinite
  totalLe := totalLe

/-- the real number, `0` if exceptional -/
def toReal : XR → ℝ
  | fin a => a
  | _ => 0

@[simp] theorem toReal_fin (a : ℝ) : toReal (fin a) = a := rfl

@[simp] theorem add_fin (a b : ℝ) : fin a + fin b = fin (a + b) := rfl
@[simp] theorem sub_fin (a b : ℝ) : fin a - fin b = fin (a - b) := by
  show fin (a + -b) = _; rw [sub_eq_add_neg]
@[simp] theorem mul_fin (a b : ℝ) : fin a * fin b = fin (a * b) := rfl
@[simp] theorem neg_fin (a : ℝ) : -fin a = fin (-a) := rfl
theorem div_fin (a b : ℝ) : fin a / fin b = if b = 0 then infOf a else fin (a / b) := rfl
@[simp] theorem div_fin_of_ne {b : ℝ} (a : ℝ) (h : b ≠ 0) : fin a / fin b = fin (a / b) := by rw [div_fin, if_neg h]
@[simp] theorem abs_fin (a : ℝ) : Num.abs (fin a) = fin |a| := rfl
theorem sqrt_fin (a : ℝ) : Num.sqrt (fin a) = if a < 0 then nan else fin (Real.sqrt a) := rfl
@[simp] theorem sqrt_fin_of_nonneg {a : ℝ} (h : 0 ≤ a) : Num.sqrt (fin a) = fin (Real.sqrt a) := by
  rw [sqrt_fin, if_neg (not_lt.2 h)]
@[simp] theorem cos_fin (a : ℝ) : Num.cos (fin a) = fin (Real.cos a) := rfl
@[simp] theorem sin_fin (a : ℝ) : Num.sin (fin a) = fin (Real.sin a) := rfl
theorem acos_fin (a : ℝ) : Num.acos (fin a) = if a < -1 ∨ 1 < a then nan else fin (Real.arccos a) := rfl
theorem acos_fin_of_mem {a : ℝ} (h1 : -1 ≤ a) (h2 : a ≤ 1) : Num.acos (fin a) = fin (Real.arccos a) := by
  rw [acos_fin, if_neg]; rintro (h | h) <;> linarith
@[simp] theorem atan2_fin (y x : ℝ) : Num.atan2 (fin y) (fin x) = fin (Complex.arg ⟨x, y⟩) := rfl
@[simp] theorem sci (m : Nat) (s : Bool) (e : Nat) :
    (OfScientific.ofScientific m s e : XR) = fin (OfScientific.ofScientific m s e : ℝ) := rfl
@[simp] theorem ofNat_fin (n : Nat) : (Num.ofNat n : XR) = fin n := rfl
@[simp] theorem pi_fin : (Num.pi : XR) = fin Real.pi := rfl
@[simp] theorem tau_fin : (Num.tau : XR) = fin (2 * Real.pi) := rfl
@[simp] theorem inf_def : (Num.inf : XR) = pinf := rfl
@[simp] theorem lt_fin (a b : ℝ) : (fin a <. fin b) = decide (a < b) := rfl
@[simp] theorem le_fin (a b : ℝ) : (fin a <=. fin b) = decide (a ≤ b) := rfl
@[simp] theorem eq_fin (a b : ℝ) : (fin a ==. fin b) = decide (a = b) := rfl
@[simp] theorem isFinite_fin (a : ℝ) : Num.isFinite (fin a) = true := rfl
@[simp] theorem isFinite_pinf : Num.isFinite pinf = false := rfl
@[simp] theorem isFinite_ninf : Num.isFinite ninf = false := rfl
@[simp] theorem isFinite_nan : Num.isFinite nan = false := rfl
@[simp] theorem totalLe_fin (a b : ℝ) : Num.totalLe (fin a) (fin b) = decide (a ≤ b) := rfl
@[simp] theorem isFinite_infOf (a : ℝ) : Num.isFinite (infOf a) = false := by
  unfold infOf; split
  · rfl
  · split <;> rfl

theorem isFinite_iff (x : XR) : Num.isFinite x = true ↔ ∃ r, x = fin r := by
  cases x <;> simp

theorem eq_fin_of_isFinite {x : XR} (h : Num.isFinite x = true) : x = fin x.toReal := by
  obtain ⟨r, rfl⟩ := (isFinite_iff x).1 h; rfl

end XR
end Isotope
