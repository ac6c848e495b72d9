import Verif.Round
import Verif.Num
import Mathlib.Analysis.SpecialFunctions.Trigonometric.Basic
import Mathlib.Analysis.SpecialFunctions.Sqrt
import Mathlib.Data.EReal.Basic
import Mathlib.Data.EReal.Operations

/-!
# IEEE binary64

`f64` as IEEE 754-2019 describes it: signed zeros, subnormal numbers, overflow to infinity, rounding to nearest with ties to
even.  There is one NaN (payload and sign of NaN are dropped).  `cos`, `sin`, `acos` and `atan2` come from the platform's
mathematical library and are not specified by IEEE 754, so they are parameters: `B64 lm` for an arbitrary library `lm`.
-/

namespace Isotope
open Round Classical

/-- values of `f64`; the first component of `inf` and `num` says that the sign is negative -/
inductive Val where
  | nan
  | inf (neg : Bool)
  | num (neg : Bool) (m : {r : ℝ // Rep r})

namespace Val

/-- the nearest `f64` with the given sign and magnitude `|x|`; infinity on overflow -/
noncomputable def pack (neg : Bool) (x : ℝ) : Val :=
  if h : rnd |x| < top then num neg ⟨rnd |x|, rep_rnd (abs_nonneg x) h⟩ else inf neg

/-- the real number with given sign and magnitude -/
def sgn (neg : Bool) (m : ℝ) : ℝ := if neg then -m else m

/-- sum; an exact zero is `+0` unless both operands are negative -/
noncomputable def add : Val → Val → Val
  | nan, _ => nan
  | _, nan => nan
  | inf a, inf b => if a = b then inf a else nan
  | inf a, num _ _ => inf a
  | num _ _, inf b => inf b
  | num a m, num b n =>
    if sgn a m + sgn b n = 0 then num (a && b) ⟨0, Rep.zero⟩
    else pack (decide (sgn a m + sgn b n < 0)) (sgn a m + sgn b n)

/-- change of sign -/
def neg : Val → Val
  | nan => nan
  | inf a => inf (!a)
  | num a m => num (!a) m

/-- product -/
noncomputable def mul : Val → Val → Val
  | nan, _ => nan
  | _, nan => nan
  | inf a, inf b => inf (a ^^ b)
  | inf a, num b n => if n.1 = 0 then nan else inf (a ^^ b)
  | num a m, inf b => if m.1 = 0 then nan else inf (a ^^ b)
  | num a m, num b n => pack (a ^^ b) (m.1 * n.1)

/-- quotient -/
noncomputable def div : Val → Val → Val
  | nan, _ => nan
  | _, nan => nan
  | inf _, inf _ => nan
  | inf a, num b _ => inf (a ^^ b)
  | num a _, inf b => num (a ^^ b) ⟨0, Rep.zero⟩
  | num a m, num b n => if n.1 = 0 then (if m.1 = 0 then nan else inf (a ^^ b)) else pack (a ^^ b) (m.1 / n.1)

/-- Rust's `%`: sign of the dividend -/
noncomputable def rem : Val → Val → Val
  | num a m, num _ n => if n.1 = 0 then nan else pack a (m.1 - n.1 * ⌊m.1 / n.1⌋)
  | num a m, inf _ => num a m
  | _, _ => nan

/-- absolute value -/
def abs : Val → Val
  | nan => nan
  | inf _ => inf false
  | num _ m => num false m

/-- square root; `sqrt(-0)` is `-0` -/
noncomputable def sqrt : Val → Val
  | nan => nan
  | inf a => if a then nan else inf false
  | num a m => if m.1 = 0 then num a m else if a then nan else pack false (Real.sqrt m.1)

/-- the number on the extended real line (`0` for NaN) -/
noncomputable def ext : Val → EReal
  | nan => 0
  | inf a => if a then ⊥ else ⊤
  | num a m => (sgn a m.1 : ℝ)

/-- is this NaN? -/
def isNan : Val → Bool
  | nan => true
  | _ => false

/-- sign bit -/
def isNeg : Val → Bool
  | nan => false
  | inf a => a
  | num a _ => a

/-- `<` -/
noncomputable def lt (a b : Val) : Bool := !a.isNan && !b.isNan && decide (a.ext < b.ext)
/-- `<=` -/
noncomputable def le (a b : Val) : Bool := !a.isNan && !b.isNan && decide (a.ext ≤ b.ext)
/-- `==` -/
noncomputable def eq (a b : Val) : Bool := !a.isNan && !b.isNan && decide (a.ext = b.ext)

/-- `is_finite` -/
def isFinite : Val → Bool
  | num _ _ => true
  | _ => false

/-- `total_cmp(..) != Greater`: `-0` before `+0`, NaN last -/
noncomputable def totalLe : Val → Val → Bool
  | _, nan => true
  | nan, _ => false
  | a, b => decide (a.ext < b.ext) || (decide (a.ext = b.ext) && (a.isNeg || !b.isNeg))

end Val

/-- the functions of the platform's mathematical library -/
structure Libm where
  cos : Val → Val
  sin : Val → Val
  acos : Val → Val
  atan2 : Val → Val → Val

/-- `f64` on a platform with mathematical library `lm` -/
@[ext] structure B64 (lm : Libm) where
  v : Val

noncomputable instance (lm : Libm) : Num (B64 lm) where
  add a b := ⟨a.v.add b.v⟩
  sub a b := ⟨a.v.add b.v.neg⟩
  mul a b := ⟨a.v.mul b.v⟩
  div a b := ⟨a.v.div b.v⟩
  neg a := ⟨a.v.neg⟩
  rem a b := ⟨a.v.rem b.v⟩
  abs a := ⟨a.v.abs⟩
  sqrt a := ⟨a.v.sqrt⟩
  cos a := ⟨lm.cos a.v⟩
  sin a := ⟨lm.sin a.v⟩
  acos a := ⟨lm.acos a.v⟩
  atan2 a b := ⟨lm.atan2 a.v b.v⟩
  ofSci m s e := ⟨Val.pack false (OfScientific.ofScientific m s e)⟩
  ofNat n := ⟨Val.pack false n⟩
  pi := ⟨Val.pack false Real.pi⟩
  tau := ⟨Val.pack false (2 * Real.pi)⟩
  inf := ⟨Val.inf false⟩
  lt a b := a.v.lt b.v
  le a b := a.v.le b.v
  eq a b := a.v.eq b.v
  isFinite a := a.v.isFinite
  totalLe a b := a.v.totalLe b.v

namespace B64
variable {lm : Libm}
@[simp] theorem add_v (a b : B64 lm) : (a + b).v = a.v.add b.v := rfl
@[simp] theorem sub_v (a b : B64 lm) : (a - b).v = a.v.add b.v.neg := rfl
@[simp] theorem mul_v (a b : B64 lm) : (a * b).v = a.v.mul b.v := rfl
@[simp] theorem div_v (a b : B64 lm) : (a / b).v = a.v.div b.v := rfl
@[simp] theorem neg_v (a : B64 lm) : (-a).v = a.v.neg := rfl
@[simp] theorem lit_v (m : Nat) (s : Bool) (e : Nat) :
    (OfScientific.ofScientific m s e : B64 lm).v = Val.pack false (OfScientific.ofScientific m s e) := rfl
end B64

namespace Val

/-- rounding of a real on the extended real line -/
noncomputable def R (x : ℝ) : EReal := (pack (decide (x < 0)) x).ext

theorem sgn_abs (x : ℝ) : sgn (decide (x < 0)) |x| = x := by
  unfold sgn
  by_cases h : x < 0
  · simp [h, abs_of_neg h]
  · simp [h, abs_of_nonneg (not_lt.1 h)]

theorem sgn_rep (a : Bool) {m : ℝ} (h : Rep m) : |sgn a m| = m := by
  cases a <;> simp [sgn, abs_of_nonneg h.nonneg]

/-- `|x|` rounded, as an extended real -/
noncomputable def mag (x : ℝ) : EReal := if rnd |x| < top then (rnd |x| : ℝ) else ⊤

theorem ext_pack (a : Bool) (x : ℝ) : (pack a x).ext = if a then -mag x else mag x := by
  unfold pack mag
  split_ifs <;> simp_all [ext, sgn]

theorem mag_nonneg (x : ℝ) : 0 ≤ mag x := by
  unfold mag
  split_ifs
  · exact_mod_cast rnd_nonneg (abs_nonneg x)
  · exact le_top

theorem mag_mono {x y : ℝ} (h : |x| ≤ |y|) : mag x ≤ mag y := by
  have := rnd_mono (abs_nonneg x) h
  unfold mag
  split_ifs with h1 h2
  · exact_mod_cast this
  · exact le_top
  · linarith
  · exact le_rfl

theorem mag_rep {m : ℝ} (h : Rep m) : mag m = (m : ℝ) := by
  unfold mag
  rw [abs_of_nonneg h.nonneg, h.rnd_eq, if_pos h.lt_top]

theorem R_eq (x : ℝ) : R x = if x < 0 then -mag x else mag x := by simp [R, ext_pack]

theorem R_mono {x y : ℝ} (h : x ≤ y) : R x ≤ R y := by
  rw [R_eq, R_eq]
  split_ifs with h1 h2
  · rw [EReal.neg_le_neg_iff]
    exact mag_mono (by rw [abs_of_neg h1, abs_of_neg h2]; linarith)
  · refine le_trans ?_ (mag_nonneg y)
    simpa using mag_nonneg x
  · linarith
  · exact mag_mono (by rw [abs_of_nonneg (not_lt.1 h1), abs_of_nonneg (by linarith)]; exact h)

theorem R_sgn (a : Bool) {m : ℝ} (h : Rep m) : R (sgn a m) = (sgn a m : ℝ) := by
  have hm : mag (sgn a m) = (m : ℝ) := by
    rw [← mag_rep h]
    unfold mag
    rw [sgn_rep a h, abs_of_nonneg h.nonneg]
  rw [R_eq, hm]
  unfold sgn
  have := h.nonneg
  cases a
  · simp [not_lt.2 this]
  · rcases this.eq_or_lt with rfl | h0
    · simp
    · simp [h0]

theorem ext_add_num (a b : Bool) (m n : {r : ℝ // Rep r}) :
    (add (num a m) (num b n)).ext = R (sgn a m + sgn b n) := by
  simp only [add]
  split_ifs with h
  · rw [h]
    have := R_sgn false Rep.zero
    simp [sgn] at this
    simp [ext, sgn, this]
  · rfl

theorem pack_not_nan (a : Bool) (x : ℝ) : (pack a x).isNan = false := by unfold pack; split_ifs <;> rfl

theorem add_num_not_nan (a b : Bool) (m n : {r : ℝ // Rep r}) : (add (num a m) (num b n)).isNan = false := by
  simp only [add]
  split_ifs
  · rfl
  · exact pack_not_nan _ _

theorem pack_rep (a : Bool) (m : {r : ℝ // Rep r}) : pack a m.1 = num a m := by
  have h : rnd |m.1| = m.1 := by rw [abs_of_nonneg m.2.nonneg, m.2.rnd_eq]
  unfold pack
  rw [dif_pos (by rw [h]; exact m.2.lt_top)]
  congr 1
  exact Subtype.ext h

/-- a positive number at least `2^-k` -/
def AtLeast (k : ℕ) (v : Val) : Prop := v.isNan = false ∧ (((2 : ℝ) ^ (-(k : ℤ)) : ℝ) : EReal) ≤ v.ext

theorem rep_two (k : ℕ) (h : k ≤ 1000) : Rep (2 ^ (-(k : ℤ))) := ⟨1, -k, by norm_num, by omega, by omega, by simp⟩

theorem atLeast_pack {k : ℕ} (hk : k ≤ 1000) {x : ℝ} (h : 2 ^ (-(k : ℤ)) ≤ x) : AtLeast k (pack false x) := by
  refine ⟨pack_not_nan _ _, ?_⟩
  rw [ext_pack, ← mag_rep (rep_two k hk)]
  have := two_pos (-(k : ℤ))
  exact mag_mono (by rw [abs_of_pos this, abs_of_pos (by linarith)]; exact h)

theorem AtLeast.cases {k : ℕ} {v : Val} (h : AtLeast k v) :
    v = inf false ∨ ∃ m : {r : ℝ // Rep r}, v = num false m ∧ (2 : ℝ) ^ (-(k : ℤ)) ≤ m.1 := by
  have h0 := two_pos (-(k : ℤ))
  obtain ⟨h1, h2⟩ := h
  cases v with
  | nan => simp [isNan] at h1
  | inf a => cases a <;> simp_all [ext]
  | num a m =>
    cases a
    · exact .inr ⟨m, rfl, by simpa [ext, sgn] using h2⟩
    · have h3 : (2 : ℝ) ^ (-(k : ℤ)) ≤ -m.1 := EReal.coe_le_coe_iff.1 h2
      have := m.2.nonneg
      linarith

theorem AtLeast.mul {k j : ℕ} {v w : Val} (hv : AtLeast k v) (hw : AtLeast j w) (hk : k + j ≤ 1000) :
    AtLeast (k + j) (Val.mul v w) := by
  have hk0 := two_pos (-(k : ℤ))
  have hj0 := two_pos (-(j : ℤ))
  have top' : AtLeast (k + j) (inf false) := ⟨rfl, by simp [ext]⟩
  rcases hv.cases with rfl | ⟨m, rfl, hm⟩ <;> rcases hw.cases with rfl | ⟨n, rfl, hn⟩
  · exact top'
  · simp only [Val.mul]; rw [if_neg (by linarith)]; exact top'
  · simp only [Val.mul]; rw [if_neg (by linarith)]; exact top'
  · refine atLeast_pack hk ?_
    rw [show (-((k + j : ℕ) : ℤ)) = -(k : ℤ) + -(j : ℤ) by push_cast; ring, zpow_add₀ (by norm_num)]
    exact mul_le_mul hm hn hj0.le (by linarith)

end Val
end Isotope
