import Verif.Props.FloatPanic

/-!
# Arithmetic with non-finite operands

Laws of `f64` about infinities and NaN, and what they imply for the constraints.
-/

namespace Isotope

/-- Laws of IEEE arithmetic about results of operations with infinite or NaN operands.  They hold for `f64`. -/
class NonFiniteLaws (F : Type) [Num F] : Prop where
  zero : Num.isFinite (0.0 : F) = true
  add : ∀ x y : F, Num.isFinite (x + y) = true → Num.isFinite x = true ∧ Num.isFinite y = true
  sub : ∀ x y : F, Num.isFinite (x - y) = true → Num.isFinite x = true ∧ Num.isFinite y = true
  mul : ∀ x y : F, Num.isFinite (x * y) = true → Num.isFinite x = true ∧ Num.isFinite y = true
  neg : ∀ x : F, Num.isFinite (-x) = true → Num.isFinite x = true
  sqrt : ∀ x : F, Num.isFinite (Num.sqrt x) = true → Num.isFinite x = true
  abs : ∀ x : F, Num.isFinite (Num.abs x) = true → Num.isFinite x = true
  /-- `∞ / ∞` is NaN -/
  div : ∀ x y : F, Num.isFinite x = false → Num.isFinite y = false → (x / y ==. x / y) = false
  /-- a finite number is not NaN -/
  eq : ∀ x : F, Num.isFinite x = true → (x ==. x) = true
  /-- NaN is not below and not above anything -/
  nan_lt : ∀ x y : F, (x ==. x) = false → (x <. y) = false ∧ (y <. x) = false
  /-- a non-finite number below something is negative -/
  lt : ∀ x y : F, Num.isFinite x = false → (x <. y) = true → (x <. (0.0 : F)) = true
  sqrt_nonneg : ∀ x : F, (Num.sqrt x <. (0.0 : F)) = false
  abs_nonneg : ∀ x : F, (Num.abs x <. (0.0 : F)) = false

theorem XR.infOf_not_finite (a : ℝ) : XR.isFinite (XR.infOf a) = false := by unfold XR.infOf; split_ifs <;> rfl

instance : NonFiniteLaws XR where
  zero := rfl
  add x y h := by cases x <;> cases y <;> first | exact ⟨rfl, rfl⟩ | exact Bool.noConfusion h
  sub x y h := by cases x <;> cases y <;> first | exact ⟨rfl, rfl⟩ | exact Bool.noConfusion h
  mul x y h := by
    change XR.isFinite (XR.mul x y) = true at h
    cases x <;> cases y <;> first
      | exact ⟨rfl, rfl⟩
      | (exfalso; simp [XR.mul, XR.infOf_not_finite] at h; done)
      | exact Bool.noConfusion h
  neg x h := by cases x <;> first | rfl | exact absurd h (by decide)
  sqrt x h := by cases x <;> first | rfl | exact absurd h (by decide)
  abs x h := by cases x <;> first | rfl | exact absurd h (by decide)
  div x y h1 h2 := by
    cases x <;> cases y <;> first
      | exact Bool.noConfusion h1
      | exact Bool.noConfusion h2
      | rfl
  eq x h := by cases x <;> first | (exact decide_eq_true rfl) | exact absurd h (by decide)
  nan_lt x y h := by
    cases x with
    | nan => exact ⟨rfl, by cases y <;> rfl⟩
    | fin a => exact absurd h (by simp [Num.eq, XR.eq])
    | _ => exact absurd h (by simp [Num.eq, XR.eq])
  lt x y h1 h2 := by
    cases x with
    | fin a => exact absurd h1 (by simp [Num.isFinite, XR.isFinite])
    | ninf => rfl
    | pinf => cases y <;> exact absurd h2 (by simp [Num.lt, XR.lt])
    | nan => cases y <;> exact absurd h2 (by simp [Num.lt, XR.lt])
  sqrt_nonneg x := by
    cases x with
    | fin a =>
      change XR.lt (XR.sqrt (.fin a)) (.fin _) = false
      unfold XR.sqrt
      dsimp only
      split_ifs with h
      · rfl
      · simp only [XR.lt, decide_eq_false_iff_not, not_lt]
        have : (OfScientific.ofScientific 0 true 1 : ℝ) = 0 := by norm_num
        rw [this]; exact Real.sqrt_nonneg a
    | _ => rfl
  abs_nonneg x := by
    cases x with
    | fin a =>
      change XR.lt (.fin |a|) (.fin _) = false
      simp only [XR.lt, decide_eq_false_iff_not, not_lt]
      have : (OfScientific.ofScientific 0 true 1 : ℝ) = 0 := by norm_num
      rw [this]; exact _root_.abs_nonneg a
    | _ => rfl

section
open Val
variable {lm : Libm}

theorem not_neg_of_ext {x : B64 lm} (h : x.v.isNan = true ∨ 0 ≤ x.v.ext) : (x <. (0.0 : B64 lm)) = false := by
  change Val.lt x.v (0.0 : B64 lm).v = false
  unfold Val.lt
  rw [(B64.is_zero (lm := lm)).ext]
  rcases h with h | h
  · simp [h]
  · have : ¬x.v.ext < ((0 : ℝ) : EReal) := by rw [not_lt]; exact_mod_cast h
    simp only [this, decide_false, Bool.and_false]

instance : NonFiniteLaws (B64 lm) where
  zero := B64.is_zero.isFinite
  add x y h := by
    rcases x with ⟨x⟩; rcases y with ⟨y⟩
    change (x.add y).isFinite = true at h
    change x.isFinite = true ∧ y.isFinite = true
    cases x <;> cases y <;> simp only [Val.add, Val.isFinite, reduceCtorEq, and_self] at h ⊢
    split_ifs at h
  sub x y h := by
    rcases x with ⟨x⟩; rcases y with ⟨y⟩
    change (x.add y.neg).isFinite = true at h
    change x.isFinite = true ∧ y.isFinite = true
    cases x <;> cases y <;> simp only [Val.add, Val.neg, Val.isFinite, reduceCtorEq, and_self] at h ⊢
    split_ifs at h
  mul x y h := by
    rcases x with ⟨x⟩; rcases y with ⟨y⟩
    change (x.mul y).isFinite = true at h
    change x.isFinite = true ∧ y.isFinite = true
    cases x <;> cases y <;> simp only [Val.mul, Val.isFinite, reduceCtorEq, and_self] at h ⊢ <;>
      (split_ifs at h)
  neg x h := by
    rcases x with ⟨x⟩
    cases x <;> first | rfl | exact absurd h (by simp [Num.isFinite, Val.neg, Val.isFinite])
  sqrt x h := by
    rcases x with ⟨x⟩
    change x.sqrt.isFinite = true at h
    change x.isFinite = true
    cases x with
    | nan => exact h
    | inf a => cases a <;> simp [Val.sqrt, Val.isFinite] at h
    | num a m => rfl
  abs x h := by
    rcases x with ⟨x⟩
    cases x <;> first | rfl | exact absurd h (by simp [Num.isFinite, Num.abs, Val.abs, Val.isFinite])
  div x y h1 h2 := by
    rcases x with ⟨x⟩; rcases y with ⟨y⟩
    change x.isFinite = false at h1
    change y.isFinite = false at h2
    change (x.div y).eq (x.div y) = false
    cases x <;> cases y <;> simp only [Val.isFinite, Bool.true_eq_false] at h1 h2 <;> rfl
  eq x h := by
    rcases x with ⟨x⟩
    change x.isFinite = true at h
    change x.eq x = true
    cases x <;> simp only [Val.isFinite, Bool.false_eq_true] at h
    simp [Val.eq, Val.isNan]
  nan_lt x y h := by
    rcases x with ⟨x⟩; rcases y with ⟨y⟩
    change x.eq x = false at h
    change x.lt y = false ∧ y.lt x = false
    cases x <;> simp [Val.eq, Val.isNan] at h
    simp [Val.lt, Val.isNan]
  lt x y h1 h2 := by
    rcases x with ⟨x⟩; rcases y with ⟨y⟩
    change x.isFinite = false at h1
    change x.lt y = true at h2
    change x.lt (pack false (OfScientific.ofScientific 0 true 1)) = true
    cases x with
    | nan => simp [Val.lt, Val.isNan] at h2
    | num a m => simp [Val.isFinite] at h1
    | inf a =>
      cases a with
      | false => simp [Val.lt, Val.ext, Val.isNan] at h2
      | true =>
        have e : (OfScientific.ofScientific 0 true 1 : ℝ) = 0 := by norm_num
        have z := (B64.is_zero (lm := lm)).isFinite
        change (pack false (OfScientific.ofScientific 0 true 1)).isFinite = true at z
        revert z
        generalize pack false (OfScientific.ofScientific 0 true 1) = w
        intro z
        cases w with
        | num b n => simp [Val.lt, Val.ext, Val.isNan]
        | _ => simp [Val.isFinite] at z
  sqrt_nonneg x := by
    apply not_neg_of_ext
    rcases x with ⟨x⟩
    change (x.sqrt).isNan = true ∨ 0 ≤ (x.sqrt).ext
    cases x with
    | nan => exact .inl rfl
    | inf a => cases a <;> simp [Val.sqrt, Val.isNan, Val.ext]
    | num a m =>
      simp only [Val.sqrt]
      split_ifs with h1 h2
      · right; simp [Val.ext, sgn, h1]
      · exact .inl rfl
      · right; rw [ext_pack]; exact mag_nonneg _
  abs_nonneg x := by
    apply not_neg_of_ext
    rcases x with ⟨x⟩
    change (x.abs).isNan = true ∨ 0 ≤ (x.abs).ext
    cases x with
    | nan => exact .inl rfl
    | inf a => simp [Val.abs, Val.isNan, Val.ext]
    | num a m => right; simp [Val.abs, Val.ext, sgn, m.2.nonneg]
end

section
variable {F : Type} [Num F] [L : NonFiniteLaws F]

/-- not finite -/
abbrev NF (x : F) : Prop := Num.isFinite x = false

omit L in
theorem nf_of {x y : F} (h : Num.isFinite y = true → Num.isFinite x = true) (hx : NF x) : NF y := by
  unfold NF at *
  cases e : Num.isFinite y with
  | false => rfl
  | true => rw [h e] at hx; exact hx

theorem NF.addl {x y : F} (h : NF x) : NF (x + y) := nf_of (fun e => (L.add _ _ e).1) h
theorem NF.addr {x y : F} (h : NF y) : NF (x + y) := nf_of (fun e => (L.add _ _ e).2) h
theorem NF.subl {x y : F} (h : NF x) : NF (x - y) := nf_of (fun e => (L.sub _ _ e).1) h
theorem NF.subr {x y : F} (h : NF y) : NF (x - y) := nf_of (fun e => (L.sub _ _ e).2) h
theorem NF.mull {x y : F} (h : NF x) : NF (x * y) := nf_of (fun e => (L.mul _ _ e).1) h
theorem NF.mulr {x y : F} (h : NF y) : NF (x * y) := nf_of (fun e => (L.mul _ _ e).2) h
theorem NF.neg {x : F} (h : NF x) : NF (-x) := nf_of (L.neg _) h
theorem NF.sqrt {x : F} (h : NF x) : NF (Num.sqrt x) := nf_of (L.sqrt _) h
theorem NF.abs {x : F} (h : NF x) : NF (Num.abs x) := nf_of (L.abs _) h

/-- a component is not finite -/
def NFV (v : Vec2 F) : Prop := NF v.x ∨ NF v.y

theorem NFV.subl {u v : Vec2 F} (h : NFV u) : NFV (u - v) := h.imp NF.subl NF.subl
theorem NFV.subr {u v : Vec2 F} (h : NFV v) : NFV (u - v) := h.imp NF.subr NF.subr
theorem NFV.neg {v : Vec2 F} (h : NFV v) : NFV (-v) := h.imp NF.neg NF.neg
theorem NFV.normSq {v : Vec2 F} (h : NFV v) : NF v.normSq := h.elim (fun h => h.mull.addl) (fun h => h.mull.addr)
theorem NFV.norm {v : Vec2 F} (h : NFV v) : NF v.norm := h.normSq.sqrt
theorem NFV.dotl {u v : Vec2 F} (h : NFV u) : NF (u.dot v) := h.elim (fun h => h.mull.addl) (fun h => h.mull.addr)
theorem NFV.dotr {u v : Vec2 F} (h : NFV v) : NF (u.dot v) := h.elim (fun h => h.mulr.addl) (fun h => h.mulr.addr)
theorem NF.smul {a : F} {v : Vec2 F} (h : NF a) : NFV (v.smul a) := .inl h.mull

omit L in
theorem NFV.allFinite {v : Vec2 F} (h : NFV v) : v.allFinite = false := by
  unfold Vec2.allFinite; rcases h with h | h <;> simp [show Num.isFinite _ = false from h]

theorem NFV.mul22 {v : Vec2 F} (h : NFV v) (m : Mat2 (Vec2 F)) : NFV (v.mul22 m) :=
  .inl (h.elim (fun h => h.mull.addl) (fun h => h.mull.addr))

theorem NFV.mul24 {v : Vec2 F} (h : NFV v) (m : Mat2 (Row4 F)) : (v.mul24 m).allFinite = false := by
  have : NF (v.x * m.r0.a0 + v.y * m.r1.a0) := h.elim (fun h => h.mull.addl) (fun h => h.mull.addr)
  simp [Row4.allFinite, Vec2.mul24, show Num.isFinite _ = false from this]

theorem NFV.mul25 {v : Vec2 F} (h : NFV v) (m : Mat2 (Row5 F)) : (v.mul25 m).allFinite = false := by
  have : NF (v.x * m.r0.a0 + v.y * m.r1.a0) := h.elim (fun h => h.mull.addl) (fun h => h.mull.addr)
  simp [Row5.allFinite, Vec2.mul25, show Num.isFinite _ = false from this]

theorem NF.not_lt {x y : F} (h : NF x) (hn : (x <. (0.0 : F)) = false) : (x <. y) = false := by
  cases e : (x <. y) with
  | false => rfl
  | true => rw [L.lt x y h e] at hn; exact hn

theorem NFV.normalize {v : Vec2 F} (h : NFV v) : NFV v.normalize := by
  have key : ∀ z : F, NF z → NF (z / v.norm) := fun z hz =>
    nf_of (x := z) (fun e => absurd (L.eq _ e) (by rw [L.div z v.norm hz h.norm]; decide)) hz
  exact h.imp (key _) (key _)

end

end Isotope
