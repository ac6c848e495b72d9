import Verif.B64
import Verif.SpecRing

/-!
# binary64 satisfies the laws assumed of rounded arithmetic
-/

namespace Isotope
open Round Val

variable {lm : Libm}

theorem B64.le_iff (a b : B64 lm) : (a <=. b) = true ↔ a.v.isNan = false ∧ b.v.isNan = false ∧ a.v.ext ≤ b.v.ext := by
  show Val.le a.v b.v = true ↔ _
  simp [Val.le, and_assoc]

theorem B64.lt_iff (a b : B64 lm) : (a <. b) = true ↔ a.v.isNan = false ∧ b.v.isNan = false ∧ a.v.ext < b.v.ext := by
  show Val.lt a.v b.v = true ↔ _
  simp [Val.lt, and_assoc]

theorem B64.eq_iff (a b : B64 lm) : (a ==. b) = true ↔ a.v.isNan = false ∧ b.v.isNan = false ∧ a.v.ext = b.v.ext := by
  show Val.eq a.v b.v = true ↔ _
  simp [Val.eq, and_assoc]

theorem rep_one : Rep 1 := by simpa using rep_two 0 (by norm_num)

theorem B64.zero_v : (0.0 : B64 lm).v = num false ⟨0, Rep.zero⟩ := by
  rw [B64.lit_v, ← pack_rep]
  congr 1
  norm_num

theorem B64.one_v : (1.0 : B64 lm).v = num false ⟨1, rep_one⟩ := by
  rw [B64.lit_v, ← pack_rep]
  congr 1
  norm_num

theorem B64.zero_lt_iff (z : B64 lm) : ((0.0 : B64 lm) <. z) = false ↔ z.v.isNan = true ∨ z.v.ext ≤ 0 := by
  rw [← Bool.not_eq_true, B64.lt_iff, B64.zero_v]
  simp [ext, sgn, isNan, not_lt, imp_iff_not_or]

theorem B64.alphaOf_atLeast (l : List Bool) (hl : l.length ≤ 900) : AtLeast l.length (alphaOf l : B64 lm).v := by
  have key : ∀ (l : List Bool) (k : ℕ) (a : B64 lm), AtLeast k a.v → k + l.length ≤ 1000 →
      AtLeast (k + l.length) (l.foldl (fun a b => a * (if b then (1.5 : B64 lm) else 0.5)) a).v := by
    intro l
    induction l with
    | nil => intro k a h _; exact h
    | cons b l ih =>
      intro k a h hk
      rw [List.length_cons] at *
      have : AtLeast (k + 1) (a * (if b then (1.5 : B64 lm) else 0.5)).v := by
        refine h.mul ?_ (by omega)
        cases b
        · exact atLeast_pack (by norm_num) (by norm_num)
        · exact atLeast_pack (by norm_num) (by norm_num)
      have := ih _ _ this (by omega)
      rw [List.foldl_cons, show k + (l.length + 1) = k + 1 + l.length by omega]
      exact this
  have := key l 0 (1.0 : B64 lm) (atLeast_pack (by norm_num) (by norm_num)) (by omega)
  simpa [alphaOf] using this

instance : FloatLaws (B64 lm) where
  le_trans x y z h1 h2 := by
    rw [B64.le_iff] at *
    exact ⟨h1.1, h2.2.1, h1.2.2.trans h2.2.2⟩
  le_of_le_add x y z h1 h2 := by
    rw [B64.zero_lt_iff] at h2
    rw [B64.le_iff] at *
    obtain ⟨n1, n2, h1⟩ := h1
    refine ⟨n1, ?_⟩
    rw [B64.add_v] at n2 h1
    obtain ⟨x⟩ := x; obtain ⟨y⟩ := y; obtain ⟨z⟩ := z
    dsimp only at *
    cases y with
    | nan => simp [Val.add, isNan] at n2
    | inf a =>
      cases a
      · exact ⟨rfl, by simp [ext]⟩
      · refine ⟨rfl, ?_⟩
        cases z with
        | nan => simp [Val.add, isNan] at n2
        | inf b => cases b <;> simp_all [Val.add, isNan, ext]
        | num b n => exact h1
    | num a m =>
      refine ⟨rfl, ?_⟩
      cases z with
      | nan => simp [Val.add, isNan] at n2
      | inf b =>
        cases b
        · simp [isNan, ext] at h2
        · refine h1.trans ?_
          simp [Val.add, ext]
      | num b n =>
        rw [ext_add_num] at h1
        refine h1.trans ?_
        have hz : sgn b n.1 ≤ 0 := by
          rcases h2 with h2 | h2
          · simp [isNan] at h2
          · simpa [ext] using h2
        rw [show Val.ext (num a m) = R (sgn a m.1) from (R_sgn a m.2).symm]
        exact R_mono (by linarith)
  mul_not_pos a b h1 h2 := by
    rw [B64.zero_lt_iff]
    rw [B64.lt_iff, B64.zero_v] at h1
    rw [← Bool.not_eq_true, B64.le_iff, B64.zero_v] at h2
    rw [B64.mul_v]
    obtain ⟨-, n1, h1⟩ := h1
    obtain ⟨a⟩ := a; obtain ⟨b⟩ := b
    dsimp only at *
    cases a with
    | nan => simp [isNan] at n1
    | inf s =>
      cases s
      · cases b with
        | nan => simp [Val.mul, isNan]
        | inf t => cases t <;> simp_all [Val.mul, isNan, ext, sgn]
        | num t n =>
          have := n.2.nonneg
          cases t
          · simp [isNan, ext, sgn, this] at h2
          · by_cases h0 : n.1 = 0 <;> simp [Val.mul, h0, isNan, ext]
      · simp [ext] at h1
    | num s m =>
      have hm := m.2.nonneg
      cases s
      · have hm0 : 0 < m.1 := by simpa [ext, sgn] using h1
        cases b with
        | nan => simp [Val.mul, isNan]
        | inf t => cases t <;> simp_all [Val.mul, isNan, ext, sgn, hm0.ne']
        | num t n =>
          have := n.2.nonneg
          cases t
          · simp [isNan, ext, sgn, this] at h2
          · right
            simp only [Val.mul, ext_pack]
            simpa using mag_nonneg _
      · have h3 : (0 : ℝ) < -m.1 := by
          have : ((0 : ℝ) : EReal) < ((-m.1 : ℝ) : EReal) := by simpa [ext, sgn] using h1
          exact_mod_cast this
        linarith
  alpha_pos l hl := by
    have h1 : AtLeast 14 (1e-4 : B64 lm).v := atLeast_pack (by norm_num) (by norm_num)
    have h2 := h1.mul (B64.alphaOf_atLeast (lm := lm) l (by omega)) (by omega)
    rw [B64.lt_iff, B64.zero_v]
    refine ⟨rfl, h2.1, ?_⟩
    refine lt_of_lt_of_le ?_ h2.2
    have := two_pos (-((14 + l.length : ℕ) : ℤ))
    simpa [ext, sgn] using this
  one_mul x := by
    ext1
    rw [B64.mul_v, B64.one_v]
    obtain ⟨x⟩ := x
    cases x with
    | nan => rfl
    | inf a => simp [Val.mul]
    | num a m =>
      simp only [Val.mul, one_mul, Bool.false_xor]
      exact pack_rep a m
  add_comm x y := by
    ext1
    rw [B64.add_v, B64.add_v]
    obtain ⟨x⟩ := x; obtain ⟨y⟩ := y
    dsimp only
    cases x <;> cases y <;> simp only [Val.add]
    · rename_i a b
      by_cases h : a = b
      · rw [if_pos h, if_pos h.symm, h]
      · rw [if_neg h, if_neg (Ne.symm h)]
    · rename_i a m b n
      rw [add_comm (sgn b n.1), Bool.and_comm]

theorem totalLe_iff (a b : Val) : Val.totalLe a b = true ↔ b.isNan = true ∨
    a.isNan = false ∧ (a.ext < b.ext ∨ a.ext = b.ext ∧ (a.isNeg = true ∨ b.isNeg = false)) := by
  cases a <;> cases b <;> simp [Val.totalLe, isNan, isNeg]

instance : TotalCmpLaws (B64 lm) where
  total a b := by
    change (Val.totalLe a.v b.v || Val.totalLe b.v a.v) = true
    obtain ⟨a⟩ := a; obtain ⟨b⟩ := b
    rw [Bool.or_eq_true, totalLe_iff, totalLe_iff]
    cases ha : Val.isNan a <;> cases hb : Val.isNan b <;> simp
    cases Val.isNeg a <;> cases Val.isNeg b <;>
      rcases lt_trichotomy (Val.ext a) (Val.ext b) with h | h | h <;> simp [h]
  trans a b c h1 h2 := by
    change Val.totalLe a.v c.v = true
    change Val.totalLe a.v b.v = true at h1
    change Val.totalLe b.v c.v = true at h2
    rw [totalLe_iff] at *
    rcases h2 with h2 | ⟨n2, h2⟩
    · exact .inl h2
    rcases h1 with h1 | ⟨n1, h1⟩
    · rw [h1] at n2; cases n2
    refine .inr ⟨n1, ?_⟩
    rcases h1 with h1 | ⟨h1, s1⟩ <;> rcases h2 with h2 | ⟨h2, s2⟩
    · exact .inl (h1.trans h2)
    · exact .inl (h2 ▸ h1)
    · exact .inl (h1 ▸ h2)
    · refine .inr ⟨h1.trans h2, ?_⟩
      rcases s1 with s1 | s1
      · exact .inl s1
      · rcases s2 with s2 | s2
        · rw [s1] at s2; cases s2
        · exact .inr s2

instance : OrderLaws (B64 lm) where
  refl a h := by
    rw [B64.eq_iff] at h
    rw [B64.le_iff]
    exact ⟨h.1, h.1, le_rfl⟩
  of_lt a b h := by
    rw [B64.lt_iff] at h
    rw [B64.le_iff]
    exact ⟨h.1, h.2.1, h.2.2.le⟩
  of_not_lt a b h1 h2 h := by
    rw [B64.eq_iff] at h1 h2
    rw [← Bool.not_eq_true, B64.lt_iff] at h
    rw [B64.le_iff]
    exact ⟨h2.1, h1.1, not_lt.1 fun h3 => h ⟨h1.1, h2.1, h3⟩⟩
  trans := FloatLaws.le_trans

end Isotope
