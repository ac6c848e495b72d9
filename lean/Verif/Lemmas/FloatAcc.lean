import Verif.Lemmas.FloatSum
import Verif.Lemmas.Noise
import Verif.Lemmas.Dot

/-!
# Vectors of binary64 numbers: sums and dot products
-/

namespace Isotope
open Round Val
open Matrix

variable {lm : Libm}

/-- a computed sum of terms whose magnitudes add up to `T`, with at most `i` additions on the way of each term -/
def Acc (g : B64 lm) (R T : ℝ) (i : ℕ) : Prop := ∃ v, g.Is v ∧ |v - R| ≤ 2 * i * ulp * T ∧ |R| ≤ T

namespace Acc
variable {g g' : B64 lm} {R R' T T' : ℝ} {i j k : ℕ}

theorem of_is {r : ℝ} (h : g.Is r) : Acc g r |r| 0 := ⟨r, h, by simp, le_rfl⟩

theorem zero : Acc (0.0 : B64 lm) 0 0 0 := ⟨0, B64.is_zero, by simp, by simp⟩

theorem nonneg (h : Acc g R T i) : 0 ≤ T := by obtain ⟨-, -, -, h⟩ := h; exact (abs_nonneg R).trans h

theorem mono (h : Acc g R T i) (hi : i ≤ j) : Acc g R T j := by
  have hT := h.nonneg
  obtain ⟨v, h1, h2, h3⟩ := h
  refine ⟨v, h1, h2.trans ?_, h3⟩
  have hi' : (i : ℝ) ≤ j := by exact_mod_cast hi
  have := ulp_pos
  refine mul_le_mul_of_nonneg_right ?_ hT
  nlinarith

theorem congr (h : Acc g R T i) (e1 : R = R') (e2 : T = T') : Acc g R' T' i := by subst e1 e2; exact h

theorem count_le (hi : i < 2 ^ 50) : 2 * (i : ℝ) * ulp ≤ 1 / 2 := by
  have h2 : (i : ℝ) ≤ 2 ^ 50 := by exact_mod_cast hi.le
  have h3 : 2 * (i : ℝ) * ulp ≤ 2 * 2 ^ 50 * ulp := by have := ulp_pos; nlinarith
  have h4 : 2 * 2 ^ 50 * ulp = 1 / 4 := by rw [ulp_eq]; norm_num
  linarith

theorem add (h : Acc g R T i) (h' : Acc g' R' T' i) (hi : i < 2 ^ 50) (hT : T + T' ≤ 2 ^ (1000 : ℤ)) :
    Acc (g + g') (R + R') (T + T') (i + 1) := by
  obtain ⟨v, h1, h2, h3⟩ := h
  obtain ⟨w, k1, k2, k3⟩ := h'
  obtain ⟨b1, b2, b3⟩ := sum_bound (B := rs (v + w)) ulp_pos.le h2 k2 le_rfl (count_le hi) h3 k3 (rs_add_err h1.rep k1.rep)
  have htop : |rs (v + w)| < top := by
    refine abs_rs_lt_top (k := 1001) (by norm_num) (by norm_num) (b1.trans ?_)
    have e2 : (2 : ℝ) ^ (1001 : ℤ) = 2 * 2 ^ (1000 : ℤ) := by rw [two_mul, two_double]; norm_num
    rw [e2]
    exact mul_le_mul_of_nonneg_left hT (by norm_num)
  refine ⟨_, h1.add k1 htop, b2.trans (le_of_eq ?_), b3⟩
  push_cast
  ring

/-- a sum from left to right -/
theorem foldl {l : List (B64 lm)} {rr : List ℝ} (hl : List.Forall₂ (fun x r => x.Is r) l rr) :
    ∀ {g : B64 lm} {R T : ℝ} {i : ℕ}, Acc g R T i → i + l.length < 2 ^ 50 → T + (rr.map (fun r => |r|)).sum ≤ 2 ^ (1000 : ℤ) →
      Acc (l.foldl (· + ·) g) (R + rr.sum) (T + (rr.map (fun r => |r|)).sum) (i + l.length) := by
  induction hl with
  | nil => intro g R T i hg _ _; exact (hg.congr (by simp) (by simp)).mono (by simp)
  | @cons x r l rr hx _ ih =>
    intro g R T i hg hi hT
    rw [List.length_cons] at hi
    rw [List.map_cons, List.sum_cons] at hT
    have hs : 0 ≤ (rr.map (fun r => |r|)).sum := List.sum_nonneg fun y hy => by
      obtain ⟨z, -, rfl⟩ := List.mem_map.1 hy
      exact abs_nonneg z
    have h1 := hg.add ((of_is hx).mono (Nat.zero_le i)) (by omega) (by linarith)
    have h2 := ih h1 (by omega) (by linarith)
    rw [List.foldl_cons, List.length_cons]
    refine (h2.congr ?_ ?_).mono (by omega)
    · rw [List.sum_cons]; ring
    · rw [List.map_cons, List.sum_cons]; ring

theorem dotLoop {a0 a1 a2 a3 a4 a5 a6 a7 : B64 lm} {l : List (B64 lm)} : ∀ {rr : List ℝ} {R0 R1 R2 R3 R4 R5 R6 R7 T0 T1 T2 T3 T4 T5 T6 T7 : ℝ} {i : ℕ},
    Acc a0 R0 T0 i → Acc a1 R1 T1 i → Acc a2 R2 T2 i → Acc a3 R3 T3 i → Acc a4 R4 T4 i → Acc a5 R5 T5 i → Acc a6 R6 T6 i → Acc a7 R7 T7 i →
    List.Forall₂ (fun x r => x.Is r) l rr → i + 5 + l.length < 2 ^ 50 →
    T0 + T1 + T2 + T3 + T4 + T5 + T6 + T7 + (rr.map (fun r => |r|)).sum ≤ 2 ^ (1000 : ℤ) →
    Acc (Isotope.dotLoop a0 a1 a2 a3 a4 a5 a6 a7 l) (R0 + R1 + R2 + R3 + R4 + R5 + R6 + R7 + rr.sum)
      (T0 + T1 + T2 + T3 + T4 + T5 + T6 + T7 + (rr.map (fun r => |r|)).sum) (i + 5 + l.length) := by
  fun_induction Isotope.dotLoop a0 a1 a2 a3 a4 a5 a6 a7 l with
  | case1 a0 a1 a2 a3 a4 a5 a6 a7 p0 p1 p2 p3 p4 p5 p6 p7 ps ih =>
    intro rr R0 R1 R2 R3 R4 R5 R6 R7 T0 T1 T2 T3 T4 T5 T6 T7 i A0 A1 A2 A3 A4 A5 A6 A7 hl hi hT
    obtain ⟨r0, l0, P0, hl0, rfl⟩ := List.forall₂_cons_left_iff.1 hl
    obtain ⟨r1, l1, P1, hl1, rfl⟩ := List.forall₂_cons_left_iff.1 hl0
    obtain ⟨r2, l2, P2, hl2, rfl⟩ := List.forall₂_cons_left_iff.1 hl1
    obtain ⟨r3, l3, P3, hl3, rfl⟩ := List.forall₂_cons_left_iff.1 hl2
    obtain ⟨r4, l4, P4, hl4, rfl⟩ := List.forall₂_cons_left_iff.1 hl3
    obtain ⟨r5, l5, P5, hl5, rfl⟩ := List.forall₂_cons_left_iff.1 hl4
    obtain ⟨r6, l6, P6, hl6, rfl⟩ := List.forall₂_cons_left_iff.1 hl5
    obtain ⟨r7, l7, P7, hl7, rfl⟩ := List.forall₂_cons_left_iff.1 hl6
    simp only [List.length_cons] at hi ⊢
    simp only [List.map_cons, List.sum_cons] at hT ⊢
    have hs : 0 ≤ (l7.map (fun r => |r|)).sum := List.sum_nonneg fun y hy => by
      obtain ⟨z, -, rfl⟩ := List.mem_map.1 hy
      exact abs_nonneg z
    have q0 := abs_nonneg r0
    have q1 := abs_nonneg r1
    have q2 := abs_nonneg r2
    have q3 := abs_nonneg r3
    have q4 := abs_nonneg r4
    have q5 := abs_nonneg r5
    have q6 := abs_nonneg r6
    have q7 := abs_nonneg r7
    have t0 := A0.nonneg
    have t1 := A1.nonneg
    have t2 := A2.nonneg
    have t3 := A3.nonneg
    have t4 := A4.nonneg
    have t5 := A5.nonneg
    have t6 := A6.nonneg
    have t7 := A7.nonneg
    have f : ∀ {a p : B64 lm} {R T r : ℝ}, Acc a R T i → p.Is r → T + |r| ≤ 2 ^ (1000 : ℤ) → Acc (a + p) (R + r) (T + |r|) (i + 1) :=
      fun ha hp hT => ha.add ((of_is hp).mono (Nat.zero_le i)) (by omega) hT
    have := ih (f A0 P0 (by linarith)) (f A1 P1 (by linarith)) (f A2 P2 (by linarith)) (f A3 P3 (by linarith)) (f A4 P4 (by linarith))
      (f A5 P5 (by linarith)) (f A6 P6 (by linarith)) (f A7 P7 (by linarith)) hl7 (by omega) (by linarith)
    exact (this.congr (by ring) (by ring)).mono (by omega)
  | case2 a0 a1 a2 a3 a4 a5 a6 a7 ps =>
    intro rr R0 R1 R2 R3 R4 R5 R6 R7 T0 T1 T2 T3 T4 T5 T6 T7 i A0 A1 A2 A3 A4 A5 A6 A7 hl hi hT
    have hs : 0 ≤ (rr.map (fun r => |r|)).sum := List.sum_nonneg fun y hy => by
      obtain ⟨z, -, rfl⟩ := List.mem_map.1 hy
      exact abs_nonneg z
    have t0 := A0.nonneg
    have t1 := A1.nonneg
    have t2 := A2.nonneg
    have t3 := A3.nonneg
    have t4 := A4.nonneg
    have t5 := A5.nonneg
    have t6 := A6.nonneg
    have t7 := A7.nonneg
    have b0 := (zero (lm := lm)).mono (Nat.zero_le (i + 1)) |>.add (A0.add A4 (by omega) (by linarith)) (by omega) (by linarith)
    have b1 := b0.add ((A1.add A5 (by omega) (by linarith)).mono (by omega)) (by omega) (by linarith)
    have b2 := b1.add ((A2.add A6 (by omega) (by linarith)).mono (by omega)) (by omega) (by linarith)
    have b3 := b2.add ((A3.add A7 (by omega) (by linarith)).mono (by omega)) (by omega) (by linarith)
    have := Acc.foldl hl b3 (by omega) (by linarith)
    exact (this.congr (by ring) (by ring)).mono (by omega)

end Acc

/-- a vector of binary64 numbers has these values -/
def VIs {n : Nat} (l : List (B64 lm)) (x : Fin n → ℝ) : Prop := List.Forall₂ (fun a r => a.Is r) l (List.ofFn x)

namespace VIs
variable {n : Nat} {a b : List (B64 lm)} {x y : Fin n → ℝ}

theorem length (h : VIs a x) : a.length = n := by rw [List.Forall₂.length_eq h, List.length_ofFn]

theorem get (h : VIs a x) (i : Fin n) : (a[i.1]'(by rw [h.length]; exact i.2)).Is (x i) := by
  have h2 := (List.forall₂_iff_get.1 h).2 i.1 (by rw [h.length]; exact i.2) (by rw [List.length_ofFn]; exact i.2)
  simpa using h2

theorem of_get (hl : a.length = n) (h : ∀ (i : Nat) (h1 : i < a.length) (h2 : i < n), a[i].Is (x ⟨i, h2⟩)) : VIs a x := by
  refine List.forall₂_iff_get.2 ⟨by rw [hl, List.length_ofFn], fun i h1 h2 => ?_⟩
  have := h i h1 (by rwa [List.length_ofFn] at h2)
  simpa using this

theorem neg (h : VIs a x) : VIs (vneg a) (-x) := by
  refine of_get (by simp [vneg, h.length]) fun i h1 h2 => ?_
  simp only [vneg, List.getElem_map, Pi.neg_apply]
  exact (h.get ⟨i, h2⟩).neg

theorem isFinite (h : VIs a x) : ∀ z ∈ a, Num.isFinite z = true := by
  intro z hz
  obtain ⟨i, hi, rfl⟩ := List.mem_iff_getElem.1 hz
  exact (h.get ⟨i, by rw [← h.length]; exact hi⟩).isFinite

theorem real_unique {x' : Fin n → ℝ} (h : VIs a x) (h' : VIs a x') : x = x' := by
  funext i
  exact (h.get i).unique (h'.get i)

/-- the dot product -/
theorem dot (ha : VIs a x) (hb : VIs b y) (hn : n < 2 ^ 49) {K : ℤ} (hK : 0 ≤ K) (hK' : K ≤ 400) (hx : ∀ i, |x i| ≤ 2 ^ K) (hy : ∀ i, |y i| ≤ 2 ^ K) :
    ∃ v, (dotV a b).Is v ∧ |v - x ⬝ᵥ y| ≤ (2 * n + 12) * ulp * (vlen x * vlen y) + n * 2 ^ (-1074 : ℤ) := by
  have hu := ulp_pos
  have prodle : ∀ i, |x i * y i| ≤ 2 ^ (800 : ℤ) := by
    intro i
    rw [abs_mul]
    refine (mul_le_mul (hx i) (hy i) (abs_nonneg _) (two_pos K).le).trans ?_
    rw [two_mul_two]
    exact two_le (by omega)
  have rsle : ∀ i, |rs (x i * y i)| ≤ 2 ^ (800 : ℤ) := fun i => abs_rs_le (rep_pow 800 (by norm_num) (by norm_num)) (prodle i)
  have hp : List.Forall₂ (fun (z : B64 lm) r => z.Is r) (List.zipWith (· * ·) a b) (List.ofFn fun i => rs (x i * y i)) := by
    refine List.forall₂_iff_get.2 ⟨by simp [ha.length, hb.length], fun i h1 h2 => ?_⟩
    have hi : i < n := by simpa using h2
    have := (ha.get ⟨i, hi⟩).mul (hb.get ⟨i, hi⟩) (abs_rs_lt_top (by norm_num) (by norm_num) (prodle ⟨i, hi⟩))
    simpa using this
  have hsum : ((List.ofFn fun i => rs (x i * y i)).map (fun r => |r|)).sum = ∑ i, |rs (x i * y i)| := by
    rw [List.map_ofFn, List.sum_ofFn]; rfl
  have hT : ∑ i, |rs (x i * y i)| ≤ 2 ^ (1000 : ℤ) := by
    calc ∑ i, |rs (x i * y i)| ≤ ∑ _i : Fin n, (2 : ℝ) ^ (800 : ℤ) := Finset.sum_le_sum fun i _ => rsle i
      _ = n * 2 ^ (800 : ℤ) := by simp
      _ ≤ 2 ^ (49 : ℤ) * 2 ^ (800 : ℤ) := by
        refine mul_le_mul_of_nonneg_right ?_ (two_pos _).le
        have : (n : ℝ) ≤ 2 ^ (49 : ℕ) := by exact_mod_cast hn.le
        exact_mod_cast this
      _ = 2 ^ (849 : ℤ) := by rw [two_mul_two]; norm_num
      _ ≤ _ := two_le (by norm_num)
  have hlen : (List.zipWith (· * ·) a b).length = n := by simp [ha.length, hb.length]
  have z := Acc.zero (lm := lm)
  obtain ⟨v, h1, h2, -⟩ := Acc.dotLoop z z z z z z z z hp (by rw [hlen]; omega) (by rw [hsum]; linarith)
  refine ⟨v, h1, ?_⟩
  rw [hsum, hlen, List.sum_ofFn] at h2
  simp only [zero_add, add_zero] at h2
  -- the rounding of the products
  have e1 : |∑ i, rs (x i * y i) - x ⬝ᵥ y| ≤ ulp * ∑ i, |x i * y i| + n * 2 ^ (-1075 : ℤ) := by
    rw [dotProduct, ← Finset.sum_sub_distrib]
    refine (Finset.abs_sum_le_sum_abs _ _).trans ?_
    calc ∑ i, |rs (x i * y i) - x i * y i| ≤ ∑ i, (ulp * |x i * y i| + 2 ^ (-1075 : ℤ)) := Finset.sum_le_sum fun i _ => rs_err' _
      _ = _ := by rw [Finset.sum_add_distrib, ← Finset.mul_sum]; simp
  have e2 : ∑ i, |rs (x i * y i)| ≤ (1 + ulp) * ∑ i, |x i * y i| + n * 2 ^ (-1075 : ℤ) := by
    calc ∑ i, |rs (x i * y i)| ≤ ∑ i, ((1 + ulp) * |x i * y i| + 2 ^ (-1075 : ℤ)) := Finset.sum_le_sum fun i _ => by
          have h1 := rs_err' (x i * y i)
          have h2 := abs_add_le (rs (x i * y i) - x i * y i) (x i * y i)
          rw [sub_add_cancel] at h2
          linarith
      _ = _ := by rw [Finset.sum_add_distrib, ← Finset.mul_sum]; simp
  have e3 : ∑ i, |x i * y i| ≤ vlen x * vlen y := by
    have := (abs_le.1 (abs_dot_le (fun i => |x i|) (fun i => |y i|))).2
    have f : ∀ z : Fin n → ℝ, vlen (fun i => |z i|) = vlen z := by
      intro z; unfold vlen dotProduct; simp only [abs_mul_abs_self]
    rw [f, f] at this
    simpa only [dotProduct, abs_mul] using this
  have s0 : 0 ≤ ∑ i, |x i * y i| := Finset.sum_nonneg fun i _ => abs_nonneg _
  have h3 : |v - x ⬝ᵥ y| ≤ |v - ∑ i, rs (x i * y i)| + |∑ i, rs (x i * y i) - x ⬝ᵥ y| := abs_sub_le _ _ _
  have hc : 2 * ((5 + n : ℕ) : ℝ) * ulp ≤ 1 / 2 := Acc.count_le (by omega)
  have ee : (2 : ℝ) ^ (-1074 : ℤ) = 2 * 2 ^ (-1075 : ℤ) := by rw [two_mul, two_double]; norm_num
  rw [ee]
  have p0 := two_pos (-1075)
  have hn0 : (0 : ℝ) ≤ n := Nat.cast_nonneg n
  generalize (2 : ℝ) ^ (-1075 : ℤ) = δ at *
  generalize ∑ i, |x i * y i| = S at *
  generalize ∑ i, |rs (x i * y i)| = S' at *
  generalize ∑ i, rs (x i * y i) = V at *
  generalize vlen x * vlen y = W at *
  push_cast at h2 hc
  have hc0 : 0 ≤ 2 * (5 + (n : ℝ)) * ulp := by positivity
  have h4 : 2 * (5 + (n : ℝ)) * ulp * S' ≤ 2 * (5 + (n : ℝ)) * ulp * ((1 + ulp) * S + n * δ) := mul_le_mul_of_nonneg_left e2 hc0
  have h5 : 2 * (5 + (n : ℝ)) * ulp * (n * δ) ≤ 1 / 2 * (n * δ) := mul_le_mul_of_nonneg_right hc (by positivity)
  have h6 : 2 * (5 + (n : ℝ)) * ulp * (ulp * S) ≤ 1 / 2 * (ulp * S) := mul_le_mul_of_nonneg_right hc (by positivity)
  have h7 : (2 * (n : ℝ) + 12) * ulp * S ≤ (2 * n + 12) * ulp * W := mul_le_mul_of_nonneg_left e3 (by positivity)
  have h8 : 0 ≤ ulp * S := by positivity
  have h9 : 0 ≤ n * δ := by positivity
  nlinarith

end VIs

end Isotope
