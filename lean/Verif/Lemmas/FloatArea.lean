import Verif.SpecClear
import Verif.Lemmas.FloatTurn
import Verif.Lemmas.FloatGrad
import Verif.Lemmas.FloatWalk
import Verif.Props.RingsExact

/-!
# Areas in binary64
-/

namespace Isotope
open Round Val XR

variable {lm : Libm} {h : Heap (B64 lm)} {s : Sketch}

/-- a line with finite ends -/
def PlainSeg (h : Heap (B64 lm)) (sg : Segment (B64 lm)) : Prop :=
  ∃ (a b : Nat) (e : (ℝ × ℝ) × (ℝ × ℝ)), sg = .line a b ∧ At h a e.1.1 e.1.2 ∧ At h b e.2.1 e.2.2 ∧
    (|e.1.1| ≤ 2 ^ (100 : ℤ) ∧ |e.1.2| ≤ 2 ^ (100 : ℤ) ∧ |e.2.1| ≤ 2 ^ (100 : ℤ) ∧ |e.2.2| ≤ 2 ^ (100 : ℤ))

theorem PlainSeg.xy {sg : Segment (B64 lm)} (hs : PlainSeg h sg) :
    (sg.getStart h).x.Is (sg.xy h).1.1 ∧ (sg.getStart h).y.Is (sg.xy h).1.2 ∧ (sg.getEnd h).x.Is (sg.xy h).2.1 ∧ (sg.getEnd h).y.Is (sg.xy h).2.2 ∧
    (|(sg.xy h).1.1| ≤ 2 ^ (100 : ℤ) ∧ |(sg.xy h).1.2| ≤ 2 ^ (100 : ℤ) ∧ |(sg.xy h).2.1| ≤ 2 ^ (100 : ℤ) ∧ |(sg.xy h).2.2| ≤ 2 ^ (100 : ℤ)) ∧
    EndsAt h.exact sg.exact (sg.xy h) := by
  obtain ⟨a, b, e, rfl, ha, hb, hM⟩ := hs
  have r : ∀ {x : B64 lm} {t : ℝ}, x.Is t → x.real = t := by
    intro x t hx
    unfold B64.real
    rw [hx.exact]; rfl
  have e0 : (Segment.line a b : Segment (B64 lm)).xy h = e := by
    obtain ⟨⟨e1, e2⟩, e3, e4⟩ := e
    simp only [Segment.xy, Segment.getStart, Segment.getEnd]
    rw [r ha.1, r ha.2, r hb.1, r hb.2]
  rw [e0]
  refine ⟨ha.1, ha.2, hb.1, hb.2, hM, ?_, ?_⟩
  · show (h.points a).data.exact = _
    unfold Vec2.exact
    rw [ha.1.exact, ha.2.exact]
  · show (h.points b).data.exact = _
    unfold Vec2.exact
    rw [hb.1.exact, hb.2.exact]

theorem ulp_zpow : ulp = (2 : ℝ) ^ (-53 : ℤ) := by rw [ulp_eq]; norm_num

/-- a product of coordinates -/
theorem prod_close {x y : B64 lm} {r t : ℝ} (hx : x.Is r) (hy : y.Is t) (br : |r| ≤ 2 ^ (100 : ℤ)) (bt : |t| ≤ 2 ^ (100 : ℤ)) :
    ∃ v, (x * y).Is v ∧ |v - r * t| ≤ ulp * |r * t| + 2 ^ (-1075 : ℤ) ∧ |r * t| ≤ 2 ^ (200 : ℤ) := by
  have hb : |r * t| ≤ 2 ^ (200 : ℤ) := by
    rw [abs_mul]
    refine (mul_le_mul br bt (abs_nonneg _) (by positivity)).trans (le_of_eq ?_)
    rw [← zpow_add₀ (by norm_num)]; norm_num
  exact ⟨_, hx.mul hy (abs_rs_lt_top (k := 200) (by norm_num) (by norm_num) hb), rs_err' _, hb⟩

/-- one term of the area -/
theorem term_near {x y x' y' : B64 lm} {a b a' b' : ℝ} (hx : x.Is a) (hy : y.Is b) (hx' : x'.Is a') (hy' : y'.Is b')
    (ba : |a| ≤ 2 ^ (100 : ℤ)) (bb : |b| ≤ 2 ^ (100 : ℤ)) (ba' : |a'| ≤ 2 ^ (100 : ℤ)) (bb' : |b'| ≤ 2 ^ (100 : ℤ)) :
    ∃ v, (x * y' - x' * y).Is v ∧ |v - (a * b' - a' * b)| ≤ 3 * ulp * (|a * b'| + |a' * b|) + 2 ^ (-1070 : ℤ) ∧ |v| ≤ 2 ^ (202 : ℤ) := by
  obtain ⟨p, i1, e1, b1⟩ := prod_close hx hy' ba bb'
  obtain ⟨q, i2, e2, b2⟩ := prod_close hx' hy ba' bb
  have hu := ulp_pos
  have hu1 : ulp ≤ 1 / 1000 := by rw [ulp_eq]; norm_num
  have t0 : (0 : ℝ) < 2 ^ (-1075 : ℤ) := by positivity
  have t1 : (2 : ℝ) ^ (-1075 : ℤ) ≤ 2 ^ (-2 : ℤ) := two_le (by norm_num)
  have t2 : (2 : ℝ) ^ (-2 : ℤ) = 1 / 4 := by norm_num
  have t3 : (2 : ℝ) ^ (-1070 : ℤ) = 32 * 2 ^ (-1075 : ℤ) := by
    rw [show (-1070 : ℤ) = 5 + -1075 by norm_num, zpow_add₀ (by norm_num)]; norm_num
  have t4 : (2 : ℝ) ^ (202 : ℤ) = 4 * 2 ^ (200 : ℤ) := by
    rw [show (202 : ℤ) = 2 + 200 by norm_num, zpow_add₀ (by norm_num)]; norm_num
  have t5 : (1 : ℝ) ≤ 2 ^ (200 : ℤ) := by
    have := two_le (show (0 : ℤ) ≤ 200 by norm_num)
    simpa using this
  have hp : |p| ≤ (1 + ulp) * |a * b'| + 2 ^ (-1075 : ℤ) := by
    have := abs_sub_abs_le_abs_sub p (a * b')
    nlinarith
  have hq : |q| ≤ (1 + ulp) * |a' * b| + 2 ^ (-1075 : ℤ) := by
    have := abs_sub_abs_le_abs_sub q (a' * b)
    nlinarith
  have A0 := abs_nonneg (a * b')
  have B0 := abs_nonneg (a' * b)
  generalize hA : |a * b'| = A at *
  generalize hB : |a' * b| = B at *
  generalize (2 : ℝ) ^ (-1075 : ℤ) = τ at *
  generalize (2 : ℝ) ^ (200 : ℤ) = N at *
  have hd : |p - q| ≤ (1 + ulp) * (A + B) + 2 * τ := (abs_sub p q).trans (by linarith)
  rw [t2] at t1
  have hv : ulp * (A + B) ≤ 1 / 1000 * (A + B) := mul_le_mul_of_nonneg_right hu1 (by positivity)
  have hv2 : ulp * (ulp * (A + B)) ≤ ulp * (1 / 1000 * (A + B)) := mul_le_mul_of_nonneg_left hv hu.le
  have hv3 : ulp * τ ≤ 1 / 1000 * τ := mul_le_mul_of_nonneg_right hu1 t0.le
  have hd2 : |p - q| ≤ 3 * N := hd.trans (by linarith)
  have er := rs_sub_err i1.rep i2.rep
  have er2 : |rs (p - q)| ≤ 4 * N := by
    have := abs_sub_abs_le_abs_sub (rs (p - q)) (p - q)
    nlinarith
  refine ⟨_, i1.sub i2 ?_, ?_, ?_⟩
  · refine abs_rs_lt_top (k := 202) (by norm_num) (by norm_num) ?_
    rw [t4]; linarith
  · have : rs (p - q) - (a * b' - a' * b) = (rs (p - q) - (p - q)) + ((p - a * b') - (q - a' * b)) := by ring
    rw [this, t3]
    refine (abs_add_le _ _).trans ?_
    have h2 := abs_sub (p - a * b') (q - a' * b)
    have h3 : ulp * |p - q| ≤ ulp * ((1 + ulp) * (A + B) + 2 * τ) := mul_le_mul_of_nonneg_left hd hu.le
    have h4 : 0 ≤ ulp * (A + B) := by positivity
    have h5 : 3 * ulp * (A + B) = 3 * (ulp * (A + B)) := by ring
    have h6 : ulp * ((1 + ulp) * (A + B) + 2 * τ) = ulp * (A + B) + ulp * (ulp * (A + B)) + 2 * (ulp * τ) := by ring
    have h7 : ulp * (1 / 1000 * (A + B)) = 1 / 1000 * (ulp * (A + B)) := by ring
    rw [h5]
    rw [h6] at h3
    rw [h7] at hv2
    linarith
  · rw [t4]; exact er2

/-- one step of the error bound of the sum -/
theorem sum_step {u τ A S E k t e : ℝ} (hu : 0 < u) (hτ : 0 ≤ τ) (hA : 0 ≤ A) (hS : 0 ≤ S) (hk : 0 ≤ k) (hku : (2 * k + 8) * u ≤ 1 / 4)
    (hE : E ≤ (2 * k + 8) * u * (S + k * τ)) (ht : t ≤ 3 * u * A + u * τ) (he : e ≤ u * (S + A + E + t)) (_ : 0 ≤ E) (ht0 : 0 ≤ t) :
    E + t + e ≤ (2 * (k + 1) + 8) * u * (S + A + (k + 1) * τ) := by
  have hu1 : u ≤ 1 / 32 := by nlinarith
  have hkτ : 0 ≤ k * τ := by positivity
  have h1 : u * E ≤ u * (1 / 4 * (S + k * τ)) := by
    apply mul_le_mul_of_nonneg_left _ hu.le
    refine hE.trans ?_
    apply mul_le_mul_of_nonneg_right hku (by positivity)
  have h2 : u * t ≤ u * (1 / 4 * (A + τ)) := by
    apply mul_le_mul_of_nonneg_left _ hu.le
    nlinarith
  have e1 : (2 * (k + 1) + 8) * u * (S + A + (k + 1) * τ) =
      (2 * k + 8) * u * (S + k * τ) + (2 * k + 8) * u * (A + τ) + 2 * u * (S + k * τ) + 2 * u * (A + τ) := by ring
  have h3 : 8 * u * (A + τ) ≤ (2 * k + 8) * u * (A + τ) := by
    apply mul_le_mul_of_nonneg_right _ (by positivity)
    nlinarith
  have p1 : 0 ≤ u * S := by positivity
  have p2 : 0 ≤ u * (k * τ) := by positivity
  have p3 : 0 ≤ u * A := by positivity
  have p4 : 0 ≤ u * τ := by positivity
  rw [e1]
  nlinarith

/-- size of the terms of the area -/
noncomputable def termSize (h : Heap (B64 lm)) (sg : Segment (B64 lm)) : ℝ :=
  |(sg.xy h).1.1 * (sg.xy h).2.2| + |(sg.xy h).2.1 * (sg.xy h).1.2|

/-- the sum of the terms -/
theorem sum_near : ∀ (l : List (Segment (B64 lm))), (∀ sg ∈ l, PlainSeg h sg) → l.length ≤ 2 ^ 44 →
    ∃ P, (l.foldl (fun area sg => area + ((sg.getStart h).x * (sg.getEnd h).y - (sg.getEnd h).x * (sg.getStart h).y)) (0.0 : B64 lm)).Is P ∧
      |P - (l.map (fun sg => cross (sg.xy h).1 (sg.xy h).2)).sum| ≤ (2 * l.length + 8) * ulp * ((l.map (termSize h)).sum + l.length * 2 ^ (-1001 : ℤ)) ∧
      |(l.map (fun sg => cross (sg.xy h).1 (sg.xy h).2)).sum| ≤ (l.map (termSize h)).sum ∧ (l.map (termSize h)).sum ≤ l.length * 2 ^ (201 : ℤ) := by
  intro l
  induction l using List.reverseRecOn with
  | nil =>
    intro _ _
    refine ⟨0, B64.is_zero, ?_⟩
    simp
  | append_singleton l sg ih =>
    intro hp hlen
    obtain ⟨P, i1, e1, s1, b1⟩ := ih (fun x hx => hp x (by simp [hx])) (by simp at hlen; omega)
    obtain ⟨j1, j2, j3, j4, hM, -⟩ := (hp sg (by simp)).xy
    obtain ⟨v, i2, e2, b2⟩ := term_near j1 j2 j3 j4 hM.1 hM.2.1 hM.2.2.1 hM.2.2.2
    have hA2 : termSize h sg ≤ 2 ^ (201 : ℤ) := by
      obtain ⟨_, _, _, g1⟩ := prod_close j1 j4 hM.1 hM.2.2.2
      obtain ⟨_, _, _, g2⟩ := prod_close j3 j2 hM.2.2.1 hM.2.1
      unfold termSize
      rw [show (201 : ℤ) = 1 + 200 by norm_num, zpow_add₀ (by norm_num)]
      norm_num at g1 g2 ⊢
      linarith
    rw [List.foldl_append, List.map_append, List.sum_append, List.map_append, List.sum_append]
    simp only [List.foldl_cons, List.foldl_nil, List.map_cons, List.map_nil, List.sum_cons, List.sum_nil, add_zero, List.length_append,
      List.length_cons, List.length_nil, zero_add]
    have hk : ((l.length : ℕ) : ℝ) ≤ 2 ^ (44 : ℤ) := by
      simp at hlen
      have : l.length ≤ 2 ^ 44 := by omega
      calc ((l.length : ℕ) : ℝ) ≤ ((2 ^ 44 : ℕ) : ℝ) := by exact_mod_cast this
        _ = _ := by norm_num
    have hk0 : (0 : ℝ) ≤ l.length := Nat.cast_nonneg _
    set k : ℝ := (l.length : ℝ)
    set S := (l.map (termSize h)).sum
    set C := (l.map (fun sg => cross (sg.xy h).1 (sg.xy h).2)).sum
    have hcr : cross (sg.xy h).1 (sg.xy h).2 = (sg.xy h).1.1 * (sg.xy h).2.2 - (sg.xy h).2.1 * (sg.xy h).1.2 := rfl
    have hcA : |cross (sg.xy h).1 (sg.xy h).2| ≤ termSize h sg := by rw [hcr]; exact abs_sub _ _
    rw [← hcr] at e2
    generalize cross (sg.xy h).1 (sg.xy h).2 = c at e2 hcA ⊢
    have e2' : |v - c| ≤ 3 * ulp * termSize h sg + ulp * 2 ^ (-1001 : ℤ) := by
      refine e2.trans (add_le_add (le_of_eq rfl) ?_)
      rw [ulp_zpow, ← zpow_add₀ (by norm_num)]
      exact two_le (by norm_num)
    have A0 : 0 ≤ termSize h sg := by unfold termSize; positivity
    generalize termSize h sg = A at A0 hA2 hcA e2' ⊢
    have hu := ulp_pos
    have hτ : (0 : ℝ) < 2 ^ (-1001 : ℤ) := by positivity
    have hτ1 : (2 : ℝ) ^ (-1001 : ℤ) ≤ 1 := by
      have := two_le (show (-1001 : ℤ) ≤ 0 by norm_num)
      simpa using this
    have hku : (2 * k + 8) * ulp ≤ 1 / 4 := by
      rw [ulp_eq]
      norm_num at hk
      linarith
    generalize (2 : ℝ) ^ (-1001 : ℤ) = τ at *
    have S0 : 0 ≤ S := (abs_nonneg _).trans s1
    have hE1 : |P - C| ≤ 1 / 4 * (S + k * τ) := e1.trans (mul_le_mul_of_nonneg_right hku (by positivity))
    have hPv : |P + v| ≤ S + A + |P - C| + |v - c| := by
      have e : P + v = C + c + ((P - C) + (v - c)) := by ring
      rw [e]
      refine (abs_add_le _ _).trans ?_
      have := abs_add_le C c
      have := abs_add_le (P - C) (v - c)
      linarith
    have hbig : |P + v| ≤ 2 ^ (250 : ℤ) := by
      have h5 : |v - c| ≤ A + 1 := e2'.trans (by nlinarith)
      have h6 : k * τ ≤ k * 1 := mul_le_mul_of_nonneg_left hτ1 hk0
      have h7 : k * 2 ^ (201 : ℤ) ≤ 2 ^ (44 : ℤ) * 2 ^ (201 : ℤ) := mul_le_mul_of_nonneg_right hk (by positivity)
      norm_num at h7 hA2 hk b1 ⊢
      linarith
    have er := rs_add_err i1.rep i2.rep
    refine ⟨_, i1.add i2 (abs_rs_lt_top (k := 250) (by norm_num) (by norm_num) hbig), ?_, ?_, ?_⟩
    · have e : rs (P + v) - (C + c) = (P - C) + (v - c) + (rs (P + v) - (P + v)) := by ring
      rw [e]
      refine (abs_add_le _ _).trans ((add_le_add (abs_add_le _ _) le_rfl).trans ?_)
      push_cast
      exact sum_step hu hτ.le A0 S0 hk0 hku e1 e2' (er.trans (mul_le_mul_of_nonneg_left hPv hu.le)) (abs_nonneg _) (abs_nonneg _)
    · exact (abs_add_le _ _).trans (add_le_add s1 hcA)
    · push_cast
      linarith

theorem two_is : (2.0 : B64 lm).Is 2 := by
  have h := B64.Is.lit (lm := lm) 20 true 1 (by
    refine abs_rs_lt_top (k := 1) (by norm_num) (by norm_num) ?_
    norm_num) (by norm_num)
  have e : rs (OfScientific.ofScientific 20 true 1 : ℝ) = 2 := by
    rw [show (OfScientific.ofScientific 20 true 1 : ℝ) = 2 by norm_num]
    apply rs_rep
    have := rep_pow 1 (by norm_num) (by norm_num)
    simpa using this
  rwa [e] at h

/-- the area of a ring of lines -/
theorem ring_near {l : List (Segment (B64 lm))} (hp : ∀ sg ∈ l, PlainSeg h sg) (hlen : l.length ≤ 2 ^ 44) :
    ∃ A, ((Ring.segments l).signedArea h).Is A ∧ |A - areaOf h (.segments l)| ≤ areaError h (.segments l) ∧
      (Ring.segments l).exact.signedArea h.exact = fin (areaOf h (.segments l)) := by
  obtain ⟨P, i1, e1, s1, b1⟩ := sum_near l hp hlen
  have hk : ((l.length : ℕ) : ℝ) ≤ 2 ^ (44 : ℤ) := by
    calc ((l.length : ℕ) : ℝ) ≤ ((2 ^ 44 : ℕ) : ℝ) := by exact_mod_cast hlen
      _ = _ := by norm_num
  have hk0 : (0 : ℝ) ≤ l.length := Nat.cast_nonneg _
  have hu := ulp_pos
  have hfin : (Ring.segments l).exact.signedArea h.exact = fin (areaOf h (.segments l)) := by
    show (Ring.segments (l.map Segment.exact)).signedArea h.exact = _
    rw [signedArea_fin (es := l.map (fun sg => sg.xy h))]
    · simp only [List.map_map, areaOf]; rfl
    · rw [List.forall₂_map_left_iff, List.forall₂_map_right_iff, List.forall₂_same]
      exact fun sg hsg => (hp sg hsg).xy.2.2.2.2.2
  have key : ∀ k C S : ℝ, ((l.length : ℕ) : ℝ) = k → (l.map (fun sg => cross (sg.xy h).1 (sg.xy h).2)).sum = C →
      (l.map (termSize h)).sum = S → ∃ A, ((Ring.segments l).signedArea h).Is A ∧ |A - C / 2| ≤ (k + 5) * ulp * (S + k * 2 ^ (-1000 : ℤ)) := by
    intro k C S ek eC eS
    rw [ek, eC, eS] at e1
    rw [eC, eS] at s1
    rw [ek, eS] at b1
    have hk1 : k = 0 ∨ 1 ≤ k := by
      rw [← ek]
      rcases Nat.eq_zero_or_pos l.length with h0 | h0
      · left; rw [h0]; norm_num
      · right; exact_mod_cast h0
    rw [ek] at hk hk0
    have S0 : 0 ≤ S := (abs_nonneg _).trans s1
    have hτ : (0 : ℝ) < 2 ^ (-1001 : ℤ) := by positivity
    have hτ1 : (2 : ℝ) ^ (-1001 : ℤ) ≤ 1 := by
      have := two_le (show (-1001 : ℤ) ≤ 0 by norm_num)
      simpa using this
    have hτ2 : (2 : ℝ) ^ (-1000 : ℤ) = 2 * 2 ^ (-1001 : ℤ) := by
      rw [show (-1000 : ℤ) = 1 + -1001 by norm_num, zpow_add₀ (by norm_num)]; norm_num
    have hτ3 : (2 : ℝ) ^ (-1075 : ℤ) ≤ ulp * 2 ^ (-1001 : ℤ) := by
      rw [ulp_zpow, ← zpow_add₀ (by norm_num)]
      exact two_le (by norm_num)
    have hku : (2 * k + 8) * ulp ≤ 1 / 4 := by
      rw [ulp_eq]
      norm_num at hk
      linarith
    have hE1 : |P - C| ≤ 1 / 4 * (S + k * 2 ^ (-1001 : ℤ)) := e1.trans (mul_le_mul_of_nonneg_right hku (by positivity))
    have hP : |P| ≤ S + |P - C| := by
      have : P = C + (P - C) := by ring
      calc |P| = |C + (P - C)| := by rw [← this]
        _ ≤ _ := (abs_add_le _ _).trans (by linarith)
    have hbig : |P / 2| ≤ 2 ^ (250 : ℤ) := by
      rw [abs_div, abs_of_pos (by norm_num : (0 : ℝ) < 2)]
      have h6 : k * 2 ^ (-1001 : ℤ) ≤ k * 1 := mul_le_mul_of_nonneg_left hτ1 hk0
      have h7 : k * 2 ^ (201 : ℤ) ≤ 2 ^ (44 : ℤ) * 2 ^ (201 : ℤ) := mul_le_mul_of_nonneg_right hk (by positivity)
      generalize k * (2 : ℝ) ^ (-1001 : ℤ) = τ' at *
      norm_num at h7 hk b1 ⊢
      linarith
    refine ⟨_, i1.div two_is (by norm_num) (abs_rs_lt_top (k := 250) (by norm_num) (by norm_num) hbig), ?_⟩
    have er := rs_err' (P / 2)
    rw [hτ2]
    generalize (2 : ℝ) ^ (-1001 : ℤ) = τ at *
    generalize (2 : ℝ) ^ (-1075 : ℤ) = τ' at *
    rcases hk1 with rfl | hk1
    · have : S = 0 := by
        have : S ≤ 0 := by simpa using b1
        linarith
      subst this
      have hC : C = 0 := by simpa using s1
      have hP0 : P = 0 := by simpa [hC] using hE1
      subst hC hP0
      simp [rs_zero]
    · rw [abs_div, abs_of_pos (by norm_num : (0 : ℝ) < 2)] at er
      have e : rs (P / 2) - C / 2 = (rs (P / 2) - P / 2) + (P - C) / 2 := by ring
      rw [e]
      refine (abs_add_le _ _).trans ?_
      rw [abs_div (P - C), abs_of_pos (by norm_num : (0 : ℝ) < 2)]
      have g1 : ulp * (|P| / 2) ≤ ulp * ((5 / 4) * (S + k * τ) / 2) := by
        apply mul_le_mul_of_nonneg_left _ hu.le
        have : 0 ≤ k * τ := by positivity
        linarith
      have g2 : ulp * τ ≤ ulp * (k * τ) := by
        apply mul_le_mul_of_nonneg_left _ hu.le
        nlinarith
      have g3 : 0 ≤ ulp * (k * τ) := by positivity
      have g4 : 0 ≤ ulp * S := by positivity
      have g5 : 0 ≤ ulp * (k * (k * τ)) := by positivity
      have g6 : 0 ≤ ulp * (k * S) := by positivity
      nlinarith
  obtain ⟨A, hA, hA'⟩ := key _ _ _ rfl rfl rfl
  refine ⟨A, hA, ?_, hfin⟩
  rw [ulp_zpow] at hA'
  exact hA'

/-- the area of a circle -/
theorem disc_near {c : Circle (B64 lm)} {r : ℝ} (hr : c.radius.Is r) (hb : |r| ≤ 2 ^ (100 : ℤ)) :
    ∃ A, ((Ring.circle c).signedArea h).Is A ∧ |A - areaOf h (.circle c)| ≤ areaError h (.circle c) ∧
      (Ring.circle c).exact.signedArea h.exact = fin (areaOf h (.circle c)) := by
  have er : c.radius.real = r := by unfold B64.real; rw [hr.exact]; rfl
  obtain ⟨q, i1, e1, b1⟩ := prod_close hr hr hb hb
  obtain ⟨p1, p2⟩ := pi_is (lm := lm)
  generalize rs Real.pi = P at p1 p2
  have h3 := Real.pi_gt_three
  have h4 := Real.pi_lt_d2
  have hu := ulp_pos
  have hu1 : ulp ≤ 1 / 1000 := by rw [ulp_eq]; norm_num
  have p3 := abs_le.1 p2
  have hP : |P| ≤ 33 / 10 := by rw [abs_le]; constructor <;> linarith
  have t5 : (1 : ℝ) ≤ 2 ^ (200 : ℤ) := by
    have := two_le (show (0 : ℤ) ≤ 200 by norm_num)
    simpa using this
  have t1 : (2 : ℝ) ^ (-1075 : ℤ) ≤ 1 := by
    have := two_le (show (-1075 : ℤ) ≤ 0 by norm_num)
    simpa using this
  have t6 : (2 : ℝ) ^ (-1075 : ℤ) ≤ ulp * 2 ^ (-1000 : ℤ) := by
    rw [ulp_zpow, ← zpow_add₀ (by norm_num)]
    exact two_le (by norm_num)
  have t0 : (0 : ℝ) < 2 ^ (-1075 : ℤ) := by positivity
  have t7 : (2 : ℝ) ^ (-49 : ℤ) = 16 * ulp := by rw [ulp_eq]; norm_num
  rw [abs_of_nonneg (mul_self_nonneg r)] at e1 b1
  have q0 : 0 ≤ r * r := mul_self_nonneg r
  have e1' := abs_le.1 e1
  have hq : |q| ≤ (1 + ulp) * (r * r) + 2 ^ (-1075 : ℤ) := by rw [abs_le]; constructor <;> nlinarith
  have hqP : |q * P| ≤ 33 / 10 * ((1 + ulp) * (r * r) + 2 ^ (-1075 : ℤ)) := by
    rw [abs_mul, mul_comm]
    exact mul_le_mul hP hq (abs_nonneg _) (by norm_num)
  have hv : ulp * (r * r) ≤ 1 / 1000 * (r * r) := mul_le_mul_of_nonneg_right hu1 q0
  have hbig : |q * P| ≤ 2 ^ (203 : ℤ) := by
    refine hqP.trans ?_
    rw [show (203 : ℤ) = 3 + 200 by norm_num, zpow_add₀ (by norm_num)]
    clear e1 e1' t6 hqP hq
    generalize (2 : ℝ) ^ (-1075 : ℤ) = τ at *
    norm_num at b1 t5 ⊢
    linarith
  refine ⟨_, i1.mul p1 (abs_rs_lt_top (k := 203) (by norm_num) (by norm_num) hbig), ?_, ?_⟩
  · have e2 := rs_err' (q * P)
    simp only [areaOf, areaError, er, t7]
    have e : rs (q * P) - r ^ 2 * Real.pi = (rs (q * P) - q * P) + ((q - r * r) * P + r * r * (P - Real.pi)) := by ring
    rw [e]
    refine (abs_add_le _ _).trans ((add_le_add le_rfl (abs_add_le _ _)).trans ?_)
    rw [abs_mul (q - r * r), abs_mul (r * r), abs_of_nonneg q0]
    have g1 : |q - r * r| * |P| ≤ (ulp * (r * r) + 2 ^ (-1075 : ℤ)) * (33 / 10) := mul_le_mul e1 hP (abs_nonneg _) (by positivity)
    have g2 : r * r * |P - Real.pi| ≤ r * r * (4 * ulp) := mul_le_mul_of_nonneg_left p2 q0
    have g3 : ulp * |q * P| ≤ ulp * (33 / 10 * ((1 + ulp) * (r * r) + 2 ^ (-1075 : ℤ))) := mul_le_mul_of_nonneg_left hqP hu.le
    have hv2 : ulp * (ulp * (r * r)) ≤ ulp * (1 / 1000 * (r * r)) := mul_le_mul_of_nonneg_left hv hu.le
    have hv3 : ulp * (2 : ℝ) ^ (-1075 : ℤ) ≤ 1 / 1000 * 2 ^ (-1075 : ℤ) := mul_le_mul_of_nonneg_right hu1 t0.le
    have g4 : 0 ≤ ulp * (r * r) := by positivity
    generalize (2 : ℝ) ^ (-1075 : ℤ) = τ at *
    generalize (2 : ℝ) ^ (-1000 : ℤ) = σ at *
    have f1 : ulp * (33 / 10 * ((1 + ulp) * (r * r) + τ)) = 33 / 10 * (ulp * (r * r)) + 33 / 10 * (ulp * (ulp * (r * r))) + 33 / 10 * (ulp * τ) := by ring
    have f2 : ulp * (1 / 1000 * (r * r)) = 1 / 1000 * (ulp * (r * r)) := by ring
    have f3 : 16 * ulp * (r ^ 2 + σ) = 16 * (ulp * (r * r)) + 16 * (ulp * σ) := by ring
    have f4 : r * r * (4 * ulp) = 4 * (ulp * (r * r)) := by ring
    rw [f1] at g3
    rw [f2] at hv2
    rw [f3]
    rw [f4] at g2
    linarith
  · show c.radius.exact * c.radius.exact * Num.pi = fin _
    rw [hr.exact]
    simp only [areaOf, er]
    show fin r * fin r * fin Real.pi = _
    rw [mul_fin, mul_fin, sq]

/-! ## The rings found -/

theorem draft_plain {L : List ((ℝ × ℝ) × (ℝ × ℝ))} (hd : DraftLines h s (2 ^ (100 : ℤ)) L) {sg : Segment (B64 lm)} (hs : sg ∈ allSegments h s) :
    PlainSeg h sg := by
  obtain ⟨i, hi⟩ := List.mem_iff_getElem?.1 hs
  obtain ⟨a, b, e, e1, -, e2, e3, e4, -⟩ := draft_get hd hi
  exact ⟨a, b, e, e1, e2, e3, e4⟩

theorem exact_init : initSegments h.exact s = (initSegments h s).map Segment.exact := by
  unfold initSegments
  rw [List.map_filterMap]
  congr 1
  funext kp
  rcases kp with ⟨k, _ | _ | _ | _⟩ <;> rfl

theorem exact_circles : circleRings h.exact s = (circleRings h s).map Ring.exact := by
  unfold circleRings
  rw [List.map_filterMap]
  congr 1
  funext kp
  rcases kp with ⟨k, _ | _ | _ | _⟩ <;> rfl

theorem exact_all {L : List ((ℝ × ℝ) × (ℝ × ℝ))} (hd : DraftLines h s (2 ^ (100 : ℤ)) L) : allSegments h.exact s = (allSegments h s).map Segment.exact := by
  unfold allSegments
  rw [exact_init, List.map_append, List.map_map, List.map_map]
  congr 1
  apply List.map_congr_left
  intro sg hsg
  obtain ⟨a, b, e, rfl, -⟩ := draft_plain hd (sg := sg) (by unfold allSegments; exact List.mem_append_left _ hsg)
  rfl

section
variable {κ ε : ℝ} {L : List ((ℝ × ℝ) × (ℝ × ℝ))}

theorem exact_traced (w : SameWalk h h.exact Segment.exact (allSegments h s)) (hd : DraftLines h s (2 ^ (100 : ℤ)) L) :
    tracedRings h.exact s = ((tracedRings h s).1, (tracedRings h s).2.map (fun l => l.map (fun x => (x.1, x.2.exact)))) := by
  unfold tracedRings
  rw [exact_all hd, enumFrom_mapped]
  exact w.loop (enumFrom 0 (allSegments h s)) [] [] (fun x hx => List.mem_of_getElem? (enumFrom_mem hx))

theorem exact_unused (w : SameWalk h h.exact Segment.exact (allSegments h s)) (hd : DraftLines h s (2 ^ (100 : ℤ)) L) :
    unusedSegments h.exact s = (unusedSegments h s).map Segment.exact := by
  unfold unusedSegments
  rw [exact_traced w hd, exact_init, enumFrom_mapped, List.filterMap_map, List.map_filterMap]
  congr 1
  funext x
  dsimp only [Function.comp]
  split <;> simp

theorem exact_unsorted (w : SameWalk h h.exact Segment.exact (allSegments h s)) (hd : DraftLines h s (2 ^ (100 : ℤ)) L) :
    unsortedRings h.exact s = (unsortedRings h s).map Ring.exact := by
  unfold unsortedRings
  rw [exact_traced w hd, exact_circles, List.map_append, List.map_map, List.map_map]
  congr 1
  apply List.map_congr_left
  intro r _
  simp [Ring.exact, Function.comp_def]

/-- the areas of all rings traced -/
theorem area_near (hd : DraftLines h s (2 ^ (100 : ℤ)) L) (hn : L.length ≤ 2 ^ 40) (hc : ModestCircles h s) {r : Ring (B64 lm)}
    (hr : r ∈ unsortedRings h s) :
    ∃ A, (r.signedArea h).Is A ∧ |A - areaOf h r| ≤ areaError h r ∧ r.exact.signedArea h.exact = fin (areaOf h r) := by
  unfold unsortedRings at hr
  rcases List.mem_append.1 hr with hr | hr
  · obtain ⟨l, hl, rfl⟩ := List.mem_map.1 hr
    have hlen : (allSegments h s).length = 2 * L.length := by
      have := hd.1.length_eq
      rw [← initSegments_eq] at this
      unfold allSegments
      rw [List.length_append, List.length_map, this]; ring
    have hsub := traced_subperm h s
    have hl2 : l.length ≤ (allSegments h s).length := by
      have h1 : (tracedRings h s).2.flatten.length ≤ (allSegments h s).length := by
        have := hsub.length_le
        rwa [List.length_map] at this
      refine le_trans ?_ h1
      exact (List.sublist_flatten_of_mem hl).length_le
    refine ring_near (fun sg hsg => draft_plain hd ?_) (by rw [List.length_map]; omega)
    apply hsub.subset
    obtain ⟨x, hx, rfl⟩ := List.mem_map.1 hsg
    exact List.mem_map_of_mem (List.mem_flatten.2 ⟨l, hl, hx⟩)
  · unfold circleRings at hr
    obtain ⟨kp, hk, e⟩ := List.mem_filterMap.1 hr
    rcases kp with ⟨k, p⟩
    cases p <;> simp only [Option.some.injEq, reduceCtorEq] at e
    subst e
    obtain ⟨t, h1, h2⟩ := hc _ (List.mem_map.2 ⟨_, hk, rfl⟩)
    exact disc_near h1 h2

end

end Isotope
