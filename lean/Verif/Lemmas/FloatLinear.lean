import Verif.Lemmas.FloatAcc

/-!
# Losses and gradients of linear constraints in binary64
-/

namespace Isotope
open Round Val XR

variable {lm : Libm} {H : Heap (B64 lm)} {c : Constraint (B64 lm)} {X : ℝ}

/-- an entry with its value -/
def ExEntry (e : Dof × B64 lm) (E : Dof × ℝ) : Prop := e.1 = E.1 ∧ e.2.Is E.2

/-- the magnitudes of the entries for one degree of freedom -/
noncomputable def massOf (L : List (Dof × ℝ)) (d : Dof) : ℝ := total (L.map (fun e => (e.1, |e.2|))) d

/-- the residuals of a linear constraint as computed, and its loss and contributions in terms of them -/
structure LinCons (H : Heap (B64 lm)) (c : Constraint (B64 lm)) (X : ℝ) (P : List (Equation × ℝ)) (L : List (Dof × ℝ)) : Prop where
  eqs : P.map Prod.fst = equations H.exact c.exact
  res : ∀ p ∈ P, |p.2 - evalEq H.exact p.1| ≤ 6 * ulp * X ∧ |p.2| ≤ 2 ^ (102 : ℤ)
  loss : ∃ l, (lossValue H c).Is l ∧ 0 ≤ l ∧
    |l - (P.map (fun p => p.2 ^ 2)).sum / 2| ≤ 8 * ulp * ((P.map (fun p => p.2 ^ 2)).sum / 2) + 2 ^ (-960 : ℤ)
  entries : List.Forall₂ ExEntry (consEntries H c) L
  tot : ∀ d, total L d = (P.map (fun p => p.2 * total p.1.1 d)).sum
  mass : ∀ d, massOf L d ≤ 2 * (P.map (fun p => |p.2|)).sum
  len : P.length ≤ 2

/-- every number the constraint depends on is finite with magnitude at most `X` -/
structure ConsUpTo (H : Heap (B64 lm)) (c : Constraint (B64 lm)) (X : ℝ) : Prop where
  dat : ∀ p ∈ consDeps H c, ∀ x ∈ primData H p, ∃ r : ℝ, x.Is r ∧ |r| ≤ X
  par : ∀ x ∈ consParams c, ∃ r : ℝ, x.Is r ∧ |r| ≤ X
  le : X ≤ 2 ^ (100 : ℤ)

theorem ConsUpTo.pt (w : ConsUpTo H c X) {p : Nat} (hp : PrimCell.point p ∈ consDeps H c) : ∃ x y, PtAt H p x y ∧ |x| ≤ X ∧ |y| ≤ X := by
  obtain ⟨x, h1, h2⟩ := w.dat _ hp _ (show (ptData H p).x ∈ _ by simp [primData, ptData])
  obtain ⟨y, h3, h4⟩ := w.dat _ hp _ (show (ptData H p).y ∈ _ by simp [primData, ptData])
  exact ⟨x, y, ⟨h1, h3, h2.trans w.le, h4.trans w.le⟩, h2, h4⟩

theorem small_const : 4 * (2 : ℝ) ^ (102 : ℤ) * 2 ^ (-1075 : ℤ) ≤ 2 ^ (-960 : ℤ) := by
  have e : (4 : ℝ) = 2 ^ (2 : ℤ) := by norm_num
  rw [e, two_mul_two, two_mul_two]
  exact two_le (by norm_num)

theorem half_arith {q a l u δ B : ℝ} (hu : 0 < u) (hu' : u ≤ 1 / 8) (hδ : 0 < δ) (hB : 1 ≤ B) (h1 : |a - q / 2| ≤ u * (|q| / 2) + δ)
    (h2 : |l - a * q| ≤ u * |a * q| + δ) (hq : |q| ≤ B) : |l - q ^ 2 / 2| ≤ 8 * u * (q ^ 2 / 2) + 4 * B * δ := by
  have q0 := abs_nonneg q
  have e1 : |a * q - q ^ 2 / 2| ≤ (u * (|q| / 2) + δ) * |q| := by
    rw [show a * q - q ^ 2 / 2 = (a - q / 2) * q by ring, abs_mul]
    exact mul_le_mul_of_nonneg_right h1 q0
  have e2 : |a * q| ≤ |a * q - q ^ 2 / 2| + q ^ 2 / 2 := by
    have := abs_add_le (a * q - q ^ 2 / 2) (q ^ 2 / 2)
    rw [sub_add_cancel, abs_of_nonneg (by positivity : 0 ≤ q ^ 2 / 2)] at this
    exact this
  have e3 : |l - q ^ 2 / 2| ≤ |l - a * q| + |a * q - q ^ 2 / 2| := abs_sub_le _ _ _
  rw [← _root_.sq_abs q] at e1 e2 e3 ⊢
  generalize |q| = Q at *
  generalize |a * q| = A at *
  generalize |a * q - Q ^ 2 / 2| = D at *
  generalize |l - Q ^ 2 / 2| = E at *
  have f1 : u * A ≤ u * ((u * (Q / 2) + δ) * Q + Q ^ 2 / 2) := mul_le_mul_of_nonneg_left (by linarith) hu.le
  have f2 : δ * Q ≤ δ * B := mul_le_mul_of_nonneg_left hq hδ.le
  have f3 : u * (u * (Q ^ 2 / 2)) ≤ 1 / 8 * (u * (Q ^ 2 / 2)) := mul_le_mul_of_nonneg_right hu' (by positivity)
  have f4 : u * (δ * Q) ≤ 1 / 8 * (δ * Q) := mul_le_mul_of_nonneg_right hu' (by positivity)
  have f5 : 0 ≤ u * (Q ^ 2 / 2) := by positivity
  have f6 : δ ≤ δ * B := le_mul_of_one_le_right hδ.le hB
  nlinarith

theorem ulp_le_eighth : ulp ≤ 1 / 8 := by rw [ulp_eq]; norm_num

theorem one_le_two_pow {k : ℤ} (hk : 0 ≤ k) : (1 : ℝ) ≤ 2 ^ k := by
  have : (2 : ℝ) ^ (0 : ℤ) ≤ 2 ^ k := two_le hk
  simpa using this

theorem rs_half_mul_nonneg (q : ℝ) : 0 ≤ rs (1 / 2 * q) * q := by
  rcases le_total 0 q with h | h
  · exact mul_nonneg (rs_nonneg (by linarith)) h
  · have : rs (1 / 2 * q) ≤ 0 := by
      have h1 := rs_nonneg (z := 1 / 2 * -q) (by linarith)
      rw [show (1 : ℝ) / 2 * -q = -(1 / 2 * q) by ring, rs_neg] at h1
      linarith
    exact mul_nonneg_of_nonpos_of_nonpos this h

/-- half the square of a residual -/
theorem halfSq_is {e : B64 lm} {q : ℝ} (he : e.Is q) (hq : |q| ≤ 2 ^ (102 : ℤ)) :
    ∃ l, ((0.5 : B64 lm) * e * e).Is l ∧ 0 ≤ l ∧ |l - q ^ 2 / 2| ≤ 8 * ulp * (q ^ 2 / 2) + 2 ^ (-960 : ℤ) := by
  have a0 : |(1 / 2 : ℝ) * q| ≤ 2 ^ (102 : ℤ) := by
    rw [abs_mul, abs_of_pos (by norm_num : (0 : ℝ) < 1 / 2)]
    linarith [abs_nonneg q]
  have a1 : |rs (1 / 2 * q)| ≤ 2 ^ (102 : ℤ) := abs_rs_le (rep_pow 102 (by norm_num) (by norm_num)) a0
  have a2 : |rs (1 / 2 * q) * q| ≤ 2 ^ (204 : ℤ) := by
    rw [abs_mul]
    refine (mul_le_mul a1 hq (abs_nonneg q) (two_pos _).le).trans ?_
    rw [two_mul_two]; norm_num
  have i1 := B64.is_half.mul he (abs_rs_lt_top (by norm_num) (by norm_num) a0)
  have i2 := i1.mul he (abs_rs_lt_top (by norm_num) (by norm_num) a2)
  refine ⟨_, i2, rs_nonneg (rs_half_mul_nonneg q), ?_⟩
  refine (half_arith ulp_pos ulp_le_eighth (two_pos (-1075)) (one_le_two_pow (by norm_num : (0 : ℤ) ≤ 102)) ?_ (rs_err' _) hq).trans ?_
  · have := rs_err' (1 / 2 * q)
    rw [abs_mul, abs_of_pos (by norm_num : (0 : ℝ) < 1 / 2)] at this
    rw [show q / 2 = 1 / 2 * q by ring, show |q| / 2 = 1 / 2 * |q| by ring]
    exact this
  · exact add_le_add_right small_const _

theorem fix_arith {a b p t v l u δ : ℝ} (hu : 0 < u) (hu' : u ≤ 1 / 8) (h1 : |p - a ^ 2| ≤ u * a ^ 2 + δ) (hδ : 0 < δ)
    (h2 : |t - b ^ 2| ≤ u * b ^ 2 + δ) (h3 : |v - (p + t)| ≤ u * |p + t|) (h4 : |l - 1 / 2 * v| ≤ u * (1 / 2 * |v|) + δ) :
    |l - (a ^ 2 + b ^ 2) / 2| ≤ 8 * u * ((a ^ 2 + b ^ 2) / 2) + 8 * δ := by
  have e1 : |p + t - (a ^ 2 + b ^ 2)| ≤ u * (a ^ 2 + b ^ 2) + 2 * δ := by
    rw [show p + t - (a ^ 2 + b ^ 2) = (p - a ^ 2) + (t - b ^ 2) by ring]
    refine (abs_add_le _ _).trans ?_
    linarith
  have s0 : 0 ≤ a ^ 2 + b ^ 2 := by positivity
  have e2 : |p + t| ≤ |p + t - (a ^ 2 + b ^ 2)| + (a ^ 2 + b ^ 2) := by
    have := abs_add_le (p + t - (a ^ 2 + b ^ 2)) (a ^ 2 + b ^ 2)
    rwa [sub_add_cancel, abs_of_nonneg s0] at this
  have e3 : |v| ≤ |v - (p + t)| + |p + t| := by
    have := abs_add_le (v - (p + t)) (p + t)
    rwa [sub_add_cancel] at this
  have e4 : |l - (a ^ 2 + b ^ 2) / 2| ≤ |l - 1 / 2 * v| + 1 / 2 * |v - (p + t)| + 1 / 2 * |p + t - (a ^ 2 + b ^ 2)| := by
    have k1 := abs_sub_le l (1 / 2 * v) ((a ^ 2 + b ^ 2) / 2)
    have k2 : |1 / 2 * v - (a ^ 2 + b ^ 2) / 2| = 1 / 2 * |v - (a ^ 2 + b ^ 2)| := by
      rw [show 1 / 2 * v - (a ^ 2 + b ^ 2) / 2 = 1 / 2 * (v - (a ^ 2 + b ^ 2)) by ring, abs_mul, abs_of_pos (by norm_num : (0 : ℝ) < 1 / 2)]
    have k3 := abs_sub_le v (p + t) (a ^ 2 + b ^ 2)
    linarith
  have A0 := abs_nonneg (p + t)
  generalize a ^ 2 + b ^ 2 = S at *
  generalize |p + t - S| = D at *
  generalize |p + t| = A at *
  generalize |v - (p + t)| = V at *
  generalize |v| = W at *
  have f1 : u * A ≤ u * ((u * S + 2 * δ) + S) := mul_le_mul_of_nonneg_left (by linarith) hu.le
  have f2 : u * W ≤ u * (2 * S + 3 * δ) := by
    refine mul_le_mul_of_nonneg_left ?_ hu.le
    have : u * A ≤ 1 / 8 * A := mul_le_mul_of_nonneg_right hu' A0
    have : u * S ≤ 1 / 8 * S := mul_le_mul_of_nonneg_right hu' s0
    linarith
  have f3 : u * (u * S) ≤ 1 / 8 * (u * S) := mul_le_mul_of_nonneg_right hu' (by positivity)
  have f4 : u * δ ≤ 1 / 8 * δ := mul_le_mul_of_nonneg_right hu' hδ.le
  have f5 : 0 ≤ u * S := by positivity
  nlinarith

theorem rs_sub_bound {x y B : ℝ} (hx : Rep |x|) (hy : Rep |y|) (bx : |x| ≤ B) (bY : |y| ≤ B) :
    |rs (x - y) - (x - y)| ≤ 2 * ulp * B ∧ |x - y| ≤ 2 * B := by
  have h1 : |x - y| ≤ 2 * B := (abs_sub x y).trans (by linarith)
  refine ⟨(rs_sub_err hx hy).trans ?_, h1⟩
  have := mul_le_mul_of_nonneg_left h1 ulp_pos.le
  linarith

theorem two102 : (2 : ℝ) ^ (102 : ℤ) = 4 * 2 ^ (100 : ℤ) := by
  rw [show (102 : ℤ) = 2 + 100 by norm_num, ← two_mul_two]; norm_num

/-- a computed difference of coordinates -/
theorem gap_is {a b : B64 lm} {x y : ℝ} (ha : a.Is x) (hb : b.Is y) (hX : X ≤ 2 ^ (100 : ℤ)) (bx : |x| ≤ X) (bY : |y| ≤ X) :
    ∃ q, (a - b).Is q ∧ |q - (x - y)| ≤ 2 * ulp * X ∧ |q| ≤ 3 * X := by
  obtain ⟨h1, h2⟩ := rs_sub_bound ha.rep hb.rep bx bY
  have X0 : 0 ≤ X := (abs_nonneg _).trans bx
  have htop : |rs (x - y)| < top := by
    refine abs_rs_lt_top (k := 102) (by norm_num) (by norm_num) (h2.trans ?_)
    rw [two102]; linarith
  refine ⟨_, ha.sub hb htop, h1, ?_⟩
  have h3 := abs_add_le (rs (x - y) - (x - y)) (x - y)
  rw [sub_add_cancel] at h3
  have := mul_le_mul_of_nonneg_right ulp_le_eighth X0
  linarith

/-- a computed difference of coordinates, compared with its desired value -/
theorem goal_is {a b D : B64 lm} {x y d : ℝ} (ha : a.Is x) (hb : b.Is y) (hD : D.Is d) (hX : X ≤ 2 ^ (100 : ℤ)) (bx : |x| ≤ X) (bY : |y| ≤ X)
    (bd : |d| ≤ X) : ∃ q, (a - b - D).Is q ∧ |q - (x - y - d)| ≤ 6 * ulp * X ∧ |q| ≤ 2 ^ (102 : ℤ) := by
  obtain ⟨p, h1, h2, h3⟩ := gap_is ha hb hX bx bY
  have X0 : 0 ≤ X := (abs_nonneg _).trans bx
  have h4 : |p - d| ≤ 4 * X := (abs_sub p d).trans (by linarith)
  have h5 : |p - d| ≤ 2 ^ (102 : ℤ) := h4.trans (by rw [two102]; linarith)
  have h6 := (rs_sub_err h1.rep hD.rep).trans (mul_le_mul_of_nonneg_left h4 ulp_pos.le)
  refine ⟨_, h1.sub hD (abs_rs_lt_top (by norm_num) (by norm_num) h5), ?_, abs_rs_le (rep_pow 102 (by norm_num) (by norm_num)) h5⟩
  have h7 := abs_add_le (rs (p - d) - (p - d)) (p - (x - y))
  rw [show rs (p - d) - (p - d) + (p - (x - y)) = rs (p - d) - (x - y - d) by ring] at h7
  linarith

theorem is_of_ap {x : B64 lm} {η r A : ℝ} {m : ℕ} (h : x.Ap η r A 0 m) : x.Is r := by
  obtain ⟨v, h1, h2, -⟩ := h
  have : v = r := by
    have h3 : |v - r| ≤ 0 := by simpa using h2
    exact sub_eq_zero.1 (abs_nonpos_iff.1 h3)
  exact this ▸ h1

theorem ap_of_is {x : B64 lm} {r : ℝ} (h : x.Is r) (hr : |r| ≤ 2 ^ (102 : ℤ)) : x.Ap ulp r (2 ^ (102 : ℤ)) 0 102 :=
  .of_is h hr (two_le (by norm_num)) le_rfl

theorem unit_ulp : ErrUnit ulp := ⟨le_rfl, by rw [ulp_eq]; norm_num⟩

theorem val_px {p : Nat} {x y : ℝ} (P : PtAt H p x y) : (val H.exact (.px p)).toReal = x := P.xOf
theorem val_py {p : Nat} {x y : ℝ} (P : PtAt H p x y) : (val H.exact (.py p)).toReal = y := P.yOf

theorem lin_fix {p : Nat} {D : Vec2 (B64 lm)} (w : ConsUpTo H (.fix p D) X) : ∃ P L, LinCons H (.fix p D) X P L := by
  obtain ⟨x, y, P, bx, bY⟩ := w.pt (p := p) (by simp [consDeps, consFields, primFields])
  obtain ⟨u, hu, bu⟩ := w.par D.x (by simp [consParams])
  obtain ⟨v, hv, bv⟩ := w.par D.y (by simp [consParams])
  have X0 : 0 ≤ X := (abs_nonneg _).trans bx
  have hU := mul_nonneg ulp_pos.le X0
  obtain ⟨a, ha, ha1, ha2⟩ := gap_is P.ix hu w.le bx bu
  obtain ⟨b, hb, hb1, hb2⟩ := gap_is P.iy hv w.le bY bv
  have la : |a| ≤ 2 ^ (102 : ℤ) := ha2.trans (by rw [two102]; linarith [w.le])
  have lb : |b| ≤ 2 ^ (102 : ℤ) := hb2.trans (by rw [two102]; linarith [w.le])
  refine ⟨[(([(.px p, 1)], u), a), (([(.py p, 1)], v), b)], [(.px p, a), (.py p, b)], ?_, ?_, ?_, ?_, ?_, ?_, by simp⟩
  · have e1 : D.x.exact.toReal = u := hu.real
    have e2 : D.y.exact.toReal = v := hv.real
    simp [equations, Constraint.exact, Vec2.exact, e1, e2]
  · intro q hq
    simp only [List.mem_cons, List.not_mem_nil, or_false] at hq
    rcases hq with rfl | rfl
    · refine ⟨?_, la⟩
      simp only [evalEq, List.map_cons, List.map_nil, List.sum_cons, List.sum_nil, val_px P]
      rw [one_mul, add_zero]
      linarith
    · refine ⟨?_, lb⟩
      simp only [evalEq, List.map_cons, List.map_nil, List.sum_cons, List.sum_nil, val_py P]
      rw [one_mul, add_zero]
      linarith
  · have sqle : ∀ {t : ℝ}, |t| ≤ 2 ^ (102 : ℤ) → |t * t| ≤ 2 ^ (204 : ℤ) := by
      intro t ht
      rw [abs_mul]
      refine (mul_le_mul ht ht (abs_nonneg _) (two_pos _).le).trans ?_
      rw [two_mul_two]; norm_num
    have ta := abs_rs_le (rep_pow 204 (by norm_num) (by norm_num)) (sqle la)
    have tb := abs_rs_le (rep_pow 204 (by norm_num) (by norm_num)) (sqle lb)
    have tc : |rs (a * a) + rs (b * b)| ≤ 2 ^ (205 : ℤ) := by
      refine (abs_add_le _ _).trans ?_
      have : (2 : ℝ) ^ (204 : ℤ) + 2 ^ (204 : ℤ) = 2 ^ (205 : ℤ) := by rw [two_double]; norm_num
      linarith
    have td := abs_rs_le (rep_pow 205 (by norm_num) (by norm_num)) tc
    have te : |1 / 2 * rs (rs (a * a) + rs (b * b))| ≤ 2 ^ (205 : ℤ) := by
      rw [abs_mul, abs_of_pos (by norm_num : (0 : ℝ) < 1 / 2)]
      linarith [abs_nonneg (rs (rs (a * a) + rs (b * b)))]
    have i1 := ha.mul ha (abs_rs_lt_top (by norm_num) (by norm_num) (sqle la))
    have i2 := hb.mul hb (abs_rs_lt_top (by norm_num) (by norm_num) (sqle lb))
    have i3 := i1.add i2 (abs_rs_lt_top (by norm_num) (by norm_num) tc)
    have i4 := B64.is_half.mul i3 (abs_rs_lt_top (by norm_num) (by norm_num) te)
    refine ⟨_, i4, ?_, ?_⟩
    · refine rs_nonneg (mul_nonneg (by norm_num) (rs_nonneg (add_nonneg (rs_nonneg (mul_self_nonneg a)) (rs_nonneg (mul_self_nonneg b)))))
    · simp only [List.map_cons, List.map_nil, List.sum_cons, List.sum_nil, add_zero]
      have e1 := rs_err' (a * a)
      have e2 := rs_err' (b * b)
      have e4 := rs_err' (1 / 2 * rs (rs (a * a) + rs (b * b)))
      rw [abs_of_nonneg (mul_self_nonneg a)] at e1
      rw [abs_of_nonneg (mul_self_nonneg b)] at e2
      rw [abs_mul, abs_of_pos (by norm_num : (0 : ℝ) < 1 / 2)] at e4
      rw [show rs (a * a) - a * a = rs (a * a) - a ^ 2 by ring, show ulp * (a * a) = ulp * a ^ 2 by ring] at e1
      rw [show rs (b * b) - b * b = rs (b * b) - b ^ 2 by ring, show ulp * (b * b) = ulp * b ^ 2 by ring] at e2
      refine (fix_arith ulp_pos ulp_le_eighth (δ := 2 ^ (-1075 : ℤ)) (a := a) (b := b) (p := rs (a * a)) (t := rs (b * b))
        e1 (two_pos _) e2 (rs_add_err i1.rep i2.rep) e4).trans ?_
      have e : (8 : ℝ) = 2 ^ (3 : ℤ) := by norm_num
      have : 8 * (2 : ℝ) ^ (-1075 : ℤ) ≤ 2 ^ (-960 : ℤ) := by
        rw [e, two_mul_two]; exact two_le (by norm_num)
      linarith
  · exact .cons ⟨rfl, ha⟩ (.cons ⟨rfl, hb⟩ .nil)
  · intro d
    simp only [total_cons, total_nil, List.map_cons, List.map_nil, List.sum_cons, List.sum_nil]
    split_ifs <;> ring
  · intro d
    simp only [massOf, total_cons, total_nil, List.map_cons, List.map_nil, List.sum_cons, List.sum_nil]
    have := abs_nonneg a
    have := abs_nonneg b
    split_ifs <;> linarith

theorem lin_diff {c : Constraint (B64 lm)} (hd : IsDiff c.exact) {e : B64 lm} {q : ℝ} {L : List (Dof × ℝ)} (he : e.Is q) (hq : |q| ≤ 2 ^ (102 : ℤ))
    (hr : |q - ((val H.exact (diffDofs H.exact c.exact).2).toReal - (val H.exact (diffDofs H.exact c.exact).1).toReal - diffGoal c.exact)| ≤ 6 * ulp * X)
    (hl : lossValue H c = (0.5 : B64 lm) * e * e) (hL : List.Forall₂ ExEntry (consEntries H c) L)
    (ht : ∀ d, total L d = q * ((if (diffDofs H.exact c.exact).2 = d then 1 else 0) - (if (diffDofs H.exact c.exact).1 = d then 1 else 0)))
    (hm : ∀ d, massOf L d ≤ 2 * |q|) : ∃ P L, LinCons H c X P L := by
  refine ⟨[(([((diffDofs H.exact c.exact).2, 1), ((diffDofs H.exact c.exact).1, -1)], diffGoal c.exact), q)], L, ?_, ?_, ?_, hL, ?_, ?_, by simp⟩
  · rw [equations_diff hd]; rfl
  · intro p hp
    simp only [List.mem_cons, List.not_mem_nil, or_false] at hp
    subst hp
    refine ⟨?_, hq⟩
    simp only [evalEq, List.map_cons, List.map_nil, List.sum_cons, List.sum_nil]
    rw [show ∀ a b : ℝ, 1 * a + (-1 * b + 0) = a - b by intros; ring]
    exact hr
  · rw [hl]
    obtain ⟨l, h1, h2, h3⟩ := halfSq_is he hq
    exact ⟨l, h1, h2, by simpa using h3⟩
  · intro d
    rw [ht]
    simp only [total_cons, total_nil, List.map_cons, List.map_nil, List.sum_cons, List.sum_nil]
    split_ifs <;> ring
  · intro d
    simpa using hm d

theorem lin_horiz {p q : Nat} {D : B64 lm} (w : ConsUpTo H (.horizDist p q D) X) : ∃ P L, LinCons H (.horizDist p q D) X P L := by
  obtain ⟨x, y, P, bx, bY⟩ := w.pt (p := p) (by simp [consDeps, consFields, primFields])
  obtain ⟨u, v, Q, bu, bv⟩ := w.pt (p := q) (by simp [consDeps, consFields, primFields])
  obtain ⟨d, hd, bd⟩ := w.par D (by simp [consParams])
  obtain ⟨r, h1, h2, h3⟩ := goal_is Q.ix P.ix hd w.le bu bx bd
  obtain ⟨g1, g0⟩ := one_zero unit_ulp ((ap_of_is h1 h3).mul_one B64.is_one)
  obtain ⟨a1, a2⟩ := point_entries (g := -(⟨1.0, 0.0⟩ : Vec2 (B64 lm)).smul (((ptData H q - ptData H p).x - D) * (1.0 : B64 lm))) g1.neg g0.neg
  obtain ⟨a3, a4⟩ := point_entries (g := (⟨1.0, 0.0⟩ : Vec2 (B64 lm)).smul (((ptData H q - ptData H p).x - D) * (1.0 : B64 lm))) g1 g0
  refine lin_diff (c := .horizDist p q D) trivial (L := [(.px p, -r), (.py p, -0), (.px q, r), (.py q, 0)]) h1 h3 ?_ rfl ?_ ?_ ?_
  · simp only [diffDofs, Constraint.exact, diffGoal, val_px P, val_px Q]
    rw [show D.exact.toReal = d from hd.real]
    exact h2
  · exact .cons ⟨rfl, is_of_ap a1⟩ (.cons ⟨rfl, is_of_ap a2⟩ (.cons ⟨rfl, is_of_ap a3⟩ (.cons ⟨rfl, is_of_ap a4⟩ .nil)))
  · intro d
    simp only [diffDofs, Constraint.exact, total_cons, total_nil, neg_zero, ite_self, zero_add, add_zero]
    show _ = r * ((if Dof.px q = d then 1 else 0) - if Dof.px p = d then 1 else 0)
    split_ifs <;> ring
  · intro d
    simp only [massOf, List.map_cons, List.map_nil, total_cons, total_nil, abs_neg, abs_zero, neg_zero]
    have := abs_nonneg r
    split_ifs <;> linarith

theorem lin_vert {p q : Nat} {D : B64 lm} (w : ConsUpTo H (.vertDist p q D) X) : ∃ P L, LinCons H (.vertDist p q D) X P L := by
  obtain ⟨x, y, P, bx, bY⟩ := w.pt (p := p) (by simp [consDeps, consFields, primFields])
  obtain ⟨u, v, Q, bu, bv⟩ := w.pt (p := q) (by simp [consDeps, consFields, primFields])
  obtain ⟨d, hd, bd⟩ := w.par D (by simp [consParams])
  obtain ⟨r, h1, h2, h3⟩ := goal_is Q.iy P.iy hd w.le bv bY bd
  obtain ⟨g1, g0⟩ := one_zero unit_ulp ((ap_of_is h1 h3).mul_one B64.is_one)
  obtain ⟨a1, a2⟩ := point_entries (g := -(⟨0.0, 1.0⟩ : Vec2 (B64 lm)).smul (((ptData H q - ptData H p).y - D) * (1.0 : B64 lm))) g0.neg g1.neg
  obtain ⟨a3, a4⟩ := point_entries (g := (⟨0.0, 1.0⟩ : Vec2 (B64 lm)).smul (((ptData H q - ptData H p).y - D) * (1.0 : B64 lm))) g0 g1
  refine lin_diff (c := .vertDist p q D) trivial (L := [(.px p, -0), (.py p, -r), (.px q, 0), (.py q, r)]) h1 h3 ?_ rfl ?_ ?_ ?_
  · simp only [diffDofs, Constraint.exact, diffGoal, val_py P, val_py Q]
    rw [show D.exact.toReal = d from hd.real]
    exact h2
  · exact .cons ⟨rfl, is_of_ap a1⟩ (.cons ⟨rfl, is_of_ap a2⟩ (.cons ⟨rfl, is_of_ap a3⟩ (.cons ⟨rfl, is_of_ap a4⟩ .nil)))
  · intro d
    simp only [diffDofs, Constraint.exact, total_cons, total_nil, neg_zero, ite_self, zero_add, add_zero]
    show _ = r * ((if Dof.py q = d then 1 else 0) - if Dof.py p = d then 1 else 0)
    split_ifs <;> ring
  · intro d
    simp only [massOf, List.map_cons, List.map_nil, total_cons, total_nil, abs_neg, abs_zero, neg_zero]
    have := abs_nonneg r
    split_ifs <;> linarith

theorem ConsUpTo.line (w : ConsUpTo H c X) {l : Nat} (hl : PrimCell.line l ∈ consFields c) :
    ∃ x y u v, (PtAt H (H.lines l).stop x y ∧ |x| ≤ X ∧ |y| ≤ X) ∧ (PtAt H (H.lines l).start u v ∧ |u| ≤ X ∧ |v| ≤ X) := by
  obtain ⟨x, y, q⟩ := w.pt (p := (H.lines l).stop) (by
    unfold consDeps
    exact List.mem_append_right _ (List.mem_flatMap.2 ⟨_, hl, by simp [primFields]⟩))
  obtain ⟨u, v, q'⟩ := w.pt (p := (H.lines l).start) (by
    unfold consDeps
    exact List.mem_append_right _ (List.mem_flatMap.2 ⟨_, hl, by simp [primFields]⟩))
  exact ⟨x, y, u, v, q, q'⟩

theorem lin_horizLine {l : Nat} (w : ConsUpTo H (.horizLine l) X) : ∃ P L, LinCons H (.horizLine l) X P L := by
  obtain ⟨x, y, u, v, ⟨P, bx, bY⟩, Q, bu, bv⟩ := w.line (l := l) (by simp [consFields])
  have X0 : 0 ≤ X := (abs_nonneg _).trans bx
  have hU := mul_nonneg ulp_pos.le X0
  obtain ⟨r, h1, h2, h3⟩ := gap_is P.iy Q.iy w.le bY bv
  have h4 : |r| ≤ 2 ^ (102 : ℤ) := h3.trans (by rw [two102]; linarith [w.le])
  have g := ap_of_is h1 h4
  have z := ap_of_is (B64.is_zero (lm := lm)) (by rw [abs_zero]; exact (two_pos 102).le)
  obtain ⟨a1, a2, a3, a4⟩ := start_entries (g := -(⟨0.0, (lineEnd H l).y - (lineStart H l).y⟩ : Vec2 (B64 lm))) unit_ulp z.neg g.neg
  obtain ⟨b1, b2, b3, b4⟩ := stop_entries (g := (⟨0.0, (lineEnd H l).y - (lineStart H l).y⟩ : Vec2 (B64 lm))) unit_ulp z g
  refine lin_diff (c := .horizLine l) trivial (L := [(.px (H.lines l).start, -0), (.py (H.lines l).start, -r), (.px (H.lines l).stop, 0), (.py (H.lines l).stop, 0),
       (.px (H.lines l).start, 0), (.py (H.lines l).start, 0), (.px (H.lines l).stop, 0), (.py (H.lines l).stop, r)]) h1 h4 ?_ rfl ?_ ?_ ?_
  · simp only [diffDofs, Constraint.exact, diffGoal]
    rw [show (val H.exact (.py (H.exact.lines l).stop)).toReal = y from val_py P,
      show (val H.exact (.py (H.exact.lines l).start)).toReal = v from val_py Q, sub_zero]
    linarith
  · exact .cons ⟨rfl, is_of_ap a1⟩ (.cons ⟨rfl, is_of_ap a2⟩ (.cons ⟨rfl, is_of_ap a3⟩ (.cons ⟨rfl, is_of_ap a4⟩
      (.cons ⟨rfl, is_of_ap b1⟩ (.cons ⟨rfl, is_of_ap b2⟩ (.cons ⟨rfl, is_of_ap b3⟩ (.cons ⟨rfl, is_of_ap b4⟩ .nil)))))))
  · intro d
    simp only [diffDofs, Constraint.exact, total_cons, total_nil, neg_zero, ite_self, zero_add, add_zero]
    show _ = r * ((if Dof.py (H.lines l).stop = d then 1 else 0) - if Dof.py (H.lines l).start = d then 1 else 0)
    split_ifs <;> ring
  · intro d
    simp only [massOf, List.map_cons, List.map_nil, total_cons, total_nil, abs_neg, abs_zero, neg_zero, ite_self, zero_add, add_zero]
    have := abs_nonneg r
    split_ifs <;> linarith

theorem lin_vertLine {l : Nat} (w : ConsUpTo H (.vertLine l) X) : ∃ P L, LinCons H (.vertLine l) X P L := by
  obtain ⟨x, y, u, v, ⟨P, bx, bY⟩, Q, bu, bv⟩ := w.line (l := l) (by simp [consFields])
  have X0 : 0 ≤ X := (abs_nonneg _).trans bx
  have hU := mul_nonneg ulp_pos.le X0
  obtain ⟨r, h1, h2, h3⟩ := gap_is P.ix Q.ix w.le bx bu
  have h4 : |r| ≤ 2 ^ (102 : ℤ) := h3.trans (by rw [two102]; linarith [w.le])
  have g := ap_of_is h1 h4
  have z := ap_of_is (B64.is_zero (lm := lm)) (by rw [abs_zero]; exact (two_pos 102).le)
  obtain ⟨a1, a2, a3, a4⟩ := start_entries (g := -(⟨(lineEnd H l).x - (lineStart H l).x, 0.0⟩ : Vec2 (B64 lm))) unit_ulp g.neg z.neg
  obtain ⟨b1, b2, b3, b4⟩ := stop_entries (g := (⟨(lineEnd H l).x - (lineStart H l).x, 0.0⟩ : Vec2 (B64 lm))) unit_ulp g z
  refine lin_diff (c := .vertLine l) trivial (L := [(.px (H.lines l).start, -r), (.py (H.lines l).start, -0), (.px (H.lines l).stop, 0), (.py (H.lines l).stop, 0),
       (.px (H.lines l).start, 0), (.py (H.lines l).start, 0), (.px (H.lines l).stop, r), (.py (H.lines l).stop, 0)]) h1 h4 ?_ rfl ?_ ?_ ?_
  · simp only [diffDofs, Constraint.exact, diffGoal]
    rw [show (val H.exact (.px (H.exact.lines l).stop)).toReal = x from val_px P,
      show (val H.exact (.px (H.exact.lines l).start)).toReal = u from val_px Q, sub_zero]
    linarith
  · exact .cons ⟨rfl, is_of_ap a1⟩ (.cons ⟨rfl, is_of_ap a2⟩ (.cons ⟨rfl, is_of_ap a3⟩ (.cons ⟨rfl, is_of_ap a4⟩
      (.cons ⟨rfl, is_of_ap b1⟩ (.cons ⟨rfl, is_of_ap b2⟩ (.cons ⟨rfl, is_of_ap b3⟩ (.cons ⟨rfl, is_of_ap b4⟩ .nil)))))))
  · intro d
    simp only [diffDofs, Constraint.exact, total_cons, total_nil, neg_zero, ite_self, zero_add, add_zero]
    show _ = r * ((if Dof.px (H.lines l).stop = d then 1 else 0) - if Dof.px (H.lines l).start = d then 1 else 0)
    split_ifs <;> ring
  · intro d
    simp only [massOf, List.map_cons, List.map_nil, total_cons, total_nil, abs_neg, abs_zero, neg_zero, ite_self, zero_add, add_zero]
    have := abs_nonneg r
    split_ifs <;> linarith

theorem lin_cons (w : ConsUpTo H c X) (hl : IsLinear c.exact) : ∃ P L, LinCons H c X P L := by
  cases c with
  | fix p D => exact lin_fix w
  | horizDist p q D => exact lin_horiz w
  | vertDist p q D => exact lin_vert w
  | horizLine l => exact lin_horizLine w
  | vertLine l => exact lin_vertLine w
  | _ => rcases hl with hl | hl <;> exact hl.elim

end Isotope
