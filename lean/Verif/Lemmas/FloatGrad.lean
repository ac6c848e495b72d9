import Verif.Lemmas.FloatNear
import Verif.Lemmas.FloatCons
import Verif.Lemmas.Grad
import Verif.SpecNear

/-!
# Computed contributions are close to the exact ones
-/

namespace Isotope
open Round Val XR

variable {lm : Libm} {η : ℝ}

theorem B64.Is.exact {x : B64 lm} {r : ℝ} (h : x.Is r) : x.exact = fin r := by
  obtain ⟨s, m, e, rfl⟩ := h
  unfold B64.exact
  rw [e]

theorem B64.Is.real {x : B64 lm} {r : ℝ} (h : x.Is r) : x.real = r := by
  unfold B64.real
  rw [h.exact, toReal_fin]

namespace B64.Ap
variable {x y : B64 lm} {r t A B k : ℝ} {m n : ℕ}

theorem congr (h : x.Ap η r A k m) (hr : r = t) (hA : A = B) : x.Ap η t B k m := by subst hr hA; exact h

/-- other bounds of the same scale -/
theorem range (h : x.Ap η r A k m) (n : ℕ) (h1 : 2 ^ (-(n : ℤ)) ≤ A) (h2 : A ≤ 2 ^ (n : ℤ)) : x.Ap η r A k n := by
  obtain ⟨v, e1, e2, e3, -, -, e6⟩ := h
  exact ⟨v, e1, e2, e3, h1, h2, e6⟩

end B64.Ap

/-- a computed direction -/
structure Dir (η : ℝ) (d : Vec2 (B64 lm)) (a b : ℝ) : Prop where
  x : d.x.Ap η a (hyp a b) 1 102
  y : d.y.Ap η b (hyp a b) 1 102
  q : d.normSq.Ap η (a * a + b * b) (a * a + b * b) 12 204
  n : d.norm.Ap η (hyp a b) (hyp a b) 14 102
  lo : 2 ^ (-(102 : ℕ) : ℤ) ≤ hyp a b
  hi : hyp a b ≤ 2 ^ ((102 : ℕ) : ℤ)

theorem Dir.pos {d : Vec2 (B64 lm)} {a b : ℝ} (h : Dir η d a b) : 0 < hyp a b := (two_pos _).trans_le h.lo

theorem abs_le_hyp (a b : ℝ) : |a| ≤ hyp a b ∧ |b| ≤ hyp a b := by
  unfold hyp
  constructor <;> refine Real.abs_le_sqrt ?_ <;> nlinarith [mul_self_nonneg a, mul_self_nonneg b]

theorem hyp_le (a b : ℝ) : hyp a b ≤ |a| + |b| := by
  unfold hyp
  rw [Real.sqrt_le_left (by positivity)]
  nlinarith [abs_nonneg a, abs_nonneg b, abs_mul_abs_self a, abs_mul_abs_self b]

theorem two_double {k : ℤ} : (2 : ℝ) ^ k + 2 ^ k = 2 ^ (k + 1) := by
  rw [zpow_add₀ (by norm_num)]; norm_num; ring

theorem diff_le {x y : ℝ} {k : ℤ} (hx : |x| ≤ 2 ^ k) (hy : |y| ≤ 2 ^ k) : |x - y| ≤ 2 ^ (k + 1) := by
  rw [← two_double]
  exact (abs_sub x y).trans (add_le_add hx hy)

theorem dir_ap (hη : ErrUnit η) {P Q : Vec2 (B64 lm)} {x y u v : ℝ} (hx : P.x.Is x) (hy : P.y.Is y) (hu : Q.x.Is u) (hv : Q.y.Is v)
    (bx : |x| ≤ 2 ^ (100 : ℤ)) (bY : |y| ≤ 2 ^ (100 : ℤ)) (bu : |u| ≤ 2 ^ (100 : ℤ)) (bv : |v| ≤ 2 ^ (100 : ℤ))
    (hL : 2 ^ (-100 : ℤ) ≤ hyp (x - u) (y - v)) : Dir η (P - Q) (x - u) (y - v) := by
  have hi : hyp (x - u) (y - v) ≤ 2 ^ ((102 : ℕ) : ℤ) := by
    refine (hyp_le _ _).trans ((add_le_add (diff_le bx bu) (diff_le bY bv)).trans ?_)
    rw [two_double]; norm_num
  have lo : 2 ^ (-(102 : ℕ) : ℤ) ≤ hyp (x - u) (y - v) := (two_le (by norm_num)).trans hL
  have dx := B64.Ap.sub_is (m := 102) hη hx hu (abs_le_hyp (x - u) (y - v)).1 lo hi (by norm_num)
  have dy := B64.Ap.sub_is (m := 102) hη hy hv (abs_le_hyp (x - u) (y - v)).2 lo hi (by norm_num)
  have e : hyp (x - u) (y - v) * hyp (x - u) (y - v) = (x - u) * (x - u) + (y - v) * (y - v) := hyp_mul_self _ _
  obtain ⟨s1, s2⟩ := B64.Ap.mul_pow lo hi lo hi 204 (by norm_num)
  rw [e] at s1 s2
  have q := ((dx.mul hη dx 204 4 (by norm_num) (by norm_num) (by norm_num) (by norm_num)).add hη
    (dy.mul hη dy 204 4 (by norm_num) (by norm_num) (by norm_num) (by norm_num)) 205 6 (by norm_num) (by norm_num) (by norm_num)
    (by norm_num) (by norm_num)).rescale (B := (x - u) * (x - u) + (y - v) * (y - v)) (n := 204)
    (by rw [abs_of_nonneg (sq_sum_nonneg _ _)]) 2 (by rw [e]; linarith) hη 12 (by norm_num) s1 s2 (by norm_num)
  exact ⟨dx, dy, q, (q.sqrt hη 14 (by norm_num) (by norm_num) (by norm_num)).range 102 lo hi, lo, hi⟩

namespace Dir
variable {d e : Vec2 (B64 lm)} {a b c f : ℝ}

theorem unit (hη : ErrUnit η) (h : Dir η d a b) : d.normalize.x.Ap η (a / hyp a b) 1 17 0 ∧ d.normalize.y.Ap η (b / hyp a b) 1 17 0 := by
  have h0 := h.pos.ne'
  have s1 : (2 : ℝ) ^ (-((0 : ℕ) : ℤ)) ≤ 1 := by norm_num
  have s2 : (1 : ℝ) ≤ 2 ^ ((0 : ℕ) : ℤ) := by norm_num
  exact ⟨((h.x.div hη h.n 204 17 (by norm_num) (by norm_num) (by norm_num) (by norm_num)).congr rfl (div_self h0)).range 0 s1 s2,
    ((h.y.div hη h.n 204 17 (by norm_num) (by norm_num) (by norm_num) (by norm_num)).congr rfl (div_self h0)).range 0 s1 s2⟩

theorem one_ap : (1.0 : B64 lm).Ap η 1 1 0 0 := .of_is B64.is_one (by norm_num) (by norm_num) (by norm_num)
theorem zero_ap : (0.0 : B64 lm).Ap η 0 1 0 0 := .of_is B64.is_zero (by norm_num) (by norm_num) (by norm_num)

/-- entries of the Jacobian of the normalisation -/
theorem jac (hη : ErrUnit η) (h : Dir η d a b) :
    (normalizeJacobian d).r0.x.Ap η ((1 - a * a / (a * a + b * b)) / hyp a b) (2 / hyp a b) 36 103 ∧
    (normalizeJacobian d).r0.y.Ap η ((0 - a * b / (a * a + b * b)) / hyp a b) (2 / hyp a b) 36 103 ∧
    (normalizeJacobian d).r1.x.Ap η ((0 - b * a / (a * a + b * b)) / hyp a b) (2 / hyp a b) 36 103 ∧
    (normalizeJacobian d).r1.y.Ap η ((1 - b * b / (a * a + b * b)) / hyp a b) (2 / hyp a b) 36 103 := by
  have h0 := h.pos.ne'
  have s1 : (2 : ℝ) ^ (-((0 : ℕ) : ℤ)) ≤ 1 := by norm_num
  have s2 : (1 : ℝ) ≤ 2 ^ ((0 : ℕ) : ℤ) := by norm_num
  have e : hyp a b * hyp a b / (a * a + b * b) = 1 := by rw [hyp_mul_self]; exact div_self (by rw [← hyp_mul_self]; exact mul_ne_zero h0 h0)
  have key : ∀ {w z : B64 lm} {p q : ℝ}, w.Ap η p (hyp a b) 1 102 → z.Ap η q (hyp a b) 1 102 →
      (w * z / d.normSq).Ap η (p * q / (a * a + b * b)) 1 18 0 := fun hw hz =>
    (((hw.mul hη hz 204 4 (by norm_num) (by norm_num) (by norm_num) (by norm_num)).div hη h.q 408 18 (by norm_num) (by norm_num)
      (by norm_num) (by norm_num)).congr rfl e).range 0 s1 s2
  have fin : ∀ {i w : B64 lm} {o p : ℝ}, i.Ap η o 1 0 0 → w.Ap η p 1 18 0 → ((i - w) / d.norm).Ap η ((o - p) / hyp a b) (2 / hyp a b) 36 103 :=
    fun hi hw => ((hi.sub hη hw 1 20 (by norm_num) (by norm_num) (by norm_num) (by norm_num) (by norm_num)).congr rfl
      (show (1 : ℝ) + 1 = 2 by norm_num)).div hη h.n 103 36 (by norm_num) (by norm_num) (by norm_num) (by norm_num)
  exact ⟨fin one_ap (key h.x h.x), fin zero_ap (key h.x h.y), fin zero_ap (key h.y h.x), fin one_ap (key h.y h.y)⟩

end Dir

/-- the two components of a row times the Jacobian -/
theorem row_jac (hη : ErrUnit η) {d r : Vec2 (B64 lm)} {a b p q : ℝ} (h : Dir η d a b) (hp : r.x.Ap η p 2 57 1) (hq : r.y.Ap η q 2 57 1) :
    (r.mul22 (normalizeJacobian d)).x.Ap η (p * ((1 - a * a / (a * a + b * b)) / hyp a b) + q * ((0 - b * a / (a * a + b * b)) / hyp a b))
      (8 / hyp a b) 97 105 ∧
    (r.mul22 (normalizeJacobian d)).y.Ap η (p * ((0 - a * b / (a * a + b * b)) / hyp a b) + q * ((1 - b * b / (a * a + b * b)) / hyp a b))
      (8 / hyp a b) 97 105 := by
  obtain ⟨j1, j2, j3, j4⟩ := h.jac hη
  have e : 2 * (2 / hyp a b) + 2 * (2 / hyp a b) = 8 / hyp a b := by ring
  exact ⟨((hp.mul hη j1 104 95 (by norm_num) (by norm_num) (by norm_num) (by norm_num)).add hη
      (hq.mul hη j3 104 95 (by norm_num) (by norm_num) (by norm_num) (by norm_num)) 105 97 (by norm_num) (by norm_num) (by norm_num)
      (by norm_num) (by norm_num)).congr rfl e,
    ((hp.mul hη j2 104 95 (by norm_num) (by norm_num) (by norm_num) (by norm_num)).add hη
      (hq.mul hη j4 104 95 (by norm_num) (by norm_num) (by norm_num) (by norm_num)) 105 97 (by norm_num) (by norm_num) (by norm_num)
      (by norm_num) (by norm_num)).congr rfl e⟩


/-! ## Contributions, entry by entry -/

/-- the numbers a contribution adds, in order -/
def Chunk.entries {F : Type} (h : Heap F) : Chunk F → List (Dof × F)
  | .point a g => [(.px a, g.x), (.py a, g.y)]
  | .line l g => [(.px (h.lines l).start, g.a0), (.py (h.lines l).start, g.a1), (.px (h.lines l).stop, g.a2), (.py (h.lines l).stop, g.a3)]
  | .arc a g => [(.px (h.arcs a).center, g.a0), (.py (h.arcs a).center, g.a1), (.ar a, g.a2), (.as a, g.a3), (.ae a, g.a4)]

/-- a computed entry is close to the exact one -/
def NearEntry (η S K : ℝ) (e : Dof × B64 lm) (E : Dof × ℝ) : Prop := e.1 = E.1 ∧ e.2.Ap η E.2 S K 300

/-- every number the constraint depends on is finite with magnitude at most `2^100` -/
def ModestCons (h : Heap (B64 lm)) (c : Constraint (B64 lm)) : Prop :=
  (∀ p ∈ consDeps h c, ∀ x ∈ primData h p, ∃ r : ℝ, x.Is r ∧ |r| ≤ 2 ^ (100 : ℤ)) ∧ ∀ x ∈ consParams c, ∃ r : ℝ, x.Is r ∧ |r| ≤ 2 ^ (100 : ℤ)

/-- where a point is -/
structure PtAt (h : Heap (B64 lm)) (p : Nat) (x y : ℝ) : Prop where
  ix : (ptData h p).x.Is x
  iy : (ptData h p).y.Is y
  bx : |x| ≤ 2 ^ (100 : ℤ)
  bY : |y| ≤ 2 ^ (100 : ℤ)

section
variable {h : Heap (B64 lm)} {c : Constraint (B64 lm)}

theorem PtAt.xOf {p : Nat} {x y : ℝ} (q : PtAt h p x y) : xOf h p = x := q.ix.real
theorem PtAt.yOf {p : Nat} {x y : ℝ} (q : PtAt h p x y) : yOf h p = y := q.iy.real
theorem PtAt.exact {p : Nat} {x y : ℝ} (q : PtAt h p x y) : ptData h.exact p = ⟨fin x, fin y⟩ := by
  show Vec2.exact (ptData h p) = _
  unfold Vec2.exact
  rw [q.ix.exact, q.iy.exact]

theorem PtAt.distOf {p p' : Nat} {x y u v : ℝ} (q : PtAt h p x y) (q' : PtAt h p' u v) : distOf h p p' = hyp (x - u) (y - v) := by
  unfold Isotope.distOf hyp
  rw [q.xOf, q.yOf, q'.xOf, q'.yOf, _root_.sq, _root_.sq]

theorem PtAt.dir (hη : ErrUnit η) {p p' : Nat} {x y u v : ℝ} (q : PtAt h p x y) (q' : PtAt h p' u v)
    (hL : 2 ^ (-100 : ℤ) ≤ hyp (x - u) (y - v)) : Dir η (ptData h p - ptData h p') (x - u) (y - v) :=
  dir_ap hη q.ix q.iy q'.ix q'.iy q.bx q.bY q'.bx q'.bY hL

theorem ModestCons.pt (hm : ModestCons h c) {p : Nat} (hp : PrimCell.point p ∈ consDeps h c) : ∃ x y, PtAt h p x y := by
  obtain ⟨x, h1, h2⟩ := hm.1 _ hp _ (show (ptData h p).x ∈ _ by simp [primData, ptData])
  obtain ⟨y, h3, h4⟩ := hm.1 _ hp _ (show (ptData h p).y ∈ _ by simp [primData, ptData])
  exact ⟨x, y, h1, h3, h2, h4⟩

theorem ModestCons.line (hm : ModestCons h c) {l : Nat} (hl : PrimCell.line l ∈ consFields c) :
    ∃ x y u v, PtAt h (h.lines l).stop x y ∧ PtAt h (h.lines l).start u v := by
  obtain ⟨x, y, q⟩ := hm.pt (p := (h.lines l).stop) (by
    unfold consDeps
    exact List.mem_append_right _ (List.mem_flatMap.2 ⟨_, hl, by simp [primFields]⟩))
  obtain ⟨u, v, q'⟩ := hm.pt (p := (h.lines l).start) (by
    unfold consDeps
    exact List.mem_append_right _ (List.mem_flatMap.2 ⟨_, hl, by simp [primFields]⟩))
  exact ⟨x, y, u, v, q, q'⟩

/-- a parameter -/
theorem param_ap {D : B64 lm} {d : ℝ} (hD : D.Is d) (hd : |d| ≤ 2 ^ (100 : ℤ)) (m : ℕ) (hm : 101 ≤ m) :
    D.Ap η d (|d| + 2 ^ (-101 : ℤ)) 0 m := by
  refine .of_is hD (by linarith [two_pos (-101)]) ?_ ?_
  · have : (2 : ℝ) ^ (-(m : ℤ)) ≤ 2 ^ (-101 : ℤ) := two_le (by omega)
    linarith [abs_nonneg d]
  · have h1 : (2 : ℝ) ^ (-101 : ℤ) ≤ 2 ^ (100 : ℤ) := two_le (by norm_num)
    have h2 : (2 : ℝ) ^ ((100 : ℤ) + 1) ≤ 2 ^ (m : ℤ) := two_le (by omega)
    rw [← two_double] at h2
    linarith

/-- a difference of coordinates -/
theorem gap_ap (hη : ErrUnit η) {X Y : B64 lm} {x y : ℝ} (hX : X.Is x) (hY : Y.Is y) (bx : |x| ≤ 2 ^ (100 : ℤ)) (bY : |y| ≤ 2 ^ (100 : ℤ)) :
    (X - Y).Ap η (x - y) (|x - y| + 2 ^ (-101 : ℤ)) 1 102 := by
  refine .sub_is hη hX hY (by linarith [two_pos (-101)]) ?_ ?_ (by norm_num)
  · have : (2 : ℝ) ^ (-((102 : ℕ) : ℤ)) ≤ 2 ^ (-101 : ℤ) := two_le (by norm_num)
    linarith [abs_nonneg (x - y)]
  · have h1 : (2 : ℝ) ^ (-101 : ℤ) ≤ 2 ^ ((100 : ℤ) + 1) := two_le (by norm_num)
    have h2 : (2 : ℝ) ^ ((100 : ℤ) + 1 + 1) ≤ 2 ^ ((102 : ℕ) : ℤ) := two_le (by norm_num)
    rw [← two_double] at h2
    linarith [diff_le bx bY]

/-! ### Rows times the constant matrices -/

variable {S K : ℝ} {m : ℕ} {g : Vec2 (B64 lm)} {p q : ℝ}

theorem point_entries (hx : g.x.Ap η p S K m) (hy : g.y.Ap η q S K m) :
    (g.mul22 pointGradient).x.Ap η p S K m ∧ (g.mul22 pointGradient).y.Ap η q S K m := by
  obtain ⟨u, hu⟩ := hx.val
  obtain ⟨v, hv⟩ := hy.val
  exact ⟨hx.fst hv B64.is_one B64.is_zero, .snd hu hy B64.is_zero B64.is_one⟩

theorem ends_entries (hx : g.x.Ap η p S K m) (hy : g.y.Ap η q S K m) :
    (g.mul24 (lineEndGradient - lineStartGradient)).a0.Ap η (-p) S K m ∧ (g.mul24 (lineEndGradient - lineStartGradient)).a1.Ap η (-q) S K m ∧
    (g.mul24 (lineEndGradient - lineStartGradient)).a2.Ap η p S K m ∧ (g.mul24 (lineEndGradient - lineStartGradient)).a3.Ap η q S K m := by
  obtain ⟨u, hu⟩ := hx.val
  obtain ⟨v, hv⟩ := hy.val
  have zz : ((0.0 : B64 lm) - 0.0).Is 0 := B64.is_sub_zero B64.is_zero B64.is_zero
  have oz : ((1.0 : B64 lm) - 0.0).Is 1 := B64.is_sub_zero B64.is_one B64.is_zero
  have zo : ((0.0 : B64 lm) - 1.0).Is (-1) := B64.is_zero_sub B64.is_zero B64.is_one
  exact ⟨hx.fst_neg hv zo zz, .snd_neg hu hy zz zo, hx.fst hv oz zz, .snd hu hy zz oz⟩

theorem start_entries (hη : ErrUnit η) (hx : g.x.Ap η p S K m) (hy : g.y.Ap η q S K m) :
    (g.mul24 lineStartGradient).a0.Ap η p S K m ∧ (g.mul24 lineStartGradient).a1.Ap η q S K m ∧
    (g.mul24 lineStartGradient).a2.Ap η 0 S K m ∧ (g.mul24 lineStartGradient).a3.Ap η 0 S K m := by
  obtain ⟨u, hu⟩ := hx.val
  obtain ⟨v, hv⟩ := hy.val
  obtain ⟨-, -, -, -, h1, h2, h3⟩ := id hx
  exact ⟨.fst hx hv B64.is_one B64.is_zero, .snd hu hy B64.is_zero B64.is_one, .none hu hv B64.is_zero B64.is_zero h1 h2 h3 hη,
    .none hu hv B64.is_zero B64.is_zero h1 h2 h3 hη⟩

theorem stop_entries (hη : ErrUnit η) (hx : g.x.Ap η p S K m) (hy : g.y.Ap η q S K m) :
    (g.mul24 lineEndGradient).a0.Ap η 0 S K m ∧ (g.mul24 lineEndGradient).a1.Ap η 0 S K m ∧
    (g.mul24 lineEndGradient).a2.Ap η p S K m ∧ (g.mul24 lineEndGradient).a3.Ap η q S K m := by
  obtain ⟨u, hu⟩ := hx.val
  obtain ⟨v, hv⟩ := hy.val
  obtain ⟨-, -, -, -, h1, h2, h3⟩ := id hx
  exact ⟨.none hu hv B64.is_zero B64.is_zero h1 h2 h3 hη,
    .none hu hv B64.is_zero B64.is_zero h1 h2 h3 hη, .fst hx hv B64.is_one B64.is_zero, .snd hu hy B64.is_zero B64.is_one⟩

end

end Isotope
