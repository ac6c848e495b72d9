import Verif.Lemmas.LeftWalk

/-!
# Left turns under affine maps
-/

namespace Isotope
open XR

/-- twice the area of the triangle `b a c`, counter-clockwise positive -/
def crossAt (a b c : ℝ × ℝ) : ℝ := (a.1 - b.1) * (c.2 - b.2) - (c.1 - b.1) * (a.2 - b.2)

/-- the distance -/
noncomputable def far (p q : ℝ × ℝ) : ℝ := ‖(⟨q.1 - p.1, q.2 - p.2⟩ : ℂ)‖

theorem far_pos {p q : ℝ × ℝ} (h : p ≠ q) : 0 < far p q := by
  unfold far
  rw [norm_pos_iff]
  intro e
  apply h
  have h1 := congrArg Complex.re e
  have h2 := congrArg Complex.im e
  simp at h1 h2
  exact Prod.ext (by linarith) (by linarith)

theorem far_cos (p q : ℝ × ℝ) : far p q * Real.cos (direction p q) = q.1 - p.1 := by
  unfold far direction
  rw [Complex.norm_mul_cos_arg]

theorem far_sin (p q : ℝ × ℝ) : far p q * Real.sin (direction p q) = q.2 - p.2 := by
  unfold far direction
  rw [Complex.norm_mul_sin_arg]

theorem sin_leftTurn (a b c : ℝ × ℝ) : far b a * far b c * Real.sin (leftTurn a b c) = crossAt a b c := by
  obtain ⟨k, e⟩ := leftTurn_spec a b c
  rw [e, Real.sin_add_int_mul_two_pi, Real.sin_sub]
  unfold crossAt
  linear_combination far b a * Real.cos (direction b a) * far_sin b c - far b a * Real.sin (direction b a) * far_cos b c +
    (c.2 - b.2) * far_cos b a - (c.1 - b.1) * far_sin b a

theorem sin_between {a b c d : ℝ × ℝ} :
    far b c * far b d * Real.sin (leftTurn a b d - leftTurn a b c) = crossAt c b d := by
  obtain ⟨k, e⟩ := leftTurn_spec a b c
  obtain ⟨l, f⟩ := leftTurn_spec a b d
  obtain ⟨m, g⟩ := leftTurn_spec c b d
  rw [← sin_leftTurn, g, Real.sin_add_int_mul_two_pi]
  have : leftTurn a b d - leftTurn a b c = direction b d - direction b c + ((l - k : ℤ) : ℝ) * (2 * Real.pi) := by
    rw [e, f]; push_cast; ring
  rw [this, Real.sin_add_int_mul_two_pi]

/-- the quarter in which an angle of a full turn lies, as seen by sine and cosine -/
theorem turn_cases {t : ℝ} (h0 : 0 ≤ t) (h1 : t < 2 * Real.pi) :
    (t = 0 ∧ Real.sin t = 0) ∨ (0 < t ∧ t < Real.pi ∧ 0 < Real.sin t) ∨ (t = Real.pi ∧ Real.sin t = 0) ∨
      (Real.pi < t ∧ Real.sin t < 0) := by
  have hp := Real.pi_pos
  rcases h0.eq_or_lt with e | h0
  · exact .inl ⟨e.symm, by rw [← e, Real.sin_zero]⟩
  rcases lt_trichotomy t Real.pi with h | h | h
  · exact .inr (.inl ⟨h0, h, Real.sin_pos_of_pos_of_lt_pi h0 h⟩)
  · exact .inr (.inr (.inl ⟨h, by rw [h, Real.sin_pi]⟩))
  · refine .inr (.inr (.inr ⟨h, ?_⟩))
    have := Real.sin_pos_of_pos_of_lt_pi (x := t - Real.pi) (by linarith) (by linarith)
    rw [Real.sin_sub_pi] at this
    linarith

theorem cos_leftTurn (a b c : ℝ × ℝ) :
    far b a * far b c * Real.cos (leftTurn a b c) = (a.1 - b.1) * (c.1 - b.1) + (a.2 - b.2) * (c.2 - b.2) := by
  obtain ⟨k, e⟩ := leftTurn_spec a b c
  rw [e, Real.cos_add_int_mul_two_pi, Real.cos_sub]
  linear_combination far b a * Real.cos (direction b a) * far_cos b c + far b a * Real.sin (direction b a) * far_sin b c +
    (c.1 - b.1) * far_cos b a + (c.2 - b.2) * far_sin b a

/-- `f` keeps the sense of triangles, and halves of lines -/
structure Keeps (f : ℝ × ℝ → ℝ × ℝ) : Prop where
  inj : Function.Injective f
  pos : ∀ a b c, 0 < crossAt a b c → 0 < crossAt (f a) (f b) (f c)
  neg : ∀ a b c, crossAt a b c < 0 → crossAt (f a) (f b) (f c) < 0
  zero : ∀ a b c, crossAt a b c = 0 → crossAt (f a) (f b) (f c) = 0
  dot : ∀ a b c, crossAt a b c = 0 → 0 < (a.1 - b.1) * (c.1 - b.1) + (a.2 - b.2) * (c.2 - b.2) →
    0 < ((f a).1 - (f b).1) * ((f c).1 - (f b).1) + ((f a).2 - (f b).2) * ((f c).2 - (f b).2)
  dot' : ∀ a b c, crossAt a b c = 0 → (a.1 - b.1) * (c.1 - b.1) + (a.2 - b.2) * (c.2 - b.2) < 0 →
    ((f a).1 - (f b).1) * ((f c).1 - (f b).1) + ((f a).2 - (f b).2) * ((f c).2 - (f b).2) < 0

variable {f : ℝ × ℝ → ℝ × ℝ}

theorem Keeps.turn_zero (k : Keeps f) {a b c : ℝ × ℝ} (ha : a ≠ b) (hc : c ≠ b) (h : leftTurn a b c = 0) :
    leftTurn (f a) (f b) (f c) = 0 := by
  have p1 := far_pos ha.symm
  have p2 := far_pos hc.symm
  have q1 := far_pos (k.inj.ne ha).symm
  have q2 := far_pos (k.inj.ne hc).symm
  have s := sin_leftTurn a b c
  have c' := cos_leftTurn a b c
  rw [h, Real.sin_zero, mul_zero] at s
  rw [h, Real.cos_zero, mul_one] at c'
  have z := k.zero _ _ _ s.symm
  have d := k.dot _ _ _ s.symm (by rw [← c']; positivity)
  rw [← sin_leftTurn] at z
  rw [← cos_leftTurn] at d
  have hs : Real.sin (leftTurn (f a) (f b) (f c)) = 0 := by
    rcases mul_eq_zero.1 z with z | z
    · exact absurd z (by positivity)
    · exact z
  rcases turn_cases (leftTurn_nonneg (f a) (f b) (f c)) (leftTurn_lt _ _ _) with ⟨e, -⟩ | ⟨-, -, e⟩ | ⟨e, -⟩ | ⟨-, e⟩
  · exact e
  · linarith
  · rw [e, Real.cos_pi] at d
    have : 0 < far (f b) (f a) * far (f b) (f c) := by positivity
    linarith
  · linarith

theorem Keeps.turn_pi (k : Keeps f) {a b c : ℝ × ℝ} (ha : a ≠ b) (hc : c ≠ b) (h : leftTurn a b c = Real.pi) :
    leftTurn (f a) (f b) (f c) = Real.pi := by
  have p1 := far_pos ha.symm
  have p2 := far_pos hc.symm
  have q1 := far_pos (k.inj.ne ha).symm
  have q2 := far_pos (k.inj.ne hc).symm
  have s := sin_leftTurn a b c
  have c' := cos_leftTurn a b c
  rw [h, Real.sin_pi, mul_zero] at s
  rw [h, Real.cos_pi] at c'
  have z := k.zero _ _ _ s.symm
  have d := k.dot' _ _ _ s.symm (by rw [← c']; have : 0 < far b a * far b c := by positivity
                                    linarith)
  rw [← sin_leftTurn] at z
  rw [← cos_leftTurn] at d
  have hs : Real.sin (leftTurn (f a) (f b) (f c)) = 0 := by
    rcases mul_eq_zero.1 z with z | z
    · exact absurd z (by positivity)
    · exact z
  rcases turn_cases (leftTurn_nonneg (f a) (f b) (f c)) (leftTurn_lt _ _ _) with ⟨e, -⟩ | ⟨-, -, e⟩ | ⟨e, -⟩ | ⟨-, e⟩
  · rw [e, Real.cos_zero] at d
    have : 0 < far (f b) (f a) * far (f b) (f c) := by positivity
    linarith
  · linarith
  · exact e
  · linarith

theorem Keeps.turn_left (k : Keeps f) {a b c : ℝ × ℝ} (ha : a ≠ b) (hc : c ≠ b) (h : 0 < Real.sin (leftTurn a b c)) :
    0 < Real.sin (leftTurn (f a) (f b) (f c)) := by
  have p1 := far_pos ha.symm
  have p2 := far_pos hc.symm
  have q1 := far_pos (k.inj.ne ha).symm
  have q2 := far_pos (k.inj.ne hc).symm
  have z := k.pos a b c (by rw [← sin_leftTurn]; positivity)
  rw [← sin_leftTurn] at z
  exact pos_of_mul_pos_right z (by positivity)

theorem Keeps.turn_right (k : Keeps f) {a b c : ℝ × ℝ} (ha : a ≠ b) (hc : c ≠ b) (h : Real.sin (leftTurn a b c) < 0) :
    Real.sin (leftTurn (f a) (f b) (f c)) < 0 := by
  have p1 := far_pos ha.symm
  have p2 := far_pos hc.symm
  have q1 := far_pos (k.inj.ne ha).symm
  have q2 := far_pos (k.inj.ne hc).symm
  have z := k.neg a b c (by rw [← sin_leftTurn]; exact mul_neg_of_pos_of_neg (by positivity) h)
  rw [← sin_leftTurn] at z
  exact neg_of_mul_neg_right z (by positivity)

/-- within half a turn the sine of the difference decides -/
theorem Keeps.turn_near (k : Keeps f) {a b c d : ℝ × ℝ} (hc : c ≠ b) (hd : d ≠ b)
    (h : leftTurn a b c ≤ leftTurn a b d) (hn : leftTurn a b d < leftTurn a b c + Real.pi)
    (hn' : leftTurn (f a) (f b) (f c) < leftTurn (f a) (f b) (f d) + Real.pi) :
    leftTurn (f a) (f b) (f c) ≤ leftTurn (f a) (f b) (f d) := by
  have p1 := far_pos hc.symm
  have p2 := far_pos hd.symm
  have q1 := far_pos (k.inj.ne hc).symm
  have q2 := far_pos (k.inj.ne hd).symm
  have s := Real.sin_nonneg_of_nonneg_of_le_pi (x := leftTurn a b d - leftTurn a b c) (by linarith) (by linarith)
  have x : 0 ≤ crossAt c b d := by rw [← sin_between (a := a)]; positivity
  have x' : 0 ≤ crossAt (f c) (f b) (f d) := by
    rcases x.eq_or_lt with e | e
    · exact (k.zero _ _ _ e.symm).ge
    · exact (k.pos _ _ _ e).le
  rw [← sin_between (a := f a)] at x'
  by_contra hlt
  push Not at hlt
  have s' := Real.sin_neg_of_neg_of_neg_pi_lt (x := leftTurn (f a) (f b) (f d) - leftTurn (f a) (f b) (f c)) (by linarith)
    (by linarith)
  have : far (f b) (f c) * far (f b) (f d) * Real.sin (leftTurn (f a) (f b) (f d) - leftTurn (f a) (f b) (f c)) < 0 :=
    mul_neg_of_pos_of_neg (by positivity) s'
  linarith

theorem Keeps.turn_le (k : Keeps f) {a b c d : ℝ × ℝ} (ha : a ≠ b) (hc : c ≠ b) (hd : d ≠ b)
    (h : leftTurn a b c ≤ leftTurn a b d) : leftTurn (f a) (f b) (f c) ≤ leftTurn (f a) (f b) (f d) := by
  have hp := Real.pi_pos
  have c0 := leftTurn_nonneg (f a) (f b) (f c)
  have c1 := leftTurn_lt (f a) (f b) (f c)
  have d0 := leftTurn_nonneg (f a) (f b) (f d)
  have d1 := leftTurn_lt (f a) (f b) (f d)
  rcases turn_cases (leftTurn_nonneg a b c) (leftTurn_lt _ _ _) with ⟨e, -⟩ | ⟨e1, e2, e⟩ | ⟨e, -⟩ | ⟨e1, e⟩
  · rw [k.turn_zero ha hc e]; exact d0
  · have e' := k.turn_left ha hc e
    have cl : leftTurn (f a) (f b) (f c) < Real.pi := by
      rcases turn_cases c0 c1 with ⟨x, y⟩ | ⟨-, x, -⟩ | ⟨x, y⟩ | ⟨-, y⟩
      · linarith
      · exact x
      · linarith
      · linarith
    rcases turn_cases (leftTurn_nonneg a b d) (leftTurn_lt _ _ _) with ⟨g, -⟩ | ⟨g1, g2, g⟩ | ⟨g, -⟩ | ⟨g1, g⟩
    · linarith
    · exact k.turn_near hc hd h (by linarith) (by linarith)
    · rw [k.turn_pi ha hd g]; exact cl.le
    · have g' := k.turn_right ha hd g
      rcases turn_cases d0 d1 with ⟨x, y⟩ | ⟨-, -, y⟩ | ⟨x, y⟩ | ⟨x, -⟩ <;> linarith
  · rw [k.turn_pi ha hc e]
    rcases turn_cases (leftTurn_nonneg a b d) (leftTurn_lt _ _ _) with ⟨g, -⟩ | ⟨g1, g2, g⟩ | ⟨g, -⟩ | ⟨g1, g⟩
    · linarith
    · linarith
    · rw [k.turn_pi ha hd g]
    · have g' := k.turn_right ha hd g
      rcases turn_cases d0 d1 with ⟨x, y⟩ | ⟨-, -, y⟩ | ⟨x, y⟩ | ⟨x, -⟩ <;> linarith
  · have dl : Real.pi < leftTurn a b d := by linarith
    rcases turn_cases (leftTurn_nonneg a b d) (leftTurn_lt _ _ _) with ⟨g, -⟩ | ⟨g1, g2, g⟩ | ⟨g, -⟩ | ⟨g1, g⟩
    · linarith
    · linarith
    · linarith
    · have g' := k.turn_right ha hd g
      have dl' : Real.pi < leftTurn (f a) (f b) (f d) := by
        rcases turn_cases d0 d1 with ⟨x, y⟩ | ⟨-, -, y⟩ | ⟨x, y⟩ | ⟨x, -⟩ <;> linarith
      have := leftTurn_lt a b d
      exact k.turn_near hc hd h (by linarith) (by linarith)

/-! ## Affine maps -/

theorem crossAt_affine (a b c d : ℝ) (t p q r : ℝ × ℝ) :
    crossAt (affine a b c d t p) (affine a b c d t q) (affine a b c d t r) = (a * d - b * c) * crossAt p q r := by
  unfold crossAt affine; ring

/-- on a line through `q` -/
theorem on_line {p q r : ℝ × ℝ} (h : crossAt p q r = 0) (hp : p ≠ q) : ∃ l : ℝ, r.1 - q.1 = l * (p.1 - q.1) ∧ r.2 - q.2 = l * (p.2 - q.2) := by
  unfold crossAt at h
  by_cases h1 : p.1 - q.1 = 0
  · have h2 : p.2 - q.2 ≠ 0 := by
      intro h2
      exact hp (Prod.ext (by linarith) (by linarith))
    refine ⟨(r.2 - q.2) / (p.2 - q.2), ?_, by field_simp⟩
    rw [h1] at h ⊢
    have : (r.1 - q.1) * (p.2 - q.2) = 0 := by linarith
    rcases mul_eq_zero.1 this with e | e
    · rw [e]; simp
    · exact absurd e h2
  · refine ⟨(r.1 - q.1) / (p.1 - q.1), by field_simp, ?_⟩
    field_simp
    linarith

theorem affine_inj {a b c d : ℝ} (t : ℝ × ℝ) (hdet : a * d - b * c ≠ 0) : Function.Injective (affine a b c d t) := by
  intro p q e
  unfold affine at e
  obtain ⟨e1, e2⟩ := Prod.mk.inj e
  have x : (a * d - b * c) * (p.1 - q.1) = 0 := by linear_combination d * e1 - b * e2
  have y : (a * d - b * c) * (p.2 - q.2) = 0 := by linear_combination a * e2 - c * e1
  have x' := (mul_eq_zero.1 x).resolve_left hdet
  have y' := (mul_eq_zero.1 y).resolve_left hdet
  exact Prod.ext (by linarith) (by linarith)

theorem affine_keeps {a b c d : ℝ} (t : ℝ × ℝ) (hdet : 0 < a * d - b * c) : Keeps (affine a b c d t) where
  inj := affine_inj t hdet.ne'
  pos p q r h := by rw [crossAt_affine]; positivity
  neg p q r h := by rw [crossAt_affine]; exact mul_neg_of_pos_of_neg hdet h
  zero p q r h := by rw [crossAt_affine, h, mul_zero]
  dot p q r h hd := by
    have hp : p ≠ q := by rintro rfl; simp at hd
    have hp' : affine a b c d t p ≠ affine a b c d t q := fun e => hp (affine_inj t hdet.ne' e)
    obtain ⟨l, l1, l2⟩ := on_line h hp
    rw [l1, l2] at hd
    have lp : 0 < l := by
      by_contra hl
      push Not at hl
      nlinarith [mul_self_nonneg (p.1 - q.1), mul_self_nonneg (p.2 - q.2)]
    have n := far_pos hp'
    have e : ((affine a b c d t p).1 - (affine a b c d t q).1) * ((affine a b c d t r).1 - (affine a b c d t q).1) +
        ((affine a b c d t p).2 - (affine a b c d t q).2) * ((affine a b c d t r).2 - (affine a b c d t q).2) =
        l * (far (affine a b c d t p) (affine a b c d t q) ^ 2) := by
      unfold far
      rw [← Complex.normSq_eq_norm_sq, Complex.normSq_mk]
      unfold affine
      dsimp only
      linear_combination (a * (p.1 - q.1) + b * (p.2 - q.2)) * (a * l1 + b * l2) + (c * (p.1 - q.1) + d * (p.2 - q.2)) * (c * l1 + d * l2)
    rw [e]; positivity
  dot' p q r h hd := by
    have hp : p ≠ q := by rintro rfl; simp at hd
    have hp' : affine a b c d t p ≠ affine a b c d t q := fun e => hp (affine_inj t hdet.ne' e)
    obtain ⟨l, l1, l2⟩ := on_line h hp
    rw [l1, l2] at hd
    have lp : l < 0 := by
      by_contra hl
      push Not at hl
      nlinarith [mul_self_nonneg (p.1 - q.1), mul_self_nonneg (p.2 - q.2)]
    have n := far_pos hp'
    have e : ((affine a b c d t p).1 - (affine a b c d t q).1) * ((affine a b c d t r).1 - (affine a b c d t q).1) +
        ((affine a b c d t p).2 - (affine a b c d t q).2) * ((affine a b c d t r).2 - (affine a b c d t q).2) =
        l * (far (affine a b c d t p) (affine a b c d t q) ^ 2) := by
      unfold far
      rw [← Complex.normSq_eq_norm_sq, Complex.normSq_mk]
      unfold affine
      dsimp only
      linear_combination (a * (p.1 - q.1) + b * (p.2 - q.2)) * (a * l1 + b * l2) + (c * (p.1 - q.1) + d * (p.2 - q.2)) * (c * l1 + d * l2)
    rw [e]
    exact mul_neg_of_neg_of_pos lp (by positivity)

/-- the way back -/
theorem affine_inverse {a b c d : ℝ} (t : ℝ × ℝ) (hdet : a * d - b * c ≠ 0) :
    ∃ a' b' c' d' t', a' * d' - b' * c' = (a * d - b * c)⁻¹ ∧ (∀ p, affine a' b' c' d' t' (affine a b c d t p) = p) ∧
      ∀ p, affine a b c d t (affine a' b' c' d' t' p) = p := by
  obtain ⟨i, hi⟩ : ∃ i, (a * d - b * c) * i = 1 := ⟨(a * d - b * c)⁻¹, mul_inv_cancel₀ hdet⟩
  have hi' : (a * d - b * c)⁻¹ = i := by rw [inv_eq_of_mul_eq_one_right hi]
  refine ⟨d * i, -b * i, -c * i, a * i, ((b * t.2 - d * t.1) * i, (c * t.1 - a * t.2) * i), ?_, fun p => ?_, fun p => ?_⟩
  · rw [hi']; linear_combination i * hi
  · unfold affine
    apply Prod.ext
    · linear_combination p.1 * hi
    · linear_combination p.2 * hi
  · unfold affine
    apply Prod.ext
    · linear_combination (p.1 - t.1) * hi
    · linear_combination (p.2 - t.2) * hi

/-! ## Moved drawings -/

/-- the lines, moved -/
def moved (f : ℝ × ℝ → ℝ × ℝ) (L : List ((ℝ × ℝ) × (ℝ × ℝ))) : List ((ℝ × ℝ) × (ℝ × ℝ)) := L.map (fun e => (f e.1, f e.2))

variable {L : List ((ℝ × ℝ) × (ℝ × ℝ))}

theorem joined_moved (hf : Function.Injective f) {p q : ℝ × ℝ} : Joined (moved f L) (f p) (f q) ↔ Joined L p q := by
  unfold Joined moved
  simp only [List.mem_map, Prod.mk.injEq]
  constructor
  · rintro (⟨⟨x, y⟩, h, e1, e2⟩ | ⟨⟨x, y⟩, h, e1, e2⟩)
    · cases hf e1; cases hf e2; exact .inl h
    · cases hf e1; cases hf e2; exact .inr h
  · rintro (h | h)
    · exact .inl ⟨_, h, rfl, rfl⟩
    · exact .inr ⟨_, h, rfl, rfl⟩

theorem joined_of_moved {x y : ℝ × ℝ} (h : Joined (moved f L) x y) : ∃ p q, x = f p ∧ y = f q ∧ Joined L p q := by
  unfold Joined moved at h
  simp only [List.mem_map, Prod.mk.injEq] at h
  rcases h with ⟨⟨a, b⟩, h, rfl, rfl⟩ | ⟨⟨a, b⟩, h, rfl, rfl⟩
  · exact ⟨a, b, rfl, rfl, .inl h⟩
  · exact ⟨b, a, rfl, rfl, .inr h⟩

theorem moved_nodup (hf : Function.Injective f) (h : (L ++ L.map Prod.swap).Nodup) :
    (moved f L ++ (moved f L).map Prod.swap).Nodup := by
  have e : moved f L ++ (moved f L).map Prod.swap = (L ++ L.map Prod.swap).map (fun e => (f e.1, f e.2)) := by
    unfold moved
    rw [List.map_append, List.map_map, List.map_map]; rfl
  rw [e]
  refine h.map ?_
  intro x y hxy
  obtain ⟨h1, h2⟩ := Prod.mk.inj hxy
  exact Prod.ext (hf h1) (hf h2)

theorem Keeps.plain (k : Keeps f) {g : ℝ × ℝ → ℝ × ℝ} (kg : Keeps g) (hg : ∀ p, g (f p) = p) (hp : PlainLines L) : PlainLines (moved f L) := by
  refine ⟨moved_nodup k.inj hp.1, fun x y z h1 h2 h3 => ?_⟩
  obtain ⟨p, q, rfl, rfl, j1⟩ := joined_of_moved h1
  obtain ⟨p', r, e, rfl, j2⟩ := joined_of_moved h2
  rw [← k.inj e] at j2
  have n1 := j1.ne hp
  have n2 := j2.ne hp
  have := kg.turn_zero (k.inj.ne n1.symm) (k.inj.ne n2.symm) h3
  rw [hg, hg, hg] at this
  rw [hp.2 _ _ _ j1 j2 this]

theorem Keeps.hardest (k : Keeps f) (hp : PlainLines L) {a b c : ℝ × ℝ} (hj : Joined L a b) (h : HardestLeft L a b c) :
    HardestLeft (moved f L) (f a) (f b) (f c) := by
  obtain ⟨h1, h2, h3⟩ := h
  refine ⟨(joined_moved k.inj).2 h1, k.inj.ne h2, fun d hd hda => ?_⟩
  obtain ⟨b', d, e, rfl, j⟩ := joined_of_moved hd
  rw [← k.inj e] at j
  exact k.turn_le (hj.ne hp) (j.ne hp).symm (h1.ne hp).symm (h3 d j fun e => hda (by rw [e]))

theorem Keeps.hardest_iff (k : Keeps f) {g : ℝ × ℝ → ℝ × ℝ} (kg : Keeps g) (hg : ∀ p, g (f p) = p) (hp : PlainLines L)
    {a b c : ℝ × ℝ} (hj : Joined L a b) : HardestLeft (moved f L) (f a) (f b) (f c) ↔ HardestLeft L a b c := by
  refine ⟨fun h => ?_, k.hardest hp hj⟩
  have := kg.hardest (k.plain kg hg hp) ((joined_moved k.inj).2 hj) h
  rw [hg, hg, hg] at this
  have e : moved g (moved f L) = L := by
    unfold moved
    rw [List.map_map]
    conv_rhs => rw [← List.map_id L]
    refine List.map_congr_left fun x _ => ?_
    simp [hg]
  rwa [e] at this

/-! ## Mirror image -/

/-- the mirror image at the x-axis -/
def mirror (p : ℝ × ℝ) : ℝ × ℝ := (p.1, -p.2)

theorem mirror_mirror (p : ℝ × ℝ) : mirror (mirror p) = p := by simp [mirror]

theorem mirror_inj : Function.Injective mirror := fun p q e => by rw [← mirror_mirror p, e, mirror_mirror]

theorem direction_mirror (p q : ℝ × ℝ) : ∃ k : ℤ, direction (mirror p) (mirror q) = -direction p q + k * (2 * Real.pi) := by
  have e : (⟨(mirror q).1 - (mirror p).1, (mirror q).2 - (mirror p).2⟩ : ℂ) = (starRingEnd ℂ) ⟨q.1 - p.1, q.2 - p.2⟩ := by
    apply Complex.ext
    · rfl
    · simp [mirror]; ring
  unfold direction
  rw [e, Complex.arg_conj]
  split
  · next h => exact ⟨1, by rw [h]; push_cast; ring⟩
  · exact ⟨0, by simp⟩

theorem leftTurn_mirror {a b c : ℝ × ℝ} (h : leftTurn a b c ≠ 0) :
    leftTurn (mirror a) (mirror b) (mirror c) = 2 * Real.pi - leftTurn a b c := by
  obtain ⟨k, e⟩ := leftTurn_spec a b c
  obtain ⟨l, f⟩ := leftTurn_spec (mirror a) (mirror b) (mirror c)
  obtain ⟨m, hm⟩ := direction_mirror b c
  obtain ⟨n, hn⟩ := direction_mirror b a
  have h0 := leftTurn_nonneg a b c
  have h1 := leftTurn_lt a b c
  have hpos : 0 < leftTurn a b c := lt_of_le_of_ne h0 (Ne.symm h)
  refine turn_unique (k := l + k - 1 + m - n) (leftTurn_nonneg _ _ _) (leftTurn_lt _ _ _) (by linarith) (by linarith) ?_
  rw [f, e, hm, hn]; push_cast; ring

theorem mirror_plain (hp : PlainLines L) : PlainLines (moved mirror L) := by
  refine ⟨moved_nodup mirror_inj hp.1, fun x y z h1 h2 h3 => ?_⟩
  obtain ⟨p, q, rfl, rfl, j1⟩ := joined_of_moved h1
  obtain ⟨p', r, e, rfl, j2⟩ := joined_of_moved h2
  rw [← mirror_inj e] at j2
  by_contra hne
  have n0 : leftTurn q p r ≠ 0 := fun e => hne (by rw [hp.2 _ _ _ j1 j2 e])
  rw [leftTurn_mirror n0] at h3
  have := leftTurn_lt q p r
  linarith

/-- In the mirror image one goes the other way round. -/
theorem mirror_hardest (hp : PlainLines L) {a b c : ℝ × ℝ} (hj : Joined L a b) (h : HardestLeft L a b c) :
    HardestLeft (moved mirror L) (mirror c) (mirror b) (mirror a) := by
  obtain ⟨h1, h2, h3⟩ := h
  refine ⟨(joined_moved mirror_inj).2 hj.symm, mirror_inj.ne (Ne.symm h2), fun d hd hdc => ?_⟩
  obtain ⟨b', d, e, rfl, j⟩ := joined_of_moved hd
  rw [← mirror_inj e] at j
  have hdc' : d ≠ c := fun e => hdc (by rw [e])
  have n1 : leftTurn c b a ≠ 0 := fun e => h2 (hp.2 _ _ _ h1 hj.symm e)
  have n2 : leftTurn c b d ≠ 0 := fun e => hdc' (hp.2 _ _ _ h1 j e).symm
  rw [leftTurn_mirror n1, leftTurn_mirror n2]
  by_cases hda : d = a
  · rw [hda]
  have n3 : leftTurn a b c ≠ 0 := fun e => h2 (hp.2 _ _ _ hj.symm h1 e).symm
  have n4 : leftTurn d b c ≠ 0 := fun e => hdc' (hp.2 _ _ _ j h1 e)
  rw [leftTurn_back n3, leftTurn_back n4, leftTurn_add (h3 d j hda)]
  have := leftTurn_nonneg a b d
  linarith

theorem mirror_hardest_iff (hp : PlainLines L) {a b c : ℝ × ℝ} (hj : Joined L a b) (hj' : Joined L b c) :
    HardestLeft (moved mirror L) (mirror c) (mirror b) (mirror a) ↔ HardestLeft L a b c := by
  refine ⟨fun h => ?_, mirror_hardest hp hj⟩
  have := mirror_hardest (mirror_plain hp) ((joined_moved mirror_inj).2 hj'.symm) h
  simp only [mirror_mirror] at this
  have e : moved mirror (moved mirror L) = L := by
    unfold moved
    rw [List.map_map]
    conv_rhs => rw [← List.map_id L]
    refine List.map_congr_left fun x _ => ?_
    simp [mirror_mirror]
  rwa [e] at this

end Isotope
