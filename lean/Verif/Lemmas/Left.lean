import Verif.SpecLeft
import Verif.Props.RingsExact
import Mathlib.Analysis.SpecialFunctions.Trigonometric.Angle

/-!
# Left turns and angles
-/

namespace Isotope
open XR

theorem leftTurn_nonneg (a b c : ℝ × ℝ) : 0 ≤ leftTurn a b c := by
  have := toIcoMod_mem_Ico Real.two_pi_pos 0 (direction b c - direction b a)
  exact this.1

theorem leftTurn_lt (a b c : ℝ × ℝ) : leftTurn a b c < 2 * Real.pi := by
  have := toIcoMod_mem_Ico Real.two_pi_pos 0 (direction b c - direction b a)
  simpa [leftTurn] using this.2

theorem leftTurn_spec (a b c : ℝ × ℝ) : ∃ k : ℤ, leftTurn a b c = direction b c - direction b a + k * (2 * Real.pi) := by
  refine ⟨-toIcoDiv Real.two_pi_pos 0 (direction b c - direction b a), ?_⟩
  unfold leftTurn
  rw [toIcoMod, zsmul_eq_mul]; push_cast; ring

/-- two numbers in `[0, 2π)` that differ by a multiple of `2π` are equal -/
theorem turn_unique {x y : ℝ} {k : ℤ} (hx : 0 ≤ x) (hx' : x < 2 * Real.pi) (hy : 0 ≤ y) (hy' : y < 2 * Real.pi)
    (e : x = y + k * (2 * Real.pi)) : x = y := by
  have hp := Real.pi_pos
  have h1 : (k : ℝ) < 1 := by
    by_contra h; push Not at h; nlinarith
  have h2 : (-1 : ℝ) < k := by
    by_contra h; push Not at h; nlinarith
  have h1' : k < 1 := by exact_mod_cast h1
  have h2' : -1 < k := by exact_mod_cast h2
  have : k = 0 := by omega
  rw [e, this]; simp

theorem leftTurn_self (a b : ℝ × ℝ) : leftTurn a b a = 0 := by
  obtain ⟨k, e⟩ := leftTurn_spec a b a
  rw [sub_self] at e
  exact turn_unique (k := k) (leftTurn_nonneg _ _ _) (leftTurn_lt _ _ _) le_rfl Real.two_pi_pos e

/-- turning back -/
theorem leftTurn_back {a b c : ℝ × ℝ} (h : leftTurn a b c ≠ 0) : leftTurn c b a = 2 * Real.pi - leftTurn a b c := by
  obtain ⟨k, e⟩ := leftTurn_spec a b c
  obtain ⟨l, f⟩ := leftTurn_spec c b a
  have h0 := leftTurn_nonneg a b c
  have h1 := leftTurn_lt a b c
  have hpos : 0 < leftTurn a b c := lt_of_le_of_ne h0 (Ne.symm h)
  refine turn_unique (k := l + k - 1) (leftTurn_nonneg _ _ _) (leftTurn_lt _ _ _) (by linarith) (by linarith) ?_
  rw [e, f]; push_cast; ring

/-- turning in two steps -/
theorem leftTurn_add {a b c d : ℝ × ℝ} (h : leftTurn a b c ≤ leftTurn a b d) :
    leftTurn c b d = leftTurn a b d - leftTurn a b c := by
  obtain ⟨k, e⟩ := leftTurn_spec a b c
  obtain ⟨l, f⟩ := leftTurn_spec a b d
  obtain ⟨m, g⟩ := leftTurn_spec c b d
  have h0 := leftTurn_nonneg a b c
  have h1 := leftTurn_lt a b d
  refine turn_unique (k := m - l + k) (leftTurn_nonneg _ _ _) (leftTurn_lt _ _ _) (by linarith) (by linarith) ?_
  rw [e, f, g]; push_cast; ring

theorem direction_back {p q : ℝ × ℝ} (h : p ≠ q) : ∃ k : ℤ, direction p q + Real.pi = direction q p + k * (2 * Real.pi) := by
  have hn : (⟨q.1 - p.1, q.2 - p.2⟩ : ℂ) ≠ 0 := by
    intro e
    apply h
    have h1 := congrArg Complex.re e
    have h2 := congrArg Complex.im e
    simp at h1 h2
    exact Prod.ext (by linarith) (by linarith)
  have e := Complex.arg_neg_coe_angle hn
  have e2 : -(⟨q.1 - p.1, q.2 - p.2⟩ : ℂ) = ⟨p.1 - q.1, p.2 - q.2⟩ := by
    apply Complex.ext <;> simp
  rw [e2] at e
  have e3 : ((direction p q + Real.pi : ℝ) : Real.Angle) = (direction q p : ℝ) := by
    rw [Real.Angle.coe_add]; exact e.symm
  obtain ⟨k, hk⟩ := Real.Angle.angle_eq_iff_two_pi_dvd_sub.1 e3
  exact ⟨k, by linarith⟩

/-- The turning angle of the code is the left turn. -/
theorem turn_eq {h : Heap XR} {i j k l : Nat} {a b c : ℝ × ℝ} (h1 : EndsAt h (.line i j) (a, b))
    (h2 : EndsAt h (.line k l) (b, c)) (hab : a ≠ b) (ht : leftTurn a b c ≠ 0) :
    turn h (.line i j) (.line k l) = fin (leftTurn a b c) := by
  have hp := Real.pi_pos
  have e1 : (Segment.line i j : Segment XR).endAngle h = fin (direction a b) := by
    obtain ⟨p, q⟩ := h1
    simp only [Segment.getStart, Segment.getEnd] at p q
    simp only [Segment.endAngle, Segment.startAngle, p, q, sub_fin, atan2_fin]
    rfl
  have e2 : (Segment.line k l : Segment XR).startAngle h = fin (direction b c) := by
    obtain ⟨p, q⟩ := h2
    simp only [Segment.getStart, Segment.getEnd] at p q
    simp only [Segment.startAngle, p, q, sub_fin, atan2_fin]
    rfl
  obtain ⟨⟨r, hr, r1, r2, m, hm⟩, -⟩ := C42_in_range (direction a b) 0 0
  have q1 := Complex.neg_pi_lt_arg ⟨c.1 - b.1, c.2 - b.2⟩
  have q2 := Complex.arg_le_pi ⟨c.1 - b.1, c.2 - b.2⟩
  obtain ⟨d, n, hd, d1, d2, hn⟩ := C42_angle_difference r (direction b c) r1 r2 (by unfold direction; linarith)
    (by unfold direction; linarith)
  unfold turn
  rw [e1, e2, hr, hd]
  congr 1
  obtain ⟨u, hu⟩ := direction_back hab
  obtain ⟨v, hv⟩ := leftTurn_spec a b c
  have key : d = leftTurn a b c + ((n - m - u - v : ℤ) : ℝ) * (2 * Real.pi) := by
    rw [hv, hn, hm, hu]; push_cast; ring
  by_cases hd2 : d = 2 * Real.pi
  · exfalso
    apply ht
    refine turn_unique (k := 1 - (n - m - u - v)) (leftTurn_nonneg _ _ _) (leftTurn_lt _ _ _) le_rfl Real.two_pi_pos ?_
    rw [hd2] at key
    push_cast at key ⊢; linarith
  · exact turn_unique d1 (lt_of_le_of_ne d2 hd2) (leftTurn_nonneg _ _ _) (leftTurn_lt _ _ _) key

/-! ## The hardest left turn is determined by, and determines, the line before it -/

theorem Joined.symm {L : List ((ℝ × ℝ) × (ℝ × ℝ))} {p q : ℝ × ℝ} (h : Joined L p q) : Joined L q p := Or.symm h

theorem joined_mem {L : List ((ℝ × ℝ) × (ℝ × ℝ))} {p q : ℝ × ℝ} : Joined L p q ↔ (p, q) ∈ L ++ L.map Prod.swap := by
  unfold Joined
  rw [List.mem_append, List.mem_map]
  constructor
  · rintro (h | h)
    · exact .inl h
    · exact .inr ⟨_, h, rfl⟩
  · rintro (h | ⟨⟨a, b⟩, h, e⟩)
    · exact .inl h
    · cases e; exact .inr h

theorem Joined.ne {L : List ((ℝ × ℝ) × (ℝ × ℝ))} (hL : PlainLines L) {p q : ℝ × ℝ} (h : Joined L p q) : p ≠ q := by
  rintro rfl
  have hm : (p, p) ∈ L := by rcases h with h | h <;> exact h
  have := (List.nodup_append.1 hL.1).2.2 (p, p) hm (p, p) (List.mem_map.2 ⟨_, hm, rfl⟩)
  exact this rfl

theorem HardestLeft.unique {L : List ((ℝ × ℝ) × (ℝ × ℝ))} (hL : PlainLines L) {a b c d : ℝ × ℝ}
    (h1 : HardestLeft L a b c) (h2 : HardestLeft L a b d) : c = d := by
  have e : leftTurn a b c = leftTurn a b d := le_antisymm (h2.2.2 c h1.1 h1.2.1) (h1.2.2 d h2.1 h2.2.1)
  have := leftTurn_add (a := a) (b := b) (c := c) (d := d) e.le
  rw [e, sub_self] at this
  exact hL.2 c b d h1.1 h2.1 this

theorem HardestLeft.inj {L : List ((ℝ × ℝ) × (ℝ × ℝ))} (hL : PlainLines L) {a a' b c : ℝ × ℝ} (ha : Joined L a b)
    (ha' : Joined L a' b) (h1 : HardestLeft L a b c) (h2 : HardestLeft L a' b c) : a = a' := by
  by_contra hne
  have l1 := h1.2.2 a' ha'.symm (Ne.symm hne)
  have l2 := h2.2.2 a ha.symm hne
  have n0 : leftTurn a b a' ≠ 0 := fun e => hne (hL.2 _ _ _ ha.symm ha'.symm e)
  rw [leftTurn_back n0, leftTurn_add l1] at l2
  have := leftTurn_lt a b c
  linarith

theorem exists_hardest {L : List ((ℝ × ℝ) × (ℝ × ℝ))} {a b d : ℝ × ℝ} (h : Joined L b d) (hd : d ≠ a) :
    ∃ c, HardestLeft L a b c := by
  classical
  let S : Finset (ℝ × ℝ) := (((L ++ L.map Prod.swap).map Prod.snd).toFinset).filter (fun x => Joined L b x ∧ x ≠ a)
  have hS : ∀ x, x ∈ S ↔ Joined L b x ∧ x ≠ a := by
    intro x
    rw [Finset.mem_filter]
    refine ⟨fun h => h.2, fun h => ⟨?_, h⟩⟩
    rw [List.mem_toFinset, List.mem_map]
    exact ⟨(b, x), joined_mem.1 h.1, rfl⟩
  obtain ⟨c, hc, hm⟩ := S.exists_max_image (leftTurn a b) ⟨d, (hS d).2 ⟨h, hd⟩⟩
  exact ⟨c, ((hS c).1 hc).1, ((hS c).1 hc).2, fun e he hne => hm e ((hS e).2 ⟨he, hne⟩)⟩

end Isotope
