import Verif.Lemmas.FloatTurn
import Verif.Lemmas.FloatGrad
import Verif.Lemmas.RingSim

/-!
# Rings in binary64 and in exact arithmetic: the walk
-/

namespace Isotope
open Round Val XR

variable {lm : Libm} {h : Heap (B64 lm)} {s : Sketch}

theorem eq_exact (x y : B64 lm) : (x.exact ==. y.exact) = (x ==. y) := by
  show XR.eq x.exact y.exact = x.v.eq y.v
  unfold B64.exact
  rcases hx : x.v with _ | a | ⟨a, m⟩ <;> rcases hy : y.v with _ | b | ⟨b, n⟩
  case num.num => simp [XR.eq, Val.eq, Val.isNan, Val.ext]
  all_goals (try cases a) <;> (try cases b) <;> simp [XR.eq, Val.eq, Val.isNan, Val.ext, -EReal.coe_neg, sgn]

theorem vec_exact (v w : Vec2 (B64 lm)) : v.exact.beq w.exact = v.beq w := by
  unfold Vec2.beq Vec2.exact
  rw [eq_exact, eq_exact]

theorem pt_exact (h : Heap (B64 lm)) (a b : Nat) : (h.exact.points a).beq (h.exact.points b) = (h.points a).beq (h.points b) := by
  unfold Point2.beq
  show ((h.points a).data.exact.beq (h.points b).data.exact && (h.points a).grad.exact.beq (h.points b).grad.exact) = _
  rw [vec_exact, vec_exact]

/-- a segment of a draft and its way back -/
theorem draft_get {M : ℝ} {L : List ((ℝ × ℝ) × (ℝ × ℝ))} (hd : DraftLines h s M L) {i : Nat} {sg : Segment (B64 lm)}
    (hi : (allSegments h s)[i]? = some sg) :
    ∃ a b e, sg = .line a b ∧ (L ++ L.map Prod.swap)[i]? = some e ∧ At h a e.1.1 e.1.2 ∧ At h b e.2.1 e.2.2 ∧
      (|e.1.1| ≤ M ∧ |e.1.2| ≤ M ∧ |e.2.1| ≤ M ∧ |e.2.2| ≤ M) ∧
      ∃ j, i ≠ j ∧ (allSegments h s)[j]? = some (.line b a) ∧ (L ++ L.map Prod.swap)[j]? = some (e.2, e.1) ∧
        (Segment.line b a : Segment (B64 lm)).beq h (.line b a) = true := by
  obtain ⟨hf, hM⟩ := hd
  rw [← initSegments_eq] at hf
  have hlen : (initSegments h s).length = L.length := hf.length_eq
  have get : ∀ (k : Nat) d, (initSegments h s)[k]? = some d → ∃ e, L[k]? = some e ∧ (∃ a b, d = Segment.line a b ∧ At h a e.1.1 e.1.2 ∧ At h b e.2.1 e.2.2) ∧
      WayBack h d := by
    intro k d hk
    obtain ⟨hk1, hk2⟩ := List.getElem?_eq_some_iff.1 hk
    have hk3 : k < L.length := hlen ▸ hk1
    refine ⟨L[k], List.getElem?_eq_getElem hk3, ?_⟩
    have := (List.forall₂_iff_get.1 hf).2 k hk1 hk3
    rw [← hk2]; exact this
  unfold allSegments at hi ⊢
  by_cases hlt : i < (initSegments h s).length
  · rw [List.getElem?_append_left hlt] at hi
    obtain ⟨e, he, ⟨a, b, rfl, ha, hb⟩, hw⟩ := get i _ hi
    refine ⟨a, b, e, rfl, by rw [List.getElem?_append_left (by omega)]; exact he, ha, hb, hM e (List.mem_of_getElem? he), L.length + i, by omega, ?_, ?_, hw.1⟩
    · rw [List.getElem?_append_right (by omega), List.getElem?_map, show L.length + i - (initSegments h s).length = i by omega, hi]; rfl
    · rw [List.getElem?_append_right (by omega), List.getElem?_map, show L.length + i - L.length = i by omega, he]; rfl
  · rw [List.getElem?_append_right (by omega), List.getElem?_map] at hi
    obtain ⟨d, hd, rfl⟩ := Option.map_eq_some_iff.1 hi
    obtain ⟨e, he, ⟨a, b, rfl, ha, hb⟩, hw⟩ := get _ _ hd
    have hM' := hM e (List.mem_of_getElem? he)
    obtain ⟨hk1, -⟩ := List.getElem?_eq_some_iff.1 hd
    refine ⟨b, a, (e.2, e.1), rfl, ?_, hb, ha, ⟨hM'.2.2.1, hM'.2.2.2, hM'.1, hM'.2.1⟩, i - (initSegments h s).length, by omega, ?_, ?_, hw.2⟩
    · rw [List.getElem?_append_right (by omega), List.getElem?_map, ← hlen, he]; rfl
    · rw [List.getElem?_append_left hk1, hd]
    · rw [List.getElem?_append_left (hlen ▸ hk1), he]

theorem spread_ne {ε : ℝ} (hε : 0 < ε) {a b c : ℝ × ℝ} (hs : Spread ε a b c) : leftTurn a b c ≠ 0 := by
  intro e
  obtain ⟨k, hk⟩ := leftTurn_spec a b c
  have := hs k
  rw [show direction b a - direction b c - k * (2 * Real.pi) = -leftTurn a b c by rw [hk]; ring, e, neg_zero, abs_zero] at this
  linarith

/-- the computed turn is close to the exact one -/
theorem turn_near {κ ε δ : ℝ} (hl : lm.AtanAccurate κ) (hκ : 0 ≤ κ) (hκ1 : κ ≤ 1 / 4) {a b b' c : Nat} {p q r : ℝ × ℝ}
    (ha : At h a p.1 p.2) (hb : At h b q.1 q.2) (hb' : At h b' q.1 q.2) (hc : At h c r.1 r.2)
    (bp : |p.1| ≤ 2 ^ (100 : ℤ) ∧ |p.2| ≤ 2 ^ (100 : ℤ)) (bq : |q.1| ≤ 2 ^ (100 : ℤ) ∧ |q.2| ≤ 2 ^ (100 : ℤ))
    (br : |r.1| ≤ 2 ^ (100 : ℤ) ∧ |r.2| ≤ 2 ^ (100 : ℤ)) (hpq : p ≠ q) (hqr : q ≠ r) (hδ : 2 * κ + 406 * ulp ≤ δ) (hδε : 2 * δ < ε) (hε : ε ≤ 1)
    (hs : Spread ε p q r) :
    ∃ d, (turn h (.line a b) (.line b' c)).Is d ∧ |d - leftTurn p q r| ≤ δ := by
  obtain ⟨θ, i1, l1, c1⟩ := startAngle_near hl ha hb bp bq hpq
  obtain ⟨φ, i2, l2, c2⟩ := startAngle_near hl hb' hc bq br hqr
  obtain ⟨d, i, lo, hi, c⟩ := angle_near i1 i2 hκ hκ1 l1 l2
  refine ⟨d, i, ?_⟩
  have hu := ulp_pos
  have hp := Real.pi_gt_three
  obtain ⟨m, hm⟩ := direction_back hpq
  obtain ⟨n, hn⟩ := leftTurn_spec p q r
  have c3 : Cong δ d (leftTurn p q r) := by
    obtain ⟨k, hk⟩ := c.trans (c2.sub (c1.add_const Real.pi))
    refine ⟨k - m - n, ?_⟩
    have e : d - leftTurn p q r - ((k - m - n : ℤ) : ℝ) * (2 * Real.pi) = d - (direction q r - (direction p q + Real.pi)) - k * (2 * Real.pi) := by
      rw [hn, hm]; push_cast; ring
    rw [e]
    refine hk.trans (le_trans (le_of_eq ?_) hδ)
    ring
  have low : ε ≤ leftTurn p q r := by
    have := hs n
    rw [show direction q p - direction q r - n * (2 * Real.pi) = -leftTurn p q r by rw [hn]; ring, abs_neg, abs_of_nonneg (leftTurn_nonneg _ _ _)] at this
    exact this
  have high : leftTurn p q r ≤ 2 * Real.pi - ε := by
    have := hs (n - 1)
    have hlt := leftTurn_lt p q r
    rw [show direction q p - direction q r - ((n - 1 : ℤ) : ℝ) * (2 * Real.pi) = 2 * Real.pi - leftTurn p q r by rw [hn]; push_cast; ring,
      abs_of_pos (by linarith)] at this
    linarith
  obtain ⟨k, hk⟩ := c3
  have hk' := abs_le.1 hk
  have k0 : k = 0 := by
    by_contra hne
    rcases lt_or_gt_of_ne hne with h1 | h1
    · have : (k : ℝ) ≤ -1 := by exact_mod_cast (by omega : k ≤ -1)
      have : (k : ℝ) * (2 * Real.pi) ≤ -1 * (2 * Real.pi) := by nlinarith
      linarith
    · have : (1 : ℝ) ≤ k := by exact_mod_cast (by omega : 1 ≤ k)
      have : 1 * (2 * Real.pi) ≤ (k : ℝ) * (2 * Real.pi) := by nlinarith
      linarith
  rw [k0] at hk
  simpa using hk

/-- all comparisons of the walk come out as in exact arithmetic -/
theorem same_walk {κ ε : ℝ} {L : List ((ℝ × ℝ) × (ℝ × ℝ))} (hl : lm.AtanAccurate κ) (hκ : 0 ≤ κ) (hε : 4 * κ + 2000 * ulp ≤ ε) (hε1 : ε ≤ 1)
    (hd : DraftLines h s (2 ^ (100 : ℤ)) L) (hs : SpreadLines ε L) : SameWalk h h.exact Segment.exact (allSegments h s) := by
  have hu := ulp_pos
  have hε0 : 0 < ε := by linarith
  have line : ∀ sg ∈ allSegments h s, ∃ a b, sg = .line a b := by
    intro sg hsg
    obtain ⟨i, hi⟩ := List.mem_iff_getElem?.1 hsg
    obtain ⟨a, b, e, rfl, -⟩ := draft_get hd hi
    exact ⟨a, b, rfl⟩
  constructor
  · intro x hx y hy
    obtain ⟨a, b, rfl⟩ := line x hx
    obtain ⟨c, d, rfl⟩ := line y hy
    exact vec_exact _ _
  · intro x hx y hy
    obtain ⟨a, b, rfl⟩ := line x hx
    obtain ⟨c, d, rfl⟩ := line y hy
    simp only [Segment.exact, Segment.equalsOrReverseEquals, Segment.reverseEquals, Segment.beq, Segment.reverse, pt_exact]
  · intro cur hcur i j x y hij hx hy
    obtain ⟨i0, hi0⟩ := List.mem_iff_getElem?.1 hcur
    obtain ⟨a, b, e, rfl, hE, ha, hb, hM, w, hw0, hw1, hw2, hw3⟩ := draft_get hd hi0
    obtain ⟨p, q⟩ := e
    -- a candidate
    have cand : ∀ (i : Nat) x, MayFollow h (allSegments h s) (.line a b) [] i x → ∃ b' c r, x = .line b' c ∧ (L ++ L.map Prod.swap)[i]? = some (q, r) ∧
        At h b' q.1 q.2 ∧ At h c r.1 r.2 ∧ (|r.1| ≤ 2 ^ (100 : ℤ) ∧ |r.2| ≤ 2 ^ (100 : ℤ)) ∧ q ≠ r ∧ Spread ε p q r := by
      intro i x ⟨m1, _, m2, _, m3⟩
      obtain ⟨b', c, ⟨q', r⟩, rfl, hE', hb', hc', hM', w', hw0', _, hw2', _⟩ := draft_get hd m1
      have hq : q' = q := by
        simp only [Segment.getEnd, Segment.getStart, Vec2.beq, Bool.and_eq_true] at m2
        exact Prod.ext ((hb.1.eq_iff hb'.1).1 m2.1).symm ((hb.2.eq_iff hb'.2).1 m2.2).symm
      subst hq
      have hne : w ≠ i := by
        rintro rfl
        rw [hw1] at m1
        injection m1 with m1
        rw [← m1] at m3
        rw [show (Segment.line a b : Segment (B64 lm)).reverse = .line b a from rfl, hw3] at m3
        exact Bool.noConfusion m3
      refine ⟨b', c, r, rfl, hE', hb', hc', hM'.2.2, ?_, hs w i q' p r hne hw2 hE'⟩
      rintro rfl
      have := hs i w' q' q' q' hw0' hE' hw2' 0
      simp at this
      linarith
    have hpq : p ≠ q := by
      rintro rfl
      have := hs i0 w p p p hw0 hE hw2 0
      simp at this
      linarith
    obtain ⟨b1, c1, r1, rfl, hE1, hb1, hc1, hM1, hne1, hs1⟩ := cand i x hx
    obtain ⟨b2, c2, r2, rfl, hE2, hb2, hc2, hM2, hne2, hs2⟩ := cand j y hy
    have bp : |p.1| ≤ 2 ^ (100 : ℤ) ∧ |p.2| ≤ 2 ^ (100 : ℤ) := ⟨hM.1, hM.2.1⟩
    have hκ1 : κ ≤ 1 / 4 := by linarith
    obtain ⟨d1, n1, g1⟩ := turn_near (δ := 2 * κ + 406 * ulp) hl hκ hκ1 ha hb hb1 hc1 bp hM.2.2 hM1 hpq hne1 le_rfl (by linarith) hε1 hs1
    obtain ⟨d2, n2, g2⟩ := turn_near (δ := 2 * κ + 406 * ulp) hl hκ hκ1 ha hb hb2 hc2 bp hM.2.2 hM2 hpq hne2 le_rfl (by linarith) hε1 hs2
    have ends : ∀ {u v : Nat} {e : (ℝ × ℝ) × (ℝ × ℝ)}, At h u e.1.1 e.1.2 → At h v e.2.1 e.2.2 → EndsAt h.exact (.line u v) e := by
      intro u v e h1 h2
      constructor
      · show (h.points u).data.exact = _
        unfold Vec2.exact
        rw [h1.1.exact, h1.2.exact]
      · show (h.points v).data.exact = _
        unfold Vec2.exact
        rw [h2.1.exact, h2.2.exact]
    have t1 := turn_eq (a := p) (b := q) (c := r1) (ends ha hb) (ends hb1 hc1) hpq (spread_ne hε0 hs1)
    have t2 := turn_eq (a := p) (b := q) (c := r2) (ends ha hb) (ends hb2 hc2) hpq (spread_ne hε0 hs2)
    -- they differ by more than the errors
    have far : ε ≤ |leftTurn p q r1 - leftTurn p q r2| := by
      obtain ⟨k, hk⟩ := leftTurn_spec p q r1
      obtain ⟨l, hl⟩ := leftTurn_spec p q r2
      have := hs i j q r1 r2 hij hE1 hE2 (l - k)
      rw [show direction q r1 - direction q r2 - ((l - k : ℤ) : ℝ) * (2 * Real.pi) = leftTurn p q r1 - leftTurn p q r2 by
        rw [hk, hl]; push_cast; ring] at this
      exact this
    show gt (turn h.exact (.line a b) (.line b1 c1)) (turn h.exact (.line a b) (.line b2 c2)) = _
    rw [t1, t2]
    rw [Bool.eq_iff_iff]
    have g1' := abs_le.1 g1
    have g2' := abs_le.1 g2
    constructor
    · intro hg
      have hg : leftTurn p q r2 < leftTurn p q r1 := by simpa [gt] using hg
      refine (n2.lt_iff n1).2 ?_
      rw [abs_of_pos (by linarith)] at far
      linarith
    · intro hg
      have hg : d2 < d1 := (n2.lt_iff n1).1 hg
      have : leftTurn p q r2 < leftTurn p q r1 := by
        by_contra hcon
        push Not at hcon
        rw [abs_of_nonpos (by linarith)] at far
        linarith
      simpa [gt] using this

end Isotope
