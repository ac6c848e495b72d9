import Verif.Props.Stairs
import Verif.Lemmas.FloatMet

/-!
# The stairs benchmark in binary64: from the computed loss to the places of the points
-/

namespace Isotope
open Round Val

variable {lm : Libm}

/-! ## A computed sum of losses -/

theorem rs_add_back {r t : ℝ} (hr : Rep |r|) (ht : Rep |t|) (r0 : 0 ≤ r) (t0 : 0 ≤ t) : r + t ≤ (1 + 2 * ulp) * rs (r + t) := by
  have h1 := rs_add_err hr ht
  rw [abs_of_nonneg (add_nonneg r0 t0)] at h1
  have h2 := (abs_le.1 h1).1
  have h3 := add_nonneg r0 t0
  rw [ulp_eq] at *
  nlinarith

theorem fold_sum (h : Heap (B64 lm)) : ∀ (l : List Nat) (a : B64 lm), Plus a.v →
    Num.isFinite (l.foldl (fun loss c => loss + lossValue h (h.cons c)) a) = true →
    ∃ V α, (l.foldl (fun loss c => loss + lossValue h (h.cons c)) a).Is V ∧ a.Is α ∧
      ∀ f : Nat → ℝ, (∀ k ∈ l, (lossValue h (h.cons k)).Is (f k)) → α + (l.map f).sum ≤ (1 + 2 * ulp) ^ l.length * V := by
  intro l
  induction l with
  | nil =>
    intro a _ hf
    obtain ⟨r, hr⟩ := B64.is_of_finite hf
    exact ⟨r, r, hr, hr, by simp⟩
  | cons k l ih =>
    intro a ha hf
    obtain ⟨V, β, h1, h2, h3⟩ := ih _ (ha.add (plus_loss h (h.cons k))) hf
    obtain ⟨r, t, hr, ht, hs⟩ := B64.add_fin h2.isFinite
    have e := h2.unique hs
    have r0 := ha.nonneg hr
    have t0 := (plus_loss h (h.cons k)).nonneg ht
    have b := rs_add_back hr.rep ht.rep r0 t0
    refine ⟨V, r, h1, hr, ?_⟩
    intro f hf
    have et : f k = t := (hf k (by simp)).unique ht
    have S := h3 f fun j hj => hf j (by simp [hj])
    have S0 : 0 ≤ (l.map f).sum := by
      apply List.sum_nonneg
      intro x hx
      obtain ⟨j, hj, rfl⟩ := List.mem_map.1 hx
      exact (plus_loss h (h.cons j)).nonneg (hf j (by simp [hj]))
    rw [List.map_cons, List.sum_cons, et, List.length_cons, pow_succ]
    rw [← e] at b
    have u0 := ulp_pos
    nlinarith

/-- the losses of the constraints of a sketch, and their sum -/
theorem loss_sum {h : Heap (B64 lm)} {s : Sketch} {L : ℝ} (hL : (getLoss h s).Is L) :
    ∃ f : Nat → ℝ, (∀ k, 0 ≤ f k) ∧ (∀ k ∈ s.cons, (lossValue h (h.cons k)).Is (f k)) ∧
      (s.cons.map f).sum ≤ (1 + 2 * ulp) ^ s.cons.length * L := by
  obtain ⟨V, α, h1, h2, -, h4⟩ := fold_each h s.cons _ (plus_lit _ _ _) hL.isFinite
  obtain ⟨V', α', h1', h2', h5⟩ := fold_sum h s.cons _ (plus_lit _ _ _) hL.isFinite
  have : ∀ k, ∃ t : ℝ, 0 ≤ t ∧ (k ∈ s.cons → (lossValue h (h.cons k)).Is t) := by
    intro k
    by_cases hk : k ∈ s.cons
    · obtain ⟨t, ht, -⟩ := h4 k hk
      exact ⟨t, (plus_loss h (h.cons k)).nonneg ht, fun _ => ht⟩
    · exact ⟨0, le_rfl, fun h => absurd h hk⟩
  choose f f0 f1 using this
  refine ⟨f, f0, f1, ?_⟩
  have := h5 f f1
  have e1 : V' = L := h1'.unique hL
  have e2 : α' = 0 := h2'.unique B64.is_zero
  rw [e1, e2] at this
  linarith

/-- a total is never negative -/
theorem plus_total (h : Heap (B64 lm)) (s : Sketch) : Plus (getLoss h s).v := by
  have : ∀ (l : List Nat) (a : B64 lm), Plus a.v → Plus (l.foldl (fun loss c => loss + lossValue h (h.cons c)) a).v := by
    intro l
    induction l with
    | nil => intro a ha; exact ha
    | cons k l ih => intro a ha; exact ih _ (ha.add (plus_loss h _))
  exact this _ _ (plus_lit _ _ _)

theorem Plus.fin_le {x y : B64 lm} {m : ℝ} (hx : Plus x.v) (hy : y.Is m) (h : (x <=. y) = true) : ∃ r, x.Is r ∧ r ≤ m := by
  have h' := h
  rw [B64.le_iff, hy.ext] at h'
  obtain ⟨h1, -, h3⟩ := h'
  obtain ⟨v⟩ := x
  cases v with
  | nan => cases h1
  | inf a =>
    rcases hx with hx | hx
    · cases hx
    · simp only [isNeg] at hx
      subst hx
      simp [Val.ext] at h3
  | num a q =>
    have hi : (⟨num a q⟩ : B64 lm).Is (sgn a q.1) := ⟨a, q, rfl, rfl⟩
    exact ⟨_, hi, (hi.le_iff hy).1 h⟩

/-! ## The numbers of the benchmark -/

theorem is_step : (0.8 : B64 lm).Is (rs 0.8) := by
  have := B64.Is.lit (lm := lm) 8 true 1 (abs_rs_lt_top (k := 0) (by norm_num) (by norm_num) (by norm_num)) (by norm_num)
  norm_num at this ⊢
  exact this

theorem step_near : |rs 0.8 - 0.8| ≤ ulp := by
  have := rs_err (z := 0.8) (by
    refine (two_le (show (-1022 : ℤ) ≤ -1 by norm_num)).trans ?_
    norm_num)
  rw [abs_of_nonneg (show (0 : ℝ) ≤ 0.8 by norm_num)] at this
  rw [ulp_eq] at *
  linarith

theorem is_nat {k : Nat} (hk : k < 2 ^ 53) : (Num.ofNat k : B64 lm).Is k := by
  have hr : Rep |(k : ℝ)| := by
    rw [abs_of_nonneg (Nat.cast_nonneg k)]
    exact ⟨k, 0, hk, by norm_num, by norm_num, by simp⟩
  have := B64.Is.pack (x := (Num.ofNat k : B64 lm)) (a := false) (z := (k : ℝ)) (by rw [rs_rep hr]; exact hr.lt_top)
    (.inl (by simp)) rfl
  rwa [rs_rep hr] at this

/-- multiples of the computed 0.8, computed -/
theorem mult_near {k : Nat} (hk : k ≤ 2 ^ 20) : |rs ((k : ℝ) * rs 0.8) - k * 0.8| ≤ 2 * k * ulp ∧
    ((Num.ofNat k : B64 lm) * 0.8).Is (rs ((k : ℝ) * rs 0.8)) := by
  have s := step_near
  have k0 : (0 : ℝ) ≤ k := Nat.cast_nonneg k
  have k1 : (k : ℝ) ≤ 2 ^ 20 := by exact_mod_cast hk
  obtain ⟨s1, s2⟩ := abs_le.1 s
  have u : ulp ≤ 1 / 100 := by rw [ulp_eq]; norm_num
  have b0 : (0 : ℝ) ≤ k * rs 0.8 := mul_nonneg k0 (by linarith)
  have b1 : (k : ℝ) * rs 0.8 ≤ k * 0.81 := mul_le_mul_of_nonneg_left (by linarith) k0
  constructor
  · rcases Nat.eq_zero_or_pos k with rfl | hk0
    · simp [rs_zero]
    · have k2 : (1 : ℝ) ≤ k := by exact_mod_cast hk0
      have e := rs_err (z := (k : ℝ) * rs 0.8) (by
        rw [abs_of_nonneg b0]
        refine (two_le (show (-1022 : ℤ) ≤ -1 by norm_num)).trans ?_
        have : (1 : ℝ) * rs 0.8 ≤ k * rs 0.8 := mul_le_mul_of_nonneg_right k2 (by linarith)
        norm_num at this ⊢
        linarith)
      rw [abs_of_nonneg b0] at e
      have e2 : |(k : ℝ) * rs 0.8 - k * 0.8| ≤ k * ulp := by
        rw [← mul_sub, abs_mul, abs_of_nonneg k0]
        exact mul_le_mul_of_nonneg_left s k0
      have e3 : ulp * (k * rs 0.8) ≤ ulp * (k * 0.81) := mul_le_mul_of_nonneg_left b1 ulp_pos.le
      have e4 := abs_sub_le (rs ((k : ℝ) * rs 0.8)) (k * rs 0.8) (k * 0.8)
      have : 0 ≤ ulp * k := mul_nonneg ulp_pos.le k0
      linarith
  · refine (is_nat (lt_of_le_of_lt hk (by norm_num))).mul is_step ?_
    refine abs_rs_lt_top (k := 20) (by norm_num) (by norm_num) ?_
    rw [abs_of_nonneg b0]
    have : (2 : ℝ) ^ (20 : ℤ) = 2 ^ 20 := by norm_num
    rw [this]
    linarith

/-! ## The places of the points -/

theorem stairs_cons_any {F : Type} [Num F] (n m k : Nat) (j : Nat) (hj : j < k) :
    (stairsWorld n m k : World F).heap.cons j = stairsCons j := by
  simp [stairsWorld, layout, hj]

/-- an error that includes the rounding of the difference -/
theorem step_back {e D τ : ℝ} (hD : |D| ≤ 0.81) (t0 : 0 ≤ τ) (h : |e - D| ≤ (1 + 2 ^ (-50 : ℤ)) * τ + 2 ^ (-53 : ℤ) * |e|) :
    |e - D| ≤ (1 + 2 ^ (-49 : ℤ)) * τ + ulp := by
  have h1 : |e| ≤ |e - D| + |D| := by
    have := abs_add_le (e - D) D
    simpa using this
  rw [ulp_eq]
  norm_num at h ⊢
  linarith

/-- the growth of the error in one step -/
theorem place_next {a b A A' m m' S ν : ℝ} {i : ℕ} (ha : |a| ≤ A + ν * i) (hA : A ^ 2 ≤ 2 * (i + 1) * S)
    (hb : |b| ≤ A' + ν) (hA' : A' ^ 2 ≤ 2 * m) (hm : 0 ≤ m') :
    ∃ Z, |a + b| ≤ Z + ν * (i + 1 : ℕ) ∧ Z ^ 2 ≤ 2 * ((i + 1 : ℕ) + 1) * (S + (m + m')) := by
  refine ⟨A + A', ?_, ?_⟩
  · push_cast
    have := abs_add_le a b
    linarith
  · exact step_error hA (hA'.trans (by linarith))

theorem place_bound {n : Nat} {h : Heap (B64 lm)}
    (hr : SameRefs (stairsWorld n (n - 1) (2 * (n - 1) + 1) : World (B64 lm)).heap h) {f : ℕ → ℝ} (f0 : ∀ i, 0 ≤ f i)
    (hf : ∀ j < 2 * (n - 1) + 1, (lossValue h (stairsCons j)).Is (f j)) (i : Nat) (hi : i < n) :
    ∃ x y A B : ℝ, At h i x y ∧ |x - stairX i| ≤ A + 2 * ulp * i ∧ |y - stairY i| ≤ B + 2 * ulp * i ∧
      A ^ 2 ≤ 2 * (i + 1) * ∑ j ∈ Finset.range (2 * i + 1), (1 + 2 ^ (-49 : ℤ)) ^ 2 * (f j + 2 ^ (-600 : ℤ)) ∧
      B ^ 2 ≤ 2 * (i + 1) * ∑ j ∈ Finset.range (2 * i + 1), (1 + 2 ^ (-49 : ℤ)) ^ 2 * (f j + 2 ^ (-600 : ℤ)) := by
  -- the bounds of single errors
  have tiny : (0 : ℝ) < 2 ^ (-600 : ℤ) := by positivity
  have big : ∀ j, (2 : ℝ) ^ (-600 : ℤ) ≤ f j + 2 ^ (-600 : ℤ) := fun j => by linarith [f0 j]
  have le : ∀ j, f j ≤ f j + 2 ^ (-600 : ℤ) := fun j => by linarith
  have ub : ∀ {j : Nat} {r w D : ℝ}, |D| ≤ 0.81 → |D - 0.8| ≤ ulp →
      |r - w - D| ≤ (1 + 2 ^ (-50 : ℤ)) * √(2 * (f j + 2 ^ (-600 : ℤ))) + 2 ^ (-53 : ℤ) * |r - w| →
      |r - w - 0.8| ≤ (1 + 2 ^ (-49 : ℤ)) * √(2 * (f j + 2 ^ (-600 : ℤ))) + 2 * ulp := by
    intro j r w D hD hD' hh
    have h1 := step_back hD (Real.sqrt_nonneg _) hh
    have h2 := abs_add_le (r - w - D) (D - 0.8)
    rw [show r - w - D + (D - 0.8) = r - w - 0.8 by ring] at h2
    exact (h2.trans (add_le_add h1 hD')).trans_eq (by rw [add_assoc, ← two_mul])
  have fb : ∀ {j : Nat} {r w : ℝ}, |r - w| ≤ (1 + 2 ^ (-50 : ℤ)) * √(2 * (f j + 2 ^ (-600 : ℤ))) →
      |r - w| ≤ (1 + 2 ^ (-49 : ℤ)) * √(2 * (f j + 2 ^ (-600 : ℤ))) := by
    intro j r w hh
    refine hh.trans (mul_le_mul_of_nonneg_right ?_ (Real.sqrt_nonneg _))
    norm_num
  have sqr : ∀ j, ((1 + 2 ^ (-49 : ℤ)) * √(2 * (f j + 2 ^ (-600 : ℤ)))) ^ 2 =
      2 * ((1 + 2 ^ (-49 : ℤ)) ^ 2 * (f j + 2 ^ (-600 : ℤ))) := by
    intro j
    rw [mul_pow, Real.sq_sqrt (by linarith [f0 j])]
    ring
  have pos : ∀ j, 0 ≤ (1 + 2 ^ (-49 : ℤ)) ^ 2 * (f j + 2 ^ (-600 : ℤ)) := fun j => mul_nonneg (by positivity) (by linarith [f0 j])
  obtain ⟨d1, d2⟩ : |rs 0.8| ≤ 0.81 ∧ |rs 0.8 - 0.8| ≤ ulp := by
    have := step_near
    refine ⟨?_, this⟩
    have h2 := abs_add_le (rs 0.8 - 0.8) 0.8
    rw [show rs 0.8 - 0.8 + 0.8 = rs 0.8 by ring, abs_of_nonneg (show (0 : ℝ) ≤ 0.8 by norm_num)] at h2
    have u : ulp ≤ 1 / 100 := by rw [ulp_eq]; norm_num
    linarith
  generalize hM : (fun j => (1 + 2 ^ (-49 : ℤ)) ^ 2 * (f j + 2 ^ (-600 : ℤ)) : ℕ → ℝ) = m
  have em : ∀ j, (1 + 2 ^ (-49 : ℤ)) ^ 2 * (f j + 2 ^ (-600 : ℤ)) = m j := fun j => congrFun hM j
  simp only [em] at sqr pos
  generalize hT : (fun j => (1 + 2 ^ (-49 : ℤ)) * √(2 * (f j + 2 ^ (-600 : ℤ))) : ℕ → ℝ) = T
  have eT : ∀ j, (1 + 2 ^ (-49 : ℤ)) * √(2 * (f j + 2 ^ (-600 : ℤ))) = T j := fun j => congrFun hT j
  induction i with
  | zero =>
    have h1 := hf 0 (by omega)
    simp only [stairsCons, if_true] at h1
    obtain ⟨x, y, a, b, hp, ha, hb, hl⟩ := fix_met (κ := 0) (big 0) h1 (le 0)
    have ea : a = 0 := ha.unique B64.is_zero
    have eb : b = 0 := hb.unique B64.is_zero
    subst ea eb
    have hx : |x| ≤ √((x - 0) ^ 2 + (y - 0) ^ 2) := Real.abs_le_sqrt (by nlinarith [sq_nonneg y])
    have hy : |y| ≤ √((x - 0) ^ 2 + (y - 0) ^ 2) := Real.abs_le_sqrt (by nlinarith [sq_nonneg x])
    have hx' := fb (j := 0) (r := x) (w := 0) (by rw [sub_zero]; exact hx.trans hl)
    have hy' := fb (j := 0) (r := y) (w := 0) (by rw [sub_zero]; exact hy.trans hl)
    rw [eT] at hx' hy'
    have e0 := sqr 0
    rw [eT] at e0
    refine ⟨x, y, T 0, T 0, hp, ?_, ?_, ?_, ?_⟩
    · simpa [stairX] using hx'
    · simpa [stairY] using hy'
    all_goals simp only [Nat.mul_zero, Nat.zero_add, Finset.sum_range_one, Nat.cast_zero]; rw [e0]; linarith
  | succ i ih =>
    obtain ⟨x, y, A, B, hp, hx, hy, hA, hB⟩ := ih (by omega)
    have h1 := hf (2 * i + 1) (by omega)
    have h2 := hf (2 * i + 2) (by omega)
    have hl : h.lines i = ⟨i, i + 1⟩ := by
      rw [hr.lines]
      have : i < n - 1 := by omega
      simp [stairsWorld, layout, this]
    have S : ∑ j ∈ Finset.range (2 * (i + 1) + 1), m j = ∑ j ∈ Finset.range (2 * i + 1), m j + (m (2 * i + 1) + m (2 * i + 2)) := by
      rw [show 2 * (i + 1) + 1 = 2 * i + 1 + 1 + 1 by ring, Finset.sum_range_succ, Finset.sum_range_succ]; ring
    have q1 := sqr (2 * i + 1)
    have q2 := sqr (2 * i + 2)
    rw [eT] at q1 q2
    have p1 := pos (2 * i + 1)
    have p2 := pos (2 * i + 2)
    have u0 := ulp_pos
    by_cases he : i % 2 = 0
    · obtain ⟨sx, sy⟩ := stair_even he
      have c1 : (stairsCons (2 * i + 1) : Constraint (B64 lm)) = .horizDist i (i + 1) 0.8 := by
        unfold stairsCons
        rw [if_neg (by omega), if_pos (by omega)]
        simp [he]
      have c2 : (stairsCons (2 * i + 2) : Constraint (B64 lm)) = .horizLine i := by
        unfold stairsCons
        rw [if_neg (by omega), if_neg (by omega), show (2 * i + 2 - 1) / 2 = i by omega, if_pos he]
      rw [c1] at h1
      rw [c2] at h2
      simp only [lossValue, horizCurrent, lineStart, lineEnd, hl] at h1 h2
      obtain ⟨x', x0, D, hx', hx0, hD, k1⟩ := one_met (big _) h1 (le _)
      obtain ⟨y', y0, hy0, hy', k2⟩ := flat_met (big _) h2 (le _)
      obtain rfl := hD.unique is_step
      obtain rfl := hx0.unique hp.1
      obtain rfl := hy0.unique hp.2
      have k1 := ub d1 d2 k1
      have k2 := fb k2
      rw [eT] at k1 k2
      obtain ⟨Z, z1, z2⟩ := place_next hx hA k1 q1.le p2
      obtain ⟨W, w1, w2⟩ := place_next hy hB (k2.trans (by linarith : _ ≤ _ + 2 * ulp)) q2.le p1
      refine ⟨x', y', Z, W, ⟨hx', hy'⟩, ?_, ?_, ?_, ?_⟩
      · rw [sx]; convert z1 using 2; ring
      · rw [sy]; convert w1 using 2; ring
      · rw [S]; exact z2
      · rw [S, add_comm (m (2 * i + 1))]; exact w2
    · obtain ⟨sx, sy⟩ := stair_odd he
      have c1 : (stairsCons (2 * i + 1) : Constraint (B64 lm)) = .vertDist i (i + 1) 0.8 := by
        unfold stairsCons
        rw [if_neg (by omega), if_pos (by omega)]
        simp [he]
      have c2 : (stairsCons (2 * i + 2) : Constraint (B64 lm)) = .vertLine i := by
        unfold stairsCons
        rw [if_neg (by omega), if_neg (by omega), show (2 * i + 2 - 1) / 2 = i by omega, if_neg he]
      rw [c1] at h1
      rw [c2] at h2
      simp only [lossValue, vertCurrent, lineStart, lineEnd, hl] at h1 h2
      obtain ⟨y', y0, D, hy', hy0, hD, k1⟩ := one_met (big _) h1 (le _)
      obtain ⟨x', x0, hx0, hx', k2⟩ := flat_met (big _) h2 (le _)
      obtain rfl := hD.unique is_step
      obtain rfl := hx0.unique hp.1
      obtain rfl := hy0.unique hp.2
      have k1 := ub d1 d2 k1
      have k2 := fb k2
      rw [eT] at k1 k2
      obtain ⟨Z, z1, z2⟩ := place_next hy hB k1 q1.le p2
      obtain ⟨W, w1, w2⟩ := place_next hx hA (k2.trans (by linarith : _ ≤ _ + 2 * ulp)) q2.le p1
      refine ⟨x', y', W, Z, ⟨hx', hy'⟩, ?_, ?_, ?_, ?_⟩
      · rw [sx]; convert w1 using 2; ring
      · rw [sy]; convert z1 using 2; ring
      · rw [S, add_comm (m (2 * i + 1))]; exact w2
      · rw [S]; exact z2

end Isotope
