import Verif.Lemmas.LocalTame

/-!
# Gradient descent repairs a solved sketch that was moved a little (C74)
-/

namespace Isotope
open XR
open Matrix

variable {h : Heap XR} {s : Sketch}

theorem DepEq.safe {h h1 : Heap XR} {c : Constraint XR} (g : DepEq h h1 c) : SafelyRegular h1 c ↔ SafelyRegular h c := by
  unfold SafelyRegular
  rw [g.all.2.2]
  cases c <;> try rfl
  rename_i p1 p2 D
  have O : ∀ p, PrimCell.point p ∈ consDeps h (Constraint.euclid p1 p2 D) → ptOf h1 p = ptOf h p := fun p hp => by
    unfold ptOf; rw [pt_of_primData (g.2 _ hp)]
  dsimp only
  rw [O p1 (by simp [consDeps, consFields]), O p2 (by simp [consDeps, consFields])]

theorem len_coord {n : Nat} (v : Fin n → ℝ) (i : Fin n) : |v i| ≤ len v := by
  have := PiLp.norm_apply_le (p := 2) (WithLp.toLp 2 v : EuclideanSpace ℝ (Fin n)) i
  simpa [len] using this

theorem len_lt_iff {n : Nat} {v : Fin n → ℝ} {m : ℝ} (hm : len v < m) : v ⬝ᵥ v < m ^ 2 := by
  rw [← len_sq]
  exact pow_lt_pow_left₀ hm (len_nonneg _) two_ne_zero

/-- **C74.** A solved sketch without degenerate constraints, near whose solution the loss is squeezed between two parabolas: for
every `e` there is a `d` such that from every position closer than `d` to the solution gradient descent returns `Ok`, ends closer than
`e` to the solution, reduces the loss with every step at least by the factor `1 - 1.6e-5 · mu / M`, and stops before `max_iterations`
only with a loss below `min_loss` or below `min_grad² / mu`. -/
theorem C74_converges (hn : s.cells.Nodup) (hc : Closed ⟨h, s⟩) (hf : FiniteSketch h s) (h0 : getLoss h s = fin 0)
    (hs : ∀ k ∈ s.cons, SafelyRegular h (h.cons k)) {z : Fin (getNDofs h s) → ℝ} (ez : getData h s = vec z) {mu M : ℝ}
    (w : SqueezedNear h s z mu M) (lo : 0.1 < mu * 1.5 ^ 14) (hi : M < 1.9998 * 2 ^ 14) (hM' : mu ≤ M) {e : ℝ} (he : 0 < e) :
    ∃ d > 0, ∀ v : Fin (getNDofs h s) → ℝ, (∀ i, |v i - z i| < d) → ∀ h', setData h s (vec v) = .ok h' →
      ∀ (n : Nat) (ml mg : ℝ), 0 < mg →
        (gdSolve ⟨n, fin ml, fin mg⟩ h' s).res = .ok ∧ (gdSolve ⟨n, fin ml, fin mg⟩ h' s).steps.length ≤ n ∧
        ∃ (v' : Fin (getNDofs h s) → ℝ) (L1 : ℝ), getData (gdSolve ⟨n, fin ml, fin mg⟩ h' s).heap s = vec v' ∧
          (∀ i, |v' i - z i| < e) ∧ getLoss (gdSolve ⟨n, fin ml, fin mg⟩ h' s).heap s = fin L1 ∧ 0 ≤ L1 ∧
          L1 ≤ (1 - 1.6e-5 * (mu / M)) ^ (gdSolve ⟨n, fin ml, fin mg⟩ h' s).steps.length * lossAfter h s v ∧
          ((gdSolve ⟨n, fin ml, fin mg⟩ h' s).steps.length < n → L1 < ml ∨ mu * L1 < mg ^ 2) := by
  have hmu : 0 < mu := by
    by_contra hh
    have : mu * 1.5 ^ 14 ≤ 0 := mul_nonpos_of_nonpos_of_nonneg (not_lt.1 hh) (by positivity)
    linarith
  have hM : 0 < M := lt_of_lt_of_le hmu hM'
  obtain ⟨mu', m1, m2, m3⟩ : ∃ mu', 0.9 * mu ≤ mu' ∧ mu' < mu ∧ 0.1 < mu' * 1.5 ^ 14 := by
    refine ⟨max (0.9 * mu) ((mu + 0.1 / 1.5 ^ 14) / 2), le_max_left _ _, max_lt (by linarith) ?_, ?_⟩
    · have : 0.1 / 1.5 ^ 14 < mu := by rw [div_lt_iff₀ (by positivity)]; exact lo
      linarith
    · have h1 : 0.1 / 1.5 ^ 14 < mu := by rw [div_lt_iff₀ (by positivity)]; exact lo
      have h2 : 0.1 / 1.5 ^ 14 < max (0.9 * mu) ((mu + 0.1 / 1.5 ^ 14) / 2) := lt_of_lt_of_le (by linarith) (le_max_right _ _)
      rwa [div_lt_iff₀ (by positivity)] at h2
  obtain ⟨η, e1, e2, e3, e4⟩ : ∃ η > 0, η ≤ 0.01 ∧ 0.1 + η ≤ mu' * 1.5 ^ 14 ∧ M ≤ (1.9998 - η) * 2 ^ 14 := by
    refine ⟨min 0.01 (min (mu' * 1.5 ^ 14 - 0.1) (1.9998 - M / 2 ^ 14)), ?_, min_le_left _ _, ?_, ?_⟩
    · have : M / 2 ^ 14 < 1.9998 := by rw [div_lt_iff₀ (by positivity)]; exact hi
      exact lt_min (by norm_num) (lt_min (by linarith) (by linarith))
    · have := (min_le_right 0.01 (min (mu' * 1.5 ^ 14 - 0.1) (1.9998 - M / 2 ^ 14))).trans (min_le_left _ _)
      linarith
    · have := (min_le_right 0.01 (min (mu' * 1.5 ^ 14 - 0.1) (1.9998 - M / 2 ^ 14))).trans (min_le_right _ _)
      rw [← div_le_iff₀ (by positivity)]
      linarith
  have hmup : 0 < mu' := lt_of_lt_of_le (by linarith) m1
  have hz : lossAfter h s z = 0 := by
    have := (spec_at hn hc hf (SameRefs.refl h) ez).1
    rw [h0] at this
    exact (XR.fin.inj this).symm
  have hsafe : SafeAt h s z := fun k hk => (depEq_of_data (SameRefs.refl h) hc ez hk).safe.1 (hs k hk)
  obtain ⟨δ, hδ, B, hB, t, hU, hsm⟩ := exists_sketch_tame hn hc hf hz hsafe w hmup m2 hM.le e1
  have hr1 : shrink' mu' M < 1 := by
    unfold shrink'
    have : 0 < mu' / M := div_pos hmup hM
    linarith
  have hr0 : 0 ≤ shrink' mu' M := by
    unfold shrink'
    have : mu' / M ≤ 1 := (div_le_one hM).2 (by linarith)
    linarith
  obtain ⟨d, hd, hstart⟩ := hsm (min δ e) (lt_min hδ he) (1.5 ^ 14 * B / (1 - Real.sqrt (shrink' mu' M))) (by
    have : Real.sqrt (shrink' mu' M) < 1 := by rw [Real.sqrt_lt' one_pos, one_pow]; exact hr1
    have : 0 < 1 - Real.sqrt (shrink' mu' M) := by linarith
    positivity)
  refine ⟨d, hd, fun v hv h' e' n ml mg hmg => ?_⟩
  obtain ⟨H, eH, rH, dH⟩ := setData_at hn (SameRefs.refl h) v
  have eHh : H = h' := Except.ok.inj (eH.symm.trans e')
  subst eHh
  have hq1 : Real.sqrt (shrink' mu' M) < 1 := by rw [Real.sqrt_lt' one_pos, one_pow]; exact hr1
  have hst := hstart v hv
  have hlt : len (v - z) < δ := by
    have h1 : 0 < 1 - Real.sqrt (shrink' mu' M) := by linarith
    have h2 : 0 ≤ 1.5 ^ 14 * B / (1 - Real.sqrt (shrink' mu' M)) * Real.sqrt (lossAfter h s v) := by positivity
    have h3 := min_le_left δ e
    linarith
  obtain ⟨sl, sg⟩ := spec_at hn hc hf rH dH
  obtain ⟨H1, g1, eg1⟩ := sg (hU v hlt)
  have key := gdLoop_local hn hc hf t hU hmup e2 e3 e4 hB (Real.sqrt_nonneg _) hq1 (by rw [Real.sq_sqrt hr0]) hr0
    ⟨n, fin ml, fin mg⟩ rfl rfl hmg n H1 (rH.trans g1.1) v (by rw [g1.getData, dH]) (min_le_left δ e) hst
  unfold gdSolve
  rw [eg1]
  dsimp only at key ⊢
  obtain ⟨i1, i2, x', i3, i4, i5, i6, i7⟩ := key
  have hx' : len (x' - z) < min δ e := by
    have h1 : 0 < 1 - Real.sqrt (shrink' mu' M) := by linarith
    have h2 : 0 ≤ 1.5 ^ 14 * B / (1 - Real.sqrt (shrink' mu' M)) * Real.sqrt (lossAfter h s x') := by positivity
    linarith
  have hxδ : len (x' - z) < δ := hx'.trans_le (min_le_left _ _)
  refine ⟨i1, i2, x', lossAfter h s x', i4, fun i => ?_, (spec_at hn hc hf i3 i4).1, t.nonneg x' hxδ, ?_, fun hh => ?_⟩
  · exact lt_of_le_of_lt (len_coord (x' - z) i) (hx'.trans_le (min_le_right _ _))
  · refine i6.trans (mul_le_mul_of_nonneg_right (pow_le_pow_left₀ hr0 ?_ _) (t.nonneg v hlt))
    unfold shrink'
    have : 0.9 * (mu / M) ≤ mu' / M := by rw [← mul_div_assoc]; exact div_le_div_of_nonneg_right m1 hM.le
    have : 0 < mu / M := div_pos hmu hM
    linarith
  · rcases i7 hh with hh | hh
    · exact .inl hh
    · right
      have a1 := len_lt_iff hh
      have a2 := t.low x' hxδ
      have a3 := mul_le_mul_of_nonneg_right m1 (t.nonneg x' hxδ)
      have a4 := mul_nonneg hmu.le (t.nonneg x' hxδ)
      linarith

/-- **C74.** With enough iterations the loss gets below `min_loss` or below `min_grad² / mu`. -/
theorem C74_enough (hn : s.cells.Nodup) (hc : Closed ⟨h, s⟩) (hf : FiniteSketch h s) (h0 : getLoss h s = fin 0)
    (hs : ∀ k ∈ s.cons, SafelyRegular h (h.cons k)) {z : Fin (getNDofs h s) → ℝ} (ez : getData h s = vec z) {mu M : ℝ}
    (w : SqueezedNear h s z mu M) (lo : 0.1 < mu * 1.5 ^ 14) (hi : M < 1.9998 * 2 ^ 14) (hM' : mu ≤ M) :
    ∃ d > 0, ∀ v : Fin (getNDofs h s) → ℝ, (∀ i, |v i - z i| < d) → ∀ h', setData h s (vec v) = .ok h' →
      ∀ (ml mg : ℝ), 0 < ml → 0 < mg → ∃ N, ∀ n ≥ N, (gdSolve ⟨n, fin ml, fin mg⟩ h' s).res = .ok ∧
        ∃ L1 : ℝ, getLoss (gdSolve ⟨n, fin ml, fin mg⟩ h' s).heap s = fin L1 ∧ (L1 < ml ∨ mu * L1 < mg ^ 2) := by
  obtain ⟨d, hd, hall⟩ := C74_converges hn hc hf h0 hs ez w lo hi hM' one_pos
  refine ⟨d, hd, fun v hv h' e' ml mg hml hmg => ?_⟩
  have hmu : 0 < mu := by
    by_contra hh
    have : mu * 1.5 ^ 14 ≤ 0 := mul_nonpos_of_nonpos_of_nonneg (not_lt.1 hh) (by positivity)
    linarith
  have hM : 0 < M := lt_of_lt_of_le hmu hM'
  set rho := 1 - 1.6e-5 * (mu / M) with er
  have hr1 : rho < 1 := by
    have : 0 < mu / M := div_pos hmu hM
    linarith
  have hr0 : 0 ≤ rho := by
    have : mu / M ≤ 1 := (div_le_one hM).2 hM'
    linarith
  have ht : Filter.Tendsto (fun n : ℕ => rho ^ n * lossAfter h s v) Filter.atTop (nhds (0 * lossAfter h s v)) :=
    (tendsto_pow_atTop_nhds_zero_of_lt_one hr0 hr1).mul_const _
  rw [zero_mul] at ht
  obtain ⟨N, hN⟩ := Filter.eventually_atTop.1 (ht.eventually (gt_mem_nhds hml))
  refine ⟨N, fun n hnN => ?_⟩
  obtain ⟨i1, i2, v', L1, -, -, i3, -, i4, i5⟩ := hall v hv h' e' n ml mg hmg
  refine ⟨i1, L1, i3, ?_⟩
  rcases i2.lt_or_eq with k | k
  · exact i5 k
  · left
    rw [k] at i4
    exact lt_of_le_of_lt i4 (hN n hnN)

/-! ## One distance -/

/-- squares of four coordinates -/
theorem four_le {n : Nat} (u : Fin n → ℝ) {i1 i2 i3 i4 : Fin n} (d : [i1, i2, i3, i4].Nodup) :
    u i1 ^ 2 + u i2 ^ 2 + u i3 ^ 2 + u i4 ^ 2 ≤ u ⬝ᵥ u ∧
    ((∀ i, i ≠ i1 → i ≠ i2 → i ≠ i3 → i ≠ i4 → u i = 0) → u ⬝ᵥ u = u i1 ^ 2 + u i2 ^ 2 + u i3 ^ 2 + u i4 ^ 2) := by
  have e : ∑ i ∈ [i1, i2, i3, i4].toFinset, u i * u i = u i1 ^ 2 + u i2 ^ 2 + u i3 ^ 2 + u i4 ^ 2 := by
    rw [List.sum_toFinset _ d]
    simp only [List.map_cons, List.map_nil, List.sum_cons, List.sum_nil]
    ring
  constructor
  · rw [← e]
    exact Finset.sum_le_sum_of_subset_of_nonneg (Finset.subset_univ _) fun i _ _ => mul_self_nonneg _
  · intro h0
    rw [← e]
    symm
    apply Finset.sum_subset (Finset.subset_univ _)
    intro i _ hi
    simp only [List.mem_toFinset, List.mem_cons, List.not_mem_nil, or_false, not_or] at hi
    rw [h0 i hi.1 hi.2.1 hi.2.2.1 hi.2.2.2, mul_zero]

theorem hyp_dist_le (a b c d : ℝ) : (hyp a b - hyp c d) ^ 2 ≤ (a - c) ^ 2 + (b - d) ^ 2 := by
  have h1 : 0 ≤ hyp a b := Real.sqrt_nonneg _
  have h2 : 0 ≤ hyp c d := Real.sqrt_nonneg _
  have e1 := hyp_mul_self a b
  have e2 := hyp_mul_self c d
  have h3 : a * c + b * d ≤ hyp a b * hyp c d := by
    apply le_of_sq_le_sq _ (mul_nonneg h1 h2)
    have : (hyp a b * hyp c d) ^ 2 = (a * a + b * b) * (c * c + d * d) := by rw [← e1, ← e2]; ring
    rw [this]
    nlinarith [sq_nonneg (a * d - b * c)]
  nlinarith

/-- every vector is its length times a unit vector -/
theorem exists_unit (a b : ℝ) : ∃ u v, u * u + v * v = 1 ∧ a = hyp a b * u ∧ b = hyp a b * v := by
  by_cases h0 : hyp a b = 0
  · have := hyp_mul_self a b
    rw [h0] at this
    have ha : a = 0 := by nlinarith [mul_self_nonneg a, mul_self_nonneg b]
    have hb : b = 0 := by nlinarith [mul_self_nonneg a, mul_self_nonneg b]
    exact ⟨1, 0, by norm_num, by rw [h0, ha]; ring, by rw [h0, hb]; ring⟩
  · refine ⟨a / hyp a b, b / hyp a b, ?_, by field_simp, by field_simp⟩
    rw [div_mul_div_comm, div_mul_div_comm, ← add_div, hyp_mul_self, div_self]
    rw [← hyp_mul_self]
    exact mul_ne_zero h0 h0

/-- one distance: twice the loss lies between two and two times the squared distance from the solutions -/
theorem distance_squeezed (hn : s.cells.Nodup) (hc : Closed ⟨h, s⟩) (hf : FiniteSketch h s) {k p1 p2 : Nat} {D : ℝ} (hk : s.cons = [k])
    (ec : h.cons k = .euclid p1 p2 (fin D)) (hD : 0 ≤ D) (hp : p1 ≠ p2) {z : Fin (getNDofs h s) → ℝ} (hz : lossAfter h s z = 0) :
    SqueezedNear h s z 2 2 := by
  have mem : ∀ p, p = p1 ∨ p = p2 → PrimCell.point p ∈ s.cells := by
    intro p hp
    refine hc.2 k (by rw [hk]; simp) _ ?_
    show _ ∈ consFields (h.cons k)
    rw [ec]
    rcases hp with rfl | rfl <;> simp [consFields]
  have mx : ∀ p, p = p1 ∨ p = p2 → Dof.px p ∈ s.dofs ∧ Dof.py p ∈ s.dofs := fun p hp =>
    ⟨mem_sketch_dofs.2 (mem p hp), mem_sketch_dofs.2 (mem p hp)⟩
  obtain ⟨x1, y1⟩ := mx p1 (.inl rfl)
  obtain ⟨x2, y2⟩ := mx p2 (.inr rfl)
  let ix : ∀ d, d ∈ s.dofs → Fin (getNDofs h s) := fun d hd => ⟨s.dofs.idxOf d, idxOf_lt hd⟩
  have ec' : ∀ v d (hd : d ∈ s.dofs), coordOf h s v d = v (ix d hd) := fun v d hd => by rw [coordOf, dif_pos (idxOf_lt hd)]
  have inj : ∀ d d' (hd : d ∈ s.dofs) (hd' : d' ∈ s.dofs), d ≠ d' → ix d hd ≠ ix d' hd' := by
    intro d d' hd hd' hne e
    exact hne ((List.idxOf_inj hd).1 (congrArg Fin.val e))
  have nd : [ix _ x1, ix _ y1, ix _ x2, ix _ y2].Nodup := by
    simp only [List.nodup_cons, List.mem_cons, List.not_mem_nil, or_false, not_or, not_false_eq_true, List.nodup_nil, and_true]
    exact ⟨⟨inj _ _ x1 y1 (by simp), inj _ _ x1 x2 (by simpa using hp), inj _ _ x1 y2 (by simp)⟩,
      ⟨inj _ _ y1 x2 (by simp), inj _ _ y1 y2 (by simpa using hp)⟩, inj _ _ x2 y2 (by simp)⟩
  have hl : ∀ v, 2 * lossAfter h s v = (hyp (v (ix _ x1) - v (ix _ x2)) (v (ix _ y1) - v (ix _ y2)) - D) ^ 2 := by
    intro v
    rw [lossAfter_eq hn hc hf, hk]
    simp only [List.map_cons, List.map_nil, List.sum_cons, List.sum_nil, ec, add_zero]
    rw [loss_euclid (ptData_withDofs _ _) (ptData_withDofs _ _), toReal_fin, ec' v _ x1, ec' v _ x2, ec' v _ y1, ec' v _ y2]
    ring
  generalize ix _ x1 = i1 at *
  generalize ix _ y1 = i2 at *
  generalize ix _ x2 = i3 at *
  generalize ix _ y2 = i4 at *
  have ne := nd
  simp only [List.nodup_cons, List.mem_cons, List.not_mem_nil, or_false, not_or, not_false_eq_true, List.nodup_nil, and_true] at ne
  obtain ⟨⟨n12, n13, n14⟩, ⟨n23, n24⟩, n34⟩ := ne
  refine ⟨⟨1, one_pos, fun v _ => ?_⟩, ⟨1, one_pos, fun v _ => ?_⟩⟩
  · obtain ⟨a, b, e1, e2, e3⟩ := exists_unit (v i1 - v i3) (v i2 - v i4)
    have hv := hl v
    generalize hyp (v i1 - v i3) (v i2 - v i4) = q at *
    refine ⟨fun i => if i = i1 then v i1 - (q - D) / 2 * a else if i = i2 then v i2 - (q - D) / 2 * b else
      if i = i3 then v i3 + (q - D) / 2 * a else if i = i4 then v i4 + (q - D) / 2 * b else v i, ?_, ?_⟩
    · have := hl (fun i => if i = i1 then v i1 - (q - D) / 2 * a else if i = i2 then v i2 - (q - D) / 2 * b else
        if i = i3 then v i3 + (q - D) / 2 * a else if i = i4 then v i4 + (q - D) / 2 * b else v i)
      simp only [if_true, if_neg (Ne.symm n12), if_neg (Ne.symm n13), if_neg (Ne.symm n23), if_neg (Ne.symm n14), if_neg (Ne.symm n24), if_neg (Ne.symm n34)] at this
      have k1 : v i1 - (q - D) / 2 * a - (v i3 + (q - D) / 2 * a) = D * a := by linear_combination e2
      have k2 : v i2 - (q - D) / 2 * b - (v i4 + (q - D) / 2 * b) = D * b := by linear_combination e3
      have k3 : hyp (D * a) (D * b) = D := by
        unfold hyp
        rw [show D * a * (D * a) + D * b * (D * b) = D ^ 2 * (a * a + b * b) by ring, e1, mul_one, Real.sqrt_sq hD]
      rw [k1, k2, k3] at this
      linarith
    · rw [(four_le _ nd).2 (by
        intro i m1 m2 m3 m4
        simp [m1, m2, m3, m4])]
      simp only [Pi.sub_apply, if_true, if_neg (Ne.symm n12), if_neg (Ne.symm n13), if_neg (Ne.symm n23), if_neg (Ne.symm n14), if_neg (Ne.symm n24), if_neg (Ne.symm n34)]
      rw [hv]
      nlinarith
  · have hz' := hl z
    rw [hz, mul_zero, eq_comm, pow_eq_zero_iff two_ne_zero, sub_eq_zero] at hz'
    have h1 := (four_le (v - z) nd).1
    have h2 := hyp_dist_le (v i1 - v i3) (v i2 - v i4) (z i1 - z i3) (z i2 - z i4)
    rw [hl v]
    rw [hz'] at h2
    simp only [Pi.sub_apply] at h1
    nlinarith [sq_nonneg (v i1 - z i1 + (v i3 - z i3)), sq_nonneg (v i2 - z i2 + (v i4 - z i4))]

/-- **C74.** Two points at their desired distance, which exceeds `1e-6`, moved a little: with enough iterations gradient descent
brings the loss below `min_loss` or below `min_grad² / 2`, and the points stay near where they were. -/
theorem C74_distance (hn : s.cells.Nodup) (hc : Closed ⟨h, s⟩) (hf : FiniteSketch h s) {k p1 p2 : Nat} {D : ℝ} (hk : s.cons = [k])
    (ec : h.cons k = .euclid p1 p2 (fin D)) (hD : 1e-6 < D) (ha : dist (ptOf h p1) (ptOf h p2) = D)
    {z : Fin (getNDofs h s) → ℝ} (ez : getData h s = vec z) {e : ℝ} (he : 0 < e) :
    ∃ d > 0, ∀ v : Fin (getNDofs h s) → ℝ, (∀ i, |v i - z i| < d) → ∀ h', setData h s (vec v) = .ok h' →
      ∀ (ml mg : ℝ), 0 < ml → 0 < mg → ∃ N, ∀ n ≥ N, (gdSolve ⟨n, fin ml, fin mg⟩ h' s).res = .ok ∧
        ∃ (v' : Fin (getNDofs h s) → ℝ) (L1 : ℝ), getData (gdSolve ⟨n, fin ml, fin mg⟩ h' s).heap s = vec v' ∧ (∀ i, |v' i - z i| < e) ∧
          getLoss (gdSolve ⟨n, fin ml, fin mg⟩ h' s).heap s = fin L1 ∧ (L1 < ml ∨ 2 * L1 < mg ^ 2) := by
  have hp : p1 ≠ p2 := by
    rintro rfl
    rw [dist_self] at ha
    linarith
  have hs : ∀ k' ∈ s.cons, SafelyRegular h (h.cons k') := by
    intro k' hk'
    rw [hk, List.mem_singleton] at hk'
    subst hk'
    rw [ec]
    refine ⟨?_, ?_⟩
    · show _ ≤ _
      rw [ha]; exact hD.le
    · show _ < _
      rw [ha]; exact hD
  have h0 : getLoss h s = fin 0 := by
    rw [getLoss_fin fun k hk => ((hf.cons hc k hk).real.loss).imp fun x hx => hx.2, hk]
    obtain ⟨a1, a2⟩ : (∃ x y, ptData h p1 = ⟨fin x, fin y⟩) ∧ ∃ x y, ptData h p2 = ⟨fin x, fin y⟩ := by
      have := (hf.cons hc k (by rw [hk]; simp)).real
      rw [ec] at this
      cases this with
      | euclid e1 e2 => exact ⟨⟨_, _, e1⟩, ⟨_, _, e2⟩⟩
    obtain ⟨x1, y1, q1⟩ := a1
    obtain ⟨x2, y2, q2⟩ := a2
    have : hyp (x1 - x2) (y1 - y2) = D := by
      rw [hyp_pt, ← ha]
      unfold ptOf
      unfold ptData at q1 q2
      rw [q1, q2]
      rfl
    simp only [List.map_cons, List.map_nil, List.sum_cons, List.sum_nil, ec, add_zero]
    rw [loss_euclid q1 q2, toReal_fin, this]
    simp
  have hz : lossAfter h s z = 0 := by
    have := (spec_at hn hc hf (SameRefs.refl h) ez).1
    rw [h0] at this
    exact (XR.fin.inj this).symm
  have w := distance_squeezed hn hc hf hk ec (by linarith) hp hz
  obtain ⟨d1, k1, c1⟩ := C74_converges hn hc hf h0 hs ez w (by norm_num) (by norm_num) le_rfl he
  obtain ⟨d2, k2, c2⟩ := C74_enough hn hc hf h0 hs ez w (by norm_num) (by norm_num) le_rfl
  refine ⟨min d1 d2, lt_min k1 k2, fun v hv h' e' ml mg hml hmg => ?_⟩
  obtain ⟨N, hN⟩ := c2 v (fun i => (hv i).trans_le (min_le_right _ _)) h' e' ml mg hml hmg
  refine ⟨N, fun n hn => ?_⟩
  obtain ⟨i1, L1, i2, i3⟩ := hN n hn
  obtain ⟨-, -, v', L1', j1, j2, j3, -⟩ := c1 v (fun i => (hv i).trans_le (min_le_left _ _)) h' e' n ml mg hmg
  exact ⟨i1, v', L1, j1, j2, i2, i3⟩

/-- the points (0, 0) and (3, 4), which are to be 5 apart -/
noncomputable def apartHeap : Heap XR :=
  { (Heap.empty : Heap XR) with
    points := fun k => if k = 0 then ⟨⟨fin 0, fin 0⟩, ⟨fin 0, fin 0⟩⟩ else ⟨⟨fin 3, fin 4⟩, ⟨fin 0, fin 0⟩⟩
    cons := fun _ => .euclid 0 1 (fin 5)
    nPoints := 2
    nCons := 1 }

def apartSketch : Sketch := ⟨[(0, .point 0), (1, .point 1)], 2, [0]⟩

theorem apart_nodup : apartSketch.cells.Nodup := by simp [Sketch.cells, apartSketch]
theorem apart_closed : Closed ⟨apartHeap, apartSketch⟩ := by
  simp [Closed, apartHeap, apartSketch, Sketch.cells, primFields, consFields]
theorem apart_finite : FiniteSketch apartHeap apartSketch := by
  refine ⟨?_, by simp [apartSketch, apartHeap, consParams]⟩
  simp [getData, getNDofs, apartSketch, apartHeap, primData, zerosVec, blit]
theorem apart_dist : dist (ptOf apartHeap 0) (ptOf apartHeap 1) = 5 := by
  have : dist (ptOf apartHeap 0) (ptOf apartHeap 1) = hyp (0 - 3) (0 - 4) := (hyp_pt _ _ _ _).symm
  rw [this, hyp]
  rw [show ((0 : ℝ) - 3) * (0 - 3) + (0 - 4) * (0 - 4) = 5 ^ 2 by norm_num, Real.sqrt_sq (by norm_num)]

/-- C74: the two points meet the hypotheses of all three theorems. -/
example : ∃ z : Fin (getNDofs apartHeap apartSketch) → ℝ, getData apartHeap apartSketch = vec z ∧ getLoss apartHeap apartSketch = fin 0 ∧
    (∀ k ∈ apartSketch.cons, SafelyRegular apartHeap (apartHeap.cons k)) ∧ SqueezedNear apartHeap apartSketch z 2 2 ∧
    apartSketch.cons = [0] ∧ apartHeap.cons 0 = .euclid 0 1 (fin 5) ∧ dist (ptOf apartHeap 0) (ptOf apartHeap 1) = 5 := by
  obtain ⟨z, hz⟩ : ∃ q : Fin (getNDofs apartHeap apartSketch) → ℝ, getData apartHeap apartSketch = vec q :=
    exists_vec' (List.all_eq_true.2 apart_finite.1) (getData_length _ _)
  have h0 : getLoss apartHeap apartSketch = fin 0 := by
    rw [getLoss_fin fun k hk => ((apart_finite.cons apart_closed k hk).real.loss).imp fun x hx => hx.2]
    simp only [apartSketch, List.map_cons, List.map_nil, List.sum_cons, List.sum_nil, add_zero]
    have q1 : ptData apartHeap 0 = ⟨fin 0, fin 0⟩ := rfl
    have q2 : ptData apartHeap 1 = ⟨fin 3, fin 4⟩ := rfl
    have e : hyp (0 - 3) (0 - 4) = 5 := (hyp_pt _ _ _ _).trans apart_dist
    show fin (lossValue apartHeap (.euclid 0 1 (fin 5))).toReal = _
    rw [loss_euclid q1 q2, toReal_fin, e]
    simp
  have hl : lossAfter apartHeap apartSketch z = 0 := by
    have := (spec_at apart_nodup apart_closed apart_finite (SameRefs.refl _) hz).1
    rw [h0] at this
    exact (XR.fin.inj this).symm
  refine ⟨z, hz, h0, fun k hk => ⟨?_, ?_⟩,
    distance_squeezed apart_nodup apart_closed apart_finite rfl rfl (by norm_num) (by norm_num) hl, rfl, rfl, apart_dist⟩
  · show (1e-6 : ℝ) ≤ dist (ptOf apartHeap 0) (ptOf apartHeap 1)
    rw [apart_dist]; norm_num
  · show (1e-6 : ℝ) < dist (ptOf apartHeap 0) (ptOf apartHeap 1)
    rw [apart_dist]; norm_num

end Isotope
