import Verif.Props.Smooth
import Verif.Lemmas.LinearBFGS
import Verif.Props.Solver

/-!
# Sketches without circuits: nothing but solutions stops the solvers (C82)
-/

namespace Isotope
open XR
open Matrix

variable {h : Heap XR} {s : Sketch}

/-- **C82.** In a sketch of distances, horizontal or vertical lines and fixed points whose graph has no circuits, in a position without
degenerate constraints: with `K` constraints, twice the loss is at most `K²` times the square of the gradient. -/
theorem C82_steep (hn : s.cells.Nodup) (hc : Closed ⟨h, s⟩) (hf : FiniteSketch h s) (hF : IsForest h s)
    (hr : ∀ k ∈ s.cons, Regular h (h.cons k)) {L : ℝ} (hL : getLoss h s = fin L) : 2 * L ≤ s.cons.length ^ 2 * slopeSq h s := by
  obtain ⟨x, ex⟩ := exists_data hf
  obtain ⟨sl, sg⟩ := spec_at hn hc hf (SameRefs.refl h) ex
  have hg : Good h s x := fun k hk => (depEq_of_data (SameRefs.refl h) hc ex hk).all.2.2.1 (hr k hk)
  obtain ⟨H, -, e⟩ := sg hg
  rw [slopeSq_vec e, XR.fin.inj (hL.symm.trans sl)]
  exact forest_steep hn hc hf hF hg

/-- **C82.** If the gradient of such a sketch is zero, the sketch is solved. -/
theorem C82_solved (hn : s.cells.Nodup) (hc : Closed ⟨h, s⟩) (hf : FiniteSketch h s) (hF : IsForest h s)
    (hr : ∀ k ∈ s.cons, Regular h (h.cons k)) {g : List XR} {h' : Heap XR} (e : getGradient h s = .ok (g, h'))
    (hz : ∀ x ∈ g, x = fin 0) : getLoss h s = fin 0 := by
  obtain ⟨x, ex⟩ := exists_data hf
  obtain ⟨sl, -⟩ := spec_at hn hc hf (SameRefs.refl h) ex
  have h1 := C82_steep hn hc hf hF hr sl
  have h2 : slopeSq h s = 0 := by
    unfold slopeSq
    rw [e]
    refine List.sum_eq_zero fun y hy => ?_
    obtain ⟨z, hz', rfl⟩ := List.mem_map.1 hy
    rw [hz z hz']
    norm_num
  rw [h2, mul_zero] at h1
  have h3 := lossAfter_pos hn hc hf x
  rw [sl]
  congr 1
  linarith

/-- below `L` such a sketch is steep -/
theorem forest_steepBelow (hn : s.cells.Nodup) (hc : Closed ⟨h, s⟩) (hf : FiniteSketch h s) (hF : IsForest h s) (h0 : s.cons ≠ []) {L r : ℝ}
    (hr : 1e-6 ≤ r) (hR : ∀ k ∈ s.cons, RoomFor r L (h.cons k)) : SteepBelow h s L (1 / s.cons.length ^ 2) := by
  intro v g hv dg
  have hg := plain_good hn hc hf hF.1 hr hR hv
  have e1 : g = gradAt h s v := linForm_inj (dg.unique (hasFDerivAt_lossAfter hn hc hf hg))
  subst e1
  have := forest_steep hn hc hf hF hg
  have hK : (0 : ℝ) < s.cons.length ^ 2 := by
    have : 0 < s.cons.length := List.length_pos_iff.2 h0
    positivity
  rw [show 2 * (1 / (s.cons.length : ℝ) ^ 2) * lossAfter h s v = 2 * lossAfter h s v / s.cons.length ^ 2 by ring, div_le_iff₀ hK]
  linarith

theorem stiffness_ge {r : ℝ} (hr : 0 < r) {L : ℝ} {c : Constraint XR} (hR : RoomFor r L c) : 2 ≤ stiffness r c := by
  unfold stiffness
  split
  · have : 0 ≤ XR.toReal _ := hr.le.trans hR.1
    have : 0 ≤ XR.toReal _ / r := div_nonneg this hr.le
    linarith
  · exact le_rfl

/-- **C82.** If moreover all desired Euclidean distances are at least `r + √(2L)`, where `L` is the loss, and gradient descent returns
`Ok` after `k` steps, then the loss is at most `(1 - 2e-5 / (K² M)) ^ k * L`, `M` being the sum of the stiffnesses; and if it stopped
before `max_iterations`, the loss is below `min_loss` or below `K² min_grad² / 2`. -/
theorem C82_descent (hn : s.cells.Nodup) (hc : Closed ⟨h, s⟩) (hf : FiniteSketch h s) (hF : IsForest h s) (h0 : s.cons ≠ []) {L r : ℝ}
    (hL : getLoss h s = fin L) (hr : 1e-6 ≤ r) (hR : ∀ k ∈ s.cons, RoomFor r L (h.cons k)) (n : Nat) {ml mg : ℝ} (hmg : 0 < mg)
    (hok : (gdSolve ⟨n, fin ml, fin mg⟩ h s).res = .ok) :
    ∃ L1 : ℝ, getLoss (gdSolve ⟨n, fin ml, fin mg⟩ h s).heap s = fin L1 ∧ 0 ≤ L1 ∧
      L1 ≤ (1 - 2e-5 / (s.cons.length ^ 2 * (s.cons.map (fun k => stiffness r (h.cons k))).sum)) ^
        (gdSolve ⟨n, fin ml, fin mg⟩ h s).steps.length * L ∧
      ((gdSolve ⟨n, fin ml, fin mg⟩ h s).steps.length < n → L1 < ml ∨ 2 * L1 < s.cons.length ^ 2 * mg ^ 2) := by
  have hr0 : 0 < r := lt_of_lt_of_le (by norm_num) hr
  have hK : (1 : ℝ) ≤ s.cons.length := by
    have : 0 < s.cons.length := List.length_pos_iff.2 h0
    exact_mod_cast this
  have hM : 2 ≤ (s.cons.map (fun k => stiffness r (h.cons k))).sum := by
    have := sum_ge_length s.cons (fun k => stiffness r (h.cons k)) (c := 2) fun k hk => stiffness_ge hr0 (hR k hk)
    linarith
  have hst := forest_steepBelow hn hc hf hF h0 hr hR
  obtain ⟨x, hx, run⟩ := gdSolve_smooth hn hc hf hL (C81_distances hn hc hf hF.1 hr hR) (by linarith) hst (by
    have : 1 / (s.cons.length : ℝ) ^ 2 ≤ 1 := by
      rw [div_le_one (by positivity)]
      nlinarith
    linarith) n (ml := ml) hmg
  obtain ⟨x', r1, e1, hsum, hdec, hstop⟩ := run.final hok
  rw [hx] at hdec hsum
  have hle : lossAfter h s x' ≤ L := by
    have h1 : 0 ≤ ((gdSolve ⟨n, fin ml, fin mg⟩ h s).steps.map (fun r => slopeSq r.pre s)).sum := List.sum_nonneg fun y hy => by
      obtain ⟨q, hq, rfl⟩ := List.mem_map.1 hy
      exact (sq_nonneg mg).trans (run.slopes q hq)
    by_contra hh
    rw [not_le] at hh
    have : 1e5 * (s.cons.map (fun k => stiffness r (h.cons k))).sum * (L - lossAfter h s x') < 0 :=
      mul_neg_of_pos_of_neg (by linarith) (by linarith)
    linarith
  refine ⟨lossAfter h s x', (spec_at hn hc hf r1 e1).1, lossAfter_pos hn hc hf x', ?_, fun hh => ?_⟩
  · have e : 2e-5 * (1 / (s.cons.length : ℝ) ^ 2 / (s.cons.map (fun k => stiffness r (h.cons k))).sum) =
        2e-5 / (s.cons.length ^ 2 * (s.cons.map (fun k => stiffness r (h.cons k))).sum) := by
      rw [div_div, mul_one_div]
    rw [← e]
    exact hdec
  · rcases hstop hh with hh | hh
    · exact .inl hh
    · right
      have hg := plain_good hn hc hf hF.1 hr hR hle
      have h1 := forest_steep hn hc hf hF hg
      have h2 := mul_lt_mul_of_pos_left hh (show (0 : ℝ) < s.cons.length ^ 2 by positivity)
      linarith

/-- **C82.** So with enough iterations gradient descent does not return `Ok` unless the loss is below `min_loss` or below
`K² min_grad² / 2`. -/
theorem C82_enough (hn : s.cells.Nodup) (hc : Closed ⟨h, s⟩) (hf : FiniteSketch h s) (hF : IsForest h s) (h0 : s.cons ≠ []) {L r : ℝ}
    (hL : getLoss h s = fin L) (hr : 1e-6 ≤ r) (hR : ∀ k ∈ s.cons, RoomFor r L (h.cons k)) {ml mg : ℝ} (hmg : 0 < mg) :
    ∃ N, ∀ n ≥ N, (gdSolve ⟨n, fin ml, fin mg⟩ h s).res = .err .searchFailed ∨
      (gdSolve ⟨n, fin ml, fin mg⟩ h s).res = .ok ∧
        ∃ L1 : ℝ, getLoss (gdSolve ⟨n, fin ml, fin mg⟩ h s).heap s = fin L1 ∧ (L1 < ml ∨ 2 * L1 < s.cons.length ^ 2 * mg ^ 2) := by
  have hr0 : 0 < r := lt_of_lt_of_le (by norm_num) hr
  have hS := C81_distances hn hc hf hF.1 hr hR
  have hM : 0 < (s.cons.map (fun k => stiffness r (h.cons k))).sum := by
    have := sum_ge_length s.cons (fun k => stiffness r (h.cons k)) (c := 2) fun k hk => stiffness_ge hr0 (hR k hk)
    have hK : 0 < s.cons.length := List.length_pos_iff.2 h0
    have hK' : (1 : ℝ) ≤ s.cons.length := by exact_mod_cast hK
    linarith
  obtain ⟨N, hN⟩ := exists_nat_gt (1e5 * (s.cons.map (fun k => stiffness r (h.cons k))).sum * L / mg ^ 2)
  refine ⟨N, fun n hn' => ?_⟩
  rcases (C81_slopes hn hc hf hL hS hM n (ml := ml) hmg).1 with hok | hf'
  · right
    refine ⟨hok, ?_⟩
    obtain ⟨L1, e1, -, -, h3⟩ := C82_descent hn hc hf hF h0 hL hr hR n (ml := ml) hmg hok
    refine ⟨L1, e1, h3 ?_⟩
    have h4 := C81_steps hn hc hf hL hS hM n (ml := ml) hmg
    rw [div_lt_iff₀ (by positivity)] at hN
    have h5 : (N : ℝ) * mg ^ 2 ≤ n * mg ^ 2 := mul_le_mul_of_nonneg_right (by exact_mod_cast hn') (by positivity)
    have h1 : ((gdSolve ⟨n, fin ml, fin mg⟩ h s).steps.length : ℝ) * mg ^ 2 < n * mg ^ 2 := by linarith
    exact_mod_cast lt_of_mul_lt_mul_right h1 (by positivity)
  · exact .inl hf'

/-! ## BFGS -/

section
variable {F : Type} [Num F]

theorem setData_finite {h h' : Heap F} {s : Sketch} {d : List F} (hn : s.cells.Nodup) (e : setData h s d = .ok h') :
    ∀ x ∈ getData h' s, Num.isFinite x = true := by
  rw [C12_roundtrip h h' s d hn e]
  exact ((C14_ok_iff h s hn d).1 ⟨h', e⟩).2

theorem lsLoop_finite {s : Sketch} (hn : s.cells.Nodup) (dir x0 : List F) (loss m : F) (n : Nat) (a : F) {h : Heap F}
    (hh : ∀ x ∈ getData h s, Num.isFinite x = true) {r : LSRes F} {h' : Heap F} (e : lsLoop s dir x0 loss m n a h = (r, h')) (hr : r ≠ .panic) :
    ∀ x ∈ getData h' s, Num.isFinite x = true := by
  induction n generalizing a h with
  | zero => cases e; exact hh
  | succ n ih =>
    unfold lsLoop at e
    cases e1 : setData h s (vadd x0 (vscale a dir)) with
    | error h1 => rw [e1] at e; cases e; exact absurd rfl hr
    | ok h1 =>
      rw [e1] at e
      have f1 := setData_finite hn e1
      dsimp only at e
      split at e
      · split at e
        · cases e; exact absurd rfl hr
        · rename_i g h2 e2
          have f2 : ∀ x ∈ getData h2 s, Num.isFinite x = true := by
            rw [(getGradient_frame e2).getData]; exact f1
          split at e
          · cases e; exact f2
          · exact ih _ f2 e
      · exact ih _ f1 e

theorem lineSearch_finite {s : Sketch} (hn : s.cells.Nodup) {dir g : List F} {h : Heap F}
    (hh : ∀ x ∈ getData h s, Num.isFinite x = true) {r : LSRes F} {h' : Heap F} (e : lineSearch h s dir g = (r, h')) (hr : r ≠ .panic) :
    ∀ x ∈ getData h' s, Num.isFinite x = true := by
  unfold lineSearch at e
  dsimp only at e
  split at e
  · cases e; exact hh
  · exact lsLoop_finite hn _ _ _ _ _ _ hh e hr

theorem bfgsLoop_finite (p : BFGSParams F) {s : Sketch} (hn : s.cells.Nodup) (nd fuel : Nat) (reset : Bool) (hm : List (List F)) (data : List F)
    (h : Heap F) (hh : ∀ x ∈ getData h s, Num.isFinite x = true) (hr : (bfgsLoop p s nd fuel reset hm data h).res = .ok) :
    ∀ x ∈ getData (bfgsLoop p s nd fuel reset hm data h).heap s, Num.isFinite x = true := by
  fun_induction bfgsLoop p s nd fuel reset hm data h with
  | case1 => exact hh
  | case2 => exact hh
  | case3 => cases hr
  | case4 => cases hr
  | case5 reset hm data h n hl g h1 e hfin hstop => rw [(getGradient_frame e).getData]; exact hh
  | case6 => cases hr
  | case7 => cases hr
  | case8 => cases hr
  | case9 => cases hr
  | case10 hm data h n hl g h1 e hfin hstop dir hd h' e' ih =>
    refine ih ?_ (by simpa [SolveOut.addSearch] using hr)
    exact lineSearch_finite hn (by rw [(getGradient_frame e).getData]; exact hh) e' (by simp)
  | case11 => cases hr
  | case12 => cases hr
  | case13 reset hm data h n hl g h1 e hfin hstop dir hd a h2 e' st nd' h3 e3 g4 h4 e4 y ih =>
    refine ih ?_ (by simpa [SolveOut.cons] using hr)
    rw [(getGradient_frame e4).getData]
    exact setData_finite hn e3

end

/-- **C82.** If BFGS returns `Ok` for a sketch without circuits after fewer than `max_iterations` steps, in a position without
degenerate constraints, then the loss is below `min_loss` or at most `K² N gradient_threshold² / 2`, for `K` constraints and `N`
coordinates. -/
theorem C82_bfgs (hn : s.cells.Nodup) (hc : Closed ⟨h, s⟩) (hf : FiniteSketch h s) (hF : IsForest h s) (n : Nat) {ml th : ℝ} (hth : 0 < th)
    (hok : (bfgsSolve ⟨n, fin ml, fin th⟩ h s).res = .ok) (hlt : (bfgsSolve ⟨n, fin ml, fin th⟩ h s).steps.length < n)
    (hr : ∀ k ∈ s.cons, Regular (bfgsSolve ⟨n, fin ml, fin th⟩ h s).heap (h.cons k)) :
    ∃ L1 : ℝ, getLoss (bfgsSolve ⟨n, fin ml, fin th⟩ h s).heap s = fin L1 ∧
      (L1 < ml ∨ 2 * L1 ≤ s.cons.length ^ 2 * (getNDofs h s * th ^ 2)) := by
  have r := (bfgsSolve_moves ⟨n, fin ml, fin th⟩ h s).1
  have hfin : ∀ x ∈ getData (bfgsSolve ⟨n, fin ml, fin th⟩ h s).heap s, Num.isFinite x = true := by
    unfold bfgsSolve at hok ⊢
    exact bfgsLoop_finite _ hn _ _ _ _ _ _ hf.1 hok
  have hst := C30_stop _ _ _ hok
  generalize (bfgsSolve ⟨n, fin ml, fin th⟩ h s).heap = H at *
  have hf' : FiniteSketch H s := ⟨hfin, fun k hk => by rw [r.cons]; exact hf.2 k hk⟩
  have hc' : Closed ⟨H, s⟩ := hc.sameRefs r
  have ee : ∀ c, ends H c = ends h c := by intro c; cases c <;> simp [ends, r.lines]
  have hF' : IsForest H s := by
    refine ⟨fun k hk => by rw [r.cons]; exact hF.1 k hk, ?_⟩
    obtain ⟨ks, p1, p2⟩ := hF.2
    refine ⟨ks, p1, fun pre k post e => ?_⟩
    have := p2 pre k post e
    simpa only [r.cons, ee] using this
  obtain ⟨x, ex⟩ := exists_data hf'
  obtain ⟨sl, sg⟩ := spec_at hn hc' hf' (SameRefs.refl H) ex
  have hreg : ∀ k ∈ s.cons, Regular H (H.cons k) := fun k hk => by rw [r.cons]; exact hr k hk
  refine ⟨_, sl, ?_⟩
  rcases hst with hst | ⟨g, h', e, hst⟩ | hst
  · left
    rw [sl] at hst
    simpa using hst
  · right
    have hg : Good H s x := fun k hk => (depEq_of_data (SameRefs.refl H) hc' ex hk).all.2.2.1 (hreg k hk)
    obtain ⟨H2, -, e2⟩ := sg hg
    have eg : g = vec (gradAt H s x) := by rw [e2] at e; cases e; rfl
    subst eg
    have h1 := C82_steep hn hc' hf' hF' hreg sl
    rw [slopeSq_vec e2] at h1
    obtain ⟨u, eu, hu⟩ := uniformNorm_vec (gradAt H s x)
    rw [eu] at hst
    have hall := (hu th hth).1 (by simpa using hst)
    have h2 : gradAt H s x ⬝ᵥ gradAt H s x ≤ getNDofs h s * th ^ 2 := by
      have en : getNDofs H s = getNDofs h s := by rw [← dofs_length, ← dofs_length]
      have : gradAt H s x ⬝ᵥ gradAt H s x ≤ ∑ _i : Fin (getNDofs H s), th ^ 2 := by
        refine Finset.sum_le_sum fun i _ => ?_
        have := hall i
        rw [← sq, ← sq_abs]
        exact pow_le_pow_left₀ (abs_nonneg _) this.le 2
      rw [Finset.sum_const, Finset.card_univ, Fintype.card_fin, nsmul_eq_mul] at this
      rwa [← en]
    exact h1.trans (mul_le_mul_of_nonneg_left h2 (by positivity))
  · exact absurd hst hlt.ne

/-! ## Examples -/

/-- a fixed point and two rods of length 5, drawn with lengths 4 and 6 -/
noncomputable def linkHeap : Heap XR :=
  { (Heap.empty : Heap XR) with
    points := fun k => if k = 0 then ⟨⟨fin 0, fin 0⟩, ⟨fin 0, fin 0⟩⟩ else
      if k = 1 then ⟨⟨fin 4, fin 0⟩, ⟨fin 0, fin 0⟩⟩ else ⟨⟨fin 4, fin 6⟩, ⟨fin 0, fin 0⟩⟩
    cons := fun k => if k = 0 then .fix 0 ⟨fin 0, fin 0⟩ else if k = 1 then .euclid 1 2 (fin 5) else .euclid 0 1 (fin 5)
    nPoints := 3
    nCons := 3 }

def linkSketch : Sketch := ⟨[(0, .point 0), (1, .point 1), (2, .point 2)], 3, [1, 2, 0]⟩

theorem link_nodup : linkSketch.cells.Nodup := by simp [Sketch.cells, linkSketch]
theorem link_closed : Closed ⟨linkHeap, linkSketch⟩ := by
  simp [Closed, linkHeap, linkSketch, Sketch.cells, primFields, consFields]
theorem link_finite : FiniteSketch linkHeap linkSketch := by
  refine ⟨?_, by simp [linkSketch, linkHeap, consParams]⟩
  simp [getData, getNDofs, linkSketch, linkHeap, primData, zerosVec, blit]

theorem link_forest : IsForest linkHeap linkSketch := by
  refine ⟨by simp [linkSketch, linkHeap, IsPlain], [0, 2, 1], by simp only [linkSketch]; decide, ?_⟩
  intro pre k post e
  rcases pre with _ | ⟨a, _ | ⟨b, _ | ⟨c, pre⟩⟩⟩
  · simp only [List.nil_append, List.cons.injEq] at e
    obtain ⟨rfl, rfl⟩ := e
    simp [linkHeap, ends]
  · simp only [List.cons_append, List.nil_append, List.cons.injEq] at e
    obtain ⟨rfl, rfl, rfl⟩ := e
    simp [linkHeap, ends]
  · simp only [List.cons_append, List.nil_append, List.cons.injEq] at e
    obtain ⟨rfl, rfl, rfl, rfl⟩ := e
    simp [linkHeap, ends]
  · simp at e

theorem link_dist : hyp (4 - 4) (0 - 6) = 6 ∧ hyp (0 - 4) (0 - 0) = 4 := by
  constructor
  · rw [hyp, show ((4 : ℝ) - 4) * (4 - 4) + (0 - 6) * (0 - 6) = 6 ^ 2 by norm_num, Real.sqrt_sq (by norm_num)]
  · rw [hyp, show ((0 : ℝ) - 4) * (0 - 4) + (0 - 0) * (0 - 0) = 4 ^ 2 by norm_num, Real.sqrt_sq (by norm_num)]

theorem link_loss : getLoss linkHeap linkSketch = fin 1 := by
  rw [getLoss_fin fun k hk => ((link_finite.cons link_closed k hk).real.loss).imp fun x hx => hx.2]
  simp only [linkSketch, List.map_cons, List.map_nil, List.sum_cons, List.sum_nil, add_zero]
  have q0 : ptData linkHeap 0 = ⟨fin 0, fin 0⟩ := rfl
  have q1 : ptData linkHeap 1 = ⟨fin 4, fin 0⟩ := rfl
  have q2 : ptData linkHeap 2 = ⟨fin 4, fin 6⟩ := rfl
  show fin ((lossValue linkHeap (.euclid 1 2 (fin 5))).toReal + ((lossValue linkHeap (.euclid 0 1 (fin 5))).toReal +
    (lossValue linkHeap (.fix 0 ⟨fin 0, fin 0⟩)).toReal)) = _
  rw [loss_euclid q1 q2, loss_euclid q0 q1, loss_fix q0, link_dist.1, link_dist.2, toReal_fin, toReal_fin, toReal_fin]
  norm_num

/-- C81 and C82: the chain meets the hypotheses of all theorems. -/
example : IsForest linkHeap linkSketch ∧ getLoss linkHeap linkSketch = fin 1 ∧ linkSketch.cons ≠ [] ∧
    (∀ k ∈ linkSketch.cons, RoomFor 3 1 (linkHeap.cons k)) ∧ (∀ k ∈ linkSketch.cons, Regular linkHeap (linkHeap.cons k)) ∧
    SmoothBelow linkHeap linkSketch 1 (38 / 3) := by
  have hR : ∀ k ∈ linkSketch.cons, RoomFor 3 1 (linkHeap.cons k) := by
    intro k hk
    simp only [linkSketch, List.mem_cons, List.not_mem_nil, or_false] at hk
    rcases hk with rfl | rfl | rfl
    · exact ⟨by norm_num [XR.toReal], by norm_num [XR.toReal]⟩
    · exact ⟨by norm_num [XR.toReal], by norm_num [XR.toReal]⟩
    · trivial
  refine ⟨link_forest, link_loss, by simp [linkSketch], hR, ?_, ?_⟩
  · intro k hk
    simp only [linkSketch, List.mem_cons, List.not_mem_nil, or_false] at hk
    rcases hk with rfl | rfl | rfl
    · show (1e-6 : ℝ) ≤ dist (pt 4 0) (pt 4 6)
      rw [← hyp_pt, link_dist.1]; norm_num
    · show (1e-6 : ℝ) ≤ dist (pt 0 0) (pt 4 0)
      rw [← hyp_pt, link_dist.2]; norm_num
    · trivial
  · have := C81_distances link_nodup link_closed link_finite link_forest.1 (L := 1) (r := 3) (by norm_num) hR
    have e : (linkSketch.cons.map (fun k => stiffness 3 (linkHeap.cons k))).sum = 38 / 3 := by
      simp [linkSketch, linkHeap, stiffness, XR.toReal]
      norm_num
    rwa [e] at this

/-! ## A circuit -/

theorem len_coord' {n : Nat} (v : Fin n → ℝ) (i : Fin n) : v i ^ 2 ≤ v ⬝ᵥ v := by
  simp only [dotProduct, ← sq]
  exact Finset.single_le_sum (f := fun i => v i ^ 2) (fun i _ => sq_nonneg _) (Finset.mem_univ i)


/-- two points at distance 2 that should be at distances 1 and 3 -/
noncomputable def tugHeap : Heap XR :=
  { (Heap.empty : Heap XR) with
    points := fun k => if k = 0 then ⟨⟨fin 2, fin 0⟩, ⟨fin 0, fin 0⟩⟩ else ⟨⟨fin 0, fin 0⟩, ⟨fin 0, fin 0⟩⟩
    cons := fun k => if k = 0 then .euclid 0 1 (fin 1) else .euclid 0 1 (fin 3)
    nPoints := 2
    nCons := 2 }

def tugSketch : Sketch := ⟨[(0, .point 0), (1, .point 1)], 2, [0, 1]⟩

theorem tug_nodup : tugSketch.cells.Nodup := by simp [Sketch.cells, tugSketch]
theorem tug_closed : Closed ⟨tugHeap, tugSketch⟩ := by
  simp [Closed, tugHeap, tugSketch, Sketch.cells, primFields, consFields]
theorem tug_finite : FiniteSketch tugHeap tugSketch := by
  refine ⟨?_, by simp [tugSketch, tugHeap, consParams]⟩
  simp [getData, getNDofs, tugSketch, tugHeap, primData, zerosVec, blit]

theorem tug_dist : hyp (2 - 0) (0 - 0) = 2 := by
  rw [hyp, show ((2 : ℝ) - 0) * (2 - 0) + (0 - 0) * (0 - 0) = 2 ^ 2 by norm_num, Real.sqrt_sq (by norm_num)]

/-- **C82.** With a circuit this fails: two points at distance 2 that should have the distances 1 and 3.  No constraint is degenerate, the
gradient is zero, and gradient descent returns `Ok` at once with loss 1. -/
theorem C82_circuit : (∀ k ∈ tugSketch.cons, IsPlain (tugHeap.cons k) ∧ Regular tugHeap (tugHeap.cons k)) ∧
    ¬IsForest tugHeap tugSketch ∧ getLoss tugHeap tugSketch = fin 1 ∧ slopeSq tugHeap tugSketch = 0 ∧
    ∀ (n : Nat) (ml mg : ℝ), 0 < mg → (gdSolve ⟨n, fin ml, fin mg⟩ tugHeap tugSketch).res = .ok ∧
      getLoss (gdSolve ⟨n, fin ml, fin mg⟩ tugHeap tugSketch).heap tugSketch = fin 1 := by
  have hpl : ∀ k ∈ tugSketch.cons, IsPlain (tugHeap.cons k) := by simp [tugSketch, tugHeap, IsPlain]
  have hreg : ∀ k ∈ tugSketch.cons, Regular tugHeap (tugHeap.cons k) := by
    intro k hk
    simp only [tugSketch, List.mem_cons, List.not_mem_nil, or_false] at hk
    rcases hk with rfl | rfl
    · show (1e-6 : ℝ) ≤ dist (pt 2 0) (pt 0 0)
      rw [← hyp_pt, tug_dist]; norm_num
    · show (1e-6 : ℝ) ≤ dist (pt 2 0) (pt 0 0)
      rw [← hyp_pt, tug_dist]; norm_num
  have hl : getLoss tugHeap tugSketch = fin 1 := by
    rw [getLoss_fin fun k hk => ((tug_finite.cons tug_closed k hk).real.loss).imp fun x hx => hx.2]
    simp only [tugSketch, List.map_cons, List.map_nil, List.sum_cons, List.sum_nil, add_zero]
    have q0 : ptData tugHeap 0 = ⟨fin 2, fin 0⟩ := rfl
    have q1 : ptData tugHeap 1 = ⟨fin 0, fin 0⟩ := rfl
    show fin ((lossValue tugHeap (.euclid 0 1 (fin 1))).toReal + (lossValue tugHeap (.euclid 0 1 (fin 3))).toReal) = _
    rw [loss_euclid q0 q1, loss_euclid q0 q1, tug_dist, toReal_fin, toReal_fin]
    norm_num
  obtain ⟨x, ex⟩ := exists_data tug_finite
  obtain ⟨sl, sg⟩ := spec_at tug_nodup tug_closed tug_finite (SameRefs.refl _) ex
  have hg : Good tugHeap tugSketch x := fun k hk => (depEq_of_data (SameRefs.refl _) tug_closed ex hk).all.2.2.1 (hreg k hk)
  obtain ⟨H, gH, e⟩ := sg hg
  have hgrad : gradAt tugHeap tugSketch x = 0 := by
    have hx : ∀ d ∈ tugSketch.dofs, val tugHeap d = fin (coordOf tugHeap tugSketch x d) := fun d hd => val_of_data ex hd
    have p0x := hx (.px 0) (mem_sketch_dofs.2 (by simp [Dof.owner, tugSketch, Sketch.cells]))
    have p0y := hx (.py 0) (mem_sketch_dofs.2 (by simp [Dof.owner, tugSketch, Sketch.cells]))
    have p1x := hx (.px 1) (mem_sketch_dofs.2 (by simp [Dof.owner, tugSketch, Sketch.cells]))
    have p1y := hx (.py 1) (mem_sketch_dofs.2 (by simp [Dof.owner, tugSketch, Sketch.cells]))
    simp only [val, tugHeap, if_true, one_ne_zero, if_false, fin.injEq] at p0x p0y p1x p1y
    have hd : sway (cpt (coordOf tugHeap tugSketch x)) 0 (some 1) = ⟨2, 0⟩ := by
      apply Complex.ext
      · simp only [sway, Option.elim_some, cpt, Complex.sub_re]
        rw [show coordOf tugHeap tugSketch x (.px 0) = 2 from p0x.symm, show coordOf tugHeap tugSketch x (.px 1) = 0 from p1x.symm, sub_zero]
      · simp only [sway, Option.elim_some, cpt, Complex.sub_im]
        rw [show coordOf tugHeap tugSketch x (.py 0) = 0 from p0y.symm, show coordOf tugHeap tugSketch x (.py 1) = 0 from p1y.symm, sub_zero]
    have hnd : ‖(⟨2, 0⟩ : ℂ)‖ = 2 := by
      rw [← hyp_norm, hyp, show (2 : ℝ) * 2 + 0 * 0 = 2 ^ 2 by norm_num, Real.sqrt_sq (by norm_num)]
    have hdot : gradAt tugHeap tugSketch x ⬝ᵥ gradAt tugHeap tugSketch x = 0 := by
      rw [gradAt_dot tug_nodup tug_finite hpl hg]
      generalize lift tugHeap tugSketch (gradAt tugHeap tugSketch x) = y
      show ([0, 1].map _).sum = 0
      simp only [List.map_cons, List.map_nil, List.sum_cons, List.sum_nil, add_zero]
      have c0 : tugHeap.cons 0 = .euclid 0 1 (fin 1) := rfl
      have c1 : tugHeap.cons 1 = .euclid 0 1 (fin 3) := rfl
      rw [c0, c1]
      simp only [pull, front, back, hd, rodPull, hnd, toReal_fin]
      simp [dot2]
      ring
    funext i
    have h1 := len_coord' (gradAt tugHeap tugSketch x) i
    rw [hdot] at h1
    exact pow_eq_zero_iff (two_ne_zero) |>.1 (le_antisymm h1 (sq_nonneg _))
  have hs0 : slopeSq tugHeap tugSketch = 0 := by rw [slopeSq_vec e, hgrad, dotProduct_zero]
  refine ⟨fun k hk => ⟨hpl k hk, hreg k hk⟩, fun hF => ?_, hl, hs0, fun n ml mg hmg => ?_⟩
  · have := C82_steep tug_nodup tug_closed tug_finite hF hreg hl
    rw [hs0, mul_zero] at this
    norm_num at this
  · unfold gdSolve
    rw [e]
    dsimp only
    have hn0 : normL (vec (gradAt tugHeap tugSketch x)) = fin 0 := by
      rw [normL_vec, hgrad, dotProduct_zero, Real.sqrt_zero]
    cases n with
    | zero => exact ⟨rfl, by show getLoss H tugSketch = fin 1; rw [gH.getLoss, hl]⟩
    | succ n =>
      rw [gdLoop, hn0, if_pos (by simpa using hmg)]
      exact ⟨rfl, by show getLoss H tugSketch = fin 1; rw [gH.getLoss, hl]⟩

end Isotope
