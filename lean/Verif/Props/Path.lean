import Verif.Lemmas.Path
import Verif.Props.Forest
import Verif.Props.Edit

/-!
# How far gradient descent moves a sketch; sketches without circuits can be solved nearby (C109)

In exact arithmetic (`XR`).
-/

namespace Isotope
open XR
open Matrix

variable {h h' : Heap XR} {s : Sketch} {q : Fin (getNDofs h s) → ℝ}

/-- **C109.** A sketch with loss `L` in which, at all positions with loss at most `L`, no constraint is degenerate and the square of the
gradient is at least `2 mu` times the loss.  Whatever its parameters are (`min_grad` being positive), gradient descent returns `Ok` or
`SearchFailed`; the length of its way through all steps is at most `1e4 √(2L / mu)`; no step leads farther than that from the start; and
if it returns `Ok` with the loss `L1`, the way is at most `1e4 (√(2L) - √(2L1)) / √mu` long. -/
theorem C109_travel (hn : s.cells.Nodup) (hc : Closed ⟨h, s⟩) (hf : FiniteSketch h s) (hq : getData h s = vec q) {L mu : ℝ}
    (hL : getLoss h s = fin L) (hR : RegularBelow h s L) (hst : SteepBelow h s L mu) (hmu : 0 < mu) (n : Nat) {ml mg : ℝ} (hmg : 0 < mg) :
    ((gdSolve ⟨n, fin ml, fin mg⟩ h s).res = .ok ∨ (gdSolve ⟨n, fin ml, fin mg⟩ h s).res = .err .searchFailed) ∧
    travel s (gdSolve ⟨n, fin ml, fin mg⟩ h s).steps ≤ 1e4 / √mu * √(2 * L) ∧
    (∀ r ∈ (gdSolve ⟨n, fin ml, fin mg⟩ h s).steps, ∃ y : Fin (getNDofs h s) → ℝ, getData r.post s = vec y ∧
      dist2 q y ≤ 1e4 / √mu * √(2 * L)) ∧
    ((gdSolve ⟨n, fin ml, fin mg⟩ h s).res = .ok → ∃ (x : Fin (getNDofs h s) → ℝ) (L1 : ℝ),
      getData (gdSolve ⟨n, fin ml, fin mg⟩ h s).heap s = vec x ∧ getLoss (gdSolve ⟨n, fin ml, fin mg⟩ h s).heap s = fin L1 ∧ 0 ≤ L1 ∧
      dist2 q x ≤ travel s (gdSolve ⟨n, fin ml, fin mg⟩ h s).steps ∧
      travel s (gdSolve ⟨n, fin ml, fin mg⟩ h s).steps ≤ 1e4 / √mu * (√(2 * L) - √(2 * L1))) := by
  obtain ⟨sl, sg⟩ := spec_at hn hc hf (SameRefs.refl h) hq
  have hx : lossAfter h s q = L := XR.fin.inj (sl.symm.trans hL)
  have hU : ∀ v, lossAfter h s v ≤ L → Good h s v := fun v hv => good_of hn hc fun h' e => hR v h' hv e
  obtain ⟨H1, g1, e1⟩ := sg (hU q hx.le)
  have key := gdLoop_path hn hc hf hU (fun v hv => hst v _ hv (hasFDerivAt_lossAfter hn hc hf (hU v hv))) hmu
    ⟨n, fin ml, fin mg⟩ rfl rfl hmg n H1 g1.1 q (by rw [g1.getData, hq]) hx.le
  have eo : gdSolve ⟨n, fin ml, fin mg⟩ h s =
      gdLoop ⟨n, fin ml, fin mg⟩ s n H1 (vec (gradAt h s q)) (normL (vec (gradAt h s q))) (getLoss H1 s) := by
    unfold gdSolve
    rw [e1]
  rw [← eo] at key
  obtain ⟨k1, k2, k3, k4⟩ := key
  rw [hx] at k2
  refine ⟨k1, k2, fun r hr => ?_, fun hr => ?_⟩
  · obtain ⟨y, ey, hy⟩ := k3 r hr
    refine ⟨y, ey, hy.trans ?_⟩
    rw [hx]
    refine mul_le_mul_of_nonneg_left ?_ (by positivity)
    linarith [Real.sqrt_nonneg (2 * lossAfter h s y)]
  · obtain ⟨x, r1, ex, h1, h2⟩ := k4 hr
    rw [hx] at h2
    exact ⟨x, _, ex, (spec_at hn hc hf r1 ex).1, lossAfter_pos hn hc hf x, h1, h2⟩

/-- **C109.** So for a sketch without circuits (fixed points, all three kinds of distances, horizontal and vertical lines) with `K`
constraints and the loss `L`, whose desired Euclidean distances are at least `√(2L)` and a bit: the way of gradient descent is at most
`1e4 K √(2L)` long. -/
theorem C109_forest (hn : s.cells.Nodup) (hc : Closed ⟨h, s⟩) (hf : FiniteSketch h s) (hF : IsForest h s) (h0 : s.cons ≠ [])
    (hq : getData h s = vec q) {L r : ℝ} (hL : getLoss h s = fin L) (hr : 1e-6 ≤ r) (hR : ∀ k ∈ s.cons, RoomFor r L (h.cons k))
    (n : Nat) {ml mg : ℝ} (hmg : 0 < mg) :
    ((gdSolve ⟨n, fin ml, fin mg⟩ h s).res = .ok ∨ (gdSolve ⟨n, fin ml, fin mg⟩ h s).res = .err .searchFailed) ∧
    travel s (gdSolve ⟨n, fin ml, fin mg⟩ h s).steps ≤ 1e4 * s.cons.length * √(2 * L) ∧
    (∀ r ∈ (gdSolve ⟨n, fin ml, fin mg⟩ h s).steps, ∃ y : Fin (getNDofs h s) → ℝ, getData r.post s = vec y ∧
      dist2 q y ≤ 1e4 * s.cons.length * √(2 * L)) ∧
    ((gdSolve ⟨n, fin ml, fin mg⟩ h s).res = .ok → ∃ (x : Fin (getNDofs h s) → ℝ) (L1 : ℝ),
      getData (gdSolve ⟨n, fin ml, fin mg⟩ h s).heap s = vec x ∧ getLoss (gdSolve ⟨n, fin ml, fin mg⟩ h s).heap s = fin L1 ∧ 0 ≤ L1 ∧
      dist2 q x ≤ 1e4 * s.cons.length * (√(2 * L) - √(2 * L1))) := by
  have hK : 0 < (s.cons.length : ℝ) := by exact_mod_cast List.length_pos_iff.2 h0
  have e : 1e4 / √(1 / (s.cons.length : ℝ) ^ 2) = 1e4 * s.cons.length := by
    rw [one_div, Real.sqrt_inv, Real.sqrt_sq hK.le, div_inv_eq_mul]
  have key := C109_travel hn hc hf hq hL (fun v h' hv e => regular_of hn hc (plain_good hn hc hf hF.1 hr hR hv) e)
    (forest_steepBelow hn hc hf hF h0 hr hR) (by positivity) n (ml := ml) hmg
  rw [e] at key
  obtain ⟨k1, k2, k3, k4⟩ := key
  refine ⟨k1, k2, k3, fun hr => ?_⟩
  obtain ⟨x, L1, a1, a2, a3, a4, a5⟩ := k4 hr
  exact ⟨x, L1, a1, a2, a3, a4.trans a5⟩

/-! ## Solutions nearby -/

/-- how to move the points of a constraint to meet it -/
theorem plain_gap {c : Constraint XR} (hc : IsPlain c) (hd : NonnegDist c) (hp : ∀ x ∈ consParams c, Num.isFinite x = true) (θ : Dof → ℝ) :
    ∃ w : ℂ, ‖w‖ ^ 2 = 2 * (lossValue (h.withDofs θ) c).toReal ∧
      ∀ θ', sway (cpt θ') (front h c) (back h c) = sway (cpt θ) (front h c) (back h c) + w →
        (lossValue (h.withDofs θ') c).toReal = 0 := by
  cases c with
  | fix p D =>
    obtain ⟨X, Y⟩ := D
    obtain ⟨X, rfl⟩ := (isFinite_iff _).1 (hp X (by simp [consParams]))
    obtain ⟨Y, rfl⟩ := (isFinite_iff _).1 (hp Y (by simp [consParams]))
    refine ⟨⟨X - θ (.px p), Y - θ (.py p)⟩, ?_, fun θ' e => ?_⟩
    · rw [loss_fix (ptData_withDofs _ _), toReal_fin, Complex.sq_norm, Complex.normSq_apply]
      ring
    · simp only [sway, cpt, front, back, Option.elim_none, sub_zero, Complex.ext_iff, Complex.add_re, Complex.add_im] at e
      rw [loss_fix (ptData_withDofs _ _), toReal_fin, e.1, e.2]
      ring
  | horizDist p1 p2 D =>
    obtain ⟨D, rfl⟩ := (isFinite_iff _).1 (hp D (by simp [consParams]))
    refine ⟨⟨D - (θ (.px p2) - θ (.px p1)), 0⟩, ?_, fun θ' e => ?_⟩
    · rw [loss_horiz (ptData_withDofs _ _) (ptData_withDofs _ _), toReal_fin, Complex.sq_norm, Complex.normSq_apply]
      ring
    · simp only [sway, cpt, front, back, Option.elim_some, Complex.ext_iff, Complex.add_re, Complex.add_im, Complex.sub_re, Complex.sub_im] at e
      rw [loss_horiz (ptData_withDofs _ _) (ptData_withDofs _ _), toReal_fin, e.1]
      ring
  | vertDist p1 p2 D =>
    obtain ⟨D, rfl⟩ := (isFinite_iff _).1 (hp D (by simp [consParams]))
    refine ⟨⟨0, D - (θ (.py p2) - θ (.py p1))⟩, ?_, fun θ' e => ?_⟩
    · rw [loss_vert (ptData_withDofs _ _) (ptData_withDofs _ _), toReal_fin, Complex.sq_norm, Complex.normSq_apply]
      ring
    · simp only [sway, cpt, front, back, Option.elim_some, Complex.ext_iff, Complex.add_re, Complex.add_im, Complex.sub_re, Complex.sub_im] at e
      rw [loss_vert (ptData_withDofs _ _) (ptData_withDofs _ _), toReal_fin, e.2]
      ring
  | horizLine l =>
    refine ⟨⟨0, -(θ (.py (h.lines l).stop) - θ (.py (h.lines l).start))⟩, ?_, fun θ' e => ?_⟩
    · rw [loss_horizLine (lineStart_withDofs _ _) (lineEnd_withDofs _ _), toReal_fin, Complex.sq_norm, Complex.normSq_apply]
      ring
    · simp only [sway, cpt, front, back, Option.elim_some, Complex.ext_iff, Complex.add_re, Complex.add_im, Complex.sub_re, Complex.sub_im] at e
      rw [loss_horizLine (lineStart_withDofs _ _) (lineEnd_withDofs _ _), toReal_fin, e.2]
      ring
  | vertLine l =>
    refine ⟨⟨-(θ (.px (h.lines l).stop) - θ (.px (h.lines l).start)), 0⟩, ?_, fun θ' e => ?_⟩
    · rw [loss_vertLine (lineStart_withDofs _ _) (lineEnd_withDofs _ _), toReal_fin, Complex.sq_norm, Complex.normSq_apply]
      ring
    · simp only [sway, cpt, front, back, Option.elim_some, Complex.ext_iff, Complex.add_re, Complex.add_im, Complex.sub_re, Complex.sub_im] at e
      rw [loss_vertLine (lineStart_withDofs _ _) (lineEnd_withDofs _ _), toReal_fin, e.1]
      ring
  | euclid p1 p2 D =>
    obtain ⟨D, rfl⟩ := (isFinite_iff _).1 (hp D (by simp [consParams]))
    have hD : 0 ≤ D := hd
    have en : ∀ θ : Dof → ℝ, hyp (θ (.px p1) - θ (.px p2)) (θ (.py p1) - θ (.py p2)) = ‖cpt θ p1 - cpt θ p2‖ := by
      intro θ; rw [hyp_norm]; rfl
    have el : ∀ θ : Dof → ℝ, (lossValue (h.withDofs θ) (.euclid p1 p2 (fin D))).toReal = (‖cpt θ p1 - cpt θ p2‖ - D) ^ 2 / 2 := by
      intro θ
      rw [loss_euclid (ptData_withDofs _ _) (ptData_withDofs _ _), toReal_fin, en]
    simp only [el, sway, front, back, Option.elim_some]
    generalize cpt θ p1 - cpt θ p2 = z
    by_cases hz : z = 0
    · refine ⟨(D : ℂ), ?_, fun θ' e => ?_⟩
      · rw [hz, norm_zero, Complex.norm_real, Real.norm_of_nonneg hD]; ring
      · rw [e, hz, zero_add, Complex.norm_real, Real.norm_of_nonneg hD]; ring
    · refine ⟨-rodPull D z, ?_, fun θ' e => ?_⟩
      · rw [norm_neg, rodPull_norm hz]; ring
      · have h1 : z + -rodPull D z = D • ((‖z‖⁻¹ : ℝ) • z) := by rw [rodPull]; abel
        have h2 : ‖z‖ ≠ 0 := norm_ne_zero_iff.2 hz
        rw [e, h1, norm_smul, norm_smul, Real.norm_of_nonneg hD, Real.norm_of_nonneg (by positivity), inv_mul_cancel₀ h2]
        ring
  | _ => exact absurd hc (by simp [IsPlain])

theorem ends_mem (hc : Closed ⟨h, s⟩) {k : Nat} (hk : k ∈ s.cons) {p : Nat} (hpe : p ∈ ends h (h.cons k)) :
    PrimCell.point p ∈ s.cells := by
  have hd : PrimCell.point p ∈ consDeps h (h.cons k) := by
    revert hpe
    cases h.cons k <;> simp [ends, consDeps, consFields, primFields] <;> tauto
  unfold consDeps at hd
  rcases List.mem_append.1 hd with hd | hd
  · exact hc.2 k hk _ hd
  · obtain ⟨x, hx, hd⟩ := List.mem_flatMap.1 hd
    exact hc.1 x (hc.2 k hk x hx) _ hd

/-- **C109.** A sketch without circuits whose desired Euclidean distances are not negative can be solved; if it has `K` constraints and
the loss `L`, there are coordinates with loss zero not farther than `K √(2L)` from its own. -/
theorem C109_solvable (hn : s.cells.Nodup) (hc : Closed ⟨h, s⟩) (hf : FiniteSketch h s) (hF : IsForest h s)
    (hd : ∀ k ∈ s.cons, NonnegDist (h.cons k)) (hq : getData h s = vec q) {L : ℝ} (hL : getLoss h s = fin L) :
    ∃ z : Fin (getNDofs h s) → ℝ, lossAfter h s z = 0 ∧ dist2 q z ≤ s.cons.length * √(2 * L) := by
  obtain ⟨hp, ks, perm, hG⟩ := hF
  have hx : lossAfter h s q = L := XR.fin.inj ((spec_at hn hc hf (SameRefs.refl h) hq).1.symm.trans hL)
  have hL0 : 0 ≤ L := by rw [← hx]; exact lossAfter_pos hn hc hf q
  choose! w hw1 hw2 using fun (k : Nat) (hk : k ∈ s.cons) => plain_gap (h := h) (hp k hk) (hd k hk) (hf.2 k hk) (coordOf h s q)
  have hpk : ∀ k ∈ ks, IsPlain (h.cons k) := fun k hk => hp k (perm.mem_iff.1 hk)
  obtain ⟨u, u1, -, -, u4⟩ := hG.solve ks hpk w
  set y : Fin (getNDofs h s) → ℝ := fun i => spread u (s.dofs[i.1]'(by rw [dofs_length h]; exact i.2)) with ey
  have hly : ∀ d ∈ s.dofs, lift h s y d = spread u d := by
    intro d hd
    rw [lift_mem y hd, ey]
    simp
  have hcp : ∀ k ∈ s.cons, ∀ p ∈ ends h (h.cons k), cpt (coordOf h s (q + y)) p = cpt (coordOf h s q) p + u p := by
    intro k hk p hpe
    have hmem := ends_mem hc hk hpe
    have h1 := coordOf_sub (h := h) (s := s) (q + y) q
    rw [add_sub_cancel_left] at h1
    have hx := congrFun h1 (.px p)
    have hy := congrFun h1 (.py p)
    rw [Pi.sub_apply, hly (.px p) (mem_sketch_dofs.2 hmem)] at hx
    rw [Pi.sub_apply, hly (.py p) (mem_sketch_dofs.2 hmem)] at hy
    simp only [spread] at hx hy
    apply Complex.ext
    · simp only [cpt, Complex.add_re]; linarith
    · simp only [cpt, Complex.add_im]; linarith
  refine ⟨q + y, ?_, ?_⟩
  · rw [lossAfter_eq hn hc hf]
    refine List.sum_eq_zero fun e he => ?_
    obtain ⟨k, hk, rfl⟩ := List.mem_map.1 he
    refine hw2 k hk _ ?_
    rw [← u1 k (perm.mem_iff.2 hk)]
    have hE := ends_eq (h := h) (hp k hk)
    have h1 := hcp k hk (front h (h.cons k)) (by rw [hE]; simp)
    unfold sway
    rw [h1]
    cases hb : back h (h.cons k) with
    | none => simp
    | some b =>
      have h2 := hcp k hk b (by rw [hE, hb]; simp)
      simp only [Option.elim_some]
      rw [h2]; ring
  · have e0 : dist2 q (q + y) = √(y ⬝ᵥ y) := by
      unfold dist2 distSq
      congr 1
      refine Finset.sum_congr rfl fun i _ => ?_
      simp only [Pi.add_apply]; ring
    have hsum : (s.cons.map fun k => ‖w k‖ ^ 2).sum = 2 * L := by
      rw [← hx, lossAfter_eq hn hc hf, ← List.sum_map_mul_left]
      congr 1
      exact List.map_congr_left fun k hk => hw1 k hk
    have e1 : y ⬝ᵥ y = ∑ d ∈ s.dofs.toFinset, spread u d ^ 2 := by
      rw [← sum_dofs (h := h) hn (fun d => spread u d ^ 2)]
      simp only [dotProduct, sq, ey]
    have hlen : y ⬝ᵥ y ≤ s.cons.length ^ 2 * (2 * L) := by
      rw [e1]
      refine (spread_le u u4 _).trans ?_
      have e2 : ks.length = s.cons.length := perm.length_eq
      have h1 := list_sq_sum ks (fun k => ‖w k‖)
      have e3 : (ks.map (fun k => ‖w k‖ ^ 2)).sum = 2 * L := by
        rw [← hsum]
        exact (perm.map _).sum_eq
      rw [e3] at h1
      have h2 := mul_le_mul_of_nonneg_left h1 (Nat.cast_nonneg (α := ℝ) ks.length)
      rw [e2] at h2 ⊢
      linarith
    rw [e0, Real.sqrt_le_left (by positivity), mul_pow, Real.sq_sqrt (by linarith)]
    exact hlen

/-! ## Edits -/

theorem Redimensioned.isPlain {c c' : Constraint XR} (r : Redimensioned c c') (hl : IsPlain c) : IsPlain c' := by
  rcases r with rfl | ⟨d, e⟩ | ⟨d, e⟩
  · exact hl
  · cases c <;> simp only [Constraint.setDesired, Option.some.injEq, reduceCtorEq] at e <;> subst e <;>
      exact hl
  · cases c <;> simp only [Constraint.setDesiredPos, Option.some.injEq, reduceCtorEq] at e
    subst e
    trivial

theorem Redimensioned.ends {c c' : Constraint XR} (r : Redimensioned c c') : ends h c' = Isotope.ends h c := by
  rcases r with rfl | ⟨d, e⟩ | ⟨d, e⟩
  · rfl
  · cases c <;> simp only [Constraint.setDesired, Option.some.injEq, reduceCtorEq] at e <;> subst e <;> rfl
  · cases c <;> simp only [Constraint.setDesiredPos, Option.some.injEq, reduceCtorEq] at e
    subst e
    rfl

theorem EditedTo.isForest (e : EditedTo h h') (hF : IsForest h s) : IsForest h' s := by
  refine ⟨fun k hk => (e.cons k).isPlain (hF.1 k hk), ?_⟩
  obtain ⟨ks, p1, p2⟩ := hF.2
  have ee : ∀ k, Isotope.ends h' (h'.cons k) = Isotope.ends h (h.cons k) := by
    intro k
    rw [← (e.cons k).ends]
    generalize h'.cons k = c
    cases c <;> simp [Isotope.ends, e.lines]
  refine ⟨ks, p1, fun pre k post he => ?_⟩
  have := p2 pre k post he
  simpa only [ee] using this

theorem sqrt_two_half {a : ℝ} : √(2 * (a ^ 2 / 2)) = |a| := by
  rw [show 2 * (a ^ 2 / 2) = a ^ 2 by ring, Real.sqrt_sq_eq_abs]

theorem hyp_edit {n d d' : ℝ} : √(2 * ((n - d') ^ 2 / 2)) ≤ √(2 * ((n - d) ^ 2 / 2)) + √((d' - d) ^ 2) := by
  rw [sqrt_two_half, sqrt_two_half, Real.sqrt_sq_eq_abs]
  have := abs_sub (n - d) (d' - d)
  rwa [show n - d - (d' - d) = n - d' by ring] at this

/-- an edit of one constraint -/
theorem EditedTo.lossValue (e : EditedTo h h') {c c' : Constraint XR} (r : Redimensioned c c') (hp : IsPlain c) (hf : FiniteCons h c)
    (hf' : FiniteCons h' c') : √(2 * (lossValue h' c').toReal) ≤ √(2 * (Isotope.lossValue h c).toReal) + √(editSq c c') := by
  by_cases hl : IsLinear c
  · have ep : placeOf h' = placeOf h := by unfold placeOf; rw [e.points]
    have er : ∀ a, axRow h' a c' = axRow h a c := by
      intro a
      rw [← r.row]
      cases c' <;> simp [axRow, e.lines]
    have f' : 2 * (Isotope.lossValue h' c').toReal =
        (axErr h (placeOf h) 0 c - (axGoal 0 c' - axGoal 0 c)) ^ 2 + (axErr h (placeOf h) 1 c - (axGoal 1 c' - axGoal 1 c)) ^ 2 := by
      rw [ax_loss hf' (r.isLinear hl), toReal_fin, ep]
      unfold axErr
      rw [er, er]
      ring
    have f : 2 * (Isotope.lossValue h c).toReal = axErr h (placeOf h) 0 c ^ 2 + axErr h (placeOf h) 1 c ^ 2 := by
      rw [ax_loss hf hl, toReal_fin]; ring
    rw [f, f', ← r.goals hl]
    exact pair_minkowski _ _ _ _
  · cases c with
    | euclid p1 p2 d =>
      obtain ⟨d', rfl⟩ : ∃ d', c' = .euclid p1 p2 d' := by
        rcases r with rfl | ⟨d', e⟩ | ⟨d', e⟩
        · exact ⟨d, rfl⟩
        · simp only [Constraint.setDesired, Option.some.injEq] at e
          exact ⟨d', e.symm⟩
        · simp [Constraint.setDesiredPos] at e
      obtain ⟨D, rfl⟩ := (isFinite_iff _).1 (hf.2 d (by simp [consParams]))
      obtain ⟨D', rfl⟩ := (isFinite_iff _).1 (hf'.2 d' (by simp [consParams]))
      obtain ⟨x1, y1, e1⟩ := finite_pt (hf.1 (.point p1) (by simp [consDeps, consFields]))
      obtain ⟨x2, y2, e2⟩ := finite_pt (hf.1 (.point p2) (by simp [consDeps, consFields]))
      have e1' : ptData h' p1 = ⟨fin x1, fin y1⟩ := by rw [← e1]; unfold ptData; rw [e.points]
      have e2' : ptData h' p2 = ⟨fin x2, fin y2⟩ := by rw [← e2]; unfold ptData; rw [e.points]
      rw [loss_euclid e1 e2, loss_euclid e1' e2', toReal_fin, toReal_fin]
      have := hyp_edit (n := hyp (x1 - x2) (y1 - y2)) (d := D) (d' := D')
      simpa [editSq, consParams] using this
    | fix => exact (hl (.inl trivial)).elim
    | horizDist => exact (hl (.inr trivial)).elim
    | vertDist => exact (hl (.inr trivial)).elim
    | horizLine => exact (hl (.inr trivial)).elim
    | vertLine => exact (hl (.inr trivial)).elim
    | _ => exact hp.elim

/-- **C109.** Changing the desired values of fixed points and of horizontal, vertical and Euclidean distances by `δ` altogether changes
the square root of twice the loss by at most `δ`. -/
theorem C109_loss (hc : Closed ⟨h, s⟩) (hf : FiniteSketch h s) (hp : ∀ k ∈ s.cons, IsPlain (h.cons k)) (e : EditedTo h h')
    (hf' : FiniteSketch h' s) :
    getData h' s = getData h s ∧ ∃ L L' : ℝ, getLoss h s = fin L ∧ getLoss h' s = fin L' ∧ √(2 * L') ≤ √(2 * L) + editSize h h' s := by
  have hc' := e.closed hc
  have F := fun k hk => (hf.cons hc k hk).real.loss
  have F' := fun k hk => (hf'.cons hc' k hk).real.loss
  refine ⟨e.getData, _, _, getLoss_fin fun k hk => (F k hk).imp fun x hx => hx.2, getLoss_fin fun k hk => (F' k hk).imp fun x hx => hx.2, ?_⟩
  rw [← List.sum_map_mul_left, ← List.sum_map_mul_left]
  unfold editSize
  refine list_minkowski _ _ _ _ (fun k hk => ?_) (fun k _ => editSq_nonneg _ _) (fun k hk => ?_) (fun k hk => ?_)
  · obtain ⟨x, hx, ex⟩ := F k hk
    rw [ex, toReal_fin]; linarith
  · exact e.lossValue (e.cons k) (hp k hk) (hf.cons hc k hk) (hf'.cons hc' k hk)
  · obtain ⟨x, hx, ex⟩ := F' k hk
    rw [ex, toReal_fin]; linarith

/-- **C109.** Editing desired values in a sketch without circuits (`K` constraints, loss `L`) by `δ` altogether, so that all desired
Euclidean distances are at least `√(2L) + δ` and a bit: the edited sketch can be solved, with coordinates not farther than
`K (√(2L) + δ)` from the present ones, and gradient descent never goes farther than `1e4 K (√(2L) + δ)` from them. -/
theorem C109_edit (hn : s.cells.Nodup) (hc : Closed ⟨h, s⟩) (hf : FiniteSketch h s) (hF : IsForest h s) (h0 : s.cons ≠ [])
    {L : ℝ} (hL : getLoss h s = fin L) (e : EditedTo h h') (hf' : FiniteSketch h' s) {r : ℝ} (hr : 1e-6 ≤ r)
    (hD : ∀ k ∈ s.cons, ∀ p1 p2 d, h'.cons k = .euclid p1 p2 (fin d) → r + (√(2 * L) + editSize h h' s) ≤ d)
    {q : Fin (getNDofs h' s) → ℝ} (hq : getData h s = vec q) (n : Nat) {ml mg : ℝ} (hmg : 0 < mg) :
    (∃ z : Fin (getNDofs h' s) → ℝ, lossAfter h' s z = 0 ∧ dist2 q z ≤ s.cons.length * (√(2 * L) + editSize h h' s)) ∧
    ((gdSolve ⟨n, fin ml, fin mg⟩ h' s).res = .ok ∨ (gdSolve ⟨n, fin ml, fin mg⟩ h' s).res = .err .searchFailed) ∧
    (∀ r ∈ (gdSolve ⟨n, fin ml, fin mg⟩ h' s).steps, ∃ y : Fin (getNDofs h' s) → ℝ, getData r.post s = vec y ∧
      dist2 q y ≤ 1e4 * s.cons.length * (√(2 * L) + editSize h h' s)) ∧
    ((gdSolve ⟨n, fin ml, fin mg⟩ h' s).res = .ok → ∃ x : Fin (getNDofs h' s) → ℝ,
      getData (gdSolve ⟨n, fin ml, fin mg⟩ h' s).heap s = vec x ∧ dist2 q x ≤ 1e4 * s.cons.length * (√(2 * L) + editSize h h' s)) := by
  have hc' := e.closed hc
  have hF' := e.isForest hF
  obtain ⟨ed, L0, L', eL, eL', hle⟩ := C109_loss hc hf hF.1 e hf'
  cases XR.fin.inj (hL.symm.trans eL)
  have hq' : getData h' s = vec q := ed.trans hq
  have hx : lossAfter h' s q = L' := XR.fin.inj ((spec_at hn hc' hf' (SameRefs.refl h') hq').1.symm.trans eL')
  have hL0 : 0 ≤ L' := by rw [← hx]; exact lossAfter_pos hn hc' hf' q
  have hr0 : 0 < r := lt_of_lt_of_le (by norm_num) hr
  have hS : 0 ≤ √(2 * L) + editSize h h' s := add_nonneg (Real.sqrt_nonneg _) (Real.sqrt_nonneg _)
  have hK : (0 : ℝ) ≤ s.cons.length := Nat.cast_nonneg _
  have hR : ∀ k ∈ s.cons, RoomFor r L' (h'.cons k) ∧ NonnegDist (h'.cons k) := by
    intro k hk
    have hp := hf'.2 k hk
    have hd := hD k hk
    generalize h'.cons k = c at hp hd
    cases c with
    | euclid p1 p2 d =>
      obtain ⟨d, rfl⟩ := (isFinite_iff _).1 (hp d (by simp [consParams]))
      have := hd p1 p2 d rfl
      refine ⟨⟨by rw [toReal_fin]; linarith, ?_⟩, by show 0 ≤ XR.toReal (fin d); rw [toReal_fin]; linarith⟩
      rw [toReal_fin, ← Real.sq_sqrt (show 0 ≤ 2 * L' by linarith)]
      exact pow_le_pow_left₀ (Real.sqrt_nonneg _) (by linarith) 2
    | _ => exact ⟨trivial, trivial⟩
  obtain ⟨z, hz, hzd⟩ := C109_solvable hn hc' hf' hF' (fun k hk => (hR k hk).2) hq' eL'
  obtain ⟨k1, -, k3, k4⟩ := C109_forest hn hc' hf' hF' h0 hq' eL' hr (fun k hk => (hR k hk).1) n (ml := ml) hmg
  refine ⟨⟨z, hz, hzd.trans (mul_le_mul_of_nonneg_left hle hK)⟩, k1, fun r hr => ?_, fun hok => ?_⟩
  · obtain ⟨y, ey, hy⟩ := k3 r hr
    exact ⟨y, ey, hy.trans (mul_le_mul_of_nonneg_left hle (by positivity))⟩
  · obtain ⟨x, L1, ex, -, h1, hx⟩ := k4 hok
    refine ⟨x, ex, hx.trans (mul_le_mul_of_nonneg_left ?_ (by positivity))⟩
    linarith [Real.sqrt_nonneg (2 * L1)]

/-! ## Examples -/

/-- the chain of two rods with the second rod to be 6 long instead of 5 -/
noncomputable def longerHeap : Heap XR := linkHeap.setCons 1 (.euclid 1 2 (fin 6))

theorem longer_edited : EditedTo linkHeap longerHeap :=
  C108_setter (k := 1) (call := .desired (fin 6)) (.inl ⟨_, rfl⟩) (by
    simp [SetterCall.run, SetterCall.onCons, linkHeap, Constraint.setDesired, longerHeap])

theorem longer_size : editSize linkHeap longerHeap linkSketch = 1 := by
  unfold editSize
  simp [linkSketch, longerHeap, linkHeap, Heap.setCons, upd_apply, editSq, consParams, toReal_fin]
  norm_num

theorem longer_finite : FiniteSketch longerHeap linkSketch := by
  refine ⟨?_, by simp [linkSketch, longerHeap, linkHeap, Heap.setCons, upd_apply, consParams]⟩
  rw [longer_edited.getData]
  exact link_finite.1

/-- C109: the hypotheses of `C109_edit` hold of this edit with `r = 1`: the way gradient descent can go is bounded, and the longer
chain can be solved. -/
example : ∃ q : Fin (getNDofs longerHeap linkSketch) → ℝ, getData linkHeap linkSketch = vec q ∧
    ∃ z : Fin (getNDofs longerHeap linkSketch) → ℝ, lossAfter longerHeap linkSketch z = 0 ∧ dist2 q z ≤ 3 * (√(2 * 1) + 1) := by
  obtain ⟨q, hq⟩ := exists_data longer_finite
  rw [longer_edited.getData] at hq
  have key := C109_edit link_nodup link_closed link_finite link_forest (by simp [linkSketch]) link_loss longer_edited longer_finite
    (r := 1) (by norm_num) (fun k hk p1 p2 d hd => by
      rw [longer_size]
      have hs : √(2 * 1) ≤ 2 := by rw [Real.sqrt_le_left (by norm_num)]; norm_num
      have : 5 ≤ d := by
        simp only [linkSketch, List.mem_cons, List.not_mem_nil, or_false] at hk
        rcases hk with rfl | rfl | rfl
        · simp [longerHeap, linkHeap, Heap.setCons] at hd
          linarith [hd.2.2]
        · simp [longerHeap, linkHeap, Heap.setCons, upd_apply] at hd
          linarith [hd.2.2]
        · simp [longerHeap, linkHeap, Heap.setCons, upd_apply] at hd
      linarith) hq 10 (ml := 1e-14) (mg := 1e-10) (by norm_num)
  obtain ⟨⟨z, h1, h2⟩, -⟩ := key
  rw [longer_size] at h2
  exact ⟨q, hq, z, h1, by simpa [linkSketch] using h2⟩

/-- C109: the chain of rods meets the hypotheses of `C109_travel`, `C109_forest` and `C109_solvable`. -/
example : RegularBelow linkHeap linkSketch 1 ∧ SteepBelow linkHeap linkSketch 1 (1 / 3 ^ 2) ∧
    (∀ k ∈ linkSketch.cons, RoomFor 3 1 (linkHeap.cons k)) ∧ ∀ k ∈ linkSketch.cons, NonnegDist (linkHeap.cons k) := by
  have hR : ∀ k ∈ linkSketch.cons, RoomFor 3 1 (linkHeap.cons k) ∧ NonnegDist (linkHeap.cons k) := by
    intro k hk
    simp only [linkSketch, List.mem_cons, List.not_mem_nil, or_false] at hk
    rcases hk with rfl | rfl | rfl
    · exact ⟨⟨by norm_num [XR.toReal], by norm_num [XR.toReal]⟩, by simp [NonnegDist, linkHeap, XR.toReal]⟩
    · exact ⟨⟨by norm_num [XR.toReal], by norm_num [XR.toReal]⟩, by simp [NonnegDist, linkHeap, XR.toReal]⟩
    · exact ⟨trivial, trivial⟩
  refine ⟨fun v h' hv e => regular_of link_nodup link_closed
    (plain_good link_nodup link_closed link_finite link_forest.1 (r := 3) (by norm_num) (fun k hk => (hR k hk).1) hv) e, ?_,
    fun k hk => (hR k hk).1, fun k hk => (hR k hk).2⟩
  have := forest_steepBelow link_nodup link_closed link_finite link_forest (by simp [linkSketch]) (L := 1) (r := 3) (by norm_num)
    fun k hk => (hR k hk).1
  simpa [linkSketch] using this

end Isotope
