import Verif.Lemmas.Forest

/-!
# Gradient descent must come to rest (C81)
-/

namespace Isotope
open XR
open Matrix

variable {h : Heap XR} {s : Sketch}

/-! ## From the vocabulary of the statements to the gradient of the model -/

theorem linForm_inj {n : Nat} {g g' : Fin n → ℝ} (e : linForm g = linForm g') : g = g' := by
  funext i
  have := congrArg (fun f => f (Pi.single i 1)) e
  simpa [linForm_apply, Pi.single_apply] using this

theorem good_of (hn : s.cells.Nodup) (hc : Closed ⟨h, s⟩) {v : Fin (getNDofs h s) → ℝ}
    (hr : ∀ h', setData h s (vec v) = .ok h' → ∀ k ∈ s.cons, Regular h' (h'.cons k)) : Good h s v := by
  obtain ⟨H, e, r, ed⟩ := setData_at hn (SameRefs.refl h) v
  intro k hk
  have := hr H e k hk
  rw [r.cons] at this
  exact (depEq_of_data r hc ed hk).all.2.2.1 this

theorem regular_of (hn : s.cells.Nodup) (hc : Closed ⟨h, s⟩) {v : Fin (getNDofs h s) → ℝ} (hg : Good h s v) {H : Heap XR}
    (e : setData h s (vec v) = .ok H) : ∀ k ∈ s.cons, Regular H (H.cons k) := by
  obtain ⟨H', e', r, ed⟩ := setData_at hn (SameRefs.refl h) v
  cases Except.ok.inj (e.symm.trans e')
  intro k hk
  rw [r.cons]
  exact (depEq_of_data r hc ed hk).all.2.2.2 (hg k hk)

theorem exists_data (hf : FiniteSketch h s) : ∃ x : Fin (getNDofs h s) → ℝ, getData h s = vec x :=
  exists_vec' (List.all_eq_true.2 hf.1) (getData_length _ _)

/-- the run of gradient descent in a sketch that is smooth below its loss -/
theorem gdSolve_smooth (hn : s.cells.Nodup) (hc : Closed ⟨h, s⟩) (hf : FiniteSketch h s) {L M mu : ℝ} (hL : getLoss h s = fin L)
    (hS : SmoothBelow h s L M) (hM : 0 < M) (hst : SteepBelow h s L mu) (hmu : 2e-5 * mu ≤ M) (n : Nat) {ml mg : ℝ} (hmg : 0 < mg) :
    ∃ x, lossAfter h s x = L ∧ SmoothRun h s M mu ml mg n x (gdSolve ⟨n, fin ml, fin mg⟩ h s) := by
  obtain ⟨x, ex⟩ := exists_data hf
  obtain ⟨sl, sg⟩ := spec_at hn hc hf (SameRefs.refl h) ex
  have hx : lossAfter h s x = L := XR.fin.inj (sl.symm.trans hL)
  have hU : ∀ v, lossAfter h s v ≤ L → Good h s v := fun v hv => good_of hn hc fun h' e => hS.regular v h' hv e
  obtain ⟨H1, g1, e1⟩ := sg (hU x hx.le)
  have key := gdLoop_smooth hn hc hf hM hU
    (fun v w hv hw => hS.lip v w _ _ hv hw (hasFDerivAt_lossAfter hn hc hf (hU v hv)) (hasFDerivAt_lossAfter hn hc hf (hU w hw)))
    (fun v hv => hst v _ hv (hasFDerivAt_lossAfter hn hc hf (hU v hv))) hmu
    ⟨n, fin ml, fin mg⟩ rfl rfl hmg n H1 g1.1 x (by rw [g1.getData, ex]) hx.le
  refine ⟨x, hx, ?_⟩
  unfold gdSolve
  rw [e1]
  exact key

theorem steep_zero : SteepBelow h s L 0 := by
  intro v g _ _
  rw [mul_zero, zero_mul, ← len_sq]
  positivity

/-! ## C81 -/

/-- **C81.** A sketch with loss `L` in which, at all positions with loss at most `L`, no constraint is degenerate and the gradient changes
at most `M` times as fast as the position: gradient descent returns `Ok` or `SearchFailed` (it does not panic), and the sum over all
steps of the square of the gradient before the step is at most `1e5 * M * L`. -/
theorem C81_slopes (hn : s.cells.Nodup) (hc : Closed ⟨h, s⟩) (hf : FiniteSketch h s) {L M : ℝ} (hL : getLoss h s = fin L)
    (hS : SmoothBelow h s L M) (hM : 0 < M) (n : Nat) {ml mg : ℝ} (hmg : 0 < mg) :
    ((gdSolve ⟨n, fin ml, fin mg⟩ h s).res = .ok ∨ (gdSolve ⟨n, fin ml, fin mg⟩ h s).res = .err .searchFailed) ∧
    ((gdSolve ⟨n, fin ml, fin mg⟩ h s).steps.map (fun r => slopeSq r.pre s)).sum ≤ 1e5 * M * L ∧
    ∀ r ∈ (gdSolve ⟨n, fin ml, fin mg⟩ h s).steps, mg ^ 2 ≤ slopeSq r.pre s := by
  obtain ⟨x, hx, run⟩ := gdSolve_smooth hn hc hf hL hS hM steep_zero (by linarith) n (ml := ml) hmg
  rw [← hx]
  exact ⟨run.res, run.sum, run.slopes⟩

theorem sum_ge_length {α : Type} (l : List α) (f : α → ℝ) {c : ℝ} (hh : ∀ a ∈ l, c ≤ f a) : l.length * c ≤ (l.map f).sum := by
  induction l with
  | nil => simp
  | cons a l ih =>
    simp only [List.length_cons, List.map_cons, List.sum_cons, Nat.cast_add, Nat.cast_one]
    have := ih fun b hb => hh b (by simp [hb])
    have := hh a (by simp)
    linarith

/-- **C81.** It makes at most `1e5 * M * L / min_grad²` steps, whatever `max_iterations` is. -/
theorem C81_steps (hn : s.cells.Nodup) (hc : Closed ⟨h, s⟩) (hf : FiniteSketch h s) {L M : ℝ} (hL : getLoss h s = fin L)
    (hS : SmoothBelow h s L M) (hM : 0 < M) (n : Nat) {ml mg : ℝ} (hmg : 0 < mg) :
    (gdSolve ⟨n, fin ml, fin mg⟩ h s).steps.length * mg ^ 2 ≤ 1e5 * M * L := by
  obtain ⟨-, h2, h3⟩ := C81_slopes hn hc hf hL hS hM n (ml := ml) hmg
  exact (sum_ge_length _ _ h3).trans h2

/-- **C81.** With more iterations than that, `Ok` means that the gradient is shorter than `min_grad` or the loss below `min_loss`. -/
theorem C81_rest (hn : s.cells.Nodup) (hc : Closed ⟨h, s⟩) (hf : FiniteSketch h s) {L M : ℝ} (hL : getLoss h s = fin L)
    (hS : SmoothBelow h s L M) (hM : 0 < M) (n : Nat) {ml mg : ℝ} (hmg : 0 < mg) (hN : 1e5 * M * L < n * mg ^ 2)
    (hr : (gdSolve ⟨n, fin ml, fin mg⟩ h s).res = .ok) :
    ∃ L1 : ℝ, getLoss (gdSolve ⟨n, fin ml, fin mg⟩ h s).heap s = fin L1 ∧ L1 ≤ L ∧
      (L1 < ml ∨ slopeSq (gdSolve ⟨n, fin ml, fin mg⟩ h s).heap s < mg ^ 2) := by
  have hst := C81_steps hn hc hf hL hS hM n (ml := ml) hmg
  obtain ⟨x, hx, run⟩ := gdSolve_smooth hn hc hf hL hS hM steep_zero (by linarith) n (ml := ml) hmg
  obtain ⟨x', r1, e1, -, hdec, hstop⟩ := run.final hr
  simp only [zero_div, mul_zero, sub_zero, one_pow, one_mul, hx] at hdec
  have hlt : (gdSolve ⟨n, fin ml, fin mg⟩ h s).steps.length < n := by
    have h1 : ((gdSolve ⟨n, fin ml, fin mg⟩ h s).steps.length : ℝ) * mg ^ 2 < n * mg ^ 2 := hst.trans_lt hN
    exact_mod_cast lt_of_mul_lt_mul_right h1 (by positivity)
  obtain ⟨sl, sg⟩ := spec_at hn hc hf r1 e1
  have hU : Good h s x' := good_of hn hc fun h' e => hS.regular x' h' hdec e
  obtain ⟨H2, -, e2⟩ := sg hU
  refine ⟨_, sl, hdec, ?_⟩
  rw [slopeSq_vec e2]
  exact hstop hlt

/-- where the loss is at most `L`, points with a desired distance are at least `r` apart -/
theorem room_apart (hn : s.cells.Nodup) (hc : Closed ⟨h, s⟩) (hf : FiniteSketch h s) {L r : ℝ} (hR : ∀ k ∈ s.cons, RoomFor r L (h.cons k))
    {v : Fin (getNDofs h s) → ℝ} (hv : lossAfter h s v ≤ L) {k : Nat} (hk : k ∈ s.cons) {p1 p2 : Nat} {D : XR}
    (e : h.cons k = .euclid p1 p2 D) : r ≤ ‖cpt (coordOf h s v) p1 - cpt (coordOf h s v) p2‖ := by
  obtain ⟨D, rfl⟩ := (isFinite_iff _).1 (hf.2 k hk D (by rw [e]; simp [consParams]))
  have hroom := hR k hk
  rw [e] at hroom
  obtain ⟨h1, h2⟩ := hroom
  rw [toReal_fin] at h1 h2
  have hkl : (lossValue (h.withDofs (coordOf h s v)) (h.cons k)).toReal ≤ L := by
    refine le_trans ?_ hv
    rw [lossAfter_eq hn hc hf]
    refine List.single_le_sum ?_ _ (List.mem_map.2 ⟨k, hk, rfl⟩)
    intro x hx
    obtain ⟨j, hj, rfl⟩ := List.mem_map.1 hx
    obtain ⟨H, -, r', ed⟩ := setData_at hn (SameRefs.refl h) v
    obtain ⟨y, hy, e⟩ := ((finite_at hf.2 r' ed).cons (hc.sameRefs r') j hj).real.loss
    rw [r'.cons] at e
    rw [← (depEq_of_data r' hc ed hj).all.1, e]
    exact hy
  rw [e, loss_euclid (ptData_withDofs _ _) (ptData_withDofs _ _), toReal_fin] at hkl
  have en : ‖cpt (coordOf h s v) p1 - cpt (coordOf h s v) p2‖ = hyp (coordOf h s v (.px p1) - coordOf h s v (.px p2))
      (coordOf h s v (.py p1) - coordOf h s v (.py p2)) := by
    rw [hyp_norm]; rfl
  rw [en]
  generalize hyp (coordOf h s v (.px p1) - coordOf h s v (.px p2)) (coordOf h s v (.py p1) - coordOf h s v (.py p2)) = N at *
  by_contra hh
  rw [not_le] at hh
  nlinarith

theorem plain_good (hn : s.cells.Nodup) (hc : Closed ⟨h, s⟩) (hf : FiniteSketch h s) (hp : ∀ k ∈ s.cons, IsPlain (h.cons k)) {L r : ℝ}
    (hr : 1e-6 ≤ r) (hR : ∀ k ∈ s.cons, RoomFor r L (h.cons k)) {v : Fin (getNDofs h s) → ℝ} (hv : lossAfter h s v ≤ L) : Good h s v := by
  intro k hk
  have hk' := hp k hk
  generalize hck : h.cons k = c at *
  cases c with
  | euclid p1 p2 D =>
    have := room_apart hn hc hf hR hv hk hck
    show (1e-6 : ℝ) ≤ dist (pt _ _) (pt _ _)
    rw [← hyp_pt, hyp_norm]
    exact hr.trans this
  | angle => exact absurd hk' (by simp [IsPlain])
  | eqLen => exact absurd hk' (by simp [IsPlain])
  | parallel => exact absurd hk' (by simp [IsPlain])
  | perp => exact absurd hk' (by simp [IsPlain])
  | _ => trivial

/-- **C81.** Sketches of fixed points, horizontal, vertical and Euclidean distances, horizontal and vertical lines are smooth below `L`
if all desired Euclidean distances are at least `r + √(2L)`, with an explicit `M`. -/
theorem C81_distances (hn : s.cells.Nodup) (hc : Closed ⟨h, s⟩) (hf : FiniteSketch h s) (hp : ∀ k ∈ s.cons, IsPlain (h.cons k)) {L r : ℝ}
    (hr : 1e-6 ≤ r) (hR : ∀ k ∈ s.cons, RoomFor r L (h.cons k)) :
    SmoothBelow h s L (s.cons.map (fun k => stiffness r (h.cons k))).sum := by
  have hr0 : 0 < r := lt_of_lt_of_le (by norm_num) hr
  have hU : ∀ v, lossAfter h s v ≤ L → Good h s v := fun v hv => plain_good hn hc hf hp hr hR hv
  refine ⟨fun v h' hv e => regular_of hn hc (hU v hv) e, fun v w g g' hv hw dg dg' => ?_⟩
  have e1 : g = gradAt h s v := linForm_inj (dg.unique (hasFDerivAt_lossAfter hn hc hf (hU v hv)))
  have e2 : g' = gradAt h s w := linForm_inj (dg'.unique (hasFDerivAt_lossAfter hn hc hf (hU w hw)))
  subst e1 e2
  rw [← len_sq, ← len_sq, ← mul_pow]
  refine pow_le_pow_left₀ (len_nonneg _) (plain_lip hn hf hp (hU v hv) (hU w hw) hr0 fun k hk p1 p2 D e => ⟨?_, ?_, ?_⟩) 2
  · have := hR k hk
    rw [e] at this
    exact hr0.le.trans this.1
  · exact room_apart hn hc hf hR hv hk e
  · exact room_apart hn hc hf hR hw hk e

end Isotope
