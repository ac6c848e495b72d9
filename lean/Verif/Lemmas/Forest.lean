import Verif.Lemmas.Smooth

/-!
# Sketches made of distances and fixed points
-/

namespace Isotope
open XR
open Matrix

variable {h : Heap XR} {s : Sketch}

/-! ## Plane vectors -/

theorem unit_sub_le {d d' : ℂ} {r : ℝ} (hr : 0 < r) (h1 : r ≤ ‖d‖) (h2 : r ≤ ‖d'‖) :
    ‖(‖d‖⁻¹ : ℝ) • d - (‖d'‖⁻¹ : ℝ) • d'‖ ≤ ‖d - d'‖ / r := by
  have a0 : 0 < ‖d‖ := hr.trans_le h1
  have b0 : 0 < ‖d'‖ := hr.trans_le h2
  rw [le_div_iff₀ hr]
  refine abs_le_of_sq_le_sq' ?_ (norm_nonneg _) |>.2
  rw [mul_pow, norm_sub_sq_real, norm_sub_sq_real, norm_smul, norm_smul, inner_smul_left, inner_smul_right, Real.norm_of_nonneg (by positivity),
    Real.norm_of_nonneg (by positivity), inv_mul_cancel₀ a0.ne', inv_mul_cancel₀ b0.ne']
  have ht := real_inner_le_norm d d'
  generalize (inner ℝ d d' : ℝ) = t at *
  generalize ‖d‖ = a at *
  generalize ‖d'‖ = b at *
  simp only [conj_trivial]
  have e : (1 ^ 2 - 2 * (a⁻¹ * (b⁻¹ * t)) + 1 ^ 2) * r ^ 2 = 2 * (a * b - t) * (r ^ 2 / (a * b)) := by
    field_simp
    ring
  rw [e]
  have h3 : r ^ 2 / (a * b) ≤ 1 := by
    rw [div_le_one (by positivity), sq]
    exact mul_le_mul h1 h2 hr.le a0.le
  have h4 : 2 * (a * b - t) * (r ^ 2 / (a * b)) ≤ 2 * (a * b - t) * 1 := mul_le_mul_of_nonneg_left h3 (by linarith)
  nlinarith [sq_nonneg (a - b)]

/-- the pull of a rod whose ends differ by `d` and that should have length `D` -/
noncomputable def rodPull (D : ℝ) (d : ℂ) : ℂ := d - D • ((‖d‖⁻¹ : ℝ) • d)

theorem rodPull_norm {D : ℝ} {d : ℂ} (hd : d ≠ 0) : ‖rodPull D d‖ ^ 2 = (‖d‖ - D) ^ 2 := by
  have h0 : ‖d‖ ≠ 0 := norm_ne_zero_iff.2 hd
  have e : rodPull D d = (1 - D * ‖d‖⁻¹) • d := by rw [rodPull, sub_smul, one_smul, smul_smul]
  rw [e, norm_smul, mul_pow, Real.norm_eq_abs, sq_abs]
  field_simp

theorem rodPull_lip {D r : ℝ} {d d' : ℂ} (hr : 0 < r) (hD : 0 ≤ D) (h1 : r ≤ ‖d‖) (h2 : r ≤ ‖d'‖) :
    ‖rodPull D d - rodPull D d'‖ ≤ (1 + D / r) * ‖d - d'‖ := by
  have e : rodPull D d - rodPull D d' = (d - d') - D • ((‖d‖⁻¹ : ℝ) • d - (‖d'‖⁻¹ : ℝ) • d') := by
    rw [rodPull, rodPull, smul_sub]; abel
  rw [e]
  refine (norm_sub_le _ _).trans ?_
  rw [norm_smul, Real.norm_of_nonneg hD]
  have := mul_le_mul_of_nonneg_left (unit_sub_le hr h1 h2) hD
  have e2 : (1 + D / r) * ‖d - d'‖ = ‖d - d'‖ + D * (‖d - d'‖ / r) := by ring
  rw [e2]
  linarith

theorem hyp_norm (a b : ℝ) : hyp a b = ‖(⟨a, b⟩ : ℂ)‖ := by
  rw [hyp, Complex.norm_eq_sqrt_sq_add_sq, sq, sq]

/-! ## Plain constraints -/

/-- first point of a plain constraint -/
def front (h : Heap XR) : Constraint XR → Nat
  | .fix p _ => p
  | .horizDist _ p2 _ => p2
  | .vertDist _ p2 _ => p2
  | .horizLine l => (h.lines l).stop
  | .vertLine l => (h.lines l).stop
  | .euclid p1 _ _ => p1
  | _ => 0

/-- second point of a plain constraint -/
def back (h : Heap XR) : Constraint XR → Option Nat
  | .horizDist p1 _ _ => some p1
  | .vertDist p1 _ _ => some p1
  | .horizLine l => some (h.lines l).start
  | .vertLine l => some (h.lines l).start
  | .euclid _ p2 _ => some p2
  | _ => none

theorem ends_eq {c : Constraint XR} (hc : IsPlain c) : ends h c = front h c :: (back h c).toList := by
  cases c <;> first | rfl | exact absurd hc (by simp [IsPlain])

/-- the two coordinates of a point as a complex number -/
noncomputable def cpt (θ : Dof → ℝ) (p : Nat) : ℂ := ⟨θ (.px p), θ (.py p)⟩

/-- the difference of the two points of a constraint -/
noncomputable def sway (u : Nat → ℂ) (f : Nat) (b : Option Nat) : ℂ := u f - b.elim 0 u

/-- the force of a plain constraint on its first point -/
noncomputable def pull (h : Heap XR) (θ : Dof → ℝ) (c : Constraint XR) : ℂ :=
  let d := sway (cpt θ) (front h c) (back h c)
  match c with
  | .fix _ D => d - ⟨D.x.toReal, D.y.toReal⟩
  | .horizDist _ _ D => ⟨d.re - D.toReal, 0⟩
  | .vertDist _ _ D => ⟨0, d.im - D.toReal⟩
  | .horizLine _ => ⟨0, d.im⟩
  | .vertLine _ => ⟨d.re, 0⟩
  | .euclid _ _ D => rodPull D.toReal d
  | _ => 0

/-- inner product of the plane -/
noncomputable def dot2 (a b : ℂ) : ℝ := a.re * b.re + a.im * b.im

theorem dot2_le (a b : ℂ) : dot2 a b ≤ ‖a‖ * ‖b‖ := by
  have := real_inner_le_norm a b
  rw [Complex.inner, Complex.mul_re, Complex.conj_re, Complex.conj_im] at this
  unfold dot2
  linarith

theorem dot2_self (a : ℂ) : dot2 a a = ‖a‖ ^ 2 := by
  rw [Complex.sq_norm, Complex.normSq_apply]; rfl

theorem dot2_sub (a b c : ℂ) : dot2 (a - b) c = dot2 a c - dot2 b c := by
  simp only [dot2, Complex.sub_re, Complex.sub_im]; ring

theorem plain_contribs {c : Constraint XR} (hc : IsPlain c) {θ : Dof → ℝ} (hp : ∀ x ∈ consParams c, Num.isFinite x = true)
    (hr : Regular (h.withDofs θ) c) (f : Dof → ℝ) :
    ((contribs (h.withDofs θ) c).map (fun e => e.2 * f e.1)).sum = dot2 (pull h θ c) (sway (cpt f) (front h c) (back h c)) := by
  unfold contribs
  cases c with
  | fix p D =>
    obtain ⟨X, Y⟩ := D
    obtain ⟨X, rfl⟩ := (isFinite_iff _).1 (hp X (by simp [consParams]))
    obtain ⟨Y, rfl⟩ := (isFinite_iff _).1 (hp Y (by simp [consParams]))
    rw [chunks_fix (ptData_withDofs _ _)]
    simp [Chunk.contrib, dot2, pull, sway, cpt, front, back]
  | horizDist p1 p2 D =>
    obtain ⟨D, rfl⟩ := (isFinite_iff _).1 (hp D (by simp [consParams]))
    rw [chunks_horiz (ptData_withDofs _ _) (ptData_withDofs _ _)]
    simp [Chunk.contrib, dot2, pull, sway, cpt, front, back]
    ring
  | vertDist p1 p2 D =>
    obtain ⟨D, rfl⟩ := (isFinite_iff _).1 (hp D (by simp [consParams]))
    rw [chunks_vert (ptData_withDofs _ _) (ptData_withDofs _ _)]
    simp [Chunk.contrib, dot2, pull, sway, cpt, front, back]
    ring
  | horizLine l =>
    rw [chunks_horizLine (lineStart_withDofs _ _) (lineEnd_withDofs _ _)]
    simp [Chunk.contrib, dot2, pull, sway, cpt, front, back, Heap.withDofs]
    ring
  | vertLine l =>
    rw [chunks_vertLine (lineStart_withDofs _ _) (lineEnd_withDofs _ _)]
    simp [Chunk.contrib, dot2, pull, sway, cpt, front, back, Heap.withDofs]
    ring
  | euclid p1 p2 D =>
    obtain ⟨D, rfl⟩ := (isFinite_iff _).1 (hp D (by simp [consParams]))
    have n1 : (1e-6 : ℝ) ≤ hyp (θ (.px p1) - θ (.px p2)) (θ (.py p1) - θ (.py p2)) := by rw [hyp_pt]; exact hr
    rw [chunks_euclid (ptData_withDofs _ _) (ptData_withDofs _ _)]
    dsimp only
    rw [if_neg (not_lt.2 n1)]
    have hd : sway (cpt θ) p1 (some p2) = ⟨θ (.px p1) - θ (.px p2), θ (.py p1) - θ (.py p2)⟩ := rfl
    simp only [pull, front, back, hd, rodPull, ← hyp_norm]
    have n0 : hyp (θ (.px p1) - θ (.px p2)) (θ (.py p1) - θ (.py p2)) ≠ 0 := (lt_of_lt_of_le (by norm_num) n1).ne'
    generalize hyp (θ (.px p1) - θ (.px p2)) (θ (.py p1) - θ (.py p2)) = N at *
    simp [Chunk.contrib, dot2, sway, cpt]
    field_simp
    ring
  | _ => exact absurd hc (by simp [IsPlain])

theorem plain_loss {c : Constraint XR} (hc : IsPlain c) {θ : Dof → ℝ} (hp : ∀ x ∈ consParams c, Num.isFinite x = true)
    (hr : Regular (h.withDofs θ) c) : (lossValue (h.withDofs θ) c).toReal = ‖pull h θ c‖ ^ 2 / 2 := by
  cases c with
  | fix p D =>
    obtain ⟨X, Y⟩ := D
    obtain ⟨X, rfl⟩ := (isFinite_iff _).1 (hp X (by simp [consParams]))
    obtain ⟨Y, rfl⟩ := (isFinite_iff _).1 (hp Y (by simp [consParams]))
    rw [loss_fix (ptData_withDofs _ _), ← dot2_self]
    simp [dot2, pull, sway, cpt, front, back]
    ring
  | horizDist p1 p2 D =>
    obtain ⟨D, rfl⟩ := (isFinite_iff _).1 (hp D (by simp [consParams]))
    rw [loss_horiz (ptData_withDofs _ _) (ptData_withDofs _ _), ← dot2_self]
    simp [dot2, pull, sway, cpt, front, back]
    ring
  | vertDist p1 p2 D =>
    obtain ⟨D, rfl⟩ := (isFinite_iff _).1 (hp D (by simp [consParams]))
    rw [loss_vert (ptData_withDofs _ _) (ptData_withDofs _ _), ← dot2_self]
    simp [dot2, pull, sway, cpt, front, back]
    ring
  | horizLine l =>
    rw [loss_horizLine (lineStart_withDofs _ _) (lineEnd_withDofs _ _), ← dot2_self]
    simp [dot2, pull, sway, cpt, front, back]
    ring
  | vertLine l =>
    rw [loss_vertLine (lineStart_withDofs _ _) (lineEnd_withDofs _ _), ← dot2_self]
    simp [dot2, pull, sway, cpt, front, back]
    ring
  | euclid p1 p2 D =>
    obtain ⟨D, rfl⟩ := (isFinite_iff _).1 (hp D (by simp [consParams]))
    have n1 : (1e-6 : ℝ) ≤ hyp (θ (.px p1) - θ (.px p2)) (θ (.py p1) - θ (.py p2)) := by rw [hyp_pt]; exact hr
    have hd : sway (cpt θ) p1 (some p2) = ⟨θ (.px p1) - θ (.px p2), θ (.py p1) - θ (.py p2)⟩ := rfl
    have n0 : (⟨θ (.px p1) - θ (.px p2), θ (.py p1) - θ (.py p2)⟩ : ℂ) ≠ 0 := by
      rw [← norm_ne_zero_iff, ← hyp_norm]
      exact (lt_of_lt_of_le (by norm_num) n1).ne'
    rw [loss_euclid (ptData_withDofs _ _) (ptData_withDofs _ _)]
    simp only [pull, front, back, hd, toReal_fin]
    rw [rodPull_norm n0, ← hyp_norm]
  | _ => exact absurd hc (by simp [IsPlain])

/-- how fast the force of a plain constraint changes -/
theorem pull_lip {c : Constraint XR} (hc : IsPlain c) {θ θ' : Dof → ℝ} {r : ℝ} (hr : 0 < r)
    (h1 : ∀ p1 p2 D, c = .euclid p1 p2 D → 0 ≤ D.toReal ∧ r ≤ ‖cpt θ p1 - cpt θ p2‖ ∧ r ≤ ‖cpt θ' p1 - cpt θ' p2‖) :
    2 * ‖pull h θ c - pull h θ' c‖ ≤ stiffness r c * ‖sway (cpt (θ - θ')) (front h c) (back h c)‖ := by
  have es : ∀ f b, sway (cpt (θ - θ')) f b = sway (cpt θ) f b - sway (cpt θ') f b := by
    intro f b
    cases b <;> apply Complex.ext <;> simp [sway, cpt] <;> ring
  rw [es]
  have part : ∀ d d' : ℂ, ∀ x : ℝ, ‖(⟨d.re - x, 0⟩ : ℂ) - ⟨d'.re - x, 0⟩‖ ≤ ‖d - d'‖ := by
    intro d d' x
    have : (⟨d.re - x, 0⟩ : ℂ) - ⟨d'.re - x, 0⟩ = (((d - d').re : ℝ) : ℂ) := by apply Complex.ext <;> simp
    rw [this, Complex.norm_real]
    exact Complex.abs_re_le_norm _
  have part' : ∀ d d' : ℂ, ∀ x : ℝ, ‖(⟨0, d.im - x⟩ : ℂ) - ⟨0, d'.im - x⟩‖ ≤ ‖d - d'‖ := by
    intro d d' x
    have : (⟨0, d.im - x⟩ : ℂ) - ⟨0, d'.im - x⟩ = (((d - d').im : ℝ) : ℂ) * Complex.I := by apply Complex.ext <;> simp
    rw [this, norm_mul, Complex.norm_real, Complex.norm_I, mul_one]
    exact Complex.abs_im_le_norm _
  cases c with
  | fix p D =>
    simp only [pull, stiffness]
    rw [sub_sub_sub_cancel_right]
  | horizDist p1 p2 D => exact mul_le_mul_of_nonneg_left (part _ _ _) (by norm_num)
  | vertDist p1 p2 D => exact mul_le_mul_of_nonneg_left (part' _ _ _) (by norm_num)
  | horizLine l =>
    have := part' (sway (cpt θ) (h.lines l).stop (some (h.lines l).start)) (sway (cpt θ') (h.lines l).stop (some (h.lines l).start)) 0
    simp only [sub_zero] at this
    exact mul_le_mul_of_nonneg_left this (by norm_num)
  | vertLine l =>
    have := part (sway (cpt θ) (h.lines l).stop (some (h.lines l).start)) (sway (cpt θ') (h.lines l).stop (some (h.lines l).start)) 0
    simp only [sub_zero] at this
    exact mul_le_mul_of_nonneg_left this (by norm_num)
  | euclid p1 p2 D =>
    obtain ⟨a, b, c⟩ := h1 p1 p2 D rfl
    have := rodPull_lip hr a (d := sway (cpt θ) p1 (some p2)) (d' := sway (cpt θ') p1 (some p2)) b c
    simp only [pull, stiffness, front, back]
    linarith
  | _ => exact absurd hc (by simp [IsPlain])

/-! ## Positions of a sketch -/

/-- the entry of a vector that belongs to a coordinate, `0` for coordinates outside the sketch -/
noncomputable def lift (h : Heap XR) (s : Sketch) (y : Fin (getNDofs h s) → ℝ) (d : Dof) : ℝ := coordOf' h s d y

theorem lift_mem (y : Fin (getNDofs h s) → ℝ) {d : Dof} (hd : d ∈ s.dofs) : lift h s y d = y ⟨s.dofs.idxOf d, idxOf_lt hd⟩ := by
  unfold lift coordOf'
  rw [dif_pos (idxOf_lt hd)]
  rfl

theorem lift_not_mem (y : Fin (getNDofs h s) → ℝ) {d : Dof} (hd : d ∉ s.dofs) : lift h s y d = 0 := by
  unfold lift coordOf'
  rw [dif_neg]
  · rfl
  · rw [← dofs_length h]; exact fun hh => hd (List.idxOf_lt_length_iff.1 hh)

theorem coordOf_sub (v w : Fin (getNDofs h s) → ℝ) : coordOf h s v - coordOf h s w = lift h s (v - w) := by
  funext d
  rw [Pi.sub_apply]
  unfold coordOf lift coordOf'
  split
  · rfl
  · simp

theorem lift_dofs (hn : s.cells.Nodup) (y : Fin (getNDofs h s) → ℝ) (i : Fin (getNDofs h s)) :
    lift h s y (s.dofs[i.1]'(by rw [dofs_length h]; exact i.2)) = y i := by
  rw [lift_mem y (List.getElem_mem _)]
  congr 1
  ext
  exact (Sketch.dofs_nodup hn).idxOf_getElem i.1 (by rw [dofs_length h]; exact i.2)

theorem sum_dofs (hn : s.cells.Nodup) (f : Dof → ℝ) :
    ∑ i : Fin (getNDofs h s), f (s.dofs[i.1]'(by rw [dofs_length h]; exact i.2)) = ∑ d ∈ s.dofs.toFinset, f d := by
  rw [List.sum_toFinset f (Sketch.dofs_nodup hn), ← List.sum_ofFn]
  congr 1
  apply List.ext_getElem
  · simp [dofs_length h s]
  · intro i h1 h2; simp

theorem dot_self_lift (hn : s.cells.Nodup) (y : Fin (getNDofs h s) → ℝ) : y ⬝ᵥ y = ∑ d ∈ s.dofs.toFinset, lift h s y d ^ 2 := by
  rw [← sum_dofs (h := h) hn (fun d => lift h s y d ^ 2)]
  simp only [lift_dofs hn, dotProduct, sq]

theorem sum_lift_le (hn : s.cells.Nodup) (y : Fin (getNDofs h s) → ℝ) (D : Finset Dof) : ∑ d ∈ D, lift h s y d ^ 2 ≤ y ⬝ᵥ y := by
  rw [dot_self_lift hn]
  have : ∑ d ∈ s.dofs.toFinset, lift h s y d ^ 2 = ∑ d ∈ D ∪ s.dofs.toFinset, lift h s y d ^ 2 := by
    refine Finset.sum_subset Finset.subset_union_right fun d _ hd => ?_
    rw [lift_not_mem y (by simpa using hd)]
    norm_num
  rw [this]
  exact Finset.sum_le_sum_of_subset_of_nonneg Finset.subset_union_left fun d _ _ => sq_nonneg _

theorem cpt_sq (f : Dof → ℝ) (p : Nat) : ‖cpt f p‖ ^ 2 = f (.px p) ^ 2 + f (.py p) ^ 2 := by
  rw [← dot2_self, dot2, cpt, sq, sq]

theorem sway_le (hn : s.cells.Nodup) (y : Fin (getNDofs h s) → ℝ) (f : Nat) (b : Option Nat) :
    ‖sway (cpt (lift h s y)) f b‖ ^ 2 ≤ 2 * (y ⬝ᵥ y) := by
  cases b with
  | none =>
    have := sum_lift_le hn y {.px f, .py f}
    rw [Finset.sum_pair (by simp)] at this
    have h0 : 0 ≤ y ⬝ᵥ y := by rw [← len_sq]; positivity
    simp only [sway, Option.elim_none, sub_zero, cpt_sq]
    linarith
  | some q =>
    simp only [sway, Option.elim_some]
    by_cases e : f = q
    · subst e
      rw [sub_self, norm_zero]
      have : 0 ≤ y ⬝ᵥ y := by rw [← len_sq]; positivity
      norm_num
      exact this
    · have := sum_lift_le hn y {.px f, .py f, .px q, .py q}
      rw [Finset.sum_insert (by simp [e]), Finset.sum_insert (by simp [e]), Finset.sum_pair (by simp)] at this
      have h1 := norm_sub_le (cpt (lift h s y) f) (cpt (lift h s y) q)
      have h2 : ‖cpt (lift h s y) f - cpt (lift h s y) q‖ ^ 2 ≤ (‖cpt (lift h s y) f‖ + ‖cpt (lift h s y) q‖) ^ 2 :=
        pow_le_pow_left₀ (norm_nonneg _) h1 2
      have e1 := cpt_sq (lift h s y) f
      have e2 := cpt_sq (lift h s y) q
      nlinarith [sq_nonneg (‖cpt (lift h s y) f‖ - ‖cpt (lift h s y) q‖)]

theorem gradAt_dot (hn : s.cells.Nodup) (hf : FiniteSketch h s) (hp : ∀ k ∈ s.cons, IsPlain (h.cons k)) {v : Fin (getNDofs h s) → ℝ}
    (hg : Good h s v) (y : Fin (getNDofs h s) → ℝ) :
    gradAt h s v ⬝ᵥ y = (s.cons.map (fun k => dot2 (pull h (coordOf h s v) (h.cons k))
      (sway (cpt (lift h s y)) (front h (h.cons k)) (back h (h.cons k))))).sum := by
  have e : gradAt h s v ⬝ᵥ y = linForm (gradAt h s v) y := by rw [linForm_apply]; rfl
  rw [e]
  unfold gradAt
  rw [← sum_contribs hn]
  have e2 : ∀ l : List (Dof × ℝ), (l.map (fun e => e.2 • coordOf' h s e.1)).sum y = (l.map (fun e => e.2 * lift h s y e.1)).sum := by
    intro l
    induction l with
    | nil => rfl
    | cons a l ih => simp [ih, lift]
  rw [e2]
  have e3 : ∀ l : List Nat, (∀ k ∈ l, k ∈ s.cons) →
      ((l.flatMap (fun k => contribs (h.withDofs (coordOf h s v)) (h.cons k))).map (fun e => e.2 * lift h s y e.1)).sum =
      (l.map (fun k => dot2 (pull h (coordOf h s v) (h.cons k))
        (sway (cpt (lift h s y)) (front h (h.cons k)) (back h (h.cons k))))).sum := by
    intro l hl
    induction l with
    | nil => rfl
    | cons k l ih =>
      have hk := hl k (by simp)
      simp only [List.flatMap_cons, List.map_append, List.sum_append, List.map_cons, List.sum_cons]
      rw [ih fun k hk => hl k (by simp [hk]), plain_contribs (hp k hk) (hf.2 k hk) (hg k hk)]
  exact e3 s.cons fun k hk => hk

theorem plain_lossAfter (hn : s.cells.Nodup) (hc : Closed ⟨h, s⟩) (hf : FiniteSketch h s) (hp : ∀ k ∈ s.cons, IsPlain (h.cons k))
    {v : Fin (getNDofs h s) → ℝ} (hg : Good h s v) :
    2 * lossAfter h s v = (s.cons.map (fun k => ‖pull h (coordOf h s v) (h.cons k)‖ ^ 2)).sum := by
  rw [lossAfter_eq hn hc hf, ← List.sum_map_mul_left]
  congr 1
  refine List.map_congr_left fun k hk => ?_
  rw [plain_loss (hp k hk) (hf.2 k hk) (hg k hk)]
  ring

theorem sum_map_le {α : Type} {f g : α → ℝ} (l : List α) (hh : ∀ a ∈ l, f a ≤ g a) : (l.map f).sum ≤ (l.map g).sum := by
  induction l with
  | nil => simp
  | cons a l ih =>
    simp only [List.map_cons, List.sum_cons]
    exact add_le_add (hh a (by simp)) (ih fun b hb => hh b (by simp [hb]))

theorem sum_map_sub' {α : Type} (f g : α → ℝ) (l : List α) : (l.map (fun a => f a - g a)).sum = (l.map f).sum - (l.map g).sum := by
  induction l with
  | nil => simp
  | cons a l ih => simp only [List.map_cons, List.sum_cons, ih]; ring

/-- the gradient of plain constraints is Lipschitz -/
theorem plain_lip (hn : s.cells.Nodup) (hf : FiniteSketch h s) (hp : ∀ k ∈ s.cons, IsPlain (h.cons k))
    {v w : Fin (getNDofs h s) → ℝ} (hv : Good h s v) (hw : Good h s w) {r : ℝ} (hr : 0 < r)
    (h1 : ∀ k ∈ s.cons, ∀ p1 p2 D, h.cons k = .euclid p1 p2 D → 0 ≤ D.toReal ∧ r ≤ ‖cpt (coordOf h s v) p1 - cpt (coordOf h s v) p2‖ ∧
      r ≤ ‖cpt (coordOf h s w) p1 - cpt (coordOf h s w) p2‖) :
    len (gradAt h s v - gradAt h s w) ≤ (s.cons.map (fun k => stiffness r (h.cons k))).sum * len (v - w) := by
  have h0 : ∀ k ∈ s.cons, 0 ≤ stiffness r (h.cons k) := by
    intro k hk
    unfold stiffness
    split
    · rename_i p1 p2 D e
      have := (h1 k hk _ _ _ e).1
      positivity
    · norm_num
  generalize hy : gradAt h s v - gradAt h s w = y
  have e : len y ^ 2 ≤ (s.cons.map (fun k => stiffness r (h.cons k))).sum * len (v - w) * len y := by
    rw [len_sq]
    nth_rewrite 1 [← hy]
    rw [sub_dotProduct, gradAt_dot hn hf hp hv, gradAt_dot hn hf hp hw, ← sum_map_sub', ← List.sum_map_mul_right, ← List.sum_map_mul_right]
    refine sum_map_le _ fun k hk => ?_
    rw [← dot2_sub]
    refine (dot2_le _ _).trans ?_
    have a1 := pull_lip (h := h) (hp k hk) hr (fun p1 p2 D e => h1 k hk p1 p2 D e)
    rw [coordOf_sub] at a1
    have rt : ∀ z : Fin (getNDofs h s) → ℝ, ‖sway (cpt (lift h s z)) (front h (h.cons k)) (back h (h.cons k))‖ ≤ Real.sqrt 2 * len z := by
      intro z
      refine abs_le_of_sq_le_sq' ?_ (mul_nonneg (Real.sqrt_nonneg _) (len_nonneg _)) |>.2
      rw [mul_pow, Real.sq_sqrt (by norm_num), len_sq]
      exact sway_le hn z _ _
    have a2 := rt (v - w)
    have a3 := rt y
    have a4 := mul_le_mul_of_nonneg_left a2 (h0 k hk)
    have a5 : 2 * ‖pull h (coordOf h s v) (h.cons k) - pull h (coordOf h s w) (h.cons k)‖ ≤ stiffness r (h.cons k) * (Real.sqrt 2 * len (v - w)) :=
      a1.trans a4
    have a6 := mul_le_mul a5 a3 (norm_nonneg _) (by have := h0 k hk; have := len_nonneg (v - w); positivity)
    have e2 : stiffness r (h.cons k) * (Real.sqrt 2 * len (v - w)) * (Real.sqrt 2 * len y) =
        2 * (stiffness r (h.cons k) * len (v - w) * len y) := by
      have : Real.sqrt 2 * Real.sqrt 2 = 2 := Real.mul_self_sqrt (by norm_num)
      linear_combination (stiffness r (h.cons k) * len (v - w) * len y) * this
    rw [e2] at a6
    linarith
  have hsum : 0 ≤ (s.cons.map (fun k => stiffness r (h.cons k))).sum := by
    refine List.sum_nonneg fun x hx => ?_
    obtain ⟨k, hk, rfl⟩ := List.mem_map.1 hx
    exact h0 k hk
  rcases (len_nonneg y).eq_or_lt with e0 | e0
  · rw [← e0]
    exact mul_nonneg hsum (len_nonneg _)
  · rw [sq] at e
    exact le_of_mul_le_mul_right e e0

/-! ## Forests -/

theorem Grown.init {l : List Nat} {k : Nat} (g : Grown h (l ++ [k])) : Grown h l := fun pre j post e =>
  g pre j (post ++ [k]) (by rw [e]; simp)

/-- in a forest the differences can be prescribed -/
theorem Grown.solve (l : List Nat) (hp : ∀ k ∈ l, IsPlain (h.cons k)) (g : Grown h l) (w : Nat → ℂ) :
    ∃ u : Nat → ℂ, (∀ k ∈ l, sway u (front h (h.cons k)) (back h (h.cons k)) = w k) ∧
      (∀ p, (∀ k ∈ l, p ∉ ends h (h.cons k)) → u p = 0) ∧ (∀ p, ‖u p‖ ≤ (l.map (fun k => ‖w k‖)).sum) ∧
      ∀ P : Finset Nat, ∑ p ∈ P, ‖u p‖ ^ 2 ≤ l.length * (l.map (fun k => ‖w k‖)).sum ^ 2 := by
  induction l using List.reverseRecOn with
  | nil => exact ⟨fun _ => 0, by simp, by simp, by simp, by simp⟩
  | append_singleton l k ih =>
    obtain ⟨u, u1, u2, u3, u4⟩ := ih (fun k hk => hp k (by simp [hk])) g.init
    obtain ⟨hnd, p, hpe, hpn⟩ := g l k [] rfl
    have hW : 0 ≤ (l.map (fun k => ‖w k‖)).sum := List.sum_nonneg fun x hx => by
      obtain ⟨j, -, rfl⟩ := List.mem_map.1 hx
      exact norm_nonneg _
    rw [ends_eq (hp k (by simp))] at hnd hpe
    have hp0 : u p = 0 := u2 p hpn
    obtain ⟨z, hz, hzn⟩ : ∃ z : ℂ, sway (Function.update u p z) (front h (h.cons k)) (back h (h.cons k)) = w k ∧
        ‖z‖ ≤ (l.map (fun k => ‖w k‖)).sum + ‖w k‖ := by
      rcases List.mem_cons.1 hpe with e | e
      · refine ⟨w k + (back h (h.cons k)).elim 0 u, ?_, ?_⟩
        · cases hb : back h (h.cons k) with
          | none => simp [sway, e]
          | some q =>
            rw [hb] at hnd
            have hq : q ≠ front h (h.cons k) := by
              simp only [Option.toList_some, List.nodup_cons, List.mem_singleton] at hnd
              exact fun hh => hnd.1 hh.symm
            simp [sway, e, Function.update_of_ne hq]
        · refine (norm_add_le _ _).trans ?_
          have : ‖(back h (h.cons k)).elim 0 u‖ ≤ (l.map (fun k => ‖w k‖)).sum := by
            cases back h (h.cons k) with
            | none => simpa using hW
            | some q => exact u3 q
          linarith
      · have hb : back h (h.cons k) = some p := by simpa using e
        rw [hb] at hnd
        have hq : front h (h.cons k) ≠ p := by
          simp only [Option.toList_some, List.nodup_cons, List.mem_singleton] at hnd
          exact hnd.1
        refine ⟨u (front h (h.cons k)) - w k, ?_, ?_⟩
        · rw [hb]
          simp [sway, Function.update_of_ne hq]
        · refine (norm_sub_le _ _).trans ?_
          have := u3 (front h (h.cons k))
          linarith
    have es : ((l ++ [k]).map (fun k => ‖w k‖)).sum = (l.map (fun k => ‖w k‖)).sum + ‖w k‖ := by simp
    rw [es]
    have hwk := norm_nonneg (w k)
    refine ⟨Function.update u p z, ?_, ?_, ?_, ?_⟩
    · intro j hj
      rcases List.mem_append.1 hj with hj | hj
      · have := hpn j hj
        rw [ends_eq (hp j (by simp [hj]))] at this
        rw [← u1 j hj]
        have h1 : front h (h.cons j) ≠ p := fun hh => this (by simp [hh])
        unfold sway
        rw [Function.update_of_ne h1]
        congr 1
        cases hb : back h (h.cons j) with
        | none => rfl
        | some q =>
          have h2 : q ≠ p := fun hh => this (by simp [hb, hh])
          simp [Function.update_of_ne h2]
      · rw [List.mem_singleton.1 hj]
        exact hz
    · intro q hq
      have h1 : q ≠ p := by
        rintro rfl
        have := hq k (by simp)
        rw [ends_eq (hp k (by simp))] at this
        exact this hpe
      rw [Function.update_of_ne h1]
      exact u2 q fun j hj => hq j (by simp [hj])
    · intro q
      by_cases h1 : q = p
      · subst h1
        rw [Function.update_self]
        exact hzn
      · rw [Function.update_of_ne h1]
        have := u3 q
        linarith
    · intro P
      have hle : ∀ q, ‖Function.update u p z q‖ ^ 2 ≤ ‖u q‖ ^ 2 + if q = p then ‖z‖ ^ 2 else 0 := by
        intro q
        by_cases h1 : q = p
        · subst h1
          rw [Function.update_self, if_pos rfl]
          have := sq_nonneg ‖u q‖
          linarith
        · rw [Function.update_of_ne h1, if_neg h1, add_zero]
      refine (Finset.sum_le_sum fun q _ => hle q).trans ?_
      rw [Finset.sum_add_distrib]
      have h1 := u4 P
      have h2 : (∑ q ∈ P, if q = p then ‖z‖ ^ 2 else 0) ≤ ‖z‖ ^ 2 := by
        rw [Finset.sum_ite_eq']
        split
        · exact le_rfl
        · positivity
      have h3 : ‖z‖ ^ 2 ≤ ((l.map (fun k => ‖w k‖)).sum + ‖w k‖) ^ 2 := pow_le_pow_left₀ (norm_nonneg _) hzn 2
      have h4 : (l.map (fun k => ‖w k‖)).sum ^ 2 ≤ ((l.map (fun k => ‖w k‖)).sum + ‖w k‖) ^ 2 := pow_le_pow_left₀ hW (by linarith) 2
      have h5 := mul_le_mul_of_nonneg_left h4 (Nat.cast_nonneg (α := ℝ) l.length)
      have e : ((l ++ [k]).length : ℝ) = l.length + 1 := by simp
      rw [e]
      linarith

/-- the coordinates of point displacements -/
noncomputable def spread (u : Nat → ℂ) : Dof → ℝ
  | .px p => (u p).re
  | .py p => (u p).im
  | _ => 0

theorem spread_le (u : Nat → ℂ) {B : ℝ} (hB : ∀ P : Finset Nat, ∑ p ∈ P, ‖u p‖ ^ 2 ≤ B) (D : Finset Dof) : ∑ d ∈ D, spread u d ^ 2 ≤ B := by
  have key : ∀ D : Finset Dof, ∃ P : Finset Nat, ∑ d ∈ D, spread u d ^ 2 ≤ ∑ p ∈ P, ‖u p‖ ^ 2 := by
    intro D
    let own : Dof → Nat := fun d => match d with | .px p => p | .py p => p | .ar p => p | .as p => p | .ae p => p | .cr p => p
    refine ⟨D.image own, ?_⟩
    rw [← Finset.sum_fiberwise_of_maps_to (g := own) (t := D.image own) fun d hd => Finset.mem_image_of_mem _ hd]
    refine Finset.sum_le_sum fun p _ => ?_
    have h1 : ∑ d ∈ D with own d = p, spread u d ^ 2 ≤ ∑ d ∈ (D.filter (fun d => own d = p)) ∪ {.px p, .py p}, spread u d ^ 2 :=
      Finset.sum_le_sum_of_subset_of_nonneg Finset.subset_union_left fun d _ _ => sq_nonneg _
    have h2 : ∑ d ∈ ({.px p, .py p} : Finset Dof), spread u d ^ 2 = ∑ d ∈ (D.filter (fun d => own d = p)) ∪ {.px p, .py p}, spread u d ^ 2 := by
      refine Finset.sum_subset Finset.subset_union_right fun d hd hd' => ?_
      simp only [Finset.mem_union, Finset.mem_filter, Finset.mem_insert, Finset.mem_singleton] at hd hd'
      rcases hd with hd | hd
      · obtain ⟨-, hd⟩ := hd
        cases d <;> simp_all [own, spread]
      · exact absurd hd hd'
    rw [← h2, Finset.sum_pair (by simp)] at h1
    refine h1.trans (le_of_eq ?_)
    rw [← dot2_self, dot2]
    simp only [spread, sq]
  obtain ⟨P, hP⟩ := key D
  exact hP.trans (hB P)

/-- `(∑ x)² ≤ n ∑ x²` -/
theorem list_sq_sum (l : List Nat) (f : Nat → ℝ) : (l.map f).sum ^ 2 ≤ l.length * (l.map (fun k => f k ^ 2)).sum := by
  induction l with
  | nil => simp
  | cons a l ih =>
    simp only [List.map_cons, List.sum_cons, List.length_cons, Nat.cast_add, Nat.cast_one]
    generalize hS : (l.map f).sum = S at *
    generalize hQ : (l.map (fun k => f k ^ 2)).sum = Q at *
    generalize hm : (l.length : ℝ) = m at *
    have hm0 : 0 ≤ m := by rw [← hm]; positivity
    have hQ0 : 0 ≤ Q := by
      rw [← hQ]
      exact List.sum_nonneg fun x hx => by
        obtain ⟨j, -, rfl⟩ := List.mem_map.1 hx
        positivity
    have h1 : 2 * f a * S ≤ m * f a ^ 2 + Q := by
      rcases hm0.eq_or_lt with h0 | h0
      · rw [← h0, zero_mul] at ih
        have : S = 0 := by
          have := sq_nonneg S
          exact pow_eq_zero_iff (two_ne_zero) |>.1 (le_antisymm ih this)
        rw [this, ← h0]
        linarith
      · have h2 : S ^ 2 / m ≤ Q := by rw [div_le_iff₀ h0]; linarith
        have h3 : 0 ≤ (m * f a - S) ^ 2 / m := by positivity
        have e : (m * f a - S) ^ 2 / m = m * f a ^ 2 - 2 * f a * S + S ^ 2 / m := by field_simp; ring
        rw [e] at h3
        linarith
    nlinarith

theorem forest_steep (hn : s.cells.Nodup) (hc : Closed ⟨h, s⟩) (hf : FiniteSketch h s) (hF : IsForest h s)
    {v : Fin (getNDofs h s) → ℝ} (hg : Good h s v) : 2 * lossAfter h s v ≤ s.cons.length ^ 2 * (gradAt h s v ⬝ᵥ gradAt h s v) := by
  obtain ⟨hp, ks, perm, hG⟩ := hF
  have hpk : ∀ k ∈ ks, IsPlain (h.cons k) := fun k hk => hp k (perm.mem_iff.1 hk)
  obtain ⟨u, u1, -, -, u4⟩ := hG.solve ks hpk (fun k => pull h (coordOf h s v) (h.cons k))
  set Q := 2 * lossAfter h s v with eQ
  have hQ : Q = (s.cons.map (fun k => ‖pull h (coordOf h s v) (h.cons k)‖ ^ 2)).sum := plain_lossAfter hn hc hf hp hg
  set y : Fin (getNDofs h s) → ℝ := fun i => spread u (s.dofs[i.1]'(by rw [dofs_length h]; exact i.2)) with ey
  have hly : ∀ d ∈ s.dofs, lift h s y d = spread u d := by
    intro d hd
    rw [lift_mem y hd, ey]
    simp
  have hcp : ∀ k ∈ s.cons, ∀ p ∈ ends h (h.cons k), cpt (lift h s y) p = u p := by
    intro k hk p hpe
    have hmem : PrimCell.point p ∈ s.cells := by
      have hd : PrimCell.point p ∈ consDeps h (h.cons k) := by
        revert hpe
        have := hp k hk
        cases h.cons k <;> simp [ends, consDeps, consFields, primFields] <;> tauto
      unfold consDeps at hd
      rcases List.mem_append.1 hd with hd | hd
      · exact hc.2 k hk _ hd
      · obtain ⟨x, hx, hd⟩ := List.mem_flatMap.1 hd
        exact hc.1 x (hc.2 k hk x hx) _ hd
    unfold cpt
    rw [hly (.px p) (mem_sketch_dofs.2 hmem), hly (.py p) (mem_sketch_dofs.2 hmem)]
    rfl
  have hdot : gradAt h s v ⬝ᵥ y = Q := by
    rw [gradAt_dot hn hf hp hg, hQ]
    congr 1
    refine List.map_congr_left fun k hk => ?_
    have e : sway (cpt (lift h s y)) (front h (h.cons k)) (back h (h.cons k)) = pull h (coordOf h s v) (h.cons k) := by
      rw [← u1 k (perm.mem_iff.2 hk)]
      have hE := ends_eq (h := h) (hp k hk)
      have h1 := hcp k hk (front h (h.cons k)) (by rw [hE]; simp)
      unfold sway
      rw [h1]
      congr 1
      cases hb : back h (h.cons k) with
      | none => rfl
      | some q => exact hcp k hk q (by rw [hE, hb]; simp)
    rw [e, dot2_self]
  have hlen : y ⬝ᵥ y ≤ s.cons.length ^ 2 * Q := by
    have e1 : y ⬝ᵥ y = ∑ d ∈ s.dofs.toFinset, spread u d ^ 2 := by
      rw [← sum_dofs (h := h) hn (fun d => spread u d ^ 2)]
      simp only [dotProduct, sq, ey]
    rw [e1]
    refine (spread_le u u4 _).trans ?_
    have e2 : ks.length = s.cons.length := perm.length_eq
    have h1 := list_sq_sum ks (fun k => ‖pull h (coordOf h s v) (h.cons k)‖)
    have e3 : (ks.map (fun k => ‖pull h (coordOf h s v) (h.cons k)‖ ^ 2)).sum = Q := by
      rw [hQ]
      exact (perm.map _).sum_eq
    rw [e3] at h1
    have h2 := mul_le_mul_of_nonneg_left h1 (Nat.cast_nonneg (α := ℝ) ks.length)
    rw [e2] at h2 ⊢
    linarith
  have hQ0 : 0 ≤ Q := mul_nonneg (by norm_num) (lossAfter_pos hn hc hf v)
  have cs : (gradAt h s v ⬝ᵥ y) ^ 2 ≤ (gradAt h s v ⬝ᵥ gradAt h s v) * (y ⬝ᵥ y) := by
    have := Finset.sum_mul_sq_le_sq_mul_sq Finset.univ (gradAt h s v) y
    simp only [dotProduct]
    simpa [sq] using this
  rw [hdot] at cs
  have hg0 : 0 ≤ gradAt h s v ⬝ᵥ gradAt h s v := by rw [← len_sq]; positivity
  have h3 := mul_le_mul_of_nonneg_left hlen hg0
  rcases hQ0.eq_or_lt with e0 | e0
  · rw [← e0]
    positivity
  · have : Q * Q ≤ s.cons.length ^ 2 * (gradAt h s v ⬝ᵥ gradAt h s v) * Q := by nlinarith
    exact le_of_mul_le_mul_right this e0

end Isotope
