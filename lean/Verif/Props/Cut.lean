import Verif.Lemmas.Cut
import Verif.Props.Contract

/-!
# Gauss-Newton and the cut-off of its pseudo-inverse (C75)
-/

namespace Isotope
open XR
open Matrix

variable {h : Heap XR} {s : Sketch}

/-! ## The rows of the Jacobian -/

/-- the constrained difference as a vector -/
noncomputable def diffVec (h : Heap XR) (s : Sketch) (c : Constraint XR) : Fin (getNDofs h s) → ℝ := fun j =>
  (if (diffDofs h c).2 = s.dofs[j.1]'(by rw [dofs_length h]; exact j.2) then 1 else 0) -
  (if (diffDofs h c).1 = s.dofs[j.1]'(by rw [dofs_length h]; exact j.2) then 1 else 0)

theorem diffVec_dot (hn : s.cells.Nodup) (c : Constraint XR) (z : Fin (getNDofs h s) → ℝ) :
    diffVec h s c ⬝ᵥ z = coordOf' h s (diffDofs h c).2 z - coordOf' h s (diffDofs h c).1 z := by
  have e := congrArg (fun L => L z) (sum_contribs (h := h) hn [((diffDofs h c).2, (1 : ℝ)), ((diffDofs h c).1, -1)])
  simp only [List.map_cons, List.map_nil, List.sum_cons, List.sum_nil, linForm_apply] at e
  have e2 : diffVec h s c ⬝ᵥ z = ∑ i : Fin (getNDofs h s), total [((diffDofs h c).2, (1 : ℝ)), ((diffDofs h c).1, -1)]
      (s.dofs[i.1]'(by rw [dofs_length h]; exact i.2)) * z i := by
    unfold dotProduct diffVec
    refine Finset.sum_congr rfl fun j _ => ?_
    simp only [total_cons, total_nil, add_zero]
    congr 1
    split_ifs <;> ring
  rw [e2, ← e]
  simp [sub_eq_add_neg]

theorem coordOf'_diffVec (c : Constraint XR) {d : Dof} (hd : d ∈ s.dofs) :
    coordOf' h s d (diffVec h s c) =
      (if (diffDofs h c).2 = d then 1 else 0) - (if (diffDofs h c).1 = d then 1 else 0) := by
  have : coordOf' h s d (diffVec h s c) = diffVec h s c ⟨s.dofs.idxOf d, idxOf_lt hd⟩ := by
    unfold coordOf'
    rw [dif_pos (idxOf_lt hd)]
    rfl
  rw [this, diffVec]
  simp only [List.getElem_idxOf]

/-- a degree of freedom of a difference is a coordinate of a point -/
theorem diffDofs_key {c : Constraint XR} (hd : IsDiff c) :
    ∃ k1 k2, (diffDofs h c).1 = keyDof k1 ∧ (diffDofs h c).2 = keyDof k2 := by
  have X : ∀ p, Dof.px p = keyDof (p, 0) := fun p => by simp [keyDof]
  have Y : ∀ p, Dof.py p = keyDof (p, 1) := fun p => by simp [keyDof]
  cases c with
  | horizDist p1 p2 D => exact ⟨_, _, X p1, X p2⟩
  | vertDist p1 p2 D => exact ⟨_, _, Y p1, Y p2⟩
  | horizLine l => exact ⟨_, _, Y _, Y _⟩
  | vertLine l => exact ⟨_, _, X _, X _⟩
  | _ => exact hd.elim

theorem diffDofs_ne {c : Constraint XR} (hd : IsDiff c) (h0 : diffForm h c ≠ 0) : (diffDofs h c).1 ≠ (diffDofs h c).2 := by
  intro e
  apply h0
  ext k
  rw [diffForm_apply hd, e, sub_self]; rfl

theorem diffDofs_disjoint {c c' : Constraint XR} (hd : IsDiff c) (h0 : diffForm h c ≠ 0) (hd' : IsDiff c')
    (h0' : diffForm h c' ≠ 0) (hdis : Disjoint (diffForm h c).support (diffForm h c').support) :
    (diffDofs h c).1 ≠ (diffDofs h c').1 ∧ (diffDofs h c).1 ≠ (diffDofs h c').2 ∧
    (diffDofs h c).2 ≠ (diffDofs h c').1 ∧ (diffDofs h c).2 ≠ (diffDofs h c').2 := by
  have S : ∀ {c : Constraint XR}, IsDiff c → diffForm h c ≠ 0 → ∀ k, (diffDofs h c).1 = keyDof k ∨ (diffDofs h c).2 = keyDof k →
      k ∈ (diffForm h c).support := by
    intro c hd h0 k hk
    have hne := diffDofs_ne hd h0
    rw [Finsupp.mem_support_iff, diffForm_apply hd]
    rcases hk with hk | hk
    · rw [if_pos hk, if_neg fun q => hne (hk.trans q.symm)]; norm_num
    · rw [if_pos hk, if_neg fun q => hne (q.trans hk.symm)]; norm_num
  obtain ⟨k1, k2, e1, e2⟩ := diffDofs_key (h := h) hd
  have D := fun k a b => Finset.disjoint_left.1 hdis (S hd h0 k a) (S hd' h0' k b)
  exact ⟨fun q => D k1 (.inl e1) (.inl (q ▸ e1)), fun q => D k1 (.inl e1) (.inr (q ▸ e1)),
    fun q => D k2 (.inr e2) (.inl (q ▸ e2)), fun q => D k2 (.inr e2) (.inr (q ▸ e2))⟩

/-- the differences are orthogonal -/
theorem diffVec_orth (hn : s.cells.Nodup) (hc : Closed ⟨h, s⟩) (hi : DisjointDiffs h s) (i j : Fin s.cons.length) :
    diffVec h s (h.cons s.cons[i.1]) ⬝ᵥ diffVec h s (h.cons s.cons[j.1]) = if i = j then 2 else 0 := by
  have ki : s.cons[i.1] ∈ s.cons := List.getElem_mem i.2
  have kj : s.cons[j.1] ∈ s.cons := List.getElem_mem j.2
  obtain ⟨m1, m2⟩ := diffDofs_mem hc ki (hi.1 _ ki).1
  rw [diffVec_dot hn, coordOf'_diffVec _ m1, coordOf'_diffVec _ m2]
  by_cases e : i = j
  · subst e
    have hne := diffDofs_ne (hi.1 _ ki).1 (hi.1 _ ki).2
    rw [if_pos rfl, if_pos rfl, if_neg hne, if_neg (Ne.symm hne), if_pos rfl]; norm_num
  · have hdis : Disjoint (diffForm h (h.cons s.cons[i.1])).support (diffForm h (h.cons s.cons[j.1])).support := by
      rcases lt_or_gt_of_ne (fun q : i.1 = j.1 => e (Fin.ext q)) with q | q
      · exact List.pairwise_iff_getElem.1 hi.2 _ _ i.2 j.2 q
      · exact (List.pairwise_iff_getElem.1 hi.2 _ _ j.2 i.2 q).symm
    obtain ⟨n1, n2, n3, n4⟩ := diffDofs_disjoint (hi.1 _ ki).1 (hi.1 _ ki).2 (hi.1 _ kj).1 (hi.1 _ kj).2 hdis
    rw [if_neg e, if_neg n4.symm, if_neg n3.symm, if_neg n2.symm, if_neg n1.symm]; norm_num

/-! ## One step -/

/-- a step on disjoint differences, with damping `β` and with the cut-off -/
theorem newtonStep_damped {pinv : PInv XR} (hcut : CutPInv pinv) {ε σ β : ℝ} (hε : 0 ≤ ε) (hβ : 0 ≤ β) (hn : s.cells.Nodup) (hc : Closed ⟨h, s⟩)
    (hi : DisjointDiffs h s) {r : StepRec XR} (hr : NewtonStep pinv (fin ε) σ h s (fun J => Jᵀ * J + β • 1) r) (k : Nat)
    (hk : k ∈ s.cons) :
    diffError r.post (h.cons k) = diffError r.pre (h.cons k) - σ *
      (if ε < 2 * diffError r.pre (h.cons k) ^ 2 + β then
        diffError r.pre (h.cons k) ^ 3 / (2 * diffError r.pre (h.cons k) ^ 2 + β) else 0) := by
  obtain ⟨J, P, x, l, h', r1, f1, r2, f2, ej, ex, el, ep, ex2⟩ := hr
  have hc1 := hc.sameRefs r1
  have hpos : 0 < getNDofs h s := by
    have := (diffDofs_mem hc hk (hi.1 k hk).1).1
    rw [← dofs_length]
    exact List.length_pos_of_mem this
  obtain ⟨P', ep', hP⟩ := hcut _ (Jᵀ * J + β • 1) ε hpos (lm_symm J β) (fun x => by
    rw [add_mulVec, dotProduct_add, gram_form, smul_mulVec, one_mulVec, dotProduct_smul, smul_eq_mul]
    have h1 := dot_self_nonneg (J *ᵥ x)
    have h2 := mul_nonneg hβ (dot_self_nonneg x)
    linarith) hε
  rw [ep] at ep'
  cases mat_injective (PInvRes.ok.inj ep')
  set a : Fin s.cons.length → Fin (getNDofs h s) → ℝ := fun i => diffVec h s (h.cons s.cons[i.1]) with ha
  set e : Fin s.cons.length → ℝ := fun i => diffError r.pre (h.cons s.cons[i.1]) with he
  have horth : ∀ i j, a i ⬝ᵥ a j = if i = j then 2 else 0 := diffVec_orth hn hc hi
  -- rows and losses
  have hJ : ∀ i, J i = e i • a i := by
    intro i
    have ki : s.cons[i.1] ∈ s.cons := List.getElem_mem i.2
    have hfc := f1.cons hc1 _ ki
    rw [r1.cons] at hfc
    funext j
    rw [getJacobian_entries hc1 f1 ej, r1.cons, (diff_facts hfc (hi.1 _ ki).1).2.2, diffDofs_sameRefs r1]
    rfl
  have hl : ∀ i, l i = e i ^ 2 / 2 := by
    intro i
    have ki : s.cons[i.1] ∈ s.cons := List.getElem_mem i.2
    have hfc := f1.cons hc1 _ ki
    rw [r1.cons] at hfc
    have e1 := (diff_facts hfc (hi.1 _ ki).1).2.1
    have e2 := congrArg (fun q => q[i.1]?) el
    simp only [C15_entries, List.getElem?_eq_getElem i.2, Option.map_some, r1.cons, vec, List.getElem?_ofFn, i.2, dif_pos,
      Option.some.injEq] at e2
    rw [e1] at e2
    exact (XR.fin.inj e2).symm
  have hJt : ∀ w, Jᵀ *ᵥ w = ∑ i, (w i * e i) • a i := by
    intro w
    funext j
    simp only [mulVec, dotProduct, transpose_apply, Finset.sum_apply, Pi.smul_apply, smul_eq_mul]
    refine Finset.sum_congr rfl fun i _ => ?_
    rw [hJ]
    simp only [Pi.smul_apply, smul_eq_mul]
    ring
  have hJa : ∀ i, J *ᵥ a i = Pi.single i (2 * e i) := by
    intro i
    funext j
    have : (J *ᵥ a i) j = J j ⬝ᵥ a i := rfl
    rw [this, hJ, smul_dotProduct, horth, smul_eq_mul]
    by_cases q : j = i
    · subst q; rw [if_pos rfl, Pi.single_eq_same, mul_comm]
    · rw [if_neg q, Pi.single_eq_of_ne q, mul_zero]
  have hAa : ∀ i, (Jᵀ * J + β • (1 : Matrix (Fin (getNDofs h s)) (Fin (getNDofs h s)) ℝ)) *ᵥ a i = (2 * e i ^ 2 + β) • a i := by
    intro i
    rw [add_mulVec, smul_mulVec, one_mulVec, add_smul, ← mulVec_mulVec, hJa, hJt]
    congr 1
    rw [Finset.sum_eq_single i]
    · rw [Pi.single_eq_same]; congr 1; ring
    · intro j _ q; rw [Pi.single_eq_of_ne q, zero_mul, zero_smul]
    · intro q; exact absurd (Finset.mem_univ i) q
  -- the step
  obtain ⟨i, hi', rfl⟩ := List.getElem_of_mem hk
  have hch := diff_change r1 r2 hc f1 f2 ex ex2 hk (hi.1 _ hk).1
  have hx : x - σ • (P *ᵥ (Jᵀ *ᵥ l)) - x = -(σ • (P *ᵥ (Jᵀ *ᵥ l))) := by abel
  rw [hx, ← diffVec_dot hn] at hch
  have hdot : diffVec h s (h.cons s.cons[i]) ⬝ᵥ (P *ᵥ (Jᵀ *ᵥ l)) =
      (if ε < 2 * e ⟨i, hi'⟩ ^ 2 + β then e ⟨i, hi'⟩ ^ 3 / (2 * e ⟨i, hi'⟩ ^ 2 + β) else 0) := by
    rw [hJt, mulVec_sum, dotProduct_sum, Finset.sum_eq_single ⟨i, hi'⟩]
    · rw [mulVec_smul, hP _ _ (hAa _), dotProduct_smul, dotProduct_smul]
      have := horth ⟨i, hi'⟩ ⟨i, hi'⟩
      rw [if_pos rfl] at this
      rw [this, hl]
      by_cases q : ε < 2 * e ⟨i, hi'⟩ ^ 2 + β
      · rw [if_pos q, if_pos q]
        simp only [smul_eq_mul, div_eq_mul_inv]
        ring
      · rw [if_neg q, if_neg q]; simp
    · intro j _ q
      rw [mulVec_smul, hP _ _ (hAa _), dotProduct_smul, dotProduct_smul]
      have := horth ⟨i, hi'⟩ j
      rw [if_neg (Ne.symm q)] at this
      rw [this, smul_zero, smul_zero]
    · intro q; exact absurd (Finset.mem_univ _) q
  rw [dotProduct_neg, dotProduct_smul, hdot, smul_eq_mul] at hch
  show _ = e ⟨i, hi'⟩ - σ * (if ε < 2 * e ⟨i, hi'⟩ ^ 2 + β then e ⟨i, hi'⟩ ^ 3 / (2 * e ⟨i, hi'⟩ ^ 2 + β) else 0)
  have he' : e ⟨i, hi'⟩ = diffError r.pre (h.cons s.cons[i]) := rfl
  rw [← he'] at hch
  linarith

/-- a Gauss-Newton step on disjoint differences, with the cut-off -/
theorem newtonStep_cut {pinv : PInv XR} (hcut : CutPInv pinv) {ε σ : ℝ} (hε : 0 ≤ ε) (hn : s.cells.Nodup) (hc : Closed ⟨h, s⟩)
    (hi : DisjointDiffs h s) {r : StepRec XR} (hr : NewtonStep pinv (fin ε) σ h s (fun J => Jᵀ * J) r) (k : Nat)
    (hk : k ∈ s.cons) :
    diffError r.post (h.cons k) =
      (if ε < 2 * diffError r.pre (h.cons k) ^ 2 then 1 - σ / 2 else 1) * diffError r.pre (h.cons k) := by
  have := newtonStep_damped hcut hε (le_refl (0 : ℝ)) hn hc hi (r := r) (by simpa using hr) k hk
  rw [this, add_zero]
  by_cases q : ε < 2 * diffError r.pre (h.cons k) ^ 2
  · rw [if_pos q, if_pos q]
    have : diffError r.pre (h.cons k) ≠ 0 := by rintro q2; rw [q2] at q; norm_num at q; linarith
    field_simp
  · rw [if_neg q, if_neg q]; ring

/-- **C75.** What the cut-off does: on constraints on pairwise different coordinates a Gauss-Newton step with step size `σ`
multiplies an error `e` by `1 - σ/2` if `2e²` is above `pseudo_inverse_eps`, and leaves it alone otherwise. -/
theorem C75_step {pinv : PInv XR} (hp : RealPInv pinv) (hcut : CutPInv pinv) (p : GNParams XR) (hn : s.cells.Nodup)
    (hc : Closed ⟨h, s⟩) (hf : FiniteSketch h s) (hi : DisjointDiffs h s) (σ ε : ℝ) (hσ : p.stepSize = fin σ)
    (hε : p.pinvEps = fin ε) (hε0 : 0 ≤ ε) :
    ∀ r ∈ (gnSolve pinv p h s).steps, ∀ k ∈ s.cons,
      diffError r.post (h.cons k) =
        (if ε < 2 * diffError r.pre (h.cons k) ^ 2 then 1 - σ / 2 else 1) * diffError r.pre (h.cons k) := by
  intro r hr k hk
  unfold gnSolve at hr
  rw [hσ, hε] at hr
  exact newtonStep_cut hcut hε0 hn hc hi (newtonLoop_steps hn hc hp p.minLoss (fin ε) σ gnNormal
    (fun J => Jᵀ * J) (fun J => gnNormal_mat J) _ _ h (.refl h) hf r hr) k hk

/-- **C75.** Over a whole run every error shrinks geometrically until `2e²` is no longer above the cut-off, and then stays as it
is: it ends as the error at the start times `(1 - σ/2) ^ j`; if `j` is less than the number of steps, the error ends
at or below the cut-off; if it moved at all, it ends at most one step below the cut-off; and an error that starts at or below
the cut-off does not move. -/
theorem C75_run {pinv : PInv XR} (hp : RealPInv pinv) (hcut : CutPInv pinv) (p : GNParams XR) (hn : s.cells.Nodup)
    (hc : Closed ⟨h, s⟩) (hf : FiniteSketch h s) (hi : DisjointDiffs h s) (σ ε : ℝ) (hσ : p.stepSize = fin σ)
    (hε : p.pinvEps = fin ε) (hε0 : 0 ≤ ε) (hσ2 : σ ≠ 2)
    (hok : (gnSolve pinv p h s).res ≠ .panic) (k : Nat) (hk : k ∈ s.cons) :
    ∃ j ≤ (gnSolve pinv p h s).steps.length,
      diffError (gnSolve pinv p h s).heap (h.cons k) = (1 - σ / 2) ^ j * diffError h (h.cons k) ∧
      (j < (gnSolve pinv p h s).steps.length → 2 * diffError (gnSolve pinv p h s).heap (h.cons k) ^ 2 ≤ ε) ∧
      (0 < j → (1 - σ / 2) ^ 2 * ε < 2 * diffError (gnSolve pinv p h s).heap (h.cons k) ^ 2) ∧
      (2 * diffError h (h.cons k) ^ 2 ≤ ε → j = 0) := by
  have hs := C75_step hp hcut p hn hc hf hi σ ε hσ hε hε0
  have hl := C34_gn_leads pinv p h s hok
  generalize (gnSolve pinv p h s).steps = steps at *
  generalize (gnSolve pinv p h s).heap = hE at *
  have hsq : 0 < (1 - σ / 2) ^ 2 := by
    have : (1 - σ / 2) ≠ 0 := fun q => hσ2 (by linarith)
    positivity
  have key : ∀ (steps : List (StepRec XR)) (h1 : Heap XR), Leads h1 steps hE →
      (∀ r ∈ steps, diffError r.post (h.cons k) =
        (if ε < 2 * diffError r.pre (h.cons k) ^ 2 then 1 - σ / 2 else 1) * diffError r.pre (h.cons k)) →
      ∃ j ≤ steps.length, diffError hE (h.cons k) = (1 - σ / 2) ^ j * diffError h1 (h.cons k) ∧
        (j < steps.length → 2 * diffError hE (h.cons k) ^ 2 ≤ ε) ∧
        (0 < j → (1 - σ / 2) ^ 2 * ε < 2 * diffError hE (h.cons k) ^ 2) ∧
        (2 * diffError h1 (h.cons k) ^ 2 ≤ ε → j = 0) := by
    intro steps
    induction steps with
    | nil => intro h1 hl _; exact ⟨0, le_refl _, by rw [diffError_gradOnly hl]; simp, by simp, by simp, fun _ => rfl⟩
    | cons r rs ih =>
      intro h1 hl hs
      have e1 := hs r (by simp)
      rw [diffError_gradOnly hl.1] at e1
      obtain ⟨j, hj, ej, c1, c2, c3⟩ := ih r.post hl.2 fun r hr => hs r (by simp [hr])
      by_cases q : ε < 2 * diffError h1 (h.cons k) ^ 2
      · rw [if_pos q] at e1
        refine ⟨j + 1, by simpa using hj, by rw [ej, e1]; ring, fun hlt => c1 (by simpa using hlt), fun _ => ?_,
          fun q2 => absurd q2 (not_le.2 q)⟩
        rcases Nat.eq_zero_or_pos j with rfl | hj0
        · rw [ej, e1, pow_zero, one_mul, mul_pow]
          have := mul_lt_mul_of_pos_left q hsq
          linarith
        · exact c2 hj0
      · rw [if_neg q, one_mul] at e1
        have hj0 := c3 (by rw [e1]; exact not_lt.1 q)
        subst hj0
        refine ⟨0, Nat.zero_le _, by rw [ej, e1], fun _ => ?_, fun q => absurd q (lt_irrefl _), fun _ => rfl⟩
        rw [ej, e1, pow_zero, one_mul]; exact not_lt.1 q
  exact key steps h hl (fun r hr => hs r hr k hk)

/-! ## Whole runs -/

/-- the loss of a sketch of differences -/
theorem diffs_loss (hc : Closed ⟨h, s⟩) (hd : ∀ k ∈ s.cons, IsDiff (h.cons k)) {h1 : Heap XR} (r1 : SameRefs h h1)
    (f1 : FiniteSketch h1 s) :
    getLoss h1 s = fin (s.cons.map (fun k => diffError h1 (h.cons k) ^ 2 / 2)).sum := by
  have hv : ∀ k ∈ s.cons, lossValue h1 (h1.cons k) = fin (diffError h1 (h.cons k) ^ 2 / 2) := by
    intro k hk
    have hfc := f1.cons (hc.sameRefs r1) k hk
    rw [r1.cons] at hfc ⊢
    exact (diff_facts hfc (hd k hk)).2.1
  rw [getLoss_fin fun k hk => ⟨_, hv k hk⟩]
  congr 2
  refine List.map_congr_left fun k hk => ?_
  rw [hv k hk, toReal_fin]

theorem sum_ge {l : List Nat} {f : Nat → ℝ} {c : ℝ} (hl : l ≠ []) (hf : ∀ k ∈ l, c < f k) : l.length * c < (l.map f).sum := by
  induction l with
  | nil => exact absurd rfl hl
  | cons a l ih =>
    have ha := hf a (by simp)
    simp only [List.length_cons, List.map_cons, List.sum_cons, Nat.cast_add, Nat.cast_one]
    rcases eq_or_ne l [] with rfl | hl
    · simp; linarith
    · have := ih hl fun k hk => hf k (by simp [hk])
      linarith

theorem sum_le' {l : List Nat} {f : Nat → ℝ} {c : ℝ} (hf : ∀ k ∈ l, f k ≤ c) : (l.map f).sum ≤ l.length * c := by
  induction l with
  | nil => simp
  | cons a l ih =>
    have ha := hf a (by simp)
    have := ih fun k hk => hf k (by simp [hk])
    simp only [List.length_cons, List.map_cons, List.sum_cons, Nat.cast_add, Nat.cast_one]
    linarith

/-- the steps of a run, seen from the start -/
theorem gn_step_finite {pinv : PInv XR} (hp : RealPInv pinv) (p : GNParams XR) (hn : s.cells.Nodup) (hc : Closed ⟨h, s⟩)
    (hf : FiniteSketch h s) (σ : ℝ) (hσ : p.stepSize = fin σ) :
    ∀ r ∈ (gnSolve pinv p h s).steps, SameRefs h r.pre ∧ FiniteSketch r.pre s ∧ SameRefs h r.post ∧ FiniteSketch r.post s := by
  intro r hr
  unfold gnSolve at hr
  rw [hσ] at hr
  obtain ⟨J, P, x, l, h', r1, f1, r2, f2, -⟩ := newtonLoop_steps hn hc hp p.minLoss p.pinvEps σ gnNormal
    (fun J => Jᵀ * J) (fun J => gnNormal_mat J) _ _ h (.refl h) hf r hr
  exact ⟨r1, f1, r2, f2⟩

theorem leads_inv {Q : Heap XR → Prop} (hg : ∀ a b, GradOnly a b → Q a → Q b) {hE : Heap XR} :
    ∀ (steps : List (StepRec XR)) (h1 : Heap XR), Leads h1 steps hE → Q h1 → (∀ r ∈ steps, Q r.pre → Q r.post) →
      Q hE ∧ ∀ r ∈ steps, Q r.pre := by
  intro steps
  induction steps with
  | nil => intro h1 hl h0 _; exact ⟨hg _ _ hl h0, by simp⟩
  | cons r rs ih =>
    intro h1 hl h0 hs
    have q := hg _ _ hl.1 h0
    obtain ⟨a, b⟩ := ih r.post hl.2 (hs r (by simp) q) fun r hr => hs r (by simp [hr])
    refine ⟨a, fun r' hr' => ?_⟩
    rcases List.mem_cons.1 hr' with rfl | hr'
    · exact q
    · exact b r' hr'

theorem leads_last {hE : Heap XR} : ∀ (steps : List (StepRec XR)) (h1 : Heap XR), Leads h1 steps hE →
    ∀ r, steps.getLast? = some r → GradOnly r.post hE := by
  intro steps
  induction steps with
  | nil => intro h1 _ r hr; simp at hr
  | cons a rs ih =>
    intro h1 hl r hr
    cases rs with
    | nil =>
      simp only [List.getLast?_singleton, Option.some.injEq] at hr
      subst hr; exact hl.2
    | cons b rs => exact ih a.post hl.2 r (by rw [← hr]; simp)

theorem sumL_losses (h1 : Heap XR) (s : Sketch) : sumL (getLossPerConstraint h1 s) = getLoss h1 s := by
  unfold getLoss getLossPerConstraint sumL
  rw [List.foldl_map]

/-- **C75.** If all errors start above the cut-off and there are too many constraints, Gauss-Newton can never reach its own
`min_loss`, however many iterations it is given: it uses up all of them and returns `Ok` with a loss above `min_loss`. -/
theorem C75_never {pinv : PInv XR} (hp : RealPInv pinv) (hg : GoodPInv pinv) (hcut : CutPInv pinv) (p : GNParams XR)
    (hn : s.cells.Nodup) (hc : Closed ⟨h, s⟩) (hf : FiniteSketch h s) (hi : DisjointDiffs h s) (hne : s.cons ≠ [])
    (σ ε ml : ℝ) (hσ : p.stepSize = fin σ) (hε : p.pinvEps = fin ε) (hml : p.minLoss = fin ml) (hε0 : 0 ≤ ε)
    (hσ0 : 0 ≤ σ) (hσ2 : σ < 2) (h0 : ∀ k ∈ s.cons, ε < 2 * diffError h (h.cons k) ^ 2)
    (hmany : ml ≤ s.cons.length * ((1 - σ / 2) ^ 2 * ε / 4)) :
    (gnSolve pinv p h s).res = .ok ∧ (gnSolve pinv p h s).steps.length = p.maxIterations ∧
    ∃ L : ℝ, getLoss (gnSolve pinv p h s).heap s = fin L ∧ ml < L := by
  obtain ⟨k0, hk0⟩ := List.exists_mem_of_ne_nil _ hne
  have hpos : 0 < getNDofs h s := by
    have := (diffDofs_mem hc hk0 (hi.1 k0 hk0).1).1
    rw [← dofs_length]
    exact List.length_pos_of_mem this
  have hok : (gnSolve pinv p h s).res = .ok := C34_gn_ok hg _ hn hc hf _ hσ hpos (by
    intro k hk l m e
    have := (hi.1 k hk).1
    rw [e] at this
    exact this)
  have hnp : (gnSolve pinv p h s).res ≠ .panic := by rw [hok]; simp
  have hs := C75_step hp hcut p hn hc hf hi σ ε hσ hε hε0
  have hl := C34_gn_leads pinv p h s hnp
  have hstop := C34_gn_stop pinv p h s hok
  have hfin := gn_step_finite hp p hn hc hf σ hσ
  obtain ⟨rE, fE⟩ := gn_end_finite hp p hn hc hf σ hσ hnp
  have hsq : 0 < (1 - σ / 2) ^ 2 := by
    have : 0 < 1 - σ / 2 := by linarith
    positivity
  have hle : (1 - σ / 2) ^ 2 ≤ 1 := by nlinarith
  obtain ⟨iE, is⟩ := leads_inv (Q := fun a => ∀ k ∈ s.cons, (1 - σ / 2) ^ 2 * ε < 2 * diffError a (h.cons k) ^ 2)
    (fun a b g q k hk => by rw [diffError_gradOnly g]; exact q k hk) _ _ hl (by
      intro k hk
      have := h0 k hk
      nlinarith) (by
      intro r hr q k hk
      rw [hs r hr k hk]
      by_cases c : ε < 2 * diffError r.pre (h.cons k) ^ 2
      · rw [if_pos c, mul_pow]
        have := mul_lt_mul_of_pos_left c hsq
        linarith
      · rw [if_neg c, one_mul]; exact q k hk)
  have hbig : ∀ a, SameRefs h a → FiniteSketch a s → (∀ k ∈ s.cons, (1 - σ / 2) ^ 2 * ε < 2 * diffError a (h.cons k) ^ 2) →
      ∃ L : ℝ, getLoss a s = fin L ∧ ml < L := by
    intro a ra fa q
    refine ⟨_, diffs_loss hc (fun k hk => (hi.1 k hk).1) ra fa, lt_of_le_of_lt hmany (sum_ge hne fun k hk => ?_)⟩
    have := q k hk
    linarith
  refine ⟨hok, ?_, hbig _ rE fE iE⟩
  rcases hstop with ⟨-, q⟩ | q | ⟨r, hr, q⟩
  · rw [hml] at q
    have q2 : (fin ml <. (pinf : XR)) = true := rfl
    exact absurd (q2.symm.trans q) (by simp)
  · exact q
  · exfalso
    have hm := List.mem_of_getLast? hr
    obtain ⟨L, eL, hL⟩ := hbig _ (hfin r hm).1 (hfin r hm).2.1 (is r hm)
    rw [sumL_losses, eL, hml] at q
    simp [hL] at q

/-- **C75.** With default parameters but any number of iterations: five or more distances on different coordinates, each off by
more than 7.08e-4, are never solved to the solver's `min_loss` of 1e-6. -/
theorem C75_five {pinv : PInv XR} (hp : RealPInv pinv) (hg : GoodPInv pinv) (hcut : CutPInv pinv) (n : Nat)
    (hn : s.cells.Nodup) (hc : Closed ⟨h, s⟩) (hf : FiniteSketch h s) (hi : DisjointDiffs h s) (h5 : 5 ≤ s.cons.length)
    (h0 : ∀ k ∈ s.cons, 7.08e-4 ≤ |diffError h (h.cons k)|) :
    (gnSolve pinv { (GNParams.default : GNParams XR) with maxIterations := n } h s).res = .ok ∧
    (gnSolve pinv { (GNParams.default : GNParams XR) with maxIterations := n } h s).steps.length = n ∧
    ∃ L : ℝ, getLoss (gnSolve pinv { (GNParams.default : GNParams XR) with maxIterations := n } h s).heap s = fin L ∧
      (GNParams.default : GNParams XR).minLoss = fin 1e-6 ∧ 1e-6 < L := by
  have hne : s.cons ≠ [] := by rintro q; rw [q] at h5; simp at h5
  have h5' : (5 : ℝ) ≤ s.cons.length := by exact_mod_cast h5
  obtain ⟨a, b, L, eL, hL⟩ := C75_never hp hg hcut { (GNParams.default : GNParams XR) with maxIterations := n } hn hc hf hi hne
    1e-3 1e-6 1e-6 (by simp only [GNParams.default, sci]) (by simp only [GNParams.default, sci])
    (by simp only [GNParams.default, sci]) (by norm_num) (by norm_num) (by norm_num) (by
      intro k hk
      have h1 := pow_le_pow_left₀ (by norm_num) (h0 k hk) 2
      rw [sq_abs] at h1
      have h2 : (1e-6 : ℝ) < 2 * 7.08e-4 ^ 2 := by norm_num
      linarith) (by
      have : (1e-6 : ℝ) ≤ 5 * ((1 - 1e-3 / 2) ^ 2 * 1e-6 / 4) := by norm_num
      have : (0 : ℝ) < (1 - 1e-3 / 2) ^ 2 * 1e-6 / 4 := by norm_num
      nlinarith)
  exact ⟨a, b, L, eL, by simp only [GNParams.default, sci], hL⟩

/-- **C75.** The other way round: with enough iterations every error comes down to the cut-off, and so the loss comes down to
`min_loss` or to a quarter of the cut-off per constraint. -/
theorem C75_enough {pinv : PInv XR} (hp : RealPInv pinv) (hg : GoodPInv pinv) (hcut : CutPInv pinv) (p : GNParams XR)
    (hn : s.cells.Nodup) (hc : Closed ⟨h, s⟩) (hf : FiniteSketch h s) (hi : DisjointDiffs h s) (hne : s.cons ≠ [])
    (σ ε ml : ℝ) (hσ : p.stepSize = fin σ) (hε : p.pinvEps = fin ε) (hml : p.minLoss = fin ml) (hε0 : 0 ≤ ε)
    (hσ0 : 0 ≤ σ) (hσ2 : σ < 2)
    (hit : ∀ k ∈ s.cons, 2 * ((1 - σ / 2) ^ p.maxIterations * diffError h (h.cons k)) ^ 2 ≤ ε) :
    (gnSolve pinv p h s).res = .ok ∧
    ∃ L : ℝ, getLoss (gnSolve pinv p h s).heap s = fin L ∧ L ≤ max ml (s.cons.length * (ε / 4)) := by
  obtain ⟨k0, hk0⟩ := List.exists_mem_of_ne_nil _ hne
  have hpos : 0 < getNDofs h s := by
    have := (diffDofs_mem hc hk0 (hi.1 k0 hk0).1).1
    rw [← dofs_length]
    exact List.length_pos_of_mem this
  have hok : (gnSolve pinv p h s).res = .ok := C34_gn_ok hg _ hn hc hf _ hσ hpos (by
    intro k hk l m e
    have := (hi.1 k hk).1
    rw [e] at this
    exact this)
  have hnp : (gnSolve pinv p h s).res ≠ .panic := by rw [hok]; simp
  have hs := C75_step hp hcut p hn hc hf hi σ ε hσ hε hε0
  have hl := C34_gn_leads pinv p h s hnp
  have hstop := C34_gn_stop pinv p h s hok
  have hfin := gn_step_finite hp p hn hc hf σ hσ
  have hrun := C75_run hp hcut p hn hc hf hi σ ε hσ hε hε0 (by linarith) hnp
  obtain ⟨rE, fE⟩ := gn_end_finite hp p hn hc hf σ hσ hnp
  refine ⟨hok, _, diffs_loss hc (fun k hk => (hi.1 k hk).1) rE fE, ?_⟩
  have hle : (1 - σ / 2) ^ 2 ≤ 1 := by nlinarith
  rcases hstop with ⟨-, q⟩ | q | ⟨r, hr, q⟩
  · rw [hml] at q
    have q2 : (fin ml <. (pinf : XR)) = true := rfl
    exact absurd (q2.symm.trans q) (by simp)
  · refine le_trans (sum_le' (c := ε / 4) fun k hk => ?_) (le_max_right _ _)
    obtain ⟨j, hj, ej, c1, -⟩ := hrun k hk
    have : 2 * diffError (gnSolve pinv p h s).heap (h.cons k) ^ 2 ≤ ε := by
      rcases hj.lt_or_eq with hj | hj
      · exact c1 hj
      · rw [ej, hj, q]; exact hit k hk
    linarith
  · have hm := List.mem_of_getLast? hr
    have eL := diffs_loss hc (fun k hk => (hi.1 k hk).1) (hfin r hm).1 (hfin r hm).2.1
    rw [sumL_losses, eL, hml] at q
    refine le_trans ?_ (le_trans (by simpa using q) (le_max_left _ _))
    refine List.sum_le_sum fun k hk => ?_
    rw [diffError_gradOnly (leads_last _ _ hl r hr), hs r hm k hk]
    split
    · rw [mul_pow]
      have := mul_le_mul_of_nonneg_right hle (sq_nonneg (diffError r.pre (h.cons k)))
      linarith
    · rw [one_mul]

theorem rate_below : ((1 : ℝ) - 1e-3 / 2) ^ 10000 ≤ 7e-3 := by
  have a1 : ((1 : ℝ) - 1e-3 / 2) ^ 200 ≤ 0.9049 := by norm_num
  have a2 : (0.9049 : ℝ) ^ 5 ≤ 0.6068 := by norm_num
  have a3 : (0.6068 : ℝ) ^ 10 ≤ 7e-3 := by norm_num
  calc ((1 : ℝ) - 1e-3 / 2) ^ 10000 = (((1 - 1e-3 / 2) ^ 200) ^ 5) ^ 10 := by rw [← pow_mul, ← pow_mul]
    _ ≤ ((0.9049 : ℝ) ^ 5) ^ 10 := pow_le_pow_left₀ (by positivity) (pow_le_pow_left₀ (by positivity) a1 _) _
    _ ≤ (0.6068 : ℝ) ^ 10 := pow_le_pow_left₀ (by positivity) a2 _
    _ ≤ 7e-3 := a3

/-- **C75.** With default parameters up to four such constraints, each off by at most 0.1, are solved to `min_loss`. -/
theorem C75_four {pinv : PInv XR} (hp : RealPInv pinv) (hg : GoodPInv pinv) (hcut : CutPInv pinv)
    (hn : s.cells.Nodup) (hc : Closed ⟨h, s⟩) (hf : FiniteSketch h s) (hi : DisjointDiffs h s) (hne : s.cons ≠ [])
    (h4 : s.cons.length ≤ 4) (h0 : ∀ k ∈ s.cons, |diffError h (h.cons k)| ≤ 0.1) :
    (gnSolve pinv .default h s).res = .ok ∧
    ∃ L : ℝ, getLoss (gnSolve pinv .default h s).heap s = fin L ∧ L ≤ 1e-6 := by
  have h4' : (s.cons.length : ℝ) ≤ 4 := by exact_mod_cast h4
  obtain ⟨a, L, eL, hL⟩ := C75_enough hp hg hcut .default hn hc hf hi hne
    1e-3 1e-6 1e-6 (by simp only [GNParams.default, sci]) (by simp only [GNParams.default, sci])
    (by simp only [GNParams.default, sci]) (by norm_num) (by norm_num) (by norm_num) (by
      intro k hk
      show 2 * ((1 - 1e-3 / 2) ^ 10000 * diffError h (h.cons k)) ^ 2 ≤ (1e-6 : ℝ)
      have hr := rate_below
      have hr0 : (0 : ℝ) ≤ (1 - 1e-3 / 2) ^ 10000 := by positivity
      generalize ((1 : ℝ) - 1e-3 / 2) ^ 10000 = t at *
      have h1 : |t * diffError h (h.cons k)| ≤ 7e-4 := by
        rw [abs_mul, abs_of_nonneg hr0]
        have := h0 k hk
        have h2 := abs_nonneg (diffError h (h.cons k))
        nlinarith
      have h2 := pow_le_pow_left₀ (abs_nonneg _) h1 2
      rw [sq_abs] at h2
      have : (2 : ℝ) * 7e-4 ^ 2 ≤ 1e-6 := by norm_num
      linarith)
  refine ⟨a, L, eL, hL.trans (max_le (le_refl _) ?_)⟩
  have : (0 : ℝ) < 1e-6 / 4 := by norm_num
  nlinarith

/-! ## Any sketch -/

/-- **C75.** On any sketch: if all singular values of `JᵀJ` at the start are cut off, Gauss-Newton does nothing, however large
the loss is: unless it panics, every coordinate is as it was. -/
theorem C75_stall {pinv : PInv XR} (hp : RealPInv pinv) (hcut : CutPInv pinv) (p : GNParams XR)
    (hn : s.cells.Nodup) (hc : Closed ⟨h, s⟩) (hf : FiniteSketch h s)
    (σ ε : ℝ) (hσ : p.stepSize = fin σ) (hε : p.pinvEps = fin ε) (hε0 : 0 ≤ ε)
    (hok : (gnSolve pinv p h s).res ≠ .panic) (J : Matrix (Fin s.cons.length) (Fin (getNDofs h s)) ℝ) (h' : Heap XR)
    (ej : getJacobian h s = .ok (mat J, h')) (hJ : ∀ x, (J *ᵥ x) ⬝ᵥ (J *ᵥ x) ≤ ε * (x ⬝ᵥ x)) :
    getData (gnSolve pinv p h s).heap s = getData h s := by
  have hl := C34_gn_leads pinv p h s hok
  have hs : ∀ r ∈ (gnSolve pinv p h s).steps, NewtonStep pinv (fin ε) σ h s (fun J => Jᵀ * J) r := by
    intro r hr
    unfold gnSolve at hr
    rw [hσ, hε] at hr
    exact newtonLoop_steps hn hc hp p.minLoss (fin ε) σ gnNormal (fun J => Jᵀ * J) (fun J => gnNormal_mat J) _ _ h (.refl h) hf
      r hr
  rcases Nat.eq_zero_or_pos (getNDofs h s) with hz | hpos
  · have A : ∀ a : Heap XR, getData a s = [] := fun a =>
      List.length_eq_zero_iff.1 ((getData_length a s).trans ((getNDofs_congr h a s).trans hz))
    rw [A, A]
  refine (leads_inv (Q := fun a => getData a s = getData h s) (fun a b g q => by rw [g.getData]; exact q) _ _ hl rfl ?_).1
  intro r hr q
  obtain ⟨J', P, x, l, h2, r1, f1, r2, f2, ej', ex, el, ep, ex2⟩ := hs r hr
  -- the same Jacobian
  have hJJ : J' = J := by
    ext i j
    have hc1 := hc.sameRefs r1
    have hk : s.cons[i.1] ∈ s.cons := List.getElem_mem i.2
    have d1 := depEq_of_data r1 hc ex hk
    have d2 := depEq_of_data (.refl h) hc (q.symm.trans ex) hk
    rw [getJacobian_entries hc1 f1 ej', getJacobian_entries hc hf ej, r1.cons, d1.contribs, d2.contribs]
  subst hJJ
  obtain ⟨P', ep', hP⟩ := hcut _ (J'ᵀ * J') ε hpos (gram_symm J') (fun x => by rw [gram_form]; exact dot_self_nonneg _) hε0
  rw [ep] at ep'
  cases mat_injective (PInvRes.ok.inj ep')
  rw [ex2, cut_zero (gram_symm J') hP (fun x => by rw [gram_form]; exact hJ x), smul_zero, sub_zero, ← ex]
  exact q

/-- **C75.** In particular if the squares of all entries of the Jacobian (the partial derivatives of the losses of the
constraints) add up to no more than the cut-off. -/
theorem C75_flat {pinv : PInv XR} (hp : RealPInv pinv) (hcut : CutPInv pinv) (p : GNParams XR)
    (hn : s.cells.Nodup) (hc : Closed ⟨h, s⟩) (hf : FiniteSketch h s)
    (σ ε : ℝ) (hσ : p.stepSize = fin σ) (hε : p.pinvEps = fin ε) (hε0 : 0 ≤ ε)
    (hok : (gnSolve pinv p h s).res ≠ .panic) (J : Matrix (Fin s.cons.length) (Fin (getNDofs h s)) ℝ) (h' : Heap XR)
    (ej : getJacobian h s = .ok (mat J, h')) (hJ : ∑ i, ∑ j, J i j ^ 2 ≤ ε) :
    getData (gnSolve pinv p h s).heap s = getData h s := by
  refine C75_stall hp hcut p hn hc hf σ ε hσ hε hε0 hok J h' ej fun x => ?_
  calc (J *ᵥ x) ⬝ᵥ (J *ᵥ x) = ∑ i, (∑ j, J i j * x j) ^ 2 :=
        Finset.sum_congr rfl fun i _ => (_root_.sq _).symm
    _ ≤ ∑ i, (∑ j, J i j ^ 2) * ∑ j, x j ^ 2 := Finset.sum_le_sum fun i _ => Finset.sum_mul_sq_le_sq_mul_sq _ _ _
    _ = (∑ i, ∑ j, J i j ^ 2) * ∑ j, x j ^ 2 := by rw [Finset.sum_mul]
    _ ≤ ε * ∑ j, x j ^ 2 := mul_le_mul_of_nonneg_right hJ (Finset.sum_nonneg fun _ _ => sq_nonneg _)
    _ = ε * (x ⬝ᵥ x) := by congr 1; exact Finset.sum_congr rfl fun j _ => _root_.sq _

/-! ## Examples -/

/-- `N` pairs of points at the origin; the points of a pair should be `d` apart horizontally -/
noncomputable def rodsHeap (N : Nat) (d : ℝ) : Heap XR :=
  { (Heap.empty : Heap XR) with
    points := fun _ => ⟨⟨fin 0, fin 0⟩, ⟨fin 0, fin 0⟩⟩
    cons := fun k => .horizDist (2 * k) (2 * k + 1) (fin d)
    nPoints := 2 * N
    nCons := N }

def rods (N : Nat) : Sketch := ⟨(List.range (2 * N)).map fun i => (i, .point i), 2 * N, List.range N⟩

theorem rods_cells (N : Nat) : (rods N).cells = (List.range (2 * N)).map PrimCell.point := by
  simp [Sketch.cells, rods]

theorem rods_nodup (N : Nat) : (rods N).cells.Nodup := by
  rw [rods_cells]
  exact List.nodup_range.map fun a b e => by cases e; rfl

theorem rods_closed (N : Nat) (d : ℝ) : Closed ⟨rodsHeap N d, rods N⟩ := by
  constructor
  · intro c hc x hx
    have hc : c ∈ (rods N).cells := hc
    rw [rods_cells] at hc
    obtain ⟨i, -, rfl⟩ := List.mem_map.1 hc
    simp [primFields] at hx
  · intro k hk x hx
    have hk : k < N := by simpa [rods] using hk
    have hx : x = .point (2 * k) ∨ x = .point (2 * k + 1) := by simpa [rodsHeap, consFields] using hx
    show x ∈ (rods N).cells
    rw [rods_cells]
    rcases hx with rfl | rfl
    · exact List.mem_map.2 ⟨2 * k, by simp; omega, rfl⟩
    · exact List.mem_map.2 ⟨2 * k + 1, by simp; omega, rfl⟩

theorem rods_finite (N : Nat) (d : ℝ) : FiniteSketch (rodsHeap N d) (rods N) := by
  refine ⟨?_, ?_⟩
  · rw [getData_dofs]
    intro x hx
    obtain ⟨e, he, rfl⟩ := List.mem_map.1 hx
    have := mem_sketch_dofs.1 he
    rw [rods_cells] at this
    obtain ⟨i, -, hi⟩ := List.mem_map.1 this
    cases e <;> simp_all [Dof.owner, val, rodsHeap, Num.isFinite, XR.isFinite]
  · intro k hk x hx
    have : x = fin d := by simpa [rodsHeap, consParams] using hx
    rw [this]; rfl

theorem rods_disjoint (N : Nat) (d : ℝ) : DisjointDiffs (rodsHeap N d) (rods N) := by
  have S : ∀ k, diffForm (rodsHeap N d) ((rodsHeap N d).cons k) = .single (2 * k + 1, 0) 1 - .single (2 * k, 0) 1 := fun k => rfl
  refine ⟨fun k _ => ⟨trivial, fun q => ?_⟩, ?_⟩
  · rw [S] at q
    have := DFunLike.congr_fun q (2 * k + 1, 0)
    simp at this
  · refine List.pairwise_iff_getElem.2 fun i j hi hj hij => ?_
    have hne : (rods N).cons[i] ≠ (rods N).cons[j] := by
      simp only [rods, List.getElem_range]; omega
    generalize (rods N).cons[i] = a at *
    generalize (rods N).cons[j] = b at *
    rw [S, S, Finset.disjoint_left]
    rintro ⟨p, c⟩ h1 h2
    rw [Finsupp.mem_support_iff] at h1 h2
    simp only [Finsupp.coe_sub, Pi.sub_apply, Finsupp.single_apply, Prod.mk.injEq] at h1 h2
    have h3 : p = 2 * a + 1 ∨ p = 2 * a := by
      by_contra hh
      push Not at hh
      apply h1
      rw [if_neg fun q => hh.1 q.1.symm, if_neg fun q => hh.2 q.1.symm, sub_zero]
    have h4 : p = 2 * b + 1 ∨ p = 2 * b := by
      by_contra hh
      push Not at hh
      apply h2
      rw [if_neg fun q => hh.1 q.1.symm, if_neg fun q => hh.2 q.1.symm, sub_zero]
    omega

theorem rods_error (N : Nat) (d : ℝ) (k : Nat) : diffError (rodsHeap N d) ((rodsHeap N d).cons k) = -d := by
  simp [rodsHeap, diffError, ptOf, pt]

/-- C75: whatever the number of iterations, Gauss-Newton never finds two points 1 apart if it is given five such pairs -/
example (n : Nat) : ∃ L : ℝ, getLoss (gnSolve cutPInv { (GNParams.default : GNParams XR) with maxIterations := n }
    (rodsHeap 5 1) (rods 5)).heap (rods 5) = fin L ∧ 1e-6 < L := by
  obtain ⟨-, -, L, eL, -, hL⟩ := C75_five cutPInv_real cutPInv_good cutPInv_cut n (rods_nodup 5) (rods_closed 5 1)
    (rods_finite 5 1) (rods_disjoint 5 1) (by simp [rods]) (fun k _ => by rw [rods_error]; norm_num)
  exact ⟨L, eL, hL⟩

/-- C75: but if it is given four of them, 0.1 apart -/
example : ∃ L : ℝ, getLoss (gnSolve cutPInv .default (rodsHeap 4 0.1) (rods 4)).heap (rods 4) = fin L ∧ L ≤ 1e-6 :=
  (C75_four cutPInv_real cutPInv_good cutPInv_cut (rods_nodup 4) (rods_closed 4 _)
    (rods_finite 4 _) (rods_disjoint 4 _) (by simp [rods]) (by simp [rods])
    (fun k _ => by rw [rods_error]; norm_num [abs_of_pos])).2

/-- C75: a thousand pairs, each off by 7e-4, are left as they are -/
example (k : Nat) (hk : k < 1000) :
    diffError (gnSolve cutPInv .default (rodsHeap 1000 7e-4) (rods 1000)).heap ((rodsHeap 1000 7e-4).cons k) = -7e-4 := by
  have hok : (gnSolve cutPInv .default (rodsHeap 1000 7e-4) (rods 1000)).res ≠ .panic := by
    rw [C34_gn_ok cutPInv_good .default (rods_nodup _) (rods_closed _ _) (rods_finite _ _) 1e-3
      (by simp only [GNParams.default, sci]) (by
        have := (diffDofs_mem (rods_closed 1000 7e-4) (k := 0) (by simp [rods]) trivial).1
        rw [← dofs_length]
        exact List.length_pos_of_mem this) (by intro k _ l m; simp [rodsHeap])]
    simp
  obtain ⟨j, -, ej, -, -, c3⟩ := C75_run cutPInv_real cutPInv_cut .default (rods_nodup 1000) (rods_closed 1000 7e-4)
    (rods_finite 1000 7e-4) (rods_disjoint 1000 7e-4) 1e-3 1e-6 (by simp only [GNParams.default, sci])
    (by simp only [GNParams.default, sci]) (by norm_num) (by norm_num) hok k (by simpa [rods] using hk)
  rw [rods_error] at ej c3
  rw [ej, c3 (by norm_num), pow_zero, one_mul]

end Isotope
