import Verif.SpecConflict
import Verif.Lemmas.Part
import Mathlib.LinearAlgebra.Finsupp.LinearCombination
import Mathlib.LinearAlgebra.LinearIndependent.Lemmas
import Mathlib.LinearAlgebra.Basis.VectorSpace

/-!
# Linear constraints axis by axis, and which of them are in conflict
-/

namespace Isotope
open XR

/-- Carathéodory's lemma for cones: a combination with positive coefficients can be made with independent vectors. -/
theorem cone_independent {ι V : Type} [DecidableEq ι] [AddCommGroup V] [Module ℝ V] (v : ι → V) (u : V) :
    ∀ (n : Nat) (S : Finset ι) (w : ι → ℝ), S.card = n → (∀ i ∈ S, 0 < w i) → ∑ i ∈ S, w i • v i = u →
      ∃ I ⊆ S, LinearIndepOn ℝ v (I : Set ι) ∧ ∃ w' : ι → ℝ, (∀ i ∈ I, 0 < w' i) ∧ ∑ i ∈ I, w' i • v i = u := by
  intro n
  induction n using Nat.strong_induction_on with
  | _ n ih =>
    intro S w hn hw hu
    by_cases hi : LinearIndepOn ℝ v (S : Set ι)
    · exact ⟨S, subset_rfl, hi, w, hw, hu⟩
    · rw [linearIndepOn_finset_iff] at hi
      push Not at hi
      obtain ⟨g, hg, i0, m0, hi0⟩ := hi
      -- a relation with a positive coefficient
      obtain ⟨g, hg, i0, m0, hi0⟩ : ∃ g : ι → ℝ, ∑ i ∈ S, g i • v i = 0 ∧ ∃ i ∈ S, 0 < g i := by
        rcases lt_or_gt_of_ne hi0 with hh | hh
        · refine ⟨fun i => -g i, ?_, i0, m0, by linarith⟩
          simp only [neg_smul, Finset.sum_neg_distrib, hg, neg_zero]
        · exact ⟨g, hg, i0, m0, hh⟩
      obtain ⟨j, mj, hj⟩ := Finset.exists_min_image (S.filter (fun i => 0 < g i)) (fun i => w i / g i) ⟨i0, by simp [m0, hi0]⟩
      rw [Finset.mem_filter] at mj
      let w2 : ι → ℝ := fun i => w i - w j / g j * g i
      have hnn : ∀ i ∈ S, 0 ≤ w2 i := by
        intro i mi
        by_cases hgi : 0 < g i
        · have := hj i (by simp [mi, hgi])
          rw [le_div_iff₀ hgi] at this
          simp only [w2]; linarith
        · have h1 := hw i mi
          have h2 : 0 < w j / g j := div_pos (hw j mj.1) mj.2
          have h3 : w j / g j * g i ≤ 0 := mul_nonpos_of_nonneg_of_nonpos h2.le (not_lt.1 hgi)
          simp only [w2]; linarith
      have hj0 : w2 j = 0 := by
        simp only [w2]; rw [div_mul_cancel₀ _ mj.2.ne', sub_self]
      have hsum : ∑ i ∈ S, w2 i • v i = u := by
        simp only [w2, sub_smul, Finset.sum_sub_distrib, mul_smul, ← Finset.smul_sum, hg, smul_zero, sub_zero, hu]
      have hcard : (S.filter (fun i => 0 < w2 i)).card < n := by
        rw [← hn]
        apply Finset.card_lt_card
        refine ⟨Finset.filter_subset _ _, fun hh => ?_⟩
        have := hh mj.1
        rw [Finset.mem_filter, hj0] at this
        exact lt_irrefl _ this.2
      obtain ⟨I, hI, a, b⟩ := ih _ hcard (S.filter (fun i => 0 < w2 i)) w2 rfl (fun i mi => (Finset.mem_filter.1 mi).2) (by
        rw [Finset.sum_filter, ← hsum]
        refine Finset.sum_congr rfl fun i mi => ?_
        split_ifs with hh
        · rfl
        · rw [le_antisymm (not_lt.1 hh) (hnn i mi), zero_smul])
      exact ⟨I, hI.trans (Finset.filter_subset _ _), a, b⟩

/-- independent functionals take any values -/
theorem exists_values {ι : Type} (v : ι → (Nat →₀ ℝ)) (I : Set ι) (hi : LinearIndepOn ℝ v I) (b : ι → ℝ) :
    ∃ q : Nat → ℝ, ∀ i ∈ I, Finsupp.linearCombination ℝ q (v i) = b i := by
  obtain ⟨f, hf⟩ := LinearMap.exists_extend ((Module.Basis.span hi).constr ℝ (fun i : I => b i))
  refine ⟨fun p => f (Finsupp.single p 1), fun i mi => ?_⟩
  have e1 : Finsupp.linearCombination ℝ (fun p => f (Finsupp.single p 1)) = f := by
    ext p; simp
  rw [e1]
  have := congrArg (fun g => g (Module.Basis.span hi ⟨i, mi⟩)) hf
  have e2 : ((Module.Basis.span hi ⟨i, mi⟩ : _) : Nat →₀ ℝ) = v i :=
    congrArg Subtype.val (Module.Basis.span_apply hi ⟨i, mi⟩)
  simp only [Module.Basis.constr_basis, LinearMap.comp_apply, Submodule.subtype_apply, e2] at this
  exact this

/-- the coordinates of the points -/
noncomputable def placeOf (h : Heap XR) (p : Nat) : Fin 2 → ℝ := ![(h.points p).data.x.toReal, (h.points p).data.y.toReal]

/-- coefficients of the demand a linear constraint makes on axis `a` (zero: none) -/
noncomputable def axRow (h : Heap XR) (a : Fin 2) : Constraint XR → (Nat →₀ ℝ)
  | .fix p _ => .single p 1
  | .horizDist p1 p2 _ => if a = 0 then .single p2 1 - .single p1 1 else 0
  | .vertDist p1 p2 _ => if a = 1 then .single p2 1 - .single p1 1 else 0
  | .horizLine l => if a = 1 then .single (h.lines l).stop 1 - .single (h.lines l).start 1 else 0
  | .vertLine l => if a = 0 then .single (h.lines l).stop 1 - .single (h.lines l).start 1 else 0
  | _ => 0

/-- the value demanded on axis `a` -/
noncomputable def axGoal (a : Fin 2) : Constraint XR → ℝ
  | .fix _ d => if a = 0 then d.x.toReal else d.y.toReal
  | .horizDist _ _ d => if a = 0 then d.toReal else 0
  | .vertDist _ _ d => if a = 1 then d.toReal else 0
  | _ => 0

/-- how far points at `q` miss the demand on axis `a` -/
noncomputable def axErr (h : Heap XR) (q : Nat → Fin 2 → ℝ) (a : Fin 2) (c : Constraint XR) : ℝ :=
  Finsupp.linearCombination ℝ (fun p => q p a) (axRow h a c) - axGoal a c

/-- a coordinate of a point as a degree of freedom -/
def axDof (a : Fin 2) (p : Nat) : Dof := if a = 0 then .px p else .py p

variable {h : Heap XR} {s : Sketch} {c : Constraint XR}

theorem metBy_iff (hl : IsLinear c) (q : Nat → Fin 2 → ℝ) : MetBy h q c ↔ ∀ a, axErr h q a c = 0 := by
  have hl' : IsFix c ∨ IsDiff c := hl
  cases c <;> simp only [IsFix, IsDiff, or_self] at hl' <;>
    simp [MetBy, axErr, axRow, axGoal, Fin.forall_fin_two, sub_eq_zero]

theorem ax_loss (hf : FiniteCons h c) (hl : IsLinear c) :
    lossValue h c = fin ((axErr h (placeOf h) 0 c ^ 2 + axErr h (placeOf h) 1 c ^ 2) / 2) := by
  rw [(linear_facts hf hl).1]
  have hl' : IsFix c ∨ IsDiff c := hl
  cases c <;> simp only [IsFix, IsDiff, or_self] at hl' <;>
    simp [equations, diffDofs, diffGoal, evalEq, axErr, axRow, axGoal, placeOf, val] <;> ring

theorem ax_total (hf : FiniteCons h c) (hl : IsLinear c) (a : Fin 2) (p : Nat) :
    total (contribs h c) (axDof a p) = axErr h (placeOf h) a c * axRow h a c p := by
  rw [(linear_facts hf hl).2]
  have hl' : IsFix c ∨ IsDiff c := hl
  fin_cases a <;> cases c <;> simp only [IsFix, IsDiff, or_self] at hl' <;>
    simp [equations, diffDofs, diffGoal, evalEq, axErr, axRow, axGoal, placeOf, val, axDof, Finsupp.single_apply] <;>
    split_ifs <;> ring

/-- the demand on one axis with an error takes part in a conflict with independent demands -/
theorem conflict_axis {K : Finset Nat} {w e goal : Nat → ℝ} {v : Nat → (Nat →₀ ℝ)} (hw : ∀ k ∈ K, 0 < w k) {x : Nat → ℝ}
    (he : ∀ k, Finsupp.linearCombination ℝ x (v k) - goal k = e k) (hz : ∑ k ∈ K, w k • (e k • v k) = 0)
    {k : Nat} (hk : k ∈ K) (hek : e k ≠ 0) :
    ∃ I ⊆ K, k ∉ I ∧ (∀ i ∈ I, e i ≠ 0) ∧ LinearIndepOn ℝ v (I : Set Nat) ∧
      ¬∃ q : Nat → ℝ, ∀ i ∈ insert k I, Finsupp.linearCombination ℝ q (v i) = goal i := by
  have hz2 : ∑ i ∈ (K.erase k).filter (fun i => e i ≠ 0), w i • (e i • v i) = -(w k • (e k • v k)) := by
    rw [Finset.sum_filter, eq_neg_iff_add_eq_zero]
    refine Eq.trans ?_ hz
    rw [← Finset.sum_erase_add K _ hk]
    congr 1
    refine Finset.sum_congr rfl fun i _ => ?_
    split_ifs with hh
    · rfl
    · rw [not_not.1 hh, zero_smul, smul_zero]
  obtain ⟨I, hI, hi, w', hw', hs⟩ := cone_independent (fun i => e i • v i) _ _ _ w rfl
    (fun i mi => hw i (Finset.mem_of_mem_erase (Finset.mem_filter.1 mi).1)) hz2
  have hm : ∀ i ∈ I, i ≠ k ∧ i ∈ K ∧ e i ≠ 0 := by
    intro i mi
    have := Finset.mem_filter.1 (hI mi)
    exact ⟨(Finset.mem_erase.1 this.1).1, (Finset.mem_erase.1 this.1).2, this.2⟩
  refine ⟨I, fun i mi => (hm i mi).2.1, fun hh => (hm k hh).1 rfl, fun i mi => (hm i mi).2.2, ?_, ?_⟩
  · rw [linearIndepOn_finset_iff] at hi ⊢
    intro g hg i mi
    have := hi (fun i => g i / e i) (by
      rw [← hg]
      refine Finset.sum_congr rfl fun j mj => ?_
      rw [smul_smul, div_mul_cancel₀ _ (hm j mj).2.2]) i mi
    exact (div_eq_zero_iff.1 this).resolve_right (hm i mi).2.2
  · rintro ⟨q, hq⟩
    have key : ∀ y : Nat → ℝ, ∑ i ∈ I, w' i * (e i * Finsupp.linearCombination ℝ y (v i)) +
        w k * (e k * Finsupp.linearCombination ℝ y (v k)) = 0 := by
      intro y
      have := congrArg (Finsupp.linearCombination ℝ y) hs
      simp only [map_sum, map_neg, map_smul, smul_eq_mul] at this
      linarith
    have h1 := key x
    have h2 := key q
    have h3 : ∑ i ∈ I, w' i * (e i * Finsupp.linearCombination ℝ x (v i)) =
        ∑ i ∈ I, w' i * (e i * Finsupp.linearCombination ℝ q (v i)) + ∑ i ∈ I, w' i * e i ^ 2 := by
      rw [← Finset.sum_add_distrib]
      refine Finset.sum_congr rfl fun i mi => ?_
      rw [hq i (Finset.mem_insert_of_mem mi), ← he i]
      ring
    have h4 : 0 ≤ ∑ i ∈ I, w' i * e i ^ 2 := Finset.sum_nonneg fun i mi => mul_nonneg (hw' i mi).le (sq_nonneg _)
    have h5 : 0 < w k * e k ^ 2 := mul_pos (hw k hk) (by positivity)
    have h6 : w k * (e k * Finsupp.linearCombination ℝ x (v k)) =
        w k * (e k * Finsupp.linearCombination ℝ q (v k)) + w k * e k ^ 2 := by
      rw [hq k (Finset.mem_insert_self _ _), ← he k]
      ring
    linarith

theorem axDof_owner (a : Fin 2) (p : Nat) : (axDof a p).owner = .point p := by
  fin_cases a <;> rfl

/-- where the gradient vanishes, the weighted rows add up to zero on each axis -/
theorem AtRest.sum (hc : Closed ⟨h, s⟩) (hf : FiniteSketch h s) (hl : ∀ k ∈ s.cons, IsLinear (h.cons k)) (hr : AtRest h s) (a : Fin 2) :
    (s.cons.map (fun k => axErr h (placeOf h) a (h.cons k) • axRow h a (h.cons k))).sum = 0 := by
  have hfc := hf.cons hc
  obtain ⟨g, h', e, hz⟩ := hr
  obtain ⟨h2, -, -, e2⟩ := (getGradient_exact h s hfc).1 fun k hk => linear_not_eqLen (hl k hk)
  rw [e] at e2
  injection e2 with e2
  obtain ⟨e3, -⟩ := Prod.mk.inj e2
  have key : ∀ p, (s.cons.map (fun k => total (contribs h (h.cons k)) (axDof a p))).sum = 0 := by
    intro p
    by_cases hp : axDof a p ∈ s.dofs
    · have := hz (fin (total (s.cons.flatMap (fun k => contribs h (h.cons k))) (axDof a p))) (by
        rw [e3]; exact List.mem_map.2 ⟨_, hp, rfl⟩)
      rw [total_flatMap] at this
      exact XR.fin.inj this
    · apply List.sum_eq_zero
      intro y hy
      obtain ⟨k, hk, rfl⟩ := List.mem_map.1 hy
      apply total_owner
      intro hh
      exact hp (mem_sketch_dofs.2 (hc.deps hk hh))
  ext p
  have : ∀ l : List Nat, (∀ k ∈ l, k ∈ s.cons) →
      ((l.map (fun k => axErr h (placeOf h) a (h.cons k) • axRow h a (h.cons k))).sum) p =
      (l.map (fun k => total (contribs h (h.cons k)) (axDof a p))).sum := by
    intro l
    induction l with
    | nil => intro _; rfl
    | cons k l ih =>
      intro hh
      rw [List.map_cons, List.sum_cons, List.map_cons, List.sum_cons, Finsupp.add_apply, ih fun j hj => hh j (by simp [hj]),
        ax_total (hfc k (hh k (by simp))) (hl k (hh k (by simp)))]
      rfl
  rw [this _ fun _ hk => hk, key]
  rfl

/-- demands of independent rows on one axis can be met on both -/
theorem met_both (a : Fin 2) {I : Finset Nat} (hl : ∀ k ∈ I, IsLinear (h.cons k))
    (hi : LinearIndepOn ℝ (fun k => axRow h a (h.cons k)) (I : Set Nat)) : Compatible h (I : Set Nat) := by
  classical
  obtain ⟨q, hq⟩ := exists_values _ _ hi (fun k => axGoal a (h.cons k))
  -- the other coordinate of a point is what its only fixing constraint says
  let z : Nat → Fin 2 → ℝ := fun p b => if b = a then q p else
    if hh : ∃ k ∈ I, ∃ d, h.cons k = .fix p d then axGoal b (h.cons hh.choose) else 0
  have hza : (fun p => z p a) = q := by funext p; simp [z]
  refine ⟨z, fun k hk => (metBy_iff (hl k hk) z).2 fun b => ?_⟩
  by_cases hb : b = a
  · subst hb
    unfold axErr
    rw [hza, hq k hk, sub_self]
  · have hne : axRow h a (h.cons k) ≠ 0 := hi.ne_zero hk
    by_cases hfx : ∃ p d, h.cons k = .fix p d
    · obtain ⟨p, d, e⟩ := hfx
      have hh : ∃ k ∈ I, ∃ d, h.cons k = .fix p d := ⟨k, hk, d, e⟩
      have hzp : z p b = axGoal b (h.cons k) := by
        simp only [z, if_neg hb]
        rw [dif_pos hh]
        have hs := hh.choose_spec
        obtain ⟨m1, d1, e1⟩ := hs
        have : hh.choose = k := by
          refine hi.injOn m1 hk ?_
          show axRow h a _ = axRow h a _
          rw [e1, e]
          rfl
        rw [this]
      unfold axErr
      rw [show axRow h b (h.cons k) = Finsupp.single p 1 by rw [e]; rfl, Finsupp.linearCombination_single, hzp]
      simp
    · have hl' := hl k hk
      unfold axErr
      generalize h.cons k = c at *
      have hl2 : IsFix c ∨ IsDiff c := hl'
      fin_cases a <;> fin_cases b <;> first | exact absurd rfl hb | skip
      all_goals
        cases c <;> simp only [IsFix, IsDiff, or_self] at hl2 <;> first | exact absurd ⟨_, _, rfl⟩ hfx | skip
        all_goals simp [axRow, axGoal] at hne ⊢

/-- among finitely many constraints, a conflict that goes away without `k` contains a minimal conflict with `k` -/
theorem exists_minimal {T : Finset Nat} {k : Nat} (h1 : ¬Compatible h (T : Set Nat)) (h2 : Compatible h ((T : Set Nat) \ {k})) :
    ∃ M ⊆ T, k ∈ M ∧ MinimalConflict h (M : Set Nat) := by
  classical
  induction hn : T.card using Nat.strong_induction_on generalizing T with
  | _ n ih =>
    by_cases hm : ∀ j ∈ T, Compatible h ((T : Set Nat) \ {j})
    · refine ⟨T, subset_rfl, ?_, h1, hm⟩
      by_contra hk
      apply h1
      convert h2 using 1
      ext i
      simp only [Set.mem_sdiff, Set.mem_singleton_iff]
      exact ⟨fun hi => ⟨hi, fun e => hk (by rw [← e]; exact_mod_cast hi)⟩, And.left⟩
    · push Not at hm
      obtain ⟨j, mj, hj⟩ := hm
      have e : ((T.erase j : Finset Nat) : Set Nat) = (T : Set Nat) \ {j} := by simp
      obtain ⟨M, a, b⟩ := ih _ (by rw [← hn]; exact Finset.card_erase_lt_of_mem mj) (T := T.erase j) (by rw [e]; exact hj) (by
        obtain ⟨q, hq⟩ := h2
        refine ⟨q, fun i hi => hq i ?_⟩
        rw [e] at hi
        exact ⟨hi.1.1, hi.2⟩) rfl
      exact ⟨M, a.trans (Finset.erase_subset _ _), b⟩

end Isotope
