import Verif.Lemmas.Diff
import Verif.Props.Newton
import Mathlib.LinearAlgebra.LinearIndependent.Lemmas

/-!
# Exact convergence of Gauss-Newton (C60)
-/

namespace Isotope
open XR
open Matrix

variable {h : Heap XR} {s : Sketch}

/-- a Gauss-Newton step on independent difference constraints -/
theorem newtonStep_contract {pinv : PInv XR} {eps : XR} {σ : ℝ} (hn : s.cells.Nodup) (hc : Closed ⟨h, s⟩)
    (hi : IndependentDiffs h s) {r : StepRec XR} (hr : NewtonStep pinv eps σ h s (fun J => Jᵀ * J) r)
    (hinv : InvertsAt pinv eps r.pre s) (k : Nat) (hk : k ∈ s.cons) (he : diffError r.pre (h.cons k) ≠ 0) :
    diffError r.post (h.cons k) = (1 - σ / 2) * diffError r.pre (h.cons k) := by
  obtain ⟨J, P, x, l, h', r1, f1, r2, f2, ej, ex, el, ep, ex2⟩ := hr
  have hc1 := hc.sameRefs r1
  have hP := hinv _ _ J h' P ej ep
  generalize hdx : -(σ • (P *ᵥ (Jᵀ *ᵥ l))) = dx
  have hx : x - σ • (P *ᵥ (Jᵀ *ᵥ l)) - x = dx := by rw [← hdx]; abel
  have hnorm : (Jᵀ * J) *ᵥ dx = -(σ • (Jᵀ *ᵥ l)) := by
    rw [← hdx, mulVec_neg, mulVec_smul, mulVec_mulVec, mulVec_mulVec, genInv_normal J P hP]
  -- the combination of rows that vanishes
  have hz : Jᵀ *ᵥ (J *ᵥ dx + σ • l) = 0 := by
    rw [mulVec_add, mulVec_mulVec, hnorm, mulVec_smul, neg_add_cancel]
  set w := J *ᵥ dx + σ • l with hw
  have hli := linearIndependent_iff'.1 hi.2 Finset.univ (fun i => w i * diffError r.pre (h.cons (s.cons.get i))) (by
    ext key
    simp only [Finsupp.coe_finsetSum, Finset.sum_apply, Finsupp.coe_smul, Pi.smul_apply, smul_eq_mul, Finsupp.coe_zero,
      Pi.zero_apply]
    by_cases hm : keyDof key ∈ s.dofs
    · have hj : s.dofs.idxOf (keyDof key) < getNDofs h s := idxOf_lt hm
      have := congrFun hz ⟨_, hj⟩
      simp only [mulVec, dotProduct, transpose_apply, Pi.zero_apply] at this
      rw [← this]
      refine Finset.sum_congr rfl fun i _ => ?_
      have hki : s.cons[i.1] ∈ s.cons := List.getElem_mem i.2
      have hfc := f1.cons hc1 _ hki
      rw [r1.cons] at hfc
      rw [getJacobian_entries hc1 f1 ej, r1.cons, (diff_facts hfc (hi.1 _ hki)).2.2, diffDofs_sameRefs r1]
      simp only [List.getElem_idxOf]
      rw [diffForm_apply (hi.1 _ (List.get_mem _ _))]
      simp only [List.get_eq_getElem]
      ring
    · refine Finset.sum_eq_zero fun i _ => ?_
      have hki : s.cons[i.1] ∈ s.cons := List.getElem_mem i.2
      obtain ⟨m1, m2⟩ := diffDofs_mem hc hki (hi.1 _ hki)
      have h0 : diffForm h (h.cons (s.cons.get i)) key = 0 := by
        rw [diffForm_apply (hi.1 _ (List.get_mem _ _)), List.get_eq_getElem, if_neg fun q => hm (by rw [← q]; exact m2),
          if_neg fun q => hm (by rw [← q]; exact m1), sub_zero]
      rw [h0, mul_zero])
  obtain ⟨i, hi', rfl⟩ := List.getElem_of_mem hk
  have hwi := hli ⟨i, hi'⟩ (Finset.mem_univ _)
  simp only [List.get_eq_getElem] at hwi
  have hw0 : w ⟨i, hi'⟩ = 0 := (mul_eq_zero.1 hwi).resolve_right he
  have hd := hi.1 _ hk
  have hl : l ⟨i, hi'⟩ = diffError r.pre (h.cons s.cons[i]) ^ 2 / 2 := by
    have hfc := f1.cons hc1 _ hk
    rw [r1.cons] at hfc
    have e1 := (diff_facts hfc hd).2.1
    have e2 := congrArg (fun q => q[i]?) el
    simp only [C15_entries, List.getElem?_eq_getElem hi', Option.map_some, r1.cons, vec, List.getElem?_ofFn, hi', dif_pos,
      Option.some.injEq] at e2
    rw [e1] at e2
    exact (XR.fin.inj e2).symm
  rw [hw] at hw0
  simp only [Pi.add_apply, Pi.smul_apply, smul_eq_mul, hl] at hw0
  rw [diff_row_mul hn r1 hc1 f1 ej ⟨i, hi'⟩ hd] at hw0
  have hch := diff_change r1 r2 hc f1 f2 ex ex2 hk hd
  rw [hx] at hch
  simp only at hw0
  rw [← hch] at hw0
  have : diffError r.pre (h.cons s.cons[i]) * (diffError r.post (h.cons s.cons[i]) -
      (1 - σ / 2) * diffError r.pre (h.cons s.cons[i])) = 0 := by linarith
  rcases mul_eq_zero.1 this with q | q
  · exact absurd q he
  · linarith

/-- **C60.** On a sketch of independent horizontal/vertical constraints every Gauss-Newton step with step size `σ` multiplies
every non-zero error by exactly `1 - σ/2`. (The losses are squares, so the linear model of the solver sees only half of the way
to go.) -/
theorem C60_step {pinv : PInv XR} (hp : RealPInv pinv) (p : GNParams XR) (hn : s.cells.Nodup) (hc : Closed ⟨h, s⟩)
    (hf : FiniteSketch h s) (hi : IndependentDiffs h s) (σ : ℝ) (hσ : p.stepSize = fin σ) :
    ∀ r ∈ (gnSolve pinv p h s).steps, InvertsAt pinv p.pinvEps r.pre s →
      ∀ k ∈ s.cons, diffError r.pre (h.cons k) ≠ 0 →
        diffError r.post (h.cons k) = (1 - σ / 2) * diffError r.pre (h.cons k) := by
  intro r hr hinv k hk he
  unfold gnSolve at hr
  rw [hσ] at hr
  exact newtonStep_contract hn hc hi (newtonLoop_steps hn hc hp p.minLoss p.pinvEps σ gnNormal
    (fun J => Jᵀ * J) (fun J => gnNormal_mat J) _ _ h (.refl h) hf r hr) hinv k hk he

theorem diffError_gradOnly {h1 h2 : Heap XR} (g : GradOnly h1 h2) (c : Constraint XR) : diffError h2 c = diffError h1 c := by
  have P : ∀ p, ptOf h2 p = ptOf h1 p := by
    intro p
    unfold ptOf
    rw [pt_of_primData (g.2 (.point p))]
  cases c <;> simp only [diffError, P, g.1.lines]

/-- **C60.** Over a whole run that starts with all errors different from 0: the errors at the end are the errors at the start
times `(1 - σ/2) ^ (number of steps)`. -/
theorem C60_run {pinv : PInv XR} (hp : RealPInv pinv) (p : GNParams XR) (hn : s.cells.Nodup) (hc : Closed ⟨h, s⟩)
    (hf : FiniteSketch h s) (hi : IndependentDiffs h s) (σ : ℝ) (hσ : p.stepSize = fin σ) (hσ2 : σ ≠ 2)
    (hinv : ∀ r ∈ (gnSolve pinv p h s).steps, InvertsAt pinv p.pinvEps r.pre s)
    (hok : (gnSolve pinv p h s).res ≠ .panic) (h0 : ∀ k ∈ s.cons, diffError h (h.cons k) ≠ 0) :
    ∀ k ∈ s.cons, diffError (gnSolve pinv p h s).heap (h.cons k) =
      (1 - σ / 2) ^ (gnSolve pinv p h s).steps.length * diffError h (h.cons k) := by
  have hs := C60_step hp p hn hc hf hi σ hσ
  have hl := C34_gn_leads pinv p h s hok
  generalize (gnSolve pinv p h s).steps = steps at *
  generalize (gnSolve pinv p h s).heap = hE at *
  have key : ∀ (steps : List (StepRec XR)) (h1 : Heap XR), Leads h1 steps hE →
      (∀ r ∈ steps, ∀ k ∈ s.cons, diffError r.pre (h.cons k) ≠ 0 →
        diffError r.post (h.cons k) = (1 - σ / 2) * diffError r.pre (h.cons k)) →
      (∀ k ∈ s.cons, diffError h1 (h.cons k) ≠ 0) →
      ∀ k ∈ s.cons, diffError hE (h.cons k) = (1 - σ / 2) ^ steps.length * diffError h1 (h.cons k) := by
    intro steps
    induction steps with
    | nil => intro h1 hl _ _ k _; rw [diffError_gradOnly hl]; simp
    | cons r rs ih =>
      intro h1 hl hs h0 k hk
      have e1 : ∀ k ∈ s.cons, diffError r.post (h.cons k) = (1 - σ / 2) * diffError h1 (h.cons k) := by
        intro k hk
        have := hs r (by simp) k hk (by rw [diffError_gradOnly hl.1]; exact h0 k hk)
        rw [this, diffError_gradOnly hl.1]
      rw [ih r.post hl.2 (fun r hr => hs r (by simp [hr])) (fun k hk => by
        rw [e1 k hk]
        refine mul_ne_zero (fun q => hσ2 (by linarith)) (h0 k hk)) k hk, e1 k hk, List.length_cons, pow_succ]
      ring
  exact key steps h hl (fun r hr k hk => hs r hr (hinv r hr) k hk) h0

/-- numbers stay finite along a run -/
theorem gn_end_finite {pinv : PInv XR} (hp : RealPInv pinv) (p : GNParams XR) (hn : s.cells.Nodup) (hc : Closed ⟨h, s⟩)
    (hf : FiniteSketch h s) (σ : ℝ) (hσ : p.stepSize = fin σ) (hok : (gnSolve pinv p h s).res ≠ .panic) :
    SameRefs h (gnSolve pinv p h s).heap ∧ FiniteSketch (gnSolve pinv p h s).heap s := by
  have hl := C34_gn_leads pinv p h s hok
  have hs : ∀ r ∈ (gnSolve pinv p h s).steps, SameRefs h r.post ∧ FiniteSketch r.post s := by
    intro r hr
    unfold gnSolve at hr
    rw [hσ] at hr
    obtain ⟨J, P, x, l, h', r1, f1, r2, f2, -⟩ := newtonLoop_steps hn hc hp p.minLoss p.pinvEps σ gnNormal
      (fun J => Jᵀ * J) (fun J => gnNormal_mat J) _ _ h (.refl h) hf r hr
    exact ⟨r2, f2⟩
  generalize (gnSolve pinv p h s).steps = steps at *
  generalize (gnSolve pinv p h s).heap = hE at *
  have G : ∀ {a b : Heap XR}, GradOnly a b → SameRefs h a ∧ FiniteSketch a s → SameRefs h b ∧ FiniteSketch b s := by
    intro a b g ⟨q1, q2⟩
    refine ⟨q1.trans g.1, ?_, ?_⟩
    · rw [g.getData]; exact q2.1
    · rw [g.1.cons]; exact q2.2
  have key : ∀ (steps : List (StepRec XR)) (h1 : Heap XR), Leads h1 steps hE → SameRefs h h1 ∧ FiniteSketch h1 s →
      (∀ r ∈ steps, SameRefs h r.post ∧ FiniteSketch r.post s) → SameRefs h hE ∧ FiniteSketch hE s := by
    intro steps
    induction steps with
    | nil => intro h1 hl q _; exact G hl q
    | cons r rs ih => intro h1 hl _ hs; exact ih r.post hl.2 (hs r (by simp)) fun r hr => hs r (by simp [hr])
  exact key steps h hl ⟨.refl h, hf⟩ hs

theorem rate_bound (n : Nat) (hn : n ≤ 10000) : (6e-3 : ℝ) ≤ (1 - 1e-3 / 2) ^ n := by
  have h1 : ((1 : ℝ) - 1e-3 / 2) ^ 10000 ≤ (1 - 1e-3 / 2) ^ n :=
    pow_le_pow_of_le_one (by norm_num) (by norm_num) hn
  refine le_trans ?_ h1
  have a1 : (0.9047 : ℝ) ≤ (1 - 1e-3 / 2) ^ 200 := by norm_num
  have a2 : (0.6 : ℝ) ≤ (0.9047 : ℝ) ^ 5 := by norm_num
  have a3 : (6e-3 : ℝ) ≤ (0.6 : ℝ) ^ 10 := by norm_num
  calc (6e-3 : ℝ) ≤ (0.6 : ℝ) ^ 10 := a3
    _ ≤ ((0.9047 : ℝ) ^ 5) ^ 10 := pow_le_pow_left₀ (by norm_num) a2 _
    _ ≤ (((1 - 1e-3 / 2) ^ 200) ^ 5) ^ 10 := pow_le_pow_left₀ (by norm_num) (pow_le_pow_left₀ (by norm_num) a1 _) _
    _ = (1 - 1e-3 / 2) ^ 10000 := by rw [← pow_mul, ← pow_mul]

/-- **C60.** With default parameters (step size 1e-3, 10000 iterations) Gauss-Newton returns `Ok` on every sketch of independent
horizontal/vertical constraints, but does not solve it if one constraint is off by 1 or more and none is satisfied already: each
error is at least 0.006 times what it was, and the loss is above the solver's `min_loss`. -/
theorem C60_default_not_solved {pinv : PInv XR} (hp : RealPInv pinv) (hg : GoodPInv pinv) (hn : s.cells.Nodup)
    (hc : Closed ⟨h, s⟩) (hf : FiniteSketch h s) (hi : IndependentDiffs h s)
    (hinv : ∀ r ∈ (gnSolve pinv .default h s).steps, InvertsAt pinv (GNParams.default : GNParams XR).pinvEps r.pre s)
    (h0 : ∀ k ∈ s.cons, diffError h (h.cons k) ≠ 0) (k : Nat) (hk : k ∈ s.cons) (h1 : 1 ≤ |diffError h (h.cons k)|) :
    (gnSolve pinv .default h s).res = .ok ∧
    6e-3 * |diffError h (h.cons k)| ≤ |diffError (gnSolve pinv .default h s).heap (h.cons k)| ∧
    ∃ L : ℝ, getLoss (gnSolve pinv .default h s).heap s = fin L ∧ (GNParams.default : GNParams XR).minLoss = fin 1e-6 ∧
      1e-6 < L := by
  have hσ : (GNParams.default : GNParams XR).stepSize = fin 1e-3 := by simp only [GNParams.default, sci]
  have hpos : 0 < getNDofs h s := by
    have := (diffDofs_mem hc hk (hi.1 k hk)).1
    rw [← dofs_length]
    exact List.length_pos_of_mem this
  have hok : (gnSolve pinv .default h s).res = .ok := C34_gn_ok hg _ hn hc hf _ hσ hpos (by
    intro k hk l m e
    have := hi.1 k hk
    rw [e] at this
    exact this)
  have hne : (gnSolve pinv .default h s).res ≠ .panic := by rw [hok]; simp
  have hrun := C60_run hp .default hn hc hf hi 1e-3 hσ (by norm_num) hinv hne h0 k hk
  have hlen : (gnSolve pinv .default h s).steps.length ≤ 10000 := C34_gn_terminates pinv .default h s
  obtain ⟨r2, f2⟩ := gn_end_finite hp .default hn hc hf 1e-3 hσ hne
  generalize gnSolve pinv .default h s = o at *
  have hb : 6e-3 * |diffError h (h.cons k)| ≤ |diffError o.heap (h.cons k)| := by
    rw [hrun, abs_mul, abs_of_pos (a := (1 - 1e-3 / 2 : ℝ) ^ o.steps.length) (by positivity)]
    exact mul_le_mul_of_nonneg_right (rate_bound _ hlen) (abs_nonneg _)
  refine ⟨hok, hb, ?_⟩
  have hfin : ∀ k ∈ s.cons, ∃ x : ℝ, lossValue o.heap (o.heap.cons k) = fin x := fun k hk => by
    obtain ⟨r, -, hr⟩ := (f2.cons (hc.sameRefs r2) k hk).real.loss
    exact ⟨r, hr⟩
  refine ⟨_, getLoss_fin hfin, by simp only [GNParams.default, sci], ?_⟩
  have hfc := f2.cons (hc.sameRefs r2) k hk
  rw [r2.cons] at hfc
  have hv := (diff_facts hfc (hi.1 k hk)).2.1
  have hle : (lossValue o.heap (o.heap.cons k)).toReal ≤
      (s.cons.map (fun k => (lossValue o.heap (o.heap.cons k)).toReal)).sum := by
    refine List.single_le_sum ?_ _ (List.mem_map_of_mem hk)
    intro x hx
    obtain ⟨k', hk', rfl⟩ := List.mem_map.1 hx
    obtain ⟨r, h0, hr⟩ := (f2.cons (hc.sameRefs r2) k' hk').real.loss
    rw [hr]; exact h0
  refine lt_of_lt_of_le ?_ hle
  rw [r2.cons, hv, toReal_fin]
  have h6 : (6e-3 : ℝ) ≤ |diffError o.heap (h.cons k)| := by
    refine le_trans ?_ hb
    nlinarith
  have h7 : (6e-3 : ℝ) ^ 2 ≤ diffError o.heap (h.cons k) ^ 2 := by
    rw [← sq_abs (diffError o.heap (h.cons k))]
    exact pow_le_pow_left₀ (by norm_num) h6 2
  have h8 : (1e-6 : ℝ) < (6e-3) ^ 2 / 2 := by norm_num
  linarith

/-! ## Examples -/

/-- two points at the origin that should be 10 apart horizontally and -3 vertically -/
noncomputable def twoHeap : Heap XR :=
  { (Heap.empty : Heap XR) with
    points := fun _ => ⟨⟨fin 0, fin 0⟩, ⟨fin 0, fin 0⟩⟩
    cons := fun k => if k = 0 then .horizDist 0 1 (fin 10) else .vertDist 0 1 (fin (-3))
    nPoints := 2
    nCons := 2 }

def twoSketch : Sketch := ⟨[(0, .point 0), (1, .point 1)], 2, [0, 1]⟩

theorem two_nodup : twoSketch.cells.Nodup := by simp [Sketch.cells, twoSketch]
theorem two_closed : Closed ⟨twoHeap, twoSketch⟩ := by
  simp [Closed, twoHeap, twoSketch, Sketch.cells, primFields, consFields]
theorem two_finite : FiniteSketch twoHeap twoSketch := by
  refine ⟨?_, by simp [twoSketch, twoHeap, consParams]⟩
  simp [getData, getNDofs, twoSketch, twoHeap, primData, zerosVec, blit]

theorem two_independent : IndependentDiffs twoHeap twoSketch := by
  refine ⟨by simp [twoSketch, twoHeap, IsDiff], ?_⟩
  have e : (fun i : Fin 2 => diffForm twoHeap (twoHeap.cons (twoSketch.cons.get i))) =
      ![.single (1, 0) 1 - .single (0, 0) 1, .single (1, 1) 1 - .single (0, 1) 1] := by
    funext i
    have hc : i = 0 ∨ i = 1 := by revert i; decide
    rcases hc with rfl | rfl <;> rfl
  show LinearIndependent ℝ (fun i : Fin 2 => diffForm twoHeap (twoHeap.cons (twoSketch.cons.get i)))
  rw [e, LinearIndependent.pair_iff]
  intro a b hab
  have hx := DFunLike.congr_fun hab (1, 0)
  have hy := DFunLike.congr_fun hab (1, 1)
  simp at hx hy
  exact ⟨hx, hy⟩

theorem two_errors : diffError twoHeap (twoHeap.cons 0) = -10 ∧ diffError twoHeap (twoHeap.cons 1) = 3 := by
  simp [twoHeap, diffError, ptOf, pt]

/-- C60: a sketch and a pseudo-inverse to which the theorem applies; Gauss-Newton leaves the horizontal distance off by at least
0.06 -/
example : (gnSolve genPInv .default twoHeap twoSketch).res = .ok ∧
    0.06 ≤ |diffError (gnSolve genPInv .default twoHeap twoSketch).heap (twoHeap.cons 0)| := by
  have := C60_default_not_solved genPInv_real genPInv_good two_nodup two_closed two_finite two_independent
    (fun r _ => genPInv_inverts _ _ _) (by
      intro k hk
      have : k = 0 ∨ k = 1 := by simpa [twoSketch] using hk
      rcases this with rfl | rfl
      · rw [two_errors.1]; norm_num
      · rw [two_errors.2]; norm_num) 0 (by simp [twoSketch]) (by rw [two_errors.1]; norm_num)
  refine ⟨this.1, le_trans ?_ this.2.1⟩
  rw [two_errors.1]; norm_num

end Isotope
