import Verif.Lemmas.Leap
import Verif.Lemmas.Noise
import Verif.Props.Spread

/-!
# C116: how far a step of Gauss-Newton or Levenberg-Marquardt goes

`dataWay` is in `SpecWay.lean`; `RealPInv` in `SpecReal.lean` and `CutPInv` in `SpecCut.lean`.
-/

namespace Isotope
open XR
open Matrix

variable {h : Heap XR} {s : Sketch}

theorem gn_leap {pinv : PInv XR} (hp : RealPInv pinv) (hcut : CutPInv pinv) (p : GNParams XR) {σ ε : ℝ} (hσ : p.stepSize = fin σ)
    (hε : p.pinvEps = fin ε) (h1 : 0 ≤ ε) (hn : s.cells.Nodup) (hc : Closed ⟨h, s⟩) (hf : FiniteSketch h s) {st : StepRec XR}
    (hst : st ∈ (gnSolve pinv p h s).steps) :
    ε * dataWay (getData st.pre s) (getData st.post s) ≤ σ ^ 2 * ((getLossPerConstraint st.pre s).map fun x => x.toReal ^ 2).sum ∧
    ∃ v : List ℝ, getLossPerConstraint st.pre s = v.map fin := by
  unfold gnSolve at hst
  rw [hσ, hε] at hst
  have w := newtonLoop_steps hn hc hp p.minLoss (fin ε) σ gnNormal
    (fun J => Jᵀ * J + (0 : ℝ) • 1) (fun J => by rw [zero_smul, add_zero]; exact gnNormal_mat J) _ _ h (.refl h) hf st hst
  obtain ⟨a, -, b⟩ := leap_step hcut h1 le_rfl w
  exact ⟨a, b⟩

/-- **C116.** In exact arithmetic, on any sketch with finite coordinates and parameters: the square of the length of a step of Gauss-Newton (all
coordinates together), times the cut-off `ε` of the pseudo-inverse, is at most the sum of the squares of the losses before the step, times the square
of the step size `σ`. -/
theorem C116_gn {pinv : PInv XR} (hp : RealPInv pinv) (hcut : CutPInv pinv) (p : GNParams XR) {σ ε : ℝ} (hσ : p.stepSize = fin σ)
    (hε : p.pinvEps = fin ε) (h1 : 0 ≤ ε) (hn : s.cells.Nodup) (hc : Closed ⟨h, s⟩) (hf : FiniteSketch h s) :
    ∀ st ∈ (gnSolve pinv p h s).steps,
      ε * dataWay (getData st.pre s) (getData st.post s) ≤ σ ^ 2 * ((getLossPerConstraint st.pre s).map fun x => x.toReal ^ 2).sum :=
  fun _ hst => (gn_leap hp hcut p hσ hε h1 hn hc hf hst).1

theorem lm_leap {pinv : PInv XR} (hp : RealPInv pinv) (hcut : CutPInv pinv) (p : LMParams XR) {σ ε β : ℝ} (hσ : p.stepSize = fin σ)
    (hε : p.pinvEps = fin ε) (h1 : 0 ≤ ε) (hβ : p.beta = fin β) (h2 : 0 ≤ β) (hn : s.cells.Nodup) (hc : Closed ⟨h, s⟩) (hf : FiniteSketch h s)
    {st : StepRec XR} (hst : st ∈ (lmSolve pinv p h s).steps) :
    ε * dataWay (getData st.pre s) (getData st.post s) ≤ σ ^ 2 * ((getLossPerConstraint st.pre s).map fun x => x.toReal ^ 2).sum ∧
    4 * β * dataWay (getData st.pre s) (getData st.post s) ≤ σ ^ 2 * ((getLossPerConstraint st.pre s).map fun x => x.toReal ^ 2).sum ∧
    ∃ v : List ℝ, getLossPerConstraint st.pre s = v.map fin := by
  unfold lmSolve at hst
  rw [hσ, hε, hβ] at hst
  exact leap_step hcut h1 h2 (newtonLoop_steps hn hc hp p.minLoss (fin ε) σ (lmNormal (fin β))
    (fun J => Jᵀ * J + β • 1) (fun J => lmNormal_mat β J) _ _ h (.refl h) hf st hst)

/-- **C116.** The same for Levenberg-Marquardt; there the bound also holds with `4β` (four times the damping) instead of `ε`. -/
theorem C116_lm {pinv : PInv XR} (hp : RealPInv pinv) (hcut : CutPInv pinv) (p : LMParams XR) {σ ε β : ℝ} (hσ : p.stepSize = fin σ)
    (hε : p.pinvEps = fin ε) (h1 : 0 ≤ ε) (hβ : p.beta = fin β) (h2 : 0 ≤ β) (hn : s.cells.Nodup) (hc : Closed ⟨h, s⟩) (hf : FiniteSketch h s) :
    ∀ st ∈ (lmSolve pinv p h s).steps, max ε (4 * β) * dataWay (getData st.pre s) (getData st.post s) ≤
      σ ^ 2 * ((getLossPerConstraint st.pre s).map fun x => x.toReal ^ 2).sum := by
  intro st hst
  obtain ⟨a, b, -⟩ := lm_leap hp hcut p hσ hε h1 hβ h2 hn hc hf hst
  rcases max_choice ε (4 * β) with e | e <;> rw [e] <;> assumption

/-- **C116.** With the default parameters no step of Gauss-Newton is longer than the loss before it. -/
theorem C116_gn_default {pinv : PInv XR} (hp : RealPInv pinv) (hcut : CutPInv pinv) (hn : s.cells.Nodup) (hc : Closed ⟨h, s⟩)
    (hf : FiniteSketch h s) : ∀ st ∈ (gnSolve pinv GNParams.default h s).steps,
      Real.sqrt (dataWay (getData st.pre s) (getData st.post s)) ≤ (getLoss st.pre s).toReal := by
  intro st hst
  obtain ⟨a, v, e⟩ := gn_leap hp hcut GNParams.default (sci ..) (sci ..) (by norm_num) hn hc hf hst
  have := losses_sq e
  have l0 : 0 ≤ (getLoss st.pre s).toReal := by
    obtain ⟨v', p, -, hs⟩ := getLoss_eq_fin (getLoss_of_fin e)
    rw [getLoss_of_fin e, toReal_fin, hs]
    exact List.sum_nonneg p
  refine Real.sqrt_le_iff.2 ⟨l0, ?_⟩
  norm_num at a
  linarith

/-- **C116.** With the default parameters no step of Levenberg-Marquardt is longer than 15.9 times the loss before it. -/
theorem C116_lm_default {pinv : PInv XR} (hp : RealPInv pinv) (hcut : CutPInv pinv) (hn : s.cells.Nodup) (hc : Closed ⟨h, s⟩)
    (hf : FiniteSketch h s) : ∀ st ∈ (lmSolve pinv LMParams.default h s).steps,
      Real.sqrt (dataWay (getData st.pre s) (getData st.post s)) ≤ 15.9 * (getLoss st.pre s).toReal := by
  intro st hst
  obtain ⟨-, a, v, e⟩ := lm_leap hp hcut LMParams.default (sci ..) (sci ..) (by norm_num) (sci ..) (by norm_num) hn hc hf hst
  have := losses_sq e
  have l0 : 0 ≤ (getLoss st.pre s).toReal := by
    obtain ⟨v', p, -, hs⟩ := getLoss_eq_fin (getLoss_of_fin e)
    rw [getLoss_of_fin e, toReal_fin, hs]
    exact List.sum_nonneg p
  refine Real.sqrt_le_iff.2 ⟨mul_nonneg (by norm_num) l0, ?_⟩
  norm_num at a
  rw [mul_pow]
  norm_num
  nlinarith [sq_nonneg (getLoss st.pre s).toReal]

theorem way_triangle (a b c : Heap XR) : Real.sqrt (dataWay (getData a s) (getData c s)) ≤
    Real.sqrt (dataWay (getData a s) (getData b s)) + Real.sqrt (dataWay (getData b s) (getData c s)) := by
  have k : ∀ x y : Heap XR, Real.sqrt (dataWay (getData x s) (getData y s)) =
      vlen fun i : Fin s.dofs.length => (val y s.dofs[i]).toReal - (val x s.dofs[i]).toReal := fun x y => by
    rw [dataWay_dofs, vlen]
    congr 1
    unfold dotProduct
    rw [← List.sum_ofFn]
    congr 1
    refine List.ext_getElem (by simp) fun i a1 a2 => ?_
    simp [sq]
  rw [k, k, k]
  refine le_trans (le_of_eq ?_) (vlen_add_le (u := fun i : Fin s.dofs.length => (val b s.dofs[i]).toReal - (val a s.dofs[i]).toReal)
    (v := fun i => (val c s.dofs[i]).toReal - (val b s.dofs[i]).toReal))
  congr 1
  funext i
  simp only [Pi.add_apply]
  ring

theorem way_zero {a b : Heap XR} (g : GradOnly a b) : Real.sqrt (dataWay (getData a s) (getData b s)) = 0 := by
  rw [dataWay_dofs]
  have : (s.dofs.map fun d => ((val b d).toReal - (val a d).toReal) ^ 2).sum = 0 := List.sum_eq_zero fun x hx => by
    obtain ⟨d, -, rfl⟩ := List.mem_map.1 hx
    rw [g.val d]; simp
  rw [this, Real.sqrt_zero]

theorem leads_way {C : ℝ} {hE : Heap XR} (l : List (StepRec XR)) (L : Leads h l hE)
    (st : ∀ r ∈ l, Real.sqrt (dataWay (getData r.pre s) (getData r.post s)) ≤ C * (getLoss r.pre s).toReal) :
    Real.sqrt (dataWay (getData h s) (getData hE s)) ≤ C * (l.map fun r => (getLoss r.pre s).toReal).sum := by
  induction l generalizing h with
  | nil => rw [way_zero L]; simp
  | cons r l ih =>
    rw [List.map_cons, List.sum_cons, mul_add]
    have t1 := way_triangle (s := s) h r.post hE
    have t2 := way_triangle (s := s) h r.pre r.post
    rw [way_zero L.1] at t2
    have := ih (h := r.post) L.2 fun x hx => st x (List.mem_cons_of_mem _ hx)
    have := st r List.mem_cons_self
    linarith

/-- **C116.** So over a run of Gauss-Newton with the default parameters the sketch is moved no farther than the losses at the starts of the steps add
up to. -/
theorem C116_gn_run {pinv : PInv XR} (hp : RealPInv pinv) (hcut : CutPInv pinv) (hn : s.cells.Nodup) (hc : Closed ⟨h, s⟩)
    (hf : FiniteSketch h s) (hr : (gnSolve pinv GNParams.default h s).res ≠ .panic) :
    Real.sqrt (dataWay (getData h s) (getData (gnSolve pinv GNParams.default h s).heap s)) ≤
      ((gnSolve pinv GNParams.default h s).steps.map fun st => (getLoss st.pre s).toReal).sum := by
  have := leads_way (C := 1) _ (C34_gn_leads pinv GNParams.default h s hr) (fun r hr => by
    rw [one_mul]; exact C116_gn_default hp hcut hn hc hf r hr)
  rwa [one_mul] at this

/-- **C116.** And over a run of Levenberg-Marquardt no farther than 15.9 times that. -/
theorem C116_lm_run {pinv : PInv XR} (hp : RealPInv pinv) (hcut : CutPInv pinv) (hn : s.cells.Nodup) (hc : Closed ⟨h, s⟩)
    (hf : FiniteSketch h s) (hr : (lmSolve pinv LMParams.default h s).res ≠ .panic) :
    Real.sqrt (dataWay (getData h s) (getData (lmSolve pinv LMParams.default h s).heap s)) ≤
      15.9 * ((lmSolve pinv LMParams.default h s).steps.map fun st => (getLoss st.pre s).toReal).sum :=
  leads_way _ (C34_lm_leads pinv LMParams.default h s hr) (C116_lm_default hp hcut hn hc hf)

theorem way_one {a b : Heap XR} {C : ℝ} (w : Real.sqrt (dataWay (getData a s) (getData b s)) ≤ C) {d : Dof} (hd : d ∈ s.dofs) :
    |(val b d).toReal - (val a d).toReal| ≤ C := by
  refine le_trans (Real.abs_le_sqrt ?_) w
  rw [dataWay_dofs]
  exact List.single_le_sum (l := s.dofs.map fun d => ((val b d).toReal - (val a d).toReal) ^ 2)
    (fun x hx => by obtain ⟨c, -, rfl⟩ := List.mem_map.1 hx; positivity) _ (List.mem_map_of_mem hd)

theorem way_order {a b : Heap XR} {C : ℝ} (w : Real.sqrt (dataWay (getData a s) (getData b s)) ≤ C) {p q : Nat}
    (hp : .point p ∈ s.cells) (hq : .point q ∈ s.cells) :
    ((a.points p).data.x.toReal + 2 * C < (a.points q).data.x.toReal → (b.points p).data.x.toReal < (b.points q).data.x.toReal) ∧
    ((a.points p).data.y.toReal + 2 * C < (a.points q).data.y.toReal → (b.points p).data.y.toReal < (b.points q).data.y.toReal) := by
  have x1 := abs_le.1 (way_one w (mem_sketch_dofs.2 hp : Dof.px p ∈ s.dofs))
  have x2 := abs_le.1 (way_one w (mem_sketch_dofs.2 hq : Dof.px q ∈ s.dofs))
  have y1 := abs_le.1 (way_one w (mem_sketch_dofs.2 hp : Dof.py p ∈ s.dofs))
  have y2 := abs_le.1 (way_one w (mem_sketch_dofs.2 hq : Dof.py q ∈ s.dofs))
  simp only [val] at x1 x2 y1 y2
  exact ⟨fun h => by linarith [x1.2, x2.1], fun h => by linarith [y1.2, y2.1]⟩

/-- **C116.** So a step of Gauss-Newton with the default parameters does not make two points change sides: if one lies to the left of (below) the
other by more than twice the loss, it does so after the step. -/
theorem C116_gn_order {pinv : PInv XR} (hp : RealPInv pinv) (hcut : CutPInv pinv) (hn : s.cells.Nodup) (hc : Closed ⟨h, s⟩)
    (hf : FiniteSketch h s) {a b : Nat} (ha : .point a ∈ s.cells) (hb : .point b ∈ s.cells) :
    ∀ st ∈ (gnSolve pinv GNParams.default h s).steps,
      ((st.pre.points a).data.x.toReal + 2 * (getLoss st.pre s).toReal < (st.pre.points b).data.x.toReal →
        (st.post.points a).data.x.toReal < (st.post.points b).data.x.toReal) ∧
      ((st.pre.points a).data.y.toReal + 2 * (getLoss st.pre s).toReal < (st.pre.points b).data.y.toReal →
        (st.post.points a).data.y.toReal < (st.post.points b).data.y.toReal) :=
  fun st hst => way_order (C116_gn_default hp hcut hn hc hf st hst) ha hb

/-- **C116.** The same for Levenberg-Marquardt, with 31.8 times the loss. -/
theorem C116_lm_order {pinv : PInv XR} (hp : RealPInv pinv) (hcut : CutPInv pinv) (hn : s.cells.Nodup) (hc : Closed ⟨h, s⟩)
    (hf : FiniteSketch h s) {a b : Nat} (ha : .point a ∈ s.cells) (hb : .point b ∈ s.cells) :
    ∀ st ∈ (lmSolve pinv LMParams.default h s).steps,
      ((st.pre.points a).data.x.toReal + 31.8 * (getLoss st.pre s).toReal < (st.pre.points b).data.x.toReal →
        (st.post.points a).data.x.toReal < (st.post.points b).data.x.toReal) ∧
      ((st.pre.points a).data.y.toReal + 31.8 * (getLoss st.pre s).toReal < (st.pre.points b).data.y.toReal →
        (st.post.points a).data.y.toReal < (st.post.points b).data.y.toReal) := by
  intro st hst
  have := way_order (C116_lm_default hp hcut hn hc hf st hst) ha hb
  have e : 2 * (15.9 * (getLoss st.pre s).toReal) = 31.8 * (getLoss st.pre s).toReal := by ring
  rwa [e] at this

/-! ## Examples -/

/-- the stair of C114 -/
example : ∀ st ∈ (gnSolve cutPInv GNParams.default stairHeap stairSketch).steps,
    Real.sqrt (dataWay (getData st.pre stairSketch) (getData st.post stairSketch)) ≤ (getLoss st.pre stairSketch).toReal :=
  C116_gn_default cutPInv_real cutPInv_cut stair_nodup stair_closed stair_finite

example : ∀ st ∈ (lmSolve cutPInv LMParams.default stairHeap stairSketch).steps,
    Real.sqrt (dataWay (getData st.pre stairSketch) (getData st.post stairSketch)) ≤ 15.9 * (getLoss st.pre stairSketch).toReal :=
  C116_lm_default cutPInv_real cutPInv_cut stair_nodup stair_closed stair_finite

/-- full steps, a cut-off of 1/4 -/
example (n : Nat) : ∀ st ∈ (gnSolve cutPInv ⟨n, fin 0, fin 1, fin (1 / 4)⟩ stairHeap stairSketch).steps,
    1 / 4 * dataWay (getData st.pre stairSketch) (getData st.post stairSketch) ≤
      1 ^ 2 * ((getLossPerConstraint st.pre stairSketch).map fun x => x.toReal ^ 2).sum :=
  C116_gn cutPInv_real cutPInv_cut _ rfl rfl (by norm_num) stair_nodup stair_closed stair_finite

/-- full steps, no cut-off, damping 1 -/
example (n : Nat) : ∀ st ∈ (lmSolve cutPInv ⟨n, fin 0, fin 1, fin 0, fin 1⟩ stairHeap stairSketch).steps,
    max 0 (4 * 1) * dataWay (getData st.pre stairSketch) (getData st.post stairSketch) ≤
      1 ^ 2 * ((getLossPerConstraint st.pre stairSketch).map fun x => x.toReal ^ 2).sum :=
  C116_lm cutPInv_real cutPInv_cut _ rfl rfl le_rfl rfl (by norm_num) stair_nodup stair_closed stair_finite

example : Real.sqrt (dataWay (getData stairHeap stairSketch) (getData (gnSolve cutPInv GNParams.default stairHeap stairSketch).heap stairSketch)) ≤
    ((gnSolve cutPInv GNParams.default stairHeap stairSketch).steps.map fun st => (getLoss st.pre stairSketch).toReal).sum :=
  C116_gn_run cutPInv_real cutPInv_cut stair_nodup stair_closed stair_finite (by
    rw [C34_gn_ok cutPInv_good _ stair_nodup stair_closed stair_finite _ (sci ..) (by simp [getNDofs, stairSketch, stairHeap, primData])
      (by simp [stairSketch, stairHeap])]
    simp)

example : Real.sqrt (dataWay (getData stairHeap stairSketch) (getData (lmSolve cutPInv LMParams.default stairHeap stairSketch).heap stairSketch)) ≤
    15.9 * ((lmSolve cutPInv LMParams.default stairHeap stairSketch).steps.map fun st => (getLoss st.pre stairSketch).toReal).sum :=
  C116_lm_run cutPInv_real cutPInv_cut stair_nodup stair_closed stair_finite (by
    rw [C34_lm_ok cutPInv_good _ stair_nodup stair_closed stair_finite _ _ (sci ..) (sci ..)
      (by simp [getNDofs, stairSketch, stairHeap, primData]) (by simp [stairSketch, stairHeap])]
    simp)

example : ∀ st ∈ (gnSolve cutPInv GNParams.default stairHeap stairSketch).steps,
    (st.pre.points 0).data.x.toReal + 2 * (getLoss st.pre stairSketch).toReal < (st.pre.points 1).data.x.toReal →
      (st.post.points 0).data.x.toReal < (st.post.points 1).data.x.toReal :=
  fun st hst => (C116_gn_order cutPInv_real cutPInv_cut stair_nodup stair_closed stair_finite (a := 0) (b := 1)
    (by simp [stairSketch, Sketch.cells]) (by simp [stairSketch, Sketch.cells]) st hst).1

end Isotope
