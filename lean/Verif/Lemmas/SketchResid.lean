import Verif.SpecLocal
import Verif.Props.Gradient
import Verif.Lemmas.Resid
import Verif.Lemmas.LinearSearch
import Mathlib.Analysis.InnerProductSpace.Calculus

/-!
# A sketch near a position without degenerate constraints

`Good h s v`: no constraint is degenerate when the data vector is `v`.
-/

namespace Isotope
open XR
open scoped Topology RealInnerProductSpace

variable {h : Heap XR} {s : Sketch}

/-- no constraint is degenerate at the data vector `v` -/
def Good (h : Heap XR) (s : Sketch) (v : Fin (getNDofs h s) → ℝ) : Prop :=
  ∀ k ∈ s.cons, Regular (h.withDofs (coordOf h s v)) (h.cons k)

/-- the gradient at the data vector `v` -/
noncomputable def gradAt (h : Heap XR) (s : Sketch) (v : Fin (getNDofs h s) → ℝ) (i : Fin (getNDofs h s)) : ℝ :=
  total (s.cons.flatMap (fun k => contribs (h.withDofs (coordOf h s v)) (h.cons k))) (s.dofs[i.1]'(by rw [dofs_length h]; exact i.2))

theorem setData_at (hn : s.cells.Nodup) {H : Heap XR} (r : SameRefs h H) (v : Fin (getNDofs h s) → ℝ) :
    ∃ H', setData H s (vec v) = .ok H' ∧ SameRefs h H' ∧ getData H' s = vec v := by
  have key : ∀ (n : Nat) (v : Fin n → ℝ), n = getNDofs H s →
      ∃ H', setData H s (vec v) = .ok H' ∧ SameRefs H H' ∧ getData H' s = vec v := by
    rintro n v rfl
    exact setData_vec hn v
  obtain ⟨H', e, r', ed⟩ := key _ v (by rw [← dofs_length, ← dofs_length])
  exact ⟨H', e, r.trans r', ed⟩

theorem finite_at (hp : ∀ k ∈ s.cons, ∀ x ∈ consParams (h.cons k), Num.isFinite x = true) {H : Heap XR} (r : SameRefs h H) {n : Nat}
    {v : Fin n → ℝ} (ed : getData H s = vec v) : FiniteSketch H s := by
  refine ⟨fun y hy => ?_, fun k hk y hy => hp k hk y ?_⟩
  · rw [ed] at hy
    obtain ⟨i, rfl⟩ := List.mem_ofFn.1 hy
    rfl
  · rw [r.cons] at hy; exact hy

/-- loss and gradient of any heap whose data is `v` -/
theorem spec_at (hn : s.cells.Nodup) (hc : Closed ⟨h, s⟩) (hf : FiniteSketch h s) {H : Heap XR} (r : SameRefs h H)
    {v : Fin (getNDofs h s) → ℝ} (ed : getData H s = vec v) :
    getLoss H s = fin (lossAfter h s v) ∧
      (Good h s v → ∃ h2, GradOnly H h2 ∧ getGradient H s = .ok (vec (gradAt h s v), h2)) := by
  have hf' := finite_at hf.2 r ed
  have hc' := hc.sameRefs r
  have hfc := hf'.cons hc'
  have de : ∀ k ∈ s.cons, DepEq (h.withDofs (coordOf h s v)) H (h.cons k) := fun k hk => depEq_of_data r hc ed hk
  constructor
  · rw [getLoss_fin fun k hk => ((hfc k hk).real.loss).imp fun x hx => hx.2, lossAfter_eq hn hc hf]
    congr 2
    refine List.map_congr_left fun k hk => ?_
    rw [r.cons, (de k hk).all.1]
  · intro hg
    obtain ⟨h2, g2, -, e⟩ := (getGradient_exact H s hfc).1 fun k hk => regular_not_degenerate (hfc k hk) (by
      rw [r.cons]; exact (de k hk).all.2.2.2 (hg k hk))
    refine ⟨h2, g2, ?_⟩
    rw [e]
    congr 2
    have el : s.cons.flatMap (fun k => contribs H (H.cons k)) =
        s.cons.flatMap (fun k => contribs (h.withDofs (coordOf h s v)) (h.cons k)) := by
      simp only [List.flatMap]
      congr 1
      refine List.map_congr_left fun k hk => ?_
      rw [r.cons, (de k hk).contribs]
    rw [el]
    apply List.ext_getElem
    · simp [dofs_length h s, vec]
    · intro i h1 h2; simp [vec, gradAt]

theorem hasFDerivAt_lossAfter (hn : s.cells.Nodup) (hc : Closed ⟨h, s⟩) (hf : FiniteSketch h s) {v : Fin (getNDofs h s) → ℝ}
    (hg : Good h s v) : HasFDerivAt (lossAfter h s) (linForm (gradAt h s v)) v := by
  have hl : lossAfter h s = fun v => (s.cons.map (fun k => (lossValue (h.withDofs (coordOf h s v)) (h.cons k)).toReal)).sum :=
    funext fun v => lossAfter_eq hn hc hf v
  rw [hl]
  unfold gradAt
  rw [← sum_contribs hn]
  have := hasFDerivAt_list_sum s.cons (fun k v => (lossValue (h.withDofs (coordOf h s v)) (h.cons k)).toReal)
    (fun k => ((contribs (h.withDofs (coordOf h s v)) (h.cons k)).map (fun e => e.2 • coordOf' h s e.1)).sum) v
    (fun k hk => hasFDerivAt_loss (H := h) (θ := coordOf h s) (q0 := v) (hasFDerivAt_coordOf v) (h.cons k) (hf.2 k hk) (hg k hk))
  have e2 : ∀ l : List Nat, ((l.flatMap (fun k => contribs (h.withDofs (coordOf h s v)) (h.cons k))).map (fun e => e.2 • coordOf' h s e.1)).sum =
      (l.map (fun k => ((contribs (h.withDofs (coordOf h s v)) (h.cons k)).map (fun e => e.2 • coordOf' h s e.1)).sum)).sum := by
    intro l
    induction l with
    | nil => rfl
    | cons k l ih => simp only [List.flatMap_cons, List.map_append, List.sum_append, List.map_cons, List.sum_cons, ih]
  rw [e2]
  exact this

section open_
variable {E : Type} [TopologicalSpace E] {q0 : E} {H : Heap XR} {θ : E → Dof → ℝ}

/-- nearby positions are regular too -/
theorem eventually_regular (hθ : ∀ d, ContinuousAt (fun q => θ q d) q0) (c : Constraint XR)
    (hr : SafelyRegular (H.withDofs (θ q0)) c) : ∀ᶠ q in 𝓝 q0, Regular (H.withDofs (θ q)) c := by
  obtain ⟨hr, hs⟩ := hr
  have hy : ∀ p p', ContinuousAt (fun q => hyp (θ q (.px p) - θ q (.px p')) (θ q (.py p) - θ q (.py p'))) q0 := by
    intro p p'
    unfold hyp
    exact Real.continuous_sqrt.continuousAt.comp
      ((((hθ _).sub (hθ _)).mul ((hθ _).sub (hθ _))).add (((hθ _).sub (hθ _)).mul ((hθ _).sub (hθ _))))
  have hd : ∀ (q : E) p p', dist (ptOf (H.withDofs (θ q)) p) (ptOf (H.withDofs (θ q)) p') =
      hyp (θ q (.px p) - θ q (.px p')) (θ q (.py p) - θ q (.py p')) := fun q p p' => (hyp_pt _ _ _ _).symm
  have hl : ∀ l, ProperLine (H.withDofs (θ q0)) l → ∀ᶠ q in 𝓝 q0, ProperLine (H.withDofs (θ q)) l := by
    intro l hp
    have h1 : hyp (θ q0 (.px (H.lines l).start) - θ q0 (.px (H.lines l).stop)) (θ q0 (.py (H.lines l).start) - θ q0 (.py (H.lines l).stop)) ≠ 0 := by
      rw [← hd]; exact dist_ne_zero.2 hp
    filter_upwards [(hy _ _).eventually_ne h1] with q hq
    rw [← hd] at hq
    exact dist_ne_zero.1 hq
  cases c with
  | angle p1 p2 mid D =>
    obtain ⟨r1, r2, r3⟩ := hr
    rw [hd] at r1 r2
    have c3 : ContinuousAt (fun q => (θ q (.px p1) - θ q (.px mid)) * (θ q (.py p2) - θ q (.py mid)) -
        (θ q (.py p1) - θ q (.py mid)) * (θ q (.px p2) - θ q (.px mid))) q0 :=
      (((hθ _).sub (hθ _)).mul ((hθ _).sub (hθ _))).sub (((hθ _).sub (hθ _)).mul ((hθ _).sub (hθ _)))
    filter_upwards [(hy p1 mid).eventually_const_lt r1, (hy p2 mid).eventually_const_lt r2, c3.eventually_ne (sub_ne_zero.2 r3)] with q m1 m2 m3
    refine ⟨by rw [hd]; exact m1, by rw [hd]; exact m2, sub_ne_zero.1 m3⟩
  | euclid p1 p2 D =>
    have hs : 1e-6 < dist (ptOf (H.withDofs (θ q0)) p1) (ptOf (H.withDofs (θ q0)) p2) := hs
    rw [hd] at hs
    filter_upwards [(hy p1 p2).eventually_const_lt hs] with q m
    show _ ≤ _
    rw [hd]; exact m.le
  | eqLen l m => exact (hl l hr.1).and (hl m hr.2)
  | parallel l m => exact (hl l hr.1).and (hl m hr.2)
  | perp l m => exact (hl l hr.1).and (hl m hr.2)
  | _ => exact .of_forall fun _ => trivial

end open_

/-- the constraints of a sketch are safely regular at the data vector `v` -/
def SafeAt (h : Heap XR) (s : Sketch) (v : Fin (getNDofs h s) → ℝ) : Prop :=
  ∀ k ∈ s.cons, SafelyRegular (h.withDofs (coordOf h s v)) (h.cons k)

theorem SafeAt.good {v : Fin (getNDofs h s) → ℝ} (hs : SafeAt h s v) : Good h s v := fun k hk => (hs k hk).1

theorem contDiff_coordOf {n : WithTop ℕ∞} (d : Dof) : ContDiff ℝ n (fun v => coordOf h s v d) := by
  unfold coordOf
  split
  · exact contDiff_apply ℝ ℝ _
  · exact contDiff_const

theorem SafeAt.eventually_good {v : Fin (getNDofs h s) → ℝ} (hs : SafeAt h s v) : ∀ᶠ q in 𝓝 v, Good h s q := by
  have key : ∀ l : List Nat, (∀ k ∈ l, SafelyRegular (h.withDofs (coordOf h s v)) (h.cons k)) →
      ∀ᶠ q in 𝓝 v, ∀ k ∈ l, Regular (h.withDofs (coordOf h s q)) (h.cons k) := by
    intro l
    induction l with
    | nil => intro _; exact .of_forall fun q k hk => absurd hk (by simp)
    | cons a l ih =>
      intro hl
      filter_upwards [ih fun k hk => hl k (by simp [hk]),
        eventually_regular (θ := coordOf h s) (q0 := v) (fun d => (contDiff_coordOf (n := 0) d).continuous.continuousAt) _ (hl a (by simp))]
        with q m1 m2 k hk
      rcases List.mem_cons.1 hk with rfl | hk
      · exact m2
      · exact m1 k hk
  exact key s.cons hs

/-- near a good position the loss is half the square of a smooth function -/
theorem exists_sketch_resid (hn : s.cells.Nodup) (hc : Closed ⟨h, s⟩) (hf : FiniteSketch h s) {z : Fin (getNDofs h s) → ℝ}
    (hg : Good h s z) : ∃ (m : Nat) (r : EuclideanSpace ℝ (Fin (getNDofs h s)) → EuclideanSpace ℝ (Fin m)),
      ContDiffAt ℝ 1 r (WithLp.toLp 2 z) ∧ ∀ᶠ v in 𝓝 (WithLp.toLp 2 z), lossAfter h s v.ofLp = ‖r v‖ ^ 2 / 2 := by
  have key : ∀ l : List Nat, (∀ k ∈ l, k ∈ s.cons) → ∃ rs : List ((Fin (getNDofs h s) → ℝ) → ℝ), (∀ f ∈ rs, ContDiffAt ℝ 1 f z) ∧
      ∀ᶠ q in 𝓝 z, (l.map (fun k => (lossValue (h.withDofs (coordOf h s q)) (h.cons k)).toReal)).sum =
        (rs.map (fun f => f q ^ 2 / 2)).sum := by
    intro l
    induction l with
    | nil => intro _; exact ⟨[], by simp, .of_forall fun q => rfl⟩
    | cons a l ih =>
      intro hl
      obtain ⟨r1, c1, e1⟩ := ih fun k hk => hl k (by simp [hk])
      obtain ⟨r2, c2, e2⟩ := exists_resid (H := h) (θ := coordOf h s) (q0 := z) (n := 1) (fun d => (contDiff_coordOf d).contDiffAt) (h.cons a)
        (hf.2 a (hl a (by simp))) (hg a (hl a (by simp)))
      refine ⟨r2 ++ r1, ?_, ?_⟩
      · intro f hf
        rcases List.mem_append.1 hf with hf | hf
        · exact c2 f hf
        · exact c1 f hf
      · filter_upwards [e1, e2] with q m1 m2
        rw [List.map_cons, List.sum_cons, List.map_append, List.sum_append, m1, m2]
  obtain ⟨rs, c, e⟩ := key s.cons fun k hk => hk
  refine ⟨rs.length, fun v => WithLp.toLp 2 fun j => rs[j] v.ofLp, ?_, ?_⟩
  · rw [contDiffAt_euclidean]
    intro j
    have hz : ContDiffAt ℝ 1 rs[j] (WithLp.toLp 2 z : EuclideanSpace ℝ (Fin (getNDofs h s))).ofLp := c _ (List.getElem_mem _)
    exact hz.comp _ (PiLp.continuousLinearEquiv 2 ℝ (fun _ : Fin (getNDofs h s) => ℝ)).contDiff.contDiffAt
  · have hcont : ContinuousAt (fun v : EuclideanSpace ℝ (Fin (getNDofs h s)) => v.ofLp) (WithLp.toLp 2 z) :=
      (PiLp.continuous_ofLp 2 _).continuousAt
    filter_upwards [hcont.eventually e] with v hv
    rw [lossAfter_eq hn hc hf, hv, sum_get, EuclideanSpace.norm_sq_eq]
    simp only [Real.norm_eq_abs, sq_abs, ← Finset.sum_div]

end Isotope
