import Verif.Lemmas.FloatNearLoss
import Verif.Props.FloatOk

/-!
# C97: losses and derivatives computed in binary64 are close to the exact ones
-/

namespace Isotope
open Round Val XR

variable {lm : Libm} {h : Heap (B64 lm)} {s : Sketch}

/-- **C97.** The loss of every constraint as computed in binary64 is finite and close to the loss in exact arithmetic at the same
coordinates. -/
theorem C97_loss_per_constraint {κ : ℝ} (hl : lm.Accurate κ) (hκ : κ ≤ 2 ^ (-45 : ℤ)) (hc : Closed ⟨h, s⟩) (hm : Modest h s)
    (hr : ∀ k ∈ s.cons, Clear h (h.cons k)) :
    ∃ (v : Nat → B64 lm) (V : Nat → ℝ), getLossPerConstraint h s = s.cons.map v ∧
      getLossPerConstraint h.exact s = s.cons.map (fun k => fin (V k)) ∧
      ∀ k ∈ s.cons, ∃ r, (v k).Is r ∧ |r - V k| ≤ entryError κ h (h.cons k) := by
  obtain ⟨hη, hkη⟩ := unit_of hl hκ
  have hne := fun k hk => near_loss hη hl hkη (hm.cons hc k hk) (hr k hk)
  refine ⟨fun k => lossValue h (h.cons k), fun k => (lossValue h.exact (h.exact.cons k)).toReal, rfl, ?_, fun k hk => ?_⟩
  · refine List.map_congr_left fun k hk => ?_
    obtain ⟨L, e, -⟩ := hne k hk
    show lossValue h.exact (h.cons k).exact = fin (lossValue h.exact (h.cons k).exact).toReal
    rw [e]; rfl
  · obtain ⟨L, e, r, h1, h2, -⟩ := hne k hk
    refine ⟨r, h1, ?_⟩
    show |r - (lossValue h.exact (h.cons k).exact).toReal| ≤ _
    rw [e]
    refine h2.trans (le_of_eq ?_)
    unfold entryError lossScale
    rw [show (ulp : ℝ) = 2 ^ (-53 : ℤ) by rw [ulp_eq]; norm_num]
    ring

/-- **C97.** `get_loss` in binary64 is finite and close to the loss in exact arithmetic at the same coordinates. -/
theorem C97_loss {κ : ℝ} (hl : lm.Accurate κ) (hκ : κ ≤ 2 ^ (-45 : ℤ)) (hc : Closed ⟨h, s⟩) (hm : Modest h s)
    (hr : ∀ k ∈ s.cons, Clear h (h.cons k)) (hn : s.cons.length < 2 ^ 40) :
    ∃ v V, (getLoss h s).Is v ∧ getLoss h.exact s = fin V ∧ |v - V| ≤ lossError κ h s :=
  loss_near hl hκ hc hm hr hn

theorem ofFn_dofs {α : Type} (f : Dof → α) : s.dofs.map f =
    List.ofFn (fun i : Fin (getNDofs h.exact s) => f (s.dofs[i.1]'(by rw [dofs_length h.exact]; exact i.2))) := by
  apply List.ext_getElem
  · simp [dofs_length h.exact s]
  · intro i h1 h2; simp

/-- **C97.** `get_gradient` in binary64 does not panic, and its entries are close to the partial derivatives of the exact loss at the
same coordinates. -/
theorem C97_gradient {κ : ℝ} (hl : lm.Accurate κ) (hκ : κ ≤ 2 ^ (-45 : ℤ)) (hd : s.cells.Nodup) (hc : Closed ⟨h, s⟩) (hm : Modest h s)
    (hr : ∀ k ∈ s.cons, Clear h (h.cons k)) (hn : s.cons.length < 2 ^ 40) (q : Fin (getNDofs h.exact s) → ℝ)
    (hq : getData h.exact s = List.ofFn (fun i => fin (q i))) :
    ∃ (g : Fin (getNDofs h.exact s) → B64 lm) (D : Fin (getNDofs h.exact s) → ℝ) (h' : Heap (B64 lm)),
      getGradient h s = .ok (List.ofFn g, h') ∧ HasFDerivAt (lossAfter h.exact s) (linForm D) q ∧
      ∀ i, ∃ v, (g i).Is v ∧ |v - D i| ≤ gradError κ h s := by
  obtain ⟨h', H', g, G, e, E, hv⟩ := gradient_near hl hκ hc hm hr hn
  obtain ⟨D, H2, E', hD⟩ := C20_gradient hd (exact_closed hc) hm.finite (fun k hk => (hr k hk).regular) q hq
  rw [E, ofFn_dofs (h := h), Except.ok.injEq, Prod.mk.injEq] at E'
  have hDG := List.ofFn_injective E'.1
  refine ⟨_, D, h', by rw [e, ofFn_dofs (h := h)], hD, fun i => ?_⟩
  obtain ⟨v, h1, h2⟩ := hv (s.dofs[i.1]'(by rw [dofs_length h.exact]; exact i.2))
  have := congrFun hDG i
  rw [fin.injEq] at this
  exact ⟨v, h1, by rw [← this]; exact h2⟩

/-- **C97.** `get_jacobian` in binary64 does not panic, and its entries are close to the partial derivatives of the exact losses of the
constraints at the same coordinates. -/
theorem C97_jacobian {κ : ℝ} (hl : lm.Accurate κ) (hκ : κ ≤ 2 ^ (-45 : ℤ)) (hd : s.cells.Nodup) (hc : Closed ⟨h, s⟩) (hm : Modest h s)
    (hr : ∀ k ∈ s.cons, Clear h (h.cons k)) (q : Fin (getNDofs h.exact s) → ℝ)
    (hq : getData h.exact s = List.ofFn (fun i => fin (q i))) :
    ∃ (J : Nat → Fin (getNDofs h.exact s) → B64 lm) (D : Nat → Fin (getNDofs h.exact s) → ℝ) (h' : Heap (B64 lm)),
      getJacobian h s = .ok ((List.range s.cons.length).map (fun i => List.ofFn (J i)), h') ∧
      ∀ (i : Nat) (hi : i < s.cons.length), HasFDerivAt (entryAfter h.exact s i) (linForm (D i)) q ∧
        ∀ j, ∃ v, (J i j).Is v ∧ |v - D i j| ≤ rowError κ h (h.cons s.cons[i]) := by
  obtain ⟨h', H', g, G, e, E, hv⟩ := jacobian_near hl hκ hc hm hr
  obtain ⟨D, H2, E', hD, -⟩ := C21_jacobian hd (exact_closed hc) hm.finite (fun k hk => (hr k hk).regular) q hq
  rw [E, Except.ok.injEq, Prod.mk.injEq] at E'
  refine ⟨fun i j => g (s.cons.getD i 0) (s.dofs[j.1]'(by rw [dofs_length h.exact]; exact j.2)), D, h', ?_, fun i hi => ⟨hD i hi, fun j => ?_⟩⟩
  · rw [e]
    congr 2
    apply List.ext_getElem
    · simp
    · intro i h1 h2
      simp only [List.getElem_map, List.getElem_range, ofFn_dofs (h := h)]
      have hi : i < s.cons.length := by simpa using h1
      simp [List.getElem?_eq_getElem hi]
  · have hrow := congrArg (fun l => l[i]?) E'.1
    simp only [List.getElem?_map, List.getElem?_range hi, List.getElem?_eq_getElem hi, Option.map_some, Option.some.injEq,
      ofFn_dofs (h := h)] at hrow
    have hj := congrFun (List.ofFn_injective hrow) j
    rw [fin.injEq] at hj
    obtain ⟨v, h1, h2⟩ := hv s.cons[i] (List.getElem_mem hi) (s.dofs[j.1]'(by rw [dofs_length h.exact]; exact j.2))
    refine ⟨v, ?_, by rw [← hj]; exact h2⟩
    dsimp only
    rw [List.getD_eq_getElem?_getD, List.getElem?_eq_getElem hi]
    exact h1

/-- **C97.** If the computed loss went down by more than the rounding errors, the exact loss went down. -/
theorem C97_decrease {κ : ℝ} (hl : lm.Accurate κ) (hκ : κ ≤ 2 ^ (-45 : ℤ)) {h₁ h₂ : Heap (B64 lm)} (hc₁ : Closed ⟨h₁, s⟩)
    (hm₁ : Modest h₁ s) (hr₁ : ∀ k ∈ s.cons, Clear h₁ (h₁.cons k)) (hc₂ : Closed ⟨h₂, s⟩) (hm₂ : Modest h₂ s)
    (hr₂ : ∀ k ∈ s.cons, Clear h₂ (h₂.cons k)) (hn : s.cons.length < 2 ^ 40) {v₁ v₂ : ℝ} (i₁ : (getLoss h₁ s).Is v₁)
    (i₂ : (getLoss h₂ s).Is v₂) (hlt : v₂ + (lossError κ h₁ s + lossError κ h₂ s) < v₁) :
    (getLoss h₂.exact s).toReal < (getLoss h₁.exact s).toReal := by
  obtain ⟨w₁, V₁, j₁, E₁, a₁⟩ := C97_loss hl hκ hc₁ hm₁ hr₁ hn
  obtain ⟨w₂, V₂, j₂, E₂, a₂⟩ := C97_loss hl hκ hc₂ hm₂ hr₂ hn
  rw [E₁, E₂]
  rw [j₁.unique i₁] at a₁
  rw [j₂.unique i₂] at a₂
  have := abs_le.1 a₁; have := abs_le.1 a₂
  show V₂ < V₁
  linarith [this.1]

/-- **C97.** When BFGS in binary64 returns `Ok` before the iteration limit, at coordinates that are not extreme, the exact loss there is
small or all partial derivatives of the exact loss are. -/
theorem C97_bfgs {κ : ℝ} (hl : lm.Accurate κ) (hκ : κ ≤ 2 ^ (-45 : ℤ)) (n : Nat) {ml gt : B64 lm} {m t : ℝ}
    (hml : ml.Is m) (hgt : gt.Is t) (hres : (bfgsSolve ⟨n, ml, gt⟩ h s).res = .ok)
    (hlen : (bfgsSolve ⟨n, ml, gt⟩ h s).steps.length < n) (h₁ : Heap (B64 lm)) (he : (bfgsSolve ⟨n, ml, gt⟩ h s).heap = h₁)
    (hd : s.cells.Nodup) (hc : Closed ⟨h₁, s⟩) (hm : Modest h₁ s) (hr : ∀ k ∈ s.cons, Clear h₁ (h₁.cons k))
    (hn : s.cons.length < 2 ^ 40) (q : Fin (getNDofs h₁.exact s) → ℝ) (hq : getData h₁.exact s = List.ofFn (fun i => fin (q i))) :
    (∃ V, getLoss h₁.exact s = fin V ∧ V < m + lossError κ h₁ s) ∨
    ∃ D, HasFDerivAt (lossAfter h₁.exact s) (linForm D) q ∧ ∀ i, |D i| < t + gradError κ h₁ s := by
  subst he
  rcases C30_stop _ h s hres with k1 | ⟨g, h', hg, k1⟩ | k1
  · obtain ⟨v, V, j, E, a⟩ := C97_loss hl hκ hc hm hr hn
    refine .inl ⟨V, E, ?_⟩
    have := (j.lt_iff hml).1 k1
    linarith [(abs_le.1 a).1]
  · obtain ⟨g', D, h'', e, hD, hv⟩ := C97_gradient hl hκ hd hc hm hr hn q hq
    refine .inr ⟨D, hD, fun i => ?_⟩
    rw [hg, Except.ok.injEq, Prod.mk.injEq] at e
    have hu := uniform_each (by simpa using (getGradient_vec hg).1) hgt k1
    rw [e.1] at hu
    obtain ⟨r, j1, hlt⟩ := hu (g' i) (by simp)
    obtain ⟨v, j2, hle⟩ := hv i
    rw [j2.unique j1] at hle
    have := abs_lt.1 hlt; have := abs_le.1 hle
    exact abs_lt.2 ⟨by linarith, by linarith⟩
  · exact absurd k1 (Nat.ne_of_lt hlen)

/-- **C97.** When gradient descent in binary64 returns `Ok` before the iteration limit, at coordinates that are not extreme, the exact
loss there is small or all partial derivatives of the exact loss are. -/
theorem C97_gd {κ : ℝ} (hl : lm.Accurate κ) (hκ : κ ≤ 2 ^ (-45 : ℤ)) (n : Nat) {ml mg : B64 lm} {m t : ℝ}
    (hml : ml.Is m) (hmg : mg.Is t) (ht : 2 ^ (-300 : ℤ) ≤ t) (hres : (gdSolve ⟨n, ml, mg⟩ h s).res = .ok)
    (hlen : (gdSolve ⟨n, ml, mg⟩ h s).steps.length < n) (h₁ : Heap (B64 lm)) (he : (gdSolve ⟨n, ml, mg⟩ h s).heap = h₁)
    (hd : s.cells.Nodup) (hc : Closed ⟨h₁, s⟩) (hm : Modest h₁ s) (hr : ∀ k ∈ s.cons, Clear h₁ (h₁.cons k))
    (hn : s.cons.length < 2 ^ 40) (q : Fin (getNDofs h₁.exact s) → ℝ) (hq : getData h₁.exact s = List.ofFn (fun i => fin (q i))) :
    (∃ V, getLoss h₁.exact s = fin V ∧ V < m + lossError κ h₁ s) ∨
    ∃ D, HasFDerivAt (lossAfter h₁.exact s) (linForm D) q ∧ ∀ i, |D i| ≤ (1 + 2 ^ (-51 : ℤ)) * t + gradError κ h₁ s := by
  subst he
  rcases ((C29_stop _ h s).2 hres).2 with ⟨g, h', hg, k1⟩ | k1 | k1
  · obtain ⟨g', D, h'', e, hD, hv⟩ := C97_gradient hl hκ hd hc hm hr hn q hq
    refine .inr ⟨D, hD, fun i => ?_⟩
    rw [hg, Except.ok.injEq, Prod.mk.injEq] at e
    have hu := norm_each hmg ht k1
    rw [e.1] at hu
    obtain ⟨r, j1, hlt⟩ := hu (g' i) (by simp)
    obtain ⟨v, j2, hle⟩ := hv i
    rw [j2.unique j1] at hle
    rw [show (2 : ℝ) ^ (-51 : ℤ) = 4 * ulp by rw [ulp_eq]; norm_num]
    have := abs_le.1 hlt; have := abs_le.1 hle
    exact abs_le.2 ⟨by linarith, by linarith⟩
  · obtain ⟨v, V, j, E, a⟩ := C97_loss hl hκ hc hm hr hn
    refine .inl ⟨V, E, ?_⟩
    have := (j.lt_iff hml).1 k1
    linarith [(abs_le.1 a).1]
  · exact absurd k1 (Nat.ne_of_lt hlen)

/-! ## Examples -/

/-- an angle at the origin and an unwanted distance -/
noncomputable def rightHeap (lm : Libm) : Heap (B64 lm) :=
  { (Heap.empty : Heap (B64 lm)) with
    points := upd (upd (upd Heap.empty.points 0 (Point2.new 1.0 0.0)) 1 (Point2.new 0.0 1.0)) 2 (Point2.new 0.0 0.0)
    cons := upd (upd Heap.empty.cons 0 (.angle 0 1 2 1.0)) 1 (.euclid 0 2 0.5)
    nPoints := 3
    nCons := 2 }
def rightSketch : Sketch := ⟨[(0, .point 0), (1, .point 1), (2, .point 2)], 3, [0, 1]⟩

theorem right_closed : Closed (⟨rightHeap lm, rightSketch⟩ : World (B64 lm)) := by
  simp [Closed, rightSketch, rightHeap, Sketch.cells, primFields, consFields, upd]

theorem right_modest : Modest (rightHeap lm) rightSketch := by
  have b0 : ∃ r : ℝ, (0.0 : B64 lm).Is r ∧ |r| ≤ 2 ^ (100 : ℤ) := ⟨0, B64.is_zero, by rw [abs_zero]; exact (two_pos _).le⟩
  have b1 : ∃ r : ℝ, (1.0 : B64 lm).Is r ∧ |r| ≤ 2 ^ (100 : ℤ) := ⟨1, B64.is_one, by rw [abs_one]; norm_num⟩
  have b2 : ∃ r : ℝ, (0.5 : B64 lm).Is r ∧ |r| ≤ 2 ^ (100 : ℤ) := ⟨1 / 2, B64.is_half, by rw [abs_of_pos (by norm_num)]; norm_num⟩
  constructor
  · rw [getData_eq]
    simp only [rightSketch, rightHeap, Sketch.cells, List.map_cons, List.map_nil, List.flatMap_cons, List.flatMap_nil, primData, upd,
      if_true, Heap.empty, Point2.new, List.append_nil, List.mem_cons, List.mem_append, List.not_mem_nil, or_false,
      show (0 : Nat) ≠ 1 by decide, show (0 : Nat) ≠ 2 by decide, show (1 : Nat) ≠ 2 by decide, if_false]
    rintro x ((rfl | rfl) | (rfl | rfl) | rfl | rfl) <;> assumption
  · simp only [rightSketch, rightHeap, upd, List.forall_mem_cons, consParams, if_true, show (0 : Nat) ≠ 1 by decide, if_false]
    exact ⟨⟨b1, by simp⟩, ⟨b2, by simp⟩, by simp⟩

theorem right_at : xOf (rightHeap lm) 0 = 1 ∧ yOf (rightHeap lm) 0 = 0 ∧ xOf (rightHeap lm) 1 = 0 ∧ yOf (rightHeap lm) 1 = 1 ∧
    xOf (rightHeap lm) 2 = 0 ∧ yOf (rightHeap lm) 2 = 0 := by
  have z : (0.0 : B64 lm).real = 0 := by unfold B64.real; rw [B64.is_zero.exact]; rfl
  have o : (1.0 : B64 lm).real = 1 := by unfold B64.real; rw [B64.is_one.exact]; rfl
  exact ⟨o, z, z, o, z, z⟩

theorem right_clear : ∀ k ∈ rightSketch.cons, Clear (rightHeap lm) ((rightHeap lm).cons k) := by
  obtain ⟨a, b, c, d, e, f⟩ := right_at (lm := lm)
  have d0 : distOf (rightHeap lm) 0 2 = 1 := by unfold distOf; rw [a, b, e, f]; norm_num
  have d1 : distOf (rightHeap lm) 1 2 = 1 := by unfold distOf; rw [c, d, e, f]; norm_num
  have s1 : sinOf (rightHeap lm) 0 1 2 = 1 := by unfold sinOf; rw [d0, d1, a, b, c, d, e, f]; norm_num
  simp only [rightSketch, List.forall_mem_cons]
  refine ⟨?_, ?_, by simp⟩
  · show _ ∧ _ ∧ _
    rw [d0, d1, s1]; norm_num
  · show (2 : ℝ) ^ (-19 : ℤ) ≤ _
    rw [d0]; norm_num

theorem right_errors : lossError (2 ^ (-50 : ℤ)) (rightHeap lm) rightSketch ≤ 1e-10 ∧ gradError (2 ^ (-50 : ℤ)) (rightHeap lm) rightSketch ≤ 1e-9 := by
  obtain ⟨a, b, c, d, e, f⟩ := right_at (lm := lm)
  have o : (1.0 : B64 lm).real = 1 := by unfold B64.real; rw [B64.is_one.exact]; rfl
  have o2 : (0.5 : B64 lm).real = 1 / 2 := by unfold B64.real; rw [B64.is_half.exact]; rfl
  have d0 : distOf (rightHeap lm) 0 2 = 1 := by unfold distOf; rw [a, b, e, f]; norm_num
  have d1 : distOf (rightHeap lm) 1 2 = 1 := by unfold distOf; rw [c, d, e, f]; norm_num
  have s1 : sinOf (rightHeap lm) 0 1 2 = 1 := by unfold sinOf; rw [d0, d1, a, b, c, d, e, f]; norm_num
  have c0 : (rightHeap lm).cons 0 = .angle 0 1 2 1.0 := rfl
  have c1 : (rightHeap lm).cons 1 = .euclid 0 2 0.5 := rfl
  have p0 : spanOf (rightHeap lm) (.angle 0 1 2 1.0) = 5 := by show 4 + |(1.0 : B64 lm).real| = 5; rw [o]; norm_num
  have p1 : spanOf (rightHeap lm) (.euclid 0 2 0.5) = 3 / 2 := by
    show distOf (rightHeap lm) 0 2 + |(0.5 : B64 lm).real| = _; rw [d0, o2]; norm_num
  have l0 : slopeOf (rightHeap lm) (.angle 0 1 2 1.0) = 2 := by
    show 1 / distOf (rightHeap lm) 0 2 + 1 / distOf (rightHeap lm) 1 2 = 2; rw [d0, d1]; norm_num
  have l1 : slopeOf (rightHeap lm) (.euclid 0 2 0.5) = 1 := rfl
  have b0 : badness (rightHeap lm) (.angle 0 1 2 1.0) = 1 := by show 1 / sinOf (rightHeap lm) 0 1 2 = 1; rw [s1]; norm_num
  have b1 : badness (rightHeap lm) (.euclid 0 2 0.5) = 1 := rfl
  unfold lossError gradError
  simp only [rightSketch, List.map_cons, List.map_nil, List.sum_cons, List.sum_nil, List.length_cons, List.length_nil, c0, c1, p0, p1, l0,
    l1, b0, b1]
  constructor <;> norm_num

/-- `C97_loss`: the loss of this sketch is computed with at least nine digits after the point -/
example : ∃ v V, (getLoss (rightHeap roundedLibm) rightSketch).Is v ∧ getLoss (rightHeap roundedLibm).exact rightSketch = fin V ∧
    |v - V| ≤ 1e-10 := by
  obtain ⟨v, V, h1, h2, h3⟩ := C97_loss roundedLibm_accurate (two_le (by norm_num)) right_closed right_modest right_clear
    (by simp [rightSketch])
  exact ⟨v, V, h1, h2, h3.trans right_errors.1⟩

theorem data_reals (hm : Modest h s) : ∃ q : Fin (getNDofs h.exact s) → ℝ, getData h.exact s = List.ofFn (fun i => fin (q i)) := by
  have hlen := getData_length h.exact s
  refine ⟨fun i => ((getData h.exact s)[i.1]'(by rw [hlen]; exact i.2)).toReal, ?_⟩
  apply List.ext_getElem
  · simp [hlen]
  · intro i h1 h2
    rw [List.getElem_ofFn]
    have key : ∀ y ∈ getData h.exact s, y = fin y.toReal := by
      intro y hy
      rw [exact_getData, List.mem_map] at hy
      obtain ⟨x, hx, e⟩ := hy
      obtain ⟨r, hr, -⟩ := hm.1 x hx
      rw [hr.exact] at e
      rw [← e]; rfl
    exact key _ (List.getElem_mem h1)

/-- `C97_gradient`, `C97_jacobian`, `C97_loss_per_constraint`: so are its derivatives -/
example : ∃ (q : Fin (getNDofs (rightHeap roundedLibm).exact rightSketch) → ℝ) (g : _ → B64 roundedLibm) (D : _ → ℝ) (h' : Heap (B64 roundedLibm)),
    getGradient (rightHeap roundedLibm) rightSketch = .ok (List.ofFn g, h') ∧
    HasFDerivAt (lossAfter (rightHeap roundedLibm).exact rightSketch) (linForm D) q ∧ ∀ i, ∃ v, (g i).Is v ∧ |v - D i| ≤ 1e-9 := by
  obtain ⟨q, hq⟩ := data_reals (right_modest (lm := roundedLibm))
  obtain ⟨g, D, h', e, hD, hv⟩ := C97_gradient roundedLibm_accurate (two_le (by norm_num)) (by simp [rightSketch, Sketch.cells]) right_closed
    right_modest right_clear (by simp [rightSketch]) q hq
  obtain ⟨J, D', h'', -, -⟩ := C97_jacobian roundedLibm_accurate (two_le (by norm_num)) (by simp [rightSketch, Sketch.cells]) right_closed
    right_modest right_clear q hq
  obtain ⟨v, V, -, -, -⟩ := C97_loss_per_constraint (lm := roundedLibm) roundedLibm_accurate (two_le (by norm_num)) right_closed
    right_modest right_clear
  exact ⟨q, g, D, h', e, hD, fun i => (hv i).imp fun v hv => ⟨hv.1, hv.2.trans right_errors.2⟩⟩

/-- a point to be moved to the origin -/
noncomputable def offHeap (lm : Libm) (x : B64 lm) : Heap (B64 lm) := { slackHeap lm with points := upd Heap.empty.points 0 (Point2.new x 0.0) }

theorem off_closed (x : B64 lm) : Closed ⟨offHeap lm x, slackSketch⟩ := by
  simp [Closed, offHeap, slackSketch, slackHeap, Sketch.cells, primFields, consFields, upd]

theorem off_modest {x : B64 lm} {r : ℝ} (hx : x.Is r) (hr : |r| ≤ 1) : Modest (offHeap lm x) slackSketch := by
  have b0 : ∃ r : ℝ, (0.0 : B64 lm).Is r ∧ |r| ≤ 2 ^ (100 : ℤ) := ⟨0, B64.is_zero, by rw [abs_zero]; exact (two_pos _).le⟩
  have b1 : ∃ r : ℝ, x.Is r ∧ |r| ≤ 2 ^ (100 : ℤ) := ⟨r, hx, hr.trans (by norm_num)⟩
  constructor
  · rw [getData_eq]
    simp only [slackSketch, offHeap, Sketch.cells, List.map_cons, List.map_nil, List.flatMap_cons, List.flatMap_nil, primData, upd,
      if_true, Point2.new, List.append_nil, List.mem_cons, List.not_mem_nil, or_false]
    rintro x (rfl | rfl) <;> assumption
  · simp only [slackSketch, offHeap, slackHeap, upd, List.forall_mem_cons, consParams, if_true]
    exact ⟨⟨b0, b0, by simp⟩, by simp⟩

theorem off_clear (x : B64 lm) : ∀ k ∈ slackSketch.cons, Clear (offHeap lm x) ((offHeap lm x).cons k) := by
  simp [slackSketch, offHeap, slackHeap, upd, Clear]

theorem off_error {x : B64 lm} {r : ℝ} (hx : x.Is r) (hr : |r| ≤ 1) : lossError (2 ^ (-50 : ℤ)) (offHeap lm x) slackSketch ≤ 1e-10 := by
  have z : (0.0 : B64 lm).real = 0 := by unfold B64.real; rw [B64.is_zero.exact]; rfl
  have o : x.real = r := by unfold B64.real; rw [hx.exact]; rfl
  have e : spanOf (offHeap lm x) ((offHeap lm x).cons 0) = |r| := by
    show |x.real - (0.0 : B64 lm).real| + |(0.0 : B64 lm).real - (0.0 : B64 lm).real| = |r|
    rw [o, z]; simp
  have b : badness (offHeap lm x) ((offHeap lm x).cons 0) = 1 := rfl
  unfold lossError
  simp only [slackSketch, List.map_cons, List.map_nil, List.sum_cons, List.sum_nil, List.length_cons, List.length_nil, e, b]
  have h1 : (|r| + 2 ^ (-100 : ℤ)) ^ 2 ≤ 2 ^ 2 := by
    refine pow_le_pow_left₀ (add_nonneg (abs_nonneg r) (two_pos _).le) ?_ 2
    have : (2 : ℝ) ^ (-100 : ℤ) ≤ 1 := by norm_num
    linarith
  generalize (|r| + 2 ^ (-100 : ℤ)) ^ 2 = y at *
  norm_num at h1 ⊢
  linarith

/-- `C97_decrease`: moving the point from `(1, 0)` to `(2^-30, 0)` -/
example : (getLoss (offHeap roundedLibm nano).exact slackSketch).toReal < (getLoss (offHeap roundedLibm 1.0).exact slackSketch).toReal := by
  have n1 : |(2 : ℝ) ^ (-30 : ℤ)| ≤ 1 := by rw [abs_of_pos (two_pos _)]; norm_num
  have o1 : |(1 : ℝ)| ≤ 1 := by simp
  obtain ⟨v, V, hv, hV, he⟩ := C97_loss roundedLibm_accurate (two_le (by norm_num)) (off_closed 1.0) (off_modest B64.is_one o1)
    (off_clear 1.0) (by simp [slackSketch])
  have hV' : V = 1 / 2 := by
    have e : getLoss (offHeap roundedLibm 1.0).exact slackSketch = fin (0 + ((1 - 0) ^ 2 + (0 - 0) ^ 2) / 2) := by
      unfold getLoss
      show (0.0 : XR) + lossValue (offHeap roundedLibm 1.0).exact (Constraint.exact (.fix 0 ⟨0.0, 0.0⟩)) = _
      simp only [Constraint.exact, Vec2.exact, B64.is_zero.exact]
      rw [loss_fix (x := 1) (y := 0) (by
        show (⟨(1.0 : B64 roundedLibm).exact, (0.0 : B64 roundedLibm).exact⟩ : Vec2 XR) = _
        rw [B64.is_zero.exact, B64.is_one.exact]), zero_lit, add_fin]
    rw [hV, fin.injEq] at e
    rw [e]; norm_num
  refine C97_decrease roundedLibm_accurate (two_le (by norm_num)) (off_closed 1.0) (off_modest B64.is_one o1) (off_clear 1.0)
    (off_closed nano) (off_modest nano_is n1) (off_clear nano) (by simp [slackSketch]) hv (v₂ := 2 ^ (-61 : ℤ)) slack_loss ?_
  have a1 := off_error (lm := roundedLibm) B64.is_one o1
  have a2 := off_error (lm := roundedLibm) nano_is n1
  have a3 := (abs_le.1 he).1
  have a4 : (2 : ℝ) ^ (-61 : ℤ) ≤ 1 / 4 := by norm_num
  have a5 : (1e-10 : ℝ) ≤ 1 / 100 := by norm_num
  linarith

/-- `C97_bfgs`, `C97_gd`: BFGS and gradient descent accept a point that is off by `2^-30`; its exact loss is small -/
example : (bfgsSolve BFGSParams.default (slackHeap roundedLibm) slackSketch).res = .ok ∧
    (bfgsSolve BFGSParams.default (slackHeap roundedLibm) slackSketch).steps.length < BFGSParams.default.maxIterations (F := B64 roundedLibm) ∧
    (bfgsSolve BFGSParams.default (slackHeap roundedLibm) slackSketch).heap = slackHeap roundedLibm ∧
    slackSketch.cells.Nodup ∧ Closed ⟨slackHeap roundedLibm, slackSketch⟩ ∧ Modest (slackHeap roundedLibm) slackSketch ∧
    ∀ k ∈ slackSketch.cons, Clear (slackHeap roundedLibm) ((slackHeap roundedLibm).cons k) := by
  have hs := (slack_small (lm := roundedLibm) 16 (by norm_num) (by norm_num)).1
  have e := C36_bfgs_stays BFGSParams.default _ _ hs
  have b0 : ∃ r : ℝ, (0.0 : B64 roundedLibm).Is r ∧ |r| ≤ 2 ^ (100 : ℤ) := ⟨0, B64.is_zero, by rw [abs_zero]; exact (two_pos _).le⟩
  have b1 : ∃ r : ℝ, (nano : B64 roundedLibm).Is r ∧ |r| ≤ 2 ^ (100 : ℤ) :=
    ⟨_, nano_is, by rw [abs_of_pos (two_pos _)]; exact two_le (by norm_num)⟩
  refine ⟨by rw [e], by rw [e]; simp [BFGSParams.default], by rw [e], by simp [slackSketch, Sketch.cells],
    by simp [Closed, slackSketch, slackHeap, Sketch.cells, primFields, consFields, upd], ⟨?_, ?_⟩, ?_⟩
  · rw [getData_eq]
    simp only [slackSketch, slackHeap, Sketch.cells, List.map_cons, List.map_nil, List.flatMap_cons, List.flatMap_nil, primData, upd,
      if_true, Point2.new, List.append_nil, List.mem_cons, List.not_mem_nil, or_false]
    rintro x (rfl | rfl) <;> assumption
  · simp only [slackSketch, slackHeap, upd, List.forall_mem_cons, consParams, if_true]
    exact ⟨⟨b0, b0, by simp⟩, by simp⟩
  · simp [slackSketch, slackHeap, upd, Clear]

end Isotope
