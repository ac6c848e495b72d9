import Verif.Lemmas.NewtonStep
import Verif.Lemmas.GenInv
import Verif.Props.SolverExact

/-!
# Steps of Gauss-Newton and Levenberg-Marquardt (C59)
-/

namespace Isotope
open XR
open Matrix

variable {h : Heap XR} {s : Sketch}

/-- **C59.** Every step of Gauss-Newton, on every sketch: with `J` the Jacobian, `l` the losses, `x0`, `x1` the coordinates
before and after the step and `P` what `pseudo_inverse` returned for `JᵀJ`:
if `P` is a generalised inverse (`A P A = A`), the step solves the normal equations `JᵀJ (x1 - x0) = -σ Jᵀ l`, and it goes
strictly downhill on the sum of the squared losses (whose gradient is `Jᵀ l`, see `C59_gradient`) unless that gradient is 0;
if `P` is only an outer inverse (`P A P = P`, symmetric), as after truncation of small singular values, the step does not go
uphill. -/
theorem C59_gauss_newton {pinv : PInv XR} (hp : RealPInv pinv) (p : GNParams XR) (hn : s.cells.Nodup) (hc : Closed ⟨h, s⟩)
    (hf : FiniteSketch h s) (σ : ℝ) (hσ : p.stepSize = fin σ) :
    ∀ r ∈ (gnSolve pinv p h s).steps,
      ∃ (J : Matrix (Fin s.cons.length) (Fin (getNDofs h s)) ℝ) (P : Matrix (Fin (getNDofs h s)) (Fin (getNDofs h s)) ℝ)
        (x0 x1 : Fin (getNDofs h s) → ℝ) (l : Fin s.cons.length → ℝ) (h' : Heap XR),
        getJacobian r.pre s = .ok (mat J, h') ∧ getLossPerConstraint r.pre s = vec l ∧
        pinv (mat (Jᵀ * J)) p.pinvEps = .ok (mat P) ∧ getData r.pre s = vec x0 ∧ getData r.post s = vec x1 ∧
        (Jᵀ * J * P * (Jᵀ * J) = Jᵀ * J → (Jᵀ * J) *ᵥ (x1 - x0) = -(σ • (Jᵀ *ᵥ l)) ∧
          (0 < σ → Jᵀ *ᵥ l ≠ 0 → (Jᵀ *ᵥ l) ⬝ᵥ (x1 - x0) < 0)) ∧
        (P * (Jᵀ * J) * P = P → Pᵀ = P → 0 ≤ σ → (Jᵀ *ᵥ l) ⬝ᵥ (x1 - x0) ≤ 0) := by
  intro r hr
  unfold gnSolve at hr
  rw [hσ] at hr
  obtain ⟨J, P, x, l, h', -, -, -, -, e1, e2, e3, e4, e5⟩ := newtonLoop_steps hn hc hp p.minLoss p.pinvEps σ gnNormal
    (fun J => Jᵀ * J) (fun J => gnNormal_mat J) _ _ h (.refl h) hf r hr
  have hx : x - σ • (P *ᵥ (Jᵀ *ᵥ l)) - x = -(σ • (P *ᵥ (Jᵀ *ᵥ l))) := by abel
  refine ⟨J, P, x, _, l, h', e1, e3, e4, e2, e5, fun hP => ⟨?_, fun h0 hl => ?_⟩, fun hP hs h0 => ?_⟩
  · rw [hx, mulVec_neg, mulVec_smul, mulVec_mulVec, mulVec_mulVec, genInv_normal J P hP]
  · rw [hx, dotProduct_neg, dotProduct_smul, smul_eq_mul]
    have := mul_pos h0 (gn_downhill J hP l hl)
    linarith
  · rw [hx, dotProduct_neg, dotProduct_smul, smul_eq_mul]
    have hq : (Jᵀ *ᵥ l) ⬝ᵥ (P *ᵥ (Jᵀ *ᵥ l)) = (J *ᵥ (P *ᵥ (Jᵀ *ᵥ l))) ⬝ᵥ (J *ᵥ (P *ᵥ (Jᵀ *ᵥ l))) := by
      rw [← gram_form]
      have := genInv_form hs hP (Jᵀ *ᵥ l)
      rw [← this, dotProduct_comm, dotProduct_comm]
    have := mul_nonneg h0 (dot_self_nonneg (J *ᵥ (P *ᵥ (Jᵀ *ᵥ l))))
    rw [hq]
    linarith

/-- **C59.** The same for Levenberg-Marquardt, with the damped matrix `JᵀJ + β I`. For `β > 0` a generalised inverse of that
matrix is its inverse, so the step always solves the damped normal equations. -/
theorem C59_levenberg_marquardt {pinv : PInv XR} (hp : RealPInv pinv) (p : LMParams XR) (hn : s.cells.Nodup)
    (hc : Closed ⟨h, s⟩) (hf : FiniteSketch h s) (σ β : ℝ) (hσ : p.stepSize = fin σ) (hβ : p.beta = fin β) :
    ∀ r ∈ (lmSolve pinv p h s).steps,
      ∃ (J : Matrix (Fin s.cons.length) (Fin (getNDofs h s)) ℝ) (P A : Matrix (Fin (getNDofs h s)) (Fin (getNDofs h s)) ℝ)
        (x0 x1 : Fin (getNDofs h s) → ℝ) (l : Fin s.cons.length → ℝ) (h' : Heap XR),
        getJacobian r.pre s = .ok (mat J, h') ∧ getLossPerConstraint r.pre s = vec l ∧ A = Jᵀ * J + β • 1 ∧
        pinv (mat A) p.pinvEps = .ok (mat P) ∧ getData r.pre s = vec x0 ∧ getData r.post s = vec x1 ∧
        (A * P * A = A → 0 < β → A *ᵥ (x1 - x0) = -(σ • (Jᵀ *ᵥ l)) ∧
          (0 < σ → Jᵀ *ᵥ l ≠ 0 → (Jᵀ *ᵥ l) ⬝ᵥ (x1 - x0) < 0)) ∧
        (P * A * P = P → Pᵀ = P → 0 ≤ β → 0 ≤ σ → (Jᵀ *ᵥ l) ⬝ᵥ (x1 - x0) ≤ 0) := by
  intro r hr
  unfold lmSolve at hr
  rw [hσ, hβ] at hr
  obtain ⟨J, P, x, l, h', -, -, -, -, e1, e2, e3, e4, e5⟩ := newtonLoop_steps hn hc hp p.minLoss p.pinvEps σ (lmNormal (fin β))
    (fun J => Jᵀ * J + β • 1) (fun J => lmNormal_mat β J) _ _ h (.refl h) hf r hr
  have hx : x - σ • (P *ᵥ (Jᵀ *ᵥ l)) - x = -(σ • (P *ᵥ (Jᵀ *ᵥ l))) := by abel
  refine ⟨J, P, _, x, _, l, h', e1, e3, rfl, e4, e2, e5, fun hP hb => ⟨?_, fun h0 hl => ?_⟩, fun hP hs hb h0 => ?_⟩
  · rw [hx, mulVec_neg, mulVec_smul, lm_inverse J hb hP]
  · rw [hx, dotProduct_neg, dotProduct_smul, smul_eq_mul]
    have := mul_pos h0 (lm_downhill J hb hP hl)
    linarith
  · rw [hx, dotProduct_neg, dotProduct_smul, smul_eq_mul]
    have hq : 0 ≤ (Jᵀ *ᵥ l) ⬝ᵥ (P *ᵥ (Jᵀ *ᵥ l)) := by
      have := genInv_form hs hP (Jᵀ *ᵥ l)
      rw [← this, add_mulVec, dotProduct_add, gram_form, smul_mulVec, one_mulVec, dotProduct_smul, smul_eq_mul]
      exact add_nonneg (dot_self_nonneg _) (mul_nonneg hb (dot_self_nonneg _))
    have := mul_nonneg h0 hq
    linarith

/-- **C59.** What `Jᵀ l` is: at a position where no constraint is degenerate it is the gradient of half the sum of the
squared losses. -/
theorem C59_gradient (hn : s.cells.Nodup) (hc : Closed ⟨h, s⟩) (hf : FiniteSketch h s)
    (hr : ∀ k ∈ s.cons, Regular h (h.cons k)) (x : Fin (getNDofs h s) → ℝ) (hx : getData h s = vec x)
    (J : Matrix (Fin s.cons.length) (Fin (getNDofs h s)) ℝ) (h' : Heap XR) (hJ : getJacobian h s = .ok (mat J, h'))
    (l : Fin s.cons.length → ℝ) (hl : getLossPerConstraint h s = vec l) :
    HasFDerivAt (halfSquares h s) (linForm (Jᵀ *ᵥ l)) x := by
  obtain ⟨J', h2, e, hd, -⟩ := C21_jacobian hn hc hf hr x hx
  rw [hJ] at e
  have e1 : mat J = (List.range s.cons.length).map (fun i => List.ofFn (fun j => fin (J' i j))) :=
    congrArg Prod.fst (Except.ok.inj e)
  have eJ : ∀ i : Fin s.cons.length, J i = J' i.1 := by
    intro i
    have := congrArg (fun q => q[i.1]?) e1
    simp only [mat, vec, List.getElem?_ofFn, List.getElem?_map, List.getElem?_range i.2, i.2, dif_pos, Option.map_some,
      Option.some.injEq, Fin.eta] at this
    have h3 := List.ofFn_injective this
    funext j
    exact XR.fin.inj (congrFun h3 j)
  have el : ∀ i : Fin s.cons.length, entryAfter h s i.1 x = l i := by
    intro i
    have hw : setData h s (vec x) = .ok h := by
      rw [← hx]; exact C13_write_back h s hn (List.all_eq_true.2 hf.1)
    unfold entryAfter
    unfold vec at hw
    rw [hw]
    simp only [hl, vec, List.getD_eq_getElem?_getD, List.getElem?_ofFn, i.2, dif_pos, Option.getD_some, Fin.eta]
    rfl
  have key : HasFDerivAt (halfSquares h s)
      ((∑ i ∈ Finset.range s.cons.length, (2 * entryAfter h s i x) • linForm (J' i)) |> fun g => (2⁻¹ : ℝ) • g) x := by
    have := HasFDerivAt.fun_sum (u := Finset.range s.cons.length) (A := fun i v => entryAfter h s i v ^ 2)
      (A' := fun i => (2 * entryAfter h s i x) • linForm (J' i)) (x := x) (fun i hi => by
        have := (hd i (Finset.mem_range.1 hi)).pow 2
        simpa using this)
    have h4 := this.const_mul (2⁻¹ : ℝ)
    refine h4.congr_of_eventuallyEq (Filter.Eventually.of_forall fun v => ?_)
    simp only [halfSquares]; ring
  convert key using 1
  ext1 v
  simp only [linForm_apply, mulVec, dotProduct, transpose_apply, _root_.smul_apply, _root_.sum_apply,
    smul_eq_mul, Finset.mul_sum]
  rw [Finset.sum_range]
  simp only [el, ← eJ, Finset.sum_mul]
  rw [Finset.sum_comm]
  refine Finset.sum_congr rfl fun i _ => Finset.sum_congr rfl fun j _ => ?_
  ring

/-- **C34.** In exact arithmetic, with a pseudo-inverse that always returns a matrix, Gauss-Newton neither fails nor panics on
a sketch with at least one coordinate and without equal-length constraints. -/
theorem C34_gn_ok {pinv : PInv XR} (hp : GoodPInv pinv) (p : GNParams XR) (hn : s.cells.Nodup) (hc : Closed ⟨h, s⟩)
    (hf : FiniteSketch h s) (σ : ℝ) (hσ : p.stepSize = fin σ) (hpos : 0 < getNDofs h s)
    (hk : ∀ k ∈ s.cons, ∀ l m, h.cons k ≠ .eqLen l m) : (gnSolve pinv p h s).res = .ok := by
  unfold gnSolve
  rw [hσ]
  exact newtonLoop_ok hn hc hp p.minLoss p.pinvEps σ gnNormal (fun J => Jᵀ * J) (fun J => gnNormal_mat J) hpos hk _ _ h
    (.refl h) hf

/-- **C34.** The same for Levenberg-Marquardt. -/
theorem C34_lm_ok {pinv : PInv XR} (hp : GoodPInv pinv) (p : LMParams XR) (hn : s.cells.Nodup) (hc : Closed ⟨h, s⟩)
    (hf : FiniteSketch h s) (σ β : ℝ) (hσ : p.stepSize = fin σ) (hβ : p.beta = fin β) (hpos : 0 < getNDofs h s)
    (hk : ∀ k ∈ s.cons, ∀ l m, h.cons k ≠ .eqLen l m) : (lmSolve pinv p h s).res = .ok := by
  unfold lmSolve
  rw [hσ, hβ]
  exact newtonLoop_ok hn hc hp p.minLoss p.pinvEps σ (lmNormal (fin β)) (fun J => Jᵀ * J + β • 1) (fun J => lmNormal_mat β J)
    hpos hk _ _ h (.refl h) hf

/-! ## Examples -/

theorem fix_nDofs (x y a b u v : ℝ) : getNDofs (fixHeap x y a b u v) fixSketch = 2 := by
  rw [← getData_length, fix_data]; rfl

theorem fix_closed (x y a b u v : ℝ) : Closed ⟨fixHeap x y a b u v, fixSketch⟩ := by
  simp [Closed, fixSketch, fixHeap, Sketch.cells, primFields, consFields, upd]

theorem fix_finite (x y a b u v : ℝ) : FiniteSketch (fixHeap x y a b u v) fixSketch :=
  ⟨by rw [fix_data]; simp, by simp [fixSketch, fixHeap, consParams, upd]⟩

theorem fix_jacobian (x y a b u v : ℝ) :
    ∃ h', getJacobian (fixHeap x y a b u v) fixSketch = .ok (mat !![a - x, b - y], h') := by
  obtain ⟨J, h', e, -, h'', eg⟩ := C21_jacobian fixSketch_nodup (fix_closed x y a b u v) (fix_finite x y a b u v)
    (by simp [fixSketch, fixHeap, upd, Regular]) (fun i => if i.1 = 0 then a else b)
    (by rw [fix_data]; rfl)
  refine ⟨h', ?_⟩
  rw [fix_gradient] at eg
  have := congrArg Prod.fst (Except.ok.inj eg)
  have hl : fixSketch.cons.length = 1 := rfl
  simp only [hl, Finset.sum_range_one] at this
  rw [e, hl]
  simp only [List.range_one, List.map_cons, List.map_nil, ← this]
  simp [mat, vec]

/-- C59: a run with a step whose gradient is not 0 and whose matrix has the generalised inverse the "pseudo-inverse" returned;
here `JᵀJ` is a projection and its own generalised inverse -/
example : ∃ r ∈ (gnSolve (fun m _ => .ok m) ⟨1, 0.0, 1e-1, 1e-6⟩ (fixHeap 0 0 1 0 0 0) fixSketch).steps,
    getLossPerConstraint r.pre fixSketch = vec ![(1 / 2 : ℝ)] ∧
    (∃ h', getJacobian r.pre fixSketch = .ok (mat !![(1 : ℝ), 0], h')) ∧
    (!![(1 : ℝ), 0])ᵀ *ᵥ ![(1 / 2 : ℝ)] ≠ 0 ∧
    (!![(1 : ℝ), 0])ᵀ * !![(1 : ℝ), 0] * ((!![(1 : ℝ), 0])ᵀ * !![(1 : ℝ), 0]) * ((!![(1 : ℝ), 0])ᵀ * !![(1 : ℝ), 0]) =
      (!![(1 : ℝ), 0])ᵀ * !![(1 : ℝ), 0] := by
  obtain ⟨h', e⟩ := fix_jacobian 0 0 1 0 0 0
  have hA : (!![(1 : ℝ), 0])ᵀ * !![(1 : ℝ), 0] = !![1, 0; 0, 0] := by
    ext i j; fin_cases i <;> fin_cases j <;> simp [Matrix.mul_apply]
  simp only [sub_zero] at e
  obtain ⟨h3, e3⟩ := newtonLoop_succ (ls := Num.inf) (ml := 0.0) (eps := 1e-6) (σ := 1e-1) (pinv := fun m _ => .ok m)
    (nrm := gnNormal) (J := !![(1 : ℝ), 0]) (P := (!![(1 : ℝ), 0])ᵀ * !![(1 : ℝ), 0])
    fixSketch_nodup (fix_closed 0 0 1 0 0 0) (fix_finite 0 0 1 0 0 0) 0 (by simp only [sci]; rfl) e
    (congrArg PInvRes.ok (gnNormal_mat (n := 1) (m := 2) !![(1 : ℝ), 0]))
  refine ⟨⟨fixHeap 0 0 1 0 0 0, fin 1e-1, h3, []⟩, ?_, ?_, ⟨h', e⟩, fun h0 => ?_, ?_⟩
  · unfold gnSolve
    simp only [sci] at e3 ⊢
    rw [e3]; exact List.mem_cons_self
  · rw [fix_losses]; norm_num [vec]
  · have := congrFun h0 0
    simp [mulVec, dotProduct] at this
  · rw [hA]
    ext i j; fin_cases i <;> fin_cases j <;> simp [Matrix.mul_apply]

/-- C59: a pseudo-inverse that always returns a generalised inverse exists -/
example : ∃ pinv : PInv XR, RealPInv pinv ∧ ∀ (n : Nat) (A : Matrix (Fin n) (Fin n) ℝ) (eps : XR),
    ∃ P, pinv (mat A) eps = .ok (mat P) ∧ A * P * A = A := ⟨genPInv, genPInv_real, fun _ A eps => genPInv_spec A eps⟩

/-- C59: with it, Levenberg-Marquardt makes a step from a position with non-zero gradient -/
example : ∃ r ∈ (lmSolve genPInv ⟨1, 0.0, 1e-1, 1e-6, 1e-5⟩ (fixHeap 0 0 1 0 0 0) fixSketch).steps,
    getLossPerConstraint r.pre fixSketch = vec ![(1 / 2 : ℝ)] ∧
    (∃ h', getJacobian r.pre fixSketch = .ok (mat !![(1 : ℝ), 0], h')) ∧ (!![(1 : ℝ), 0])ᵀ *ᵥ ![(1 / 2 : ℝ)] ≠ 0 := by
  obtain ⟨h', e⟩ := fix_jacobian 0 0 1 0 0 0
  simp only [sub_zero] at e
  obtain ⟨P, hP, -⟩ := genPInv_spec ((!![(1 : ℝ), 0])ᵀ * !![(1 : ℝ), 0] + (1e-5 : ℝ) • 1) 1e-6
  rw [← lmNormal_mat] at hP
  obtain ⟨h3, e3⟩ := newtonLoop_succ (ls := Num.inf) (ml := 0.0) (eps := 1e-6) (σ := 1e-1) (pinv := genPInv)
    (nrm := lmNormal (fin 1e-5)) (J := !![(1 : ℝ), 0]) (P := P)
    fixSketch_nodup (fix_closed 0 0 1 0 0 0) (fix_finite 0 0 1 0 0 0) 0 (by simp only [sci]; rfl) e hP
  refine ⟨⟨fixHeap 0 0 1 0 0 0, fin 1e-1, h3, []⟩, ?_, ?_, ⟨h', e⟩, fun h0 => ?_⟩
  · unfold lmSolve
    simp only [sci] at e3 ⊢
    rw [e3]; exact List.mem_cons_self
  · rw [fix_losses]; norm_num [vec]
  · have := congrFun h0 0
    simp [mulVec, dotProduct] at this

/-- C34: a sketch and a pseudo-inverse as assumed -/
example : (gnSolve genPInv .default (fixHeap 0 0 1 0 0 0) fixSketch).res = .ok :=
  C34_gn_ok genPInv_good _ fixSketch_nodup (fix_closed 0 0 1 0 0 0) (fix_finite 0 0 1 0 0 0) 1e-3
    (by simp only [GNParams.default, sci]) (by rw [fix_nDofs]; norm_num) (by simp [fixSketch, fixHeap, upd])

end Isotope
