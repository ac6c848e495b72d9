import Verif.Lemmas.Newton
import Mathlib.Algebra.Order.Star.Real

/-!
# The steps of Gauss-Newton and Levenberg-Marquardt
-/

namespace Isotope
open XR
open Matrix

variable {m n : Nat}

/-! ## Generalised inverses -/

theorem genInv_normal (J : Matrix (Fin m) (Fin n) ℝ) (P : Matrix (Fin n) (Fin n) ℝ)
    (hP : Jᵀ * J * P * (Jᵀ * J) = Jᵀ * J) : Jᵀ * J * P * Jᵀ = Jᵀ := by
  have h1 : (Jᵀ * J * P * Jᵀ - Jᵀ) * J = 0 := by
    rw [Matrix.sub_mul, sub_eq_zero, ← hP]
    simp only [Matrix.mul_assoc] at hP ⊢
    rw [hP, hP]
  have h2 : (Jᵀ * J * P * Jᵀ - Jᵀ)ᵀ = J * (Pᵀ * (Jᵀ * J) - 1) := by
    rw [transpose_sub, transpose_mul, transpose_mul, transpose_mul, transpose_transpose, Matrix.mul_sub, Matrix.mul_one]
  have h3 : (Jᵀ * J * P * Jᵀ - Jᵀ) * (Jᵀ * J * P * Jᵀ - Jᵀ)ᴴ = 0 := by
    rw [conjTranspose_eq_transpose_of_trivial, h2, ← Matrix.mul_assoc, h1, Matrix.zero_mul]
  exact sub_eq_zero.1 (self_mul_conjTranspose_eq_zero.1 h3)

theorem gram_form (J : Matrix (Fin m) (Fin n) ℝ) (z : Fin n → ℝ) : z ⬝ᵥ ((Jᵀ * J) *ᵥ z) = (J *ᵥ z) ⬝ᵥ (J *ᵥ z) := by
  rw [← mulVec_mulVec, dotProduct_mulVec, vecMul_transpose]

theorem dot_self_nonneg (z : Fin n → ℝ) : 0 ≤ z ⬝ᵥ z := Finset.sum_nonneg fun _ _ => mul_self_nonneg _

theorem dot_self_pos {z : Fin n → ℝ} (hz : z ≠ 0) : 0 < z ⬝ᵥ z := by
  obtain ⟨i, hi⟩ : ∃ i, z i ≠ 0 := by
    by_contra hh
    exact hz (funext fun i => by by_contra h1; exact hh ⟨i, h1⟩)
  exact Finset.sum_pos' (fun i _ => mul_self_nonneg _) ⟨i, Finset.mem_univ i, mul_self_pos.2 hi⟩

/-- the quadratic form of a generalised inverse is positive on the range of the matrix -/
theorem genInv_form {A P : Matrix (Fin n) (Fin n) ℝ} (hA : Aᵀ = A) (hP : A * P * A = A) (z : Fin n → ℝ) :
    (A *ᵥ z) ⬝ᵥ (P *ᵥ (A *ᵥ z)) = z ⬝ᵥ (A *ᵥ z) := by
  have hs : ∀ w, (A *ᵥ z) ⬝ᵥ w = z ⬝ᵥ (A *ᵥ w) := fun w => by rw [dotProduct_mulVec, ← mulVec_transpose, hA]
  rw [hs, mulVec_mulVec, mulVec_mulVec, hP]

theorem gram_symm (J : Matrix (Fin m) (Fin n) ℝ) : (Jᵀ * J)ᵀ = Jᵀ * J := by
  rw [transpose_mul, transpose_transpose]

/-- for a generalised inverse of `JᵀJ` the vector `P Jᵀ l` is not uphill, and downhill unless `Jᵀ l = 0` -/
theorem gn_downhill (J : Matrix (Fin m) (Fin n) ℝ) {P : Matrix (Fin n) (Fin n) ℝ}
    (hP : Jᵀ * J * P * (Jᵀ * J) = Jᵀ * J) (l : Fin m → ℝ) (hl : Jᵀ *ᵥ l ≠ 0) :
    0 < (Jᵀ *ᵥ l) ⬝ᵥ (P *ᵥ (Jᵀ *ᵥ l)) := by
  have hr : (Jᵀ * J) *ᵥ (P *ᵥ (Jᵀ *ᵥ l)) = Jᵀ *ᵥ l := by
    rw [mulVec_mulVec, mulVec_mulVec, genInv_normal J P hP]
  have := genInv_form (gram_symm J) hP (P *ᵥ (Jᵀ *ᵥ l))
  rw [hr] at this
  have h2 := gram_form J (P *ᵥ (Jᵀ *ᵥ l))
  rw [hr] at h2
  rw [this, h2]
  refine dot_self_pos fun h0 => hl ?_
  rw [← hr, ← mulVec_mulVec, h0, mulVec_zero]

theorem lm_matrix_pos (J : Matrix (Fin m) (Fin n) ℝ) {β : ℝ} (hβ : 0 < β) {z : Fin n → ℝ} (hz : z ≠ 0) :
    0 < z ⬝ᵥ ((Jᵀ * J + β • (1 : Matrix (Fin n) (Fin n) ℝ)) *ᵥ z) := by
  rw [add_mulVec, dotProduct_add, gram_form, smul_mulVec, one_mulVec, dotProduct_smul, smul_eq_mul]
  have h1 := dot_self_nonneg (J *ᵥ z)
  have h2 := mul_pos hβ (dot_self_pos hz)
  linarith

theorem lm_symm (J : Matrix (Fin m) (Fin n) ℝ) (β : ℝ) :
    (Jᵀ * J + β • (1 : Matrix (Fin n) (Fin n) ℝ))ᵀ = Jᵀ * J + β • 1 := by
  rw [transpose_add, gram_symm, transpose_smul, transpose_one]

/-- a generalised inverse of the damped matrix is its inverse -/
theorem lm_inverse (J : Matrix (Fin m) (Fin n) ℝ) {β : ℝ} (hβ : 0 < β) {P : Matrix (Fin n) (Fin n) ℝ}
    (hP : (Jᵀ * J + β • 1) * P * (Jᵀ * J + β • 1) = Jᵀ * J + β • (1 : Matrix (Fin n) (Fin n) ℝ)) (g : Fin n → ℝ) :
    (Jᵀ * J + β • (1 : Matrix (Fin n) (Fin n) ℝ)) *ᵥ (P *ᵥ g) = g := by
  generalize hA : Jᵀ * J + β • (1 : Matrix (Fin n) (Fin n) ℝ) = A at *
  have hpos : ∀ z : Fin n → ℝ, z ≠ 0 → 0 < z ⬝ᵥ (A *ᵥ z) := fun z hz => by rw [← hA]; exact lm_matrix_pos J hβ hz
  have hs : Aᵀ = A := by rw [← hA]; exact lm_symm J β
  have inj : ∀ z : Fin n → ℝ, A *ᵥ z = 0 → z = 0 := by
    intro z hz
    by_contra h0
    have := hpos z h0
    rw [hz, dotProduct_zero] at this
    exact lt_irrefl _ this
  have hPA : P * A = 1 := by
    have : A * (P * A - 1) = 0 := by rw [Matrix.mul_sub, Matrix.mul_one, ← Matrix.mul_assoc, hP, sub_self]
    have h2 : P * A - 1 = 0 := by
      ext i j
      have hc : A *ᵥ (fun k => (P * A - 1) k j) = 0 := by
        funext k
        exact congrFun (congrFun this k) j
      exact congrFun (inj _ hc) i
    exact sub_eq_zero.1 h2
  have hAP : A * P = 1 := mul_eq_one_comm.1 hPA
  rw [mulVec_mulVec, hAP, one_mulVec]

theorem lm_downhill (J : Matrix (Fin m) (Fin n) ℝ) {β : ℝ} (hβ : 0 < β) {P : Matrix (Fin n) (Fin n) ℝ}
    (hP : (Jᵀ * J + β • 1) * P * (Jᵀ * J + β • 1) = Jᵀ * J + β • (1 : Matrix (Fin n) (Fin n) ℝ)) {g : Fin n → ℝ}
    (hg : g ≠ 0) : 0 < g ⬝ᵥ (P *ᵥ g) := by
  have hr := lm_inverse J hβ hP g
  have := genInv_form (lm_symm J β) hP (P *ᵥ g)
  rw [hr] at this
  rw [this]
  have h0 : P *ᵥ g ≠ 0 := fun h0 => hg (by rw [← hr, h0, mulVec_zero])
  have h1 := lm_matrix_pos J hβ h0
  rwa [hr] at h1

/-! ## Steps -/

theorem Closed.sameRefs {h h' : Heap XR} {s : Sketch} (r : SameRefs h h') (hc : Closed ⟨h, s⟩) : Closed ⟨h', s⟩ := by
  refine ⟨fun c hcc x hx => hc.1 c hcc x ?_, fun k hk x hx => hc.2 k hk x ?_⟩
  · rw [← primRefs_sameRefs r]; exact hx
  · have hx : x ∈ consFields (h'.cons k) := hx
    rw [r.cons] at hx; exact hx

/-- in exact arithmetic the Jacobian is a matrix of reals, unless `get_jacobian` panics -/
theorem getJacobian_mat {h h' : Heap XR} {s : Sketch} (hc : Closed ⟨h, s⟩) (hf : FiniteSketch h s) {jac : List (List XR)}
    (e : getJacobian h s = .ok (jac, h')) :
    ∃ J : Matrix (Fin s.cons.length) (Fin (getNDofs h s)) ℝ, jac = mat J := by
  obtain ⟨A, B⟩ := jacobianRows_exact h s s.cons h (.refl h) (hf.cons hc)
  by_cases hd : ∃ k ∈ s.cons, DegenerateEqLen h (h.cons k)
  · obtain ⟨h2, e2⟩ := B hd
    unfold getJacobian at e
    rw [e2] at e; cases e
  · obtain ⟨h2, -, e2⟩ := A fun k hk hh => hd ⟨k, hk, hh⟩
    unfold getJacobian at e
    rw [e2] at e; cases e
    refine ⟨fun i j => total (contribs h (h.cons s.cons[i.1])) (s.dofs[j.1]'(by rw [dofs_length h]; exact j.2)), ?_⟩
    unfold mat vec
    apply List.ext_getElem (by simp)
    intro i a1 a2
    simp only [List.getElem_map, List.getElem_ofFn]
    apply List.ext_getElem (by simp [dofs_length h s])
    intro j a3 a4
    simp only [List.getElem_map, List.getElem_ofFn]

theorem losses_vec {h : Heap XR} {s : Sketch} (hc : Closed ⟨h, s⟩) (hf : FiniteSketch h s) :
    ∃ l : Fin s.cons.length → ℝ, getLossPerConstraint h s = vec l := by
  refine exists_vec' ?_ (by simp [getLossPerConstraint])
  rw [List.all_eq_true]
  intro x hx
  obtain ⟨c, hcc, rfl⟩ := List.mem_map.1 hx
  obtain ⟨r, -, hr⟩ := (hf.cons hc c hcc).real.loss
  rw [hr]; rfl

/-- what a step of Gauss-Newton or Levenberg-Marquardt did, in exact arithmetic; `nrm` gives the matrix that was inverted -/
def NewtonStep (pinv : PInv XR) (eps : XR) (σ : ℝ) (h : Heap XR) (s : Sketch)
    (nrm : Matrix (Fin s.cons.length) (Fin (getNDofs h s)) ℝ → Matrix (Fin (getNDofs h s)) (Fin (getNDofs h s)) ℝ)
    (r : StepRec XR) : Prop :=
  ∃ (J : Matrix (Fin s.cons.length) (Fin (getNDofs h s)) ℝ) (P : Matrix (Fin (getNDofs h s)) (Fin (getNDofs h s)) ℝ)
    (x : Fin (getNDofs h s) → ℝ) (l : Fin s.cons.length → ℝ) (h' : Heap XR),
    SameRefs h r.pre ∧ FiniteSketch r.pre s ∧ SameRefs h r.post ∧ FiniteSketch r.post s ∧
    getJacobian r.pre s = .ok (mat J, h') ∧ getData r.pre s = vec x ∧ getLossPerConstraint r.pre s = vec l ∧
    pinv (mat (nrm J)) eps = .ok (mat P) ∧ getData r.post s = vec (x - σ • (P *ᵥ (Jᵀ *ᵥ l)))

theorem newtonLoop_steps {h : Heap XR} {s : Sketch} (hn : s.cells.Nodup) (hc : Closed ⟨h, s⟩) {pinv : PInv XR}
    (hp : RealPInv pinv) (ml eps : XR) (σ : ℝ) (nrm : Nat → List (List XR) → List (List XR))
    (nrmR : Matrix (Fin s.cons.length) (Fin (getNDofs h s)) ℝ → Matrix (Fin (getNDofs h s)) (Fin (getNDofs h s)) ℝ)
    (hnrm : ∀ J, nrm (getNDofs h s) (mat J) = mat (nrmR J)) (k : Nat) (ls : XR) (h1 : Heap XR) (r1 : SameRefs h h1)
    (hf : FiniteSketch h1 s) :
    ∀ r ∈ (newtonLoop pinv ml (fin σ) eps nrm s k ls h1).steps, NewtonStep pinv eps σ h s nrmR r := by
  induction k generalizing ls h1 with
  | zero => intro r hr; simp [newtonLoop] at hr
  | succ k ih =>
    intro r hr
    have hc1 := hc.sameRefs r1
    unfold newtonLoop at hr
    by_cases hls : gt ls ml = true
    · rw [if_pos hls] at hr
      have hnd : getNDofs h1 s = getNDofs h s := getNDofs_congr h h1 s
      have hl : (getData h1 s).length = getNDofs h s := (getData_length h1 s).trans hnd
      obtain ⟨x, ex⟩ := exists_vec' (List.all_eq_true.2 hf.1) hl
      obtain ⟨l, el⟩ := losses_vec hc1 hf
      cases ej : getJacobian h1 s with
      | error h2 => rw [ej] at hr; simp at hr
      | ok q =>
        obtain ⟨jac, h2⟩ := q
        have hJ := getJacobian_mat hc1 hf ej
        rw [hnd] at hJ
        obtain ⟨J, rfl⟩ := hJ
        have g2 : GradOnly h1 h2 := by have := getJacobian_gradOnly h1 s; rwa [ej] at this
        rw [ej] at hr
        dsimp only at hr
        rw [hl, hnrm] at hr
        cases ep : pinv (mat (nrmR J)) eps with
        | panic => rw [ep] at hr; simp at hr
        | err => rw [ep] at hr; simp at hr
        | ok m =>
          obtain ⟨P, rfl⟩ := hp _ _ _ _ ep
          rw [ep] at hr
          dsimp only at hr
          have eu : (matVec (matMul (mat J).length (mat P) (transpose (getNDofs h s) (mat J)))
              (getLossPerConstraint h1 s)).map (· * fin σ) = vec (σ • (P *ᵥ (Jᵀ *ᵥ l))) := by
            have : (mat J).length = s.cons.length := by simp [mat]
            rw [this, transpose_mat, matMul_mat, el, matVec_mat, mulVec_mulVec]
            unfold vec
            rw [List.map_ofFn]
            congr 1; funext i
            simp only [Function.comp, mul_fin, Pi.smul_apply, smul_eq_mul, mul_comm]
          rw [eu, ex, vsub_vec] at hr
          have hok := (C14_ok_iff h2 s hn (vec (x - σ • (P *ᵥ (Jᵀ *ᵥ l))))).2 ⟨by
              rw [length_vec]; exact (getNDofs_congr h2 h s), by
              intro y hy; obtain ⟨i, rfl⟩ := List.mem_ofFn.1 hy; rfl⟩
          obtain ⟨h3, e3⟩ := hok
          rw [e3] at hr
          dsimp only at hr
          have d3 := C12_roundtrip h2 h3 s _ hn e3
          have r3 : SameRefs h2 h3 := by have := (C14_frame h2 s (vec (x - σ • (P *ᵥ (Jᵀ *ᵥ l))))).1; rwa [e3] at this
          have r3' : SameRefs h h3 := r1.trans (g2.1.trans r3)
          have hf3 : FiniteSketch h3 s := by
            refine ⟨?_, ?_⟩
            · rw [d3]; intro y hy; obtain ⟨i, rfl⟩ := List.mem_ofFn.1 hy; rfl
            · intro k hk; rw [(g2.1.trans r3).cons]; exact hf.2 k hk
          rcases List.mem_cons.1 hr with rfl | hr
          · exact ⟨J, P, x, l, h2, r1, hf, r3', hf3, ej, ex, el, ep, d3⟩
          · exact ih _ h3 r3' hf3 r hr
    · rw [if_neg hls] at hr; simp at hr

/-- an iteration whose Jacobian and pseudo-inverse are known makes a step -/
theorem newtonLoop_succ {h : Heap XR} {s : Sketch} (hn : s.cells.Nodup) (hc : Closed ⟨h, s⟩) (hf : FiniteSketch h s)
    {pinv : PInv XR} {ml eps ls : XR} {σ : ℝ} {nrm : Nat → List (List XR) → List (List XR)}
    {J : Matrix (Fin s.cons.length) (Fin (getNDofs h s)) ℝ} {P : Matrix (Fin (getNDofs h s)) (Fin (getNDofs h s)) ℝ}
    {h2 : Heap XR} (k : Nat) (hls : gt ls ml = true) (ej : getJacobian h s = .ok (mat J, h2))
    (ep : pinv (nrm (getNDofs h s) (mat J)) eps = .ok (mat P)) :
    ∃ h3, (newtonLoop pinv ml (fin σ) eps nrm s (k + 1) ls h).steps = ⟨h, fin σ, h3, []⟩ ::
      (newtonLoop pinv ml (fin σ) eps nrm s k (sumL (getLossPerConstraint h s)) h3).steps := by
  obtain ⟨x, ex⟩ := exists_vec' (List.all_eq_true.2 hf.1) (getData_length h s)
  obtain ⟨l, el⟩ := losses_vec hc hf
  rw [newtonLoop, if_pos hls, ej]
  dsimp only
  rw [getData_length, ep]
  dsimp only
  have eu : (matVec (matMul (mat J).length (mat P) (transpose (getNDofs h s) (mat J)))
      (getLossPerConstraint h s)).map (· * fin σ) = vec (σ • (P *ᵥ (Jᵀ *ᵥ l))) := by
    have : (mat J).length = s.cons.length := by simp [mat]
    rw [this, transpose_mat, matMul_mat, el, matVec_mat, mulVec_mulVec]
    unfold vec
    rw [List.map_ofFn]
    congr 1; funext i
    simp only [Function.comp, mul_fin, Pi.smul_apply, smul_eq_mul, mul_comm]
  rw [eu, ex, vsub_vec]
  have hok := (C14_ok_iff h2 s hn (vec (x - σ • (P *ᵥ (Jᵀ *ᵥ l))))).2 ⟨by
      rw [length_vec]; exact (getNDofs_congr h2 h s), by
      intro y hy; obtain ⟨i, rfl⟩ := List.mem_ofFn.1 hy; rfl⟩
  obtain ⟨h3, e3⟩ := hok
  rw [e3]
  exact ⟨h3, rfl⟩

/-- without equal-length constraints and with a pseudo-inverse that always answers, the loop returns `Ok` -/
theorem newtonLoop_ok {h : Heap XR} {s : Sketch} (hn : s.cells.Nodup) (hc : Closed ⟨h, s⟩) {pinv : PInv XR}
    (hp : GoodPInv pinv) (ml eps : XR) (σ : ℝ) (nrm : Nat → List (List XR) → List (List XR))
    (nrmR : Matrix (Fin s.cons.length) (Fin (getNDofs h s)) ℝ → Matrix (Fin (getNDofs h s)) (Fin (getNDofs h s)) ℝ)
    (hnrm : ∀ J, nrm (getNDofs h s) (mat J) = mat (nrmR J)) (hpos : 0 < getNDofs h s)
    (hk : ∀ k ∈ s.cons, ∀ l m, h.cons k ≠ .eqLen l m) (k : Nat) (ls : XR) (h1 : Heap XR) (r1 : SameRefs h h1)
    (hf : FiniteSketch h1 s) : (newtonLoop pinv ml (fin σ) eps nrm s k ls h1).res = .ok := by
  induction k generalizing ls h1 with
  | zero => rfl
  | succ k ih =>
    have hc1 := hc.sameRefs r1
    unfold newtonLoop
    by_cases hls : gt ls ml = true
    · rw [if_pos hls]
      have hnd : getNDofs h1 s = getNDofs h s := getNDofs_congr h h1 s
      have hl : (getData h1 s).length = getNDofs h s := (getData_length h1 s).trans hnd
      obtain ⟨x, ex⟩ := exists_vec' (List.all_eq_true.2 hf.1) hl
      obtain ⟨l, el⟩ := losses_vec hc1 hf
      have hdeg : ∀ k ∈ s.cons, ¬DegenerateEqLen h1 (h1.cons k) := by
        intro k hk' hd
        have := hk k hk'
        rw [r1.cons] at hd
        generalize h.cons k = c at *
        cases c <;> first | exact hd | exact this _ _ rfl
      obtain ⟨A, -⟩ := jacobianRows_exact h1 s s.cons h1 (.refl h1) (hf.cons hc1)
      obtain ⟨h2, g2, e2⟩ := A hdeg
      have ej : ∃ jac, getJacobian h1 s = .ok (jac, h2) := ⟨_, by unfold getJacobian; exact e2⟩
      obtain ⟨jac, ej⟩ := ej
      have hJ := getJacobian_mat hc1 hf ej
      rw [hnd] at hJ
      obtain ⟨J, rfl⟩ := hJ
      rw [ej]
      dsimp only
      rw [hl, hnrm]
      obtain ⟨P, ep⟩ := hp _ (nrmR J) eps hpos
      rw [ep]
      dsimp only
      have eu : (matVec (matMul (mat J).length (mat P) (transpose (getNDofs h s) (mat J)))
          (getLossPerConstraint h1 s)).map (· * fin σ) = vec (σ • (P *ᵥ (Jᵀ *ᵥ l))) := by
        have : (mat J).length = s.cons.length := by simp [mat]
        rw [this, transpose_mat, matMul_mat, el, matVec_mat, mulVec_mulVec]
        unfold vec
        rw [List.map_ofFn]
        congr 1; funext i
        simp only [Function.comp, mul_fin, Pi.smul_apply, smul_eq_mul, mul_comm]
      rw [eu, ex, vsub_vec]
      have hok := (C14_ok_iff h2 s hn (vec (x - σ • (P *ᵥ (Jᵀ *ᵥ l))))).2 ⟨by
          rw [length_vec]; exact (getNDofs_congr h2 h s), by
          intro y hy; obtain ⟨i, rfl⟩ := List.mem_ofFn.1 hy; rfl⟩
      obtain ⟨h3, e3⟩ := hok
      rw [e3]
      dsimp only
      have d3 := C12_roundtrip h2 h3 s _ hn e3
      have r3 : SameRefs h2 h3 := by have := (C14_frame h2 s (vec (x - σ • (P *ᵥ (Jᵀ *ᵥ l))))).1; rwa [e3] at this
      refine ih _ h3 (r1.trans (g2.1.trans r3)) ⟨?_, ?_⟩
      · rw [d3]; intro y hy; obtain ⟨i, rfl⟩ := List.mem_ofFn.1 hy; rfl
      · intro k hk; rw [(g2.1.trans r3).cons]; exact hf.2 k hk
    · rw [if_neg hls]

end Isotope
