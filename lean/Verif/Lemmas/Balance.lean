import Verif.SpecBalance
import Verif.Lemmas.Still
import Verif.Lemmas.NearestNewton

/-!
# A linear form that no force changes
-/

namespace Isotope
open XR
open Matrix

/-- the linear form with the coefficients `n` -/
def form (L : List Dof) (n f : Dof → ℝ) : ℝ := (L.map fun d => n d * f d).sum

section
variable {L : List Dof} {n : Dof → ℝ}

theorem form_add (f g : Dof → ℝ) : form L n (fun d => f d + g d) = form L n f + form L n g := by
  unfold form
  rw [← List.sum_map_add]
  exact congrArg List.sum (List.map_congr_left fun d _ => mul_add _ _ _)

theorem form_mul (r : ℝ) (f : Dof → ℝ) : form L n (fun d => r * f d) = r * form L n f := by
  unfold form
  rw [← List.sum_map_mul_left]
  exact congrArg List.sum (List.map_congr_left fun d _ => by ring)

theorem form_congr {f g : Dof → ℝ} (e : ∀ d ∈ L, f d = g d) : form L n f = form L n g :=
  congrArg List.sum (List.map_congr_left fun d hd => by rw [e d hd])

theorem form_sum {α : Type} (l : List α) (f : α → Dof → ℝ) : form L n (fun d => (l.map fun a => f a d).sum) = (l.map fun a => form L n (f a)).sum := by
  induction l with
  | nil => simp [form]
  | cons a l ih => simp only [List.map_cons, List.sum_cons, form_add, ih]

/-- a real vector on which the form has the given value, twice -/
def BalV (L : List Dof) (n : Dof → ℝ) (W : ℝ) (v v' : List XR) : Prop :=
  v = v' ∧ ∃ f : Dof → ℝ, v = L.map (fun d => fin (f d)) ∧ form L n f = W

/-- a real matrix that keeps the form, twice -/
def BalM (L : List Dof) (n : Dof → ℝ) (A A' : List (List XR)) : Prop :=
  A = A' ∧ ∃ m : Dof → Dof → ℝ, A = L.map (fun d => L.map (fun e => fin (m d e))) ∧ ∀ e ∈ L, form L n (fun d => m d e) = n e

theorem BalV.scale {a a' : List XR} {k : XR} (hk : ∃ r, k = fin r) (w : BalV L n 0 a a') : BalV L n 0 (vscale k a) (vscale k a') := by
  obtain ⟨rfl, f, rfl, e⟩ := w
  obtain ⟨r, rfl⟩ := hk
  exact ⟨rfl, fun d => r * f d, by simp [vscale], by rw [form_mul, e, mul_zero]⟩

theorem BalV.mul {a a' : List XR} {k : XR} (hk : ∃ r, k = fin r) (w : BalV L n 0 a a') : BalV L n 0 (a.map (· * k)) (a'.map (· * k)) := by
  obtain ⟨rfl, f, rfl, e⟩ := w
  obtain ⟨r, rfl⟩ := hk
  exact ⟨rfl, fun d => r * f d, by simp [mul_comm], by rw [form_mul, e, mul_zero]⟩

theorem BalV.neg {a a' : List XR} (w : BalV L n 0 a a') : BalV L n 0 (vneg a) (vneg a') := by
  obtain ⟨rfl, f, rfl, e⟩ := w
  exact ⟨rfl, fun d => (-1) * f d, by simp [vneg], by rw [form_mul, e, mul_zero]⟩

theorem BalV.add {W : ℝ} {x x' d d' : List XR} (w : BalV L n W x x') (w' : BalV L n 0 d d') : BalV L n W (vadd x d) (vadd x' d') := by
  obtain ⟨rfl, f, rfl, e⟩ := w
  obtain ⟨rfl, g, rfl, e'⟩ := w'
  exact ⟨rfl, fun d => f d + g d, by simp [vadd], by rw [form_add, e, e', add_zero]⟩

theorem BalV.sub {W : ℝ} {x x' d d' : List XR} (w : BalV L n W x x') (w' : BalV L n 0 d d') : BalV L n W (vsub x d) (vsub x' d') := by
  obtain ⟨rfl, f, rfl, e⟩ := w
  obtain ⟨rfl, g, rfl, e'⟩ := w'
  exact ⟨rfl, fun d => f d + (-1) * g d, by simp [vsub, sub_eq_add_neg], by rw [form_add, form_mul, e, e', mul_zero, add_zero]⟩

theorem BalV.axpy {W : ℝ} {x x' d d' : List XR} {k : XR} (hk : ∃ r, k = fin r) (w : BalV L n W x x') (w' : BalV L n 0 d d') :
    BalV L n W (Isotope.axpy x k d) (Isotope.axpy x' k d') := by
  obtain ⟨rfl, f, rfl, e⟩ := w
  obtain ⟨rfl, g, rfl, e'⟩ := w'
  obtain ⟨r, rfl⟩ := hk
  refine ⟨rfl, fun d => r * g d + 1 * f d, ?_, by rw [form_add, form_mul, form_mul, e, e', mul_zero, zero_add, one_mul]⟩
  simp only [Isotope.axpy, zip_maps, one_lit, mul_fin, add_fin]

theorem BalM.one (hn : L.Nodup) : BalM L n (identity L.length) (identity L.length) := by
  refine ⟨rfl, fun d e => if d = e then 1 else 0, ?_, fun e he => ?_⟩
  · rw [identity_table hn]
    refine List.map_congr_left fun d _ => List.map_congr_left fun e _ => ?_
    dsimp only
    split
    · exact one_lit
    · exact zero_lit
  · unfold form
    have : (L.map fun d => n d * (if d = e then 1 else 0)) = L.map fun d => if d = e then n e else 0 :=
      List.map_congr_left fun d _ => by
        split
        · rename_i q; rw [q, mul_one]
        · rw [mul_zero]
    rw [this, List.sum_map_ite_eq, List.count_eq_one_of_mem hn he, one_smul]
    simp

theorem bal_mulVec {m : Dof → Dof → ℝ} {r : ℝ} (hm : ∀ e ∈ L, form L n (fun d => m d e) = r * n e) {g g' : List XR} (w' : BalV L n 0 g g') :
    BalV L n 0 (matVec (L.map fun d => L.map fun e => fin (m d e)) g) (matVec (L.map fun d => L.map fun e => fin (m d e)) g') := by
  obtain ⟨rfl, f, rfl, e⟩ := w'
  refine ⟨rfl, fun d => (L.map fun e => m d e * f e).sum, ?_, ?_⟩
  · rw [matVec_table L L (fun d e => fin (m d e)) fun d => fin (f d)]
    exact List.map_congr_left fun d _ => fins_dot ..
  · rw [form_sum L fun e d => m d e * f e]
    have : (L.map fun e => form L n fun d => m d e * f e) = L.map fun e => r * (n e * f e) := List.map_congr_left fun e he => by
      have : form L n (fun d => m d e * f e) = form L n fun d => f e * m d e := form_congr fun d _ => mul_comm _ _
      rw [this, form_mul, hm e he]; ring
    rw [this, List.sum_map_mul_left]
    unfold form at e
    rw [e, mul_zero]

theorem BalM.mulVec {A A' : List (List XR)} {g g' : List XR} (w : BalM L n A A') (w' : BalV L n 0 g g') :
    BalV L n 0 (matVec A g) (matVec A' g') := by
  obtain ⟨rfl, m, rfl, hm⟩ := w
  exact bal_mulVec (r := 1) (fun e he => by rw [hm e he, one_mul]) w'

theorem BalM.dir {A A' : List (List XR)} {g g' : List XR} (w : BalM L n A A') (w' : BalV L n 0 g g') :
    BalV L n 0 (matVec (matNeg A) g) (matVec (matNeg A') g') := by
  obtain ⟨rfl, m, rfl, hm⟩ := w
  have e : matNeg (L.map fun d => L.map fun e => fin (m d e)) = L.map fun d => L.map fun e => fin ((-1) * m d e) := by
    simp [matNeg, vneg]
  rw [e]
  exact bal_mulVec (r := -1) (fun e he => by rw [form_mul, hm e he]) w'

theorem BalM.ger {A A' : List (List XR)} {x x' y y' : List XR} {k : XR} (hk : ∃ r, k = fin r) (w : BalM L n A A') (wx : BalV L n 0 x x')
    (wy : BalV L n 0 y y') : BalM L n (Isotope.ger A k x y) (Isotope.ger A' k x' y') := by
  obtain ⟨rfl, m, rfl, hm⟩ := w
  obtain ⟨rfl, f, rfl, hf⟩ := wx
  obtain ⟨rfl, g, rfl, hg⟩ := wy
  obtain ⟨r, rfl⟩ := hk
  refine ⟨rfl, fun d e => (r * g e) * f d + 1 * m d e, ?_, fun e he => ?_⟩
  · simp only [Isotope.ger, zip_maps, one_lit, mul_fin, add_fin]
  · rw [form_add, form_mul, form_mul, hf, hm e he, mul_zero, zero_add, one_mul]

theorem BalM.upd {A A' : List (List XR)} {st st' y y' : List XR} (w : BalM L n A A') (ws : BalV L n 0 st st')
    (wy : BalV L n 0 y y') : BalM L n (bfgsUpdate A st y) (bfgsUpdate A' st' y') := by
  have hh := w.mulVec wy
  obtain rfl := ws.1
  obtain rfl := wy.1
  obtain rfl := w.1
  have hsy : ∃ r, guardedSy st y = fin r ∧ r ≠ 0 := by
    obtain ⟨-, f, rfl, -⟩ := ws
    obtain ⟨-, g, rfl, -⟩ := wy
    have := guardedSy_vec (fun i : Fin L.length => f L[i]) (fun i => g L[i])
    rw [← map_vec fun _ _ => rfl, ← map_vec fun _ _ => rfl] at this
    exact ⟨_, this, rhoOf_ne _ _⟩
  have hyh : ∃ r, dotV y (matVec A y) = fin r := by
    obtain ⟨-, f, e1, -⟩ := hh
    obtain ⟨-, g, e2, -⟩ := wy
    rw [dotV_eq, e1, e2, fins_dot]
    exact ⟨_, rfl⟩
  unfold bfgsUpdate
  dsimp only
  obtain ⟨r, er, hr⟩ := hsy
  obtain ⟨v, ev⟩ := hyh
  rw [er, ev, one_lit, neg_fin, div_fin_of_ne _ hr, mul_fin, add_fin, div_fin_of_ne _ (mul_ne_zero hr hr)]
  exact BalM.ger ⟨_, rfl⟩ (BalM.ger ⟨_, rfl⟩ (BalM.ger ⟨_, rfl⟩ w ws ws) hh ws) ws hh

end

variable {h0 : Heap XR} {s : Sketch} {n : Dof → ℝ}

/-- the value of the form at the coordinates -/
noncomputable def formAt (s : Sketch) (n : Dof → ℝ) (h : Heap XR) : ℝ := form s.dofs n fun d => (val h d).toReal

/-- no force of a constraint changes the form -/
def Neutral (h0 : Heap XR) (s : Sketch) (n : Dof → ℝ) : Prop :=
  ∀ h, SameRefs h0 h → FiniteSketch h s → ∀ k ∈ s.cons, ¬DegenerateEqLen h (h.cons k) → form s.dofs n (total (contribs h (h.cons k))) = 0

/-- a heap during the run, twice -/
structure Bal (h0 : Heap XR) (s : Sketch) (n : Dof → ℝ) (h h' : Heap XR) : Prop where
  same : h = h'
  refs : SameRefs h0 h
  finite : FiniteSketch h s
  value : formAt s n h = formAt s n h0

theorem Bal.grad {h h' : Heap XR} (w : Bal h0 s n h h) (g : GradOnly h h') : Bal h0 s n h' h' where
  same := rfl
  refs := w.refs.trans g.1
  finite := ⟨by rw [g.getData]; exact w.finite.1, by rw [g.1.cons]; exact w.finite.2⟩
  value := by
    rw [← w.value]
    exact form_congr fun d _ => by rw [g.val]

theorem Bal.data {h h' : Heap XR} (w : Bal h0 s n h h') : BalV s.dofs n (formAt s n h0) (getData h s) (getData h' s) := by
  obtain rfl := w.same
  refine ⟨rfl, fun d => (val h d).toReal, ?_, w.value⟩
  rw [getData_dofs]
  exact List.map_congr_left fun d hd => val_real w.finite hd

theorem Bal.set (hn : s.cells.Nodup) {h h' : Heap XR} (w : Bal h0 s n h h') {d d' : List XR} (hd : BalV s.dofs n (formAt s n h0) d d') :
    BothE (Bal h0 s n) (fun _ _ => True) (setData h s d) (setData h' s d') := by
  obtain rfl := w.same
  obtain ⟨rfl, f, rfl, e⟩ := hd
  obtain ⟨h3, e3, r3, v3, o3⟩ := set_vec hn h (fun i => f s.dofs[i])
  rw [map_vec fun _ _ => rfl, e3]
  have v3' : ∀ d ∈ s.dofs, val h3 d = fin (f d) := by
    intro d hd
    obtain ⟨i, hi, rfl⟩ := List.getElem_of_mem hd
    exact v3 ⟨i, hi⟩
  refine .ok ⟨rfl, w.refs.trans r3, ⟨?_, by rw [r3.cons]; exact w.finite.2⟩, ?_⟩
  · intro y hy
    rw [getData_dofs] at hy
    obtain ⟨d, hd, rfl⟩ := List.mem_map.1 hy
    rw [v3' d hd]; rfl
  · rw [← e]
    exact form_congr fun d hd => by rw [v3' d hd, toReal_fin]

variable (hn : s.cells.Nodup) (hc : s.Covers h0) (nt : Neutral h0 s n)

include hc nt in
theorem Bal.gradient {h h' : Heap XR} (w : Bal h0 s n h h') :
    BothG (Bal h0 s n) (fun _ _ => True) (BalV s.dofs n 0) (getGradient h s) (getGradient h' s) := by
  obtain rfl := w.same
  have cu := hc.sameRefs w.refs
  obtain ⟨A, B⟩ := getGradient_exact h s (cu.finite w.finite)
  by_cases hd : ∃ k ∈ s.cons, DegenerateEqLen h (h.cons k)
  · obtain ⟨h3, e3⟩ := B hd
    rw [e3]
    exact .error trivial
  · obtain ⟨h3, g3, -, e3⟩ := A fun k hk q => hd ⟨k, hk, q⟩
    rw [e3]
    refine .ok ⟨rfl, _, rfl, ?_⟩ (w.grad g3)
    have : form s.dofs n (total (s.cons.flatMap fun k => contribs h (h.cons k))) =
        form s.dofs n fun d => (s.cons.map fun k => total (contribs h (h.cons k)) d).sum := form_congr fun d _ => total_flatMap ..
    rw [this, form_sum s.cons fun k d => total (contribs h (h.cons k)) d]
    refine List.sum_eq_zero fun x hx => ?_
    obtain ⟨k, hk, rfl⟩ := List.mem_map.1 hx
    exact nt h w.refs w.finite k hk fun q => hd ⟨k, hk, q⟩

include hn hc nt in
theorem alikeM_bal : AlikeM s s (Bal h0 s n) (fun _ _ => True) (BalV s.dofs n (formAt s n h0)) (BalV s.dofs n 0)
    (BalM s.dofs n) (fun k => ∃ r, k = fin r) s.dofs.length s.dofs.length where
  first := ⟨1, one_lit⟩
  shorter := by rintro _ ⟨r, rfl⟩; rw [sci]; exact ⟨_, rfl⟩
  longer := by rintro _ ⟨r, rfl⟩; rw [sci]; exact ⟨_, rfl⟩
  imp := fun _ => trivial
  data := fun w => w.data
  set := fun w hd => w.set hn hd
  loss := fun w => by rw [w.same]
  grad := fun w => w.gradient hc nt
  dot := fun a b => by rw [a.1, b.1]
  neg := fun a => a.neg
  add := fun _ hk a b => a.add (b.scale hk)
  axpy := fun _ hk a b => a.axpy hk b
  one := .one (Sketch.dofs_nodup hn)
  dir := fun a b => a.dir b
  upd := fun a b c => a.upd b c
  fin := fun a => by rw [a.1]
  norm := fun a _ => by rw [a.1]
  scale := fun _ hk a => a.scale hk
  sub := fun a b => a.sub b

include hn hc nt in
theorem alikeN_bal {pinv : PInv XR} (hp : CutPInv pinv) {ε β : ℝ} (hε : 0 ≤ ε) (hβ : 0 ≤ β) (hne : s.dofs ≠ [])
    {normal : Nat → List (List XR) → List (List XR)}
    (hN : ∀ (n m : Nat) (J : Matrix (Fin m) (Fin n) ℝ), normal n (mat J) = mat (Jᵀ * J + β • 1)) :
    AlikeN s s (Bal h0 s n) (fun _ _ => True) (BalV s.dofs n (formAt s n h0)) (BalV s.dofs n 0)
      (fun k => ∃ r, k = fin r) pinv (fin ε) normal s.dofs.length s.dofs.length where
  toAlike := (alikeM_bal hn hc nt).toAlike
  length := fun _ => ⟨by rw [getData_dofs, List.length_map], by rw [getData_dofs, List.length_map]⟩
  sub := fun _ hk a b => a.sub (b.mul hk)
  losses := fun w => by rw [w.same]
  jac := by
    intro h h' w
    obtain rfl := w.same
    have cu := hc.sameRefs w.refs
    obtain ⟨A, B⟩ := jacobianRows_exact h s s.cons h (.refl h) (cu.finite w.finite)
    unfold getJacobian
    by_cases hd : ∃ k ∈ s.cons, DegenerateEqLen h (h.cons k)
    · obtain ⟨h3, e3⟩ := B hd
      rw [e3]
      exact .error trivial
    · obtain ⟨h3, g3, e3⟩ := A fun k hk q => hd ⟨k, hk, q⟩
      rw [e3]
      refine .ok ?_ (w.grad g3)
      have tab : (s.cons.map fun k => s.dofs.map fun d => fin (total (contribs h (h.cons k)) d)) =
          mat (Matrix.of fun (i : Fin s.cons.length) (j : Fin s.dofs.length) => total (contribs h (h.cons s.cons[i])) s.dofs[j]) := by
        unfold mat vec
        refine List.ext_getElem (by simp) fun i a1 a2 => ?_
        rw [List.getElem_map, List.getElem_ofFn]
        refine List.ext_getElem (by simp) fun j a3 a4 => ?_
        rw [List.getElem_map, List.getElem_ofFn]
        rfl
      rw [tab]
      generalize eJ : (Matrix.of fun (i : Fin s.cons.length) (j : Fin s.dofs.length) => total (contribs h (h.cons s.cons[i])) s.dofs[j]) = J
      have psd : ∀ x, 0 ≤ x ⬝ᵥ ((Jᵀ * J + β • (1 : Matrix (Fin s.dofs.length) (Fin s.dofs.length) ℝ)) *ᵥ x) := fun x => by
        rw [Matrix.add_mulVec, dotProduct_add, gram_form, Matrix.smul_mulVec, Matrix.one_mulVec, dotProduct_smul, smul_eq_mul]
        have := dot_self_nonneg (J *ᵥ x)
        have := mul_nonneg hβ (dot_self_nonneg x)
        linarith
      obtain ⟨P, eP, hP⟩ := hp _ _ ε (List.length_pos_iff.2 hne) (lm_symm J β) psd hε
      rw [hN, eP]
      dsimp only
      have ln : ∀ {m n : Nat} (B : Matrix (Fin m) (Fin n) ℝ), (mat B).length = m := fun B => by simp [mat]
      rw [ln, transpose_mat, matMul_mat, losses_covered cu w.finite, matVec_mat, ← mulVec_mulVec]
      generalize (fun i : Fin s.cons.length => (lossValue h (h.cons s.cons[i])).toReal) = l
      -- the form vanishes on the rows of the Jacobian
      have dotForm : ∀ f : Dof → ℝ, (fun i : Fin s.dofs.length => f s.dofs[i]) ⬝ᵥ (fun i : Fin s.dofs.length => n s.dofs[i]) = form s.dofs n f := by
        intro f
        unfold form dotProduct
        rw [← List.sum_ofFn]
        congr 1
        refine List.ext_getElem (by simp) fun i a1 a2 => ?_
        simp [mul_comm]
      have hJ : J *ᵥ (fun i : Fin s.dofs.length => n s.dofs[i]) = 0 := by
        funext i
        rw [← eJ]
        exact (dotForm _).trans (nt h w.refs w.finite _ (List.getElem_mem _) fun q => hd ⟨_, List.getElem_mem _, q⟩)
      have hu : (Jᵀ * J + β • 1) *ᵥ (fun i : Fin s.dofs.length => n s.dofs[i]) = β • fun i : Fin s.dofs.length => n s.dofs[i] := by
        rw [Matrix.add_mulVec, ← mulVec_mulVec, hJ, mulVec_zero, zero_add, Matrix.smul_mulVec, Matrix.one_mulVec]
      have key := scaled_symm (lm_symm J β) (f := fun w => if ε < w then w⁻¹ else 0) hP hu (Jᵀ *ᵥ l)
      have z : (Jᵀ *ᵥ l) ⬝ᵥ (fun i : Fin s.dofs.length => n s.dofs[i]) = 0 := by
        rw [mulVec_transpose, ← dotProduct_mulVec, hJ, dotProduct_zero]
      rw [z, mul_zero] at key
      generalize P *ᵥ (Jᵀ *ᵥ l) = v at key
      obtain ⟨f, rfl⟩ := exists_fn hn v
      exact ⟨rfl, f, (map_vec fun _ _ => rfl).symm, (dotForm f).symm.trans key⟩

include hn hc nt in
/-- all four solvers -/
theorem bal_run {pinv : PInv XR} (hp : CutPInv pinv) {k : SolverKind XR} (hk : k.Exact) (hne : s.dofs ≠ []) (hf : FiniteSketch h0 s) :
    Conserves (formAt s n) h0 (runSolver pinv k h0 s) := by
  have R : Bal h0 s n h0 h0 := ⟨rfl, .refl h0, hf, rfl⟩
  have a := alikeM_bal hn hc nt
  have fin : ∀ {M : List (List XR) → List (List XR) → Prop} {o : SolveOut XR}, SameRun (Bal h0 s n) (fun _ _ => True) M o o →
      Conserves (formAt s n) h0 o := fun q => ⟨fun e => (q.heap e).value, fun st hst => by
    have := List.forall₂_same.1 q.steps st hst
    exact ⟨this.1.value, this.2.2.1.value⟩⟩
  cases k with
  | gd p => exact fin (a.toAlike.gd (M := fun _ _ => True) trivial p R)
  | bfgs p => exact fin (a.bfgs p R (by rw [getData_dofs, List.length_map]) (by rw [getData_dofs, List.length_map]))
  | gn p =>
    obtain ⟨⟨σ, hσ⟩, ε, hε, h1⟩ := hk
    simp only [runSolver, gnSolve]
    rw [hσ, hε]
    exact fin ((alikeN_bal hn hc nt hp h1 le_rfl hne
      (fun n m J => by rw [gnNormal_mat, zero_smul, add_zero])).newton (M := fun _ _ => True) trivial _ ⟨σ, rfl⟩ _ _ R)
  | lm p =>
    obtain ⟨⟨σ, hσ⟩, ⟨ε, hε, h1⟩, β, hβ, h2⟩ := hk
    simp only [runSolver, lmSolve]
    rw [hσ, hε, hβ]
    exact fin ((alikeN_bal hn hc nt hp h1 h2 hne (fun n m J => lmNormal_mat β J)).newton (M := fun _ _ => True) trivial _ ⟨σ, rfl⟩ _ _ R)

end Isotope
