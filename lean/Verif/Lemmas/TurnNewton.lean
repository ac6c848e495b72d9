import Verif.Lemmas.TurnRun

/-!
# Turning a sketch: BFGS and the Newton solvers
-/

namespace Isotope
open XR
open Matrix

variable {t : Turn} {h h1 h' : Heap XR} {s : Sketch} (hn : s.cells.Nodup)
include hn

/-! ## BFGS -/

theorem turnMat_form (B : Matrix (Fin s.dofs.length) (Fin s.dofs.length) ℝ) (x : Fin s.dofs.length → ℝ) :
    (turnMat t s * B * (turnMat t s)ᵀ) *ᵥ (turnMat t s *ᵥ x) = turnMat t s *ᵥ (B *ᵥ x) := by
  rw [mulVec_mulVec, Matrix.mul_assoc, turnMat_left t hn, Matrix.mul_one, ← mulVec_mulVec]

theorem TurnM.one : TurnM t s (identity s.dofs.length) (identity s.dofs.length) :=
  ⟨1, identity_mat, by rw [Matrix.mul_one, turnMat_right t hn]; exact identity_mat⟩

theorem TurnM.dir {H H' : List (List XR)} {g g' : List XR} (hH : TurnM t s H H') (hg : TurnV t s g g') :
    TurnV t s (matVec (matNeg H) g) (matVec (matNeg H') g') := by
  obtain ⟨B, rfl, rfl⟩ := hH
  obtain ⟨x, rfl, rfl⟩ := hg
  refine ⟨-B *ᵥ x, by rw [matNeg_mat, matVec_mat], ?_⟩
  rw [matNeg_mat, matVec_mat, neg_mulVec, turnMat_form hn, neg_mulVec, mulVec_neg]

theorem TurnM.upd {H H' : List (List XR)} {st st' y y' : List XR} (hH : TurnM t s H H') (hs : TurnV t s st st') (hy : TurnV t s y y') :
    TurnM t s (bfgsUpdate H st y) (bfgsUpdate H' st' y') := by
  obtain ⟨B, rfl, rfl⟩ := hH
  obtain ⟨x, rfl, rfl⟩ := hs
  obtain ⟨y, rfl, rfl⟩ := hy
  refine ⟨_, bfgsUpdate_mat .., ?_⟩
  rw [bfgsUpdate_mat]
  have hρ : rhoOf (turnMat t s *ᵥ x) (turnMat t s *ᵥ y) = rhoOf x y := by unfold rhoOf; rw [turnMat_dot t hn]
  rw [hρ]
  unfold updR
  rw [turnMat_form hn, turnMat_dot t hn]
  have hv : ∀ a b : Fin s.dofs.length → ℝ, vecMulVec (turnMat t s *ᵥ a) (turnMat t s *ᵥ b) = turnMat t s * vecMulVec a b * (turnMat t s)ᵀ := by
    intro a b
    rw [mul_vecMulVec, vecMulVec_mul, vecMul_transpose]
  rw [hv, hv, hv]
  simp only [Matrix.mul_add, Matrix.add_mul, Matrix.mul_smul, Matrix.smul_mul]

omit hn in
theorem vec_finite {n : Nat} (x : Fin n → ℝ) : (vec x).all Num.isFinite = true := by
  rw [List.all_eq_true]; intro y hy
  obtain ⟨i, rfl⟩ := List.mem_ofFn.1 hy
  rfl

omit hn in
/-- a turn by a multiple of 90 degrees exchanges the absolute values of the coordinates -/
theorem abs_cell (hq : t.Square) (f : Dof → ℝ) (c : PrimCell) :
    ((Isotope.dofs c).map (fun d => |f d|)).Perm ((Isotope.dofs c).map (fun d => |t.lin f d|)) := by
  have one : ∀ x : ℝ, x * x = 1 → |x| = 1 := fun x hx => by
    have : |x| * |x| = 1 := by rw [abs_mul_abs_self, hx]
    nlinarith [abs_nonneg x]
  have e1 := one _ t.e_sq
  cases c with
  | point p =>
    simp only [Isotope.dofs, List.map_cons, List.map_nil, Turn.lin]
    by_cases hs : t.s = 0
    · have c1 := one _ (t.flat hs)
      simp [hs, abs_mul, c1, e1]
    · obtain ⟨h1, h2⟩ := t.upright hq hs
      have s1 := one _ h2
      simp only [h1, zero_mul, mul_zero, zero_sub, add_zero, abs_neg, abs_mul, s1, e1, one_mul]
      exact .swap ..
  | line l => exact .refl _
  | arc a => simp [Isotope.dofs, Turn.lin, abs_mul, e1]
  | circle a => exact .refl _

theorem TurnV.norm (hq : t.Square) {g g' : List XR} (hg : TurnV t s g g') : uniformNorm g = uniformNorm g' := by
  obtain ⟨x, rfl, rfl⟩ := hg
  obtain ⟨f, rfl⟩ := exists_fn hn x
  rw [turnMat_mulVec t hn, ← map_vec (v := fun d => fin (f d)) (fun _ _ => rfl), ← map_vec (v := fun d => fin (t.lin f d)) (f := t.lin f) (fun _ _ => rfl)]
  have key : ∀ f : Dof → ℝ, uniformNorm (s.dofs.map (fun d => fin (f d))) = (s.dofs.map (fun d => |f d|)).foldl (fun a b => fmax a (fin b)) (0.0 : XR) := by
    intro f
    unfold uniformNorm
    rw [List.foldl_map, List.foldl_map]
    rfl
  rw [key, key]
  have p : (s.dofs.map (fun d => |f d|)).Perm (s.dofs.map (fun d => |t.lin f d|)) := by
    unfold Sketch.dofs
    induction s.cells with
    | nil => exact .refl _
    | cons c cs ih => simp only [List.flatMap_cons, List.map_append]; exact (abs_cell hq f c).append ih
  exact p.foldl_eq' (fun x _ y _ z => fmax_comm3 _ _ _) _

theorem alikeM_turn (hq : t.Square) :
    AlikeM s s (Turns t s) (fun h h' => GradOnly (h.turn t) h') (TurnD t s) (TurnV t s) (TurnM t s) (fun k => ∃ r, k = fin r) s.dofs.length s.dofs.length where
  toAlike := alike_turn hn
  one := .one hn
  dir := fun a b => a.dir hn b
  upd := fun a b c => a.upd hn b c
  fin := by rintro _ _ ⟨x, rfl, rfl⟩; rw [vec_finite, vec_finite]
  norm := fun a _ => a.norm hn hq
  scale := fun _ hk a => a.scale hk
  sub := fun a b => a.sub b

theorem TurnM.turned {A A' : List (List XR)} (w : TurnM t s A A') : TurnedM t s.dofs A A' := by
  obtain ⟨B, rfl, rfl⟩ := w
  have hnd := Sketch.dofs_nodup hn
  obtain ⟨q, hq⟩ := exists_table hnd B
  have hm : ∀ i j : Fin s.dofs.length, (q s.dofs[i] s.dofs[j]).toReal = B i j := fun i j => by rw [hq, toReal_fin]
  have hB : B = fun i j => (q s.dofs[i] s.dofs[j]).toReal := by funext i j; exact (hm i j).symm
  refine ⟨fun a b => (q a b).toReal, ((table_listed _ B).2 fun i j => congrArg fin (hm i j)).symm, ?_⟩
  refine ((table_listed (fun i j => fin (t.lin (fun a => t.lin (fun b => (q a b).toReal) j) i)) _).2 fun i j => congrArg fin ?_).symm
  rw [Matrix.mul_assoc]
  have e1 : ∀ k, (B * (turnMat t s)ᵀ) k j = t.lin (fun b => (q s.dofs[k] b).toReal) s.dofs[j] := by
    intro k
    have := congrFun (turnMat_mulVec t hn (fun b => (q s.dofs[k] b).toReal)) j
    rw [← this, Matrix.mul_apply]
    simp only [mulVec, dotProduct, transpose_apply]
    exact Finset.sum_congr rfl fun x _ => by rw [← hm k x]; ring
  have := congrFun (turnMat_mulVec t hn (fun a => t.lin (fun b => (q a b).toReal) s.dofs[j])) i
  refine this.symm.trans ?_
  rw [Matrix.mul_apply]
  simp only [mulVec, dotProduct]
  exact Finset.sum_congr rfl fun x _ => by rw [e1]

/-! ## The Newton solvers -/

theorem Turns.jacobian (w : Turns t s h h') :
    BothG (Turns t s) (fun h h' => GradOnly (h.turn t) h') (fun J J' => ∃ A : Matrix (Fin s.cons.length) (Fin s.dofs.length) ℝ,
      J = mat A ∧ J' = mat (A * (turnMat t s)ᵀ)) (getJacobian h s) (getJacobian h' s) := by
  obtain ⟨A, B⟩ := jacobianRows_exact h s s.cons h (.refl h) (w.finite.cons w.closed)
  obtain ⟨A', B'⟩ := jacobianRows_exact (h.turn t) s s.cons h' w.grad w.finite_cons
  have P := getJacobian_gradOnly h s
  have P' := getJacobian_gradOnly h' s
  unfold getJacobian at P P' ⊢
  by_cases hd : ∃ k ∈ s.cons, DegenerateEqLen h (h.cons k)
  · obtain ⟨h1, e1⟩ := B hd
    obtain ⟨k, hk, hd⟩ := hd
    obtain ⟨h2, e2⟩ := B' ⟨k, hk, (w.degenerate hk).2 hd⟩
    rw [e1] at P ⊢
    rw [e2] at P' ⊢
    exact .error (w.grads P P').grad
  · have hd : ∀ k ∈ s.cons, ¬DegenerateEqLen h (h.cons k) := fun k hk hh => hd ⟨k, hk, hh⟩
    obtain ⟨h1, g1, e1⟩ := A hd
    obtain ⟨h2, g2, e2⟩ := A' fun k hk hh => hd k hk ((w.degenerate hk).1 hh)
    rw [e1] at P ⊢
    rw [e2] at P' ⊢
    refine .ok ⟨Matrix.of fun i j => total (Isotope.contribs h (h.cons s.cons[i])) s.dofs[j], ?_, ?_⟩ (w.grads P P')
    · unfold mat
      refine List.ext_getElem (by simp) fun i h1 h2 => ?_
      rw [List.getElem_map, List.getElem_ofFn]
      exact map_vec fun _ _ => rfl
    · unfold mat
      refine List.ext_getElem (by simp) fun i h1 h2 => ?_
      rw [List.getElem_map, List.getElem_ofFn]
      have hi : i < s.cons.length := by simpa using h1
      have hk : s.cons[i] ∈ s.cons := List.getElem_mem hi
      rw [map_vec (f := t.lin (total (Isotope.contribs h (h.cons s.cons[i])))) fun d _ => congrArg fin (w.contribs hk (hd _ hk) d)]
      congr 1
      rw [← turnMat_mulVec t hn]
      funext j
      rw [Matrix.mul_apply]
      simp only [mulVec, dotProduct, transpose_apply]
      exact Finset.sum_congr rfl fun x _ => mul_comm _ _

/-- the matrix of the normal equations turns along -/
def TurnNormal (t : Turn) (s : Sketch) (normal : Nat → List (List XR) → List (List XR)) : Prop :=
  ∀ J : Matrix (Fin s.cons.length) (Fin s.dofs.length) ℝ, ∃ A : Matrix (Fin s.dofs.length) (Fin s.dofs.length) ℝ,
    normal s.dofs.length (mat J) = mat A ∧ normal s.dofs.length (mat (J * (turnMat t s)ᵀ)) = mat (turnMat t s * A * (turnMat t s)ᵀ) ∧
    Aᵀ = A ∧ ∀ x, 0 ≤ x ⬝ᵥ (A *ᵥ x)

omit hn in
theorem turn_gn : TurnNormal t s gnNormal := by
  intro J
  refine ⟨_, gnNormal_mat J, ?_, gram_symm J, fun x => by rw [gram_form]; exact dot_self_nonneg _⟩
  rw [gnNormal_mat]
  congr 1
  rw [transpose_mul, transpose_transpose]
  simp only [Matrix.mul_assoc]

theorem turn_lm {β : ℝ} (h1 : 0 ≤ β) : TurnNormal t s (lmNormal (fin β)) := by
  intro J
  refine ⟨_, lmNormal_mat β J, ?_, lm_symm J β, fun x => ?_⟩
  · rw [lmNormal_mat]
    congr 1
    rw [transpose_mul, transpose_transpose, Matrix.mul_add, Matrix.add_mul, Matrix.mul_smul, Matrix.smul_mul, Matrix.mul_one, turnMat_right t hn]
    simp only [Matrix.mul_assoc]
  · rw [Matrix.add_mulVec, dotProduct_add, gram_form, Matrix.smul_mulVec, Matrix.one_mulVec, dotProduct_smul, smul_eq_mul]
    have := dot_self_nonneg (J *ᵥ x)
    have := mul_nonneg h1 (dot_self_nonneg x)
    linarith

theorem cut_turn {pinv : PInv XR} (hp : CutPInv pinv) {ε : ℝ} (h0 : 0 ≤ ε) (hd : s.dofs ≠ []) {A : Matrix (Fin s.dofs.length) (Fin s.dofs.length) ℝ}
    (hA : Aᵀ = A) (hpos : ∀ x, 0 ≤ x ⬝ᵥ (A *ᵥ x)) : ∃ P, pinv (mat A) (fin ε) = .ok (mat P) ∧
      pinv (mat (turnMat t s * A * (turnMat t s)ᵀ)) (fin ε) = .ok (mat (turnMat t s * P * (turnMat t s)ᵀ)) := by
  have hl : 0 < s.dofs.length := List.length_pos_iff.2 hd
  have sym : (turnMat t s * A * (turnMat t s)ᵀ)ᵀ = turnMat t s * A * (turnMat t s)ᵀ := by
    rw [transpose_mul, transpose_mul, transpose_transpose, hA, Matrix.mul_assoc]
  have back : ∀ x, ∃ y, x = turnMat t s *ᵥ y := fun x => ⟨(turnMat t s)ᵀ *ᵥ x, by rw [mulVec_mulVec, turnMat_right t hn, one_mulVec]⟩
  have inj : ∀ x y, turnMat t s *ᵥ x = turnMat t s *ᵥ y → x = y := fun x y e => by
    have := congrArg (fun v => (turnMat t s)ᵀ *ᵥ v) e
    simpa [mulVec_mulVec, turnMat_left t hn] using this
  obtain ⟨P, eP, hP⟩ := hp _ A ε hl hA hpos h0
  obtain ⟨P', eP', hP'⟩ := hp _ (turnMat t s * A * (turnMat t s)ᵀ) ε hl sym (fun x => by
    obtain ⟨y, rfl⟩ := back x
    rw [turnMat_form hn, turnMat_dot t hn]
    exact hpos y) h0
  refine ⟨P, eP, ?_⟩
  rw [eP']
  congr 2
  refine cut_unique sym (fun w => if ε < w then w⁻¹ else 0) hP' fun x w hx => ?_
  obtain ⟨y, rfl⟩ := back x
  rw [turnMat_form hn, ← mulVec_smul] at hx
  rw [turnMat_form hn, hP y w (inj _ _ hx), mulVec_smul]

omit hn in
theorem TurnV.mul {a a' : List XR} {k : XR} (hk : ∃ r, k = fin r) (w : TurnV t s a a') : TurnV t s (a.map (· * k)) (a'.map (· * k)) := by
  obtain ⟨r, rfl⟩ := hk
  have e : ∀ x : Fin s.dofs.length → ℝ, (vec x).map (· * fin r) = vscale (fin r) (vec x) := fun x => by
    unfold vscale
    refine List.map_congr_left fun y hy => ?_
    obtain ⟨i, rfl⟩ := List.mem_ofFn.1 hy
    simp only [mul_fin, mul_comm]
  obtain ⟨x, rfl, rfl⟩ := w
  rw [e, e]
  exact TurnV.scale ⟨r, rfl⟩ ⟨x, rfl, rfl⟩

theorem alikeN_turn {pinv : PInv XR} (hp : CutPInv pinv) {ε : ℝ} (h0 : 0 ≤ ε) (hd : s.dofs ≠ []) {normal : Nat → List (List XR) → List (List XR)}
    (hN : TurnNormal t s normal) :
    AlikeN s s (Turns t s) (fun h h' => GradOnly (h.turn t) h') (TurnD t s) (TurnV t s) (fun k => ∃ r, k = fin r) pinv (fin ε) normal s.dofs.length s.dofs.length where
  toAlike := alike_turn hn
  length := fun _ => ⟨by rw [getData_dofs, List.length_map], by rw [getData_dofs, List.length_map]⟩
  sub := fun _ hk a b => a.sub (b.mul hk)
  losses := fun w => by rw [w.lossPer]
  jac := by
    intro h h' w
    have q := w.jacobian hn
    generalize getJacobian h s = e at q
    generalize getJacobian h' s = e' at q
    cases q with
    | error r => exact .error r
    | ok q r =>
      refine .ok ?_ r
      obtain ⟨J, rfl, rfl⟩ := q
      obtain ⟨A, e1, e2, sy, po⟩ := hN J
      obtain ⟨P, eP, eP'⟩ := cut_turn (t := t) hn hp h0 hd sy po
      rw [e1, e2, eP, eP']
      obtain ⟨l, el⟩ := losses_vec w.closed w.finite
      dsimp only
      rw [w.lossPer, el]
      have ln : ∀ B : Matrix (Fin s.cons.length) (Fin s.dofs.length) ℝ, (mat B).length = s.cons.length := fun B => by simp [mat]
      rw [ln, ln, transpose_mat, transpose_mat, matMul_mat, matMul_mat, matVec_mat, matVec_mat]
      refine ⟨_, rfl, ?_⟩
      congr 1
      rw [transpose_mul, transpose_transpose, ← Matrix.mul_assoc, Matrix.mul_assoc _ (turnMat t s)ᵀ, turnMat_left t hn, Matrix.mul_one,
        mulVec_mulVec, Matrix.mul_assoc]

end Isotope
