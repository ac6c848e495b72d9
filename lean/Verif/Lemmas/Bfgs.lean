import Verif.Lemmas.Solver
import Verif.Lemmas.Grad
import Verif.Lemmas.Dot
import Verif.SpecReal
import Verif.XRLaws
import Mathlib.Tactic.LinearCombination
import Mathlib.Tactic.Positivity

/-!
# Vectors and matrices of finite numbers; the BFGS update
-/

namespace Isotope
open XR Matrix

variable {n m : Nat}

theorem one_lit : (1.0 : XR) = fin 1 := by simp only [sci]; norm_num

theorem dot_foldl (l : List (ℝ × ℝ)) (a : ℝ) :
    (l.map (fun p => (fin p.1, fin p.2))).foldl (fun acc p => acc + p.1 * p.2) (fin a) =
      fin (a + (l.map (fun p => p.1 * p.2)).sum) := by
  induction l generalizing a with
  | nil => simp
  | cons p l ih => simp only [List.map_cons, List.foldl_cons, mul_fin, add_fin, ih, List.sum_cons, add_assoc]

theorem dotL_map (u v : List ℝ) : dotL (u.map fin) (v.map fin) = fin ((List.zipWith (· * ·) u v).sum) := by
  cases u with
  | nil => simp only [List.map_nil, dotL, zero_lit, List.zipWith_nil_left, List.sum_nil]
  | cons a u =>
    cases v with
    | nil => simp only [List.map_nil, List.map_cons, dotL, zero_lit, List.zipWith_nil_right, List.sum_nil]
    | cons b v =>
      simp only [List.map_cons, dotL, List.zipWith_cons_cons, List.sum_cons, mul_fin]
      have : (u.map fin).zip (v.map fin) = (u.zip v).map (fun p => (fin p.1, fin p.2)) := by
        rw [List.zip_map]; rfl
      rw [this, dot_foldl]
      congr 2
      rw [List.zip, List.map_zipWith]

theorem vec_map (v : Fin n → ℝ) : vec v = (List.ofFn v).map fin := by rw [List.map_ofFn]; rfl

theorem length_vec (v : Fin n → ℝ) : (vec v).length = n := by simp [vec]

theorem zipWith_ofFn {α β γ : Type} (f : α → β → γ) (u : Fin n → α) (v : Fin n → β) :
    List.zipWith f (List.ofFn u) (List.ofFn v) = List.ofFn (fun i => f (u i) (v i)) := by
  apply List.ext_getElem <;> simp

theorem dotL_vec (u v : Fin n → ℝ) : dotL (vec u) (vec v) = fin (u ⬝ᵥ v) := by
  rw [vec_map, vec_map, dotL_map, zipWith_ofFn, List.sum_ofFn]
  rfl

theorem dotV_vec (u v : Fin n → ℝ) : dotV (vec u) (vec v) = fin (u ⬝ᵥ v) := by
  rw [dotV_eq, dotL_vec]

theorem matVec_mat (A : Matrix (Fin n) (Fin m) ℝ) (v : Fin m → ℝ) : matVec (mat A) (vec v) = vec (A *ᵥ v) := by
  unfold matVec mat
  rw [List.map_ofFn]
  unfold vec
  congr 1
  funext i
  exact dotL_vec (A i) v

theorem vneg_vec (v : Fin n → ℝ) : vneg (vec v) = vec (-v) := by
  unfold vneg vec; rw [List.map_ofFn]; rfl

theorem matNeg_mat (A : Matrix (Fin n) (Fin m) ℝ) : matNeg (mat A) = mat (-A) := by
  unfold matNeg mat; rw [List.map_ofFn]; congr 1; funext i; exact vneg_vec (A i)

theorem vadd_vec (u v : Fin n → ℝ) : vadd (vec u) (vec v) = vec (u + v) := by
  unfold vadd vec; rw [zipWith_ofFn]; rfl

theorem vsub_vec (u v : Fin n → ℝ) : vsub (vec u) (vec v) = vec (u - v) := by
  unfold vsub vec; rw [zipWith_ofFn]; congr 1

theorem vscale_vec (k : ℝ) (v : Fin n → ℝ) : vscale (fin k) (vec v) = vec (k • v) := by
  unfold vscale vec; rw [List.map_ofFn]; rfl

theorem ger_mat (A : Matrix (Fin n) (Fin m) ℝ) (k : ℝ) (x : Fin n → ℝ) (y : Fin m → ℝ) :
    ger (mat A) (fin k) (vec x) (vec y) = mat (A + k • vecMulVec x y) := by
  unfold ger mat
  have hx : vec x = List.ofFn (fun i => fin (x i)) := rfl
  rw [hx, zipWith_ofFn]
  congr 1; funext i
  unfold vec
  rw [zipWith_ofFn]
  congr 1; funext j
  rw [one_lit]
  simp only [mul_fin, add_fin, Matrix.add_apply, Matrix.smul_apply, vecMulVec_apply, smul_eq_mul]
  congr 1; ring

theorem identity_mat : identity (F := XR) n = mat (1 : Matrix (Fin n) (Fin n) ℝ) := by
  unfold identity mat vec
  apply List.ext_getElem (by simp)
  intro i h1 h2
  simp only [List.getElem_map, List.getElem_range, List.getElem_ofFn]
  apply List.ext_getElem (by simp)
  intro j h3 h4
  simp only [List.getElem_map, List.getElem_range, List.getElem_ofFn, Matrix.one_apply, Fin.mk.injEq]
  split
  · exact one_lit
  · exact zero_lit

theorem vec_inj {u v : Fin n → ℝ} (h : vec u = vec v) : u = v := by
  funext i
  have := congrFun (List.ofFn_injective h) i
  exact XR.fin.inj this

/-- a list of finite numbers -/
theorem exists_vec (l : List XR) (hl : l.all Num.isFinite = true) : ∃ v : Fin l.length → ℝ, l = vec v := by
  refine ⟨fun i => l[i].toReal, ?_⟩
  apply List.ext_getElem (by simp [vec])
  intro i h1 h2
  obtain ⟨x, hx⟩ := (isFinite_iff _).1 (List.all_eq_true.1 hl _ (List.getElem_mem h1))
  simp only [vec, List.getElem_ofFn, Fin.getElem_fin, hx, toReal]

theorem exists_vec' {l : List XR} (hl : l.all Num.isFinite = true) (hn : l.length = n) : ∃ v : Fin n → ℝ, l = vec v := by
  subst hn; exact exists_vec l hl

/-! ## The update -/

/-- the number the code divides by -/
noncomputable def rhoOf (s y : Fin n → ℝ) : ℝ := if |s ⬝ᵥ y| < 1e-16 then s ⬝ᵥ y + 1e-6 else s ⬝ᵥ y

theorem guardedSy_vec (s y : Fin n → ℝ) : guardedSy (vec s) (vec y) = fin (rhoOf s y) := by
  unfold guardedSy rhoOf
  simp only [dotV_vec, abs_fin, sci, lt_fin, decide_eq_true_eq, add_fin]
  split <;> rfl

theorem rhoOf_ne (s y : Fin n → ℝ) : rhoOf s y ≠ 0 := by
  unfold rhoOf
  split
  next h => have := abs_lt.1 h; norm_num at this ⊢; intro h0; linarith
  next h => intro h0; rw [h0] at h; norm_num at h

theorem rhoOf_pos {s y : Fin n → ℝ} (h : 0 < s ⬝ᵥ y) : 0 < rhoOf s y := by
  unfold rhoOf
  split
  · have : (0 : ℝ) < 1e-6 := by norm_num
    linarith
  · exact h

/-- the updated matrix over the reals -/
noncomputable def updR (A : Matrix (Fin n) (Fin n) ℝ) (s y : Fin n → ℝ) (ρ : ℝ) : Matrix (Fin n) (Fin n) ℝ :=
  A + ((ρ + y ⬝ᵥ A *ᵥ y) / (ρ * ρ)) • vecMulVec s s + (-1 / ρ) • vecMulVec (A *ᵥ y) s + (-1 / ρ) • vecMulVec s (A *ᵥ y)

theorem bfgsUpdate_mat (A : Matrix (Fin n) (Fin n) ℝ) (s y : Fin n → ℝ) :
    bfgsUpdate (mat A) (vec s) (vec y) = mat (updR A s y (rhoOf s y)) := by
  have hr := rhoOf_ne s y
  unfold bfgsUpdate updR
  simp only [guardedSy_vec, matVec_mat, dotV_vec, add_fin, mul_fin, one_lit, neg_fin,
    div_fin_of_ne _ (mul_ne_zero hr hr), div_fin_of_ne _ hr, ger_mat]

theorem upd_mulVec (A : Matrix (Fin n) (Fin n) ℝ) (s y x : Fin n → ℝ) (ρ : ℝ) :
    updR A s y ρ *ᵥ x = A *ᵥ x + ((ρ + y ⬝ᵥ A *ᵥ y) / (ρ * ρ) * (s ⬝ᵥ x)) • s + (-1 / ρ * (s ⬝ᵥ x)) • (A *ᵥ y) +
      (-1 / ρ * ((A *ᵥ y) ⬝ᵥ x)) • s := by
  unfold updR
  simp only [add_mulVec, smul_mulVec, vecMulVec_mulVec, op_smul_eq_smul, smul_smul]

theorem upd_secant (A : Matrix (Fin n) (Fin n) ℝ) (s y : Fin n → ℝ) {ρ : ℝ} (hρ : ρ ≠ 0) (h : ρ = s ⬝ᵥ y) :
    updR A s y ρ *ᵥ y = s := by
  rw [upd_mulVec, ← h]
  funext i
  simp only [Pi.add_apply, Pi.smul_apply, smul_eq_mul]
  rw [dotProduct_comm (A *ᵥ y) y]
  field_simp
  ring

theorem upd_posDef {A : Matrix (Fin n) (Fin n) ℝ} (hA : A.PosDef) (s y : Fin n → ℝ) {ρ : ℝ} (hρ : 0 < ρ) :
    (updR A s y ρ).PosDef := by
  have hsym : Aᵀ = A := by have := hA.isHermitian; rwa [IsHermitian, conjTranspose_eq_transpose_of_trivial] at this
  have hq : ∀ u v : Fin n → ℝ, (A *ᵥ u) ⬝ᵥ v = u ⬝ᵥ A *ᵥ v := by
    intro u v
    rw [dotProduct_mulVec, ← mulVec_transpose, hsym]
  refine PosDef.of_dotProduct_mulVec_pos ?_ ?_
  · rw [IsHermitian, conjTranspose_eq_transpose_of_trivial]
    unfold updR
    simp only [transpose_add, transpose_smul, transpose_vecMulVec, hsym]
    abel
  · intro x hx
    rw [star_trivial]
    have key : x ⬝ᵥ updR A s y ρ *ᵥ x =
        (x - ((s ⬝ᵥ x) / ρ) • y) ⬝ᵥ A *ᵥ (x - ((s ⬝ᵥ x) / ρ) • y) + (s ⬝ᵥ x) ^ 2 / ρ := by
      rw [upd_mulVec]
      simp only [dotProduct_add, dotProduct_smul, mulVec_sub, mulVec_smul, sub_dotProduct, dotProduct_sub, smul_dotProduct,
        smul_eq_mul, dotProduct_comm x s, hq]
      have e : y ⬝ᵥ A *ᵥ x = x ⬝ᵥ A *ᵥ y := by rw [← hq, dotProduct_comm]
      rw [e]
      field_simp
      ring
    rw [key]
    by_cases h0 : s ⬝ᵥ x = 0
    · rw [h0]
      simp only [zero_div, zero_smul, sub_zero, ne_eq, OfNat.ofNat_ne_zero, not_false_eq_true, zero_pow, add_zero]
      have := hA.dotProduct_mulVec_pos hx
      rwa [star_trivial] at this
    · have h1 : 0 ≤ (x - ((s ⬝ᵥ x) / ρ) • y) ⬝ᵥ A *ᵥ (x - ((s ⬝ᵥ x) / ρ) • y) := by
        have := hA.posSemidef.dotProduct_mulVec_nonneg (x - ((s ⬝ᵥ x) / ρ) • y)
        rwa [star_trivial] at this
      have h2 : 0 < (s ⬝ᵥ x) ^ 2 / ρ := by positivity
      linarith

/-! ## Runs -/

theorem getGradient_vec {F : Type} [Num F] {h h' : Heap F} {s : Sketch} {g : List F} (e : getGradient h s = .ok (g, h')) :
    g.all Num.isFinite = true ∧ g.length = getNDofs h s := by
  unfold getGradient at e
  split at e
  · cases e
  · rename_i h1 _
    rw [collectGradient_eq] at e
    by_cases hf : (s.cells.flatMap (primGrad h1)).all Num.isFinite = true
    · rw [if_pos hf] at e
      cases e
      refine ⟨hf, ?_⟩
      rw [getNDofs_eq, flatMap_primGrad_length h]
    · rw [if_neg hf] at e; cases e

theorem uniformNorm_zero (l : List XR) (hl : ∀ x ∈ l, x = fin 0) : uniformNorm l = fin 0 := by
  unfold uniformNorm
  rw [zero_lit]
  induction l with
  | nil => rfl
  | cons x l ih =>
    rw [List.foldl_cons, hl x (by simp), abs_fin, abs_zero]
    have : fmax (fin 0) (fin 0) = fin 0 := by simp [fmax]
    rw [this]
    exact ih fun x hx => hl x (by simp [hx])

/-- what a step of BFGS in a run without failed line search did, in exact arithmetic -/
def ExactStep (s : Sketch) (nd : Nat) (r : StepRec XR) : Prop :=
  ∃ (B : Matrix (Fin nd) (Fin nd) ℝ) (x0 x1 g0 g1 : Fin nd → ℝ) (h0 h1 : Heap XR),
    B.PosDef ∧ r.mat = mat B ∧ getData r.pre s = vec x0 ∧ getData r.post s = vec x1 ∧
    getGradient r.pre s = .ok (vec g0, h0) ∧ getGradient r.post s = .ok (vec g1, h1) ∧
    0 < (x1 - x0) ⬝ᵥ (g1 - g0) ∧ (1e-16 ≤ (x1 - x0) ⬝ᵥ (g1 - g0) → B *ᵥ (g1 - g0) = x1 - x0)

theorem vadd_cancel {l : List XR} {v x : Fin n → ℝ} (e : vadd l (vec v) = vec x) (hl : l.length = n) : l = vec (x - v) := by
  apply List.ext_getElem (by simp [vec, hl])
  intro i h1 h2
  have hi : i < n := by simpa [vec] using h2
  have := congrArg (fun l => l[i]?) e
  simp only [vadd, vec, List.getElem?_zipWith, List.getElem?_eq_getElem h1] at this
  simp only [List.getElem?_ofFn, hi, dif_pos, Option.some.injEq] at this
  simp only [vec, List.getElem_ofFn, Pi.sub_apply]
  generalize l[i] = z at this
  cases z with
  | fin z => rw [add_fin] at this; rw [← XR.fin.inj this]; congr 1; ring
  | _ => exact XR.noConfusion this

theorem bfgsLoop_spd (p : BFGSParams XR) (s : Sketch) (hn : s.cells.Nodup) (nd : Nat) (k : Nat) (reset : Bool)
    (hm : List (List XR)) (data : List XR) (h : Heap XR) (hd : data = getData h s) (hnd : getNDofs h s = nd)
    (hA : ∃ A : Matrix (Fin nd) (Fin nd) ℝ, A.PosDef ∧ hm = mat A)
    (hf : (bfgsLoop p s nd k reset hm data h).failed = 0) :
    (∀ r ∈ (bfgsLoop p s nd k reset hm data h).steps, ExactStep s nd r) ∧
    (∀ t : ℝ, 0 < t → p.gradientThreshold = fin t →
      (bfgsLoop p s nd k reset hm data h).res ≠ .err .notDescentDirection) := by
  revert hf hd hnd hA
  fun_induction bfgsLoop p s nd k reset hm data h with
  | case8 n reset hm data h hl g h1 e hfin hu dir _ h' e2 =>
    intro hd hnd ⟨A, hA, ehm⟩ hf
    refine ⟨by simp, fun t ht hpt _ => ?_⟩
    obtain ⟨gf, gl⟩ := getGradient_vec e
    obtain ⟨gv, rfl⟩ := exists_vec' gf (gl.trans hnd)
    have hdir : dir = vec (-(A *ᵥ gv)) := by
      show matVec (matNeg hm) (vec gv) = _
      rw [ehm, matNeg_mat, matVec_mat, neg_mulVec]
    have hg : gv ≠ 0 := by
      rintro rfl
      apply hu
      rw [uniformNorm_zero, hpt, lt_fin]
      · simpa using ht
      · intro x hx; obtain ⟨i, rfl⟩ := List.mem_ofFn.1 hx; rfl
    unfold lineSearch at e2
    dsimp only at e2
    split at e2
    next hm0 =>
      rw [hdir, dotV_vec, zero_lit] at hm0
      have h0 : (0 : ℝ) ≤ gv ⬝ᵥ -(A *ᵥ gv) := by simpa [ge] using hm0
      have := hA.dotProduct_mulVec_pos hg
      rw [star_trivial] at this
      rw [dotProduct_neg] at h0
      linarith
    next => exact lsLoop_not_descent _ _ _ _ _ _ _ _ _ e2
  | case10 n hm data h hl g h1 e _ _ dir _ h' e2 ih =>
    intro _ _ _ hf
    simp only [SolveOut.addSearch] at hf
    omega
  | case13 n reset hm data h hl g h1 e _ _ dir _ alpha h2 e2 st newData h3 e3 g' h4 e4 y ih =>
    intro hd hnd ⟨A, hA, ehm⟩ hf
    simp only [SolveOut.cons] at hf ⊢
    have hd' : newData = getData h4 s := by
      rw [(getGradient_frame e4).getData, C12_roundtrip h2 h3 s _ hn e3]
    have hnd' : ∀ h', getNDofs h' s = nd := fun h' => (getNDofs_congr h h' s).trans hnd
    have hS : ExactStep s nd ⟨h, alpha, h4, bfgsUpdate hm st y⟩ := by
      obtain ⟨gf, gl⟩ := getGradient_vec e
      obtain ⟨gv, rfl⟩ := exists_vec' gf (gl.trans hnd)
      obtain ⟨gf', gl'⟩ := getGradient_vec e4
      obtain ⟨gv', rfl⟩ := exists_vec' gf' (gl'.trans (hnd' _))
      have hdir : dir = vec (-(A *ᵥ gv)) := by
        show matVec (matNeg hm) (vec gv) = _
        rw [ehm, matNeg_mat, matVec_mat, neg_mulVec]
      generalize -(A *ᵥ gv) = dv at hdir
      obtain ⟨hm0, l, hl, ea, acc⟩ := lineSearch_ok e2
      obtain ⟨a, ha, -, ea'⟩ := alphaOf_fin l
      rw [ea'] at ea
      obtain ⟨f1, -, g'', h'', e5, f3⟩ := acc.facts hn
      have hs : newData = getData h2 s := by
        rw [f1, (getGradient_frame e).getData, ← hd]
      rw [hs] at e3
      have h32 : h3 = h2 := setData_same hn e3
      subst h32
      rw [e4] at e5
      cases e5
      have hst : st = vec (a • dv) := by
        show vscale alpha dir = _
        rw [ea, hdir, vscale_vec]
      have hy : y = vec (gv' - gv) := vsub_vec _ _
      rw [hdir, dotV_vec, zero_lit] at hm0
      rw [hdir, dotV_vec, dotV_vec, wolfeC2, sci, mul_fin] at f3
      have m0 : gv ⬝ᵥ dv < 0 := by simpa [ge] using hm0
      have m1 : (0.9 : ℝ) * (gv ⬝ᵥ dv) ≤ gv' ⬝ᵥ dv := by simpa [ge] using f3
      have hsy : 0 < (a • dv) ⬝ᵥ (gv' - gv) := by
        rw [smul_dotProduct, dotProduct_sub, dotProduct_comm dv, dotProduct_comm dv, smul_eq_mul]
        apply mul_pos ha
        norm_num at m1
        linarith
      obtain ⟨x1, hx1⟩ := exists_vec' (List.all_eq_true.2 ((C14_ok_iff h3 s hn _).1 ⟨_, e3⟩).2)
        ((getData_length h3 s).trans (hnd' _))
      have hx0 : getData h s = vec (x1 - a • dv) := by
        refine vadd_cancel ?_ ((getData_length h s).trans hnd)
        rw [← hst, ← hd, ← hx1]
        exact hs
      obtain ⟨h5, e5⟩ := C23_gradient_idempotent _ _ s _ e4
      refine ⟨updR A (a • dv) (gv' - gv) (rhoOf (a • dv) (gv' - gv)), x1 - a • dv, x1, gv, gv', h1, h5,
        upd_posDef hA _ _ (rhoOf_pos hsy), ?_, hx0, ?_, e, e5, ?_, ?_⟩
      · show bfgsUpdate hm st y = _
        rw [ehm, hst, hy, bfgsUpdate_mat]
      · show getData h4 s = _
        rw [(getGradient_frame e4).getData, hx1]
      · rwa [sub_sub_cancel]
      · rw [sub_sub_cancel]
        intro hbig
        refine upd_secant _ _ _ (rhoOf_ne _ _) ?_
        unfold rhoOf
        rw [if_neg]
        rw [abs_of_pos hsy]
        exact not_lt.2 hbig
    have hA' : ∃ A : Matrix (Fin nd) (Fin nd) ℝ, A.PosDef ∧ bfgsUpdate hm st y = mat A := by
      obtain ⟨B, _, _, _, _, _, _, h1, h2, _⟩ := hS
      exact ⟨B, h1, h2⟩
    obtain ⟨i1, i2⟩ := ih hd' (hnd' _) hA' hf
    refine ⟨?_, i2⟩
    intro r hr
    rcases List.mem_cons.1 hr with rfl | hr
    · exact hS
    · exact i1 r hr
  | _ => intro _ _ _ hf; exact ⟨by simp, fun _ _ _ hr => by cases hr⟩

end Isotope
