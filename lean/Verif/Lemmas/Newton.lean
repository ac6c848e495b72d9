import Verif.Lemmas.Bfgs
import Verif.Props.Gradient

/-!
# Gauss-Newton and Levenberg-Marquardt with a zero Jacobian
-/

namespace Isotope
open XR

/-- all entries finite -/
def Fin' (l : List XR) : Prop := ∃ r : List ℝ, l = r.map fin

theorem fin'_of_all {l : List XR} (h : ∀ x ∈ l, Num.isFinite x = true) : Fin' l := by
  refine ⟨l.map toReal, ?_⟩
  rw [List.map_map]
  conv_lhs => rw [← List.map_id l]
  refine List.map_congr_left fun x hx => ?_
  obtain ⟨y, rfl⟩ := (isFinite_iff _).1 (h x hx)
  rfl

theorem fin'_of_zero {l : List XR} (h : ∀ x ∈ l, x = fin 0) : Fin' l :=
  fin'_of_all fun x hx => by rw [h x hx]; rfl

theorem sum_zipWith_zero (u v : List ℝ) (hz : (∀ x ∈ u, x = 0) ∨ ∀ x ∈ v, x = 0) : (List.zipWith (· * ·) u v).sum = 0 := by
  induction u generalizing v with
  | nil => simp
  | cons a u ih =>
    cases v with
    | nil => simp
    | cons b v =>
      rw [List.zipWith_cons_cons, List.sum_cons]
      rcases hz with hz | hz
      · rw [hz a (by simp), ih v (.inl fun x hx => hz x (by simp [hx]))]; ring
      · rw [hz b (by simp), ih v (.inr fun x hx => hz x (by simp [hx]))]; ring

theorem dotL_zero {u v : List XR} (hu : Fin' u) (hv : Fin' v) (hz : (∀ x ∈ u, x = fin 0) ∨ ∀ x ∈ v, x = fin 0) :
    dotL u v = fin 0 := by
  obtain ⟨u, rfl⟩ := hu
  obtain ⟨v, rfl⟩ := hv
  rw [dotL_map, sum_zipWith_zero]
  rcases hz with hz | hz
  · exact .inl fun x hx => XR.fin.inj (hz _ (List.mem_map_of_mem hx))
  · exact .inr fun x hx => XR.fin.inj (hz _ (List.mem_map_of_mem hx))

theorem sumL_zero (l : List XR) (h : ∀ x ∈ l, x = fin 0) : sumL l = fin 0 := by
  unfold sumL
  rw [zero_lit]
  induction l with
  | nil => rfl
  | cons x l ih => rw [List.foldl_cons, h x (by simp), add_fin, add_zero]; exact ih fun x hx => h x (by simp [hx])

theorem vsub_zero {u v : List XR} (hu : Fin' u) (hl : v.length = u.length) (hv : ∀ x ∈ v, x = fin 0) : vsub u v = u := by
  obtain ⟨u, rfl⟩ := hu
  unfold vsub
  apply List.ext_getElem
  · simp [hl]
  · intro i h1 h2
    simp only [List.getElem_zipWith, List.getElem_map]
    rw [hv _ (List.getElem_mem _), sub_fin, sub_zero]

/-- a zero Jacobian gives a zero step -/
theorem newton_step_zero {h h1 : Heap XR} {s : Sketch} (hn : s.cells.Nodup) (hd : ∀ x ∈ getData h s, Num.isFinite x = true)
    (hl : ∀ x ∈ getLossPerConstraint h s, Num.isFinite x = true) {J : List (List XR)} (e : getJacobian h s = .ok (J, h1))
    (hJ : ∀ row ∈ J, ∀ x ∈ row, x = fin 0) {pi : List (List XR)} (hp : ∀ row ∈ pi, ∀ x ∈ row, Num.isFinite x = true)
    (hpl : pi.length = getNDofs h s) (σ : ℝ) :
    setData h1 s (vsub (getData h s) ((matVec (matMul J.length pi (transpose (getData h s).length J))
      (getLossPerConstraint h s)).map (· * fin σ))) = .ok h1 := by
  have fr : GradOnly h h1 := by have := getJacobian_gradOnly h s; rwa [e] at this
  have hz : ∀ x ∈ (matVec (matMul J.length pi (transpose (getData h s).length J))
      (getLossPerConstraint h s)).map (· * fin σ), x = fin 0 := by
    intro x hx
    obtain ⟨y, hy, rfl⟩ := List.mem_map.1 hx
    obtain ⟨row, hrow, rfl⟩ := List.mem_map.1 hy
    obtain ⟨prow, hprow, rfl⟩ := List.mem_map.1 hrow
    have hrz : ∀ x ∈ (List.range J.length).map (fun j => dotL prow
        ((transpose (getData h s).length J).map (fun r => r.getD j 0.0))), x = fin 0 := by
      intro x hx
      obtain ⟨j, -, rfl⟩ := List.mem_map.1 hx
      have hcz : ∀ x ∈ (transpose (getData h s).length J).map (fun r => r.getD j 0.0), x = fin 0 := by
        intro x hx
        obtain ⟨r, hr, rfl⟩ := List.mem_map.1 hx
        obtain ⟨k, -, rfl⟩ := List.mem_map.1 hr
        rw [List.getD_eq_getElem?_getD, List.getElem?_map]
        cases hj : J[j]? with
        | none => exact zero_lit
        | some row =>
          simp only [Option.map_some, Option.getD_some, List.getD_eq_getElem?_getD]
          cases hk : row[k]? with
          | none => exact zero_lit
          | some x => exact hJ row (List.mem_of_getElem? hj) x (List.mem_of_getElem? hk)
      exact dotL_zero (fin'_of_all (hp prow hprow)) (fin'_of_zero hcz) (.inr hcz)
    rw [dotL_zero (fin'_of_zero hrz) (fin'_of_all hl) (.inl hrz), mul_fin, zero_mul]
  rw [vsub_zero (fin'_of_all hd) ?_ hz, ← fr.getData]
  · apply C13_write_back h1 s hn
    rw [fr.getData]
    exact List.all_eq_true.2 hd
  · simp [matVec, matMul, hpl, getData_length]

theorem getD_vec {n : Nat} (v : Fin n → ℝ) (j : Nat) (hj : j < n) : (vec v).getD j 0.0 = fin (v ⟨j, hj⟩) := by
  rw [List.getD_eq_getElem?_getD, List.getElem?_eq_getElem (by rw [length_vec]; exact hj), Option.getD_some]
  simp [vec]

theorem map_mat {n m : Nat} {α : Type} (A : Matrix (Fin n) (Fin m) ℝ) (f : List XR → α) :
    (mat A).map f = List.ofFn (fun i => f (vec (A i))) := by
  unfold mat; rw [List.map_ofFn]; rfl

theorem col_mat {n m : Nat} (A : Matrix (Fin n) (Fin m) ℝ) (j : Nat) (hj : j < m) :
    (mat A).map (fun r => r.getD j 0.0) = vec (fun i => A i ⟨j, hj⟩) := by
  rw [map_mat]
  unfold vec
  congr 1; funext i
  exact getD_vec (A i) j hj

theorem map_range_ofFn {α : Type} (n : Nat) (f : Nat → α) (g : Fin n → α) (h : ∀ i (hi : i < n), f i = g ⟨i, hi⟩) :
    (List.range n).map f = List.ofFn g := by
  apply List.ext_getElem (by simp)
  intro i h1 h2
  simp only [List.getElem_map, List.getElem_range, List.getElem_ofFn]
  exact h i (by simpa using h1)

theorem transpose_mat {n m : Nat} (A : Matrix (Fin n) (Fin m) ℝ) : transpose m (mat A) = mat A.transpose := by
  unfold transpose
  exact map_range_ofFn _ _ _ fun j hj => col_mat A j hj

theorem matMul_mat {n m k : Nat} (A : Matrix (Fin n) (Fin m) ℝ) (B : Matrix (Fin m) (Fin k) ℝ) :
    matMul k (mat A) (mat B) = mat (A * B) := by
  unfold matMul
  rw [map_mat]
  unfold mat
  congr 1; funext i
  refine map_range_ofFn _ _ _ fun j hj => ?_
  have := col_mat B j hj
  unfold mat at this
  rw [this, dotL_vec]
  rfl

theorem matAdd_mat {n m : Nat} (A B : Matrix (Fin n) (Fin m) ℝ) : matAdd (mat A) (mat B) = mat (A + B) := by
  unfold matAdd mat; rw [zipWith_ofFn]; congr 1; funext i; exact vadd_vec _ _

theorem matScale_mat {n m : Nat} (k : ℝ) (A : Matrix (Fin n) (Fin m) ℝ) : matScale (fin k) (mat A) = mat (k • A) := by
  unfold matScale mat; rw [List.map_ofFn]; congr 1; funext i; exact vscale_vec _ _

theorem gnNormal_mat {n m : Nat} (J : Matrix (Fin n) (Fin m) ℝ) : gnNormal m (mat J) = mat (J.transpose * J) := by
  unfold gnNormal; rw [transpose_mat, matMul_mat]

theorem lmNormal_mat {n m : Nat} (β : ℝ) (J : Matrix (Fin n) (Fin m) ℝ) :
    lmNormal (fin β) m (mat J) = mat (J.transpose * J + β • 1) := by
  unfold lmNormal; rw [transpose_mat, matMul_mat, identity_mat, matScale_mat, matAdd_mat]

/-- a constraint whose contributions to the gradient all vanish -/
def NoForce (h : Heap XR) (c : Constraint XR) : Prop := ¬DegenerateEqLen h c ∧ ∀ e ∈ contribs h c, e.2 = 0

theorem NoForce.congr {h h' : Heap XR} (g : GradOnly h h') {c : Constraint XR}
    (hn : NoForce h c) : NoForce h' c := by
  constructor
  · intro hd
    apply hn.1
    cases c <;> try exact hd
    rename_i l m
    simp only [DegenerateEqLen, g.ls, g.le] at hd ⊢
    exact hd
  · have : contribs h' c = contribs h c := by
      unfold contribs
      rw [g.chunks]
      congr 1
      funext k
      exact Chunk.contrib_congr g k
    rw [this]; exact hn.2

theorem jac_noForce {h h1 : Heap XR} {s : Sketch} (hfc : ∀ k ∈ s.cons, FiniteCons h (h.cons k))
    (hz : ∀ k ∈ s.cons, NoForce h (h.cons k)) (g : GradOnly h h1) :
    ∃ h2, GradOnly h h2 ∧
      getJacobian h1 s = .ok (mat (0 : Matrix (Fin s.cons.length) (Fin (getNDofs h s)) ℝ), h2) := by
  obtain ⟨A, -⟩ := jacobianRows_exact h s s.cons h1 g hfc
  obtain ⟨h2, g2, e⟩ := A fun k hk => (hz k hk).1
  refine ⟨h2, g2, ?_⟩
  unfold getJacobian
  rw [e]
  congr 2
  unfold mat vec
  apply List.ext_getElem (by simp)
  intro i a1 a2
  simp only [List.getElem_map, List.getElem_ofFn]
  apply List.ext_getElem (by simp [dofs_length h s])
  intro j a3 a4
  simp only [List.getElem_map, List.getElem_ofFn]
  rw [total_zero (hz _ (List.getElem_mem _)).2]
  rfl

/-- GN and LM on a sketch in which no constraint exerts a force: no coordinate moves, however many steps -/
theorem newtonLoop_noForce {h : Heap XR} {s : Sketch} (hn : s.cells.Nodup) (hc : Closed ⟨h, s⟩) (hf : FiniteSketch h s)
    (hz : ∀ k ∈ s.cons, NoForce h (h.cons k)) (pinv : PInv XR) (ml eps : XR) (σ : ℝ)
    (nrm : Nat → List (List XR) → List (List XR)) {P : Matrix (Fin (getNDofs h s)) (Fin (getNDofs h s)) ℝ}
    (hpi : pinv (nrm (getNDofs h s) (mat (0 : Matrix (Fin s.cons.length) (Fin (getNDofs h s)) ℝ))) eps = .ok (mat P))
    (k : Nat) (ls : XR) (h1 : Heap XR) (g : GradOnly h h1) :
    (newtonLoop pinv ml (fin σ) eps nrm s k ls h1).res = .ok ∧
    GradOnly h (newtonLoop pinv ml (fin σ) eps nrm s k ls h1).heap ∧
    (newtonLoop pinv ml (fin σ) eps nrm s k ls h1).steps.length ≤ k ∧
    (gt (sumL (getLossPerConstraint h s)) ml = false → gt ls ml = true → 0 < k →
      (newtonLoop pinv ml (fin σ) eps nrm s k ls h1).steps.length = 1) := by
  induction k generalizing ls h1 with
  | zero => exact ⟨rfl, g, by simp [newtonLoop], fun _ _ hk => absurd hk (by simp)⟩
  | succ k ih =>
    unfold newtonLoop
    by_cases hls : gt ls ml = true
    · rw [if_pos hls]
      obtain ⟨h2, g2, e⟩ := jac_noForce (hf.cons hc) hz g
      have hfl : ∀ x ∈ getLossPerConstraint h1 s, Num.isFinite x = true := by
        intro x hx
        rw [g.lossPer] at hx
        obtain ⟨c, hcc, rfl⟩ := List.mem_map.1 hx
        obtain ⟨r, -, hr⟩ := (hf.cons hc c hcc).real.loss
        rw [hr]; rfl
      have h3 := newton_step_zero hn (by rw [g.getData]; exact hf.1) hfl e (by
        intro row hrow x hx
        obtain ⟨i, rfl⟩ := List.mem_ofFn.1 hrow
        obtain ⟨j, rfl⟩ := List.mem_ofFn.1 hx
        rfl) (pi := mat P) (by
        intro row hrow x hx
        obtain ⟨i, rfl⟩ := List.mem_ofFn.1 hrow
        obtain ⟨j, rfl⟩ := List.mem_ofFn.1 hx
        rfl) (by simp [mat]; exact getNDofs_congr h1 h s) σ
      have hl : (getData h1 s).length = getNDofs h s := (getData_length h1 s).trans (getNDofs_congr h h1 s)
      rw [e]
      dsimp only
      rw [hl] at h3 ⊢
      rw [hpi]
      dsimp only
      rw [h3]
      dsimp only
      obtain ⟨i1, i2, i3, -⟩ := ih (sumL (getLossPerConstraint h1 s)) h2 g2
      refine ⟨i1, i2, by simpa using i3, fun hs _ _ => ?_⟩
      rw [g.lossPer]
      cases k with
      | zero => simp [newtonLoop]
      | succ k => simp [newtonLoop, hs]
    · rw [if_neg hls]
      exact ⟨rfl, g, by simp, fun _ hls' => absurd hls' hls⟩

theorem noForce_of_loss {h : Heap XR} {s : Sketch} (hfc : ∀ k ∈ s.cons, FiniteCons h (h.cons k))
    (hz : getLoss h s = fin 0) (hd : ∀ k ∈ s.cons, ¬DegenerateEqLen h (h.cons k)) : ∀ k ∈ s.cons, NoForce h (h.cons k) :=
  fun k hk => ⟨hd k hk, (hfc k hk).real.contribs_zero ((C15_zero_iff h s).1 hz k hk) (hd k hk)⟩

end Isotope
