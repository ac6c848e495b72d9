import Verif.SpecTorque
import Verif.Lemmas.Balance
import Verif.Lemmas.Diff
import Verif.Lemmas.Part
import Verif.Props.Solver

/-!
# The forces of a constraint do not turn the sketch
-/

namespace Isotope
open XR
open Matrix

variable {u v : ℝ}

/-- how a coordinate changes when the sketch is turned about `(u, v)` -/
noncomputable def spin (u v : ℝ) (h : Heap XR) : Dof → ℝ
  | .px a => -((h.points a).data.y.toReal - v)
  | .py a => (h.points a).data.x.toReal - u
  | .as _ => 1
  | .ae _ => 1
  | .ar _ => 0
  | .cr _ => 0

/-- the turning force of contributions -/
noncomputable def torque (u v : ℝ) (h : Heap XR) (l : List (Dof × ℝ)) : ℝ := (l.map fun e => spin u v h e.1 * e.2).sum

theorem form_total {L : List Dof} (hL : L.Nodup) (n : Dof → ℝ) (l : List (Dof × ℝ)) (hl : ∀ e ∈ l, e.1 ∈ L) :
    form L n (total l) = (l.map fun e => n e.1 * e.2).sum := by
  induction l with
  | nil => simp [form]
  | cons e l ih =>
    rw [List.map_cons, List.sum_cons, ← ih fun x hx => hl x (List.mem_cons_of_mem _ hx)]
    have : total (e :: l) = fun d => (if e.1 = d then e.2 else 0) + total l d := by funext d; rw [total_cons]
    rw [this, form_add]
    congr 1
    have he := hl e List.mem_cons_self
    unfold form
    have : (L.map fun d => n d * (if e.1 = d then e.2 else 0)) = L.map fun d => if d = e.1 then n e.1 * e.2 else 0 :=
      List.map_congr_left fun d _ => by
        by_cases q : e.1 = d
        · subst q; simp
        · rw [if_neg q, if_neg fun q' => q q'.symm, mul_zero]
    rw [this, List.sum_map_ite_eq, List.count_eq_one_of_mem hL he, one_smul]
    simp

theorem hyp_sq' (a b : ℝ) : hyp a b * hyp a b = a * a + b * b := hyp_mul_self a b

theorem angleForce_torque {a b c d D : ℝ} (h1 : hyp a b ≠ 0) (h2 : hyp c d ≠ 0) :
    a * (angleForce a b c d D).2 - b * (angleForce a b c d D).1 + (c * (angleForce c d a b D).2 - d * (angleForce c d a b D).1) = 0 := by
  unfold angleForce
  dsimp only
  have e : (c * a + d * b) / (hyp c d * hyp a b) = (a * c + b * d) / (hyp a b * hyp c d) := by
    rw [mul_comm c a, mul_comm d b, mul_comm (hyp c d)]
  rw [e]
  generalize (Real.arccos _ - D) * _ = k
  field_simp
  ring

theorem crossForce_torque {a b c d : ℝ} (h1 : hyp a b ≠ 0) (h2 : hyp c d ≠ 0) :
    a * (crossForce a b c d).2 - b * (crossForce a b c d).1 + (c * (crossForce c d a b).2 - d * (crossForce c d a b).1) = 0 := by
  unfold crossForce
  dsimp only
  rw [← hyp_sq' a b, ← hyp_sq' c d]
  field_simp
  ring

theorem dotForce_torque {a b c d : ℝ} (h1 : hyp a b ≠ 0) (h2 : hyp c d ≠ 0) :
    a * (dotForce a b c d).2 - b * (dotForce a b c d).1 + (c * (dotForce c d a b).2 - d * (dotForce c d a b).1) = 0 := by
  unfold dotForce
  dsimp only
  rw [← hyp_sq' a b, ← hyp_sq' c d]
  field_simp
  ring

theorem spin_pt {h : Heap XR} {p : Nat} {x y : ℝ} (e : ptData h p = ⟨fin x, fin y⟩) : spin u v h (.px p) = -(y - v) ∧ spin u v h (.py p) = x - u := by
  have e' : (h.points p).data = ⟨fin x, fin y⟩ := e
  simp [spin, e', toReal_fin]
theorem spin_start {h : Heap XR} {l : Nat} {x y : ℝ} (e : lineStart h l = ⟨fin x, fin y⟩) :
    spin u v h (.px (h.lines l).start) = -(y - v) ∧ spin u v h (.py (h.lines l).start) = x - u := spin_pt e
theorem spin_stop {h : Heap XR} {l : Nat} {x y : ℝ} (e : lineEnd h l = ⟨fin x, fin y⟩) :
    spin u v h (.px (h.lines l).stop) = -(y - v) ∧ spin u v h (.py (h.lines l).stop) = x - u := spin_pt e

theorem RealCons.torque_zero {h : Heap XR} {c : Constraint XR} (hc : RealCons h c) (hk : Undirected c) (hd : ¬DegenerateEqLen h c) :
    torque u v h (contribs h c) = 0 := by
  obtain ⟨k1, k2, k3, k4, k5⟩ := hk
  unfold torque contribs
  cases hc with
  | @angle p1 p2 mid x1 y1 x2 y2 x y D e1 e2 e =>
    rw [chunks_angle e1 e2 e]; dsimp only
    split
    · simp
    · rename_i q
      obtain ⟨q1, q2⟩ := not_or.1 (not_or.1 q).1
      have n1 : hyp (x1 - x) (y1 - y) ≠ 0 := by intro z; rw [z] at q1; norm_num at q1
      have n2 : hyp (x2 - x) (y2 - y) ≠ 0 := by intro z; rw [z] at q2; norm_num at q2
      have t := angleForce_torque (D := D) n1 n2
      simp only [Chunk.contrib, List.flatMap_cons, List.flatMap_nil, List.append_nil, List.cons_append, List.nil_append, List.map_cons,
        List.map_nil, List.sum_cons, List.sum_nil, toReal_fin, spin_pt e1, spin_pt e2, spin_pt e]
      linear_combination t
  | arcEnd e ec ea =>
    rw [chunks_arcEnd e ec ea]
    simp only [Chunk.contrib, List.flatMap_cons, List.flatMap_nil, List.append_nil, List.cons_append, List.nil_append, List.map_cons,
        List.map_nil, List.sum_cons, List.sum_nil, toReal_fin, spin_pt e, spin_pt ec]
    simp only [spin]
    ring
  | arcStart e ec ea =>
    rw [chunks_arcStart e ec ea]
    simp only [Chunk.contrib, List.flatMap_cons, List.flatMap_nil, List.append_nil, List.cons_append, List.nil_append, List.map_cons,
        List.map_nil, List.sum_cons, List.sum_nil, toReal_fin, spin_pt e, spin_pt ec]
    simp only [spin]
    ring
  | euclid e1 e2 =>
    rw [chunks_euclid e1 e2]; dsimp only
    split
    · simp
    · simp only [Chunk.contrib, List.flatMap_cons, List.flatMap_nil, List.append_nil, List.cons_append, List.nil_append, List.map_cons,
        List.map_nil, List.sum_cons, List.sum_nil, toReal_fin, spin_pt e1, spin_pt e2]
      ring
  | horizDist e1 e2 => exact absurd rfl (k2 _ _ _)
  | vertDist e1 e2 => exact absurd rfl (k3 _ _ _)
  | fix e => exact absurd rfl (k1 _ _)
  | @eqLen l m x1 y1 x2 y2 u1 v1 u2 v2 e1 e2 f1 f2 =>
    have k1 : lineStart h l = lineEnd h l ↔ hyp (x2 - x1) (y2 - y1) = 0 := by
      rw [e1, e2, hyp_eq_zero, sub_eq_zero, sub_eq_zero]; simp [eq_comm]
    have k2 : lineStart h m = lineEnd h m ↔ hyp (u2 - u1) (v2 - v1) = 0 := by
      rw [f1, f2, hyp_eq_zero, sub_eq_zero, sub_eq_zero]; simp [eq_comm]
    simp only [DegenerateEqLen, k1, k2, not_or] at hd
    rw [chunks_eqLen e1 e2 f1 f2 hd.1 hd.2]
    simp only [Chunk.contrib, List.flatMap_cons, List.flatMap_nil, List.append_nil, List.cons_append, List.nil_append, List.map_cons,
        List.map_nil, List.sum_cons, List.sum_nil, toReal_fin, spin_start e1, spin_stop e2, spin_start f1, spin_stop f2]
    ring
  | horizLine e1 e2 => exact absurd rfl (k4 _)
  | vertLine e1 e2 => exact absurd rfl (k5 _)
  | @parallel l m x1 y1 x2 y2 u1 v1 u2 v2 e1 e2 f1 f2 =>
    rw [chunks_parallel e1 e2 f1 f2]; dsimp only
    split
    · simp
    · rename_i q
      have t := crossForce_torque (not_or.1 q).1 (not_or.1 q).2
      simp only [Chunk.contrib, List.flatMap_cons, List.flatMap_nil, List.append_nil, List.cons_append, List.nil_append, List.map_cons,
        List.map_nil, List.sum_cons, List.sum_nil, toReal_fin, spin_start e1, spin_stop e2, spin_start f1, spin_stop f2]
      linear_combination t
  | @perp l m x1 y1 x2 y2 u1 v1 u2 v2 e1 e2 f1 f2 =>
    rw [chunks_perp e1 e2 f1 f2]; dsimp only
    split
    · simp
    · rename_i q
      have t := dotForce_torque (not_or.1 q).1 (not_or.1 q).2
      simp only [Chunk.contrib, List.flatMap_cons, List.flatMap_nil, List.append_nil, List.cons_append, List.nil_append, List.map_cons,
        List.map_nil, List.sum_cons, List.sum_nil, toReal_fin, spin_start e1, spin_stop e2, spin_start f1, spin_stop f2]
      linear_combination t

variable {h : Heap XR} {s : Sketch}

theorem turning_form (h h' : Heap XR) : turning s u v h h' = form s.dofs (spin u v h) fun d => (val h' d).toReal - (val h d).toReal := by
  unfold turning form Sketch.dofs
  rw [List.map_flatMap]
  induction s.cells with
  | nil => rfl
  | cons c l ih =>
    rw [List.map_cons, List.sum_cons, List.flatMap_cons, List.sum_append, ih]
    congr 1
    cases c <;> simp [primTurn, dofs, spin, val]
    ring

/-- the turning force of a constraint on the sketch -/
theorem spin_zero (hn : s.cells.Nodup) (hc : s.Covers h) (hf : FiniteSketch h s) {k : Nat} (hk : k ∈ s.cons) (hu : HoldsAt u v h (h.cons k))
    (hd : ¬DegenerateEqLen h (h.cons k)) : form s.dofs (spin u v h) (total (contribs h (h.cons k))) = 0 := by
  rw [form_total (Sketch.dofs_nodup hn) _ _ fun e he => mem_sketch_dofs.2 (hc k hk _ (contribs_owner e he))]
  have hr := (hc.finite hf k hk).real
  rcases hu with hu | ⟨p, d, e, ex, ey⟩
  · exact hr.torque_zero hu hd
  · rw [e] at hr ⊢
    cases hr with
    | fix e1 =>
      have e' : (h.points p).data = _ := e1
      rw [contribs, chunks_fix e1]
      simp only [Chunk.contrib, List.flatMap_cons, List.flatMap_nil, List.append_nil, List.map_cons, List.map_nil, List.sum_cons, List.sum_nil,
        spin, ex, ey]
      ring

theorem fin_of_add {a b : ℝ} {x : XR} (e : fin a + x = fin b) : ∃ y, x = fin y := by
  cases x with
  | fin y => exact ⟨y, rfl⟩
  | pinf => cases e
  | ninf => cases e
  | nan => cases e

theorem fin_of_mul {t y : ℝ} {x : XR} (e : x * fin t = fin y) : ∃ r, x = fin r := by
  cases x with
  | fin r => exact ⟨r, rfl⟩
  | nan => cases e
  | pinf =>
    change infOf t = fin y at e
    unfold infOf at e
    split at e <;> (try split at e) <;> cases e
  | ninf =>
    change infOf (-t) = fin y at e
    unfold infOf at e
    split at e <;> (try split at e) <;> cases e

/-- a step of gradient descent moves at right angles to every field that is at right angles to the forces of the constraints -/
theorem gd_field (hn : s.cells.Nodup) (hc : s.Covers h) (hf : FiniteSketch h s) (p : GDParams XR)
    {st : StepRec XR} (hst : st ∈ (gdSolve p h s).steps) {n : Dof → ℝ}
    (hz : s.Covers st.pre → FiniteSketch st.pre s → ∀ k ∈ s.cons, ¬DegenerateEqLen st.pre (h.cons k) →
      form s.dofs n (total (contribs st.pre (h.cons k))) = 0) :
    form s.dofs n (fun d => (val st.post d).toReal - (val st.pre d).toReal) = 0 := by
  have nt : Neutral h s fun _ => 0 := fun _ _ _ _ _ _ => by simp [form]
  have R : Bal h s (fun _ => 0) h h := ⟨rfl, .refl h, hf, rfl⟩
  have q := (alikeM_bal hn hc nt).toAlike.gd (M := fun _ _ => True) trivial p R
  obtain ⟨wp, -, wq, -⟩ := List.forall₂_same.1 q.steps st hst
  obtain ⟨g, h0, eg, ed, -⟩ := C28_sufficient_decrease p h s hn st hst
  have cu := hc.sameRefs wp.refs
  obtain ⟨A, B⟩ := getGradient_exact st.pre s (cu.finite wp.finite)
  by_cases hd : ∃ k ∈ s.cons, DegenerateEqLen st.pre (st.pre.cons k)
  · obtain ⟨h3, e3⟩ := B hd
    rw [e3] at eg; cases eg
  obtain ⟨h3, g3, -, e3⟩ := A fun k hk q => hd ⟨k, hk, q⟩
  rw [e3] at eg
  obtain ⟨rfl, rfl⟩ := Prod.mk.inj (Except.ok.inj eg)
  have hz0 : form s.dofs n (total (s.cons.flatMap fun k => contribs st.pre (st.pre.cons k))) = 0 := by
    have : form s.dofs n (total (s.cons.flatMap fun k => contribs st.pre (st.pre.cons k))) =
        form s.dofs n fun d => (s.cons.map fun k => total (contribs st.pre (st.pre.cons k)) d).sum := form_congr fun d _ => total_flatMap ..
    rw [this, form_sum s.cons fun k d => total (contribs st.pre (st.pre.cons k)) d]
    refine List.sum_eq_zero fun x hx => ?_
    obtain ⟨k, hk, rfl⟩ := List.mem_map.1 hx
    have := hz cu wp.finite k hk
    rw [← wp.refs.cons] at this
    exact this fun q => hd ⟨k, hk, q⟩
  obtain ⟨r, er⟩ : ∃ r : ℝ, ∀ d ∈ s.dofs, (val st.post d).toReal - (val st.pre d).toReal =
      r * total (s.cons.flatMap fun k => contribs st.pre (st.pre.cons k)) d := by
    refine ⟨-st.alpha.toReal, fun d hd => ?_⟩
    rw [getData_dofs, getData_dofs] at ed
    have e1 : ∀ d ∈ s.dofs, val st.post d = val st.pre d + st.alpha *
        -fin (total (s.cons.flatMap fun k => contribs st.pre (st.pre.cons k)) d) := by
      rw [vneg, List.map_map, List.zipWith_map, List.zipWith_self] at ed
      exact List.map_inj_left.1 ed
    have e2 := e1 d hd
    have v1 := val_real wp.finite hd
    have v2 := val_real wq.finite hd
    rw [v1, v2] at e2
    generalize (val st.pre d).toReal = a at e2 ⊢
    generalize (val st.post d).toReal = b at e2 ⊢
    generalize total _ d = t at e2 ⊢
    rw [neg_fin] at e2
    obtain ⟨y, ey⟩ := fin_of_add e2.symm
    obtain ⟨x, hx⟩ := fin_of_mul ey
    rw [hx, mul_fin, add_fin] at e2
    have := XR.fin.inj e2
    rw [hx, toReal_fin, this]; ring
  rw [form_congr er, form_mul, hz0, mul_zero]

/-- a step of Gauss-Newton or Levenberg-Marquardt -/
theorem newton_field (hc : Closed ⟨h, s⟩) {pinv : PInv XR} (hp : CutPInv pinv)
    {ε σ β : ℝ} (hε : 0 ≤ ε) (hβ : 0 ≤ β) {st : StepRec XR} (w : NewtonStep pinv (fin ε) σ h s (fun J => Jᵀ * J + β • 1) st)
    {n : Dof → ℝ} (hz : s.Covers st.pre → FiniteSketch st.pre s → ∀ k ∈ s.cons, ¬DegenerateEqLen st.pre (h.cons k) →
      form s.dofs n (total (contribs st.pre (h.cons k))) = 0) :
    form s.dofs n (fun d => (val st.post d).toReal - (val st.pre d).toReal) = 0 := by
  obtain ⟨J, P, x, l, h', r1, f1, r2, f2, ej, ex, el, ep, ed⟩ := w
  have hc1 := hc.sameRefs r1
  have cu : s.Covers st.pre := fun k hk c q => hc1.deps hk q
  by_cases hne : s.dofs = []
  · rw [hne]; rfl
  have hd := (getJacobian_ok_iff hc1 f1).1 ⟨_, ej⟩
  have hJe := getJacobian_entries hc1 f1 ej
  have hlen := dofs_length h (s := s)
  have psd : ∀ x, 0 ≤ x ⬝ᵥ ((Jᵀ * J + β • (1 : Matrix (Fin (getNDofs h s)) (Fin (getNDofs h s)) ℝ)) *ᵥ x) := fun x => by
    rw [Matrix.add_mulVec, dotProduct_add, gram_form, Matrix.smul_mulVec, Matrix.one_mulVec, dotProduct_smul, smul_eq_mul]
    have := dot_self_nonneg (J *ᵥ x)
    have := mul_nonneg hβ (dot_self_nonneg x)
    linarith
  obtain ⟨P', eP, hP⟩ := hp _ _ ε (by rw [← hlen]; exact List.length_pos_iff.2 hne) (lm_symm J β) psd hε
  rw [eP] at ep
  obtain rfl : P = P' := (mat_injective (PInvRes.ok.inj ep)).symm
  generalize eu : (fun i : Fin (getNDofs h s) => n (s.dofs[i.1]'(by rw [hlen]; exact i.2))) = z0
  have dotForm : ∀ f : Dof → ℝ, (fun i : Fin (getNDofs h s) => f (s.dofs[i.1]'(by rw [hlen]; exact i.2))) ⬝ᵥ z0 = form s.dofs n f := by
    intro f
    rw [← eu]
    unfold form dotProduct
    rw [← List.sum_ofFn]
    congr 1
    refine List.ext_getElem (by simp [hlen]) fun i a1 a2 => ?_
    simp [mul_comm]
  have hJ : J *ᵥ z0 = 0 := by
    funext i
    have : J i = fun j : Fin (getNDofs h s) => total (contribs st.pre (st.pre.cons s.cons[i.1])) (s.dofs[j.1]'(by rw [hlen]; exact j.2)) :=
      funext fun j => hJe i j
    show J i ⬝ᵥ z0 = 0
    rw [this, dotForm]
    have := hz cu f1 _ (List.getElem_mem (h := i.2))
    rw [← r1.cons] at this
    exact this (hd _ (List.getElem_mem _))
  have hA : (Jᵀ * J + β • 1) *ᵥ z0 = β • z0 := by
    rw [Matrix.add_mulVec, ← mulVec_mulVec, hJ, mulVec_zero, zero_add, Matrix.smul_mulVec, Matrix.one_mulVec]
  have key := scaled_symm (lm_symm J β) (f := fun w => if ε < w then w⁻¹ else 0) hP hA (Jᵀ *ᵥ l)
  have z : (Jᵀ *ᵥ l) ⬝ᵥ z0 = 0 := by rw [mulVec_transpose, ← dotProduct_mulVec, hJ, dotProduct_zero]
  rw [z, mul_zero] at key
  rw [← dotForm]
  have : (fun i : Fin (getNDofs h s) => (val st.post (s.dofs[i.1]'(by rw [hlen]; exact i.2))).toReal -
      (val st.pre (s.dofs[i.1]'(by rw [hlen]; exact i.2))).toReal) = -(σ • (P *ᵥ (Jᵀ *ᵥ l))) := by
    funext i
    rw [getData_dofs] at ex ed
    have a1 := congrArg (fun l => l[i.1]?) ex
    have a2 := congrArg (fun l => l[i.1]?) ed
    have hi : i.1 < s.dofs.length := by rw [hlen]; exact i.2
    simp only [vec, List.getElem?_map, List.getElem?_ofFn, List.getElem?_eq_getElem hi, i.2, Option.map_some, dif_pos, Option.some.injEq, Fin.eta] at a1 a2
    rw [a1, a2, toReal_fin, toReal_fin]
    simp
  rw [this, neg_dotProduct, smul_dotProduct, key, smul_zero, neg_zero]

/-- a step of one of the three solvers -/
theorem step_field {pinv : PInv XR} (hp : RealPInv pinv) (hcut : CutPInv pinv) {k : SolverKind XR} (hk : k.Exact) (hb : ∀ p, k ≠ .bfgs p)
    (hn : s.cells.Nodup) (hc : Closed ⟨h, s⟩) (hf : FiniteSketch h s) {st : StepRec XR} (hst : st ∈ (runSolver pinv k h s).steps) {n : Dof → ℝ}
    (hz : s.Covers st.pre → FiniteSketch st.pre s → ∀ k ∈ s.cons, ¬DegenerateEqLen st.pre (h.cons k) →
      form s.dofs n (total (contribs st.pre (h.cons k))) = 0) :
    SameRefs h st.pre ∧ form s.dofs n (fun d => (val st.post d).toReal - (val st.pre d).toReal) = 0 := by
  cases k with
  | gd p =>
    have cv : s.Covers h := fun i hi c q => hc.deps hi q
    have nt : Neutral h s fun _ => 0 := fun _ _ _ _ _ _ => by simp [form]
    have q := (alikeM_bal hn cv nt).toAlike.gd (M := fun _ _ => True) trivial p (h := h) (h' := h) ⟨rfl, .refl h, hf, rfl⟩
    exact ⟨(List.forall₂_same.1 q.steps st hst).1.refs, gd_field hn cv hf p hst hz⟩
  | bfgs p => exact absurd rfl (hb p)
  | gn p =>
    obtain ⟨⟨σ, hσ⟩, ε, hε, h1⟩ := hk
    change st ∈ (gnSolve pinv p h s).steps at hst
    unfold gnSolve at hst
    rw [hσ, hε] at hst
    have w := newtonLoop_steps hn hc hp p.minLoss (fin ε) σ gnNormal
      (fun J => Jᵀ * J + (0 : ℝ) • 1) (fun J => by rw [zero_smul, add_zero]; exact gnNormal_mat J) _ _ h (.refl h) hf st hst
    have r : SameRefs h st.pre := by obtain ⟨_, _, _, _, _, r, -⟩ := w; exact r
    exact ⟨r, newton_field hc hcut h1 le_rfl w hz⟩
  | lm p =>
    obtain ⟨⟨σ, hσ⟩, ⟨ε, hε, h1⟩, β, hβ, h2⟩ := hk
    change st ∈ (lmSolve pinv p h s).steps at hst
    unfold lmSolve at hst
    rw [hσ, hε, hβ] at hst
    have w := newtonLoop_steps hn hc hp p.minLoss (fin ε) σ (lmNormal (fin β))
      (fun J => Jᵀ * J + β • 1) (fun J => lmNormal_mat β J) _ _ h (.refl h) hf st hst
    have r : SameRefs h st.pre := by obtain ⟨_, _, _, _, _, r, -⟩ := w; exact r
    exact ⟨r, newton_field hc hcut h1 h2 w hz⟩

end Isotope
