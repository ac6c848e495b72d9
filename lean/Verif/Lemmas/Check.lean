import Verif.Props.Gradient
import Verif.Props.Data
import Verif.Lemmas.Reorder
import Verif.Lemmas.Bfgs

/-!
# `check_gradients`
-/

namespace Isotope
open XR
open Filter Topology

variable {h : Heap XR} {s : Sketch}

/-- reading the coordinates one by one -/
theorem depEq_of_val {h1 : Heap XR} (r : SameRefs h h1) (hc : Closed ⟨h, s⟩) {θ : Dof → ℝ} (e : ∀ d ∈ s.dofs, val h1 d = fin (θ d))
    {k : Nat} (hk : k ∈ s.cons) : DepEq (h.withDofs θ) h1 (h.cons k) := by
  refine ⟨⟨r.lines, r.cons, r.arcCenter, r.arcClockwise, r.circleCenter, r.nPoints, r.nLines, r.nArcs, r.nCircles, r.nCons⟩, fun p hp => ?_⟩
  have hp' : p ∈ s.cells := by
    have : p ∈ consDeps h (h.cons k) := by
      have : consDeps (h.withDofs θ) (h.cons k) = consDeps h (h.cons k) := by
        unfold consDeps; congr 2
      rw [← this]; exact hp
    unfold consDeps at this
    rcases List.mem_append.1 this with hp | hp
    · exact hc.2 k hk p hp
    · obtain ⟨x, hx, hp⟩ := List.mem_flatMap.1 hp
      exact hc.1 x (hc.2 k hk x hx) p hp
  rw [primData_dofs, primData_dofs]
  refine List.map_congr_left fun d hd => ?_
  rw [val_withDofs]
  refine e d (mem_sketch_dofs.2 ?_)
  rwa [dofs_owner (mem_dofs_owner d) hd]

/-- the coordinates with one of them changed by `t` -/
noncomputable def nudge (h : Heap XR) (d0 : Dof) (t : ℝ) (d : Dof) : ℝ := (val h d).toReal + if d = d0 then t else 0

/-- the loss of a constraint with one coordinate changed by `t` -/
noncomputable def nudged (h : Heap XR) (k : Nat) (d0 : Dof) (t : ℝ) : ℝ := (lossValue (h.withDofs (nudge h d0 t)) (h.cons k)).toReal

theorem val_real (hf : FiniteSketch h s) {d : Dof} (hd : d ∈ s.dofs) : val h d = fin (val h d).toReal := by
  have := hf.1 (val h d) (by rw [getData_dofs]; exact List.mem_map_of_mem hd)
  obtain ⟨x, e⟩ := (isFinite_iff _).1 this
  rw [e]; rfl

theorem nudged_hasDeriv (hc : Closed ⟨h, s⟩) (hf : FiniteSketch h s) {k : Nat} (hk : k ∈ s.cons) (hr : Regular h (h.cons k)) (d0 : Dof) :
    HasDerivAt (nudged h k d0) (total (contribs h (h.cons k)) d0) 0 := by
  have de : DepEq (h.withDofs (nudge h d0 0)) h (h.cons k) := depEq_of_val (.refl h) hc (fun d hd => by
    rw [val_real hf hd]; simp [nudge]) hk
  have := hasFDerivAt_loss (H := h) (θ := fun t => nudge h d0 t) (q0 := (0 : ℝ))
    (θ' := fun d => if d = d0 then ContinuousLinearMap.id ℝ ℝ else 0) (fun d => by
      unfold nudge
      by_cases e : d = d0
      · simp only [e, if_true]
        exact (hasFDerivAt_id _).const_add _
      · simp only [e, if_false]
        exact hasFDerivAt_const _ _) (h.cons k) (hf.2 k hk) (de.all.2.2.1 hr)
  have q := this.hasDerivAt
  rw [← de.contribs] at q
  have key : ∀ l : List (Dof × ℝ), (l.map (fun e => e.2 • if e.1 = d0 then ContinuousLinearMap.id ℝ ℝ else 0)).sum 1 = total l d0 := by
    intro l
    induction l with
    | nil => rfl
    | cons e l ih =>
      rw [List.map_cons, List.sum_cons, add_apply, ih, total_cons]
      by_cases w : e.1 = d0 <;> simp [w]
  rw [key] at q
  exact q

/-- the difference quotient -/
noncomputable def quot (h : Heap XR) (k : Nat) (ε : ℝ) (d : Dof) : ℝ := (nudged h k d ε - nudged h k d 0) / ε

theorem quot_tendsto (hc : Closed ⟨h, s⟩) (hf : FiniteSketch h s) {k : Nat} (hk : k ∈ s.cons) (hr : Regular h (h.cons k)) (d : Dof) :
    Tendsto (fun ε => quot h k ε d) (𝓝[≠] 0) (𝓝 (total (contribs h (h.cons k)) d)) := by
  have := (hasDerivAt_iff_tendsto_slope_zero.1 (nudged_hasDeriv hc hf hk hr d))
  refine this.congr fun t => ?_
  unfold quot
  rw [zero_add, smul_eq_mul, div_eq_inv_mul]

theorem loss_here (hc : Closed ⟨h, s⟩) (hf : FiniteSketch h s) {k : Nat} (hk : k ∈ s.cons) {h1 : Heap XR} (r : SameRefs h h1)
    {θ : Dof → ℝ} (e : ∀ d ∈ s.dofs, val h1 d = fin (θ d)) :
    lossValue h1 (h1.cons k) = fin (lossValue (h.withDofs θ) (h.cons k)).toReal := by
  have hc' : Closed ⟨h1, s⟩ := by
    refine ⟨fun c hcc x hx => hc.1 c hcc x ?_, fun k hk x hx => hc.2 k hk x ?_⟩
    · rw [← primRefs_sameRefs r]; exact hx
    · have hx : x ∈ consFields (h1.cons k) := hx
      rw [r.cons] at hx; exact hx
  have hf' : FiniteSketch h1 s := by
    refine ⟨fun x hx => ?_, fun k hk x hx => hf.2 k hk x ?_⟩
    · rw [getData_dofs] at hx
      obtain ⟨d, hd, rfl⟩ := List.mem_map.1 hx
      rw [e d hd]; rfl
    · rw [r.cons] at hx; exact hx
  obtain ⟨x, -, hx⟩ := (hf'.cons hc' k hk).real.loss
  rw [← (depEq_of_val r hc e hk).all.1, ← r.cons, hx]
  rfl

theorem dofs_nodup' (p : PrimCell) : (dofs p).Nodup := by cases p <;> simp [dofs]

/-- the inner loop -/
theorem checkPrimLoop_exact (hc : Closed ⟨h, s⟩) (hf : FiniteSketch h s) {k : Nat} (hk : k ∈ s.cons) {h1 : Heap XR} (g : GradOnly h h1)
    {p : PrimCell} (hp : p ∈ s.cells) {ε : ℝ} (hε : ε ≠ 0) (is : List Nat) (his : ∀ i ∈ is, i < (dofs p).length) :
    checkPrimLoop k (fin ε) (lossValue h1 (h1.cons k)) p (primData h1 p) is h1 =
      .ok (is.map (fun i => fin (quot h k ε ((dofs p).getD i (.px 0)))), h1) := by
  have v1 : ∀ d ∈ s.dofs, val h1 d = fin (val h d).toReal := fun d hd => by rw [g.val]; exact val_real hf hd
  have l0 : ∀ d0, lossValue h1 (h1.cons k) = fin (nudged h k d0 0) := fun d0 =>
    loss_here hc hf hk g.1 fun d hd => by rw [v1 d hd]; simp [nudge]
  induction is with
  | nil => rfl
  | cons i is ih =>
    have hi : i < (dofs p).length := his i (by simp)
    have hd0 : (dofs p).getD i (.px 0) = (dofs p)[i] := by simp [hi]
    have md0 : (dofs p)[i] ∈ s.dofs := by
      refine mem_sketch_dofs.2 ?_
      rwa [dofs_owner (mem_dofs_owner _) (List.getElem_mem hi)]
    have mem : ∀ d ∈ dofs p, d ∈ s.dofs := fun d hd => mem_sketch_dofs.2 (by rwa [dofs_owner (mem_dofs_owner _) hd])
    have new : (primData h1 p).set i ((primData h1 p).getD i 0.0 + fin ε) = (dofs p).map (fun d => fin (nudge h (dofs p)[i] ε d)) := by
      rw [primData_dofs]
      refine List.ext_getElem (by simp) fun j h2 h3 => ?_
      simp only [List.length_map] at h3
      simp only [List.getElem_set, List.getElem_map]
      by_cases e : i = j
      · subst e
        simp only [if_true, List.getD_eq_getElem?_getD, List.getElem?_map, List.getElem?_eq_getElem hi, Option.map_some, Option.getD_some, nudge]
        rw [v1 _ md0, add_fin]
      · rw [if_neg e, v1 _ (mem _ (List.getElem_mem h3)), nudge, if_neg, add_zero]
        intro w
        exact e ((dofs_nodup' p).getElem_inj_iff.1 w).symm
    have hfin : ((dofs p).map (fun d => fin (nudge h (dofs p)[i] ε d))).all Num.isFinite = true := by
      rw [List.all_eq_true]
      intro x hx
      obtain ⟨d, -, rfl⟩ := List.mem_map.1 hx
      rfl
    have hfin0 : (primData h1 p).all Num.isFinite = true := by
      rw [List.all_eq_true, primData_dofs]
      intro x hx
      obtain ⟨d, hd, rfl⟩ := List.mem_map.1 hx
      rw [v1 d (mem d hd)]; rfl
    obtain ⟨h2, e2, p2⟩ := primSetData_ok h1 p ((dofs p).map (fun d => fin (nudge h (dofs p)[i] ε d))) (by rw [primData_dofs]; simp) hfin
    have f2 := primSetData_ok_frame e2
    obtain ⟨h3, e3, -⟩ := primSetData_ok h2 p (primData h1 p) (primData_length h2 h1 p) hfin0
    have e4 : h3 = h1 := primSetData_restore e2 e3
    have v2 : ∀ d ∈ s.dofs, val h2 d = fin (nudge h (dofs p)[i] ε d) := by
      intro d hd
      by_cases w : d ∈ dofs p
      · rw [primData_dofs] at p2
        exact List.map_inj_left.1 p2 d w
      · have : d.owner ≠ p := fun e => w (by rw [← e]; exact mem_dofs_owner d)
        have q := f2.2.2 d.owner this
        rw [primData_dofs, primData_dofs] at q
        rw [List.map_inj_left.1 q d (mem_dofs_owner d), v1 d hd, nudge, if_neg, add_zero]
        rintro rfl
        exact w (List.getElem_mem hi)
    have l2 : lossValue h2 (h2.cons k) = fin (nudged h k (dofs p)[i] ε) := loss_here hc hf hk (g.1.trans f2.1) v2
    unfold checkPrimLoop
    rw [new, e2]
    dsimp only
    rw [e3]
    dsimp only
    rw [e4, ih fun j hj => his j (by simp [hj]), l2, l0 (dofs p)[i]]
    simp only [List.map_cons, hd0, sub_fin, div_fin, if_neg hε, quot]

/-- the difference of the difference quotients and the analytical gradient, for one primitive -/
noncomputable def gap (h : Heap XR) (k : Nat) (T : Dof → ℝ) (p : PrimCell) (ε : ℝ) : ℝ :=
  Real.sqrt ((dofs p).map (fun d => (quot h k ε d - T d) * (quot h k ε d - T d))).sum

theorem checkPrims_exact (hc : Closed ⟨h, s⟩) (hf : FiniteSketch h s) {k : Nat} (hk : k ∈ s.cons) {h1 : Heap XR} (g : GradOnly h h1)
    {T : Dof → ℝ} (hT : ∀ d ∈ s.dofs, gr h1 d = fin (T d)) {ε : ℝ} (hε : ε ≠ 0) (tol : ℝ) (kps : List (Nat × PrimCell))
    (hp : ∀ kp ∈ kps, kp.2 ∈ s.cells) :
    ((∀ kp ∈ kps, gap h k T kp.2 ε < tol) → checkPrims k (fin ε) (lossValue h1 (h1.cons k)) (fin tol) kps h1 = .ok h1) ∧
    ((∃ kp ∈ kps, tol < gap h k T kp.2 ε) → checkPrims k (fin ε) (lossValue h1 (h1.cons k)) (fin tol) kps h1 = .error h1) := by
  induction kps with
  | nil => simp [checkPrims]
  | cons kp kps ih =>
    have ih := ih fun x hx => hp x (by simp [hx])
    have hp := hp kp (by simp)
    have mem : ∀ d ∈ dofs kp.2, d ∈ s.dofs := fun d hd => mem_sketch_dofs.2 (by rwa [dofs_owner (mem_dofs_owner _) hd])
    have ld : (primData h1 kp.2).length = (dofs kp.2).length := by rw [primData_dofs, List.length_map]
    have e1 := checkPrimLoop_exact hc hf hk g hp hε (List.range (dofs kp.2).length) (fun i hi => List.mem_range.1 hi)
    have e2 : (List.range (dofs kp.2).length).map (fun i => fin (quot h k ε ((dofs kp.2).getD i (.px 0)))) =
        (dofs kp.2).map (fun d => fin (quot h k ε d)) := by
      refine List.ext_getElem (by simp) fun j h2 h3 => ?_
      simp only [List.length_map] at h3
      simp [h3]
    have e3 : primGrad h1 kp.2 = (dofs kp.2).map (fun d => fin (T d)) := by
      rw [primGrad_dofs]; exact List.map_congr_left fun d hd => hT d (mem d hd)
    have e4 : normL (List.zipWith (· - ·) ((dofs kp.2).map (fun d => fin (quot h k ε d))) ((dofs kp.2).map (fun d => fin (T d)))) =
        fin (gap h k T kp.2 ε) := by
      rw [zip_maps]
      have : (dofs kp.2).map (fun x => fin (quot h k ε x) - fin (T x)) = ((dofs kp.2).map (fun x => quot h k ε x - T x)).map fin := by
        rw [List.map_map]; rfl
      rw [this, normL, dotV_eq, dotL_map, sqrt_fin_of_nonneg, gap]
      · congr 3
        exact zip_maps ..
      · refine List.sum_nonneg fun x hx => ?_
        rw [zip_maps] at hx
        obtain ⟨d, -, rfl⟩ := List.mem_map.1 hx
        exact mul_self_nonneg _
    unfold checkPrims
    dsimp only
    rw [ld, e1, e2, e3, if_pos (by rw [List.length_map])]
    dsimp only
    rw [e4, lt_fin]
    constructor
    · intro w
      rw [if_pos (by simpa using w kp (by simp))]
      exact ih.1 fun x hx => w x (by simp [hx])
    · rintro ⟨x, hx, w⟩
      rcases List.mem_cons.1 hx with rfl | hx
      · rw [if_neg (by simpa using w.le)]
      · by_cases q : gap h k T kp.2 ε < tol
        · rw [if_pos (by simpa using q)]
          exact ih.2 ⟨x, hx, w⟩
        · rw [if_neg (by simpa using q)]

theorem gap_tendsto (hc : Closed ⟨h, s⟩) (hf : FiniteSketch h s) {k : Nat} (hk : k ∈ s.cons) (hr : Regular h (h.cons k)) (T : Dof → ℝ)
    (p : PrimCell) : Tendsto (gap h k T p) (𝓝[≠] 0)
      (𝓝 (Real.sqrt ((dofs p).map (fun d => (T d - total (contribs h (h.cons k)) d) * (T d - total (contribs h (h.cons k)) d))).sum)) := by
  unfold gap
  refine (Real.continuous_sqrt.tendsto _).comp ?_
  generalize dofs p = l
  induction l with
  | nil => exact tendsto_const_nhds
  | cons d l ih =>
    simp only [List.map_cons, List.sum_cons]
    refine Tendsto.add ?_ ih
    have q := (quot_tendsto hc hf hk hr d).sub_const (T d)
    have := q.mul q
    convert this using 2
    ring

end Isotope
