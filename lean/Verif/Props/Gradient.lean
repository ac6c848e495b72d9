import Verif.Lemmas.Param
import Verif.Props.Bookkeeping

/-!
# Gradients (C20-C22, C24, C25, C51)

All theorems of this file are about exact arithmetic (`XR`).
-/

namespace Isotope
open XR

section
variable {h : Heap XR} {s : Sketch}

theorem primRefs_sameRefs {h' : Heap XR} (r : SameRefs h h') (c : PrimCell) : primFields h' c = primFields h c := by
  cases c <;> simp [primFields, r.lines, r.arcCenter, r.circleCenter]

theorem getLoss_fin {h : Heap XR} {s : Sketch} (hl : ∀ k ∈ s.cons, ∃ x : ℝ, lossValue h (h.cons k) = fin x) :
    getLoss h s = fin ((s.cons.map (fun k => (lossValue h (h.cons k)).toReal)).sum) := by
  rw [C15_sum, zero_lit]
  unfold getLossPerConstraint
  have : ∀ (l : List Nat) (a : ℝ), (∀ k ∈ l, ∃ x : ℝ, lossValue h (h.cons k) = fin x) →
      (l.map (fun c => lossValue h (h.cons c))).foldl (· + ·) (fin a) =
        fin (a + (l.map (fun k => (lossValue h (h.cons k)).toReal)).sum) := by
    intro l
    induction l with
    | nil => intro a _; simp
    | cons k l ih =>
      intro a hl
      obtain ⟨x, hx⟩ := hl k (by simp)
      simp only [List.map_cons, List.foldl_cons, hx, XR.add_fin, List.sum_cons]
      rw [ih _ fun k hk => hl k (by simp [hk]), add_assoc]
      rfl
  rw [this _ 0 hl, zero_add]

/-- what `set_data` leaves behind -/
theorem setData_spec (hn : s.cells.Nodup) (hc : Closed ⟨h, s⟩) (hf : FiniteSketch h s) (v : Fin (getNDofs h s) → ℝ) :
    ∃ h', setData h s (List.ofFn (fun i => fin (v i))) = .ok h' ∧ SameRefs h h' ∧
      ∀ k ∈ s.cons, ∃ x : ℝ, lossValue h' (h'.cons k) = fin x ∧
        x = (lossValue (h.withDofs (coordOf h s v)) (h.cons k)).toReal := by
  obtain ⟨h', e, r, ed⟩ := setData_vec hn v
  refine ⟨h', e, r, fun k hk => ?_⟩
  have hc' : Closed ⟨h', s⟩ := by
    refine ⟨fun c hcc x hx => hc.1 c hcc x ?_, fun k hk x hx => hc.2 k hk x ?_⟩
    · rw [← primRefs_sameRefs r]; exact hx
    · have hx : x ∈ consFields (h'.cons k) := hx
      rw [r.cons] at hx; exact hx
  have hf' : FiniteSketch h' s := by
    refine ⟨fun x hx => ?_, fun k hk x hx => hf.2 k hk x ?_⟩
    · rw [ed] at hx
      obtain ⟨i, rfl⟩ := List.mem_ofFn.1 hx
      rfl
    · rw [r.cons] at hx; exact hx
  obtain ⟨x, -, hx⟩ := (hf'.cons hc' k hk).real.loss
  refine ⟨x, hx, ?_⟩
  rw [← (depEq_of_data r hc ed hk).all.1, ← r.cons, hx]
  rfl

theorem lossAfter_eq (hn : s.cells.Nodup) (hc : Closed ⟨h, s⟩) (hf : FiniteSketch h s) (v : Fin (getNDofs h s) → ℝ) :
    lossAfter h s v = (s.cons.map (fun k => (lossValue (h.withDofs (coordOf h s v)) (h.cons k)).toReal)).sum := by
  obtain ⟨h', e, r, hl⟩ := setData_spec hn hc hf v
  unfold lossAfter
  rw [e]; dsimp only
  rw [getLoss_fin fun k hk => (hl k hk).imp fun x hx => hx.1]
  show List.sum _ = List.sum _
  congr 1
  refine List.map_congr_left fun k hk => ?_
  obtain ⟨x, hx, hx'⟩ := hl k hk
  rw [hx, ← hx']
  rfl

theorem entryAfter_eq (hn : s.cells.Nodup) (hc : Closed ⟨h, s⟩) (hf : FiniteSketch h s) (i : Nat) (hi : i < s.cons.length)
    (v : Fin (getNDofs h s) → ℝ) :
    entryAfter h s i v = (lossValue (h.withDofs (coordOf h s v)) (h.cons s.cons[i])).toReal := by
  obtain ⟨h', e, r, hl⟩ := setData_spec hn hc hf v
  unfold entryAfter
  rw [e]; dsimp only
  rw [List.getD_eq_getElem?_getD, C15_entries]
  obtain ⟨x, hx, hx'⟩ := hl _ (List.getElem_mem hi)
  simp only [List.getElem?_eq_getElem hi, Option.map_some, Option.getD_some, hx, ← hx']
  rfl

theorem hasFDerivAt_list_sum {E : Type*} [NormedAddCommGroup E] [NormedSpace ℝ E] {ι : Type*} (l : List ι) (f : ι → E → ℝ)
    (f' : ι → E →L[ℝ] ℝ) (x : E) (hd : ∀ k ∈ l, HasFDerivAt (f k) (f' k) x) :
    HasFDerivAt (fun v => (l.map (fun k => f k v)).sum) ((l.map f').sum) x := by
  induction l with
  | nil => exact hasFDerivAt_const _ _
  | cons k l ih =>
    simp only [List.map_cons, List.sum_cons]
    exact (hd k (by simp)).add (ih fun k hk => hd k (by simp [hk]))

theorem regular_not_degenerate {c : Constraint XR} (hf : FiniteCons h c) (hr : Regular h c) : ¬DegenerateEqLen h c := by
  intro hd
  cases c <;> try exact hd
  rename_i l m
  simp only [DegenerateEqLen] at hd
  rcases hd with hd | hd
  · exact hr.1 (by unfold ptOf; unfold lineStart lineEnd ptData at hd; rw [hd])
  · exact hr.2 (by unfold ptOf; unfold lineStart lineEnd ptData at hd; rw [hd])

/-! ## C20, C21 -/

/-- **C20.** `set_data` succeeds with every vector of reals, and the losses afterwards are real numbers: the functions
`lossAfter` and `entryAfter` differentiated below never use their default branches. -/
theorem C20_domain (hn : s.cells.Nodup) (hc : Closed ⟨h, s⟩) (hf : FiniteSketch h s) (v : Fin (getNDofs h s) → ℝ) :
    ∃ h', setData h s (List.ofFn (fun i => fin (v i))) = .ok h' ∧ getLoss h' s = fin (lossAfter h s v) ∧
      getLossPerConstraint h' s = (List.range s.cons.length).map (fun i => fin (entryAfter h s i v)) := by
  obtain ⟨h', e, r, hl⟩ := setData_spec hn hc hf v
  refine ⟨h', e, ?_, ?_⟩
  · unfold lossAfter
    rw [e]; dsimp only
    rw [getLoss_fin fun k hk => (hl k hk).imp fun x hx => hx.1]
    rfl
  · apply List.ext_getElem?
    intro i
    rw [C15_entries, List.getElem?_map]
    by_cases hi : i < s.cons.length
    · obtain ⟨x, hx, -⟩ := hl _ (List.getElem_mem hi)
      unfold entryAfter
      rw [e]; dsimp only
      simp only [List.getD_eq_getElem?_getD, C15_entries, List.getElem?_range hi, Option.map_some]
      simp only [List.getElem?_eq_getElem hi, Option.map_some, Option.getD_some, hx]
      rfl
    · simp [hi]

/-- **C20.** `get_gradient` is the gradient of the loss as a function of the data vector. -/
theorem C20_gradient (hn : s.cells.Nodup) (hc : Closed ⟨h, s⟩) (hf : FiniteSketch h s)
    (hr : ∀ k ∈ s.cons, Regular h (h.cons k)) (q : Fin (getNDofs h s) → ℝ)
    (hq : getData h s = List.ofFn (fun i => fin (q i))) :
    ∃ g h', getGradient h s = .ok (List.ofFn (fun i => fin (g i)), h') ∧ HasFDerivAt (lossAfter h s) (linForm g) q := by
  have hfc := hf.cons hc
  obtain ⟨h', -, -, e⟩ := (getGradient_exact h s hfc).1 fun k hk => regular_not_degenerate (hfc k hk) (hr k hk)
  refine ⟨fun i => total (s.cons.flatMap (fun k => contribs h (h.cons k)))
    (s.dofs[i.1]'(by rw [dofs_length h]; exact i.2)), h', ?_, ?_⟩
  · rw [e]
    congr 2
    apply List.ext_getElem
    · simp [dofs_length h s]
    · intro i h1 h2; simp
  · have hl : lossAfter h s = fun v => (s.cons.map (fun k => (lossValue (h.withDofs (coordOf h s v)) (h.cons k)).toReal)).sum :=
      funext fun v => lossAfter_eq hn hc hf v
    rw [hl, ← sum_contribs hn]
    have := hasFDerivAt_list_sum s.cons (fun k v => (lossValue (h.withDofs (coordOf h s v)) (h.cons k)).toReal)
      (fun k => ((contribs h (h.cons k)).map (fun e => e.2 • coordOf' h s e.1)).sum) q (by
        intro k hk
        have de := depEq_of_data (SameRefs.refl h) hc hq hk
        have := hasFDerivAt_loss (H := h) (θ := coordOf h s) (q0 := q) (hasFDerivAt_coordOf q) (h.cons k) (hf.2 k hk)
          (de.all.2.2.1 (hr k hk))
        rw [de.contribs]
        exact this)
    have e2 : ((s.cons.flatMap (fun k => contribs h (h.cons k))).map (fun e => e.2 • coordOf' h s e.1)).sum =
        (s.cons.map (fun k => ((contribs h (h.cons k)).map (fun e => e.2 • coordOf' h s e.1)).sum)).sum := by
      generalize s.cons = l
      induction l with
      | nil => rfl
      | cons k l ih => simp only [List.flatMap_cons, List.map_append, List.sum_append, ih, List.map_cons, List.sum_cons]
    rw [e2]
    exact this

/-- **C21.** Row `i` of `get_jacobian` is the gradient of entry `i` of `get_loss_per_constraint`, and the rows add up to
`get_gradient`. -/
theorem C21_jacobian (hn : s.cells.Nodup) (hc : Closed ⟨h, s⟩) (hf : FiniteSketch h s)
    (hr : ∀ k ∈ s.cons, Regular h (h.cons k)) (q : Fin (getNDofs h s) → ℝ)
    (hq : getData h s = List.ofFn (fun i => fin (q i))) :
    ∃ (J : Nat → Fin (getNDofs h s) → ℝ) (h' : Heap XR),
      getJacobian h s = .ok ((List.range s.cons.length).map (fun i => List.ofFn (fun j => fin (J i j))), h') ∧
      (∀ i < s.cons.length, HasFDerivAt (entryAfter h s i) (linForm (J i)) q) ∧
      ∃ h'', getGradient h s = .ok (List.ofFn (fun j => fin (∑ i ∈ Finset.range s.cons.length, J i j)), h'') := by
  have hfc := hf.cons hc
  have hnd := fun k hk => regular_not_degenerate (hfc k hk) (hr k hk)
  obtain ⟨h', -, e⟩ := (jacobianRows_exact h s s.cons h (GradOnly.refl h) hfc).1 hnd
  obtain ⟨h'', -, -, eg⟩ := (getGradient_exact h s hfc).1 hnd
  refine ⟨fun i j => total (contribs h (h.cons (s.cons.getD i 0))) (s.dofs[j.1]'(by rw [dofs_length h]; exact j.2)), h',
    ?_, fun i hi => ?_, h'', ?_⟩
  · unfold getJacobian
    rw [e]
    congr 2
    apply List.ext_getElem
    · simp
    · intro i h1 h2
      apply List.ext_getElem
      · simp [dofs_length h s]
      · intro j h3 h4
        simp only [List.length_map] at h1
        simp [h1]
  · have hl : entryAfter h s i = fun v => (lossValue (h.withDofs (coordOf h s v)) (h.cons s.cons[i])).toReal :=
      funext fun v => entryAfter_eq hn hc hf i hi v
    rw [hl, ← sum_contribs hn]
    have hk : s.cons[i] ∈ s.cons := List.getElem_mem hi
    have hgd : s.cons.getD i 0 = s.cons[i] := by simp [hi]
    have de := depEq_of_data (SameRefs.refl h) hc hq hk
    have := hasFDerivAt_loss (H := h) (θ := coordOf h s) (q0 := q) (hasFDerivAt_coordOf q) (h.cons s.cons[i])
      (hf.2 _ hk) (de.all.2.2.1 (hr _ hk))
    rw [hgd, de.contribs]
    exact this
  · rw [eg]
    congr 2
    apply List.ext_getElem
    · simp [dofs_length h s]
    · intro j h1 h2
      simp only [List.getElem_map, List.getElem_ofFn]
      congr 1
      simp only [List.length_map] at h1
      generalize s.dofs[j] = d
      have : ∀ l : List Nat, total (l.flatMap (fun k => contribs h (h.cons k))) d =
          ∑ i ∈ Finset.range l.length, total (contribs h (h.cons (l.getD i 0))) d := by
        intro l
        induction l with
        | nil => simp
        | cons k l ih =>
          rw [List.flatMap_cons, total_append, ih, List.length_cons, Finset.sum_range_succ', add_comm]
          simp
      exact this _

/-- **C20** for histories: as long as only safe operations are made, the hypotheses on the sketch hold. -/
theorem C20_history (pinv : PInv XR) (ops : List (Op XR)) (hlen : ops.length < 2 ^ 64)
    (hdel : ∀ id, Op.deletePrimitive id ∉ ops) (hw : ∀ op ∈ ops, op.isRefWrite = false) (t : Nat)
    (hf : FiniteSketch (stateAt pinv ops t).heap (stateAt pinv ops t).sketch)
    (hr : ∀ k ∈ (stateAt pinv ops t).sketch.cons, Regular (stateAt pinv ops t).heap ((stateAt pinv ops t).heap.cons k)) :
    ∃ (q g : Fin (getNDofs (stateAt pinv ops t).heap (stateAt pinv ops t).sketch) → ℝ) (h' : Heap XR),
      getData (stateAt pinv ops t).heap (stateAt pinv ops t).sketch = List.ofFn (fun i => fin (q i)) ∧
      getGradient (stateAt pinv ops t).heap (stateAt pinv ops t).sketch = .ok (List.ofFn (fun i => fin (g i)), h') ∧
      HasFDerivAt (lossAfter (stateAt pinv ops t).heap (stateAt pinv ops t).sketch) (linForm g) q := by
  generalize hw' : stateAt pinv ops t = w at *
  have hn : w.sketch.cells.Nodup := hw' ▸ (C05_no_duplicates pinv ops hlen t).1
  have hc : Closed w := hw' ▸ C06_closed_without_delete pinv ops hlen hdel hw t
  have hq : getData w.heap w.sketch = List.ofFn (fun i : Fin (getNDofs w.heap w.sketch) =>
      fin ((getData w.heap w.sketch)[i.1]'(by rw [getData_length]; exact i.2)).toReal) := by
    apply List.ext_getElem
    · simp [getData_length]
    · intro i h1 h2
      obtain ⟨x, hx⟩ := (isFinite_iff _).1 (hf.1 _ (List.getElem_mem h1))
      simp only [List.getElem_ofFn, hx, toReal]
  obtain ⟨g, h', e, hd⟩ := C20_gradient hn hc hf hr _ hq
  exact ⟨_, g, h', hq, e, hd⟩

/-! ## C22 -/

/-- **C22.** With finite numbers `get_gradient` panics iff an `EqualLength` constraint has a line of length zero. -/
theorem C22_panics_iff (hc : Closed ⟨h, s⟩) (hf : FiniteSketch h s) :
    (∃ h', getGradient h s = .error h') ↔
      ∃ k ∈ s.cons, ∃ l m, h.cons k = .eqLen l m ∧ (¬ProperLine h l ∨ ¬ProperLine h m) := by
  have hfc := hf.cons hc
  have key : ∀ k ∈ s.cons, DegenerateEqLen h (h.cons k) ↔
      ∃ l m, h.cons k = .eqLen l m ∧ (¬ProperLine h l ∨ ¬ProperLine h m) := by
    intro k hk
    have hr := (hfc k hk).real
    have pl : ∀ {l : Nat} {x1 y1 x2 y2 : ℝ}, lineStart h l = ⟨fin x1, fin y1⟩ → lineEnd h l = ⟨fin x2, fin y2⟩ →
        (¬ProperLine h l ↔ lineStart h l = lineEnd h l) := by
      intro l x1 y1 x2 y2 e1 e2
      rw [e1, e2]
      unfold lineStart ptData at e1
      unfold lineEnd ptData at e2
      unfold ProperLine ptOf
      rw [not_not, e1, e2]
      simp only [toReal, Vec2.mk.injEq, fin.injEq]
      constructor
      · intro hh
        have h0 := congrFun (congrArg (fun p : EuclideanSpace ℝ (Fin 2) => p.ofLp) hh) 0
        have h1 := congrFun (congrArg (fun p : EuclideanSpace ℝ (Fin 2) => p.ofLp) hh) 1
        simpa [pt] using And.intro h0 h1
      · rintro ⟨rfl, rfl⟩; rfl
    generalize h.cons k = c at hr
    cases hr with
    | @eqLen l m x1 y1 x2 y2 u1 v1 u2 v2 e1 e2 f1 f2 =>
      simp only [DegenerateEqLen, Constraint.eqLen.injEq]
      constructor
      · intro hd; exact ⟨l, m, ⟨rfl, rfl⟩, by rwa [pl e1 e2, pl f1 f2]⟩
      · rintro ⟨_, _, ⟨rfl, rfl⟩, hd⟩; rwa [pl e1 e2, pl f1 f2] at hd
    | _ => simp [DegenerateEqLen]
  obtain ⟨A, B⟩ := getGradient_exact h s hfc
  constructor
  · rintro ⟨h', e⟩
    by_contra hcon
    obtain ⟨h1, -, -, e1⟩ := A fun k hk hd => hcon ⟨k, hk, (key k hk).1 hd⟩
    rw [e1] at e
    cases e
  · rintro ⟨k, hk, hd⟩
    exact B ⟨k, hk, (key k hk).2 hd⟩

/-! ## C24 -/

/-- **C24.** A satisfied constraint has a zero Jacobian row. -/
theorem C24_row (hc : Closed ⟨h, s⟩) (hf : FiniteSketch h s) (m : List (List XR)) (h' : Heap XR)
    (e : getJacobian h s = .ok (m, h')) (i : Nat) (row : List XR) (hi : m[i]? = some row)
    (hz : (getLossPerConstraint h s)[i]? = some (fin 0)) : ∀ x ∈ row, x = fin 0 := by
  have hfc := hf.cons hc
  obtain ⟨A, B⟩ := jacobianRows_exact h s s.cons h (GradOnly.refl h) hfc
  by_cases hd : ∃ k ∈ s.cons, DegenerateEqLen h (h.cons k)
  · obtain ⟨h1, e1⟩ := B hd
    unfold getJacobian at e
    rw [e1] at e
    cases e
  · have hnd : ∀ k ∈ s.cons, ¬DegenerateEqLen h (h.cons k) := fun k hk hk' => hd ⟨k, hk, hk'⟩
    obtain ⟨h1, -, e1⟩ := A hnd
    unfold getJacobian at e
    rw [e1] at e
    cases e
    rw [C15_entries] at hz
    rw [List.getElem?_map] at hi
    cases hk : s.cons[i]? with
    | none => rw [hk] at hi; cases hi
    | some k =>
      rw [hk] at hi hz
      have hk' := List.mem_of_getElem? hk
      cases hi
      intro x hx
      obtain ⟨d, -, rfl⟩ := List.mem_map.1 hx
      rw [total_zero ((hfc k hk').real.contribs_zero (Option.some.inj hz) (hnd k hk'))]

/-- **C24.** A solved sketch has a zero gradient. -/
theorem C24_gradient (hc : Closed ⟨h, s⟩) (hf : FiniteSketch h s) (g : List XR) (h' : Heap XR)
    (e : getGradient h s = .ok (g, h')) (hz : getLoss h s = fin 0) : ∀ x ∈ g, x = fin 0 := by
  have hfc := hf.cons hc
  obtain ⟨A, B⟩ := getGradient_exact h s hfc
  by_cases hd : ∃ k ∈ s.cons, DegenerateEqLen h (h.cons k)
  · obtain ⟨h1, e1⟩ := B hd
    rw [e1] at e
    cases e
  · have hnd : ∀ k ∈ s.cons, ¬DegenerateEqLen h (h.cons k) := fun k hk hk' => hd ⟨k, hk, hk'⟩
    obtain ⟨h1, -, -, e1⟩ := A hnd
    rw [e1] at e
    cases e
    intro x hx
    obtain ⟨d, -, rfl⟩ := List.mem_map.1 hx
    rw [total_zero]
    intro c hcc
    obtain ⟨k, hk, hcc⟩ := List.mem_flatMap.1 hcc
    exact (hfc k hk).real.contribs_zero ((C15_zero_iff h s).1 hz k hk) (hnd k hk) c hcc

/-! ## C25 -/

/-- **C25.** The forces added by one constraint other than `FixPoint` to a set of points containing those of the
constraint add up to zero. -/
theorem C25_constraint {c : Constraint XR} (hf : FiniteCons h c) (hfix : ∀ p d, c ≠ .fix p d) (P : List Nat)
    (hP : P.Nodup) (hdeps : ∀ a, PrimCell.point a ∈ consDeps h c → a ∈ P) (gx gy : Nat → ℝ)
    (hg : ∀ a ∈ P, (h.points a).grad = ⟨fin (gx a), fin (gy a)⟩) (h' : Heap XR) (e : updateGradient h c = .ok h') :
    ∃ gx' gy' : Nat → ℝ, (∀ a ∈ P, (h'.points a).grad = ⟨fin (gx' a), fin (gy' a)⟩) ∧
      (P.map gx').sum = (P.map gx).sum ∧ (P.map gy').sum = (P.map gy).sum := by
  have hr := hf.real
  have hnf : ¬IsFix c := by intro hi; cases c <;> first | exact hi | exact hfix _ _ rfl
  obtain ⟨A, B⟩ := foldChunks_exact h h (chunks h c) (GradOnly.refl h)
  rw [updateGradient_eq] at e
  have hnd : ¬DegenerateEqLen h c := by
    intro hd
    obtain ⟨h1, e1⟩ := B (hr.chunks_finite.2 hd)
    rw [e1] at e; cases e
  obtain ⟨h1, e1, -, hv⟩ := A (hr.chunks_finite.1 hnd)
  rw [e1] at e; cases e
  obtain ⟨zx, zy⟩ := hr.sum_zero hnf hnd
  refine ⟨fun a => gx a + total (contribs h c) (.px a), fun a => gy a + total (contribs h c) (.py a), fun a ha => ?_, ?_, ?_⟩
  · have ex := hv (.px a) (gx a) (by simp only [gr, hg a ha])
    have ey := hv (.py a) (gy a) (by simp only [gr, hg a ha])
    simp only [gr] at ex ey
    cases hgr : (h'.points a).grad with
    | mk x y => rw [hgr] at ex ey; simp only at ex ey; rw [ex, ey]; rfl
  · rw [List.sum_map_add, sum_total_px P hP, zx, add_zero]
    intro d hd a ha
    have := contribs_owner d hd
    rw [ha] at this
    exact hdeps a this
  · rw [List.sum_map_add, sum_total_py P hP, zy, add_zero]
    intro d hd a ha
    have := contribs_owner d hd
    rw [ha] at this
    exact hdeps a this

/-- the points of the sketch -/
def Sketch.points (s : Sketch) : List Nat := s.cells.filterMap (fun c => match c with | .point a => some a | _ => none)

/-- **C25.** In a sketch without `FixPoint` constraints the gradients of the points add up to zero. -/
theorem C25_sketch (hn : s.cells.Nodup) (hc : Closed ⟨h, s⟩) (hf : FiniteSketch h s)
    (hfix : ∀ k ∈ s.cons, ∀ p d, h.cons k ≠ .fix p d) (g : List XR) (h' : Heap XR) (e : getGradient h s = .ok (g, h')) :
    ∃ gx gy : Nat → ℝ, (∀ a ∈ s.points, (h'.points a).grad = ⟨fin (gx a), fin (gy a)⟩) ∧
      (s.points.map gx).sum = 0 ∧ (s.points.map gy).sum = 0 := by
  have hfc := hf.cons hc
  have hmem : ∀ a, a ∈ s.points ↔ PrimCell.point a ∈ s.cells := by
    intro a
    unfold Sketch.points
    rw [List.mem_filterMap]
    constructor
    · rintro ⟨c, hcc, hca⟩
      cases c <;> simp at hca
      rwa [← hca]
    · intro ha; exact ⟨_, ha, rfl⟩
  have hP : s.points.Nodup := by
    unfold Sketch.points
    refine hn.filterMap ?_
    intro a b c hca hcb
    cases a <;> cases b <;> simp_all
  obtain ⟨A, B⟩ := getGradient_exact h s hfc
  by_cases hd : ∃ k ∈ s.cons, DegenerateEqLen h (h.cons k)
  · obtain ⟨h1, e1⟩ := B hd
    rw [e1] at e
    cases e
  · have hnd : ∀ k ∈ s.cons, ¬DegenerateEqLen h (h.cons k) := fun k hk hk' => hd ⟨k, hk, hk'⟩
    obtain ⟨h1, -, hv, e1⟩ := A hnd
    rw [e1] at e
    cases e
    refine ⟨fun a => total (s.cons.flatMap (fun k => contribs h (h.cons k))) (.px a),
      fun a => total (s.cons.flatMap (fun k => contribs h (h.cons k))) (.py a), fun a ha => ?_, ?_, ?_⟩
    · have ex := hv (.px a) (mem_sketch_dofs.2 ((hmem a).1 ha))
      have ey := hv (.py a) (mem_sketch_dofs.2 ((hmem a).1 ha))
      simp only [gr] at ex ey
      cases hgr : (h'.points a).grad with
      | mk x y => rw [hgr] at ex ey; simp only at ex ey; rw [ex, ey]
    · rw [sum_total_px _ hP]
      · have : ∀ l : List Nat, (∀ k ∈ l, k ∈ s.cons) → sumX (l.flatMap (fun k => contribs h (h.cons k))) = 0 := by
          intro l
          induction l with
          | nil => intro _; rfl
          | cons k l ih =>
            intro hl
            have hk := hl k (by simp)
            rw [List.flatMap_cons, sumX_append, ih fun k hk => hl k (by simp [hk])]
            rw [((hfc k hk).real.sum_zero (by
              intro hi
              have := hfix k hk
              generalize h.cons k = c at *
              cases c <;> first | exact hi | exact this _ _ rfl) (hnd k hk)).1, add_zero]
        exact this _ fun _ hk => hk
      · intro d hd a ha
        obtain ⟨k, hk, hd⟩ := List.mem_flatMap.1 hd
        have := contribs_owner d hd
        rw [ha] at this
        rw [hmem]
        unfold consDeps at this
        rcases List.mem_append.1 this with hp | hp
        · exact hc.2 k hk _ hp
        · obtain ⟨x, hx, hp⟩ := List.mem_flatMap.1 hp
          exact hc.1 x (hc.2 k hk x hx) _ hp
    · rw [sum_total_py _ hP]
      · have : ∀ l : List Nat, (∀ k ∈ l, k ∈ s.cons) → sumY (l.flatMap (fun k => contribs h (h.cons k))) = 0 := by
          intro l
          induction l with
          | nil => intro _; rfl
          | cons k l ih =>
            intro hl
            have hk := hl k (by simp)
            rw [List.flatMap_cons, sumY_append, ih fun k hk => hl k (by simp [hk])]
            rw [((hfc k hk).real.sum_zero (by
              intro hi
              have := hfix k hk
              generalize h.cons k = c at *
              cases c <;> first | exact hi | exact this _ _ rfl) (hnd k hk)).2, add_zero]
        exact this _ fun _ hk => hk
      · intro d hd a ha
        obtain ⟨k, hk, hd⟩ := List.mem_flatMap.1 hd
        have := contribs_owner d hd
        rw [ha] at this
        rw [hmem]
        unfold consDeps at this
        rcases List.mem_append.1 this with hp | hp
        · exact hc.2 k hk _ hp
        · obtain ⟨x, hx, hp⟩ := List.mem_flatMap.1 hp
          exact hc.1 x (hc.2 k hk x hx) _ hp

/-! ## C51 -/

/-- the heap in which arc `a` has the parameters `v` = (cx, cy, radius, start angle, end angle) -/
noncomputable def arcWith (h : Heap XR) (a : Nat) (v : Fin 5 → ℝ) : Heap XR :=
  { h with
    points := Function.update h.points (h.arcs a).center
      { h.points (h.arcs a).center with data := ⟨fin (v 0), fin (v 1)⟩ }
    arcs := Function.update h.arcs a { h.arcs a with data := ⟨fin (v 2), fin (v 3), fin (v 4)⟩ } }

/-- the five entries of a row -/
noncomputable def rowVec (r : Row5 XR) : Fin 5 → ℝ := ![r.a0.toReal, r.a1.toReal, r.a2.toReal, r.a3.toReal, r.a4.toReal]

/-- **C51.** `start_point` and `end_point` are finite and at distance `|radius|` from the centre. -/
theorem C51_distance {a : Nat} {cx cy r t0 t1 : ℝ} (ha : ArcAt h a cx cy r t0 t1) :
    (∃ x y : ℝ, (h.arcs a).startPoint h = ⟨fin x, fin y⟩ ∧ dist (pt x y) (pt cx cy) = |r|) ∧
    (∃ x y : ℝ, (h.arcs a).endPoint h = ⟨fin x, fin y⟩ ∧ dist (pt x y) (pt cx cy) = |r|) := by
  obtain ⟨e1, e2⟩ := ha
  unfold PointAt at e1
  have key : ∀ t : ℝ, dist (pt (cx + r * Real.cos t) (cy + r * Real.sin t)) (pt cx cy) = |r| := by
    intro t
    rw [← hyp_eq_dist, hyp, ← Real.sqrt_sq_eq_abs]
    congr 1
    have := Real.cos_sq_add_sin_sq t
    linear_combination r ^ 2 * this
  constructor
  · refine ⟨cx + r * Real.cos t0, cy + r * Real.sin t0, ?_, key t0⟩
    simp [Arc.startPoint, e1, e2, Arc.radius, Arc.startAngle]
  · refine ⟨cx + r * Real.cos t1, cy + r * Real.sin t1, ?_, key t1⟩
    simp [Arc.endPoint, e1, e2, Arc.radius, Arc.endAngle]

theorem proj_apply {n : Nat} (i : Fin n) (x : Fin n → ℝ) :
    ContinuousLinearMap.proj (R := ℝ) (φ := fun _ => ℝ) i x = x i := rfl

theorem hasFDerivAt_polar (i j : Fin 5) (v : Fin 5 → ℝ) :
    HasFDerivAt (fun w : Fin 5 → ℝ => w i + w 2 * Real.cos (w j))
      (ContinuousLinearMap.proj (R := ℝ) (φ := fun _ => ℝ) i +
        (Real.cos (v j) • ContinuousLinearMap.proj (R := ℝ) (φ := fun _ => ℝ) 2 +
        (-(v 2) * Real.sin (v j)) • ContinuousLinearMap.proj (R := ℝ) (φ := fun _ => ℝ) j)) v ∧
    HasFDerivAt (fun w : Fin 5 → ℝ => w i + w 2 * Real.sin (w j))
      (ContinuousLinearMap.proj (R := ℝ) (φ := fun _ => ℝ) i +
        (Real.sin (v j) • ContinuousLinearMap.proj (R := ℝ) (φ := fun _ => ℝ) 2 +
        (v 2 * Real.cos (v j)) • ContinuousLinearMap.proj (R := ℝ) (φ := fun _ => ℝ) j)) v := by
  have p : ∀ k : Fin 5, HasFDerivAt (fun w : Fin 5 → ℝ => w k) (ContinuousLinearMap.proj (R := ℝ) (φ := fun _ => ℝ) k) v :=
    fun k => (ContinuousLinearMap.proj (R := ℝ) (φ := fun _ => ℝ) k).hasFDerivAt
  constructor
  · refine ((p i).add ((p 2).mul (p j).cos)).congr_fderiv ?_
    ext1 x
    simp only [add_apply, smul_apply, proj_apply, smul_eq_mul]
    ring
  · refine ((p i).add ((p 2).mul (p j).sin)).congr_fderiv ?_
    ext1 x
    simp only [add_apply, smul_apply, proj_apply, smul_eq_mul]
    ring

/-- **C51.** The rows of `start_point_gradient` are the derivatives of the coordinates of `start_point`. -/
theorem C51_start_gradient (h : Heap XR) (a : Nat) (v : Fin 5 → ℝ) :
    HasFDerivAt (fun w => ((((arcWith h a w).arcs a).startPoint (arcWith h a w)).x).toReal)
      (linForm (rowVec ((arcWith h a v).arcs a).startPointGradient.r0)) v ∧
    HasFDerivAt (fun w => ((((arcWith h a w).arcs a).startPoint (arcWith h a w)).y).toReal)
      (linForm (rowVec ((arcWith h a v).arcs a).startPointGradient.r1)) v := by
  have z : ((0.0 : ℝ)) = 0 := by norm_num
  have o : ((1.0 : ℝ)) = 1 := by norm_num
  constructor
  · have hf : (fun w => ((((arcWith h a w).arcs a).startPoint (arcWith h a w)).x).toReal) = fun w : Fin 5 → ℝ => w 0 + w 2 * Real.cos (w 3) := by
      funext w; simp [arcWith, Arc.startPoint, Arc.radius, Arc.startAngle]
    rw [hf]
    refine (hasFDerivAt_polar 0 3 v).1.congr_fderiv ?_
    · ext1 x
      rw [linForm_apply, Fin.sum_univ_five]
      simp only [add_apply, smul_apply, proj_apply, smul_eq_mul]
      simp [arcWith, Arc.startPointGradient, Arc.radius, Arc.startAngle, rowVec, sci, z, o]
      ring
  · have hf : (fun w => ((((arcWith h a w).arcs a).startPoint (arcWith h a w)).y).toReal) = fun w : Fin 5 → ℝ => w 1 + w 2 * Real.sin (w 3) := by
      funext w; simp [arcWith, Arc.startPoint, Arc.radius, Arc.startAngle]
    rw [hf]
    refine (hasFDerivAt_polar 1 3 v).2.congr_fderiv ?_
    · ext1 x
      rw [linForm_apply, Fin.sum_univ_five]
      simp only [add_apply, smul_apply, proj_apply, smul_eq_mul]
      simp [arcWith, Arc.startPointGradient, Arc.radius, Arc.startAngle, rowVec, sci, z, o]
      ring

/-- **C51.** The rows of `end_point_gradient` are the derivatives of the coordinates of `end_point`. -/
theorem C51_end_gradient (h : Heap XR) (a : Nat) (v : Fin 5 → ℝ) :
    HasFDerivAt (fun w => ((((arcWith h a w).arcs a).endPoint (arcWith h a w)).x).toReal)
      (linForm (rowVec ((arcWith h a v).arcs a).endPointGradient.r0)) v ∧
    HasFDerivAt (fun w => ((((arcWith h a w).arcs a).endPoint (arcWith h a w)).y).toReal)
      (linForm (rowVec ((arcWith h a v).arcs a).endPointGradient.r1)) v := by
  have z : ((0.0 : ℝ)) = 0 := by norm_num
  have o : ((1.0 : ℝ)) = 1 := by norm_num
  constructor
  · have hf : (fun w => ((((arcWith h a w).arcs a).endPoint (arcWith h a w)).x).toReal) = fun w : Fin 5 → ℝ => w 0 + w 2 * Real.cos (w 4) := by
      funext w; simp [arcWith, Arc.endPoint, Arc.radius, Arc.endAngle]
    rw [hf]
    refine (hasFDerivAt_polar 0 4 v).1.congr_fderiv ?_
    · ext1 x
      rw [linForm_apply, Fin.sum_univ_five]
      simp only [add_apply, smul_apply, proj_apply, smul_eq_mul]
      simp [arcWith, Arc.endPointGradient, Arc.radius, Arc.endAngle, rowVec, sci, z, o]
      ring
  · have hf : (fun w => ((((arcWith h a w).arcs a).endPoint (arcWith h a w)).y).toReal) = fun w : Fin 5 → ℝ => w 1 + w 2 * Real.sin (w 4) := by
      funext w; simp [arcWith, Arc.endPoint, Arc.radius, Arc.endAngle]
    rw [hf]
    refine (hasFDerivAt_polar 1 4 v).2.congr_fderiv ?_
    · ext1 x
      rw [linForm_apply, Fin.sum_univ_five]
      simp only [add_apply, smul_apply, proj_apply, smul_eq_mul]
      simp [arcWith, Arc.endPointGradient, Arc.radius, Arc.endAngle, rowVec, sci, z, o]
      ring

end

/-! ## Examples -/

/-- the points and lines of `exHeap`, all three constraints -/
def gSketch : Sketch := ⟨[(0, .point 0), (1, .point 1), (2, .point 2), (3, .line 0), (4, .line 1)], 5, [0, 1, 2]⟩

theorem ex_nodup : gSketch.cells.Nodup := by simp [gSketch, Sketch.cells]
theorem ex_closed : Closed ⟨exHeap, gSketch⟩ := by
  simp [Closed, gSketch, exHeap, Sketch.cells, primFields, consFields]
theorem ex_data : getData exHeap gSketch = [fin 0, fin 0, fin 3, fin 0, fin 0, fin 4] := by
  rw [getData_eq]; simp [gSketch, exHeap, Sketch.cells, primData]
theorem ex_finite : FiniteSketch exHeap gSketch := by
  constructor
  · rw [ex_data]; simp
  · simp [gSketch, exHeap, consParams]
theorem ex_proper0 : ProperLine exHeap 0 := by
  intro hh
  have := congrArg (fun p : EuclideanSpace ℝ (Fin 2) => p 0) hh
  simp [ptOf, pt, exHeap] at this
theorem ex_proper1 : ProperLine exHeap 1 := by
  intro hh
  have := congrArg (fun p : EuclideanSpace ℝ (Fin 2) => p 1) hh
  simp [ptOf, pt, exHeap] at this
theorem ex_dist : dist (pt 3 0) (pt 0 4) = 5 := by
  rw [← hyp_eq_dist, hyp, show ((3 : ℝ) - 0) * (3 - 0) + (0 - 4) * (0 - 4) = 5 ^ 2 by norm_num,
    Real.sqrt_sq (by norm_num)]
theorem ex_regular : ∀ k ∈ gSketch.cons, Regular exHeap (exHeap.cons k) := by
  intro k hk
  have : k = 0 ∨ k = 1 ∨ k = 2 := by simpa [gSketch] using hk
  rcases this with rfl | rfl | rfl
  · have : exHeap.cons 0 = .euclid 1 2 (.fin 5) := by simp [exHeap]
    rw [this]
    show (1e-6 : ℝ) ≤ dist (ptOf exHeap 1) (ptOf exHeap 2)
    have e1 : ptOf exHeap 1 = pt 3 0 := by simp [ptOf, exHeap]
    have e2 : ptOf exHeap 2 = pt 0 4 := by simp [ptOf, exHeap]
    rw [e1, e2, ex_dist]; norm_num
  · have : exHeap.cons 1 = .perp 0 1 := by simp [exHeap]
    rw [this]; exact ⟨ex_proper0, ex_proper1⟩
  · have : exHeap.cons 2 = .eqLen 0 1 := by simp [exHeap]
    rw [this]; exact ⟨ex_proper0, ex_proper1⟩

/-- C20, C21, C22, C25: three constraints of different kinds on shared points meet all hypotheses; the gradient exists -/
example : ∃ (q g : Fin (getNDofs exHeap gSketch) → ℝ) (h' : Heap XR),
    getGradient exHeap gSketch = .ok (List.ofFn (fun i => fin (g i)), h') ∧
    HasFDerivAt (lossAfter exHeap gSketch) (linForm g) q := by
  have hq : getData exHeap gSketch = List.ofFn (fun i : Fin (getNDofs exHeap gSketch) =>
      fin ([0, 0, 3, 0, 0, 4].getD i.1 0)) := by
    have hl := getData_length exHeap gSketch
    apply List.ext_getElem (by simp [hl])
    intro i h1 h2
    simp only [ex_data, List.getElem_ofFn]
    have : i < 6 := by rw [ex_data] at h1; simpa using h1
    interval_cases i <;> simp
  obtain ⟨g, h', e, hd⟩ := C20_gradient ex_nodup ex_closed ex_finite ex_regular _ hq
  exact ⟨_, g, h', e, hd⟩

/-- C25: no `FixPoint` in the example -/
example : ∀ k ∈ gSketch.cons, ∀ p d, exHeap.cons k ≠ .fix p d := by
  intro k hk
  have : k = 0 ∨ k = 1 ∨ k = 2 := by simpa [gSketch] using hk
  rcases this with rfl | rfl | rfl <;> simp [exHeap]

/-- C22: making both ends of line 1 the same point gives a panic -/
example : ∃ h', getGradient { exHeap with lines := fun a => if a = 0 then ⟨0, 1⟩ else ⟨2, 2⟩ } gSketch = .error h' := by
  refine (C22_panics_iff ?_ ?_).2 ⟨2, by simp [gSketch], 0, 1, by simp [exHeap], .inr ?_⟩
  · simp [Closed, gSketch, exHeap, Sketch.cells, primFields, consFields]
  · constructor
    · rw [getData_eq]; simp [gSketch, exHeap, Sketch.cells, primData]
    · simp [gSketch, exHeap, consParams]
  · simp [ProperLine]

/-- C24: with the first two constraints the example is solved -/
example : getLoss exHeap { gSketch with cons := [0, 1] } = fin 0 := by
  rw [C15_zero_iff]
  intro k hk
  have : k = 0 ∨ k = 1 := by simpa using hk
  rcases this with rfl | rfl
  · have : exHeap.cons 0 = .euclid 1 2 (.fin 5) := by simp [exHeap]
    rw [this, C16_euclidean ex_point1 ex_point2, ex_dist]
  · have : exHeap.cons 1 = .perp 0 1 := by simp [exHeap]
    rw [this, C18_perpendicular ex_line0 ex_line1]; norm_num

end Isotope
