import Verif.Lemmas.Alone
import Verif.Lemmas.LocalGD
import Mathlib.Analysis.Calculus.Deriv.Comp

/-!
# One step of a solver when no two constraints share a coordinate
-/

namespace Isotope
open XR Matrix
open scoped Topology

variable {h : Heap XR} {s : Sketch} {x : Fin (getNDofs h s) → ℝ} {lam : ℝ}

/-- of several functions with disjoint supports at most one counts -/
theorem sum_own {α β : Type} (l : List α) (u : α → List β) (f : α → β → ℝ) (hu : (l.flatMap u).Nodup)
    (hf : ∀ k ∈ l, ∀ d ∉ u k, f k d = 0) {k : α} (hk : k ∈ l) {d : β} (hd : d ∈ u k) : (l.map fun k => f k d).sum = f k d := by
  have zero : ∀ l : List α, (∀ k ∈ l, f k d = 0) → (l.map fun k => f k d).sum = 0 := by
    intro l
    induction l with
    | nil => intro _; rfl
    | cons b l ih => intro hl; rw [List.map_cons, List.sum_cons, hl b (by simp), ih fun k hk => hl k (by simp [hk]), add_zero]
  induction l with
  | nil => simp at hk
  | cons b l ih =>
    rw [List.flatMap_cons, List.nodup_append] at hu
    rw [List.map_cons, List.sum_cons]
    rcases List.mem_cons.1 hk with rfl | hk
    · rw [zero l, add_zero]
      intro j hj
      refine hf j (by simp [hj]) d fun hm => ?_
      exact hu.2.2 d hd d (List.mem_flatMap.2 ⟨j, hj, hm⟩) rfl
    · rw [ih hu.2.1 (fun k hk => hf k (by simp [hk])) hk, hf b (by simp) d, zero_add]
      intro hm
      exact hu.2.2 d hm d (List.mem_flatMap.2 ⟨k, hk, hd⟩) rfl

theorem used_mem (hc : Closed ⟨h, s⟩) {k : Nat} (hk : k ∈ s.cons) {d : Dof} (hd : d ∈ used h (h.cons k)) : d ∈ s.dofs := by
  rw [mem_sketch_dofs]
  have c1 := hc.2 k hk
  have c2 := fun l hl => hc.1 (.line l) (c1 (.line l) hl)
  simp only at c1 c2
  generalize h.cons k = c at *
  obtain ⟨⟨p, i⟩, he, rfl⟩ := List.mem_map.1 hd
  have eo : (toDof (p, i)).owner = .point p := by unfold toDof; split <;> rfl
  rw [eo]
  cases c <;> simp [coordsUsed, consFields, primFields] at he c1 c2 <;> aesop

/-- the coordinates after a step along the negative gradient -/
theorem coordOf_step (a : ℝ) {d : Dof} (hd : d ∈ s.dofs) :
    coordOf h s (x + a • -gradAt h s x) d =
      coordOf h s x d - a * total (s.cons.flatMap (fun k => contribs (h.withDofs (coordOf h s x)) (h.cons k))) d := by
  rw [coordOf, dif_pos (idxOf_lt hd), coordOf, dif_pos (idxOf_lt hd)]
  simp only [Pi.add_apply, Pi.smul_apply, Pi.neg_apply, smul_eq_mul, gradAt, List.getElem_idxOf]
  ring

section ray
variable (hn : s.cells.Nodup) (hc : Closed ⟨h, s⟩) (hf : FiniteSketch h s) (hu : NoSharing h s)
  (hr : ∀ k ∈ s.cons, Ray h (h.cons k) (coordOf h s x) lam)

include hu in
theorem nodup_used : (s.cons.flatMap fun k => used h (h.cons k)).Nodup := by
  have : (s.cons.flatMap fun k => used h (h.cons k)) = (s.cons.flatMap fun k => coordsUsed h (h.cons k)).map toDof := by
    rw [List.map_flatMap]; rfl
  rw [this]
  exact hu.map toDof_inj

include hu hr in
theorem total_own {k : Nat} (hk : k ∈ s.cons) {d : Dof} (hd : d ∈ used h (h.cons k)) :
    total (s.cons.flatMap (fun k => contribs (h.withDofs (coordOf h s x)) (h.cons k))) d =
      total (contribs (h.withDofs (coordOf h s x)) (h.cons k)) d := by
  rw [total_flatMap]
  exact sum_own s.cons (fun k => used h (h.cons k)) (fun k d => total (contribs (h.withDofs (coordOf h s x)) (h.cons k)) d)
    (nodup_used hu) (fun k hk => (hr k hk).off) hk hd

include hr in
theorem ray_good : Good h s x := fun k hk => (hr k hk).now

include hc hu hr in
theorem ray_ends {a : ℝ} (ha : lam * a = 1) : Good h s (x + a • -gradAt h s x) := fun k hk =>
  (hr k hk).ends _ _ (fun _ hd => total_own hu hr hk hd) a ha fun _ hd => coordOf_step a (used_mem hc hk hd)

include hn hc hf hu hr in
theorem ray_go {a : ℝ} (a0 : 0 ≤ a) (a1 : lam * a ≤ 1) :
    lossAfter h s (x + a • -gradAt h s x) = (1 - lam * a) ^ 2 * lossAfter h s x := by
  rw [lossAfter_eq hn hc hf, lossAfter_eq hn hc hf, ← List.sum_map_mul_left]
  congr 1
  refine List.map_congr_left fun k hk => ?_
  exact (hr k hk).go _ _ (fun _ hd => total_own hu hr hk hd) a a0 a1 fun _ hd => coordOf_step a (used_mem hc hk hd)

include hn hc hf hu hr in
theorem ray_far {a : ℝ} (a1 : a ≤ 1) (a2 : 2 ≤ lam * a) : lossAfter h s x ≤ lossAfter h s (x + a • -gradAt h s x) := by
  rw [lossAfter_eq hn hc hf, lossAfter_eq hn hc hf]
  refine List.sum_le_sum fun k hk => ?_
  exact (hr k hk).far _ _ (fun _ hd => total_own hu hr hk hd) a a1 a2 fun _ hd => coordOf_step a (used_mem hc hk hd)

include hn hc hf hu hr in
theorem ray_sq (hl : 0 < lam) : gradAt h s x ⬝ᵥ gradAt h s x = 2 * lam * lossAfter h s x := by
  have h1 : HasDerivAt (fun a : ℝ => x + a • -gradAt h s x) (-gradAt h s x) 0 := by
    simpa using ((hasDerivAt_id (0 : ℝ)).smul_const (-gradAt h s x)).const_add x
  have h2 : HasFDerivAt (lossAfter h s) (linForm (gradAt h s x)) (x + (0 : ℝ) • -gradAt h s x) := by
    rw [zero_smul, add_zero]; exact hasFDerivAt_lossAfter hn hc hf (ray_good hr)
  have h3 := (h2.comp_hasDerivAt (0 : ℝ) h1).hasDerivWithinAt (s := Set.Ici 0)
  have h4 : HasDerivWithinAt (fun a : ℝ => (1 - lam * a) ^ 2 * lossAfter h s x) (-(2 * lam * lossAfter h s x)) (Set.Ici 0) 0 := by
    have h5 : HasDerivAt (fun a : ℝ => 1 - lam * a) (-lam) 0 := by
      simpa using ((hasDerivAt_id (0 : ℝ)).const_mul lam).const_sub 1
    have := ((h5.pow 2).mul_const (lossAfter h s x)).hasDerivWithinAt (s := Set.Ici 0)
    refine this.congr_deriv ?_
    simp
  have h6 : HasDerivWithinAt (lossAfter h s ∘ fun a : ℝ => x + a • -gradAt h s x) (-(2 * lam * lossAfter h s x)) (Set.Ici 0) 0 := by
    refine h4.congr_of_eventuallyEq ?_ ?_
    · have : Set.Icc (0 : ℝ) (1 / lam) ∈ 𝓝[≥] (0 : ℝ) := Icc_mem_nhdsGE (by positivity)
      filter_upwards [this] with a ha
      refine ray_go hn hc hf hu hr ha.1 ?_
      have := ha.2
      rw [le_div_iff₀ hl] at this
      linarith
    · simp
  have e := (uniqueDiffWithinAt_Ici (0 : ℝ)).eq_deriv _ h3 h6
  rw [linForm_apply] at e
  simp only [Pi.neg_apply, mul_neg, Finset.sum_neg_distrib, neg_inj] at e
  exact e

include hn hc hf hu hr in
/-- where the step ends the gradient is 0 -/
theorem ray_rest {a : ℝ} (ha : lam * a = 1) (a0 : 0 ≤ a) : gradAt h s (x + a • -gradAt h s x) = 0 := by
  have hz : lossAfter h s (x + a • -gradAt h s x) = 0 := by
    rw [ray_go hn hc hf hu hr a0 ha.le, ha]; ring
  obtain ⟨H, e, r, ed⟩ := setData_at (h := h) hn (SameRefs.refl h) (x + a • -gradAt h s x)
  obtain ⟨el, hg⟩ := spec_at hn hc hf r ed
  obtain ⟨h2, -, eg⟩ := hg (ray_ends hc hu hr ha)
  have := C24_gradient (hc.sameRefs r) (finite_at hf.2 r ed) _ _ eg (by rw [el, hz])
  funext i
  have hi := this (fin (gradAt h s (x + a • -gradAt h s x) i)) (List.mem_ofFn.2 ⟨i, rfl⟩)
  simpa using hi

/-- a trial step that is rejected -/
theorem lsLoop_reject (hn : s.cells.Nodup) (hc : Closed ⟨h, s⟩) (hf : FiniteSketch h s) {d : Fin (getNDofs h s) → ℝ} {m a L : ℝ}
    (hS : L + 1e-4 * a * m < lossAfter h s (x + a • d)) (n : Nat) (H : Heap XR) (r : SameRefs h H) :
    ∃ H', SameRefs h H' ∧ lsLoop s (vec d) (vec x) (fin L) (fin m) (n + 1) (fin a) H =
      lsLoop s (vec d) (vec x) (fin L) (fin m) n (fin (a * 0.5)) H' := by
  have ev : vadd (vec x) (vscale (fin a) (vec d)) = vec (x + a • d) := by rw [vscale_vec, vadd_vec]
  obtain ⟨H1, e1, r1, ed⟩ := setData_at hn r (x + a • d)
  obtain ⟨el, -⟩ := spec_at hn hc hf r1 ed
  refine ⟨H1, r1, ?_⟩
  rw [lsLoop, ev, e1]
  simp only [el, half_lit, c1_lit, mul_fin, add_fin, le_fin, decide_eq_true_eq]
  rw [if_neg (not_le.2 hS)]

/-- a trial step that is accepted -/
theorem lsLoop_accept (hn : s.cells.Nodup) (hc : Closed ⟨h, s⟩) (hf : FiniteSketch h s) {d : Fin (getNDofs h s) → ℝ} {m a L : ℝ}
    (hg : Good h s (x + a • d)) (hS : lossAfter h s (x + a • d) ≤ L + 1e-4 * a * m)
    (hC : 0.9 * m ≤ gradAt h s (x + a • d) ⬝ᵥ d) (n : Nat) (H : Heap XR) (r : SameRefs h H) :
    ∃ H', SameRefs h H' ∧ lsLoop s (vec d) (vec x) (fin L) (fin m) (n + 1) (fin a) H = (.ok (fin a), H') := by
  have ev : vadd (vec x) (vscale (fin a) (vec d)) = vec (x + a • d) := by rw [vscale_vec, vadd_vec]
  obtain ⟨H1, e1, r1, ed⟩ := setData_at hn r (x + a • d)
  obtain ⟨el, hgr⟩ := spec_at hn hc hf r1 ed
  obtain ⟨H2, g2, e2⟩ := hgr hg
  refine ⟨H2, r1.trans g2.1, ?_⟩
  rw [lsLoop, ev, e1]
  simp only [el, e2, c1_lit, c2_lit, mul_fin, add_fin, dotV_vec, ge, le_fin, decide_eq_true_eq]
  rw [if_pos hS, if_pos hC]

include hn hc hf hu hr in
/-- the line search finds the right step size -/
theorem ray_search (hl : lam = 1 ∨ lam = 2 ∨ lam = 4) (hL : 0 < lossAfter h s x) (H : Heap XR) (r : SameRefs h H) (ed : getData H s = vec x) :
    ∃ H', SameRefs h H' ∧ lineSearch H s (vec (-gradAt h s x)) (vec (gradAt h s x)) = (.ok (fin (1 / lam)), H') := by
  have hl0 : 0 < lam := by rcases hl with e | e | e <;> rw [e] <;> norm_num
  have hm : gradAt h s x ⬝ᵥ -gradAt h s x = -(2 * lam * lossAfter h s x) := by
    rw [dotProduct_neg, ray_sq hn hc hf hu hr hl0]
  have hp : 0 < 2 * lam * lossAfter h s x := by positivity
  have acc := fun n (H : Heap XR) (r : SameRefs h H) => lsLoop_accept (x := x) (d := -gradAt h s x) (m := -(2 * lam * lossAfter h s x)) (a := 1 / lam)
    (L := lossAfter h s x) hn hc hf
    (ray_ends hc hu hr (by field_simp)) (by
      rw [ray_go hn hc hf hu hr (by positivity) (by field_simp; rfl), show (1 - lam * (1 / lam)) = 0 by field_simp; ring]
      rw [show 1e-4 * (1 / lam) * -(2 * lam * lossAfter h s x) = -(2e-4 * lossAfter h s x) by field_simp; norm_num]
      linarith) (by
      rw [ray_rest hn hc hf hu hr (by field_simp) (by positivity), zero_dotProduct]
      linarith) n H r
  have rej := fun (a : ℝ) (a0 : 0 < a) (a1 : a ≤ 1) (a2 : 2 ≤ lam * a) => lsLoop_reject (x := x) (d := -gradAt h s x)
    (m := -(2 * lam * lossAfter h s x)) (a := a) (L := lossAfter h s x) hn hc hf (by
      have k1 := ray_far hn hc hf hu hr a1 a2
      have k2 : 0 < 1e-4 * a * (2 * lam * lossAfter h s x) := by positivity
      linarith)
  unfold lineSearch
  simp only [dotV_vec, hm, ed, (spec_at hn hc hf r ed).1, zero_lit, one_lit, ge, le_fin]
  rw [if_neg (by simpa using hp)]
  rcases hl with e | e | e
  · rw [e] at acc ⊢
    rw [show (1 : ℝ) / 1 = 1 by norm_num] at acc ⊢
    exact acc 14 H r
  · obtain ⟨H1, r1, e1⟩ := rej 1 one_pos le_rfl (by rw [e]; norm_num) 14 H r
    rw [show lsMaxIter = 14 + 1 from rfl, e1]
    rw [show (1 : ℝ) / lam = 1 * 0.5 by rw [e]; norm_num] at acc ⊢
    exact acc 13 H1 r1
  · obtain ⟨H1, r1, e1⟩ := rej 1 one_pos le_rfl (by rw [e]; norm_num) 14 H r
    obtain ⟨H2, r2, e2⟩ := rej (1 * 0.5) (by norm_num) (by norm_num) (by rw [e]; norm_num) 13 H1 r1
    rw [show lsMaxIter = 14 + 1 from rfl, e1, e2]
    rw [show (1 : ℝ) / lam = 1 * 0.5 * 0.5 by rw [e]; norm_num] at acc ⊢
    exact acc 12 H2 r2

include hn hc hf hu hr in
/-- gradient descent needs one step at most -/
theorem ray_gd (hl : lam = 1 ∨ lam = 2 ∨ lam = 4) (ex : getData h s = vec x) (p : GDParams XR) {mg ml : ℝ} (eg : p.minGrad = fin mg)
    (el : p.minLoss = fin ml) (hml : 0 < ml) (hi : 1 ≤ p.maxIterations) :
    (gdSolve p h s).res = .ok ∧
    ((lossAfter h s x < ml ∨ Real.sqrt (2 * lam * lossAfter h s x) < mg) → (gdSolve p h s).steps = [] ∧ GradOnly h (gdSolve p h s).heap) ∧
    (¬(lossAfter h s x < ml ∨ Real.sqrt (2 * lam * lossAfter h s x) < mg) →
      (gdSolve p h s).steps.map (·.alpha) = [fin (1 / lam)] ∧ getLoss (gdSolve p h s).heap s = fin 0) := by
  have hl0 : 0 < lam := by rcases hl with e | e | e <;> rw [e] <;> norm_num
  obtain ⟨eL, hgr⟩ := spec_at hn hc hf (SameRefs.refl h) ex
  obtain ⟨H1, g1, e1⟩ := hgr (ray_good hr)
  obtain ⟨n, hnn⟩ : ∃ n, p.maxIterations = n + 1 := ⟨p.maxIterations - 1, by omega⟩
  have hsq := ray_sq hn hc hf hu hr hl0
  unfold gdSolve
  rw [e1]
  dsimp only
  rw [hnn, gdLoop, normL_vec, hsq, eg, el, g1.getLoss, eL]
  by_cases c1 : Real.sqrt (2 * lam * lossAfter h s x) < mg
  · rw [if_pos (by simpa using c1)]
    exact ⟨rfl, fun _ => ⟨rfl, g1⟩, fun hh => absurd (.inr c1) hh⟩
  · rw [if_neg (by simpa using c1)]
    by_cases c2 : lossAfter h s x < ml
    · rw [if_pos (by simpa using c2)]
      exact ⟨rfl, fun _ => ⟨rfl, g1⟩, fun hh => absurd (.inl c2) hh⟩
    · rw [if_neg (by simpa using c2)]
      have ed1 : getData H1 s = vec x := by rw [g1.getData, ex]
      obtain ⟨H2, r2, e2⟩ := ray_search hn hc hf hu hr hl (by linarith) H1 g1.1 ed1
      rw [ed1, vneg_vec]
      dsimp only
      rw [e2]
      dsimp only
      rw [axpy_vec]
      obtain ⟨H3, e3, r3, ed3⟩ := setData_at hn r2 (x + (1 / lam) • -gradAt h s x)
      obtain ⟨eL3, hg3⟩ := spec_at hn hc hf r3 ed3
      obtain ⟨H4, g4, e4⟩ := hg3 (ray_ends hc hu hr (by field_simp))
      have z3 : lossAfter h s (x + (1 / lam) • -gradAt h s x) = 0 := by
        rw [ray_go hn hc hf hu hr (by positivity) (by field_simp; rfl), show (1 - lam * (1 / lam)) = 0 by field_simp; ring]; ring
      rw [e3]
      dsimp only
      rw [e4]
      dsimp only
      rw [eL3, z3]
      have stop : ∀ n g ng, gdLoop p s n H4 g ng (fin 0) = ⟨.ok, H4, [], 0, 0⟩ := by
        intro n g ng
        cases n with
        | zero => rfl
        | succ n =>
          rw [gdLoop, el]
          have : (fin 0 <. fin ml) = true := by simpa using hml
          rw [if_pos this, ite_self]
      rw [stop]
      refine ⟨rfl, fun hh => absurd hh (not_or.2 ⟨c2, c1⟩), fun _ => ⟨rfl, ?_⟩⟩
      show getLoss H4 s = fin 0
      rw [g4.getLoss, eL3, z3]

include hn hc hf hu hr in
/-- BFGS needs one step at most -/
theorem ray_bfgs (hl : lam = 1 ∨ lam = 2 ∨ lam = 4) (ex : getData h s = vec x) (p : BFGSParams XR) {gt ml : ℝ}
    (eg : p.gradientThreshold = fin gt) (el : p.minLoss = fin ml) (hml : 0 < ml) (hgt : 0 < gt) (hi : 1 ≤ p.maxIterations) :
    (bfgsSolve p h s).res = .ok ∧
    (lossAfter h s x < ml → (bfgsSolve p h s).steps = [] ∧ (bfgsSolve p h s).heap = h) ∧
    (ml ≤ lossAfter h s x → (getNDofs h s : ℝ) * gt ^ 2 ≤ 2 * lam * lossAfter h s x →
      (bfgsSolve p h s).steps.map (·.alpha) = [fin (1 / lam)] ∧ getLoss (bfgsSolve p h s).heap s = fin 0) ∧
    (ml ≤ lossAfter h s x → 2 * lam * lossAfter h s x < (getNDofs h s : ℝ) * gt ^ 2 →
      ((bfgsSolve p h s).steps = [] ∧ GradOnly h (bfgsSolve p h s).heap) ∨
      ((bfgsSolve p h s).steps.map (·.alpha) = [fin (1 / lam)] ∧ getLoss (bfgsSolve p h s).heap s = fin 0)) := by
  have hl0 : 0 < lam := by rcases hl with e | e | e <;> rw [e] <;> norm_num
  obtain ⟨eL, hgr⟩ := spec_at hn hc hf (SameRefs.refl h) ex
  obtain ⟨H1, g1, e1⟩ := hgr (ray_good hr)
  obtain ⟨n, hnn⟩ : ∃ n, p.maxIterations = n + 1 := ⟨p.maxIterations - 1, by omega⟩
  have hsq := ray_sq hn hc hf hu hr hl0
  unfold bfgsSolve
  simp only [ex, vec, List.length_ofFn]
  rw [hnn, bfgsLoop, el, eL]
  by_cases c2 : lossAfter h s x < ml
  · rw [if_pos (by simpa using c2)]
    exact ⟨rfl, fun _ => ⟨rfl, rfl⟩, fun hh => absurd c2 (not_lt.2 hh), fun hh => absurd c2 (not_lt.2 hh)⟩
  · rw [if_neg (by simpa using c2), e1]
    dsimp only
    rw [if_neg (by simp [vec])]
    obtain ⟨u, eu, hu'⟩ := uniformNorm_vec (gradAt h s x)
    rw [eu, eg]
    by_cases c1 : u < gt
    · rw [if_pos (by simpa using c1)]
      refine ⟨rfl, fun hh => absurd hh c2, fun hL hh => ?_, fun _ _ => .inl ⟨rfl, g1⟩⟩
      exfalso
      have hb := (hu' gt hgt).1 c1
      rw [← hsq] at hh
      have hLp : 0 < lossAfter h s x := by linarith
      have hpos : 0 < gradAt h s x ⬝ᵥ gradAt h s x := by rw [hsq]; positivity
      have hne : (Finset.univ : Finset (Fin (getNDofs h s))).Nonempty := by
        by_contra hh'
        rw [Finset.not_nonempty_iff_eq_empty] at hh'
        rw [dotProduct, hh', Finset.sum_empty] at hpos
        exact lt_irrefl _ hpos
      have : gradAt h s x ⬝ᵥ gradAt h s x < ∑ _i : Fin (getNDofs h s), gt ^ 2 := by
        refine Finset.sum_lt_sum_of_nonempty hne fun i _ => ?_
        rw [← sq]
        exact sq_lt_sq' (by linarith [(abs_lt.1 (hb i)).1]) (abs_lt.1 (hb i)).2
      rw [Finset.sum_const, Finset.card_univ, Fintype.card_fin, nsmul_eq_mul] at this
      linarith
    · rw [if_neg (by simpa using c1), identity_mat, matNeg_mat, matVec_mat, neg_mulVec, one_mulVec, if_neg (by simp [vec])]
      have ed1 : getData H1 s = vec x := by rw [g1.getData, ex]
      obtain ⟨H2, r2, e2⟩ := ray_search hn hc hf hu hr hl (by linarith) H1 g1.1 ed1
      rw [e2]
      dsimp only
      have hv : (List.ofFn fun i => fin (x i)) = vec x := rfl
      rw [hv, vscale_vec, vadd_vec]
      obtain ⟨H3, e3, r3, ed3⟩ := setData_at hn r2 (x + (1 / lam) • -gradAt h s x)
      obtain ⟨eL3, hg3⟩ := spec_at hn hc hf r3 ed3
      obtain ⟨H4, g4, e4⟩ := hg3 (ray_ends hc hu hr (by field_simp))
      have z3 : lossAfter h s (x + (1 / lam) • -gradAt h s x) = 0 := by
        rw [ray_go hn hc hf hu hr (by positivity) (by field_simp; rfl), show (1 - lam * (1 / lam)) = 0 by field_simp; ring]; ring
      have eL4 : getLoss H4 s = fin 0 := by rw [g4.getLoss, eL3, z3]
      rw [e3]
      dsimp only
      rw [e4]
      dsimp only
      have stop : ∀ n b A d, bfgsLoop p s (getNDofs h s) n b A d H4 = ⟨.ok, H4, [], 0, 0⟩ := by
        intro n b A d
        cases n with
        | zero => rw [bfgsLoop]
        | succ n =>
          rw [bfgsLoop, el, eL4]
          have : (fin 0 <. fin ml) = true := by simpa using hml
          rw [if_pos this]
      rw [stop]
      exact ⟨rfl, fun hh => absurd hh c2, fun _ _ => ⟨rfl, eL4⟩, fun _ _ => .inr ⟨rfl, eL4⟩⟩

end ray

end Isotope
