import Verif.Lemmas.LongSearch
import Verif.Props.Alone

/-!
# C104: gradient descent and BFGS cannot turn long lines
-/

namespace Isotope
open XR Matrix

variable {h : Heap XR} {s : Sketch} {x g : Fin (getNDofs h s) → ℝ} {L : ℝ}

theorem AllLong.at (ed : getData h s = vec x) (hl : AllLong h s (200 * √s.cons.length)) :
    ∃ len : ℝ, 0 < len ∧ 33168 * (s.cons.length : ℝ) ≤ len ^ 2 ∧ LongAt h s len x := by
  rcases Nat.eq_zero_or_pos s.cons.length with hz | hz
  · have : s.cons = [] := List.length_eq_zero_iff.1 hz
    exact ⟨1, one_pos, by rw [hz]; norm_num, fun k hk => by rw [this] at hk; simp at hk⟩
  · have hp : 0 < (s.cons.length : ℝ) := by exact_mod_cast hz
    have hs : 0 < √(s.cons.length : ℝ) := Real.sqrt_pos.2 hp
    refine ⟨200 * √s.cons.length, by positivity, ?_, fun k hk => ?_⟩
    · rw [mul_pow, Real.sq_sqrt hp.le]; linarith
    · obtain ⟨l, m, e, h1, h2⟩ := hl k hk
      have hv : ∀ d, coordOf h s x d = (val h d).toReal := by
        intro d
        by_cases hd : d ∈ s.dofs
        · rw [val_of_data ed hd, toReal_fin]
        · rw [coordOf, dif_neg]
          rw [← dofs_length]
          exact fun hh => hd (List.idxOf_lt_length_iff.1 hh)
      have key : ∀ l, 200 * √s.cons.length ≤ lineLen h l → (200 * √(s.cons.length : ℝ)) ^ 2 ≤ (lineArm h s x 0 l).sq 0 := by
        intro l hh
        have e : (lineArm h s x 0 l).sq 0 = lineLen h l ^ 2 := by
          have e1 : lineLen h l = hyp ((val h (.px (h.lines l).start)).toReal - (val h (.px (h.lines l).stop)).toReal)
            ((val h (.py (h.lines l).start)).toReal - (val h (.py (h.lines l).stop)).toReal) := (hyp_pt _ _ _ _).symm
          rw [e1, hyp, Real.sq_sqrt (add_nonneg (mul_self_nonneg _) (mul_self_nonneg _)), Arm.sq, lineArm_x, lineArm_y]
          simp only [zero_smul, add_zero, hv]
          ring
        rw [e]
        exact pow_le_pow_left₀ (by positivity) hh 2
      exact ⟨l, m, e, key l h1, key m h2⟩

/-- **C104.** All `K` constraints demand that two lines be perpendicular or parallel, and these lines are at least `200 √K` long. Unless
loss or gradient are below the limits from the start, gradient descent gives up with `SearchFailed` in its first line search: it takes no
step. It leaves the sketch at the longest step it tried, `1.5¹⁴` times the gradient, where the loss is smaller. -/
theorem C104_gd (hn : s.cells.Nodup) (hc : Closed ⟨h, s⟩) (hf : FiniteSketch h s) (hl : AllLong h s (200 * √s.cons.length))
    (ed : getData h s = vec x) {h1 : Heap XR} (eg : getGradient h s = .ok (vec g, h1)) (eL : getLoss h s = fin L)
    (p : GDParams XR) {ml gt : ℝ} (epl : p.minLoss = fin ml) (epg : p.minGrad = fin gt) (hgt : 0 < gt) (hi : 1 ≤ p.maxIterations)
    (b1 : ml ≤ L) (b2 : gt ≤ √(g ⬝ᵥ g)) :
    (gdSolve p h s).res = .err .searchFailed ∧ (gdSolve p h s).steps = [] ∧
    getData (gdSolve p h s).heap s = vec (x - (1.5 : ℝ) ^ 14 • g) ∧
    ∃ L', getLoss (gdSolve p h s).heap s = fin L' ∧ L' < L := by
  obtain ⟨len, k1, k2, k3⟩ := hl.at ed
  obtain ⟨q1, q2⟩ := spec_at hn hc hf (SameRefs.refl h) ed
  obtain ⟨h2, -, q3⟩ := q2 (k3.good k1)
  rw [eL] at q1
  obtain rfl := XR.fin.inj q1
  rw [eg] at q3
  have hg : vec g = vec (gradAt h s x) := congrArg Prod.fst (Except.ok.inj q3)
  obtain rfl := vec_inj hg
  have : 0 ≤ (s.cons.length : ℝ) := by positivity
  exact long_gd hn hc hf k1 k3 (by linarith) ed p epl epg hgt hi b1 b2

/-- **C104.** Likewise for BFGS: whatever its limits, it takes no step; it returns `Ok` or the error that the line
search failed twice in a row, and the loss does not grow. -/
theorem C104_bfgs (hn : s.cells.Nodup) (hc : Closed ⟨h, s⟩) (hf : FiniteSketch h s) (hl : AllLong h s (200 * √s.cons.length))
    (eL : getLoss h s = fin L) (p : BFGSParams XR) {ml gt : ℝ} (epl : p.minLoss = fin ml) (epg : p.gradientThreshold = fin gt)
    (hgt : 0 < gt) :
    ((bfgsSolve p h s).res = .ok ∨ (bfgsSolve p h s).res = .err .failedTwice) ∧ (bfgsSolve p h s).steps = [] ∧
    ∃ L', getLoss (bfgsSolve p h s).heap s = fin L' ∧ L' ≤ L := by
  obtain ⟨x, ed⟩ : ∃ x : Fin (getNDofs h s) → ℝ, getData h s = vec x := exists_vec' (List.all_eq_true.2 hf.1) (getData_length _ _)
  obtain ⟨len, k1, k2, k3⟩ := hl.at ed
  obtain ⟨q1, -⟩ := spec_at hn hc hf (SameRefs.refl h) ed
  rw [eL] at q1
  obtain rfl := XR.fin.inj q1
  exact long_bfgs hn hc hf k1 k3 k2 ed p epl epg hgt

/-- **C104.** With the default parameters: `SearchFailed` unless the loss is below `1e-14` or the gradient below `1e-10`. -/
theorem C104_gd_default (hn : s.cells.Nodup) (hc : Closed ⟨h, s⟩) (hf : FiniteSketch h s) (hl : AllLong h s (200 * √s.cons.length))
    {h1 : Heap XR} (eg : getGradient h s = .ok (vec g, h1)) (eL : getLoss h s = fin L) (b1 : 1e-14 ≤ L) (b2 : 1e-10 ≤ √(g ⬝ᵥ g)) :
    (gdSolve (GDParams.default : GDParams XR) h s).res = .err .searchFailed ∧
    (gdSolve (GDParams.default : GDParams XR) h s).steps = [] ∧
    ∃ L', getLoss (gdSolve (GDParams.default : GDParams XR) h s).heap s = fin L' ∧ L' < L := by
  obtain ⟨x, ed⟩ : ∃ x : Fin (getNDofs h s) → ℝ, getData h s = vec x := exists_vec' (List.all_eq_true.2 hf.1) (getData_length _ _)
  have c1 : (GDParams.default : GDParams XR).minLoss = fin 1e-14 := by simp only [GDParams.default, sci]
  have c2 : (GDParams.default : GDParams XR).minGrad = fin 1e-10 := by simp only [GDParams.default, sci]
  obtain ⟨i1, i2, -, i3⟩ := C104_gd hn hc hf hl ed eg eL GDParams.default c1 c2 (by norm_num) (by simp [GDParams.default]) b1 b2
  exact ⟨i1, i2, i3⟩

/-! ## A case that meets the hypotheses -/

/-- two lines 1000 long at an angle whose cosine is 0.6, to be perpendicular -/
noncomputable def longHeap : Heap XR :=
  { (Heap.empty : Heap XR) with
    points := fun k => ⟨if k = 1 then ⟨fin 1000, fin 0⟩ else if k = 3 then ⟨fin 600, fin 800⟩ else ⟨fin 0, fin 0⟩, ⟨fin 0, fin 0⟩⟩
    lines := fun k => if k = 0 then ⟨0, 1⟩ else ⟨2, 3⟩
    cons := fun _ => .perp 0 1
    nPoints := 4
    nLines := 2
    nCons := 1 }

def longSketch : Sketch := ⟨[(0, .point 0), (1, .point 1), (2, .point 2), (3, .point 3), (4, .line 0), (5, .line 1)], 6, [0]⟩

theorem long_dist : lineLen longHeap 0 = 1000 ∧ lineLen longHeap 1 = 1000 := by
  constructor
  · have : lineLen longHeap 0 = hyp (0 - 1000) (0 - 0) := (hyp_pt _ _ _ _).symm
    rw [this, hyp, show ((0 : ℝ) - 1000) * (0 - 1000) + (0 - 0) * (0 - 0) = 1000 ^ 2 by norm_num, Real.sqrt_sq (by norm_num)]
  · have : lineLen longHeap 1 = hyp (0 - 600) (0 - 800) := (hyp_pt _ _ _ _).symm
    rw [this, hyp, show ((0 : ℝ) - 600) * (0 - 600) + (0 - 800) * (0 - 800) = 1000 ^ 2 by norm_num, Real.sqrt_sq (by norm_num)]

/-- C104: the two lines of `longHeap`: the loss is 0.18, the gradient 0.00096, and both solvers fail -/
example : longSketch.cells.Nodup ∧ Closed ⟨longHeap, longSketch⟩ ∧ FiniteSketch longHeap longSketch ∧
    AllLong longHeap longSketch (200 * √longSketch.cons.length) ∧ getLoss longHeap longSketch = fin 0.18 ∧
    (∃ h1, getGradient longHeap longSketch =
      .ok ([fin 0, fin (-0.00048), fin 0, fin 0.00048, fin (-0.000384), fin 0.000288, fin 0.000384, fin (-0.000288)], h1)) ∧
    (gdSolve (GDParams.default : GDParams XR) longHeap longSketch).res = .err .searchFailed ∧
    (gdSolve (GDParams.default : GDParams XR) longHeap longSketch).steps = [] ∧
    (bfgsSolve (BFGSParams.default : BFGSParams XR) longHeap longSketch).steps = [] := by
  have hn : longSketch.cells.Nodup := by simp [Sketch.cells, longSketch]
  have hc : Closed ⟨longHeap, longSketch⟩ := by simp [Closed, longHeap, longSketch, Sketch.cells, primFields, consFields]
  have hf : FiniteSketch longHeap longSketch := by
    refine ⟨?_, by simp [longSketch, longHeap, consParams]⟩
    rw [getData_eq]
    simp [longHeap, longSketch, Sketch.cells, primData]
  have hl : AllLong longHeap longSketch (200 * √longSketch.cons.length) := by
    intro k _
    refine ⟨0, 1, .inl rfl, ?_⟩
    rw [long_dist.1, long_dist.2]
    simp [longSketch]
    norm_num
  have y1 : hyp (1000 - 0) (0 - 0) = 1000 := by
    rw [hyp, show ((1000 : ℝ) - 0) * (1000 - 0) + (0 - 0) * (0 - 0) = 1000 ^ 2 by norm_num, Real.sqrt_sq (by norm_num)]
  have y2 : hyp (600 - 0) (800 - 0) = 1000 := by
    rw [hyp, show ((600 : ℝ) - 0) * (600 - 0) + (800 - 0) * (800 - 0) = 1000 ^ 2 by norm_num, Real.sqrt_sq (by norm_num)]
  have l1 : lineStart longHeap 0 = ⟨fin 0, fin 0⟩ := by simp [lineStart, ptData, longHeap]
  have l2 : lineEnd longHeap 0 = ⟨fin 1000, fin 0⟩ := by simp [lineEnd, ptData, longHeap]
  have l3 : lineStart longHeap 1 = ⟨fin 0, fin 0⟩ := by simp [lineStart, ptData, longHeap]
  have l4 : lineEnd longHeap 1 = ⟨fin 600, fin 800⟩ := by simp [lineEnd, ptData, longHeap]
  have eL : getLoss longHeap longSketch = fin 0.18 := by
    have e1 : lossValue longHeap (longHeap.cons 0) = fin 0.18 := by
      show lossValue longHeap (.perp 0 1) = _
      rw [loss_perp l1 l2 l3 l4, dotOf, if_neg (by rw [y1, y2]; norm_num), y1, y2]
      congr 1; norm_num
    rw [getLoss_fin (fun k hk => ⟨0.18, e1⟩)]
    simp [longSketch, e1]
  have hfc : ∀ k ∈ longSketch.cons, FiniteCons longHeap (longHeap.cons k) := hf.cons hc
  have eg : ∃ h1, getGradient longHeap longSketch =
      .ok ([fin 0, fin (-0.00048), fin 0, fin 0.00048, fin (-0.000384), fin 0.000288, fin 0.000384, fin (-0.000288)], h1) := by
    obtain ⟨h2, -, -, e⟩ := (getGradient_exact longHeap longSketch hfc).1 (by intro k _; simp [longHeap, DegenerateEqLen])
    refine ⟨h2, ?_⟩
    rw [e]
    have ch : ∀ k, chunks longHeap (longHeap.cons k) = [.line 0 ⟨fin 0, fin (-0.00048), fin 0, fin 0.00048⟩,
        .line 1 ⟨fin (-0.000384), fin 0.000288, fin 0.000384, fin (-0.000288)⟩] := by
      intro k
      show chunks longHeap (.perp 0 1) = _
      rw [chunks_perp l1 l2 l3 l4]
      dsimp only
      rw [if_neg (by rw [y1, y2]; norm_num)]
      simp only [dotForce, y1, y2]
      norm_num
    have q0 : longHeap.lines 0 = ⟨0, 1⟩ := rfl
    have q1 : longHeap.lines 1 = ⟨2, 3⟩ := rfl
    simp [longSketch, Sketch.dofs, Sketch.cells, dofs, contribs, ch, Chunk.contrib, q0, q1]
  obtain ⟨h1, eg'⟩ := eg
  have ev : vec (![0, -0.00048, 0, 0.00048, -0.000384, 0.000288, 0.000384, -0.000288] : Fin 8 → ℝ) =
      [fin 0, fin (-0.00048), fin 0, fin 0.00048, fin (-0.000384), fin 0.000288, fin 0.000384, fin (-0.000288)] := by simp [vec]
  have en : (![0, -0.00048, 0, 0.00048, -0.000384, 0.000288, 0.000384, -0.000288] : Fin 8 → ℝ) ⬝ᵥ
      ![0, -0.00048, 0, 0.00048, -0.000384, 0.000288, 0.000384, -0.000288] = 0.00096 ^ 2 := by
    simp [dotProduct, Fin.sum_univ_succ]; norm_num
  have gd := C104_gd_default (h := longHeap) (s := longSketch) (g := (![0, -0.00048, 0, 0.00048, -0.000384, 0.000288, 0.000384, -0.000288] : Fin 8 → ℝ)) hn hc hf hl
    (by rw [eg', ← ev]; rfl) eL (by norm_num) (by
      have : √((![0, -0.00048, 0, 0.00048, -0.000384, 0.000288, 0.000384, -0.000288] : Fin 8 → ℝ) ⬝ᵥ
        ![0, -0.00048, 0, 0.00048, -0.000384, 0.000288, 0.000384, -0.000288]) = 0.00096 := by
        rw [en, Real.sqrt_sq (by norm_num)]
      refine le_of_le_of_eq ?_ this.symm
      norm_num)
  have c1 : (BFGSParams.default : BFGSParams XR).minLoss = fin 1e-16 := by simp only [BFGSParams.default, sci]
  have c2 : (BFGSParams.default : BFGSParams XR).gradientThreshold = fin 1e-8 := by simp only [BFGSParams.default, sci]
  exact ⟨hn, hc, hf, hl, eL, ⟨h1, eg'⟩, gd.1, gd.2.1, (C104_bfgs hn hc hf hl eL BFGSParams.default c1 c2 (by norm_num)).2.1⟩

end Isotope
