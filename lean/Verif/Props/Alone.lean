import Verif.Lemmas.AloneStep
import Verif.Model.Api

/-!
# Constraints that share no coordinate (C101)
-/

namespace Isotope
open XR Matrix

variable {h : Heap XR} {s : Sketch}

section rays
variable {x : Fin (getNDofs h s) → ℝ}

theorem coordOf_pt (ex : getData h s = vec x) {p : Nat} (hp : PrimCell.point p ∈ s.cells) :
    ptOf h p = pt (coordOf h s x (.px p)) (coordOf h s x (.py p)) := by
  have e1 := val_of_data ex (d := .px p) (mem_sketch_dofs.2 hp)
  have e2 := val_of_data ex (d := .py p) (mem_sketch_dofs.2 hp)
  have e1 : (h.points p).data.x = _ := e1
  have e2 : (h.points p).data.y = _ := e2
  unfold ptOf
  rw [e1, e2]
  rfl

theorem proper_hyp (hc : Closed ⟨h, s⟩) (ex : getData h s = vec x) {l : Nat} (hl : PrimCell.line l ∈ s.cells) (hp : ProperLine h l) :
    hyp (coordOf h s x (.px (h.lines l).stop) - coordOf h s x (.px (h.lines l).start))
      (coordOf h s x (.py (h.lines l).stop) - coordOf h s x (.py (h.lines l).start)) ≠ 0 := by
  have c1 := hc.1 _ hl (.point (h.lines l).start) (by simp [primFields])
  have c2 := hc.1 _ hl (.point (h.lines l).stop) (by simp [primFields])
  rw [hyp_pt, ← coordOf_pt ex c2, ← coordOf_pt ex c1]
  exact dist_ne_zero.2 (Ne.symm hp)

theorem OneSort.rays {lam : ℝ} (hs : OneSort h s lam) (hc : Closed ⟨h, s⟩) (hf : FiniteSketch h s) (hu : NoSharing h s)
    (ex : getData h s = vec x) : (lam = 1 ∨ lam = 2 ∨ lam = 4) ∧ ∀ k ∈ s.cons, Ray h (h.cons k) (coordOf h s x) lam := by
  have nd : ∀ k ∈ s.cons, (coordsUsed h (h.cons k)).Nodup := fun k hk => (List.nodup_flatMap.1 hu).1 k hk
  have fin' : ∀ {y : XR}, Num.isFinite y = true → ∃ r, y = fin r := by
    intro y hy
    cases y <;> first | exact ⟨_, rfl⟩ | exact absurd hy Bool.false_ne_true
  rcases hs with ⟨rfl, hk⟩ | ⟨rfl, hk⟩ | ⟨rfl, hk⟩
  · refine ⟨.inl rfl, fun k hks => ?_⟩
    have k1 := hk k hks
    have k2 := hf.2 k hks
    generalize h.cons k = c at *
    cases c <;> simp only [FixOnly] at k1
    case fix p d =>
      obtain ⟨⟨X, e1⟩, ⟨Y, e2⟩⟩ := And.intro (fin' (k2 d.x (by simp [consParams]))) (fin' (k2 d.y (by simp [consParams])))
      obtain ⟨dx, dy⟩ := d
      simp only at e1 e2
      subst e1 e2
      exact ray_fix
  · refine ⟨.inr (.inl rfl), fun k hks => ?_⟩
    have k1 := hk k hks
    have k2 := hf.2 k hks
    have k3 := nd k hks
    have k4 := hc.2 k hks
    dsimp only at k4
    generalize h.cons k = c at *
    cases c <;> simp only [PairOnly] at k1
    case euclid p1 p2 d =>
      obtain ⟨D, rfl⟩ := fin' (k2 d (by simp [consParams]))
      rw [coordOf_pt ex (k4 (.point p1) (by simp [consFields])), coordOf_pt ex (k4 (.point p2) (by simp [consFields])), ← hyp_pt, toReal_fin] at k1
      refine ray_euclid (fun e => ?_) k1.1 k1.2.1 k1.2.2
      simp [coordsUsed, e] at k3
    case horizDist p1 p2 d =>
      obtain ⟨D, rfl⟩ := fin' (k2 d (by simp [consParams]))
      refine ray_horiz fun e => ?_
      simp [coordsUsed, e] at k3
    case vertDist p1 p2 d =>
      obtain ⟨D, rfl⟩ := fin' (k2 d (by simp [consParams]))
      refine ray_vert fun e => ?_
      simp [coordsUsed, e] at k3
    case horizLine l =>
      refine ray_horizLine fun e => ?_
      simp [coordsUsed, e] at k3
    case vertLine l =>
      refine ray_vertLine fun e => ?_
      simp [coordsUsed, e] at k3
  · refine ⟨.inr (.inr rfl), fun k hks => ?_⟩
    have k1 := hk k hks
    have k3 := nd k hks
    have k4 := hc.2 k hks
    dsimp only at k4
    generalize h.cons k = c at *
    cases c <;> simp only [LengthOnly] at k1
    case eqLen l m =>
      exact ray_eqLen k3 (proper_hyp hc ex (k4 _ (by simp [consFields])) k1.1) (proper_hyp hc ex (k4 _ (by simp [consFields])) k1.2)

end rays

/-- **C101.** Gradient descent: either it stops at once because of its thresholds, and nothing has moved, or it takes exactly one step,
of size `1 / lam`, after which every constraint is satisfied. -/
theorem C101_gd {lam L mg ml : ℝ} (hn : s.cells.Nodup) (hc : Closed ⟨h, s⟩) (hf : FiniteSketch h s) (hu : NoSharing h s)
    (hs : OneSort h s lam) (eL : getLoss h s = fin L) (p : GDParams XR) (eg : p.minGrad = fin mg) (el : p.minLoss = fin ml)
    (hml : 0 < ml) (hi : 1 ≤ p.maxIterations) :
    (gdSolve p h s).res = .ok ∧
    ((L < ml ∨ Real.sqrt (2 * lam * L) < mg) →
      (gdSolve p h s).steps = [] ∧ getData (gdSolve p h s).heap s = getData h s) ∧
    (¬(L < ml ∨ Real.sqrt (2 * lam * L) < mg) →
      (gdSolve p h s).steps.map (·.alpha) = [fin (1 / lam)] ∧ getLoss (gdSolve p h s).heap s = fin 0) := by
  obtain ⟨x, ex⟩ : ∃ x : Fin (getNDofs h s) → ℝ, getData h s = vec x := exists_vec' (List.all_eq_true.2 hf.1) (getData_length _ _)
  obtain ⟨hl, hr⟩ := hs.rays hc hf hu ex
  have := (spec_at hn hc hf (SameRefs.refl h) ex).1
  rw [eL] at this
  obtain rfl := XR.fin.inj this
  obtain ⟨i1, i2, i3⟩ := ray_gd hn hc hf hu hr hl ex p eg el hml hi
  exact ⟨i1, fun hh => ⟨(i2 hh).1, (i2 hh).2.getData s⟩, i3⟩

/-- **C101.** BFGS: likewise.  Its threshold is on the largest entry of the gradient; it is certainly not met if the loss is at least
`n * gt² / (2 * lam)` where `n` is the number of degrees of freedom. -/
theorem C101_bfgs {lam L gt ml : ℝ} (hn : s.cells.Nodup) (hc : Closed ⟨h, s⟩) (hf : FiniteSketch h s) (hu : NoSharing h s)
    (hs : OneSort h s lam) (eL : getLoss h s = fin L) (p : BFGSParams XR) (eg : p.gradientThreshold = fin gt) (el : p.minLoss = fin ml)
    (hml : 0 < ml) (hgt : 0 < gt) (hi : 1 ≤ p.maxIterations) :
    (bfgsSolve p h s).res = .ok ∧
    (L < ml → (bfgsSolve p h s).steps = [] ∧ getData (bfgsSolve p h s).heap s = getData h s) ∧
    (ml ≤ L → (getNDofs h s : ℝ) * gt ^ 2 ≤ 2 * lam * L →
      (bfgsSolve p h s).steps.map (·.alpha) = [fin (1 / lam)] ∧ getLoss (bfgsSolve p h s).heap s = fin 0) ∧
    (ml ≤ L → 2 * lam * L < (getNDofs h s : ℝ) * gt ^ 2 →
      ((bfgsSolve p h s).steps = [] ∧ getData (bfgsSolve p h s).heap s = getData h s) ∨
      ((bfgsSolve p h s).steps.map (·.alpha) = [fin (1 / lam)] ∧ getLoss (bfgsSolve p h s).heap s = fin 0)) := by
  obtain ⟨x, ex⟩ : ∃ x : Fin (getNDofs h s) → ℝ, getData h s = vec x := exists_vec' (List.all_eq_true.2 hf.1) (getData_length _ _)
  obtain ⟨hl, hr⟩ := hs.rays hc hf hu ex
  have := (spec_at hn hc hf (SameRefs.refl h) ex).1
  rw [eL] at this
  obtain rfl := XR.fin.inj this
  obtain ⟨i1, i2, i3, i4⟩ := ray_bfgs hn hc hf hu hr hl ex p eg el hml hgt hi
  exact ⟨i1, fun hh => ⟨(i2 hh).1, by rw [(i2 hh).2]⟩, i3, fun h1 h2 => (i4 h1 h2).imp (fun hh => ⟨hh.1, hh.2.getData s⟩) id⟩

/-! ## Overshooting -/

/-- two points on the x axis, to be 1 apart -/
noncomputable def farHeap (a b : ℝ) : Heap XR :=
  { (Heap.empty : Heap XR) with
    points := fun k => if k = 0 then ⟨⟨fin a, fin 0⟩, ⟨fin 0, fin 0⟩⟩ else ⟨⟨fin b, fin 0⟩, ⟨fin 0, fin 0⟩⟩
    cons := fun _ => .euclid 0 1 (fin 1)
    nPoints := 2
    nCons := 1 }

def farSketch : Sketch := ⟨[(0, .point 0), (1, .point 1)], 2, [0]⟩

theorem far_nodup : farSketch.cells.Nodup := by simp [Sketch.cells, farSketch]

theorem far_at {H : Heap XR} (ec : ∀ k, H.cons k = .euclid 0 1 (fin 1)) {a b : ℝ}
    (ed : getData H farSketch = [fin a, fin 0, fin b, fin 0]) (hab : 1e-6 ≤ |a - b|) :
    getLoss H farSketch = fin ((|a - b| - 1) ^ 2 / 2) ∧ ∃ h2, GradOnly H h2 ∧
      getGradient H farSketch = .ok ([fin ((|a - b| - 1) * ((a - b) / |a - b|)), fin 0, fin (-((|a - b| - 1) * ((a - b) / |a - b|))), fin 0], h2) := by
  have e0 : (H.points 0).data = ⟨fin a, fin 0⟩ ∧ (H.points 1).data = ⟨fin b, fin 0⟩ := by
    rw [getData_eq] at ed
    simp [farSketch, Sketch.cells, primData] at ed
    obtain ⟨d1, d2, d3, d4⟩ := ed
    constructor
    · rw [← d1, ← d2]
    · rw [← d3, ← d4]
  have q1 : ptData H 0 = ⟨fin a, fin 0⟩ := e0.1
  have q2 : ptData H 1 = ⟨fin b, fin 0⟩ := e0.2
  have eh : hyp (a - b) (0 - 0) = |a - b| := by
    rw [hyp, sub_self, mul_zero, add_zero, ← sq, Real.sqrt_sq_eq_abs]
  have el : lossValue H (.euclid 0 1 (fin 1)) = fin ((|a - b| - 1) ^ 2 / 2) := by rw [loss_euclid q1 q2, eh]
  constructor
  · rw [getLoss_fin (by intro k hk; rw [ec, el]; exact ⟨_, rfl⟩)]
    simp [farSketch, ec, el]
  · have ch := chunks_euclid (D := 1) q1 q2
    dsimp only at ch
    rw [eh, if_neg (not_lt.2 hab)] at ch
    have hf : ∀ k ∈ farSketch.cons, FiniteCons H (H.cons k) := by
      intro k _
      rw [ec]
      constructor <;> simp [consDeps, consFields, consParams, primFields, primData, e0.1, e0.2]
    obtain ⟨h2, g2, -, e2⟩ := (getGradient_exact H farSketch hf).1 (by intro k _; rw [ec]; simp [DegenerateEqLen])
    refine ⟨h2, g2, ?_⟩
    rw [e2]
    simp [farSketch, Sketch.dofs, Sketch.cells, dofs, ec, contribs, ch, Chunk.contrib]

/-- **C101.** Why the points must not be more than twice as far from each other as desired: with (0, 0) and (3, 0), to be 1 apart, the
first step size tried, 1, is accepted, and the points change sides: they end at (2, 0) and (1, 0). -/
theorem C101_overshoot : let o := gdSolve (GDParams.default : GDParams XR) (farHeap 0 3) farSketch
    o.res = .ok ∧ o.steps.map (·.alpha) = [fin 1] ∧ getData o.heap farSketch = [fin 2, fin 0, fin 1, fin 0] := by
  have sd : ∀ {H : Heap XR}, SameRefs (farHeap 0 3) H → ∀ a b : ℝ, ∃ H', setData H farSketch [fin a, fin 0, fin b, fin 0] = .ok H' ∧
      SameRefs (farHeap 0 3) H' ∧ getData H' farSketch = [fin a, fin 0, fin b, fin 0] := by
    intro H r a b
    obtain ⟨H', e, r', ed⟩ := setData_at (s := farSketch) far_nodup r (![a, 0, b, 0] : Fin 4 → ℝ)
    have ev : vec (![a, 0, b, 0] : Fin 4 → ℝ) = [fin a, fin 0, fin b, fin 0] := by simp [vec]
    rw [← ev]
    exact ⟨H', e, r', ed⟩
  have r0 := SameRefs.refl (farHeap 0 3)
  have cons' : ∀ {H : Heap XR}, SameRefs (farHeap 0 3) H → ∀ k, H.cons k = .euclid 0 1 (fin 1) := by
    intro H r k; rw [r.cons]; rfl
  have ed0 : getData (farHeap 0 3) farSketch = [fin 0, fin 0, fin 3, fin 0] := by
    rw [getData_eq]; simp [farHeap, farSketch, Sketch.cells, primData]
  have at0 : ∀ {H : Heap XR}, SameRefs (farHeap 0 3) H → getData H farSketch = [fin 0, fin 0, fin 3, fin 0] →
      getLoss H farSketch = fin 2 ∧ ∃ h2, GradOnly H h2 ∧ getGradient H farSketch = .ok ([fin (-2), fin 0, fin 2, fin 0], h2) := by
    intro H r ed
    have := far_at (cons' r) ed (by norm_num)
    norm_num at this ⊢
    exact this
  have at1 : ∀ {H : Heap XR}, SameRefs (farHeap 0 3) H → getData H farSketch = [fin 2, fin 0, fin 1, fin 0] →
      getLoss H farSketch = fin 0 ∧ ∃ h2, GradOnly H h2 ∧ getGradient H farSketch = .ok ([fin 0, fin 0, fin 0, fin 0], h2) := by
    intro H r ed
    have := far_at (cons' r) ed (by norm_num)
    norm_num at this ⊢
    exact this
  obtain ⟨eL0, H1, g1, e1⟩ := at0 r0 ed0
  have ed1 : getData H1 farSketch = [fin 0, fin 0, fin 3, fin 0] := by rw [g1.getData, ed0]
  obtain ⟨H2, e2, r2, ed2⟩ := sd g1.1 2 1
  obtain ⟨eL2, H3, g3, e3⟩ := at1 r2 ed2
  have r3 := r2.trans g3.1
  obtain ⟨H4, e4, r4, ed4⟩ := sd r3 2 1
  obtain ⟨eL4, H5, g5, e5⟩ := at1 r4 ed4
  have hv : vneg [fin (-2), fin 0, fin 2, fin 0] = [fin 2, fin 0, fin (-2), fin 0] := by simp [vneg]
  have hm : dotV [fin (-2), fin 0, fin 2, fin 0] [fin 2, fin 0, fin (-2), fin 0] = fin (-8) := by simp [dotV_eq, dotL]; norm_num
  have h0 : dotV [fin 0, fin 0, fin 0, fin 0] [fin 2, fin 0, fin (-2), fin 0] = fin 0 := by simp [dotV_eq, dotL]
  have hd : vadd [fin 0, fin 0, fin 3, fin 0] (vscale (fin 1) [fin 2, fin 0, fin (-2), fin 0]) = [fin 2, fin 0, fin 1, fin 0] := by
    simp [vadd, vscale]; norm_num
  have ha : axpy [fin 0, fin 0, fin 3, fin 0] (fin 1) [fin 2, fin 0, fin (-2), fin 0] = [fin 2, fin 0, fin 1, fin 0] := by
    simp [axpy]; norm_num
  have hs : lineSearch H1 farSketch [fin 2, fin 0, fin (-2), fin 0] [fin (-2), fin 0, fin 2, fin 0] = (.ok (fin 1), H3) := by
    unfold lineSearch
    simp only [hm, ed1, g1.getLoss, eL0, zero_lit, one_lit]
    rw [if_neg (by simp [ge])]
    unfold lsMaxIter lsLoop
    simp only [hd, e2, eL2, e3, h0, c1_lit, c2_lit, mul_fin, add_fin, ge, le_fin]
    rw [if_pos (by norm_num), if_pos (by norm_num)]
  have hg : normL [fin (-2), fin 0, fin 2, fin 0] = fin (Real.sqrt 8) := by
    have : dotV [fin (-2), fin 0, fin 2, fin 0] [fin (-2), fin 0, fin 2, fin 0] = fin 8 := by simp [dotV_eq, dotL]; norm_num
    rw [normL, this, sqrt_fin_of_nonneg (by norm_num)]
  have h8 : (1 : ℝ) ≤ Real.sqrt 8 := Real.one_le_sqrt.2 (by norm_num)
  have stop : ∀ n g ng, gdLoop (GDParams.default : GDParams XR) farSketch n H5 g ng (fin 0) = ⟨.ok, H5, [], 0, 0⟩ := by
    intro n g ng
    cases n with
    | zero => rfl
    | succ n =>
      rw [gdLoop]
      have : (fin 0 <. (GDParams.default : GDParams XR).minLoss) = true := by simp [GDParams.default, sci]; norm_num
      rw [if_pos this, ite_self]
  dsimp only
  unfold gdSolve
  rw [e1]
  dsimp only
  rw [show (GDParams.default : GDParams XR).maxIterations = 9999 + 1 from rfl, gdLoop, hg, g1.getLoss, eL0]
  rw [if_neg (by simp [GDParams.default, sci]; linarith), if_neg (by simp [GDParams.default, sci]; norm_num), ed1, hv]
  dsimp only
  rw [hs]
  dsimp only
  rw [ha, e4]
  dsimp only
  rw [e5]
  dsimp only
  rw [eL4, stop]
  refine ⟨rfl, rfl, ?_⟩
  show getData H5 farSketch = _
  rw [g5.getData, ed4]

/-! ## A case that meets the hypotheses -/

/-- C101: the points (0, 0) and (1.5, 0), to be 1 apart: gradient descent moves them to (0.25, 0) and (1.25, 0). -/
example : let h := farHeap 0 1.5
    farSketch.cells.Nodup ∧ Closed ⟨h, farSketch⟩ ∧ FiniteSketch h farSketch ∧ NoSharing h farSketch ∧ OneSort h farSketch 2 ∧
    getLoss h farSketch = fin 0.125 ∧ (gdSolve (GDParams.default : GDParams XR) h farSketch).steps.map (·.alpha) = [fin (1 / 2)] ∧
    getLoss (gdSolve (GDParams.default : GDParams XR) h farSketch).heap farSketch = fin 0 ∧
    (bfgsSolve (BFGSParams.default : BFGSParams XR) h farSketch).steps.map (·.alpha) = [fin (1 / 2)] ∧
    getLoss (bfgsSolve (BFGSParams.default : BFGSParams XR) h farSketch).heap farSketch = fin 0 := by
  intro h
  have hc : Closed ⟨h, farSketch⟩ := by simp [Closed, h, farHeap, farSketch, Sketch.cells, primFields, consFields]
  have hf : FiniteSketch h farSketch := by
    refine ⟨?_, by simp [farSketch, h, farHeap, consParams]⟩
    rw [getData_eq]
    simp [h, farHeap, farSketch, Sketch.cells, primData]
  have hu : NoSharing h farSketch := by simp [NoSharing, farSketch, h, farHeap, coordsUsed]
  have hs : OneSort h farSketch 2 := by
    refine .inr (.inl ⟨rfl, fun k _ => ?_⟩)
    have ed : dist (ptOf h 0) (ptOf h 1) = 1.5 := by
      have : dist (ptOf h 0) (ptOf h 1) = hyp (0 - 1.5) (0 - 0) := (hyp_pt _ _ _ _).symm
      rw [this, hyp, show ((0 : ℝ) - 1.5) * (0 - 1.5) + (0 - 0) * (0 - 0) = 1.5 ^ 2 by norm_num, Real.sqrt_sq (by norm_num)]
    show PairOnly h (.euclid 0 1 (fin 1))
    simp only [PairOnly, ed, toReal_fin]
    norm_num
  have ed : getData h farSketch = [fin 0, fin 0, fin 1.5, fin 0] := by
    rw [getData_eq]; simp [h, farHeap, farSketch, Sketch.cells, primData]
  have eL : getLoss h farSketch = fin 0.125 := by
    rw [(far_at (H := h) (fun _ => rfl) ed (by norm_num)).1]
    norm_num
  have n4 : getNDofs h farSketch = 4 := by rw [← getData_length, ed]; rfl
  have i1 := (C101_gd far_nodup hc hf hu hs eL .default (mg := 1e-10) (ml := 1e-14) (by simp [GDParams.default, sci]) (by simp [GDParams.default, sci])
    (by norm_num) (by simp [GDParams.default])).2.2 (by
      rw [show (2 : ℝ) * 2 * 0.125 = 0.5 by norm_num, not_or, not_lt, not_lt]
      exact ⟨by norm_num, Real.le_sqrt_of_sq_le (by norm_num)⟩)
  have i2 := (C101_bfgs far_nodup hc hf hu hs eL .default (gt := 1e-8) (ml := 1e-16) (by simp [BFGSParams.default, sci]) (by simp [BFGSParams.default, sci])
    (by norm_num) (by norm_num) (by simp [BFGSParams.default])).2.2.1 (by norm_num) (by rw [n4]; norm_num)
  exact ⟨far_nodup, hc, hf, hu, hs, eL, i1.1, i1.2, i2.1, i2.2⟩

end Isotope
