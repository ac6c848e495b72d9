import Verif.Lemmas.Part
import Verif.Lemmas.ExRun
import Verif.Props.Newton
import Verif.Props.Apart
import Verif.Model.Api

/-!
# C92: Gauss-Newton and Levenberg-Marquardt treat unconnected parts of a sketch separately; gradient descent does not

`Sketch.PartOf`, `SameData` and `PartRun` are in `SpecPart.lean`, `CutPInv` in `SpecCut.lean`.  (exact arithmetic)
-/

namespace Isotope
open XR

section
variable {pinv : PInv XR} {h : Heap XR} {s u : Sketch}

/-- **C92 (Gauss-Newton).** If a part of a sketch is not connected to the rest, Gauss-Newton on the whole sketch moves the part as
Gauss-Newton on the part alone does: step by step the same coordinates, for any step size and cut-off. -/
theorem C92_gauss_newton (hp : CutPInv pinv) {p : GNParams XR} {σ ε : ℝ} (hσ : p.stepSize = fin σ) (hε : p.pinvEps = fin ε) (h0 : 0 ≤ ε)
    (hnu : u.cells.Nodup) (hns : s.cells.Nodup) (hcu : Closed ⟨h, u⟩) (hcs : Closed ⟨h, s⟩) (part : s.PartOf h u)
    (hs : s.cells ≠ []) (hf : FiniteSketch h u) : PartRun s (gnSolve pinv p h u) (gnSolve pinv p h s) := by
  unfold gnSolve
  rw [hσ, hε]
  exact part_loop (β := 0) hp h0 le_rfl (fun n m J => by rw [gnNormal_mat, zero_smul, add_zero]) hnu hns hcu hcs part (hcs.pos hs)
    p.maxIterations id (.refl h) (.refl h) hf (hf.part part) fun _ _ => rfl

/-- **C92 (Levenberg-Marquardt).** The same for Levenberg-Marquardt with any damping. -/
theorem C92_levenberg_marquardt (hp : CutPInv pinv) {p : LMParams XR} {σ ε β : ℝ} (hσ : p.stepSize = fin σ) (hε : p.pinvEps = fin ε)
    (hβ : p.beta = fin β) (h0 : 0 ≤ ε) (h1 : 0 ≤ β)
    (hnu : u.cells.Nodup) (hns : s.cells.Nodup) (hcu : Closed ⟨h, u⟩) (hcs : Closed ⟨h, s⟩) (part : s.PartOf h u)
    (hs : s.cells ≠ []) (hf : FiniteSketch h u) : PartRun s (lmSolve pinv p h u) (lmSolve pinv p h s) := by
  unfold lmSolve
  rw [hσ, hε, hβ]
  exact part_loop hp h0 h1 (fun n m J => lmNormal_mat β J) hnu hns hcu hcs part (hcs.pos hs)
    p.maxIterations id (.refl h) (.refl h) hf (hf.part part) fun _ _ => rfl

end

/-! ## Gradient descent couples the parts -/

/-- points 0 and 1 at `(a, 0)` and `(c, 0)` with gradients `(e, 0)` and `(g, 0)`; constraint 0 fixes point 0 to `(1, 0)`, constraints 1 and 2
both fix point 1 to `(1000, 0)` -/
noncomputable def duoHeap (a c e g : ℝ) : Heap XR :=
  { (Heap.empty : Heap XR) with
    points := upd (upd Heap.empty.points 0 ⟨⟨fin a, fin 0⟩, ⟨fin e, fin 0⟩⟩) 1 ⟨⟨fin c, fin 0⟩, ⟨fin g, fin 0⟩⟩
    cons := upd (upd (upd Heap.empty.cons 0 (.fix 0 ⟨fin 1, fin 0⟩)) 1 (.fix 1 ⟨fin 1000, fin 0⟩)) 2 (.fix 1 ⟨fin 1000, fin 0⟩)
    nPoints := 2
    nCons := 3 }

/-- both points and all three constraints -/
def duoSketch : Sketch := ⟨[(0, .point 0), (1, .point 1)], 2, [0, 1, 2]⟩

variable (a c e g : ℝ)

theorem duo_data : getData (duoHeap a c e g) duoSketch = [fin a, fin 0, fin c, fin 0] := by
  simp [getData, getNDofs, duoSketch, duoHeap, primData, zerosVec, blit, upd]

theorem duo_loss : getLoss (duoHeap a c e g) duoSketch = fin ((a - 1) ^ 2 / 2 + (c - 1000) ^ 2) := by
  simp [getLoss, duoSketch, duoHeap, lossValue, ptData, Vec2.normSq, upd]
  norm_num
  ring

theorem duo_setData (a' c' : ℝ) :
    setData (duoHeap a c e g) duoSketch [fin a', fin 0, fin c', fin 0] = .ok (duoHeap a' c' e g) := by
  simp [setData, setDataLoop, duoSketch, duoHeap, primData, primSetData, getNDofs, Heap.setPoint]
  funext i
  by_cases h0 : i = 0
  · simp [upd, h0]
  · by_cases h1 : i = 1
    · simp [upd, h1]
    · simp [upd, h0, h1]

theorem duo_gradient : getGradient (duoHeap a c e g) duoSketch =
    .ok ([fin (a - 1), fin 0, fin (2 * (c - 1000)), fin 0], duoHeap a c (a - 1) (2 * (c - 1000))) := by
  have h1 : ∀ a b c d : ℝ, (⟨fin a, fin b⟩ : Vec2 XR) - ⟨fin c, fin d⟩ = ⟨fin (a - c), fin (b - d)⟩ := by
    intro a b c d; show Vec2.mk _ _ = _; rw [sub_fin, sub_fin]
  have h2 : ∀ a b c d : ℝ, (⟨fin a, fin b⟩ : Vec2 XR) + ⟨fin c, fin d⟩ = ⟨fin (a + c), fin (b + d)⟩ := fun _ _ _ _ => rfl
  have p0 : ∀ e g : ℝ, (duoHeap a c e g).points 0 = ⟨⟨fin a, fin 0⟩, ⟨fin e, fin 0⟩⟩ := fun e g => by simp [duoHeap, upd]
  have p1 : ∀ e g : ℝ, (duoHeap a c e g).points 1 = ⟨⟨fin c, fin 0⟩, ⟨fin g, fin 0⟩⟩ := fun e g => by simp [duoHeap, upd]
  have s0 : ∀ e g e', (duoHeap a c e g).setPoint 0 ⟨⟨fin a, fin 0⟩, ⟨fin e', fin 0⟩⟩ = duoHeap a c e' g := fun e g e' => by
    simp only [duoHeap, Heap.setPoint, Heap.mk.injEq, and_true]
    funext i
    by_cases h0 : i = 0
    · simp [upd, h0]
    · by_cases h1 : i = 1
      · simp [upd, h1]
      · simp [upd, h0, h1]
  have s1 : ∀ e g g', (duoHeap a c e g).setPoint 1 ⟨⟨fin c, fin 0⟩, ⟨fin g', fin 0⟩⟩ = duoHeap a c e g' := fun e g g' => by
    simp [duoHeap, Heap.setPoint, upd_upd]
  have hz : zeroGrads (duoHeap a c e g) duoSketch = duoHeap a c 0 0 := by
    simp only [duoSketch, zeroGrads, primZeroGrad, Vec2.zeros, zero_lit, List.foldl_cons, List.foldl_nil, p0, s0, p1, s1]
  have c0 : ∀ e g : ℝ, (duoHeap a c e g).cons 0 = .fix 0 ⟨fin 1, fin 0⟩ := fun e g => by simp [duoHeap, upd]
  have c1 : ∀ e g : ℝ, (duoHeap a c e g).cons 1 = .fix 1 ⟨fin 1000, fin 0⟩ := fun e g => by simp [duoHeap, upd]
  have c2 : ∀ e g : ℝ, (duoHeap a c e g).cons 2 = .fix 1 ⟨fin 1000, fin 0⟩ := fun e g => by simp [duoHeap, upd]
  have u0 : ∀ e g, updateGradient (duoHeap a c e g) (.fix 0 ⟨fin 1, fin 0⟩) = .ok (duoHeap a c (e + (a - 1)) g) := fun e g => by
    show fixUpdate _ _ _ = _
    unfold fixUpdate pointAddGrad ptData
    rw [p0, h1, if_pos (by simp [Vec2.allFinite])]
    simp only [h2, sub_zero, add_zero, s0]
  have u1 : ∀ e g, updateGradient (duoHeap a c e g) (.fix 1 ⟨fin 1000, fin 0⟩) = .ok (duoHeap a c e (g + (c - 1000))) := fun e g => by
    show fixUpdate _ _ _ = _
    unfold fixUpdate pointAddGrad ptData
    rw [p1, h1, if_pos (by simp [Vec2.allFinite])]
    simp only [h2, sub_zero, add_zero, s1]
  have hu : updateAll (duoHeap a c 0 0) duoSketch.cons = .ok (duoHeap a c (a - 1) (2 * (c - 1000))) := by
    simp only [duoSketch, updateAll, List.foldlM_cons, List.foldlM_nil, c0, c1, c2, u0, u1, bind, Except.bind, pure, Except.pure, zero_add]
    congr 2; ring
  unfold getGradient
  rw [hz, hu]
  simp [duoSketch, duoHeap, collectGradient, primGrad, getNDofs, primData, zerosVec, blit, upd]

theorem duo_lineSearch : lineSearch (duoHeap 0 0 (-1) (-2000)) duoSketch [fin 1, fin 0, fin 2000, fin 0] [fin (-1), fin 0, fin (-2000), fin 0] =
    (.ok (fin (1 / 2)), duoHeap (1 / 2) 1000 (-(1 / 2)) 0) := by
  have hm : dotV [fin (-1), fin 0, fin (-2000), fin 0] [fin 1, fin 0, fin 2000, fin 0] = fin (-4000001) := by
    simp [dotV_eq, dotL]; norm_num
  have hd1 : vadd [fin 0, fin 0, fin 0, fin 0] (vscale (fin 1) [fin 1, fin 0, fin 2000, fin 0]) = [fin 1, fin 0, fin 2000, fin 0] := by
    simp [vadd, vscale]
  have hd2 : vadd [fin 0, fin 0, fin 0, fin 0] (vscale (fin (1 / 2)) [fin 1, fin 0, fin 2000, fin 0]) = [fin (1 / 2), fin 0, fin 1000, fin 0] := by
    simp [vadd, vscale]; norm_num
  have hh : fin 1 * (0.5 : XR) = fin (1 / 2) := by rw [sci, mul_fin]; norm_num
  have hc : dotV [fin (1 / 2 - 1), fin 0, fin (2 * (1000 - 1000)), fin 0] [fin 1, fin 0, fin 2000, fin 0] = fin (-(1 / 2)) := by
    simp [dotV_eq, dotL]; norm_num
  unfold lineSearch
  simp only [hm, duo_data, duo_loss, zero_lit, one_lit]
  rw [if_neg (by simp [ge])]
  unfold lsMaxIter lsLoop
  simp only [hd1, duo_setData, duo_loss]
  rw [if_neg (by simp [wolfeC1]; norm_num)]
  unfold lsLoop
  simp only [hh, hd2, duo_setData, duo_loss]
  rw [if_pos (by simp [wolfeC1]; norm_num)]
  simp only [duo_gradient, hc]
  rw [if_pos (by simp [ge, wolfeC2]; norm_num)]
  norm_num

/-- gradient descent on both points: the first step takes point 0 half the way -/
theorem duo_gdSolve : gdSolve ⟨1, 1e-14, 1e-10⟩ (duoHeap 0 0 0 0) duoSketch =
    ⟨.ok, duoHeap (1 / 2) 1000 (-(1 / 2)) 0, [⟨duoHeap 0 0 (-1) (-2000), fin (1 / 2), duoHeap (1 / 2) 1000 (-(1 / 2)) 0, []⟩], 1, 0⟩ := by
  have hv : vneg [fin (-1), fin 0, fin (-2000), fin 0] = [fin 1, fin 0, fin 2000, fin 0] := by simp [vneg]
  have hd : axpy [fin 0, fin 0, fin 0, fin 0] (fin (1 / 2)) [fin 1, fin 0, fin 2000, fin 0] = [fin (1 / 2), fin 0, fin 1000, fin 0] := by
    simp only [axpy, one_lit, List.zipWith_cons_cons, List.zipWith_nil_left, mul_fin, add_fin]
    norm_num
  have hg : normL [fin (-1), fin 0, fin (-2000), fin 0] = fin (Real.sqrt 4000001) := by
    have : dotV [fin (-1), fin 0, fin (-2000), fin 0] [fin (-1), fin 0, fin (-2000), fin 0] = fin 4000001 := by
      simp [dotV_eq, dotL]; norm_num
    rw [normL, this, sqrt_fin_of_nonneg (by norm_num)]
  have h1 : (1 : ℝ) ≤ Real.sqrt 4000001 := Real.one_le_sqrt.2 (by norm_num)
  have e0 : ((0 : ℝ) - 1) = -1 := by norm_num
  have e1 : 2 * ((0 : ℝ) - 1000) = -2000 := by norm_num
  have e2 : ((1 / 2 : ℝ) - 1) = -(1 / 2) := by norm_num
  have e3 : 2 * ((1000 : ℝ) - 1000) = 0 := by norm_num
  unfold gdSolve
  simp only [duo_gradient, e0, e1]
  unfold gdLoop
  simp only [duo_data, duo_loss]
  rw [if_neg, if_neg]
  · rw [hv, duo_lineSearch]
    simp only [duo_setData, duo_gradient, hd, e2, e3]
    simp [gdLoop, SolveOut.cons]
  · simp; norm_num
  · rw [hg]; simp; norm_num; linarith

theorem duo_part (a c e g : ℝ) : fixSketch.PartOf (duoHeap a c e g) duoSketch := by
  refine ⟨by simp [fixSketch, duoSketch, Sketch.cells], [1, 2], .refl _, ?_⟩
  simp [fixSketch, duoHeap, Sketch.cells, consDeps, consFields, primFields, upd]

theorem duo_closed (a c e g : ℝ) : Closed ⟨duoHeap a c e g, duoSketch⟩ ∧ Closed ⟨duoHeap a c e g, fixSketch⟩ := by
  constructor <;> constructor <;> simp [duoHeap, fixSketch, duoSketch, Sketch.cells, primFields, consFields, upd]

theorem duo_finite (a c e g : ℝ) : FiniteSketch (duoHeap a c e g) duoSketch := by
  refine ⟨?_, ?_⟩
  · rw [duo_data]; simp
  · simp [duoSketch, duoHeap, upd, consParams]

/-- **C92 (gradient descent).** For gradient descent this is not so: the parts share the step size.  Point 0 alone is taken to its place in
one step; beside another point, with which it has nothing in common, the first step takes it only half the way. -/
theorem C92_gd_couples : ∃ (h : Heap XR) (s u : Sketch), u.cells.Nodup ∧ Closed ⟨h, u⟩ ∧ Closed ⟨h, s⟩ ∧ s.PartOf h u ∧ FiniteSketch h u ∧
    s.cells = [.point 0] ∧ (∃ r, (gdSolve ⟨1, 1e-14, 1e-10⟩ h s).steps = [r] ∧ ptData r.pre 0 = ⟨fin 0, fin 0⟩ ∧ ptData r.post 0 = ⟨fin 1, fin 0⟩) ∧
    ∃ r, (gdSolve ⟨1, 1e-14, 1e-10⟩ h u).steps = [r] ∧ ptData r.pre 0 = ⟨fin 0, fin 0⟩ ∧ ptData r.post 0 = ⟨fin (1 / 2), fin 0⟩ := by
  refine ⟨duoHeap 0 0 0 0, fixSketch, duoSketch, by simp [duoSketch, Sketch.cells], (duo_closed 0 0 0 0).1, (duo_closed 0 0 0 0).2,
    duo_part 0 0 0 0, duo_finite 0 0 0 0, rfl, ?_, ?_⟩
  · have q := C91_reads (h := fixHeap 1 0 0 0 0 0) (h' := duoHeap 0 0 0 0) (s := fixSketch) (fun _ _ => .err) (.gd ⟨1, 1e-14, 1e-10⟩) (fix_closed 1 0 0 0 0 0)
      (by constructor <;> simp [duoHeap, fixHeap, fixSketch, Sketch.cells, upd])
    have e := fix_gdSolve (x := 1) (y := 0) (a := 0) (b := 0) (u := 0) (v := 0) 0 (by norm_num)
    have st := q.steps
    simp only [runSolver] at st
    rw [e] at st
    cases hst : (gdSolve ⟨1, 1e-14, 1e-10⟩ (duoHeap 0 0 0 0) fixSketch).steps with
    | nil => rw [hst] at st; cases st
    | cons r l =>
      rw [hst] at st
      cases st with
      | cons h1 h2 =>
        cases h2
        refine ⟨r, rfl, ?_, ?_⟩
        · unfold ptData; rw [h1.1.points 0 (by simp [fixSketch, Sketch.cells])]; simp [fixHeap, upd]
        · unfold ptData; rw [h1.2.2.1.points 0 (by simp [fixSketch, Sketch.cells])]; simp [fixHeap, upd]
  · refine ⟨_, by rw [duo_gdSolve], ?_, ?_⟩ <;> simp [ptData, duoHeap, upd]

/-- the hypotheses of the first two are met by the same sketch, with nalgebra's cut-off pseudo-inverse in exact arithmetic -/
example : PartRun fixSketch (gnSolve cutPInv ⟨10, fin 0, fin 1, fin 0⟩ (duoHeap 0 0 0 0) duoSketch)
    (gnSolve cutPInv ⟨10, fin 0, fin 1, fin 0⟩ (duoHeap 0 0 0 0) fixSketch) :=
  C92_gauss_newton cutPInv_cut rfl rfl le_rfl (by simp [duoSketch, Sketch.cells]) (by simp [fixSketch, Sketch.cells])
    (duo_closed 0 0 0 0).1 (duo_closed 0 0 0 0).2 (duo_part 0 0 0 0) (by simp [fixSketch, Sketch.cells]) (duo_finite 0 0 0 0)

end Isotope
