import Verif.SpecPath
import Verif.Lemmas.Smooth

/-!
# The length of the way of gradient descent
-/

namespace Isotope
open XR
open Matrix

variable {h : Heap XR} {s : Sketch}

theorem stepLength_vec {n : Nat} {r : StepRec XR} {x y : Fin n → ℝ} (e1 : getData r.pre s = vec x) (e2 : getData r.post s = vec y) :
    stepLength s r = dist2 x y := by
  unfold stepLength dist2 distSq
  rw [e1, e2]
  congr 1
  have : List.zipWith (fun a b : XR => (b.toReal - a.toReal) ^ 2) (vec x) (vec y) = List.ofFn fun i => (x i - y i) ^ 2 := by
    apply List.ext_getElem
    · simp [vec]
    · intro i h1 h2
      simp only [List.getElem_zipWith, vec, List.getElem_ofFn, toReal_fin]
      ring
  rw [this, List.sum_ofFn]

theorem dist2_step {n : Nat} (x g : Fin n → ℝ) {c : ℝ} (hc : 0 ≤ c) : dist2 x (x + c • -g) = c * len g := by
  unfold dist2 distSq
  have : ∑ i, (x i - (x + c • -g) i) ^ 2 = (c * len g) ^ 2 := by
    rw [mul_pow, len_sq, dotProduct, Finset.mul_sum]
    refine Finset.sum_congr rfl fun i _ => ?_
    simp only [Pi.add_apply, Pi.smul_apply, Pi.neg_apply, smul_eq_mul]
    ring
  rw [this, Real.sqrt_sq (mul_nonneg hc (len_nonneg g))]

/-- an accepted step of gradient descent is not longer than what the root of the loss decreases by -/
theorem step_le {c G a b mu : ℝ} (hG : 0 < G) (hb : 0 ≤ b) (hmu : 0 < mu)
    (hst : 2 * mu * a ≤ G ^ 2) (hdec : 1e-4 * c * G ^ 2 ≤ a - b) (hc : 0 ≤ c) :
    c * G ≤ 1e4 / √mu * (√(2 * a) - √(2 * b)) := by
  have hab : b ≤ a := by
    have : 0 ≤ 1e-4 * c * G ^ 2 := by positivity
    linarith
  have ha : 0 ≤ a := hb.trans hab
  have s0 := Real.sqrt_pos.2 hmu
  have m2 := Real.sq_sqrt hmu.le
  have a2 := Real.sq_sqrt (show 0 ≤ 2 * a by linarith)
  have b2 := Real.sq_sqrt (show 0 ≤ 2 * b by linarith)
  have a0 := Real.sqrt_nonneg (2 * a)
  have b0 := Real.sqrt_nonneg (2 * b)
  have hle : √(2 * b) ≤ √(2 * a) := Real.sqrt_le_sqrt (by linarith)
  have hG' : √mu * √(2 * a) ≤ G := by
    refine abs_le_of_sq_le_sq' ?_ hG.le |>.2
    rw [mul_pow, m2, a2]
    linarith
  generalize √(2 * a) = A at *
  generalize √(2 * b) = B at *
  generalize √mu = m at *
  rw [div_mul_eq_mul_div, le_div_iff₀ s0]
  have h1 : 1e-4 * c * G ^ 2 ≤ (A - B) * A := by
    have : a - b = (A - B) * (A + B) / 2 := by nlinarith
    nlinarith
  have h2 : m * (1e-4 * c * G ^ 2) ≤ (A - B) * G := by
    calc m * (1e-4 * c * G ^ 2) ≤ m * ((A - B) * A) := mul_le_mul_of_nonneg_left h1 s0.le
      _ = (A - B) * (m * A) := by ring
      _ ≤ (A - B) * G := mul_le_mul_of_nonneg_left hG' (by linarith)
  have h3 : (m * (1e-4 * c * G)) * G ≤ (A - B) * G := by linarith
  have h4 := le_of_mul_le_mul_right h3 hG
  linarith

/-- what is known about the way of a run of gradient descent from the position `x` -/
structure PathRun (h : Heap XR) (s : Sketch) (mu : ℝ) (x : Fin (getNDofs h s) → ℝ) (o : SolveOut XR) : Prop where
  res : o.res = .ok ∨ o.res = .err .searchFailed
  travel : travel s o.steps ≤ 1e4 / √mu * √(2 * lossAfter h s x)
  places : ∀ r ∈ o.steps, ∃ y : Fin (getNDofs h s) → ℝ, getData r.post s = vec y ∧
    dist2 x y ≤ 1e4 / √mu * (√(2 * lossAfter h s x) - √(2 * lossAfter h s y))
  final : o.res = .ok → ∃ x', SameRefs h o.heap ∧ getData o.heap s = vec x' ∧ dist2 x x' ≤ Isotope.travel s o.steps ∧
    Isotope.travel s o.steps ≤ 1e4 / √mu * (√(2 * lossAfter h s x) - √(2 * lossAfter h s x'))

theorem dist2_self {n : Nat} (x : Fin n → ℝ) : dist2 x x = 0 := by simp [dist2, distSq]

theorem dist2_tri {n : Nat} (x y z : Fin n → ℝ) : dist2 x z ≤ dist2 x y + dist2 y z := by
  have key : ∀ u v : Fin n → ℝ, dist2 u v = dist (WithLp.toLp 2 u : EuclideanSpace ℝ (Fin n)) (WithLp.toLp 2 v) := by
    intro u v
    rw [EuclideanSpace.dist_eq]
    unfold dist2 distSq
    congr 1
    refine Finset.sum_congr rfl fun i _ => ?_
    rw [Real.dist_eq, sq_abs]
  rw [key, key, key]
  exact dist_triangle _ _ _

set_option maxHeartbeats 1000000 in
theorem gdLoop_path (hn : s.cells.Nodup) (hc : Closed ⟨h, s⟩) (hf : FiniteSketch h s) {L mu : ℝ}
    (hU : ∀ v, lossAfter h s v ≤ L → Good h s v)
    (hst : ∀ v, lossAfter h s v ≤ L → 2 * mu * lossAfter h s v ≤ gradAt h s v ⬝ᵥ gradAt h s v) (hmu : 0 < mu)
    (p : GDParams XR) {mg ml : ℝ} (eg : p.minGrad = fin mg) (el : p.minLoss = fin ml) (hmg : 0 < mg)
    (n : Nat) (H : Heap XR) (r : SameRefs h H) (x : Fin (getNDofs h s) → ℝ) (ex : getData H s = vec x) (hx : lossAfter h s x ≤ L) :
    PathRun h s mu x (Isotope.gdLoop p s n H (vec (gradAt h s x)) (normL (vec (gradAt h s x))) (getLoss H s)) := by
  have s0 : 0 ≤ 1e4 / √mu := by positivity
  have halt : ∀ (H : Heap XR) (x : Fin (getNDofs h s) → ℝ), SameRefs h H → getData H s = vec x → PathRun h s mu x ⟨.ok, H, [], 0, 0⟩ :=
    fun H x r ex => ⟨.inl rfl, by simp only [travel, List.map_nil, List.sum_nil]; positivity, by simp,
      fun _ => ⟨x, r, ex, by simp [travel, dist2_self], by simp [travel]⟩⟩
  induction n generalizing H x with
  | zero => exact halt H x r ex
  | succ n ih =>
    have hpos := lossAfter_pos hn hc hf x
    have hnl : normL (vec (gradAt h s x)) = fin (len (gradAt h s x)) := by
      rw [normL_vec, ← len_sq, Real.sqrt_sq (len_nonneg _)]
    rw [Isotope.gdLoop, hnl, eg, el, (spec_at hn hc hf r ex).1]
    by_cases c1 : len (gradAt h s x) < mg
    · rw [if_pos (by simpa using c1)]
      exact halt H x r ex
    · rw [if_neg (by simpa using c1)]
      by_cases c2 : lossAfter h s x < ml
      · rw [if_pos (by simpa using c2)]
        exact halt H x r ex
      · rw [if_neg (by simpa using c2)]
        have hG0 : 0 < len (gradAt h s x) := lt_of_lt_of_le hmg (not_lt.1 c1)
        have hG : 0 < gradAt h s x ⬝ᵥ gradAt h s x := by rw [← len_sq]; positivity
        obtain ⟨H1, r1, e1⟩ := lsLoop_below hn hc hf x (-gradAt h s x) (m := gradAt h s x ⬝ᵥ -gradAt h s x)
          (by rw [dotProduct_neg]; linarith) (fun v hv => hU v (hv.trans hx)) 15 1 one_pos H r
        have hls : lineSearch H s (vneg (vec (gradAt h s x))) (vec (gradAt h s x)) = (searchRes
            (hunt (fun a => lossAfter h s (x + a • -gradAt h s x) ≤ lossAfter h s x + 1e-4 * a * (gradAt h s x ⬝ᵥ -gradAt h s x))
        (fun a => 0.9 * (gradAt h s x ⬝ᵥ -gradAt h s x) ≤ gradAt h s (x + a • -gradAt h s x) ⬝ᵥ -gradAt h s x) 15 1), H1) := by
          unfold lineSearch
          dsimp only
          rw [vneg_vec, dotV_vec, ex, (spec_at hn hc hf r ex).1, if_neg (by
            simp only [ge, zero_lit, le_fin, decide_eq_true_eq, dotProduct_neg]
            linarith), one_lit]
          exact e1
        simp only [hls]
        cases ec : hunt (fun a => lossAfter h s (x + a • -gradAt h s x) ≤ lossAfter h s x + 1e-4 * a * (gradAt h s x ⬝ᵥ -gradAt h s x))
          (fun a => 0.9 * (gradAt h s x ⬝ᵥ -gradAt h s x) ≤ gradAt h s (x + a • -gradAt h s x) ⬝ᵥ -gradAt h s x) 15 1 with
        | none =>
          simp only [searchRes]
          exact ⟨.inr rfl, by simp only [travel, List.map_nil, List.sum_nil]; positivity, by simp, fun hh => absurd hh (by simp)⟩
        | some c =>
          obtain ⟨c0, sc, cc⟩ := hunt_ok one_pos ec
          simp only [searchRes]
          rw [ex, vneg_vec, axpy_vec]
          obtain ⟨H2, e2, r2, ed⟩ := setData_at hn r1 (x + c • -gradAt h s x)
          have hcG : 0 < c * (gradAt h s x ⬝ᵥ gradAt h s x) := mul_pos c0 hG
          have hle : lossAfter h s (x + c • -gradAt h s x) ≤ L := by
            rw [dotProduct_neg] at sc
            linarith
          obtain ⟨H3, g3, e3⟩ := (spec_at hn hc hf r2 ed).2 (hU _ hle)
          simp only [e2, e3]
          rw [← g3.getLoss s]
          have ed3 : getData H3 s = vec (x + c • -gradAt h s x) := by rw [g3.getData, ed]
          have hpos' := lossAfter_pos hn hc hf (x + c • -gradAt h s x)
          have hstep : dist2 x (x + c • -gradAt h s x) ≤
              1e4 / √mu * (√(2 * lossAfter h s x) - √(2 * lossAfter h s (x + c • -gradAt h s x))) := by
            rw [dist2_step x _ c0.le]
            refine step_le hG0 hpos' hmu (by rw [len_sq]; exact hst x hx) ?_ c0.le
            rw [len_sq]
            rw [dotProduct_neg] at sc
            linarith
          have hsl : stepLength s (StepRec.mk H (fin c) H3 []) = dist2 x (x + c • -gradAt h s x) := stepLength_vec ex ed3
          obtain ⟨i1, i2, i3, i4⟩ := ih H3 (r2.trans g3.1) (x + c • -gradAt h s x) ed3 hle
          refine ⟨by simpa [SolveOut.cons] using i1, ?_, ?_, fun hr => ?_⟩
          · simp only [SolveOut.cons, travel, List.map_cons, List.sum_cons, hsl]
            unfold travel at i2
            rw [mul_sub] at hstep
            linarith
          · intro q hq
            simp only [SolveOut.cons, List.mem_cons] at hq
            rcases hq with rfl | hq
            · exact ⟨_, ed3, hstep⟩
            · obtain ⟨y, ey, hy⟩ := i3 q hq
              refine ⟨y, ey, (dist2_tri x (x + c • -gradAt h s x) y).trans ?_⟩
              rw [mul_sub] at hstep hy ⊢
              linarith
          · obtain ⟨x', j1, j2, j3, j4⟩ := i4 (by simpa [SolveOut.cons] using hr)
            refine ⟨x', j1, j2, ?_, ?_⟩
            · simp only [SolveOut.cons, travel, List.map_cons, List.sum_cons, hsl]
              unfold travel at j3
              linarith [dist2_tri x (x + c • -gradAt h s x) x']
            · simp only [SolveOut.cons, travel, List.map_cons, List.sum_cons, hsl]
              unfold travel at j4
              rw [mul_sub] at hstep j4 ⊢
              linarith

end Isotope
