import Verif.SpecSmooth
import Verif.Lemmas.LocalGD

/-!
# Gradient descent where the gradient is Lipschitz
-/

namespace Isotope
open XR
open Matrix

variable {h : Heap XR} {s : Sketch}

theorem lossAfter_pos (hn : s.cells.Nodup) (hc : Closed ⟨h, s⟩) (hf : FiniteSketch h s) (v : Fin (getNDofs h s) → ℝ) :
    0 ≤ lossAfter h s v := by
  obtain ⟨H, -, r, ed⟩ := setData_at hn (SameRefs.refl h) v
  have hfc := (finite_at hf.2 r ed).cons (hc.sameRefs r)
  rw [lossAfter_eq hn hc hf]
  refine List.sum_nonneg fun x hx => ?_
  obtain ⟨k, hk, rfl⟩ := List.mem_map.1 hx
  obtain ⟨y, hy, e⟩ := (hfc k hk).real.loss
  have de := depEq_of_data r hc ed hk
  rw [r.cons] at e
  rw [← de.all.1, e]
  exact hy

theorem hunt_ok {S C : ℝ → Prop} {n : Nat} {a c : ℝ} (ha : 0 < a) (e : hunt S C n a = some c) : 0 < c ∧ S c ∧ C c := by
  induction n generalizing a with
  | zero => cases e
  | succ n ih =>
    rw [hunt] at e
    split at e
    · rename_i t1
      split at e
      · rename_i t2
        cases e
        exact ⟨ha, t1, t2⟩
      · exact ih (by linarith) e
    · exact ih (by linarith) e

/-- the line search where no constraint is degenerate at positions with less loss -/
theorem lsLoop_below (hn : s.cells.Nodup) (hc : Closed ⟨h, s⟩) (hf : FiniteSketch h s) (x d : Fin (getNDofs h s) → ℝ) {m : ℝ} (hm : m ≤ 0)
    (hU : ∀ v, lossAfter h s v ≤ lossAfter h s x → Good h s v) (n : Nat) (a : ℝ) (ha : 0 < a) (H : Heap XR)
    (r : SameRefs h H) :
    ∃ H', SameRefs h H' ∧ lsLoop s (vec d) (vec x) (fin (lossAfter h s x)) (fin m) n (fin a) H =
      (searchRes (hunt (fun a => lossAfter h s (x + a • d) ≤ lossAfter h s x + 1e-4 * a * m)
        (fun a => 0.9 * m ≤ gradAt h s (x + a • d) ⬝ᵥ d) n a), H') := by
  induction n generalizing a H with
  | zero => exact ⟨H, r, rfl⟩
  | succ n ih =>
    have ev : vadd (vec x) (vscale (fin a) (vec d)) = vec (x + a • d) := by rw [vscale_vec, vadd_vec]
    obtain ⟨H1, e1, r1, ed⟩ := setData_at hn r (x + a • d)
    obtain ⟨el, hgr⟩ := spec_at hn hc hf r1 ed
    unfold lsLoop
    rw [ev, e1]
    simp only [el, half_lit, onehalf_lit, c1_lit, c2_lit, mul_fin, add_fin, ge, le_fin, decide_eq_true_eq]
    rw [hunt]
    by_cases t1 : lossAfter h s (x + a • d) ≤ lossAfter h s x + 1e-4 * a * m
    · rw [if_pos t1, if_pos t1]
      have hle : lossAfter h s (x + a • d) ≤ lossAfter h s x := by
        have : 1e-4 * a * m ≤ 0 := mul_nonpos_of_nonneg_of_nonpos (by positivity) hm
        linarith
      obtain ⟨H2, g2, e2⟩ := hgr (hU _ hle)
      simp only [e2, dotV_vec, le_fin, decide_eq_true_eq]
      by_cases t2 : 0.9 * m ≤ gradAt h s (x + a • d) ⬝ᵥ d
      · rw [if_pos t2, if_pos t2]
        exact ⟨H2, r1.trans g2.1, rfl⟩
      · rw [if_neg t2, if_neg t2]
        exact ih (a * 1.5) (by linarith) H2 (r1.trans g2.1)
    · rw [if_neg t1, if_neg t1]
      exact ih (a * 0.5) (by linarith) H1 r1

/-- an accepted step is long enough to reduce the loss -/
theorem smooth_step {n : Nat} {g g' : Fin n → ℝ} {M c : ℝ} (hM : 0 < M) (hc : 0 < c)
    (hl : (g - g') ⬝ᵥ (g - g') ≤ M ^ 2 * ((c • g) ⬝ᵥ (c • g))) (hcurv : 0.9 * (g ⬝ᵥ -g) ≤ g' ⬝ᵥ -g) :
    g ⬝ᵥ g ≤ 10 * M * (c * (g ⬝ᵥ g)) := by
  have h1 : len (g - g') ≤ M * (c * len g) := by
    rw [← len_smul hc.le]
    refine abs_le_of_sq_le_sq' ?_ (by have := len_nonneg (c • g); positivity) |>.2
    rw [mul_pow, len_sq, len_sq]
    exact hl
  have h2 : (g - g') ⬝ᵥ g ≤ len (g - g') * len g := by
    have := real_inner_le_norm (WithLp.toLp 2 (g - g') : EuclideanSpace ℝ (Fin n)) (WithLp.toLp 2 g)
    have e : (g - g') ⬝ᵥ g = inner ℝ (WithLp.toLp 2 (g - g') : EuclideanSpace ℝ (Fin n)) (WithLp.toLp 2 g) := by
      simp [PiLp.inner_apply, dotProduct, mul_comm]
    rw [e]
    exact this
  have h3 := mul_le_mul_of_nonneg_right h1 (len_nonneg g)
  have h4 : M * (c * len g) * len g = M * (c * (g ⬝ᵥ g)) := by rw [← len_sq]; ring
  rw [sub_dotProduct] at h2
  simp only [dotProduct_neg] at hcurv
  linarith

theorem slopeSq_vec {H H' : Heap XR} {n : Nat} {g : Fin n → ℝ} (e : getGradient H s = .ok (vec g, H')) : slopeSq H s = g ⬝ᵥ g := by
  unfold slopeSq
  rw [e]
  simp [vec, List.map_ofFn, List.sum_ofFn, dotProduct, sq]

/-- what is known about a run of gradient descent from the position `x` -/
structure SmoothRun (h : Heap XR) (s : Sketch) (M mu ml mg : ℝ) (n : Nat) (x : Fin (getNDofs h s) → ℝ) (o : SolveOut XR) : Prop where
  res : o.res = .ok ∨ o.res = .err .searchFailed
  steps : o.steps.length ≤ n
  slopes : ∀ r ∈ o.steps, mg ^ 2 ≤ slopeSq r.pre s
  sum : (o.steps.map (fun r => slopeSq r.pre s)).sum ≤ 1e5 * M * lossAfter h s x
  final : o.res = .ok → ∃ x', SameRefs h o.heap ∧ getData o.heap s = vec x' ∧
    (o.steps.map (fun r => slopeSq r.pre s)).sum ≤ 1e5 * M * (lossAfter h s x - lossAfter h s x') ∧
    lossAfter h s x' ≤ (1 - 2e-5 * (mu / M)) ^ o.steps.length * lossAfter h s x ∧
    (o.steps.length < n → lossAfter h s x' < ml ∨ gradAt h s x' ⬝ᵥ gradAt h s x' < mg ^ 2)

theorem gdLoop_smooth (hn : s.cells.Nodup) (hc : Closed ⟨h, s⟩) (hf : FiniteSketch h s) {L M mu : ℝ} (hM : 0 < M)
    (hU : ∀ v, lossAfter h s v ≤ L → Good h s v)
    (hlip : ∀ v w, lossAfter h s v ≤ L → lossAfter h s w ≤ L →
      (gradAt h s v - gradAt h s w) ⬝ᵥ (gradAt h s v - gradAt h s w) ≤ M ^ 2 * ((v - w) ⬝ᵥ (v - w)))
    (hst : ∀ v, lossAfter h s v ≤ L → 2 * mu * lossAfter h s v ≤ gradAt h s v ⬝ᵥ gradAt h s v) (hmu : 2e-5 * mu ≤ M)
    (p : GDParams XR) {mg ml : ℝ} (eg : p.minGrad = fin mg) (el : p.minLoss = fin ml) (hmg : 0 < mg)
    (n : Nat) (H : Heap XR) (r : SameRefs h H) (x : Fin (getNDofs h s) → ℝ) (ex : getData H s = vec x) (hx : lossAfter h s x ≤ L) :
    SmoothRun h s M mu ml mg n x
      (Isotope.gdLoop p s n H (vec (gradAt h s x)) (normL (vec (gradAt h s x))) (getLoss H s)) := by
  induction n generalizing H x with
  | zero =>
    have := lossAfter_pos hn hc hf x
    exact ⟨.inl rfl, le_rfl, by simp [Isotope.gdLoop], by simp only [Isotope.gdLoop, List.map_nil, List.sum_nil]; positivity,
      fun _ => ⟨x, r, ex, by simp [Isotope.gdLoop], by simp [Isotope.gdLoop], fun hh => absurd hh (by simp)⟩⟩
  | succ n ih =>
    have hpos := lossAfter_pos hn hc hf x
    have hnl : normL (vec (gradAt h s x)) = fin (len (gradAt h s x)) := by
      rw [normL_vec, ← len_sq, Real.sqrt_sq (len_nonneg _)]
    have stop : (lossAfter h s x < ml ∨ gradAt h s x ⬝ᵥ gradAt h s x < mg ^ 2) → SmoothRun h s M mu ml mg (n + 1) x ⟨.ok, H, [], 0, 0⟩ :=
      fun hh => ⟨.inl rfl, by simp, by simp, by simp only [List.map_nil, List.sum_nil]; positivity,
        fun _ => ⟨x, r, ex, by simp, by simp, fun _ => hh⟩⟩
    rw [Isotope.gdLoop, hnl, eg, el, (spec_at hn hc hf r ex).1]
    by_cases c1 : len (gradAt h s x) < mg
    · rw [if_pos (by simpa using c1)]
      refine stop (.inr ?_)
      rw [← len_sq]
      exact pow_lt_pow_left₀ c1 (len_nonneg _) two_ne_zero
    · rw [if_neg (by simpa using c1)]
      by_cases c2 : lossAfter h s x < ml
      · rw [if_pos (by simpa using c2)]
        exact stop (.inl c2)
      · rw [if_neg (by simpa using c2)]
        have hGm : mg ^ 2 ≤ gradAt h s x ⬝ᵥ gradAt h s x := by
          rw [← len_sq]
          exact pow_le_pow_left₀ hmg.le (not_lt.1 c1) 2
        have hG : 0 < gradAt h s x ⬝ᵥ gradAt h s x := lt_of_lt_of_le (by positivity) hGm
        obtain ⟨Hg, -, eHg⟩ := (spec_at hn hc hf r ex).2 (hU x hx)
        have hsl := slopeSq_vec eHg
        obtain ⟨H1, r1, e1⟩ := lsLoop_below hn hc hf x (-gradAt h s x) (m := gradAt h s x ⬝ᵥ -gradAt h s x)
          (by rw [dotProduct_neg]; linarith) (fun v hv => hU v (hv.trans hx)) 15 1 one_pos H r
        have hls : lineSearch H s (vneg (vec (gradAt h s x))) (vec (gradAt h s x)) = (searchRes
            (hunt (fun a => lossAfter h s (x + a • -gradAt h s x) ≤ lossAfter h s x + 1e-4 * a * (gradAt h s x ⬝ᵥ -gradAt h s x))
        (fun a => 0.9 * (gradAt h s x ⬝ᵥ -gradAt h s x) ≤ gradAt h s (x + a • -gradAt h s x) ⬝ᵥ -gradAt h s x) 15 1), H1) := by
          unfold lineSearch
          dsimp only
          rw [vneg_vec, dotV_vec, ex, (spec_at hn hc hf r ex).1, if_neg (by
            simp only [ge, zero_lit, le_fin, decide_eq_true_eq, dotProduct_neg]
            linarith), one_lit]
          exact e1
        simp only [hls]
        cases ec : hunt (fun a => lossAfter h s (x + a • -gradAt h s x) ≤ lossAfter h s x + 1e-4 * a * (gradAt h s x ⬝ᵥ -gradAt h s x))
          (fun a => 0.9 * (gradAt h s x ⬝ᵥ -gradAt h s x) ≤ gradAt h s (x + a • -gradAt h s x) ⬝ᵥ -gradAt h s x) 15 1 with
        | none =>
          simp only [searchRes]
          exact ⟨.inr rfl, by simp, by simp, by simp only [List.map_nil, List.sum_nil]; positivity, fun hh => absurd hh (by simp)⟩
        | some c =>
          obtain ⟨c0, sc, cc⟩ := hunt_ok one_pos ec
          simp only [searchRes]
          rw [ex, vneg_vec, axpy_vec]
          obtain ⟨H2, e2, r2, ed⟩ := setData_at hn r1 (x + c • -gradAt h s x)
          have hcG : 0 < c * (gradAt h s x ⬝ᵥ gradAt h s x) := mul_pos c0 hG
          have hle : lossAfter h s (x + c • -gradAt h s x) ≤ L := by
            rw [dotProduct_neg] at sc
            linarith
          obtain ⟨H3, g3, e3⟩ := (spec_at hn hc hf r2 ed).2 (hU _ hle)
          simp only [e2, e3]
          rw [← g3.getLoss s]
          have hlen := smooth_step hM c0 (by
            have := hlip x (x + c • -gradAt h s x) hx hle
            have e : x - (x + c • -gradAt h s x) = c • gradAt h s x := by rw [smul_neg]; abel
            rwa [e] at this) cc
          have hdec : gradAt h s x ⬝ᵥ gradAt h s x ≤ 1e5 * M * (lossAfter h s x - lossAfter h s (x + c • -gradAt h s x)) := by
            rw [dotProduct_neg] at sc
            have h1 : 1e-4 * (c * (gradAt h s x ⬝ᵥ gradAt h s x)) ≤ lossAfter h s x - lossAfter h s (x + c • -gradAt h s x) := by linarith
            have h2 := mul_le_mul_of_nonneg_left h1 (by positivity : 0 ≤ 1e5 * M)
            have h3 : 1e5 * M * (1e-4 * (c * (gradAt h s x ⬝ᵥ gradAt h s x))) = 10 * M * (c * (gradAt h s x ⬝ᵥ gradAt h s x)) := by ring
            linarith
          obtain ⟨i1, i2, i3, i4, i5⟩ := ih H3 (r2.trans g3.1) (x + c • -gradAt h s x) (by rw [g3.getData, ed]) hle
          refine ⟨by simpa [SolveOut.cons] using i1, by simpa [SolveOut.cons] using i2, ?_, ?_, fun hr => ?_⟩
          · intro q hq
            simp only [SolveOut.cons, List.mem_cons] at hq
            rcases hq with rfl | hq
            · rw [hsl]; exact hGm
            · exact i3 q hq
          · simp only [SolveOut.cons, List.map_cons, List.sum_cons, hsl]
            have : 1e5 * M * lossAfter h s x = 1e5 * M * (lossAfter h s x - lossAfter h s (x + c • -gradAt h s x)) +
              1e5 * M * lossAfter h s (x + c • -gradAt h s x) := by ring
            linarith
          · obtain ⟨x', j1, j2, j3, j4, j5⟩ := i5 (by simpa [SolveOut.cons] using hr)
            refine ⟨x', j1, j2, ?_, ?_, fun hh => j5 (by simpa [SolveOut.cons] using hh)⟩
            · simp only [SolveOut.cons, List.map_cons, List.sum_cons, hsl]
              have : 1e5 * M * (lossAfter h s x - lossAfter h s x') = 1e5 * M * (lossAfter h s x - lossAfter h s (x + c • -gradAt h s x)) +
                1e5 * M * (lossAfter h s (x + c • -gradAt h s x) - lossAfter h s x') := by ring
              linarith
            · simp only [SolveOut.cons, List.length_cons]
              have hr0 : 0 ≤ 1 - 2e-5 * (mu / M) := by
                have : 2e-5 * mu / M ≤ 1 := (div_le_one hM).2 hmu
                rw [← mul_div_assoc]
                linarith
              rw [pow_succ, mul_assoc]
              refine j4.trans (mul_le_mul_of_nonneg_left ?_ (pow_nonneg hr0 _))
              have h1 := hst x hx
              have h2 : 2 * mu * lossAfter h s x / (1e5 * M) ≤ lossAfter h s x - lossAfter h s (x + c • -gradAt h s x) := by
                rw [div_le_iff₀ (by positivity)]
                linarith
              have h3 : (1 - 2e-5 * (mu / M)) * lossAfter h s x = lossAfter h s x - 2 * mu * lossAfter h s x / (1e5 * M) := by
                field_simp
                ring
              linarith

end Isotope
