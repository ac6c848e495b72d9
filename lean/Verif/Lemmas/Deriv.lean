import Verif.Lemmas.Grad
import Verif.SpecReal
import Mathlib.Analysis.SpecialFunctions.Trigonometric.InverseDeriv
import Mathlib.Analysis.SpecialFunctions.Trigonometric.Deriv
import Mathlib.Analysis.SpecialFunctions.Sqrt
import Mathlib.Analysis.Calculus.FDeriv.Pow
import Mathlib.Analysis.Calculus.FDeriv.Mul
import Mathlib.Analysis.Calculus.Deriv.Comp

/-!
# The contributions of a constraint are the derivative of its loss
-/

set_option linter.unusedSimpArgs false

namespace Isotope
open XR

section
variable {E : Type} [NormedAddCommGroup E] [NormedSpace ℝ E] {q0 : E}

theorem hasFDerivAt_half_sq {u : E → ℝ} {u' : E →L[ℝ] ℝ} (hu : HasFDerivAt u u' q0) :
    HasFDerivAt (fun q => u q ^ 2 / 2) (u q0 • u') q0 := by
  have := (hu.mul hu).mul_const (1 / 2 : ℝ)
  refine (this.congr_fderiv ?_).congr_of_eventuallyEq (Filter.Eventually.of_forall fun q => ?_)
  · ext v; simp; ring
  · simp; ring

theorem hasFDerivAt_hyp {f g : E → ℝ} {f' g' : E →L[ℝ] ℝ} (hf : HasFDerivAt f f' q0) (hg : HasFDerivAt g g' q0)
    (hn : hyp (f q0) (g q0) ≠ 0) :
    HasFDerivAt (fun q => hyp (f q) (g q)) ((f q0 / hyp (f q0) (g q0)) • f' + (g q0 / hyp (f q0) (g q0)) • g') q0 := by
  have h2 : f q0 * f q0 + g q0 * g q0 ≠ 0 := by rw [← hyp_mul_self]; exact mul_ne_zero hn hn
  have := ((hf.mul hf).add (hg.mul hg)).sqrt h2
  refine (this.congr_fderiv ?_)
  ext v
  simp only [smul_apply, add_apply, smul_eq_mul]
  change (1 / (2 * hyp (f q0) (g q0))) * _ = _
  field_simp
  ring

theorem hasFDerivAt_arccos {f : E → ℝ} {f' : E →L[ℝ] ℝ} (hf : HasFDerivAt f f' q0) (h1 : f q0 * f q0 ≠ 1) :
    HasFDerivAt (fun q => Real.arccos (f q)) ((-1 / Real.sqrt (1 - f q0 * f q0)) • f') q0 := by
  have a1 : f q0 ≠ -1 := by intro h; apply h1; rw [h]; norm_num
  have a2 : f q0 ≠ 1 := by intro h; apply h1; rw [h]; norm_num
  have := (Real.hasDerivAt_arccos a1 a2).comp_hasFDerivAt q0 hf
  refine this.congr_fderiv ?_
  congr 1
  rw [sq]; ring

theorem hasFDerivAt_div {f g : E → ℝ} {f' g' : E →L[ℝ] ℝ} (hf : HasFDerivAt f f' q0) (hg : HasFDerivAt g g' q0)
    (hn : g q0 ≠ 0) :
    HasFDerivAt (fun q => f q / g q) ((1 / g q0) • f' - (f q0 / (g q0 * g q0)) • g') q0 := by
  have := hf.mul ((hasDerivAt_inv hn).comp_hasFDerivAt q0 hg)
  refine (this.congr_fderiv ?_)
  ext v
  simp
  field_simp
  ring

variable {H : Heap XR} {θ : E → Dof → ℝ} {θ' : Dof → (E →L[ℝ] ℝ)}

theorem ptData_withDofs (θ : Dof → ℝ) (p : Nat) : ptData (H.withDofs θ) p = ⟨fin (θ (.px p)), fin (θ (.py p))⟩ := rfl
theorem lineStart_withDofs (θ : Dof → ℝ) (l : Nat) :
    lineStart (H.withDofs θ) l = ⟨fin (θ (.px (H.lines l).start)), fin (θ (.py (H.lines l).start))⟩ := rfl
theorem lineEnd_withDofs (θ : Dof → ℝ) (l : Nat) :
    lineEnd (H.withDofs θ) l = ⟨fin (θ (.px (H.lines l).stop)), fin (θ (.py (H.lines l).stop))⟩ := rfl
theorem center_withDofs (θ : Dof → ℝ) (a : Nat) : ptData (H.withDofs θ) ((H.withDofs θ).arcs a).center =
    ⟨fin (θ (.px (H.arcs a).center)), fin (θ (.py (H.arcs a).center))⟩ := rfl
theorem arcData_withDofs (θ : Dof → ℝ) (a : Nat) : ((H.withDofs θ).arcs a).data =
    ⟨fin (θ (.ar a)), fin (θ (.as a)), fin (θ (.ae a))⟩ := rfl

theorem hyp_pt (a b c d : ℝ) : hyp (a - c) (b - d) = dist (pt a b) (pt c d) := by
  rw [EuclideanSpace.dist_eq]
  simp [pt, hyp, Real.dist_eq, sq]

theorem properLine_hyp {θ : Dof → ℝ} {l : Nat} (hp : ProperLine (H.withDofs θ) l) :
    hyp (θ (.px (H.lines l).stop) - θ (.px (H.lines l).start)) (θ (.py (H.lines l).stop) - θ (.py (H.lines l).start)) ≠ 0 := by
  rw [hyp_pt]
  intro h0
  exact hp (dist_eq_zero.1 h0).symm

theorem notCollinear_cos {a b c d : ℝ} (hn : a * d ≠ b * c) :
    (a * c + b * d) / (hyp a b * hyp c d) * ((a * c + b * d) / (hyp a b * hyp c d)) ≠ 1 := by
  intro h1
  rw [div_mul_div_comm, div_eq_one_iff_eq] at h1
  · apply hn
    have : (a * d - b * c) * (a * d - b * c) = 0 := by
      have e1 := hyp_mul_self a b
      have e2 := hyp_mul_self c d
      have : hyp a b * hyp c d * (hyp a b * hyp c d) = (a * a + b * b) * (c * c + d * d) := by rw [← e1, ← e2]; ring
      rw [this] at h1
      linear_combination -h1
    exact sub_eq_zero.1 (mul_self_eq_zero.1 this)
  · intro h0
    rw [h0, div_zero] at h1
    norm_num at h1

/-- the derivative of the composed loss is the sum of the contributions -/
theorem hasFDerivAt_loss (hθ : ∀ d, HasFDerivAt (fun q => θ q d) (θ' d) q0) (c : Constraint XR)
    (hp : ∀ x ∈ consParams c, Num.isFinite x = true) (hr : Regular (H.withDofs (θ q0)) c) :
    HasFDerivAt (fun q => (lossValue (H.withDofs (θ q)) c).toReal)
      (((contribs (H.withDofs (θ q0)) c).map (fun e => e.2 • θ' e.1)).sum) q0 := by
  unfold contribs
  cases c with
  | angle p1 p2 mid D =>
    obtain ⟨D, rfl⟩ := (isFinite_iff _).1 (hp D (by simp [consParams]))
    obtain ⟨r1, r2, r3⟩ := hr
    have n1 : (1e-6 : ℝ) < hyp (θ q0 (.px p1) - θ q0 (.px mid)) (θ q0 (.py p1) - θ q0 (.py mid)) := by rw [hyp_pt]; exact r1
    have n2 : (1e-6 : ℝ) < hyp (θ q0 (.px p2) - θ q0 (.px mid)) (θ q0 (.py p2) - θ q0 (.py mid)) := by rw [hyp_pt]; exact r2
    have z1 : hyp (θ q0 (.px p1) - θ q0 (.px mid)) (θ q0 (.py p1) - θ q0 (.py mid)) ≠ 0 :=
      (lt_trans (by norm_num) n1).ne'
    have z2 : hyp (θ q0 (.px p2) - θ q0 (.px mid)) (θ q0 (.py p2) - θ q0 (.py mid)) ≠ 0 :=
      (lt_trans (by norm_num) n2).ne'
    have nc := notCollinear_cos (a := θ q0 (.px p1) - θ q0 (.px mid)) (b := θ q0 (.py p1) - θ q0 (.py mid))
      (c := θ q0 (.px p2) - θ q0 (.px mid)) (d := θ q0 (.py p2) - θ q0 (.py mid)) r3
    have ha := (hθ (.px p1)).sub (hθ (.px mid))
    have hb := (hθ (.py p1)).sub (hθ (.py mid))
    have hc := (hθ (.px p2)).sub (hθ (.px mid))
    have hd := (hθ (.py p2)).sub (hθ (.py mid))
    have hn1 := hasFDerivAt_hyp ha hb z1
    have hn2 := hasFDerivAt_hyp hc hd z2
    have hco := hasFDerivAt_div ((ha.mul hc).add (hb.mul hd)) (hn1.mul hn2) (mul_ne_zero z1 z2)
    have hfin := hasFDerivAt_half_sq ((hasFDerivAt_arccos hco nc).sub_const D)
    rw [chunks_angle (ptData_withDofs _ _) (ptData_withDofs _ _) (ptData_withDofs _ _)]
    dsimp only
    rw [if_neg (not_or.2 ⟨not_or.2 ⟨not_lt.2 n1.le, not_lt.2 n2.le⟩, nc⟩)]
    refine (hfin.congr_fderiv ?_).congr_of_eventuallyEq ?_
    · ext v
      simp only [Chunk.contrib, angleForce, List.flatMap_cons, List.flatMap_nil, List.append_nil, List.cons_append,
        List.nil_append, List.map_cons, List.map_nil, List.sum_cons, List.sum_nil, toReal_fin, add_apply, smul_apply,
        sub_apply, smul_eq_mul, Pi.sub_apply, Pi.mul_apply, Pi.add_apply, add_zero]
      have s1 : ∀ a b c d : ℝ, c * a + d * b = a * c + b * d := by intros; ring
      rw [mul_comm (hyp (θ q0 (.px p2) - θ q0 (.px mid)) (θ q0 (.py p2) - θ q0 (.py mid)))
        (hyp (θ q0 (.px p1) - θ q0 (.px mid)) (θ q0 (.py p1) - θ q0 (.py mid))), 
        s1 (θ q0 (.px p1) - θ q0 (.px mid))  (θ q0 (.py p1) - θ q0 (.py mid)) (θ q0 (.px p2) - θ q0 (.px mid))]
      generalize hyp (θ q0 (.px p1) - θ q0 (.px mid)) (θ q0 (.py p1) - θ q0 (.py mid)) = N1 at *
      generalize hyp (θ q0 (.px p2) - θ q0 (.px mid)) (θ q0 (.py p2) - θ q0 (.py mid)) = N2 at *
      generalize hco0 : ((θ q0 (.px p1) - θ q0 (.px mid)) * (θ q0 (.px p2) - θ q0 (.px mid)) +
        (θ q0 (.py p1) - θ q0 (.py mid)) * (θ q0 (.py p2) - θ q0 (.py mid))) / (N1 * N2) = co
      generalize Real.arccos co = A
      generalize -1 / Real.sqrt (1 - co * co) = B
      field_simp
      ring
    · filter_upwards [hn1.continuousAt.eventually_const_lt n1, hn2.continuousAt.eventually_const_lt n2] with q m1 m2
      simp only [Pi.sub_apply] at m1 m2
      rw [loss_angle (ptData_withDofs _ _) (ptData_withDofs _ _) (ptData_withDofs _ _), toReal_fin, angleOf,
        if_neg (not_or.2 ⟨not_lt.2 m1.le, not_lt.2 m2.le⟩)]
      rfl
  | arcEnd a p =>
    have hx := ((hθ (.px (H.arcs a).center)).add ((hθ (.ar a)).mul (hθ (.ae a)).cos)).sub (hθ (.px p))
    have hy := ((hθ (.py (H.arcs a).center)).add ((hθ (.ar a)).mul (hθ (.ae a)).sin)).sub (hθ (.py p))
    have hfin := (hasFDerivAt_half_sq hx).add (hasFDerivAt_half_sq hy)
    rw [chunks_arcEnd (ptData_withDofs _ _) (center_withDofs _ _) (arcData_withDofs _ _)]
    dsimp only
    refine (hfin.congr_fderiv ?_).congr_of_eventuallyEq (Filter.Eventually.of_forall fun q => ?_)
    · ext v
      simp only [Chunk.contrib, List.flatMap_cons, List.flatMap_nil, List.append_nil, List.cons_append, List.nil_append, List.map_cons,
        List.map_nil, List.sum_cons, List.sum_nil, toReal_fin, add_apply, smul_apply, sub_apply, smul_eq_mul, add_zero, Pi.sub_apply, Pi.mul_apply, Pi.add_apply, Heap.withDofs]
      ring
    · dsimp only
      rw [loss_arcEnd (ptData_withDofs _ _) (endPoint_fin (center_withDofs _ _) (arcData_withDofs _ _)), toReal_fin]
      simp only [Pi.sub_apply, Pi.mul_apply, Pi.add_apply]
      ring
  | arcStart a p =>
    have hx := ((hθ (.px (H.arcs a).center)).add ((hθ (.ar a)).mul (hθ (.as a)).cos)).sub (hθ (.px p))
    have hy := ((hθ (.py (H.arcs a).center)).add ((hθ (.ar a)).mul (hθ (.as a)).sin)).sub (hθ (.py p))
    have hfin := (hasFDerivAt_half_sq hx).add (hasFDerivAt_half_sq hy)
    rw [chunks_arcStart (ptData_withDofs _ _) (center_withDofs _ _) (arcData_withDofs _ _)]
    dsimp only
    refine (hfin.congr_fderiv ?_).congr_of_eventuallyEq (Filter.Eventually.of_forall fun q => ?_)
    · ext v
      simp only [Chunk.contrib, List.flatMap_cons, List.flatMap_nil, List.append_nil, List.cons_append, List.nil_append, List.map_cons,
        List.map_nil, List.sum_cons, List.sum_nil, toReal_fin, add_apply, smul_apply, sub_apply, smul_eq_mul, add_zero, Pi.sub_apply, Pi.mul_apply, Pi.add_apply, Heap.withDofs]
      ring
    · dsimp only
      rw [loss_arcStart (ptData_withDofs _ _) (startPoint_fin (center_withDofs _ _) (arcData_withDofs _ _)), toReal_fin]
      simp only [Pi.sub_apply, Pi.mul_apply, Pi.add_apply]
      ring
  | euclid p1 p2 D =>
    obtain ⟨D, rfl⟩ := (isFinite_iff _).1 (hp D (by simp [consParams]))
    have n1 : (1e-6 : ℝ) ≤ hyp (θ q0 (.px p1) - θ q0 (.px p2)) (θ q0 (.py p1) - θ q0 (.py p2)) := by rw [hyp_pt]; exact hr
    have z1 : hyp (θ q0 (.px p1) - θ q0 (.px p2)) (θ q0 (.py p1) - θ q0 (.py p2)) ≠ 0 :=
      (lt_of_lt_of_le (by norm_num) n1).ne'
    have ha := (hθ (.px p1)).sub (hθ (.px p2))
    have hb := (hθ (.py p1)).sub (hθ (.py p2))
    have hfin := hasFDerivAt_half_sq ((hasFDerivAt_hyp ha hb z1).sub_const D)
    rw [chunks_euclid (ptData_withDofs _ _) (ptData_withDofs _ _)]
    dsimp only
    rw [if_neg (not_lt.2 n1)]
    refine (hfin.congr_fderiv ?_).congr_of_eventuallyEq (Filter.Eventually.of_forall fun q => ?_)
    · ext v
      simp [Chunk.contrib]
      ring
    · dsimp only
      rw [loss_euclid (ptData_withDofs _ _) (ptData_withDofs _ _), toReal_fin]
      rfl
  | horizDist p1 p2 D =>
    obtain ⟨D, rfl⟩ := (isFinite_iff _).1 (hp D (by simp [consParams]))
    have hfin := hasFDerivAt_half_sq (((hθ (.px p2)).sub (hθ (.px p1))).sub_const D)
    rw [chunks_horiz (ptData_withDofs _ _) (ptData_withDofs _ _)]
    refine (hfin.congr_fderiv ?_).congr_of_eventuallyEq (Filter.Eventually.of_forall fun q => ?_)
    · ext v
      simp only [Chunk.contrib, List.flatMap_cons, List.flatMap_nil, List.append_nil, List.cons_append, List.nil_append, List.map_cons,
        List.map_nil, List.sum_cons, List.sum_nil, toReal_fin, add_apply, smul_apply, sub_apply, smul_eq_mul, add_zero, Pi.sub_apply]
      ring
    · dsimp only
      rw [loss_horiz (ptData_withDofs _ _) (ptData_withDofs _ _), toReal_fin]
      rfl
  | vertDist p1 p2 D =>
    obtain ⟨D, rfl⟩ := (isFinite_iff _).1 (hp D (by simp [consParams]))
    have hfin := hasFDerivAt_half_sq (((hθ (.py p2)).sub (hθ (.py p1))).sub_const D)
    rw [chunks_vert (ptData_withDofs _ _) (ptData_withDofs _ _)]
    refine (hfin.congr_fderiv ?_).congr_of_eventuallyEq (Filter.Eventually.of_forall fun q => ?_)
    · ext v
      simp only [Chunk.contrib, List.flatMap_cons, List.flatMap_nil, List.append_nil, List.cons_append, List.nil_append, List.map_cons,
        List.map_nil, List.sum_cons, List.sum_nil, toReal_fin, add_apply, smul_apply, sub_apply, smul_eq_mul, add_zero, Pi.sub_apply]
      ring
    · dsimp only
      rw [loss_vert (ptData_withDofs _ _) (ptData_withDofs _ _), toReal_fin]
      rfl
  | fix p D =>
    obtain ⟨X, Y⟩ := D
    obtain ⟨X, rfl⟩ := (isFinite_iff _).1 (hp X (by simp [consParams]))
    obtain ⟨Y, rfl⟩ := (isFinite_iff _).1 (hp Y (by simp [consParams]))
    have hfin := (hasFDerivAt_half_sq ((hθ (.px p)).sub_const X)).add (hasFDerivAt_half_sq ((hθ (.py p)).sub_const Y))
    rw [chunks_fix (ptData_withDofs _ _)]
    refine (hfin.congr_fderiv ?_).congr_of_eventuallyEq (Filter.Eventually.of_forall fun q => ?_)
    · ext v
      simp only [Chunk.contrib, List.flatMap_cons, List.flatMap_nil, List.append_nil, List.cons_append, List.nil_append, List.map_cons,
        List.map_nil, List.sum_cons, List.sum_nil, toReal_fin, add_apply, smul_apply, sub_apply, smul_eq_mul, add_zero]
    · dsimp only
      rw [loss_fix (ptData_withDofs _ _), toReal_fin]
      simp only [Pi.add_apply]
      ring
  | eqLen l m =>
    have z1 := properLine_hyp hr.1
    have z2 := properLine_hyp hr.2
    have ha := (hθ (.px (H.lines l).stop)).sub (hθ (.px (H.lines l).start))
    have hb := (hθ (.py (H.lines l).stop)).sub (hθ (.py (H.lines l).start))
    have hc := (hθ (.px (H.lines m).stop)).sub (hθ (.px (H.lines m).start))
    have hd := (hθ (.py (H.lines m).stop)).sub (hθ (.py (H.lines m).start))
    have hn1 := hasFDerivAt_hyp ha hb z1
    have hn2 := hasFDerivAt_hyp hc hd z2
    have hfin := hasFDerivAt_half_sq (hn1.sub hn2)
    rw [chunks_eqLen (lineStart_withDofs _ _) (lineEnd_withDofs _ _) (lineStart_withDofs _ _) (lineEnd_withDofs _ _) z1 z2]
    refine (hfin.congr_fderiv ?_).congr_of_eventuallyEq (Filter.Eventually.of_forall fun q => ?_)
    · ext v
      simp only [Chunk.contrib, List.flatMap_cons, List.flatMap_nil, List.append_nil, List.cons_append, List.nil_append, List.map_cons,
        List.map_nil, List.sum_cons, List.sum_nil, toReal_fin, add_apply, smul_apply, sub_apply, smul_eq_mul, add_zero, Pi.sub_apply, Heap.withDofs]
      ring
    · dsimp only
      rw [loss_eqLen (lineStart_withDofs _ _) (lineEnd_withDofs _ _) (lineStart_withDofs _ _) (lineEnd_withDofs _ _),
        toReal_fin]
      rfl
  | horizLine l =>
    have hfin := hasFDerivAt_half_sq ((hθ (.py (H.lines l).stop)).sub (hθ (.py (H.lines l).start)))
    rw [chunks_horizLine (lineStart_withDofs _ _) (lineEnd_withDofs _ _)]
    refine (hfin.congr_fderiv ?_).congr_of_eventuallyEq (Filter.Eventually.of_forall fun q => ?_)
    · ext v
      simp only [Chunk.contrib, List.flatMap_cons, List.flatMap_nil, List.append_nil, List.cons_append, List.nil_append, List.map_cons,
        List.map_nil, List.sum_cons, List.sum_nil, toReal_fin, add_apply, smul_apply, sub_apply, smul_eq_mul, add_zero, Pi.sub_apply, Heap.withDofs]
      ring
    · dsimp only
      rw [loss_horizLine (lineStart_withDofs _ _) (lineEnd_withDofs _ _), toReal_fin]
      rfl
  | vertLine l =>
    have hfin := hasFDerivAt_half_sq ((hθ (.px (H.lines l).stop)).sub (hθ (.px (H.lines l).start)))
    rw [chunks_vertLine (lineStart_withDofs _ _) (lineEnd_withDofs _ _)]
    refine (hfin.congr_fderiv ?_).congr_of_eventuallyEq (Filter.Eventually.of_forall fun q => ?_)
    · ext v
      simp only [Chunk.contrib, List.flatMap_cons, List.flatMap_nil, List.append_nil, List.cons_append, List.nil_append, List.map_cons,
        List.map_nil, List.sum_cons, List.sum_nil, toReal_fin, add_apply, smul_apply, sub_apply, smul_eq_mul, add_zero, Pi.sub_apply, Heap.withDofs]
      ring
    · dsimp only
      rw [loss_vertLine (lineStart_withDofs _ _) (lineEnd_withDofs _ _), toReal_fin]
      rfl
  | parallel l m =>
    have z1 := properLine_hyp hr.1
    have z2 := properLine_hyp hr.2
    have ha := (hθ (.px (H.lines l).stop)).sub (hθ (.px (H.lines l).start))
    have hb := (hθ (.py (H.lines l).stop)).sub (hθ (.py (H.lines l).start))
    have hc := (hθ (.px (H.lines m).stop)).sub (hθ (.px (H.lines m).start))
    have hd := (hθ (.py (H.lines m).stop)).sub (hθ (.py (H.lines m).start))
    have hn1 := hasFDerivAt_hyp ha hb z1
    have hn2 := hasFDerivAt_hyp hc hd z2
    have hfin := hasFDerivAt_half_sq (hasFDerivAt_div ((ha.mul hd).sub (hb.mul hc)) (hn1.mul hn2) (mul_ne_zero z1 z2))
    rw [chunks_parallel (lineStart_withDofs _ _) (lineEnd_withDofs _ _) (lineStart_withDofs _ _) (lineEnd_withDofs _ _)]
    dsimp only
    rw [if_neg (not_or.2 ⟨z1, z2⟩)]
    refine (hfin.congr_fderiv ?_).congr_of_eventuallyEq ?_
    · ext v
      simp only [crossForce, Chunk.contrib, List.flatMap_cons, List.flatMap_nil, List.append_nil, List.cons_append, List.nil_append, List.map_cons,
        List.map_nil, List.sum_cons, List.sum_nil, toReal_fin, add_apply, smul_apply, sub_apply, smul_eq_mul, add_zero, Pi.sub_apply, Pi.mul_apply, Pi.add_apply, Heap.withDofs, ← hyp_mul_self]
      generalize hN1 : hyp (θ q0 (.px (H.lines l).stop) - θ q0 (.px (H.lines l).start))
        (θ q0 (.py (H.lines l).stop) - θ q0 (.py (H.lines l).start)) = N1 at *
      generalize hN2 : hyp (θ q0 (.px (H.lines m).stop) - θ q0 (.px (H.lines m).start))
        (θ q0 (.py (H.lines m).stop) - θ q0 (.py (H.lines m).start)) = N2 at *
      field_simp
      ring
    · filter_upwards [hn1.continuousAt.eventually_ne z1, hn2.continuousAt.eventually_ne z2] with q m1 m2
      simp only [Pi.sub_apply] at m1 m2
      rw [loss_parallel (lineStart_withDofs _ _) (lineEnd_withDofs _ _) (lineStart_withDofs _ _) (lineEnd_withDofs _ _),
        toReal_fin, crossOf, if_neg (not_or.2 ⟨m1, m2⟩)]
      rfl
  | perp l m =>
    have z1 := properLine_hyp hr.1
    have z2 := properLine_hyp hr.2
    have ha := (hθ (.px (H.lines l).stop)).sub (hθ (.px (H.lines l).start))
    have hb := (hθ (.py (H.lines l).stop)).sub (hθ (.py (H.lines l).start))
    have hc := (hθ (.px (H.lines m).stop)).sub (hθ (.px (H.lines m).start))
    have hd := (hθ (.py (H.lines m).stop)).sub (hθ (.py (H.lines m).start))
    have hn1 := hasFDerivAt_hyp ha hb z1
    have hn2 := hasFDerivAt_hyp hc hd z2
    have hfin := hasFDerivAt_half_sq (hasFDerivAt_div ((ha.mul hc).add (hb.mul hd)) (hn1.mul hn2) (mul_ne_zero z1 z2))
    rw [chunks_perp (lineStart_withDofs _ _) (lineEnd_withDofs _ _) (lineStart_withDofs _ _) (lineEnd_withDofs _ _)]
    dsimp only
    rw [if_neg (not_or.2 ⟨z1, z2⟩)]
    refine (hfin.congr_fderiv ?_).congr_of_eventuallyEq ?_
    · ext v
      simp only [dotForce, Chunk.contrib, List.flatMap_cons, List.flatMap_nil, List.append_nil, List.cons_append, List.nil_append, List.map_cons,
        List.map_nil, List.sum_cons, List.sum_nil, toReal_fin, add_apply, smul_apply, sub_apply, smul_eq_mul, add_zero, Pi.sub_apply, Pi.mul_apply, Pi.add_apply, Heap.withDofs, ← hyp_mul_self]
      generalize hN1 : hyp (θ q0 (.px (H.lines l).stop) - θ q0 (.px (H.lines l).start))
        (θ q0 (.py (H.lines l).stop) - θ q0 (.py (H.lines l).start)) = N1 at *
      generalize hN2 : hyp (θ q0 (.px (H.lines m).stop) - θ q0 (.px (H.lines m).start))
        (θ q0 (.py (H.lines m).stop) - θ q0 (.py (H.lines m).start)) = N2 at *
      field_simp
      ring
    · filter_upwards [hn1.continuousAt.eventually_ne z1, hn2.continuousAt.eventually_ne z2] with q m1 m2
      simp only [Pi.sub_apply] at m1 m2
      rw [loss_perp (lineStart_withDofs _ _) (lineEnd_withDofs _ _) (lineStart_withDofs _ _) (lineEnd_withDofs _ _),
        toReal_fin, dotOf, if_neg (not_or.2 ⟨m1, m2⟩)]
      rfl

end
end Isotope
