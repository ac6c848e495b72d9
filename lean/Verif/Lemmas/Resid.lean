import Verif.Lemmas.Deriv
import Mathlib.Analysis.SpecialFunctions.Trigonometric.InverseDeriv
import Mathlib.Analysis.SpecialFunctions.Sqrt
import Mathlib.Analysis.Calculus.ContDiff.Operations

/-!
# The loss of a constraint is half a sum of squares of smooth functions
-/

set_option linter.unusedSimpArgs false

namespace Isotope
open XR
open scoped Topology

section
variable {E : Type} [NormedAddCommGroup E] [NormedSpace ℝ E] {q0 : E} {n : WithTop ℕ∞}

theorem contDiffAt_hyp {f g : E → ℝ} (hf : ContDiffAt ℝ n f q0) (hg : ContDiffAt ℝ n g q0) (hn : hyp (f q0) (g q0) ≠ 0) :
    ContDiffAt ℝ n (fun q => hyp (f q) (g q)) q0 := by
  have h2 : f q0 * f q0 + g q0 * g q0 ≠ 0 := by rw [← hyp_mul_self]; exact mul_ne_zero hn hn
  exact ((hf.mul hf).add (hg.mul hg)).sqrt h2

theorem contDiffAt_arccos' {f : E → ℝ} (hf : ContDiffAt ℝ n f q0) (h1 : f q0 * f q0 ≠ 1) :
    ContDiffAt ℝ n (fun q => Real.arccos (f q)) q0 := by
  have a1 : f q0 ≠ -1 := by intro h; apply h1; rw [h]; norm_num
  have a2 : f q0 ≠ 1 := by intro h; apply h1; rw [h]; norm_num
  exact (Real.contDiffAt_arccos a1 a2).comp q0 hf

variable {H : Heap XR} {θ : E → Dof → ℝ}

/-- The loss is half a sum of squares of functions that are as smooth as the coordinates. -/
theorem exists_resid (hθ : ∀ d, ContDiffAt ℝ n (fun q => θ q d) q0) (c : Constraint XR)
    (hp : ∀ x ∈ consParams c, Num.isFinite x = true) (hr : Regular (H.withDofs (θ q0)) c) :
    ∃ rs : List (E → ℝ), (∀ f ∈ rs, ContDiffAt ℝ n f q0) ∧
      ∀ᶠ q in 𝓝 q0, (lossValue (H.withDofs (θ q)) c).toReal = (rs.map (fun f => f q ^ 2 / 2)).sum := by
  cases c with
  | angle p1 p2 mid D =>
    obtain ⟨D, rfl⟩ := (isFinite_iff _).1 (hp D (by simp [consParams]))
    obtain ⟨r1, r2, r3⟩ := hr
    have n1 : (1e-6 : ℝ) < hyp (θ q0 (.px p1) - θ q0 (.px mid)) (θ q0 (.py p1) - θ q0 (.py mid)) := by rw [hyp_pt]; exact r1
    have n2 : (1e-6 : ℝ) < hyp (θ q0 (.px p2) - θ q0 (.px mid)) (θ q0 (.py p2) - θ q0 (.py mid)) := by rw [hyp_pt]; exact r2
    have z1 : hyp (θ q0 (.px p1) - θ q0 (.px mid)) (θ q0 (.py p1) - θ q0 (.py mid)) ≠ 0 :=
      (lt_trans (by norm_num) n1).ne'
    have z2 : hyp (θ q0 (.px p2) - θ q0 (.px mid)) (θ q0 (.py p2) - θ q0 (.py mid)) ≠ 0 :=
      (lt_trans (by norm_num) n2).ne'
    have nc := notCollinear_cos (a := θ q0 (.px p1) - θ q0 (.px mid)) (b := θ q0 (.py p1) - θ q0 (.py mid))
      (c := θ q0 (.px p2) - θ q0 (.px mid)) (d := θ q0 (.py p2) - θ q0 (.py mid)) r3
    have ha := (hθ (.px p1)).sub (hθ (.px mid))
    have hb := (hθ (.py p1)).sub (hθ (.py mid))
    have hc := (hθ (.px p2)).sub (hθ (.px mid))
    have hd := (hθ (.py p2)).sub (hθ (.py mid))
    have hn1 := contDiffAt_hyp ha hb z1
    have hn2 := contDiffAt_hyp hc hd z2
    have hco := ((ha.mul hc).add (hb.mul hd)).div (hn1.mul hn2) (mul_ne_zero z1 z2)
    refine ⟨[_], by simpa using (contDiffAt_arccos' hco nc).sub (contDiffAt_const (c := D)), ?_⟩
    filter_upwards [hn1.continuousAt.eventually_const_lt n1, hn2.continuousAt.eventually_const_lt n2] with q m1 m2
    rw [loss_angle (ptData_withDofs _ _) (ptData_withDofs _ _) (ptData_withDofs _ _), toReal_fin, angleOf,
      if_neg (not_or.2 ⟨not_lt.2 m1.le, not_lt.2 m2.le⟩)]
    simp
  | arcEnd a p =>
    have hx := ((hθ (.px (H.arcs a).center)).add ((hθ (.ar a)).mul (hθ (.ae a)).cos)).sub (hθ (.px p))
    have hy := ((hθ (.py (H.arcs a).center)).add ((hθ (.ar a)).mul (hθ (.ae a)).sin)).sub (hθ (.py p))
    refine ⟨[_, _], by simpa using ⟨hx, hy⟩, Filter.Eventually.of_forall fun q => ?_⟩
    rw [loss_arcEnd (ptData_withDofs _ _) (endPoint_fin (center_withDofs _ _) (arcData_withDofs _ _)), toReal_fin]
    simp
    ring
  | arcStart a p =>
    have hx := ((hθ (.px (H.arcs a).center)).add ((hθ (.ar a)).mul (hθ (.as a)).cos)).sub (hθ (.px p))
    have hy := ((hθ (.py (H.arcs a).center)).add ((hθ (.ar a)).mul (hθ (.as a)).sin)).sub (hθ (.py p))
    refine ⟨[_, _], by simpa using ⟨hx, hy⟩, Filter.Eventually.of_forall fun q => ?_⟩
    rw [loss_arcStart (ptData_withDofs _ _) (startPoint_fin (center_withDofs _ _) (arcData_withDofs _ _)), toReal_fin]
    simp
    ring
  | euclid p1 p2 D =>
    obtain ⟨D, rfl⟩ := (isFinite_iff _).1 (hp D (by simp [consParams]))
    have n1 : (1e-6 : ℝ) ≤ hyp (θ q0 (.px p1) - θ q0 (.px p2)) (θ q0 (.py p1) - θ q0 (.py p2)) := by rw [hyp_pt]; exact hr
    have z1 : hyp (θ q0 (.px p1) - θ q0 (.px p2)) (θ q0 (.py p1) - θ q0 (.py p2)) ≠ 0 :=
      (lt_of_lt_of_le (by norm_num) n1).ne'
    have ha := (hθ (.px p1)).sub (hθ (.px p2))
    have hb := (hθ (.py p1)).sub (hθ (.py p2))
    refine ⟨[_], by simpa using (contDiffAt_hyp ha hb z1).sub (contDiffAt_const (c := D)), Filter.Eventually.of_forall fun q => ?_⟩
    rw [loss_euclid (ptData_withDofs _ _) (ptData_withDofs _ _), toReal_fin]
    simp
  | horizDist p1 p2 D =>
    obtain ⟨D, rfl⟩ := (isFinite_iff _).1 (hp D (by simp [consParams]))
    refine ⟨[_], by simpa using ((hθ (.px p2)).sub (hθ (.px p1))).sub (contDiffAt_const (c := D)), Filter.Eventually.of_forall fun q => ?_⟩
    rw [loss_horiz (ptData_withDofs _ _) (ptData_withDofs _ _), toReal_fin]
    simp
  | vertDist p1 p2 D =>
    obtain ⟨D, rfl⟩ := (isFinite_iff _).1 (hp D (by simp [consParams]))
    refine ⟨[_], by simpa using ((hθ (.py p2)).sub (hθ (.py p1))).sub (contDiffAt_const (c := D)), Filter.Eventually.of_forall fun q => ?_⟩
    rw [loss_vert (ptData_withDofs _ _) (ptData_withDofs _ _), toReal_fin]
    simp
  | fix p D =>
    obtain ⟨X, Y⟩ := D
    obtain ⟨X, rfl⟩ := (isFinite_iff _).1 (hp X (by simp [consParams]))
    obtain ⟨Y, rfl⟩ := (isFinite_iff _).1 (hp Y (by simp [consParams]))
    refine ⟨[_, _], by simpa using ⟨(hθ (.px p)).sub (contDiffAt_const (c := X)), (hθ (.py p)).sub (contDiffAt_const (c := Y))⟩,
      Filter.Eventually.of_forall fun q => ?_⟩
    rw [loss_fix (ptData_withDofs _ _), toReal_fin]
    simp
    ring
  | eqLen l m =>
    have z1 := properLine_hyp hr.1
    have z2 := properLine_hyp hr.2
    have ha := (hθ (.px (H.lines l).stop)).sub (hθ (.px (H.lines l).start))
    have hb := (hθ (.py (H.lines l).stop)).sub (hθ (.py (H.lines l).start))
    have hc := (hθ (.px (H.lines m).stop)).sub (hθ (.px (H.lines m).start))
    have hd := (hθ (.py (H.lines m).stop)).sub (hθ (.py (H.lines m).start))
    refine ⟨[_], by simpa using (contDiffAt_hyp ha hb z1).sub (contDiffAt_hyp hc hd z2), Filter.Eventually.of_forall fun q => ?_⟩
    rw [loss_eqLen (lineStart_withDofs _ _) (lineEnd_withDofs _ _) (lineStart_withDofs _ _) (lineEnd_withDofs _ _), toReal_fin]
    simp
  | horizLine l =>
    refine ⟨[_], by simpa using (hθ (.py (H.lines l).stop)).sub (hθ (.py (H.lines l).start)), Filter.Eventually.of_forall fun q => ?_⟩
    rw [loss_horizLine (lineStart_withDofs _ _) (lineEnd_withDofs _ _), toReal_fin]
    simp
  | vertLine l =>
    refine ⟨[_], by simpa using (hθ (.px (H.lines l).stop)).sub (hθ (.px (H.lines l).start)), Filter.Eventually.of_forall fun q => ?_⟩
    rw [loss_vertLine (lineStart_withDofs _ _) (lineEnd_withDofs _ _), toReal_fin]
    simp
  | parallel l m =>
    have z1 := properLine_hyp hr.1
    have z2 := properLine_hyp hr.2
    have ha := (hθ (.px (H.lines l).stop)).sub (hθ (.px (H.lines l).start))
    have hb := (hθ (.py (H.lines l).stop)).sub (hθ (.py (H.lines l).start))
    have hc := (hθ (.px (H.lines m).stop)).sub (hθ (.px (H.lines m).start))
    have hd := (hθ (.py (H.lines m).stop)).sub (hθ (.py (H.lines m).start))
    have hn1 := contDiffAt_hyp ha hb z1
    have hn2 := contDiffAt_hyp hc hd z2
    refine ⟨[_], by simpa using ((ha.mul hd).sub (hb.mul hc)).div (hn1.mul hn2) (mul_ne_zero z1 z2), ?_⟩
    filter_upwards [hn1.continuousAt.eventually_ne z1, hn2.continuousAt.eventually_ne z2] with q m1 m2
    rw [loss_parallel (lineStart_withDofs _ _) (lineEnd_withDofs _ _) (lineStart_withDofs _ _) (lineEnd_withDofs _ _),
      toReal_fin, crossOf, if_neg (not_or.2 ⟨m1, m2⟩)]
    simp
  | perp l m =>
    have z1 := properLine_hyp hr.1
    have z2 := properLine_hyp hr.2
    have ha := (hθ (.px (H.lines l).stop)).sub (hθ (.px (H.lines l).start))
    have hb := (hθ (.py (H.lines l).stop)).sub (hθ (.py (H.lines l).start))
    have hc := (hθ (.px (H.lines m).stop)).sub (hθ (.px (H.lines m).start))
    have hd := (hθ (.py (H.lines m).stop)).sub (hθ (.py (H.lines m).start))
    have hn1 := contDiffAt_hyp ha hb z1
    have hn2 := contDiffAt_hyp hc hd z2
    refine ⟨[_], by simpa using ((ha.mul hc).add (hb.mul hd)).div (hn1.mul hn2) (mul_ne_zero z1 z2), ?_⟩
    filter_upwards [hn1.continuousAt.eventually_ne z1, hn2.continuousAt.eventually_ne z2] with q m1 m2
    rw [loss_perp (lineStart_withDofs _ _) (lineEnd_withDofs _ _) (lineStart_withDofs _ _) (lineEnd_withDofs _ _),
      toReal_fin, dotOf, if_neg (not_or.2 ⟨m1, m2⟩)]
    simp

end
end Isotope
