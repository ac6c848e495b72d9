import Verif.Props.StairsDescent

/-!
# Stairs with steps of any size, in exact arithmetic
-/

namespace Isotope
open XR
open Matrix

/-- where the `i`-th point belongs if the steps have size `d` -/
noncomputable def stepX (d : ℝ) (i : Nat) : ℝ := ((i + 1) / 2 : ℕ) * d
noncomputable def stepY (d : ℝ) (i : Nat) : ℝ := (i / 2 : ℕ) * d

noncomputable def stepGoal (d : ℝ) : Dof → ℝ
  | .px i => stepX d i
  | .py i => stepY d i
  | _ => 0

theorem step_even {d : ℝ} {i : Nat} (h : i % 2 = 0) : stepX d (i + 1) = stepX d i + d ∧ stepY d (i + 1) = stepY d i := by
  unfold stepX stepY
  rw [show (i + 1 + 1) / 2 = (i + 1) / 2 + 1 by omega, show (i + 1) / 2 = i / 2 by omega]
  push_cast
  constructor <;> ring

theorem step_odd {d : ℝ} {i : Nat} (h : ¬i % 2 = 0) : stepX d (i + 1) = stepX d i ∧ stepY d (i + 1) = stepY d i + d := by
  unfold stepX stepY
  rw [show (i + 1 + 1) / 2 = (i + 1) / 2 by omega, show (i + 1) / 2 = i / 2 + 1 by omega]
  push_cast
  constructor <;> ring

/-- the constraints of stairs with steps of size `d` -/
noncomputable def stepCons (d : ℝ) (k : Nat) : Constraint XR :=
  if k = 0 then .fix 0 ⟨fin 0, fin 0⟩
  else if k % 2 = 1 then
    (if (k - 1) / 2 % 2 = 0 then .horizDist ((k - 1) / 2) ((k - 1) / 2 + 1) (fin d) else .vertDist ((k - 1) / 2) ((k - 1) / 2 + 1) (fin d))
  else (if (k - 1) / 2 % 2 = 0 then .horizLine ((k - 1) / 2) else .vertLine ((k - 1) / 2))

/-- the heap has the lines and constraints of stairs with steps of size `d` and `N + 1` points -/
def StepSketch (d : ℝ) (N : Nat) (h : Heap XR) : Prop :=
  (∀ j < 2 * N + 1, h.cons j = stepCons d j) ∧ ∀ i < N, h.lines i = ⟨i, i + 1⟩

theorem StepSketch.trans {d : ℝ} {N : Nat} {h H : Heap XR} (a : StepSketch d N h) (r : SameRefs h H) : StepSketch d N H :=
  ⟨fun j hj => by rw [r.cons]; exact a.1 j hj, fun i hi => by rw [r.lines]; exact a.2 i hi⟩

theorem step_loss {d : ℝ} {N : Nat} {h : Heap XR} (hr : StepSketch d N h) {a c : ℕ → ℝ}
    (pd : ∀ i ≤ N, ptData h i = ⟨fin (stepX d i + a i), fin (stepY d i + c i)⟩) :
    getLoss h (stairs N).sketch = fin ((chain a N + chain c N) / 2) := by
  have hl : ∀ i < N, h.lines i = ⟨i, i + 1⟩ := by
    exact hr.2
  let f : ℕ → ℝ := fun j => if j = 0 then (a 0 ^ 2 + c 0 ^ 2) / 2 else if (j % 2 = 1) = ((j - 1) / 2 % 2 = 0) then
    (a ((j - 1) / 2 + 1) - a ((j - 1) / 2)) ^ 2 / 2 else (c ((j - 1) / 2 + 1) - c ((j - 1) / 2)) ^ 2 / 2
  have hc : (stairs N).sketch.cons = List.range (2 * N + 1) := rfl
  have hlen : (stairs N).sketch.cons.length = 2 * N + 1 := by rw [hc, List.length_range]
  have hloss : ∀ j (hj : j < (stairs N).sketch.cons.length), lossValue h (h.cons (stairs N).sketch.cons[j]) = fin (f j) := by
    intro j hj
    have hj' : j < 2 * N + 1 := by rwa [hlen] at hj
    simp only [hc, List.getElem_range]
    rw [hr.1 j hj']
    unfold stepCons
    simp only [f]
    by_cases k0 : j = 0
    · rw [if_pos k0, if_pos k0, loss_fix (pd 0 (by omega))]
      simp [stepX, stepY]
    · rw [if_neg k0, if_neg k0]
      have b1 : (j - 1) / 2 ≤ N := by omega
      have b2 : (j - 1) / 2 + 1 ≤ N := by omega
      by_cases k1 : j % 2 = 1
      · rw [if_pos k1]
        by_cases ke : (j - 1) / 2 % 2 = 0
        · rw [if_pos ke, if_pos (by simp [k1, ke]), loss_horiz (pd _ b1) (pd _ b2), (step_even ke).1]
          congr 1; ring
        · rw [if_neg ke, if_neg (by simp [k1, ke]), loss_vert (pd _ b1) (pd _ b2), (step_odd ke).2]
          congr 1; ring
      · rw [if_neg k1]
        have e1 : lineStart h ((j - 1) / 2) = ptData h ((j - 1) / 2) := by unfold lineStart; rw [hl _ (by omega)]
        have e2 : lineEnd h ((j - 1) / 2) = ptData h ((j - 1) / 2 + 1) := by unfold lineEnd; rw [hl _ (by omega)]
        rw [pd _ b1] at e1
        rw [pd _ b2] at e2
        by_cases ke : (j - 1) / 2 % 2 = 0
        · rw [if_pos ke, if_neg (by simp [k1, ke]), loss_horizLine e1 e2, (step_even ke).2]
          congr 1; ring
        · rw [if_neg ke, if_pos (by simp [k1, ke]), loss_vertLine e1 e2, (step_odd ke).1]
          congr 1; ring
  rw [getLoss_of_sum hloss, hlen]
  have pair : ∀ i, f (2 * i + 1) + f (2 * i + 2) = ((a (i + 1) - a i) ^ 2 + (c (i + 1) - c i) ^ 2) / 2 := by
    intro i
    simp only [f]
    rw [if_neg (show ¬2 * i + 1 = 0 by omega), if_neg (show ¬2 * i + 2 = 0 by omega), show (2 * i + 1 - 1) / 2 = i by omega,
      show (2 * i + 2 - 1) / 2 = i by omega]
    by_cases ke : i % 2 = 0
    · simp [ke]; ring
    · simp [ke]; ring
  have S : ∀ m, ∑ j ∈ Finset.range (2 * m + 1), f j = (chain a m + chain c m) / 2 := by
    intro m
    induction m with
    | zero => simp [f, chain]
    | succ m ih =>
      rw [show 2 * (m + 1) + 1 = 2 * m + 1 + 1 + 1 by ring, Finset.sum_range_succ, Finset.sum_range_succ, add_assoc, ih, pair m]
      unfold chain
      rw [Finset.sum_range_succ, Finset.sum_range_succ]
      ring
  rw [S]

theorem step_lossAfter {d : ℝ} {N : Nat} {h : Heap XR} (hr : StepSketch d N h) (t : Dof → ℝ) :
    lossAfter h (stairs N).sketch (vecOf h _ t) =
      (chain (fun i => t (.px i) - stepX d i) N + chain (fun i => t (.py i) - stepY d i) N) / 2 := by
  obtain ⟨H, e, r, ed⟩ := setData_vec (h := h) (stairs_nodup N) (vecOf h _ t)
  have pd : ∀ i ≤ N, ptData H i = ⟨fin (stepX d i + (t (.px i) - stepX d i)), fin (stepY d i + (t (.py i) - stepY d i))⟩ := by
    intro i hi
    obtain ⟨m1, m2⟩ := stairs_mem hi
    have h1 := val_of_data ed m1
    have h2 := val_of_data ed m2
    rw [coordOf_vecOf _ m1] at h1
    rw [coordOf_vecOf _ m2] at h2
    simp only [val] at h1 h2
    unfold ptData
    rcases hp : (H.points i).data with ⟨x, y⟩
    rw [hp] at h1 h2
    simp only at h1 h2
    rw [h1, h2]
    simp
  unfold lossAfter
  rw [e]
  dsimp only
  rw [step_loss (hr.trans r) pd]
  rfl

theorem step_squeezed {d : ℝ} {N : Nat} {h : Heap XR} (hr : StepSketch d N h) :
    Squeezed h (stairs N).sketch (2 / ((N + 1) * (N + 2))) 4 := by
  have hP : (0 : ℝ) < (N + 1) * (N + 2) := by positivity
  constructor
  · intro v
    obtain ⟨t, rfl⟩ := exists_vecOf (stairs_nodup N) v
    refine ⟨vecOf h _ (stepGoal d), ?_, ?_⟩
    · rw [step_lossAfter hr]
      simp [stepGoal, chain]
    · rw [vecOf_sub, stairs_dot, step_lossAfter hr]
      have h1 := chain_low (fun i => t (.px i) - stepX d i) N
      have h2 := chain_low (fun i => t (.py i) - stepY d i) N
      simp only [pow_two] at h1 h2
      simp only [stepGoal]
      rw [div_mul_eq_mul_div, div_le_iff₀ hP]
      linarith
  · intro v v0 e0
    obtain ⟨t, rfl⟩ := exists_vecOf (stairs_nodup N) v
    obtain ⟨t0, rfl⟩ := exists_vecOf (stairs_nodup N) v0
    rw [step_lossAfter hr] at e0
    have n1 := chain_nonneg (fun i => t0 (.px i) - stepX d i) N
    have n2 := chain_nonneg (fun i => t0 (.py i) - stepY d i) N
    have z1 : chain (fun i => t0 (.px i) - stepX d i) N = 0 := by linarith
    have z2 : chain (fun i => t0 (.py i) - stepY d i) N = 0 := by linarith
    have s1 := chain_low (fun i => t0 (.px i) - stepX d i) N
    have s2 := chain_low (fun i => t0 (.py i) - stepY d i) N
    rw [z1, mul_zero] at s1
    rw [z2, mul_zero] at s2
    have q1 : ∀ i ∈ Finset.range (N + 1), t0 (.px i) = stepX d i := by
      intro i hi
      have := (Finset.sum_eq_zero_iff_of_nonneg fun i _ => sq_nonneg _).1 (le_antisymm s1 (Finset.sum_nonneg fun i _ => sq_nonneg _)) i hi
      exact sub_eq_zero.1 (pow_eq_zero_iff (two_ne_zero) |>.1 this)
    have q2 : ∀ i ∈ Finset.range (N + 1), t0 (.py i) = stepY d i := by
      intro i hi
      have := (Finset.sum_eq_zero_iff_of_nonneg fun i _ => sq_nonneg _).1 (le_antisymm s2 (Finset.sum_nonneg fun i _ => sq_nonneg _)) i hi
      exact sub_eq_zero.1 (pow_eq_zero_iff (two_ne_zero) |>.1 this)
    rw [vecOf_sub, stairs_dot, step_lossAfter hr]
    have h1 := chain_high (fun i => t (.px i) - stepX d i) N
    have h2 := chain_high (fun i => t (.py i) - stepY d i) N
    simp only [pow_two] at h1 h2
    have r1 : ∑ i ∈ Finset.range (N + 1), (t (.px i) - t0 (.px i)) * (t (.px i) - t0 (.px i)) =
        ∑ i ∈ Finset.range (N + 1), (t (.px i) - stepX d i) * (t (.px i) - stepX d i) :=
      Finset.sum_congr rfl fun i hi => by rw [q1 i hi]
    have r2 : ∑ i ∈ Finset.range (N + 1), (t (.py i) - t0 (.py i)) * (t (.py i) - t0 (.py i)) =
        ∑ i ∈ Finset.range (N + 1), (t (.py i) - stepY d i) * (t (.py i) - stepY d i) :=
      Finset.sum_congr rfl fun i hi => by rw [q2 i hi]
    rw [r1, r2]
    linarith

end Isotope
