import Verif.SpecWay
import Verif.Lemmas.FinLoss
import Verif.Lemmas.Torque

/-!
# A step of gradient descent and the loss it gains
-/

namespace Isotope
open XR

theorem alphaOf_le (l : List Bool) : ∃ r : ℝ, 0 < r ∧ r ≤ 1.5 ^ l.length ∧ (alphaOf l : XR) = fin r := by
  unfold alphaOf
  have : ∀ (l : List Bool) (a : ℝ), 0 < a → ∃ r : ℝ, 0 < r ∧ r ≤ 1.5 ^ l.length * a ∧
      l.foldl (fun a b => a * (if b then (1.5 : XR) else 0.5)) (fin a) = fin r := by
    intro l
    induction l with
    | nil => intro a ha; exact ⟨a, ha, by simp, rfl⟩
    | cons b l ih =>
      intro a ha
      have : 0 < (1.5 : ℝ) ^ l.length * a := by positivity
      cases b
      · obtain ⟨r, h1, h2, h3⟩ := ih (a * (1 / 2)) (by linarith)
        refine ⟨r, h1, ?_, ?_⟩
        · rw [List.length_cons, pow_succ]; linarith
        · rw [List.foldl_cons, ← h3]; simp only [Bool.false_eq_true, if_false, sci, mul_fin]; norm_num
      · obtain ⟨r, h1, h2, h3⟩ := ih (a * (3 / 2)) (by linarith)
        refine ⟨r, h1, ?_, ?_⟩
        · rw [List.length_cons, pow_succ]; linarith
        · rw [List.foldl_cons, ← h3]; simp only [if_true, sci, mul_fin]; norm_num
  obtain ⟨r, h1, h2, h3⟩ := this l 1 one_pos
  refine ⟨r, h1, by simpa using h2, ?_⟩
  rw [← h3]; simp only [sci]; norm_num

theorem dotV_map {α : Type} (l : List α) (t u : α → ℝ) : dotV (l.map fun d => fin (t d)) (l.map fun d => fin (u d)) = fin (l.map fun d => t d * u d).sum := by
  have : ∀ f : α → ℝ, l.map (fun d => fin (f d)) = vec fun i : Fin l.length => f l[i] := fun f => by
    refine List.ext_getElem (by simp [vec]) fun i a1 a2 => ?_
    simp [vec]
  rw [this, this, dotV_vec]
  congr 1
  unfold dotProduct
  rw [← List.sum_ofFn]
  congr 1
  refine List.ext_getElem (by simp) fun i a1 a2 => ?_
  simp

variable {h : Heap XR} {s : Sketch}

theorem dataWay_dofs (a b : Heap XR) : dataWay (getData a s) (getData b s) = (s.dofs.map fun d => ((val b d).toReal - (val a d).toReal) ^ 2).sum := by
  rw [getData_dofs, getData_dofs, dataWay, List.zipWith_map, List.zipWith_self]

/-- the squares of the changes of the coordinates in a step are bounded by the loss it gains -/
theorem gd_way (hn : s.cells.Nodup) (hc : s.Covers h) (hf : FiniteSketch h s) (p : GDParams XR) {st : StepRec XR}
    (hst : st ∈ (gdSolve p h s).steps) {L : ℝ} (hL : getLoss st.pre s = fin L) :
    ∃ L', getLoss st.post s = fin L' ∧ dataWay (getData st.pre s) (getData st.post s) ≤ 10 ^ 4 * 1.5 ^ 14 * (L - L') := by
  have nt : Neutral h s fun _ => 0 := fun _ _ _ _ _ _ => by simp [form]
  have R : Bal h s (fun _ => 0) h h := ⟨rfl, .refl h, hf, rfl⟩
  have q := (alikeM_bal hn hc nt).toAlike.gd (M := fun _ _ => True) trivial p R
  obtain ⟨wp, -, wq, -⟩ := List.forall₂_same.1 q.steps st hst
  obtain ⟨g, h0, eg, ed, ea, -⟩ := C28_sufficient_decrease p h s hn st hst
  obtain ⟨α, α0, α1, eα⟩ : ∃ α : ℝ, 0 < α ∧ α ≤ 1.5 ^ 14 ∧ st.alpha = fin α := by
    obtain ⟨g, h0, h1, h2, g', e0, e1, -⟩ := (gdSolve_run p h s).2.1 st hst
    obtain ⟨-, l, hl, ea, -⟩ := lineSearch_ok e1
    obtain ⟨r, r0, r1, er⟩ := alphaOf_le l
    exact ⟨r, r0, r1.trans (pow_le_pow_right₀ (by norm_num) (by omega)), ea.trans er⟩
  have cu := hc.sameRefs wp.refs
  obtain ⟨A, B⟩ := getGradient_exact st.pre s (cu.finite wp.finite)
  by_cases hd : ∃ k ∈ s.cons, DegenerateEqLen st.pre (st.pre.cons k)
  · obtain ⟨h3, e3⟩ := B hd
    rw [e3] at eg; cases eg
  obtain ⟨h3, g3, -, e3⟩ := A fun k hk q => hd ⟨k, hk, q⟩
  rw [e3] at eg
  obtain ⟨rfl, rfl⟩ := Prod.mk.inj (Except.ok.inj eg)
  generalize total (s.cons.flatMap fun k => contribs st.pre (st.pre.cons k)) = t at ed ea
  have vn : vneg (s.dofs.map fun d => fin (t d)) = s.dofs.map fun d => fin (-t d) := by
    rw [vneg, List.map_map]; rfl
  rw [vn, eα] at ed ea
  rw [dotV_map, hL, sci, mul_fin, mul_fin, add_fin] at ea
  have sg : (s.dofs.map fun d => t d * -t d).sum = -(s.dofs.map fun d => t d ^ 2).sum := by
    rw [← neg_one_mul, ← List.sum_map_mul_left]
    exact congrArg List.sum (List.map_congr_left fun d _ => by ring)
  have hS : 0 ≤ (s.dofs.map fun d => t d ^ 2).sum := List.sum_nonneg fun x hx => by
    obtain ⟨d, -, rfl⟩ := List.mem_map.1 hx; positivity
  rw [sg] at ea
  have way : dataWay (getData st.pre s) (getData st.post s) = α ^ 2 * (s.dofs.map fun d => t d ^ 2).sum := by
    rw [dataWay_dofs, ← List.sum_map_mul_left]
    refine congrArg List.sum (List.map_congr_left fun d hd => ?_)
    rw [getData_dofs, getData_dofs, List.zipWith_map, List.zipWith_self] at ed
    have := List.map_inj_left.1 ed d hd
    rw [this, val_real wp.finite hd, mul_fin, add_fin, toReal_fin, toReal_fin]
    ring
  rcases loss_total_notNeg st.post s with ⟨L', -, e⟩ | e | e
  · refine ⟨L', e, ?_⟩
    rw [e, le_fin, decide_eq_true_eq] at ea
    rw [way]
    have a1 : α * (s.dofs.map fun d => t d ^ 2).sum ≤ 10 ^ 4 * (L - L') := by
      norm_num at ea
      linarith
    have a2 := mul_le_mul_of_nonneg_left a1 α0.le
    have a3 : 0 ≤ L - L' := by
      have := mul_nonneg α0.le hS
      linarith
    have a4 := mul_le_mul_of_nonneg_right α1 (mul_nonneg (show (0 : ℝ) ≤ 10 ^ 4 by norm_num) a3)
    nlinarith
  · rw [e] at ea; cases ea
  · rw [e] at ea; cases ea

theorem way_two {n : Nat} {a b Q : ℝ} (hQ : 0 ≤ Q) (h : b ^ 2 ≤ n * Q) : (a + b) ^ 2 ≤ (n + 1) * (a ^ 2 + Q) := by
  have n0 : (0 : ℝ) ≤ n := Nat.cast_nonneg n
  rcases Nat.eq_zero_or_pos n with rfl | hn
  · have : b = 0 := by
      have : b ^ 2 ≤ 0 := by simpa using h
      exact pow_eq_zero_iff two_ne_zero |>.1 (le_antisymm this (sq_nonneg b))
    subst this
    simp only [Nat.cast_zero, add_zero, zero_add, one_mul]
    linarith
  · have hn : (0 : ℝ) < n := Nat.cast_pos.2 hn
    have k : n * (2 * a * b) ≤ n * (n * a ^ 2 + Q) := by nlinarith [sq_nonneg (n * a - b)]
    have := le_of_mul_le_mul_left k hn
    nlinarith

/-- the way of a coordinate over several steps -/
theorem way_steps (d : Dof) {hE : Heap XR} : ∀ (l : List (StepRec XR)) (h : Heap XR), Leads h l hE →
    ((val hE d).toReal - (val h d).toReal) ^ 2 ≤ l.length * (l.map fun st => ((val st.post d).toReal - (val st.pre d).toReal) ^ 2).sum := by
  intro l
  induction l with
  | nil => intro h L; rw [L.val d]; simp
  | cons r l ih =>
    intro h L
    have := ih r.post L.2
    have e : val h d = val r.pre d := (L.1.val d).symm
    rw [e, List.map_cons, List.sum_cons, List.length_cons, Nat.cast_add, Nat.cast_one]
    have w := way_two (a := (val r.post d).toReal - (val r.pre d).toReal) (List.sum_nonneg fun x hx => by
      obtain ⟨c, -, rfl⟩ := List.mem_map.1 hx; positivity) this
    refine le_trans (le_of_eq ?_) w
    ring

end Isotope
