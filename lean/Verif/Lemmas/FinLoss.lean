import Verif.Props.Loss
import Mathlib.Data.List.GetD

/-!
# A finite loss has finite ingredients (exact arithmetic)
-/

namespace Isotope
open XR

theorem XR.add_eq_fin {a b : XR} {r : ℝ} (h : a + b = fin r) : ∃ x y, a = fin x ∧ b = fin y ∧ r = x + y := by
  cases a <;> cases b <;> first | exact ⟨_, _, rfl, rfl, (by simpa using h.symm)⟩ | exact absurd h (by intro h; cases h)

theorem XR.sub_eq_fin {a b : XR} {r : ℝ} (h : a - b = fin r) : ∃ x y, a = fin x ∧ b = fin y ∧ r = x - y := by
  cases a <;> cases b <;> first | exact ⟨_, _, rfl, rfl, (by simpa using h.symm)⟩ | exact absurd h (by intro h; cases h)

theorem XR.mul_eq_fin {a b : XR} {r : ℝ} (h : a * b = fin r) : ∃ x y, a = fin x ∧ b = fin y ∧ r = x * y := by
  have k : ∀ (y r : ℝ), infOf y ≠ fin r := by
    intro y r e
    have := isFinite_infOf y
    rw [e] at this
    cases this
  cases a <;> cases b <;> first
    | exact ⟨_, _, rfl, rfl, (by simpa using h.symm)⟩ | exact absurd h (k _ _) | exact absurd h (by intro h; cases h)

theorem half_sq_eq_fin {e : XR} {r : ℝ} (h : (0.5 : XR) * e * e = fin r) : ∃ x, e = fin x ∧ r = x ^ 2 / 2 := by
  obtain ⟨a, x, h1, rfl, rfl⟩ := mul_eq_fin h
  rw [sci, mul_fin, fin.injEq] at h1
  refine ⟨x, rfl, ?_⟩
  rw [← h1]; norm_num; ring

theorem half_add_eq_fin {a b : XR} {r : ℝ} (h : (0.5 : XR) * (a * a + b * b) = fin r) :
    ∃ x y, a = fin x ∧ b = fin y ∧ r = (x ^ 2 + y ^ 2) / 2 := by
  obtain ⟨k, t, h1, h2, rfl⟩ := mul_eq_fin h
  obtain ⟨t1, t2, h3, h4, rfl⟩ := add_eq_fin h2
  obtain ⟨x, x', rfl, h5, rfl⟩ := mul_eq_fin h3
  obtain ⟨y, y', rfl, h6, rfl⟩ := mul_eq_fin h4
  rw [sci, fin.injEq] at h1
  rw [fin.injEq] at h5 h6
  refine ⟨x, y, rfl, rfl, ?_⟩
  rw [← h1, h5, h6]; norm_num; ring

theorem foldl_eq_fin (l : List XR) (x : XR) {L : ℝ} (h : l.foldl (· + ·) x = fin L) :
    ∃ (a : ℝ) (v : List ℝ), x = fin a ∧ l = v.map fin ∧ L = a + v.sum := by
  induction l generalizing x with
  | nil => exact ⟨L, [], h, rfl, by simp⟩
  | cons y l ih =>
    obtain ⟨a, v, h1, rfl, h3⟩ := ih _ h
    obtain ⟨a', b, rfl, rfl, rfl⟩ := add_eq_fin h1
    exact ⟨a', b :: v, rfl, by simp, by rw [h3, List.sum_cons]; ring⟩

/-- a finite total loss is the sum of finite non-negative losses -/
theorem getLoss_eq_fin {h : Heap XR} {s : Sketch} {L : ℝ} (e : getLoss h s = fin L) :
    ∃ v : List ℝ, (∀ r ∈ v, 0 ≤ r) ∧ getLossPerConstraint h s = v.map fin ∧ L = v.sum := by
  rw [C15_sum] at e
  obtain ⟨a, v, h1, h2, h3⟩ := foldl_eq_fin _ _ e
  have : a = 0 := by
    have : (0.0 : XR) = fin 0 := by simp only [sci]; norm_num
    rw [this, fin.injEq] at h1
    exact h1.symm
  refine ⟨v, ?_, h2, by rw [h3, this, zero_add]⟩
  intro r hr
  have : fin r ∈ getLossPerConstraint h s := by rw [h2]; exact List.mem_map.2 ⟨r, hr, rfl⟩
  obtain ⟨k, -, hk⟩ := List.mem_map.1 this
  rcases loss_notNeg h (h.cons k) with ⟨r', h0, h'⟩ | h' | h' <;> rw [hk] at h'
  · rw [fin.injEq] at h'; rwa [h']
  · cases h'
  · cases h'

/-- conversely, finite losses add up -/
theorem getLoss_of_fin {h : Heap XR} {s : Sketch} {v : List ℝ} (e : getLossPerConstraint h s = v.map fin) :
    getLoss h s = fin v.sum := by
  have key : ∀ (v : List ℝ) (a : ℝ), (v.map fin).foldl (· + ·) (fin a) = fin (a + v.sum) := by
    intro v
    induction v with
    | nil => intro a; simp
    | cons b v ih => intro a; rw [List.map_cons, List.foldl_cons, add_fin, ih, List.sum_cons, add_assoc]
  rw [C15_sum, e]
  have : (0.0 : XR) = fin 0 := by simp only [sci]; norm_num
  rw [this, key, zero_add]

/-- the losses of some constraints of the sketch: their sum is at most the total -/
theorem getLoss_eq_sum {h : Heap XR} {s : Sketch} {L : ℝ} (e : getLoss h s = fin L) :
    ∃ f : ℕ → ℝ, (∀ i, 0 ≤ f i) ∧ (∀ i (hi : i < s.cons.length), lossValue h (h.cons s.cons[i]) = fin (f i)) ∧
      L = ∑ i ∈ Finset.range s.cons.length, f i := by
  obtain ⟨v, h0, h1, rfl⟩ := getLoss_eq_fin e
  have hl : v.length = s.cons.length := by
    have := congrArg List.length h1
    simpa [getLossPerConstraint] using this.symm
  refine ⟨fun i => v.getD i 0, ?_, ?_, ?_⟩
  · intro i
    dsimp only
    by_cases hi : i < v.length
    · rw [List.getD_eq_getElem _ _ hi]; exact h0 _ (List.getElem_mem _)
    · rw [List.getD_eq_default _ _ (by omega)]
  · intro i hi
    have h2 := C15_entries h s i
    rw [h1] at h2
    rw [List.getElem?_map, List.getElem?_eq_getElem (by omega), List.getElem?_eq_getElem hi] at h2
    simp only [Option.map_some, Option.some.injEq] at h2
    dsimp only
    rw [← h2, List.getD_eq_getElem _ _ (by omega)]
  · rw [← hl, Finset.sum_range]
    conv_lhs => rw [← List.ofFn_getElem (xs := v), List.sum_ofFn]
    refine Finset.sum_congr rfl fun i _ => ?_
    rw [List.getD_eq_getElem _ _ i.2]

theorem loss_total_notNeg (h : Heap XR) (s : Sketch) : NotNeg (getLoss h s) := (notNeg_iff _).1 (C15_total_nonneg h s)

theorem getLoss_of_sum {h : Heap XR} {s : Sketch} {f : ℕ → ℝ}
    (e : ∀ i (hi : i < s.cons.length), lossValue h (h.cons s.cons[i]) = fin (f i)) :
    getLoss h s = fin (∑ i ∈ Finset.range s.cons.length, f i) := by
  have : getLossPerConstraint h s = (List.ofFn fun i : Fin s.cons.length => f i).map fin := by
    apply List.ext_getElem?
    intro i
    rw [C15_entries]
    by_cases hi : i < s.cons.length
    · rw [List.getElem?_eq_getElem hi, List.getElem?_eq_getElem (by simpa using hi)]
      simp [e i hi]
    · rw [List.getElem?_eq_none (by omega), List.getElem?_eq_none (by simpa using hi)]
      rfl
  rw [getLoss_of_fin this, List.sum_ofFn, Finset.sum_range]

end Isotope
