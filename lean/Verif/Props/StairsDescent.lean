import Verif.Props.Stairs
import Verif.Props.Linear

/-!
# Gradient descent on the stairs benchmark (C72)
-/

namespace Isotope
open XR
open Matrix

/-! ## Coordinates as vectors -/

section coords
variable {h : Heap XR} {s : Sketch}

/-- the data vector with given coordinates -/
def vecOf (h : Heap XR) (s : Sketch) (t : Dof → ℝ) : Fin (getNDofs h s) → ℝ :=
  fun j => t (s.dofs[j.1]'(by rw [dofs_length h]; exact j.2))

theorem coordOf_vecOf (t : Dof → ℝ) {d : Dof} (hd : d ∈ s.dofs) : coordOf h s (vecOf h s t) d = t d := by
  rw [coordOf, dif_pos (idxOf_lt hd)]
  unfold vecOf
  simp

theorem vecOf_coordOf (hn : s.cells.Nodup) (v : Fin (getNDofs h s) → ℝ) : vecOf h s (coordOf h s v) = v := by
  funext j
  have hj : j.1 < s.dofs.length := by rw [dofs_length h]; exact j.2
  unfold vecOf
  rw [coordOf, dif_pos (idxOf_lt (List.getElem_mem hj))]
  congr 1
  apply Fin.ext
  exact (Sketch.dofs_nodup hn).idxOf_getElem _ hj

theorem dot_vecOf (t u : Dof → ℝ) : vecOf h s t ⬝ᵥ vecOf h s u = (s.dofs.map (fun d => t d * u d)).sum := by
  rw [sum_get]
  unfold dotProduct vecOf
  apply Fintype.sum_equiv (finCongr (dofs_length h s).symm)
  intro i
  simp

theorem vecOf_sub (t u : Dof → ℝ) : vecOf h s t - vecOf h s u = vecOf h s (fun d => t d - u d) := rfl
theorem vecOf_add (t u : Dof → ℝ) : vecOf h s t + vecOf h s u = vecOf h s (fun d => t d + u d) := rfl

theorem exists_vecOf (hn : s.cells.Nodup) (v : Fin (getNDofs h s) → ℝ) : ∃ t, v = vecOf h s t := ⟨_, (vecOf_coordOf hn v).symm⟩

end coords

/-! ## Chains -/

/-- the first number squared plus the squares of the differences -/
noncomputable def chain (e : ℕ → ℝ) (N : Nat) : ℝ := e 0 ^ 2 + ∑ i ∈ Finset.range N, (e (i + 1) - e i) ^ 2

theorem chain_nonneg (e : ℕ → ℝ) (N : Nat) : 0 ≤ chain e N := by unfold chain; positivity

theorem chain_mono (e : ℕ → ℝ) {i N : Nat} (h : i ≤ N) : chain e i ≤ chain e N := by
  unfold chain
  have := Finset.sum_le_sum_of_subset_of_nonneg (Finset.range_mono h) (f := fun i => (e (i + 1) - e i) ^ 2) fun _ _ _ => sq_nonneg _
  linarith

theorem chain_point (e : ℕ → ℝ) (i : Nat) : e i ^ 2 ≤ (i + 1) * chain e i := by
  induction i with
  | zero => simp [chain]
  | succ i ih =>
    have := step_error (a := e i) (b := e (i + 1) - e i) (A := chain e i / 2) (B := (e (i + 1) - e i) ^ 2 / 2) (i := i)
      (by linarith) (by linarith)
    have e1 : chain e (i + 1) = chain e i + (e (i + 1) - e i) ^ 2 := by
      unfold chain; rw [Finset.sum_range_succ]; ring
    rw [e1]
    rw [show e i + (e (i + 1) - e i) = e (i + 1) by ring] at this
    linarith

theorem chain_low (e : ℕ → ℝ) (N : Nat) : ∑ i ∈ Finset.range (N + 1), e i ^ 2 ≤ (N + 1) * (N + 2) / 2 * chain e N := by
  have : ∀ m ≤ N, ∑ i ∈ Finset.range (m + 1), e i ^ 2 ≤ (m + 1) * (m + 2) / 2 * chain e N := by
    intro m
    induction m with
    | zero =>
      intro _
      have := (chain_point e 0).trans (mul_le_mul_of_nonneg_left (chain_mono e (Nat.zero_le N)) (by simp))
      simpa using this
    | succ m ih =>
      intro hm
      rw [Finset.sum_range_succ]
      have h1 := ih (by omega)
      have h2 := (chain_point e (m + 1)).trans (mul_le_mul_of_nonneg_left (chain_mono e hm) (by positivity))
      push_cast at h2 ⊢
      nlinarith
  exact this N le_rfl

theorem chain_high (e : ℕ → ℝ) (N : Nat) : chain e N ≤ 4 * ∑ i ∈ Finset.range (N + 1), e i ^ 2 := by
  have : ∀ m, chain e m + 2 * e m ^ 2 ≤ 4 * ∑ i ∈ Finset.range (m + 1), e i ^ 2 := by
    intro m
    induction m with
    | zero => simp [chain]; nlinarith [sq_nonneg (e 0)]
    | succ m ih =>
      have e1 : chain e (m + 1) = chain e m + (e (m + 1) - e m) ^ 2 := by
        unfold chain; rw [Finset.sum_range_succ]; ring
      rw [Finset.sum_range_succ, e1]
      nlinarith [sq_nonneg (e (m + 1) + e m)]
  have h1 := this N
  nlinarith [sq_nonneg (e N)]

/-! ## The stairs -/

/-- the stairs with `N + 1` points -/
noncomputable abbrev stairs (N : Nat) : World XR := stairsWorld (N + 1) N (2 * N + 1)

theorem stairs_loss {N : Nat} {h : Heap XR} (hr : SameRefs (stairs N).heap h) {a c : ℕ → ℝ}
    (pd : ∀ i ≤ N, ptData h i = ⟨fin (stairX i + a i), fin (stairY i + c i)⟩) :
    getLoss h (stairs N).sketch = fin ((chain a N + chain c N) / 2) := by
  have hl : ∀ i < N, h.lines i = ⟨i, i + 1⟩ := by
    intro i hi
    rw [hr.lines]
    simp [stairs, stairsWorld, layout, hi]
  let f : ℕ → ℝ := fun j => if j = 0 then (a 0 ^ 2 + c 0 ^ 2) / 2 else if (j % 2 = 1) = ((j - 1) / 2 % 2 = 0) then
    (a ((j - 1) / 2 + 1) - a ((j - 1) / 2)) ^ 2 / 2 else (c ((j - 1) / 2 + 1) - c ((j - 1) / 2)) ^ 2 / 2
  have hc : (stairs N).sketch.cons = List.range (2 * N + 1) := rfl
  have hlen : (stairs N).sketch.cons.length = 2 * N + 1 := by rw [hc, List.length_range]
  have hloss : ∀ j (hj : j < (stairs N).sketch.cons.length), lossValue h (h.cons (stairs N).sketch.cons[j]) = fin (f j) := by
    intro j hj
    have hj' : j < 2 * N + 1 := by rwa [hlen] at hj
    simp only [hc, List.getElem_range]
    rw [hr.cons, stairs_cons_get _ _ _ _ hj']
    unfold stairsCons
    simp only [f]
    by_cases k0 : j = 0
    · rw [if_pos k0, if_pos k0, xr_zero, loss_fix (pd 0 (by omega))]
      simp [stairX, stairY]
    · rw [if_neg k0, if_neg k0]
      have b1 : (j - 1) / 2 ≤ N := by omega
      have b2 : (j - 1) / 2 + 1 ≤ N := by omega
      by_cases k1 : j % 2 = 1
      · rw [if_pos k1]
        by_cases ke : (j - 1) / 2 % 2 = 0
        · rw [if_pos ke, if_pos (by simp [k1, ke]), xr_step, loss_horiz (pd _ b1) (pd _ b2), (stair_even ke).1]
          congr 1; ring
        · rw [if_neg ke, if_neg (by simp [k1, ke]), xr_step, loss_vert (pd _ b1) (pd _ b2), (stair_odd ke).2]
          congr 1; ring
      · rw [if_neg k1]
        have e1 : lineStart h ((j - 1) / 2) = ptData h ((j - 1) / 2) := by unfold lineStart; rw [hl _ (by omega)]
        have e2 : lineEnd h ((j - 1) / 2) = ptData h ((j - 1) / 2 + 1) := by unfold lineEnd; rw [hl _ (by omega)]
        rw [pd _ b1] at e1
        rw [pd _ b2] at e2
        by_cases ke : (j - 1) / 2 % 2 = 0
        · rw [if_pos ke, if_neg (by simp [k1, ke]), loss_horizLine e1 e2, (stair_even ke).2]
          congr 1; ring
        · rw [if_neg ke, if_pos (by simp [k1, ke]), loss_vertLine e1 e2, (stair_odd ke).1]
          congr 1; ring
  rw [getLoss_of_sum hloss, hlen]
  have pair : ∀ i, f (2 * i + 1) + f (2 * i + 2) = ((a (i + 1) - a i) ^ 2 + (c (i + 1) - c i) ^ 2) / 2 := by
    intro i
    simp only [f]
    rw [if_neg (show ¬2 * i + 1 = 0 by omega), if_neg (show ¬2 * i + 2 = 0 by omega), show (2 * i + 1 - 1) / 2 = i by omega,
      show (2 * i + 2 - 1) / 2 = i by omega]
    by_cases ke : i % 2 = 0
    · simp [ke]; ring
    · simp [ke]; ring
  have S : ∀ m, ∑ j ∈ Finset.range (2 * m + 1), f j = (chain a m + chain c m) / 2 := by
    intro m
    induction m with
    | zero => simp [f, chain]
    | succ m ih =>
      rw [show 2 * (m + 1) + 1 = 2 * m + 1 + 1 + 1 by ring, Finset.sum_range_succ, Finset.sum_range_succ, add_assoc, ih, pair m]
      unfold chain
      rw [Finset.sum_range_succ, Finset.sum_range_succ]
      ring
  rw [S]

theorem stairs_nodup (N : Nat) : (stairs N).sketch.cells.Nodup := by
  simp only [stairs, stairsWorld, layout, Sketch.cells, List.map_append, List.map_map]
  rw [List.nodup_append]
  refine ⟨List.nodup_range.map fun a b e => ?_, List.nodup_range.map fun a b e => ?_, ?_⟩
  · simpa using e
  · simpa using e
  · intro a ha b hb
    simp only [List.mem_map, List.mem_range, Function.comp_apply] at ha hb
    obtain ⟨i, -, rfl⟩ := ha
    obtain ⟨j, -, rfl⟩ := hb
    simp

theorem stairs_dofs (N : Nat) : (stairs N).sketch.dofs = (List.range (N + 1)).flatMap (fun i => [Dof.px i, Dof.py i]) := by
  simp only [stairs, stairsWorld, layout, Sketch.dofs, Sketch.cells, List.map_append, List.map_map, List.flatMap_append,
    List.flatMap_map, Function.comp_def, dofs]
  simp

theorem stairs_mem {N i : Nat} (hi : i ≤ N) : Dof.px i ∈ (stairs N).sketch.dofs ∧ Dof.py i ∈ (stairs N).sketch.dofs := by
  rw [stairs_dofs]
  constructor <;> exact List.mem_flatMap.2 ⟨i, List.mem_range.2 (by omega), by simp⟩

theorem stairs_closed (N : Nat) (hN : 2 * (N + 1) ≤ 2 ^ 64) : Closed (stairs N) := by
  obtain ⟨b, hb, -, -, -, -, hc⟩ := C63_stairs_build (F := XR) (by rw [xr_zero]; rfl) (by rw [xr_step]; rfl) (N + 1) (by omega) hN
  obtain rfl := stairs_xr (by omega) hN hb
  exact hc

theorem stairsCons_linear (k : Nat) : IsLinear (stairsCons k : Constraint XR) := by
  unfold stairsCons
  split_ifs
  · exact .inl trivial
  all_goals exact .inr trivial

theorem stairs_linear {N : Nat} {h : Heap XR} (hr : SameRefs (stairs N).heap h) :
    ∀ k ∈ (stairs N).sketch.cons, IsLinear (h.cons k) := by
  intro k hk
  have hk : k < 2 * N + 1 := by simpa [stairs, stairsWorld, layout] using hk
  rw [hr.cons, stairs_cons_get _ _ _ _ hk]
  exact stairsCons_linear k

theorem stairs_finite {N : Nat} {h : Heap XR} (hr : SameRefs (stairs N).heap h)
    (hd : ∀ x ∈ getData h (stairs N).sketch, Num.isFinite x = true) : FiniteSketch h (stairs N).sketch := by
  refine ⟨hd, fun k hk x hx => ?_⟩
  have hk : k < 2 * N + 1 := by simpa [stairs, stairsWorld, layout] using hk
  rw [hr.cons, stairs_cons_get _ _ _ _ hk] at hx
  unfold stairsCons at hx
  split_ifs at hx <;> simp only [consParams, List.mem_cons, List.not_mem_nil, or_false] at hx
  · rcases hx with rfl | rfl <;> (rw [xr_zero]; rfl)
  · subst hx; rw [xr_step]; rfl
  · subst hx; rw [xr_step]; rfl

/-- where the degrees of freedom of the stairs belong -/
noncomputable def stairsGoal : Dof → ℝ
  | .px i => stairX i
  | .py i => stairY i
  | _ => 0

theorem stairs_lossAfter {N : Nat} {h : Heap XR} (hr : SameRefs (stairs N).heap h) (t : Dof → ℝ) :
    lossAfter h (stairs N).sketch (vecOf h _ t) =
      (chain (fun i => t (.px i) - stairX i) N + chain (fun i => t (.py i) - stairY i) N) / 2 := by
  obtain ⟨H, e, r, ed⟩ := setData_vec (h := h) (stairs_nodup N) (vecOf h _ t)
  have pd : ∀ i ≤ N, ptData H i = ⟨fin (stairX i + (t (.px i) - stairX i)), fin (stairY i + (t (.py i) - stairY i))⟩ := by
    intro i hi
    obtain ⟨m1, m2⟩ := stairs_mem hi
    have h1 := val_of_data ed m1
    have h2 := val_of_data ed m2
    rw [coordOf_vecOf _ m1] at h1
    rw [coordOf_vecOf _ m2] at h2
    simp only [val] at h1 h2
    unfold ptData
    rcases hp : (H.points i).data with ⟨x, y⟩
    rw [hp] at h1 h2
    simp only at h1 h2
    rw [h1, h2]
    simp
  unfold lossAfter
  rw [e]
  dsimp only
  rw [stairs_loss (hr.trans r) pd]
  rfl

theorem stairs_dot {N : Nat} {h : Heap XR} (t u : Dof → ℝ) :
    vecOf h (stairs N).sketch t ⬝ᵥ vecOf h (stairs N).sketch u =
      ∑ i ∈ Finset.range (N + 1), t (.px i) * u (.px i) + ∑ i ∈ Finset.range (N + 1), t (.py i) * u (.py i) := by
  rw [dot_vecOf, stairs_dofs, sum_flatMap', ← Finset.sum_add_distrib]
  simp only [List.map_cons, List.map_nil, List.sum_cons, List.sum_nil, add_zero]
  rw [Finset.sum_range, ← List.sum_ofFn, List.ofFn_eq_map, ← List.map_coe_finRange_eq_range, List.map_map]
  rfl

theorem stairs_squeezed {N : Nat} {h : Heap XR} (hr : SameRefs (stairs N).heap h) :
    Squeezed h (stairs N).sketch (2 / ((N + 1) * (N + 2))) 4 := by
  have hP : (0 : ℝ) < (N + 1) * (N + 2) := by positivity
  constructor
  · intro v
    obtain ⟨t, rfl⟩ := exists_vecOf (stairs_nodup N) v
    refine ⟨vecOf h _ stairsGoal, ?_, ?_⟩
    · rw [stairs_lossAfter hr]
      simp [stairsGoal, chain]
    · rw [vecOf_sub, stairs_dot, stairs_lossAfter hr]
      have h1 := chain_low (fun i => t (.px i) - stairX i) N
      have h2 := chain_low (fun i => t (.py i) - stairY i) N
      simp only [pow_two] at h1 h2
      simp only [stairsGoal]
      rw [div_mul_eq_mul_div, div_le_iff₀ hP]
      linarith
  · intro v v0 e0
    obtain ⟨t, rfl⟩ := exists_vecOf (stairs_nodup N) v
    obtain ⟨t0, rfl⟩ := exists_vecOf (stairs_nodup N) v0
    rw [stairs_lossAfter hr] at e0
    have n1 := chain_nonneg (fun i => t0 (.px i) - stairX i) N
    have n2 := chain_nonneg (fun i => t0 (.py i) - stairY i) N
    have z1 : chain (fun i => t0 (.px i) - stairX i) N = 0 := by linarith
    have z2 : chain (fun i => t0 (.py i) - stairY i) N = 0 := by linarith
    have s1 := chain_low (fun i => t0 (.px i) - stairX i) N
    have s2 := chain_low (fun i => t0 (.py i) - stairY i) N
    rw [z1, mul_zero] at s1
    rw [z2, mul_zero] at s2
    have q1 : ∀ i ∈ Finset.range (N + 1), t0 (.px i) = stairX i := by
      intro i hi
      have := (Finset.sum_eq_zero_iff_of_nonneg fun i _ => sq_nonneg _).1 (le_antisymm s1 (Finset.sum_nonneg fun i _ => sq_nonneg _)) i hi
      exact sub_eq_zero.1 (pow_eq_zero_iff (two_ne_zero) |>.1 this)
    have q2 : ∀ i ∈ Finset.range (N + 1), t0 (.py i) = stairY i := by
      intro i hi
      have := (Finset.sum_eq_zero_iff_of_nonneg fun i _ => sq_nonneg _).1 (le_antisymm s2 (Finset.sum_nonneg fun i _ => sq_nonneg _)) i hi
      exact sub_eq_zero.1 (pow_eq_zero_iff (two_ne_zero) |>.1 this)
    rw [vecOf_sub, stairs_dot, stairs_lossAfter hr]
    have h1 := chain_high (fun i => t (.px i) - stairX i) N
    have h2 := chain_high (fun i => t (.py i) - stairY i) N
    simp only [pow_two] at h1 h2
    have r1 : ∑ i ∈ Finset.range (N + 1), (t (.px i) - t0 (.px i)) * (t (.px i) - t0 (.px i)) =
        ∑ i ∈ Finset.range (N + 1), (t (.px i) - stairX i) * (t (.px i) - stairX i) :=
      Finset.sum_congr rfl fun i hi => by rw [q1 i hi]
    have r2 : ∑ i ∈ Finset.range (N + 1), (t (.py i) - t0 (.py i)) * (t (.py i) - t0 (.py i)) =
        ∑ i ∈ Finset.range (N + 1), (t (.py i) - stairY i) * (t (.py i) - stairY i) :=
      Finset.sum_congr rfl fun i hi => by rw [q2 i hi]
    rw [r1, r2]
    linarith

/-- **C72.** Gradient descent on stairs of up to 75 points, from every finite start: it returns `Ok`, every step reduces the loss
at least by the factor `1 - 1.9998e-4 / (n (n + 1))`, and with enough iterations the loss gets below `min_loss` (or below
`n (n + 1) min_grad² / 4`, where the gradient is below `min_grad`). -/
theorem C72_stairs {n : Nat} (h1 : 0 < n) (hn : n ≤ 75) {b : Bench XR} (hb : stairsNew n = some b) {h : Heap XR}
    (hr : SameRefs b.world.heap h) (hd : ∀ x ∈ getData h b.world.sketch, Num.isFinite x = true) {ml mg : ℝ} (hml : 0 < ml)
    (hmg : 0 < mg) :
    (∀ k, (gdSolve ⟨k, fin ml, fin mg⟩ h b.world.sketch).res = .ok ∧
      ∃ L0 L1 : ℝ, getLoss h b.world.sketch = fin L0 ∧ getLoss (gdSolve ⟨k, fin ml, fin mg⟩ h b.world.sketch).heap b.world.sketch = fin L1 ∧
        L1 ≤ (1 - 1.9998e-4 / (n * (n + 1))) ^ (gdSolve ⟨k, fin ml, fin mg⟩ h b.world.sketch).steps.length * L0) ∧
    ∃ N, ∀ k ≥ N, ∃ L1 : ℝ, getLoss (gdSolve ⟨k, fin ml, fin mg⟩ h b.world.sketch).heap b.world.sketch = fin L1 ∧
      (L1 < ml ∨ 4 * L1 < n * (n + 1) * mg ^ 2) := by
  obtain ⟨N, rfl⟩ : ∃ N, n = N + 1 := ⟨n - 1, by omega⟩
  have hN : 2 * (N + 1) ≤ 2 ^ 64 := by omega
  obtain rfl := stairs_xr h1 hN hb
  have hP : (0 : ℝ) < (N + 1) * (N + 2) := by positivity
  have hN' : ((N : ℝ) + 1) * (N + 2) ≤ 5700 := by
    have : (N : ℝ) ≤ 74 := by exact_mod_cast (show N ≤ 74 by omega)
    nlinarith
  have lo : 0.1 ≤ 2 / (((N : ℝ) + 1) * (N + 2)) * 1.5 ^ 14 := by
    rw [div_mul_eq_mul_div, le_div_iff₀ hP]
    norm_num
    linarith
  have hi : (4 : ℝ) ≤ 1.9998 * 2 ^ 14 := by norm_num
  have hM : 2 / (((N : ℝ) + 1) * (N + 2)) ≤ 4 := by
    rw [div_le_iff₀ hP]
    nlinarith
  have hc : Closed ⟨h, (stairs N).sketch⟩ := (stairs_closed N hN).sameRefs hr
  have A := fun k => C72_converges (stairs_nodup N) hc (stairs_finite hr hd) (stairs_linear hr) (stairs_squeezed hr) lo hi hM k hmg
    (ml := ml)
  obtain ⟨K, B⟩ := C72_enough (stairs_nodup N) hc (stairs_finite hr hd) (stairs_linear hr) (stairs_squeezed hr) lo hi hM hml hmg
  refine ⟨fun k => ?_, K, fun k hk => ?_⟩
  · obtain ⟨L0, L1, e0, i1, e1, -, -, i2, -⟩ := A k
    refine ⟨i1, L0, L1, e0, e1, ?_⟩
    have : (1 - 1.9998e-4 / (((N + 1 : ℕ) : ℝ) * ((N + 1 : ℕ) + 1))) = 1 - 3.9996e-4 * (2 / (((N : ℝ) + 1) * (N + 2)) / 4) := by
      push_cast
      rw [show (N : ℝ) + 1 + 1 = N + 2 by ring]
      ring
    rw [this]
    exact i2
  · obtain ⟨-, L1, e1, i2⟩ := B k hk
    refine ⟨L1, e1, i2.imp_right fun hh => ?_⟩
    rw [show 2 * (2 / (((N : ℝ) + 1) * (N + 2))) * L1 = 4 * L1 / ((N + 1) * (N + 2)) by ring, div_lt_iff₀ hP] at hh
    push_cast
    linarith

/-! ## A start where it fails -/

theorem chain_add (e z : ℕ → ℝ) (N : Nat) :
    chain (fun i => e i + z i) N = chain e N + 2 * (e 0 * z 0 + ∑ i ∈ Finset.range N, (e (i + 1) - e i) * (z (i + 1) - z i)) + chain z N := by
  unfold chain
  rw [mul_add, Finset.mul_sum]
  have : ∑ i ∈ Finset.range N, (e (i + 1) + z (i + 1) - (e i + z i)) ^ 2 =
      ∑ i ∈ Finset.range N, (e (i + 1) - e i) ^ 2 + ∑ i ∈ Finset.range N, 2 * ((e (i + 1) - e i) * (z (i + 1) - z i)) +
        ∑ i ∈ Finset.range N, (z (i + 1) - z i) ^ 2 := by
    rw [← Finset.sum_add_distrib, ← Finset.sum_add_distrib]
    exact Finset.sum_congr rfl fun i _ => by ring
  rw [this]
  ring

/-- the residuals of the bad start -/
noncomputable def badRes (N i : Nat) : ℝ := (((N : ℝ) + 1) * (N + 2) - i * (i + 1)) / 2

/-- its displacements -/
noncomputable def badOff (N i : Nat) : ℝ := ∑ k ∈ Finset.range (i + 1), badRes N k

theorem badOff_succ (N i : Nat) : badOff N (i + 1) - badOff N i = badRes N (i + 1) := by
  unfold badOff
  rw [Finset.sum_range_succ _ (i + 1)]
  ring

/-- summation by parts -/
theorem bad_parts (N : Nat) (z : ℕ → ℝ) :
    badOff N 0 * z 0 + ∑ i ∈ Finset.range N, (badOff N (i + 1) - badOff N i) * (z (i + 1) - z i) =
      ∑ i ∈ Finset.range (N + 1), ((i : ℝ) + 1) * z i := by
  have : ∀ m, badOff N 0 * z 0 + ∑ i ∈ Finset.range m, (badOff N (i + 1) - badOff N i) * (z (i + 1) - z i) =
      ∑ i ∈ Finset.range m, ((i : ℝ) + 1) * z i + badRes N m * z m := by
    intro m
    induction m with
    | zero => simp [badOff]
    | succ m ih =>
      rw [Finset.sum_range_succ, Finset.sum_range_succ, badOff_succ, ← add_assoc, ih]
      unfold badRes
      push_cast
      ring
  rw [this N, Finset.sum_range_succ]
  congr 2
  unfold badRes
  ring

theorem sum_squares (N : Nat) : ∑ i ∈ Finset.range (N + 1), ((i : ℝ) + 1) * ((i : ℝ) + 1) = (N + 1) * (N + 2) * (2 * N + 3) / 6 := by
  induction N with
  | zero => norm_num
  | succ N ih =>
    rw [Finset.sum_range_succ, ih]
    push_cast
    ring

/-- the gradient of the bad start -/
noncomputable def badGrad : Dof → ℝ
  | .px i => i + 1
  | _ => 0

/-- **C72.** For stairs of 93 or more points there is a start from which gradient descent with default parameters returns
`Err(SearchFailed)` without one accepted step: only the horizontal coordinates are wrong, by finite amounts, and fifteen trials do not
enlarge the step enough. -/
theorem C72_stairs_fails {n : Nat} (h1 : 93 ≤ n) (hn : 2 * n ≤ 2 ^ 64) {b : Bench XR} (hb : stairsNew n = some b) :
    ∃ h, SameRefs b.world.heap h ∧ (∀ x ∈ getData h b.world.sketch, Num.isFinite x = true) ∧
      (gdSolve GDParams.default h b.world.sketch).res = .err .searchFailed ∧ (gdSolve GDParams.default h b.world.sketch).steps = [] := by
  obtain ⟨N, rfl⟩ : ∃ N, n = N + 1 := ⟨n - 1, by omega⟩
  obtain rfl := stairs_xr (by omega) hn hb
  let h : Heap XR := { (stairs N).heap with
    points := fun p => ⟨⟨fin (stairX p + badOff N p), fin (stairY p)⟩, Vec2.zeros⟩ }
  have hr : SameRefs (stairs N).heap h :=
    ⟨rfl, rfl, fun _ => rfl, fun _ => rfl, fun _ => rfl, rfl, rfl, rfl, rfl, rfl⟩
  let t : Dof → ℝ := fun d => match d with
    | .px i => stairX i + badOff N i
    | .py i => stairY i
    | _ => 0
  have hq : getData h (stairs N).sketch = vec (vecOf h (stairs N).sketch t) := by
    rw [getData_dofs]
    apply List.ext_getElem
    · simp [vec, dofs_length h]
    · intro j k1 k2
      simp only [vec, vecOf, List.getElem_map, List.getElem_ofFn]
      have hj : j < (stairs N).sketch.dofs.length := by simpa using k1
      have hm := List.getElem_mem hj
      generalize (stairs N).sketch.dofs[j] = d at hm
      rw [stairs_dofs] at hm
      obtain ⟨i, -, hi⟩ := List.mem_flatMap.1 hm
      simp only [List.mem_cons, List.not_mem_nil, or_false] at hi
      rcases hi with rfl | rfl <;> rfl
  have hd : ∀ x ∈ getData h (stairs N).sketch, Num.isFinite x = true := by
    intro x hx
    rw [hq] at hx
    obtain ⟨i, rfl⟩ := List.mem_ofFn.1 hx
    rfl
  refine ⟨h, hr, hd, ?_⟩
  have hc : Closed ⟨h, (stairs N).sketch⟩ := (stairs_closed N hn).sameRefs hr
  have hf := stairs_finite hr hd
  have hl := stairs_linear hr
  obtain ⟨m, R, c, l⟩ := exists_linAt (stairs_nodup N) hc hf hl
  -- the gradient
  have hgrad : quadGrad R c (vecOf h _ t) = vecOf h _ badGrad := by
    have key : ∀ z, (quadGrad R c (vecOf h _ t) - vecOf h _ badGrad) ⬝ᵥ z = 0 := by
      intro z
      obtain ⟨u, rfl⟩ := exists_vecOf (stairs_nodup N) z
      have a1 := quad_add R c (vecOf h _ t) (vecOf h _ u)
      have a2 := quad_add R c (vecOf h _ stairsGoal) (vecOf h _ u)
      have z0 : quad R c (vecOf h _ stairsGoal) = 0 := by
        rw [← l.lossAfter, stairs_lossAfter hr]
        simp [stairsGoal, chain]
      have z1 : R *ᵥ vecOf h _ stairsGoal - c = 0 := by
        unfold quad at z0
        exact dotProduct_self_eq_zero.1 ((div_eq_zero_iff.1 z0).resolve_right (by norm_num))
      have z2 : quadGrad R c (vecOf h _ stairsGoal) = 0 := by
        unfold quadGrad
        rw [z1, mulVec_zero]
      rw [z0, z2, zero_dotProduct] at a2
      rw [← l.lossAfter, vecOf_add, stairs_lossAfter hr] at a1 a2
      rw [← l.lossAfter, stairs_lossAfter hr] at a1
      have b1 := chain_add (badOff N) (fun i => u (.px i)) N
      have b0 := bad_parts N (fun i => u (.px i))
      rw [b0] at b1
      have b2 : (fun i => t (.px i) + u (.px i) - stairX i) = fun i => badOff N i + u (.px i) := by
        funext i; simp only [t]; ring
      have b3 : (fun i => t (.py i) + u (.py i) - stairY i) = fun i => u (.py i) := by
        funext i; simp only [t]; ring
      have b4 : (fun i => t (.px i) - stairX i) = badOff N := by
        funext i; simp only [t]; ring
      have b5 : (fun i => t (.py i) - stairY i) = fun _ => 0 := by
        funext i; simp only [t]; ring
      have b6 : (fun i => stairsGoal (.px i) + u (.px i) - stairX i) = fun i => u (.px i) := by
        funext i; simp only [stairsGoal]; ring
      have b7 : (fun i => stairsGoal (.py i) + u (.py i) - stairY i) = fun i => u (.py i) := by
        funext i; simp only [stairsGoal]; ring
      have b8 : chain (fun _ => 0) N = 0 := by simp [chain]
      rw [b2, b3, b4, b5, b8, b1] at a1
      rw [b6, b7] at a2
      rw [sub_dotProduct, stairs_dot]
      simp only [badGrad, zero_mul, Finset.sum_const_zero, add_zero]
      linarith
    exact sub_eq_zero.1 (dotProduct_self_eq_zero.1 (key _))
  obtain ⟨eL, h2, g2, e2⟩ := l.at (SameRefs.refl h) hq
  rw [hgrad] at e2
  have hG : vecOf h (stairs N).sketch badGrad ⬝ᵥ vecOf h (stairs N).sketch badGrad = ((N : ℝ) + 1) * (N + 2) * (2 * N + 3) / 6 := by
    rw [stairs_dot]
    simp only [badGrad, zero_mul, Finset.sum_const_zero, add_zero]
    exact sum_squares N
  have hGp : (0 : ℝ) < ((N : ℝ) + 1) * (N + 2) * (2 * N + 3) / 6 := by positivity
  have hg0 : vecOf h (stairs N).sketch badGrad ≠ 0 := by
    intro e
    rw [e, zero_dotProduct] at hG
    linarith
  have hQ : (R *ᵥ vecOf h (stairs N).sketch badGrad) ⬝ᵥ (R *ᵥ vecOf h (stairs N).sketch badGrad) = (N : ℝ) + 1 := by
    have a2 := quad_add R c (vecOf h _ stairsGoal) (vecOf h _ badGrad)
    have z0 : quad R c (vecOf h _ stairsGoal) = 0 := by
      rw [← l.lossAfter, stairs_lossAfter hr]
      simp [stairsGoal, chain]
    have z1 : R *ᵥ vecOf h _ stairsGoal - c = 0 := by
      unfold quad at z0
      exact dotProduct_self_eq_zero.1 ((div_eq_zero_iff.1 z0).resolve_right (by norm_num))
    have z2 : quadGrad R c (vecOf h _ stairsGoal) = 0 := by
      unfold quadGrad
      rw [z1, mulVec_zero]
    rw [z0, z2, zero_dotProduct, ← l.lossAfter, vecOf_add, stairs_lossAfter hr] at a2
    have b6 : (fun i => stairsGoal (.px i) + badGrad (.px i) - stairX i) = fun i : ℕ => (i : ℝ) + 1 := by
      funext i; simp only [stairsGoal, badGrad]; ring
    have b7 : (fun i => stairsGoal (.py i) + badGrad (.py i) - stairY i) = fun _ => 0 := by
      funext i; simp only [stairsGoal, badGrad]; ring
    rw [b6, b7] at a2
    have b8 : chain (fun _ => 0) N = 0 := by simp [chain]
    have b9 : chain (fun i : ℕ => (i : ℝ) + 1) N = N + 1 := by simp [chain]; ring
    rw [b8, b9] at a2
    linarith
  have hN : (92 : ℝ) ≤ N := by exact_mod_cast (show 92 ≤ N by omega)
  refine C71_gd_fails (stairs_nodup N) hc hf hl hq e2 hg0 (.inl ?_) _ (by simp [GDParams.default]) ?_ ?_
  · rw [l.bend_eq hgrad.symm, hQ, hG, div_mul_eq_mul_div, div_lt_iff₀ hGp]
    have k1 : (1.5 : ℝ) ^ 14 < 292 := by norm_num
    have k2 : (17578 : ℝ) ≤ (N + 2) * (2 * N + 3) := by nlinarith
    have k3 : (0 : ℝ) < N + 1 := by positivity
    generalize (1.5 : ℝ) ^ 14 = w at *
    nlinarith [mul_le_mul_of_nonneg_left k2 k3.le, mul_lt_mul_of_pos_left k1 k3]
  · rw [normL_vec, hG]
    simp only [GDParams.default, sci, lt_fin, decide_eq_false_iff_not, not_lt]
    apply Real.le_sqrt_of_sq_le
    have k1 : (1 : ℝ) ≤ N + 1 := by linarith
    have k2 : (6 : ℝ) ≤ (N + 2) * (2 * N + 3) := by nlinarith
    have k3 : (6 : ℝ) ≤ (N + 1) * ((N + 2) * (2 * N + 3)) := by nlinarith
    norm_num
    linarith
  · rw [eL, ← l.lossAfter, stairs_lossAfter hr]
    simp only [GDParams.default, sci, lt_fin, decide_eq_false_iff_not, not_lt]
    have c1 := chain_nonneg (fun i => t (.py i) - stairY i) N
    have c2 := chain_mono (fun i => t (.px i) - stairX i) (Nat.zero_le N)
    have c3 : chain (fun i => t (.px i) - stairX i) 0 = (((N : ℝ) + 1) * (N + 2) / 2) ^ 2 := by
      simp [chain, t, badOff, badRes]
    have c4 : (1 : ℝ) ≤ ((N : ℝ) + 1) * (N + 2) / 2 := by nlinarith
    have c5 : (1 : ℝ) ≤ (((N : ℝ) + 1) * (N + 2) / 2) ^ 2 := one_le_pow₀ c4
    norm_num
    linarith

/-! ## Examples -/

/-- the start of the benchmark is finite -/
theorem stairs_start {N : Nat} : ∀ x ∈ getData (stairs N).heap (stairs N).sketch, Num.isFinite x = true := by
  intro x hx
  rw [getData_dofs, stairs_dofs] at hx
  obtain ⟨d, hd, rfl⟩ := List.mem_map.1 hx
  obtain ⟨i, hi, hd⟩ := List.mem_flatMap.1 hd
  have hi : i < N + 1 := List.mem_range.1 hi
  simp only [List.mem_cons, List.not_mem_nil, or_false] at hd
  rcases hd with rfl | rfl
  all_goals
    simp only [val, stairs, stairsWorld, layout, if_pos hi, Point2.new]
    rw [xr_zero]
    rfl

/-- C72: the benchmark with 50 points, from its own start, with default parameters -/
example : ∃ b : Bench XR, stairsNew 50 = some b ∧ (gdSolve GDParams.default b.world.heap b.world.sketch).res = .ok := by
  obtain ⟨b, hb, -⟩ := C63_stairs_build (F := XR) (by rw [xr_zero]; rfl) (by rw [xr_step]; rfl) 50 (by norm_num) (by norm_num)
  refine ⟨b, hb, ?_⟩
  obtain rfl := stairs_xr (by norm_num) (by norm_num) hb
  have e : (GDParams.default : GDParams XR) = ⟨10000, fin 1e-14, fin 1e-10⟩ := rfl
  rw [e]
  exact ((C72_stairs (by norm_num) (by norm_num) hb (SameRefs.refl _) stairs_start (by norm_num) (by norm_num)).1 10000).1

/-- C72: there are stairs of 100 points (a size of the benchmark) with a start that fails -/
example : ∃ (b : Bench XR) (h : Heap XR), stairsNew 100 = some b ∧
    (gdSolve GDParams.default h b.world.sketch).res = .err .searchFailed := by
  obtain ⟨b, hb, -⟩ := C63_stairs_build (F := XR) (by rw [xr_zero]; rfl) (by rw [xr_step]; rfl) 100 (by norm_num) (by norm_num)
  obtain ⟨h, -, -, e, -⟩ := C72_stairs_fails (by norm_num) (by norm_num) hb
  exact ⟨b, h, hb, e⟩

/-- C72: the hypothesis of `C72_converges` and `C72_enough` for ten points -/
example : Squeezed (stairs 9).heap (stairs 9).sketch (2 / ((9 + 1) * (9 + 2))) 4 ∧ (0.1 : ℝ) ≤ 2 / ((9 + 1) * (9 + 2)) * 1.5 ^ 14 ∧
    (4 : ℝ) ≤ 1.9998 * 2 ^ 14 := by
  refine ⟨?_, by norm_num, by norm_num⟩
  have := stairs_squeezed (N := 9) (SameRefs.refl _)
  push_cast at this
  exact this

end Isotope
