import Verif.Lemmas.Conflict
import Verif.Props.Loss
import Verif.Lemmas.ExFix
import Verif.Lemmas.SketchResid

/-!
# Which constraints are in conflict (C93)

`README.md:112-126` proposes to show the user the constraints with a non-zero loss as those in conflict.  For constraints on
coordinates (fixed points, horizontal and vertical distances, horizontal and vertical lines), where `get_gradient` vanishes:
every constraint shown is in conflict with others shown, and which ones are shown does not depend on the solver or its start.
Not every constraint in conflict is shown.
-/

namespace Isotope
open XR
open Matrix

variable {h : Heap XR} {s : Sketch}

theorem sum_count {V : Type} [AddCommGroup V] [Module ℝ V] (l : List Nat) (f : Nat → V) :
    (l.map f).sum = ∑ k ∈ l.toFinset, (l.count k : ℝ) • f k := by
  rw [Finset.sum_list_map_count]
  refine Finset.sum_congr rfl fun k _ => ?_
  rw [Nat.cast_smul_eq_nsmul]

theorem loss_zero_iff (hf : FiniteCons h c) (hl : IsLinear c) : lossValue h c = fin 0 ↔ MetBy h (placeOf h) c := by
  rw [ax_loss hf hl, metBy_iff hl, Fin.forall_fin_two]
  constructor
  · intro e
    have := XR.fin.inj e
    have h1 := sq_nonneg (axErr h (placeOf h) 0 c)
    have h2 := sq_nonneg (axErr h (placeOf h) 1 c)
    exact ⟨pow_eq_zero_iff (two_ne_zero) |>.1 (by linarith), pow_eq_zero_iff (two_ne_zero) |>.1 (by linarith)⟩
  · rintro ⟨e1, e2⟩
    rw [e1, e2]; norm_num

/-- **C93.** Where the gradient vanishes, every constraint with a non-zero loss belongs to a minimal conflict: a set of constraints
of the sketch, all with non-zero losses, that cannot be met together, but can as soon as any one of them is left out. -/
theorem C93_conflict (hc : Closed ⟨h, s⟩) (hf : FiniteSketch h s) (hl : ∀ k ∈ s.cons, IsLinear (h.cons k)) (hr : AtRest h s)
    {k : Nat} (hk : k ∈ s.cons) (hp : lossValue h (h.cons k) ≠ fin 0) :
    ∃ M : Finset Nat, k ∈ M ∧ (∀ j ∈ M, j ∈ s.cons ∧ lossValue h (h.cons j) ≠ fin 0) ∧ MinimalConflict h M := by
  have hfc := hf.cons hc
  obtain ⟨a, ha⟩ : ∃ a, axErr h (placeOf h) a (h.cons k) ≠ 0 := by
    by_contra hh
    push Not at hh
    exact hp ((loss_zero_iff (hfc k hk) (hl k hk)).2 ((metBy_iff (hl k hk) _).2 hh))
  have hz := hr.sum hc hf hl a
  rw [sum_count] at hz
  obtain ⟨I, hI, hkI, he, hi, hq⟩ := conflict_axis (K := s.cons.toFinset) (w := fun k => (s.cons.count k : ℝ))
    (e := fun k => axErr h (placeOf h) a (h.cons k)) (goal := fun k => axGoal a (h.cons k))
    (v := fun k => axRow h a (h.cons k)) (x := fun p => placeOf h p a)
    (fun j hj => by
      have := List.count_pos_iff.2 (List.mem_toFinset.1 hj)
      exact_mod_cast this) (fun _ => rfl) hz (List.mem_toFinset.2 hk) ha
  have hI' : ∀ j ∈ I, j ∈ s.cons := fun j hj => List.mem_toFinset.1 (hI hj)
  have hlI : ∀ j ∈ insert k I, IsLinear (h.cons j) := by
    intro j hj
    rcases Finset.mem_insert.1 hj with rfl | hj
    · exact hl _ hk
    · exact hl _ (hI' j hj)
  have bad : ¬Compatible h ((insert k I : Finset Nat) : Set Nat) := by
    rintro ⟨q, hq'⟩
    refine hq ⟨fun p => q p a, fun j hj => ?_⟩
    exact sub_eq_zero.1 ((metBy_iff (hlI j hj) q).1 (hq' j hj) a)
  have good : Compatible h (((insert k I : Finset Nat) : Set Nat) \ {k}) := by
    obtain ⟨q, hq'⟩ := met_both a (fun j hj => hl j (hI' j hj)) hi
    refine ⟨q, fun j hj => hq' j ?_⟩
    have := Finset.mem_insert.1 (Finset.mem_coe.1 hj.1)
    exact Finset.mem_coe.2 (this.resolve_left hj.2)
  obtain ⟨M, hM, hkM, hmin⟩ := exists_minimal bad good
  refine ⟨M, hkM, fun j hj => ?_, hmin⟩
  rcases Finset.mem_insert.1 (hM hj) with rfl | hj
  · exact ⟨hk, hp⟩
  · refine ⟨hI' j hj, fun hh => he j hj ?_⟩
    exact (metBy_iff (hl j (hI' j hj)) _).1 ((loss_zero_iff (hfc j (hI' j hj)) (hl j (hI' j hj))).1 hh) a

/-- **C93.** Where the gradient vanishes, the constraints of the sketch can be met together exactly if the loss is zero; if not, those
with non-zero losses alone cannot, so that resolving the conflict means giving up at least one of them. -/
theorem C93_detects (hc : Closed ⟨h, s⟩) (hf : FiniteSketch h s) (hl : ∀ k ∈ s.cons, IsLinear (h.cons k)) (hr : AtRest h s) :
    (Compatible h {k | k ∈ s.cons} ↔ getLoss h s = fin 0) ∧
    (getLoss h s ≠ fin 0 → ¬Compatible h {k | k ∈ s.cons ∧ lossValue h (h.cons k) ≠ fin 0}) := by
  have hfc := hf.cons hc
  have hz := C15_zero_iff h s
  have key : getLoss h s ≠ fin 0 → ¬Compatible h {k | k ∈ s.cons ∧ lossValue h (h.cons k) ≠ fin 0} := by
    intro hne
    rw [Ne, hz] at hne
    push Not at hne
    obtain ⟨k, hk, hp⟩ := hne
    obtain ⟨M, -, hM, hmin, -⟩ := C93_conflict hc hf hl hr hk hp
    rintro ⟨q, hq⟩
    exact hmin ⟨q, fun j hj => hq j (hM j hj)⟩
  refine ⟨⟨fun ⟨q, hq⟩ => ?_, fun e => ?_⟩, key⟩
  · by_contra hne
    exact key hne ⟨q, fun j hj => hq j hj.1⟩
  · exact ⟨placeOf h, fun k hk => (loss_zero_iff (hfc k hk) (hl k hk)).1 (hz.1 e k hk)⟩

theorem axRow_congr {h' : Heap XR} (r : SameRefs h h') (a : Fin 2) (c : Constraint XR) : axRow h' a c = axRow h a c := by
  cases c <;> simp [axRow, r.lines]

theorem axErr_congr {h' : Heap XR} (r : SameRefs h h') (q : Nat → Fin 2 → ℝ) (a : Fin 2) (c : Constraint XR) :
    axErr h' q a c = axErr h q a c := by
  unfold axErr; rw [axRow_congr r]

/-- **C93.** Which constraints have non-zero losses does not depend on how the sketch came to rest: in any two positions with vanishing
gradient every constraint has the same loss. -/
theorem C93_unique {h' : Heap XR} (hc : Closed ⟨h, s⟩) (hf : FiniteSketch h s) (hl : ∀ k ∈ s.cons, IsLinear (h.cons k))
    (r : SameRefs h h') (hf' : FiniteSketch h' s) (hr : AtRest h s) (hr' : AtRest h' s) {k : Nat} (hk : k ∈ s.cons) :
    lossValue h' (h'.cons k) = lossValue h (h.cons k) := by
  have hc' := hc.sameRefs r
  have hl' : ∀ k ∈ s.cons, IsLinear (h'.cons k) := fun k hk => by rw [r.cons]; exact hl k hk
  have key : ∀ a, axErr h' (placeOf h') a (h'.cons k) = axErr h (placeOf h) a (h.cons k) := by
    intro a
    have z := hr.sum hc hf hl a
    have z' := hr'.sum hc' hf' hl' a
    rw [r.cons] at z' ⊢
    simp only [axErr_congr r, axRow_congr r] at z' ⊢
    rw [sum_count] at z z'
    set e := fun k => axErr h (placeOf h) a (h.cons k) with ee
    set e' := fun k => axErr h (placeOf h') a (h.cons k) with ee'
    -- the difference of the two sums, applied to the difference of the positions
    have d1 := congrArg (Finsupp.linearCombination ℝ (fun p => placeOf h p a)) z
    have d2 := congrArg (Finsupp.linearCombination ℝ (fun p => placeOf h' p a)) z
    have d3 := congrArg (Finsupp.linearCombination ℝ (fun p => placeOf h p a)) z'
    have d4 := congrArg (Finsupp.linearCombination ℝ (fun p => placeOf h' p a)) z'
    simp only [map_sum, map_smul, smul_eq_mul, map_zero] at d1 d2 d3 d4
    have s0 : ∑ k ∈ s.cons.toFinset, (s.cons.count k : ℝ) * (e' k - e k) ^ 2 = 0 := by
      have : ∑ k ∈ s.cons.toFinset, (s.cons.count k : ℝ) * (e' k - e k) ^ 2 =
          ((∑ k ∈ s.cons.toFinset, (s.cons.count k : ℝ) * (e k * Finsupp.linearCombination ℝ (fun p => placeOf h p a) (axRow h a (h.cons k)))) -
          (∑ k ∈ s.cons.toFinset, (s.cons.count k : ℝ) * (e k * Finsupp.linearCombination ℝ (fun p => placeOf h' p a) (axRow h a (h.cons k))))) -
          ((∑ k ∈ s.cons.toFinset, (s.cons.count k : ℝ) * (e' k * Finsupp.linearCombination ℝ (fun p => placeOf h p a) (axRow h a (h.cons k)))) -
          (∑ k ∈ s.cons.toFinset, (s.cons.count k : ℝ) * (e' k * Finsupp.linearCombination ℝ (fun p => placeOf h' p a) (axRow h a (h.cons k))))) := by
        rw [← Finset.sum_sub_distrib, ← Finset.sum_sub_distrib, ← Finset.sum_sub_distrib]
        refine Finset.sum_congr rfl fun k _ => ?_
        simp only [ee, ee', axErr]
        ring
      rw [this, d1, d2, d3, d4]; norm_num
    have := (Finset.sum_eq_zero_iff_of_nonneg (fun k _ => by positivity)).1 s0 k (List.mem_toFinset.2 hk)
    have hpos : (0 : ℝ) < s.cons.count k := by exact_mod_cast List.count_pos_iff.2 hk
    have h2 := (mul_eq_zero.1 this).resolve_left hpos.ne'
    exact sub_eq_zero.1 (pow_eq_zero_iff (two_ne_zero) |>.1 h2)
  rw [ax_loss (hf'.cons hc' k hk) (hl' k hk), ax_loss (hf.cons hc k hk) (hl k hk), key, key]

/-- **C93.** At any position, also short of rest: if the constraints can be met by moving to `y`, then twice the loss is the product of the
gradient with the way back from `y`.  So the loss is at most half the length of the gradient times the distance to the nearest
solution, and a larger loss at a small gradient shows that there is no solution near. -/
theorem C93_certificate (hn : s.cells.Nodup) (hc : Closed ⟨h, s⟩) (hf : FiniteSketch h s) (hl : ∀ k ∈ s.cons, IsLinear (h.cons k))
    {x y g : Fin (getNDofs h s) → ℝ} {L : ℝ} {h1 h2 : Heap XR} (hx : getData h s = vec x) (hL : getLoss h s = fin L)
    (hg : getGradient h s = .ok (vec g, h1)) (hy : setData h s (vec y) = .ok h2) (hs : getLoss h2 s = fin 0) :
    2 * L = ∑ i, g i * (x i - y i) ∧ L ^ 2 ≤ (∑ i, g i ^ 2) * (∑ i, (x i - y i) ^ 2) / 4 := by
  obtain ⟨m, R, b, sys⟩ := linear_system hn hc hl
  obtain ⟨h2', e2, r2, d2⟩ := setData_vec (h := h) hn y
  have e2' : setData h s (vec y) = .ok h2' := e2
  rw [hy] at e2'
  cases e2'
  have hf2 : FiniteSketch h2 s := finite_at hf.2 r2 (v := y) d2
  obtain ⟨l1, h3, -, g1⟩ := sys h (SameRefs.refl h) hf x hx
  obtain ⟨l2, -⟩ := sys h2 r2 hf2 y d2
  rw [hL] at l1
  rw [hs] at l2
  rw [hg] at g1
  have l1 := XR.fin.inj l1
  have l2 := XR.fin.inj l2
  have g1 : vec g = vec (Rᵀ *ᵥ (R *ᵥ x - b)) := (Prod.mk.inj (Except.ok.inj g1)).1
  have g2 : g = Rᵀ *ᵥ (R *ᵥ x - b) := by
    funext i
    have := List.ofFn_injective g1
    exact XR.fin.inj (congrFun this i)
  have hz : R *ᵥ y - b = 0 := by
    rw [← dotProduct_self_eq_zero]; linarith
  have key : 2 * L = ∑ i, g i * (x i - y i) := by
    have e : R *ᵥ x - b = R *ᵥ (x - y) := by
      rw [mulVec_sub, ← sub_eq_zero.1 hz]
    have : ∑ i, g i * (x i - y i) = g ⬝ᵥ (x - y) := rfl
    rw [this, g2, mulVec_transpose, ← dotProduct_mulVec, ← e, l1]
    ring
  refine ⟨key, ?_⟩
  have cs := Finset.sum_mul_sq_le_sq_mul_sq Finset.univ g (fun i => x i - y i)
  rw [← key] at cs
  linarith

/-! ### Constraints in conflict that the loss does not show -/

/-- the distance asked for by the `k`-th constraint of the example -/
noncomputable def clashGoal (k : Nat) : ℝ := if k = 0 then 0 else if k = 1 then 2 else 1

/-- points 0 and 1 at `(t, 0)` and `(t + 1, 0)`, with horizontal distances 0, 2 and 1 asked for -/
noncomputable def clashHeap (t : ℝ) : Heap XR :=
  { (Heap.empty : Heap XR) with
    points := fun p => ⟨⟨fin (if p = 0 then t else t + 1), fin 0⟩, ⟨fin 0, fin 0⟩⟩
    cons := fun k => .horizDist 0 1 (fin (clashGoal k))
    nPoints := 2
    nCons := 3 }

/-- the sketch with those points and constraints -/
def clashSketch : Sketch := ⟨[(0, .point 0), (1, .point 1)], 2, [0, 1, 2]⟩

variable (t : ℝ)

theorem clash_closed : Closed ⟨clashHeap t, clashSketch⟩ := by
  refine ⟨fun c hc => ?_, fun k hk => ?_⟩
  · simp [clashSketch, Sketch.cells] at hc
    rcases hc with rfl | rfl <;> simp [primFields]
  · intro c hcc
    simp [clashHeap, consFields] at hcc
    rcases hcc with rfl | rfl <;> simp [clashSketch, Sketch.cells]

theorem clash_data : getData (clashHeap t) clashSketch = [fin t, fin 0, fin (t + 1), fin 0] := by
  simp [getData, getNDofs, clashSketch, clashHeap, primData, zerosVec, blit]

theorem clash_finite : FiniteSketch (clashHeap t) clashSketch := by
  refine ⟨fun x hx => ?_, fun k hk x hx => ?_⟩
  · rw [clash_data] at hx
    simp at hx
    rcases hx with rfl | rfl | rfl | rfl <;> rfl
  · simp only [clashHeap, consParams, List.mem_cons, List.not_mem_nil, or_false] at hx
    subst hx; rfl

theorem clash_linear : ∀ k ∈ clashSketch.cons, IsLinear ((clashHeap t).cons k) := fun _ _ => .inr trivial

theorem clash_loss {k : Nat} (hk : k ∈ clashSketch.cons) : lossValue (clashHeap t) ((clashHeap t).cons k) = fin ((1 - clashGoal k) ^ 2 / 2) := by
  rw [ax_loss ((clash_finite t).cons (clash_closed t) k hk) (clash_linear t k hk)]
  simp [axErr, axRow, axGoal, clashHeap, placeOf]

theorem clash_rest : AtRest (clashHeap t) clashSketch := by
  have hfc := (clash_finite t).cons (clash_closed t)
  obtain ⟨h', -, -, e⟩ := (getGradient_exact (clashHeap t) clashSketch hfc).1 fun k hk => linear_not_eqLen (clash_linear t k hk)
  refine ⟨_, h', e, fun x hx => ?_⟩
  obtain ⟨d, hd, rfl⟩ := List.mem_map.1 hx
  congr 1
  rw [total_flatMap]
  obtain ⟨a, p, rfl⟩ : ∃ a p, d = axDof a p := by
    have hd : d = .px 0 ∨ d = .py 0 ∨ d = .px 1 ∨ d = .py 1 := by
      simpa [clashSketch, Sketch.dofs, Sketch.cells, dofs] using hd
    rcases hd with rfl | rfl | rfl | rfl
    exacts [⟨0, 0, rfl⟩, ⟨1, 0, rfl⟩, ⟨0, 1, rfl⟩, ⟨1, 1, rfl⟩]
  rw [List.map_congr_left fun k hk => ax_total (hfc k hk) (clash_linear t k hk) a p]
  fin_cases a
  · simp [clashSketch, axErr, axRow, axGoal, clashHeap, placeOf, clashGoal]
    ring
  · simp [clashSketch, axErr, axRow, axGoal, clashHeap, placeOf]

/-- **C93.** Not every constraint in conflict is shown, contrary to `README.md:120-124`: of horizontal distances 0, 2 and 1 asked for
between two points the third contradicts the first, and each alone could be met, but where the sketch comes to rest the third has
loss 0. -/
theorem C93_blind : Closed ⟨clashHeap t, clashSketch⟩ ∧ FiniteSketch (clashHeap t) clashSketch ∧
    (∀ k ∈ clashSketch.cons, IsLinear ((clashHeap t).cons k)) ∧ AtRest (clashHeap t) clashSketch ∧
    2 ∈ clashSketch.cons ∧ MinimalConflict (clashHeap t) {0, 2} ∧ lossValue (clashHeap t) ((clashHeap t).cons 2) = fin 0 := by
  refine ⟨clash_closed t, clash_finite t, clash_linear t, clash_rest t, by simp [clashSketch], ⟨?_, ?_⟩, ?_⟩
  · rintro ⟨q, hq⟩
    have h0 : q 1 0 - q 0 0 = clashGoal 0 := hq 0 (by simp)
    have h2 : q 1 0 - q 0 0 = clashGoal 2 := hq 2 (by simp)
    rw [h0] at h2
    norm_num [clashGoal] at h2
  · have one : ∀ i, Compatible (clashHeap t) {i} := fun i =>
      ⟨fun p _ => if p = 0 then 0 else clashGoal i, fun k hk => by
        rw [Set.mem_singleton_iff.1 hk]
        show (if 1 = 0 then (0 : ℝ) else clashGoal i) - (if 0 = 0 then 0 else clashGoal i) = clashGoal i
        norm_num⟩
    intro j hj
    have mono : ∀ {T U : Set Nat}, T ⊆ U → Compatible (clashHeap t) U → Compatible (clashHeap t) T :=
      fun hh ⟨q, hq⟩ => ⟨q, fun k hk => hq k (hh hk)⟩
    rcases hj with rfl | hj
    · refine mono (fun i hi => ?_) (one 2)
      rcases hi.1 with e | e
      · exact absurd e hi.2
      · exact e
    · rw [Set.mem_singleton_iff] at hj
      subst hj
      refine mono (fun i hi => ?_) (one 0)
      rcases hi.1 with e | e
      · exact e
      · exact absurd e hi.2
  · rw [clash_loss t (by simp [clashSketch])]; norm_num [clashGoal]

/-- the hypotheses of `C93_conflict` hold for this sketch, whose first constraint has loss 1/2 -/
example : ∃ M : Finset Nat, 0 ∈ M ∧
    (∀ j ∈ M, j ∈ clashSketch.cons ∧ lossValue (clashHeap t) ((clashHeap t).cons j) ≠ fin 0) ∧ MinimalConflict (clashHeap t) M :=
  C93_conflict (clash_closed t) (clash_finite t) (clash_linear t) (clash_rest t) (by simp [clashSketch]) (by
    rw [clash_loss t (by simp [clashSketch])]; intro e; have := XR.fin.inj e; norm_num [clashGoal] at this)

/-- `C93_detects` applied to it: its three constraints cannot be met together -/
example : ¬Compatible (clashHeap t) {k | k ∈ clashSketch.cons} := by
  rw [(C93_detects (clash_closed t) (clash_finite t) (clash_linear t) (clash_rest t)).1, C15_zero_iff]
  intro hh
  have := hh 0 (by simp [clashSketch])
  rw [clash_loss t (by simp [clashSketch])] at this
  have := XR.fin.inj this
  norm_num [clashGoal] at this

/-- `C93_unique` applied to two places where it rests -/
example {k : Nat} (hk : k ∈ clashSketch.cons) :
    lossValue (clashHeap 5) ((clashHeap 5).cons k) = lossValue (clashHeap 0) ((clashHeap 0).cons k) :=
  C93_unique (h' := clashHeap 5) (clash_closed 0) (clash_finite 0) (clash_linear 0)
    ⟨rfl, rfl, fun _ => rfl, fun _ => rfl, fun _ => rfl, rfl, rfl, rfl, rfl, rfl⟩ (clash_finite 5) (clash_rest 0) (clash_rest 5) hk

/-- `C93_certificate` applied to a point at the origin that is to be at `(3, 4)` -/
example : 2 * ((25 : ℝ) / 2) = ∑ i : Fin 2, (![-3, -4] : Fin 2 → ℝ) i * ((![0, 0] : Fin 2 → ℝ) i - (![3, 4] : Fin 2 → ℝ) i) :=
  (C93_certificate (h := fixHeap 3 4 0 0 0 0) (s := fixSketch) fixSketch_nodup
    (by
      refine ⟨fun c hc => ?_, fun k hk => ?_⟩
      · simp [fixSketch, Sketch.cells] at hc; subst hc; simp [primFields]
      · simp [fixSketch] at hk; subst hk
        simp [fixHeap, upd, consFields, fixSketch, Sketch.cells])
    (by
      refine ⟨fun x hx => ?_, fun k hk x hx => ?_⟩
      · rw [fix_data] at hx; simp at hx; subst hx; rfl
      · simp [fixSketch] at hk; subst hk
        simp [fixHeap, upd, consParams] at hx
        rcases hx with rfl | rfl <;> rfl)
    (by intro k hk; simp [fixSketch] at hk; subst hk; exact .inl trivial)
    (x := ![0, 0]) (y := ![3, 4]) (g := ![-3, -4]) (L := 25 / 2)
    (by rw [fix_data]; rfl)
    (by rw [fix_loss]; norm_num)
    (h1 := fixHeap 3 4 0 0 (0 - 3) (0 - 4)) (by rw [fix_gradient, show (0 : ℝ) - 3 = -3 by norm_num, show (0 : ℝ) - 4 = -4 by norm_num]; rfl)
    (by show setData _ _ [fin 3, fin 4] = _; rw [fix_setData])
    (by rw [fix_loss]; norm_num)).1

end Isotope
