import Verif.SpecEdit
import Verif.Props.Nearest

/-!
# Small edits move a sketch a little; the outcome does not depend on the solver (C108)

For linear sketches (fixed points, horizontal and vertical distances and lines), in exact arithmetic (`XR`).
-/

namespace Isotope
open XR
open Matrix

variable {h h' : Heap XR} {s : Sketch}

theorem dist2_triangle {n : Nat} (x y z : Fin n → ℝ) : dist2 x z ≤ dist2 x y + dist2 y z := by
  have key : ∀ u v : Fin n → ℝ, dist2 u v = dist (WithLp.toLp 2 u : EuclideanSpace ℝ (Fin n)) (WithLp.toLp 2 v) := by
    intro u v
    rw [EuclideanSpace.dist_eq]
    unfold dist2 distSq
    congr 1
    refine Finset.sum_congr rfl fun i _ => ?_
    rw [Real.dist_eq, sq_abs]
  rw [key, key, key]
  exact dist_triangle _ _ _

theorem dist2_comm {n : Nat} (x y : Fin n → ℝ) : dist2 x y = dist2 y x := by
  unfold dist2 distSq
  congr 1
  exact Finset.sum_congr rfl fun i _ => by ring

/-- the triangle inequality for lists -/
theorem list_minkowski (l : List Nat) (A B C : Nat → ℝ) (hA : ∀ k ∈ l, 0 ≤ A k) (hB : ∀ k ∈ l, 0 ≤ B k)
    (hC : ∀ k ∈ l, √(C k) ≤ √(A k) + √(B k)) (hC0 : ∀ k ∈ l, 0 ≤ C k) : √((l.map C).sum) ≤ √((l.map A).sum) + √((l.map B).sum) := by
  induction l with
  | nil => simp
  | cons k l ih =>
    have ih := ih (fun j hj => hA j (by simp [hj])) (fun j hj => hB j (by simp [hj])) (fun j hj => hC j (by simp [hj]))
      (fun j hj => hC0 j (by simp [hj]))
    have sA : 0 ≤ (l.map A).sum := List.sum_nonneg fun y hy => by
      obtain ⟨j, hj, rfl⟩ := List.mem_map.1 hy
      exact hA j (by simp [hj])
    have sB : 0 ≤ (l.map B).sum := List.sum_nonneg fun y hy => by
      obtain ⟨j, hj, rfl⟩ := List.mem_map.1 hy
      exact hB j (by simp [hj])
    have sC : 0 ≤ (l.map C).sum := List.sum_nonneg fun y hy => by
      obtain ⟨j, hj, rfl⟩ := List.mem_map.1 hy
      exact hC0 j (by simp [hj])
    have a0 := hA k (by simp)
    have b0 := hB k (by simp)
    have c0 := hC0 k (by simp)
    have c1 := hC k (by simp)
    simp only [List.map_cons, List.sum_cons]
    generalize (l.map A).sum = a at *
    generalize (l.map B).sum = b at *
    generalize (l.map C).sum = c at *
    generalize A k = a' at *
    generalize B k = b' at *
    generalize C k = c' at *
    have q1 := Real.sq_sqrt a0
    have q2 := Real.sq_sqrt b0
    have q3 := Real.sq_sqrt c0
    have q4 := Real.sq_sqrt sA
    have q5 := Real.sq_sqrt sB
    have q6 := Real.sq_sqrt sC
    have n1 := Real.sqrt_nonneg a'
    have n2 := Real.sqrt_nonneg b'
    have n3 := Real.sqrt_nonneg c'
    have n4 := Real.sqrt_nonneg a
    have n5 := Real.sqrt_nonneg b
    have n6 := Real.sqrt_nonneg c
    have p1 := Real.sq_sqrt (show 0 ≤ a' + a by linarith)
    have p2 := Real.sq_sqrt (show 0 ≤ b' + b by linarith)
    have m1 := Real.sqrt_nonneg (a' + a)
    have m2 := Real.sqrt_nonneg (b' + b)
    have cs : √a' * √b' + √a * √b ≤ √(a' + a) * √(b' + b) := by
      refine abs_le_of_sq_le_sq' ?_ (by positivity) |>.2
      rw [mul_pow, p1, p2, ← q1, ← q2, ← q4, ← q5]
      simp only [Real.sqrt_sq n1, Real.sqrt_sq n2, Real.sqrt_sq n4, Real.sqrt_sq n5]
      nlinarith [sq_nonneg (√a' * √b - √a * √b')]
    rw [Real.sqrt_le_left (by positivity)]
    have k1 : c' ≤ (√a' + √b') ^ 2 := by rw [← q3]; exact pow_le_pow_left₀ n3 c1 2
    have k2 : c ≤ (√a + √b) ^ 2 := by rw [← q6]; exact pow_le_pow_left₀ n6 ih 2
    nlinarith

/-- setting a desired value or a desired position with the setters of the constraints -/
theorem C108_setter {k : Nat} {call : SetterCall XR} (hcall : (∃ d, call = .desired d) ∨ ∃ d, call = .desiredPos d)
    (hr : call.run h (.cons k) = some h') : EditedTo h h' := by
  have key : ∃ c', Redimensioned (h.cons k) c' ∧ h' = h.setCons k c' := by
    rcases hcall with ⟨d, rfl⟩ | ⟨d, rfl⟩
    · simp only [SetterCall.run, SetterCall.onCons, Option.map_eq_some_iff] at hr
      obtain ⟨c', e, rfl⟩ := hr
      exact ⟨c', .inr (.inl ⟨d, e⟩), rfl⟩
    · simp only [SetterCall.run, SetterCall.onCons, Option.map_eq_some_iff] at hr
      obtain ⟨c', e, rfl⟩ := hr
      exact ⟨c', .inr (.inr ⟨d, e⟩), rfl⟩
  obtain ⟨c', hc, rfl⟩ := key
  refine ⟨rfl, rfl, rfl, rfl, fun j => ?_⟩
  by_cases e : j = k
  · subst e; simpa [Heap.setCons] using hc
  · left; simp [Heap.setCons, upd_apply, e]

theorem editSize_one {k : Nat} {c' : Constraint XR} (hs : s.cons.Nodup) (hk : k ∈ s.cons) :
    editSize h (h.setCons k c') s = √(editSq (h.cons k) c') := by
  have self : ∀ c : Constraint XR, editSq c c = 0 := fun c => by cases c <;> simp [editSq, consParams]
  unfold editSize
  congr 1
  have e : (s.cons.map fun j => editSq (h.cons j) ((h.setCons k c').cons j)) = s.cons.map fun j => if j = k then editSq (h.cons k) c' else 0 :=
    List.map_congr_left fun j _ => by
      by_cases q : j = k
      · subst q; simp [Heap.setCons]
      · rw [if_neg q, ← self (h.cons j)]; simp [Heap.setCons, upd_apply, q]
  rw [e, List.sum_map_ite_eq, List.count_eq_one_of_mem hs hk, one_smul]
  simp

/-- **C108.** The size of an edit is what its arguments say: `set_desired_pos` changes the desired values by the distance of the old and the new
position, and `set_desired_distance` by the difference of the old and the new distance. -/
theorem C108_size {k : Nat} (hs : s.cons.Nodup) (hk : k ∈ s.cons) :
    (∀ (p : Nat) (D d : Vec2 XR), h.cons k = .fix p D → (SetterCall.desiredPos d).run h (.cons k) = some h' →
      editSize h h' s = √((d.x.toReal - D.x.toReal) ^ 2 + (d.y.toReal - D.y.toReal) ^ 2)) ∧
    (∀ (p q : Nat) (D d : XR), h.cons k = .horizDist p q D ∨ h.cons k = .vertDist p q D → (SetterCall.desired d).run h (.cons k) = some h' →
      editSize h h' s = |d.toReal - D.toReal|) := by
  refine ⟨fun p D d hc hr => ?_, fun p q D d hc hr => ?_⟩
  · simp only [SetterCall.run, SetterCall.onCons, Option.map_eq_some_iff, hc, Constraint.setDesiredPos, Option.some.injEq, exists_eq_left'] at hr
    subst hr
    rw [editSize_one hs hk, hc]
    simp [editSq, consParams]
  · rcases hc with hc | hc <;>
    · simp only [SetterCall.run, SetterCall.onCons, Option.map_eq_some_iff, hc, Constraint.setDesired, Option.some.injEq, exists_eq_left'] at hr
      subst hr
      rw [editSize_one hs hk, hc]
      simp [editSq, consParams, Real.sqrt_sq_eq_abs]

theorem Redimensioned.isLinear {c c' : Constraint XR} (r : Redimensioned c c') (hl : IsLinear c) : IsLinear c' := by
  rcases r with rfl | ⟨d, e⟩ | ⟨d, e⟩
  · exact hl
  · have hl' : IsFix c ∨ IsDiff c := hl
    cases c <;> simp only [Constraint.setDesired, Option.some.injEq, reduceCtorEq] at e <;> subst e <;>
      simp only [IsFix, IsDiff, or_self] at hl' <;> exact .inr trivial
  · cases c <;> simp only [Constraint.setDesiredPos, Option.some.injEq, reduceCtorEq] at e
    subst e
    exact .inl trivial

theorem Redimensioned.fields {c c' : Constraint XR} (r : Redimensioned c c') : consFields c' = consFields c := by
  rcases r with rfl | ⟨d, e⟩ | ⟨d, e⟩
  · rfl
  · cases c <;> simp only [Constraint.setDesired, Option.some.injEq, reduceCtorEq] at e <;> subst e <;> rfl
  · cases c <;> simp only [Constraint.setDesiredPos, Option.some.injEq, reduceCtorEq] at e
    subst e
    rfl

theorem EditedTo.primFields (e : EditedTo h h') (c : PrimCell) : primFields h' c = Isotope.primFields h c := by
  cases c <;> simp [Isotope.primFields, e.lines, e.arcs, e.circles]

theorem EditedTo.primData (e : EditedTo h h') (c : PrimCell) : primData h' c = Isotope.primData h c := by
  cases c <;> simp [Isotope.primData, e.points, e.arcs, e.circles]

theorem EditedTo.closed (e : EditedTo h h') (hc : Closed ⟨h, s⟩) : Closed ⟨h', s⟩ := by
  refine ⟨fun c hcc r hr => hc.1 c hcc r ?_, fun k hk r hr => hc.2 k hk r ?_⟩
  · rwa [← e.primFields]
  · rwa [← (e.cons k).fields]

theorem EditedTo.getData (e : EditedTo h h') : getData h' s = Isotope.getData h s := by
  unfold Isotope.getData getNDofs
  simp only [e.primData]

theorem editSq_nonneg (c c' : Constraint XR) : 0 ≤ editSq c c' := by
  refine List.sum_nonneg fun y hy => ?_
  rw [← List.map_uncurry_zip_eq_zipWith] at hy
  obtain ⟨p, -, rfl⟩ := List.mem_map.1 hy
  simp only [Function.uncurry]
  positivity

theorem Redimensioned.goals {c c' : Constraint XR} (r : Redimensioned c c') (hl : IsLinear c) :
    (axGoal 0 c' - axGoal 0 c) ^ 2 + (axGoal 1 c' - axGoal 1 c) ^ 2 = editSq c c' := by
  have hl' : IsFix c ∨ IsDiff c := hl
  rcases r with rfl | ⟨d, e⟩ | ⟨d, e⟩
  · cases c' <;> simp [editSq, consParams]
  · cases c <;> simp only [Constraint.setDesired, Option.some.injEq, reduceCtorEq] at e <;> subst e <;>
      simp only [IsFix, IsDiff, or_self] at hl' <;> simp [editSq, consParams, axGoal]
  · cases c <;> simp only [Constraint.setDesiredPos, Option.some.injEq, reduceCtorEq] at e
    subst e
    simp [editSq, consParams, axGoal]

theorem Redimensioned.row {c c' : Constraint XR} (r : Redimensioned c c') (a : Fin 2) : axRow h a c' = axRow h a c := by
  rcases r with rfl | ⟨d, e⟩ | ⟨d, e⟩
  · rfl
  · cases c <;> simp only [Constraint.setDesired, Option.some.injEq, reduceCtorEq] at e <;> subst e <;> rfl
  · cases c <;> simp only [Constraint.setDesiredPos, Option.some.injEq, reduceCtorEq] at e
    subst e
    rfl

/-- the triangle inequality in the plane -/
theorem pair_minkowski (x y u v : ℝ) : √((x - u) ^ 2 + (y - v) ^ 2) ≤ √(x ^ 2 + y ^ 2) + √(u ^ 2 + v ^ 2) := by
  have p1 := Real.sq_sqrt (show 0 ≤ x ^ 2 + y ^ 2 by positivity)
  have p2 := Real.sq_sqrt (show 0 ≤ u ^ 2 + v ^ 2 by positivity)
  have m1 := Real.sqrt_nonneg (x ^ 2 + y ^ 2)
  have m2 := Real.sqrt_nonneg (u ^ 2 + v ^ 2)
  have cs : -(x * u + y * v) ≤ √(x ^ 2 + y ^ 2) * √(u ^ 2 + v ^ 2) := by
    refine abs_le_of_sq_le_sq' ?_ (by positivity) |>.2
    rw [mul_pow, p1, p2]
    nlinarith [sq_nonneg (x * v - y * u)]
  rw [Real.sqrt_le_left (by positivity)]
  nlinarith

/-- **C108.** Changing the desired values of constraints (fixed points, horizontal and vertical distances) by `δ` altogether changes the
square root of twice the loss by at most `δ`. -/
theorem C108_loss (hc : Closed ⟨h, s⟩) (hf : FiniteSketch h s) (hl : ∀ k ∈ s.cons, IsLinear (h.cons k)) (e : EditedTo h h')
    (hf' : FiniteSketch h' s) :
    getData h' s = getData h s ∧ ∃ L L' : ℝ, getLoss h s = fin L ∧ getLoss h' s = fin L' ∧ √(2 * L') ≤ √(2 * L) + editSize h h' s := by
  have hc' := e.closed hc
  have hl' : ∀ k ∈ s.cons, IsLinear (h'.cons k) := fun k hk => (e.cons k).isLinear (hl k hk)
  refine ⟨e.getData, _, _, getLoss_fin fun k hk => ⟨_, ax_loss (hf.cons hc k hk) (hl k hk)⟩,
    getLoss_fin fun k hk => ⟨_, ax_loss (hf'.cons hc' k hk) (hl' k hk)⟩, ?_⟩
  rw [← List.sum_map_mul_left, ← List.sum_map_mul_left]
  unfold editSize
  have f : ∀ k ∈ s.cons, 2 * (lossValue h (h.cons k)).toReal = axErr h (placeOf h) 0 (h.cons k) ^ 2 + axErr h (placeOf h) 1 (h.cons k) ^ 2 := by
    intro k hk
    rw [ax_loss (hf.cons hc k hk) (hl k hk), toReal_fin]; ring
  have f' : ∀ k ∈ s.cons, 2 * (lossValue h' (h'.cons k)).toReal =
      (axErr h (placeOf h) 0 (h.cons k) - (axGoal 0 (h'.cons k) - axGoal 0 (h.cons k))) ^ 2 +
      (axErr h (placeOf h) 1 (h.cons k) - (axGoal 1 (h'.cons k) - axGoal 1 (h.cons k))) ^ 2 := by
    intro k hk
    have ep : placeOf h' = placeOf h := by unfold placeOf; rw [e.points]
    have er : ∀ a, axRow h' a (h'.cons k) = axRow h a (h.cons k) := by
      intro a
      rw [← (e.cons k).row]
      generalize h'.cons k = c
      cases c <;> simp [axRow, e.lines]
    rw [ax_loss (hf'.cons hc' k hk) (hl' k hk), toReal_fin, ep]
    unfold axErr
    rw [er, er]
    ring
  refine list_minkowski _ _ _ _ (fun k hk => ?_) (fun k _ => editSq_nonneg _ _) (fun k hk => ?_) (fun k hk => ?_)
  · rw [f k hk]; positivity
  · rw [f k hk, f' k hk, ← (e.cons k).goals (hl k hk)]
    exact pair_minkowski _ _ _ _
  · rw [f' k hk]; positivity

section
variable {q : Fin (getNDofs h s) → ℝ}

/-- **C108.** How far solving moves a linear sketch with at most `N` points: not farther than `N` times the sum of the roots of twice what
the loss exceeds the least one by, before and after.  (By C103, `Straight` holds of the outcome of all four solvers.) -/
theorem C108_moves (hn : s.cells.Nodup) (hc : Closed ⟨h, s⟩) (hf : FiniteSketch h s) (hl : ∀ k ∈ s.cons, IsLinear (h.cons k))
    (hq : getData h s = vec q) {H : Heap XR} (hs : Straight h s q H) {x : Fin (getNDofs h s) → ℝ} (hx : getData H s = vec x)
    {N : Nat} (hN0 : 0 < N) (hN : (pointIds s).length ≤ N) {L0 L1 Lmin : ℝ} (hL0 : getLoss h s = fin L0) (hL1 : getLoss H s = fin L1)
    (hm : IsLeast (Set.range (lossAfter h s)) Lmin) :
    dist2 q x ≤ N * (√(2 * (L0 - Lmin)) + √(2 * (L1 - Lmin))) := by
  obtain ⟨z, hz, -⟩ := C103_nearest hn hc hf hl q
  have e2 : lossAfter h s z = Lmin := hz.1.unique hm
  have k1 := (C103_distance hn hc hf hl hs hx).2 hN0 hN hL1 hz
  have s0 : Straight h s q h := ⟨SameRefs.refl h, q, hq, fun z z' _ _ => by ring⟩
  have k0 := (C103_distance hn hc hf hl s0 hq).2 hN0 hN hL0 hz
  rw [e2] at k0 k1
  have key : ∀ (y : Fin (getNDofs h s) → ℝ) (L : ℝ), distSq y z ≤ 2 * N ^ 2 * (L - Lmin) → dist2 y z ≤ N * √(2 * (L - Lmin)) := by
    intro y L hh
    unfold dist2
    rw [Real.sqrt_le_left (by positivity)]
    have : 0 ≤ distSq y z := Finset.sum_nonneg fun i _ => sq_nonneg _
    have hNr : (0 : ℝ) < (N : ℝ) ^ 2 := by positivity
    have : 0 ≤ 2 * (L - Lmin) := by
      by_contra hneg
      nlinarith
    rw [mul_pow, Real.sq_sqrt this]
    linarith
  have := dist2_triangle q z x
  rw [dist2_comm z x] at this
  have := key _ _ k0
  have := key _ _ k1
  linarith

/-- **C108.** Two sketches of the same primitives under different constraints (for instance, one of them with further constraints that follow
from the others) that have the same positions with least loss, solved from the same start by any of the four solvers (C103): they end
at the same place, up to the distance that the losses leave.  In particular (`cs = s.cons`), the four solvers end at the same place. -/
theorem C108_same {cs : List Nat} (hn : s.cells.Nodup) (hc : Closed ⟨h, s⟩) (hf : FiniteSketch h s) (hl : ∀ k ∈ s.cons, IsLinear (h.cons k))
    (hc' : Closed ⟨h, { s with cons := cs }⟩) (hf' : FiniteSketch h { s with cons := cs }) (hl' : ∀ k ∈ cs, IsLinear (h.cons k))
    (hb : ∀ z, Best h s z ↔ Best h { s with cons := cs } z)
    {H H' : Heap XR} (hs : Straight h s q H) (hs' : Straight h { s with cons := cs } q H') {x x' : Fin (getNDofs h s) → ℝ}
    (hx : getData H s = vec x) (hx' : getData H' s = vec x')
    {N : Nat} (hN0 : 0 < N) (hN : (pointIds s).length ≤ N) {L L' Lmin Lmin' : ℝ} (hL : getLoss H s = fin L)
    (hL' : getLoss H' { s with cons := cs } = fin L') (hm : IsLeast (Set.range (lossAfter h s)) Lmin)
    (hm' : IsLeast (Set.range (lossAfter h { s with cons := cs })) Lmin') :
    dist2 x x' ≤ N * (√(2 * (L - Lmin)) + √(2 * (L' - Lmin'))) := by
  obtain ⟨z, hz, -⟩ := C103_nearest hn hc hf hl q
  have hz' : Nearest h { s with cons := cs } q z := ⟨(hb z).1 hz.1, fun w hw => hz.2 w ((hb w).2 hw)⟩
  have e2 : lossAfter h s z = Lmin := hz.1.unique hm
  have e2' : lossAfter h { s with cons := cs } z = Lmin' := hz'.1.unique hm'
  have k1 := (C103_distance hn hc hf hl hs hx).2 hN0 hN hL hz
  have k0 := (C103_distance (s := { s with cons := cs }) hn hc' hf' hl' hs' hx').2 hN0 hN hL' hz'
  rw [e2] at k1
  rw [e2'] at k0
  have key : ∀ (y : Fin (getNDofs h s) → ℝ) (D : ℝ), distSq y z ≤ 2 * N ^ 2 * D → dist2 y z ≤ N * √(2 * D) := by
    intro y D hh
    unfold dist2
    rw [Real.sqrt_le_left (by positivity)]
    have : 0 ≤ distSq y z := Finset.sum_nonneg fun i _ => sq_nonneg _
    have hNr : (0 : ℝ) < (N : ℝ) ^ 2 := by positivity
    have : 0 ≤ 2 * D := by
      by_contra hneg
      nlinarith
    rw [mul_pow, Real.sq_sqrt this]
    linarith
  have := dist2_triangle x z x'
  rw [dist2_comm z x'] at this
  have := key _ _ k1
  have := key _ _ k0
  linarith

end

/-- the loss of a run that shrinks towards the least loss -/
theorem least_nonneg (hn : s.cells.Nodup) (hc : Closed ⟨h, s⟩) (hf : FiniteSketch h s) (hl : ∀ k ∈ s.cons, IsLinear (h.cons k)) {Lmin : ℝ}
    (hm : IsLeast (Set.range (lossAfter h s)) Lmin) : 0 ≤ Lmin := by
  obtain ⟨z, e⟩ := hm.1
  rw [← e]
  exact lossAfter_nonneg hn hc hf hl z

theorem shrunk {r a b : ℝ} {n : Nat} (r0 : 0 ≤ r) (r1 : r ≤ 1) (hb : 0 ≤ b) (hh : a ≤ r ^ n * b) : a ≤ b :=
  hh.trans (mul_le_of_le_one_left hb (pow_le_one₀ r0 r1))

section
variable {q : Fin (getNDofs h' s) → ℝ}

/-- **C108.** A linear sketch with at most 54 points has the loss `L`; desired values are changed by `δ` altogether; then it is solved with
gradient descent, with any parameters.  Nothing moves farther than `2 N (√(2 L) + δ)`. -/
theorem C108_gd_edit (hn : s.cells.Nodup) (hc : Closed ⟨h, s⟩) (hf : FiniteSketch h s) (hl : ∀ k ∈ s.cons, IsLinear (h.cons k))
    (e : EditedTo h h') (hf' : FiniteSketch h' s) {N : Nat} (hN : (pointIds s).length ≤ N) (hN0 : 0 < N) (hN1 : N ≤ 54)
    (hK : s.cons.length ≤ 16382) (hq : getData h s = vec q) {L : ℝ} (hL : getLoss h s = fin L) (n : Nat) {ml mg : ℝ} (hmg : 0 < mg) :
    (gdSolve ⟨n, fin ml, fin mg⟩ h' s).res = .ok ∧
    ∃ x : Fin (getNDofs h' s) → ℝ, getData (gdSolve ⟨n, fin ml, fin mg⟩ h' s).heap s = vec x ∧
      ∃ L1, getLoss (gdSolve ⟨n, fin ml, fin mg⟩ h' s).heap s = fin L1 ∧ √(2 * L1) ≤ √(2 * L) + editSize h h' s ∧
      dist2 q x ≤ N * (√(2 * L) + editSize h h' s + √(2 * L1)) := by
  obtain ⟨ed, L', L0, hL', hL0, hb⟩ := C108_loss hc hf hl e hf'
  obtain rfl : L' = L := XR.fin.inj (hL'.symm.trans hL)
  have hc' := e.closed hc
  have hl' : ∀ k ∈ s.cons, IsLinear (h'.cons k) := fun k hk => (e.cons k).isLinear (hl k hk)
  have hq' : getData h' s = vec q := by rw [ed, hq]
  obtain ⟨L00, L1, Lmin, hm, e0, ok, e1, -, hshr, -⟩ := C94_gd hn hc' hf' hl' hN hN0 hN1 hK (by norm_num) le_rfl n hmg (ml := ml)
  obtain rfl : L00 = L0 := XR.fin.inj (e0.symm.trans hL0)
  obtain ⟨-, hs, -⟩ := C103_gd hn hc' hf' hl' hq' ⟨n, fin ml, fin mg⟩
  obtain ⟨r, x, ex, hd⟩ := hs
  have mv := C108_moves hn hc' hf' hl' hq' ⟨r, x, ex, hd⟩ ex hN0 hN e0 e1 hm
  have m0 := least_nonneg hn hc' hf' hl' hm
  have b0 : 0 ≤ L00 - Lmin := by
    obtain ⟨m, R, b, l⟩ := exists_linAt hn hc' hf' hl'
    have := hm.2 ⟨q, rfl⟩
    rw [l.lossAfter, ← XR.fin.inj (e0.symm.trans (l.at (SameRefs.refl h') hq').1)] at this
    linarith
  have hNr : (1 : ℝ) ≤ N := by exact_mod_cast hN0
  have hsm : L1 - Lmin ≤ L00 - Lmin := by
    refine shrunk ?_ ?_ b0 hshr
    · rw [sub_nonneg, div_le_one (by positivity)]
      have : (1 : ℝ) ≤ (N : ℝ) ^ 2 := by nlinarith
      norm_num
      linarith
    · rw [sub_le_self_iff]
      positivity
  have t1 : √(2 * (L00 - Lmin)) ≤ √(2 * L00) := Real.sqrt_le_sqrt (by linarith)
  have t2 : √(2 * (L1 - Lmin)) ≤ √(2 * L1) := Real.sqrt_le_sqrt (by linarith)
  have t3 : √(2 * L1) ≤ √(2 * L00) := Real.sqrt_le_sqrt (by linarith)
  refine ⟨ok, x, ex, L1, e1, t3.trans hb, mv.trans (mul_le_mul_of_nonneg_left ?_ (by positivity))⟩
  linarith

/-- **C108.** The same for BFGS. -/
theorem C108_bfgs_edit (hn : s.cells.Nodup) (hc : Closed ⟨h, s⟩) (hf : FiniteSketch h s) (hl : ∀ k ∈ s.cons, IsLinear (h.cons k))
    (e : EditedTo h h') (hf' : FiniteSketch h' s) {N : Nat} (hN : (pointIds s).length ≤ N) (hN0 : 0 < N) (hN1 : N ≤ 54)
    (hK : s.cons.length ≤ 16382) (hq : getData h s = vec q) {L : ℝ} (hL : getLoss h s = fin L) {n : Nat} (hn1 : n ≤ 10 ^ 10) {ml gt : ℝ}
    (hgt : 0 < gt) :
    (bfgsSolve ⟨n, fin ml, fin gt⟩ h' s).res = .ok ∧
    ∃ x : Fin (getNDofs h' s) → ℝ, getData (bfgsSolve ⟨n, fin ml, fin gt⟩ h' s).heap s = vec x ∧
      ∃ L1, getLoss (bfgsSolve ⟨n, fin ml, fin gt⟩ h' s).heap s = fin L1 ∧ √(2 * L1) ≤ √(2 * L) + editSize h h' s ∧
      dist2 q x ≤ N * (√(2 * L) + editSize h h' s + √(2 * L1)) := by
  obtain ⟨ed, L', L0, hL', hL0, hb⟩ := C108_loss hc hf hl e hf'
  obtain rfl : L' = L := XR.fin.inj (hL'.symm.trans hL)
  have hc' := e.closed hc
  have hl' : ∀ k ∈ s.cons, IsLinear (h'.cons k) := fun k hk => (e.cons k).isLinear (hl k hk)
  have hq' : getData h' s = vec q := by rw [ed, hq]
  obtain ⟨L00, L1, Lmin, hm, e0, ok, -, e1, -, hshr, -⟩ := C94_bfgs hn hc' hf' hl' hN hN0 hN1 hK (by norm_num) le_rfl hn1 hgt (ml := ml)
  obtain rfl : L00 = L0 := XR.fin.inj (e0.symm.trans hL0)
  obtain ⟨-, hs, -⟩ := C103_bfgs hn hc' hf' hl' hq' ⟨n, fin ml, fin gt⟩
  obtain ⟨r, x, ex, hd⟩ := hs
  have mv := C108_moves hn hc' hf' hl' hq' ⟨r, x, ex, hd⟩ ex hN0 hN e0 e1 hm
  have m0 := least_nonneg hn hc' hf' hl' hm
  have b0 : 0 ≤ L00 - Lmin := by
    obtain ⟨m, R, b, l⟩ := exists_linAt hn hc' hf' hl'
    have := hm.2 ⟨q, rfl⟩
    rw [l.lossAfter, ← XR.fin.inj (e0.symm.trans (l.at (SameRefs.refl h') hq').1)] at this
    linarith
  have hNr : (1 : ℝ) ≤ N := by exact_mod_cast hN0
  have hsm : L1 - Lmin ≤ L00 - Lmin := by
    refine shrunk ?_ ?_ b0 hshr
    · rw [sub_nonneg, div_le_one (by positivity)]
      have : (1 : ℝ) ≤ (N : ℝ) ^ 2 := by nlinarith
      norm_num
      linarith
    · rw [sub_le_self_iff]
      positivity
  have t1 : √(2 * (L00 - Lmin)) ≤ √(2 * L00) := Real.sqrt_le_sqrt (by linarith)
  have t2 : √(2 * (L1 - Lmin)) ≤ √(2 * L1) := Real.sqrt_le_sqrt (by linarith)
  have t3 : √(2 * L1) ≤ √(2 * L00) := Real.sqrt_le_sqrt (by linarith)
  refine ⟨ok, x, ex, L1, e1, t3.trans hb, mv.trans (mul_le_mul_of_nonneg_left ?_ (by positivity))⟩
  linarith

end

section
variable {q : Fin (getNDofs h s) → ℝ}

/-- **C108.** Constraints that follow from the others: if the two sets of constraints have the same solutions, and there are any, then the
sketches end within `N (√(2 L) + √(2 L'))` of each other. -/
theorem C108_redundant {cs : List Nat} (hn : s.cells.Nodup) (hc : Closed ⟨h, s⟩) (hf : FiniteSketch h s)
    (hl : ∀ k ∈ s.cons, IsLinear (h.cons k)) (hc' : Closed ⟨h, { s with cons := cs }⟩) (hf' : FiniteSketch h { s with cons := cs })
    (hl' : ∀ k ∈ cs, IsLinear (h.cons k)) (hsol : ∃ z, lossAfter h s z = 0)
    (hb : ∀ z, lossAfter h s z = 0 ↔ lossAfter h { s with cons := cs } z = 0)
    {H H' : Heap XR} (hs : Straight h s q H) (hs' : Straight h { s with cons := cs } q H') {x x' : Fin (getNDofs h s) → ℝ}
    (hx : getData H s = vec x) (hx' : getData H' s = vec x')
    {N : Nat} (hN0 : 0 < N) (hN : (pointIds s).length ≤ N) {L L' : ℝ} (hL : getLoss H s = fin L)
    (hL' : getLoss H' { s with cons := cs } = fin L') : dist2 x x' ≤ N * (√(2 * L) + √(2 * L')) := by
  obtain ⟨z0, h0⟩ := hsol
  have h0' := (hb z0).1 h0
  have m0 : IsLeast (Set.range (lossAfter h s)) 0 := ⟨⟨z0, h0⟩, by rintro _ ⟨v, rfl⟩; exact lossAfter_nonneg hn hc hf hl v⟩
  have m0' : IsLeast (Set.range (lossAfter h { s with cons := cs })) 0 :=
    ⟨⟨z0, h0'⟩, by rintro _ ⟨v, rfl⟩; exact lossAfter_nonneg (s := { s with cons := cs }) hn hc' hf' hl' v⟩
  have key := C108_same hn hc hf hl hc' hf' hl' (fun z => ?_) hs hs' hx hx' hN0 hN hL hL' m0 m0'
  · simpa only [sub_zero] using key
  · constructor
    · intro hz
      unfold Best
      rw [(hb z).1 (hz.unique m0)]
      exact m0'
    · intro hz
      unfold Best
      rw [(hb z).2 (hz.unique m0')]
      exact m0

/-- **C108.** Gradient descent and BFGS with their default parameters, both stopping before their limits of iterations: the coordinates they
leave are less than `1e-5 + √(1e-9 n)` apart (`n` coordinates). -/
theorem C108_solvers (hn : s.cells.Nodup) (hc : Closed ⟨h, s⟩) (hf : FiniteSketch h s) (hl : ∀ k ∈ s.cons, IsLinear (h.cons k))
    (hN : (pointIds s).length ≤ 54) (hK : s.cons.length ≤ 16382) (hpos : 0 < getNDofs h s)
    (hg : (gdSolve GDParams.default h s).steps.length < 10000) (hb : (bfgsSolve BFGSParams.default h s).steps.length < 1000) :
    ∃ x x' : Fin (getNDofs h s) → ℝ, getData (gdSolve GDParams.default h s).heap s = vec x ∧
      getData (bfgsSolve BFGSParams.default h s).heap s = vec x' ∧ dist2 x x' < 1e-5 + √(1e-9 * getNDofs h s) := by
  obtain ⟨q, hq⟩ : ∃ q : Fin (getNDofs h s) → ℝ, getData h s = vec q := exists_vec' (List.all_eq_true.2 hf.1) (getData_length h s)
  obtain ⟨z, hz, -⟩ := C103_nearest hn hc hf hl q
  obtain ⟨x, ex, hx⟩ := C103_gd_default hn hc hf hl hN hK hq hz hg
  obtain ⟨x', ex', hx'⟩ := C103_bfgs_default hn hc hf hl hN hK hq hz hpos hb
  refine ⟨x, x', ex, ex', ?_⟩
  have k := dist2_triangle x z x'
  rw [dist2_comm z x'] at k
  have k1 : dist2 x z < 1e-5 := hx
  have k2 : dist2 x' z < √(1e-9 * getNDofs h s) :=
    Real.sqrt_lt_sqrt (Finset.sum_nonneg fun i _ => sq_nonneg _) hx'
  linarith

end

/-! ### Examples -/

/-- C108: a point that is where it should be, at (3, 4), is to be at (6, 8) instead: an edit of size 5 -/
example : ∃ h' : Heap XR, (SetterCall.desiredPos ⟨fin 6, fin 8⟩).run (fixHeap 3 4 3 4 0 0) (.cons 0) = some h' ∧
    EditedTo (fixHeap 3 4 3 4 0 0) h' ∧ FiniteSketch h' fixSketch ∧ editSize (fixHeap 3 4 3 4 0 0) h' fixSketch = 5 ∧
    getLoss (fixHeap 3 4 3 4 0 0) fixSketch = fin 0 ∧
    (∀ k ∈ fixSketch.cons, IsLinear ((fixHeap 3 4 3 4 0 0).cons k)) ∧ (pointIds fixSketch).length ≤ 1 := by
  have er : (SetterCall.desiredPos ⟨fin 6, fin 8⟩).run (fixHeap 3 4 3 4 0 0) (.cons 0) =
      some ((fixHeap 3 4 3 4 0 0).setCons 0 (.fix 0 ⟨fin 6, fin 8⟩)) := rfl
  refine ⟨_, er, C108_setter (.inr ⟨_, rfl⟩) er, ⟨fun x hx => (fix_finite 3 4 3 4 0 0).1 x hx, fun k hk x hx => ?_⟩, ?_, ?_, ?_, by decide⟩
  · obtain rfl : k = 0 := by simpa [fixSketch] using hk
    simp [Heap.setCons, consParams] at hx
    rcases hx with rfl | rfl <;> rfl
  · have e : (fixSketch.cons.map fun k => editSq ((fixHeap 3 4 3 4 0 0).cons k)
        (((fixHeap 3 4 3 4 0 0).setCons 0 (.fix 0 ⟨fin 6, fin 8⟩)).cons k)).sum = 5 ^ 2 := by
      simp [fixSketch, fixHeap, Heap.setCons, editSq, consParams]
      norm_num
    unfold editSize
    rw [e]
    exact Real.sqrt_sq (by norm_num)
  · rw [fix_loss]; norm_num
  · intro k hk
    obtain rfl : k = 0 := by simpa [fixSketch] using hk
    exact .inl trivial

/-- the two points of `clashSketch` under other constraints -/
def clashUnder (cs : List Nat) : Sketch := { clashSketch with cons := cs }

theorem under_after (cs : List Nat) (v : Fin (getNDofs fiveHeap (clashUnder cs)) → ℝ) : lossAfter fiveHeap (clashUnder cs) v =
    (cs.map fun k => (v (2 : Fin 4) - v (0 : Fin 4) - clashGoal k) ^ 2 / 2).sum := by
  have hc := (clash_closed 0).sameRefs five_refs
  have hc' : Closed ⟨fiveHeap, clashUnder cs⟩ := ⟨hc.1, fun k hk => hc.2 0 (by simp [clashSketch])⟩
  have hf' : FiniteSketch fiveHeap (clashUnder cs) := ⟨five_finite.1, fun k hk x hx => by
    simp [fiveHeap, clashHeap, consParams] at hx
    subst hx
    rfl⟩
  have hl' : ∀ k ∈ (clashUnder cs).cons, IsLinear (fiveHeap.cons k) := fun k hk => .inr trivial
  obtain ⟨m, R, b, l⟩ := exists_linAt (h := fiveHeap) (s := clashUnder cs) (show clashSketch.cells.Nodup by decide) hc' hf' hl'
  rw [l.lossAfter, l.quad_eq hc' hl']
  have p0 : placeIn fiveHeap (clashUnder cs) v 0 0 = v (0 : Fin 4) := by
    simp [placeIn, coordOf', axDof, Sketch.dofs, clashSketch, clashUnder, Sketch.cells]
    rfl
  have p1 : placeIn fiveHeap (clashUnder cs) v 1 0 = v (2 : Fin 4) := by
    simp [placeIn, coordOf', axDof, Sketch.dofs, clashSketch, clashUnder, Sketch.cells]
    rfl
  generalize placeIn fiveHeap (clashUnder cs) v = f at *
  rw [← p0, ← p1]
  show (cs.map _).sum = _
  congr 1
  refine List.map_congr_left fun k _ => ?_
  simp [axErr, axRow, axGoal, fiveHeap, clashHeap]

/-- C108: the size of the edit of the example above, from the arguments alone -/
example {h' : Heap XR} (e : (SetterCall.desiredPos ⟨fin 6, fin 8⟩).run (fixHeap 3 4 3 4 0 0) (.cons 0) = some h') :
    editSize (fixHeap 3 4 3 4 0 0) h' fixSketch = √((6 - 3) ^ 2 + (8 - 4) ^ 2) :=
  (C108_size (by simp [fixSketch]) (by simp [fixSketch])).1 0 ⟨fin 3, fin 4⟩ ⟨fin 6, fin 8⟩ rfl e

/-- C108: of the horizontal distances 0, 2 and 1 of two points, only the last one is kept: the positions with least loss are the same -/
example (z : Fin (getNDofs fiveHeap clashSketch) → ℝ) : Best fiveHeap clashSketch z ↔ Best fiveHeap { clashSketch with cons := [2] } z := by
  rw [five_best]
  have e : ∀ w : Fin 4 → ℝ, lossAfter fiveHeap { clashSketch with cons := [2] } w = (w 2 - w 0 - 1) ^ 2 / 2 := fun w =>
    (under_after [2] w).trans (by simp [clashGoal])
  constructor
  · intro hz
    refine ⟨⟨z, rfl⟩, ?_⟩
    rintro _ ⟨w, rfl⟩
    refine ((e z).trans_le ?_).trans (e w).ge
    rw [hz]
    nlinarith [sq_nonneg (w (2 : Fin 4) - w (0 : Fin 4) - 1)]
  · intro hz
    have k := hz.2 ⟨(![0, 0, 1, 0] : Fin 4 → ℝ), e ![0, 0, 1, 0]⟩
    have k := (e z).symm.trans_le k
    simp at k
    generalize z (2 : Fin 4) - z (0 : Fin 4) = t at *
    have := pow_eq_zero_iff (two_ne_zero) |>.1 (le_antisymm (show (t - 1) ^ 2 ≤ 0 by linarith) (sq_nonneg _))
    linarith

/-- C108: the horizontal distance 1 is asked for twice (constraints 2 and 3): the hypotheses of `C108_redundant` -/
example : fiveHeap.cons 3 = fiveHeap.cons 2 ∧ (∃ z, lossAfter fiveHeap (clashUnder [2]) z = 0) ∧
    ∀ z, lossAfter fiveHeap (clashUnder [2]) z = 0 ↔ lossAfter fiveHeap { clashUnder [2] with cons := [2, 3] } z = 0 := by
  refine ⟨by simp [fiveHeap, clashHeap, clashGoal], ⟨(![0, 0, 1, 0] : Fin 4 → ℝ), ?_⟩, fun z => ?_⟩
  · exact (under_after [2] (![0, 0, 1, 0] : Fin 4 → ℝ)).trans (by simp [clashGoal])
  · have e : lossAfter fiveHeap { clashUnder [2] with cons := [2, 3] } z = _ := under_after [2, 3] z
    rw [e, under_after]
    simp [clashGoal]

end Isotope
