import Verif.Props.Stairs
import Verif.Props.Rectangles

/-!
# The "circle" benchmark (C66)
-/

namespace Isotope
open XR

section any
variable {F : Type} [Num F]

/-- the `i`-th reference point -/
def circRef (i : Nat) : Vec2 F := ⟨Num.ofNat ((i + 1) / 2) * 0.8, Num.ofNat (i / 2) * 0.8⟩

/-- the constraints of the circle, in the order of their creation -/
def circCons (n k : Nat) : Constraint F :=
  if k < n then .fix k ⟨(circRef k).x, (circRef k).y⟩
  else if (k - n) % 2 = 0 then .euclid ((k - n) / 2) ((k - n) / 2 + 1) (circRef ((k - n) / 2 + 1) - circRef ((k - n) / 2) : Vec2 F).norm
  else .angle ((k - n) / 2 + 1) (((k - n) / 2 + n - 1) % n) ((k - n) / 2)
    (vecAngle (circRef ((k - n) / 2 + 1) - circRef ((k - n) / 2)) (circRef (((k - n) / 2 + n - 1) % n) - circRef ((k - n) / 2)))

/-- the circle of `n` points after `p` points, `m` lines and `k` constraints -/
def circWorld (n p m k : Nat) : World F :=
  layout (fun i => Point2.new 0.0 (Num.ofNat i / Num.ofNat n)) (fun i => ⟨i, i + 1⟩) (circCons n) p m k

theorem circ_ref {n i : Nat} (h : i < n) : (circlePoints n : List (Vec2 F))[i]? = some (circRef i) := by
  simp [circlePoints, circRef, h]

theorem circ_points (n p : Nat) (hp : p < u64Size) :
    forLoop (circlePoint n) p ((World.init : World F), []) = some (circWorld n p 0 0, List.range p) := by
  induction p with
  | zero => simp [forLoop, circWorld, layout_init]
  | succ p ih =>
    rw [forLoop, ih (by omega)]
    simp only [Option.bind_some, circlePoint]
    rw [circWorld, layout_addPoint (fun i => Point2.new (0.0 : F) (Num.ofNat i / Num.ofNat n)) _ _ p _ (x := 0.0)
      (y := Num.ofNat p / Num.ofNat n) rfl hp]
    simp [unwrapAddr, List.range_succ, circWorld]

theorem circ_fix {n k : Nat} (hk : k < n) (ok : consNewOk (circCons n k : Constraint F) = true) :
    circleFix (circlePoints n) (List.range n) k (circWorld n n 0 k : World F) = some (circWorld n n 0 (k + 1)) := by
  have e : (circCons n k : Constraint F) = .fix k ⟨(circRef k).x, (circRef k).y⟩ := if_pos hk
  rw [e] at ok
  unfold circleFix
  refine bind_step (List.getElem?_range hk) ?_
  refine bind_step (circ_ref hk) ?_
  dsimp only
  rw [circWorld, layout_constrain _ _ _ _ _ _ e ok (by
    intro r hr
    simp only [consFields, List.mem_cons, List.not_mem_nil, or_false] at hr
    subst hr; exact (layout_mem_point _ _ _ _ _ _ _).2 hk)]
  rfl

theorem circ_even (n i : Nat) : (circCons n (n + 2 * i) : Constraint F) = .euclid i (i + 1) (circRef (i + 1) - circRef i : Vec2 F).norm := by
  unfold circCons
  rw [if_neg (by omega), if_pos (by omega), show (n + 2 * i - n) / 2 = i by omega]

theorem circ_odd (n i : Nat) : (circCons n (n + 2 * i + 1) : Constraint F) =
    .angle (i + 1) ((i + n - 1) % n) i (vecAngle (circRef (i + 1) - circRef i) (circRef ((i + n - 1) % n) - circRef i)) := by
  unfold circCons
  rw [if_neg (by omega), if_neg (by omega), show (n + 2 * i + 1 - n) / 2 = i by omega]

theorem circ_step {n i : Nat} (hi : i + 1 < n) (hn : 2 * n ≤ u64Size) (ok : ∀ k < n + 2 * (n - 1), consNewOk (circCons n k : Constraint F) = true) :
    circleStep n (circlePoints n) (List.range n) i (circWorld n n i (n + 2 * i) : World F) =
      some (circWorld n n (i + 1) (n + 2 * (i + 1))) := by
  have hm : (i + n - 1) % n < n := Nat.mod_lt _ (by omega)
  have mp : ∀ {m k a : Nat}, a < n → PrimCell.point a ∈ (circWorld n n m k : World F).sketch.cells :=
    fun h => (layout_mem_point _ _ _ _ _ _ _).2 h
  have ok1 := ok (n + 2 * i) (by omega)
  have ok2 := ok (n + 2 * i + 1) (by omega)
  rw [circ_even] at ok1
  rw [circ_odd] at ok2
  unfold circleStep
  refine bind_step (List.getElem?_range (by omega)) ?_
  refine bind_step (List.getElem?_range hi) ?_
  rw [circWorld, layout_addLine _ (fun i => ⟨i, i + 1⟩) _ _ i _ (s := i) (e := i + 1) rfl (by omega) (by omega) (by omega)]
  refine bind_step rfl ?_
  refine bind_step (circ_ref (by omega)) ?_
  refine bind_step (circ_ref hi) ?_
  rw [layout_constrain _ _ _ _ _ _ (circ_even n i) ok1 (by
    intro r hr
    simp only [consFields, List.mem_cons, List.not_mem_nil, or_false] at hr
    rcases hr with rfl | rfl <;> exact mp (by omega))]
  refine bind_step rfl ?_
  refine bind_step (circ_ref hm) ?_
  refine bind_step (List.getElem?_range hm) ?_
  rw [layout_constrain _ _ _ _ _ _ (circ_odd n i) ok2 (by
    intro r hr
    simp only [consFields, List.mem_cons, List.not_mem_nil, or_false] at hr
    rcases hr with rfl | rfl | rfl <;> exact mp (by omega))]
  rfl

theorem circ_eq {n : Nat} (h1 : 0 < n) (hn : 2 * n ≤ u64Size) (ok : ∀ k < n + 2 * (n - 1), consNewOk (circCons n k : Constraint F) = true) :
    (circleNew n : Option (Bench F)) = some ⟨circWorld n n (n - 1) (n + 2 * (n - 1)), List.range n⟩ := by
  unfold circleNew
  dsimp only
  refine bind_step (circ_points n n (by omega)) ?_
  have fixes : ∀ m, m ≤ n → forLoop (circleFix (circlePoints n) (List.range n)) m (circWorld n n 0 0 : World F) =
      some (circWorld n n 0 m) := by
    intro m
    induction m with
    | zero => intro _; rfl
    | succ m ih =>
      intro hm
      rw [forLoop, ih (by omega), Option.bind_some, circ_fix (by omega) (ok _ (by omega))]
  have steps : ∀ m, m + 1 ≤ n → forLoop (circleStep n (circlePoints n) (List.range n)) m (circWorld n n 0 n : World F) =
      some (circWorld n n m (n + 2 * m)) := by
    intro m
    induction m with
    | zero => intro _; rfl
    | succ m ih =>
      intro hm
      rw [forLoop, ih (by omega), Option.bind_some, circ_step (by omega) hn ok]
  refine bind_step (fixes n le_rfl) ?_
  rw [if_neg (by omega)]
  refine bind_step (steps (n - 1) (by omega)) ?_
  rfl

/-- **C66.** The circle benchmark is built without a panic for every `n ≥ 1` if its reference points, their distances and the angles
between them come out finite.  It has `n` points, `2 n - 1` primitives and `3 n - 2` constraints, and its sketch is closed. -/
theorem C66_circle_build {n : Nat} (h1 : 0 < n) (hn : 2 * n ≤ 2 ^ 64)
    (fr : ∀ p ∈ (circlePoints n : List (Vec2 F)), Num.isFinite p.x = true ∧ Num.isFinite p.y = true)
    (fd : ∀ p ∈ (circlePoints n : List (Vec2 F)), ∀ q ∈ (circlePoints n : List (Vec2 F)), Num.isFinite (q - p).norm = true)
    (fa : ∀ p ∈ (circlePoints n : List (Vec2 F)), ∀ q ∈ (circlePoints n : List (Vec2 F)), ∀ r ∈ (circlePoints n : List (Vec2 F)),
      Num.isFinite (vecAngle (q - p) (r - p)) = true) :
    ∃ b : Bench F, circleNew n = some b ∧ b.points.length = n ∧ b.points.Nodup ∧ b.world.sketch.getNumPrimitives = 2 * n - 1 ∧
      b.world.sketch.getNumConstraints = 3 * n - 2 ∧ Closed b.world := by
  have mem : ∀ i < n, (circRef i : Vec2 F) ∈ (circlePoints n : List (Vec2 F)) := fun i hi => List.mem_of_getElem? (circ_ref hi)
  have ok : ∀ k < n + 2 * (n - 1), consNewOk (circCons n k : Constraint F) = true := by
    intro k hk
    unfold circCons
    split_ifs with hkn
    · simp [consNewOk, Vec2.allFinite, fr _ (mem k hkn)]
    · exact fd _ (mem _ (by omega)) _ (mem _ (by omega))
    · exact fa _ (mem _ (by omega)) _ (mem _ (by omega)) _ (mem _ (Nat.mod_lt _ h1))
  refine ⟨_, circ_eq h1 hn ok, List.length_range, List.nodup_range, ?_, ?_, ?_, ?_⟩
  · simp [Sketch.getNumPrimitives, circWorld, layout]; omega
  · simp [Sketch.getNumConstraints, circWorld, layout]; omega
  · intro c hc r hr
    dsimp only at hc hr ⊢
    simp only [circWorld, layout, Sketch.cells, List.map_append, List.map_map, List.mem_append, List.mem_map, List.mem_range,
      Function.comp_apply] at hc
    rcases hc with ⟨a, ha, rfl⟩ | ⟨a, ha, rfl⟩
    · simp [primFields] at hr
    · simp only [primFields, circWorld, layout, if_pos ha, List.mem_cons, List.not_mem_nil, or_false] at hr
      rcases hr with rfl | rfl <;> exact (layout_mem_point _ _ _ _ _ _ _).2 (by omega)
  · intro k hk r hr
    dsimp only at hk hr ⊢
    simp only [circWorld, layout, List.mem_range] at hk
    have mp : ∀ {a : Nat}, a < n → PrimCell.point a ∈ (circWorld n n (n - 1) (n + 2 * (n - 1)) : World F).sketch.cells :=
      fun h => (layout_mem_point _ _ _ _ _ _ _).2 h
    have hm : ∀ a, a % n < n := fun a => Nat.mod_lt _ h1
    simp only [circWorld, layout, if_pos hk, circCons] at hr
    split_ifs at hr <;> simp only [consFields, List.mem_cons, List.not_mem_nil, or_false] at hr
    · subst hr; exact mp (by omega)
    · rcases hr with rfl | rfl <;> exact mp (by omega)
    · rcases hr with rfl | rfl | rfl
      · exact mp (by omega)
      · exact mp (hm _)
      · exact mp (by omega)

/-- **C66.** A benchmark of size 0 panics. -/
theorem C66_circle_empty : (circleNew 0 : Option (Bench F)) = none := rfl

end any

/-! ## The solution (exact arithmetic) -/

theorem circRef_fin (i : Nat) : (circRef i : Vec2 XR) = ⟨fin (stairX i), fin (stairY i)⟩ := by
  unfold circRef
  rw [ofNat_step, ofNat_step]
  rfl

theorem vecAngle_fin (a b c d : ℝ) : ∃ r, vecAngle (⟨fin a, fin b⟩ : Vec2 XR) ⟨fin c, fin d⟩ = fin r ∧
    (1e-6 ≤ hyp a b → 1e-6 ≤ hyp c d → r = angleOf a b c d) := by
  unfold vecAngle
  simp only [norm_fin, dot_fin, xr_zero, eq_fin, Bool.or_eq_true, decide_eq_true_eq, mul_fin]
  split
  · rename_i hz
    refine ⟨0, rfl, fun h1 h2 => ?_⟩
    rcases hz with hz | hz
    · rw [hz] at h1; norm_num at h1
    · rw [hz] at h2; norm_num at h2
  · rename_i hn
    rw [not_or] at hn
    rw [div_fin_of_ne _ (mul_ne_zero hn.1 hn.2)]
    have cm := cos_mem (a := a) (b := b) (c := c) (d := d)
    have := clamp_fin_mem cm.1 cm.2
    simp only [sci, neg_fin] at this
    simp only [sci, neg_fin, this, acos_fin_of_mem cm.1 cm.2]
    refine ⟨_, rfl, fun h1 h2 => ?_⟩
    rw [angleOf, if_neg (not_or.2 ⟨not_lt.2 h1, not_lt.2 h2⟩)]

theorem circ_ok (n k : Nat) : consNewOk (circCons n k : Constraint XR) = true := by
  unfold circCons
  split_ifs
  · simp [consNewOk, Vec2.allFinite, circRef_fin]
  · simp only [consNewOk, circRef_fin, vsub_fin, norm_fin, isFinite_fin]
  · simp only [consNewOk, circRef_fin, vsub_fin]
    obtain ⟨r, hr, -⟩ := vecAngle_fin (stairX ((k - n) / 2 + 1) - stairX ((k - n) / 2)) (stairY ((k - n) / 2 + 1) - stairY ((k - n) / 2))
      (stairX (((k - n) / 2 + n - 1) % n) - stairX ((k - n) / 2)) (stairY (((k - n) / 2 + n - 1) % n) - stairY ((k - n) / 2))
    rw [hr]; rfl

theorem circ_xr {n : Nat} (h1 : 0 < n) (hn : 2 * n ≤ 2 ^ 64) {b : Bench XR} (hb : circleNew n = some b) :
    b = ⟨circWorld n n (n - 1) (n + 2 * (n - 1)), List.range n⟩ := by
  rw [circ_eq h1 hn (fun k _ => circ_ok n k), Option.some.injEq] at hb
  exact hb.symm

/-- **C66.** In exact arithmetic the circle is built for every `n ≥ 1`. -/
theorem C66_circle_build_exact {n : Nat} (h1 : 0 < n) (hn : 2 * n ≤ 2 ^ 64) : ∃ b : Bench XR, circleNew n = some b :=
  ⟨_, circ_eq h1 hn (fun k _ => circ_ok n k)⟩

theorem circ_cons_get {n j : Nat} (hj : j < n + 2 * (n - 1)) :
    (circWorld n n (n - 1) (n + 2 * (n - 1)) : World XR).heap.cons j = circCons n j := by
  simp [circWorld, layout, hj]

/-- **C66.** In exact arithmetic: whatever moved the points, if the loss of the circle is `L`, then every point is within `√(2 L)` of
where it belongs. -/
theorem C66_circle_error {n : Nat} (h1 : 0 < n) (hn : 2 * n ≤ 2 ^ 64) {b : Bench XR} (hb : circleNew n = some b) {h : Heap XR}
    (hr : SameRefs b.world.heap h) {L : ℝ} (hL : getLoss h b.world.sketch = .fin L) (i p : Nat) (hp : b.points[i]? = some p) :
    ∃ x y, PointAt h p x y ∧ dist (pt x y) (pt (((i + 1) / 2 : ℕ) * 0.8) ((i / 2 : ℕ) * 0.8)) ≤ √(2 * L) := by
  obtain rfl := circ_xr h1 hn hb
  obtain ⟨f, f0, f1, rfl⟩ := getLoss_eq_sum hL
  have hc : (circWorld n n (n - 1) (n + 2 * (n - 1)) : World XR).sketch.cons = List.range (n + 2 * (n - 1)) := rfl
  obtain ⟨hi, rfl⟩ : i < n ∧ i = p := by simpa [List.getElem?_range, List.getElem?_eq_some_iff] using hp
  have hlen : (circWorld n n (n - 1) (n + 2 * (n - 1)) : World XR).sketch.cons.length = n + 2 * (n - 1) := by
    rw [hc, List.length_range]
  have g := f1 i (by rw [hlen]; omega)
  simp only [hc, List.getElem_range] at g
  rw [hr.cons, circ_cons_get (by omega), show (circCons n i : Constraint XR) = .fix i ⟨(circRef i).x, (circRef i).y⟩ from if_pos hi,
    circRef_fin] at g
  have g' := g
  obtain ⟨_, _, e1, e2, -⟩ := half_add_eq_fin g
  obtain ⟨x, _, x1, -, -⟩ := sub_eq_fin e1
  obtain ⟨y, _, y1, -, -⟩ := sub_eq_fin e2
  have hp := pointAt_of x1 y1
  refine ⟨x, y, hp, ?_⟩
  rw [loss_fix hp, fin.injEq] at g'
  rw [← hyp_eq_dist]
  unfold hyp
  apply Real.sqrt_le_sqrt
  have := Finset.single_le_sum (f := f) (s := Finset.range (n + 2 * (n - 1))) (fun j _ => f0 j) (Finset.mem_range.2 (show i < _ by omega))
  rw [hlen]
  change (x - stairX i) * (x - stairX i) + (y - stairY i) * (y - stairY i) ≤ _
  nlinarith

theorem stair_far {i j : Nat} (h : i ≠ j) : 1e-6 ≤ hyp (stairX i - stairX j) (stairY i - stairY j) := by
  have key : ∀ a b : ℕ, a ≠ b → (0.64 : ℝ) ≤ ((a : ℝ) * 0.8 - b * 0.8) ^ 2 := by
    intro a b hab
    have : (1 : ℝ) ≤ ((a : ℝ) - b) ^ 2 := by
      have h1 : ((a : ℤ) - b) ≠ 0 := sub_ne_zero.2 (by exact_mod_cast hab)
      have h2 : (1 : ℤ) ≤ ((a : ℤ) - b) ^ 2 := by
        have := sq_nonneg ((a : ℤ) - b)
        rcases lt_or_eq_of_le this with h | h
        · omega
        · exact absurd (pow_eq_zero_iff two_ne_zero |>.1 h.symm) h1
      exact_mod_cast h2
    nlinarith
  unfold hyp stairX stairY
  apply Real.le_sqrt_of_sq_le
  by_cases h1 : (i + 1) / 2 = (j + 1) / 2
  · have h2 : i / 2 ≠ j / 2 := by omega
    have := key _ _ h2
    have h3 := sq_nonneg (((((i + 1) / 2 : ℕ) : ℝ)) * 0.8 - (((j + 1) / 2 : ℕ) : ℝ) * 0.8)
    norm_num at *
    nlinarith
  · have := key _ _ h1
    have h3 := sq_nonneg ((((i / 2 : ℕ) : ℝ)) * 0.8 - ((j / 2 : ℕ) : ℝ) * 0.8)
    norm_num at *
    nlinarith

/-- **C66.** The loss of the circle is zero iff every point is where it belongs: the distance and angle constraints agree with the
fixed points. -/
theorem C66_circle_zero {n : Nat} (h1 : 0 < n) (hn : 2 * n ≤ 2 ^ 64) {b : Bench XR} (hb : circleNew n = some b) {h : Heap XR}
    (hr : SameRefs b.world.heap h) : getLoss h b.world.sketch = .fin 0 ↔
      ∀ i p, b.points[i]? = some p → PointAt h p (((i + 1) / 2 : ℕ) * 0.8) ((i / 2 : ℕ) * 0.8) := by
  constructor
  · intro hL i p hp
    obtain ⟨x, y, hp, hd⟩ := C66_circle_error h1 hn hb hr hL i p hp
    rw [mul_zero, Real.sqrt_zero, ← hyp_eq_dist] at hd
    obtain ⟨ex, ey⟩ := hyp_eq_zero.1 (le_antisymm hd (hyp_nonneg _ _))
    rwa [sub_eq_zero.1 ex, sub_eq_zero.1 ey] at hp
  · intro hall
    rw [C15_zero_iff]
    obtain rfl := circ_xr h1 hn hb
    intro k hk
    have hk : k < n + 2 * (n - 1) := by simpa [circWorld, layout] using hk
    rw [hr.cons, circ_cons_get hk]
    have pd : ∀ i < n, PointAt h i (stairX i) (stairY i) := fun i hi => hall i i (List.getElem?_range hi)
    have hm : ∀ a, a % n < n := fun a => Nat.mod_lt _ h1
    by_cases hkn : k < n
    · rw [show (circCons n k : Constraint XR) = .fix k ⟨(circRef k).x, (circRef k).y⟩ from if_pos hkn, circRef_fin, C17_fix (pd k hkn)]
      exact ⟨rfl, rfl⟩
    · obtain ⟨i, hi⟩ : ∃ i, k = n + 2 * i ∨ k = n + 2 * i + 1 := ⟨(k - n) / 2, by omega⟩
      rcases hi with rfl | rfl
      · rw [circ_even, circRef_fin, circRef_fin, vsub_fin, norm_fin, loss_euclid (pd i (by omega)) (pd (i + 1) (by omega)), half_sq_zero,
          sub_eq_zero, ← hyp_neg, neg_sub, neg_sub]
      · rw [circ_odd, circRef_fin, circRef_fin, circRef_fin, vsub_fin, vsub_fin]
        have hne : (i + n - 1) % n ≠ i := by
          rcases Nat.eq_zero_or_pos i with rfl | hi0
          · rw [Nat.zero_add, Nat.mod_eq_of_lt (by omega)]; omega
          · rw [show i + n - 1 = i - 1 + n by omega, Nat.add_mod_right, Nat.mod_eq_of_lt (by omega)]; omega
        obtain ⟨r, hr', hra⟩ := vecAngle_fin (stairX (i + 1) - stairX i) (stairY (i + 1) - stairY i)
          (stairX ((i + n - 1) % n) - stairX i) (stairY ((i + n - 1) % n) - stairY i)
        rw [hr', hra (stair_far (by omega)) (stair_far hne), loss_angle (pd _ (by omega)) (pd _ (hm _)) (pd _ (by omega)), half_sq_zero,
          sub_self]

/-- **C66.** `check(eps)` succeeds if `2 L ≤ eps²`, whatever the size. -/
theorem C66_circle_check {n : Nat} (h1 : 0 < n) (hn : 2 * n ≤ 2 ^ 64) {b : Bench XR} (hb : circleNew n = some b) {h : Heap XR}
    (hr : SameRefs b.world.heap h) {L eps : ℝ} (he : 0 ≤ eps) (hL : getLoss h b.world.sketch = .fin L) (hle : 2 * L ≤ eps ^ 2) :
    circleCheck h b.points (.fin eps) = true := by
  have err := C66_circle_error h1 hn hb hr hL
  obtain rfl := circ_xr h1 hn hb
  unfold circleCheck
  rw [List.length_range, List.all_eq_true]
  intro i hi
  rw [List.mem_range] at hi
  have hq : (circlePoints n : List (Vec2 XR)).length = n := by simp [circlePoints]
  rw [List.getD_eq_getElem _ _ (by rw [List.length_range]; omega), List.getElem_range,
    List.getD_eq_getElem _ _ (by rw [hq]; omega)]
  have : (circlePoints n : List (Vec2 XR))[i]'(by rw [hq]; omega) = circRef i := by
    have := circ_ref (F := XR) hi
    rw [List.getElem?_eq_getElem (by rw [hq]; omega), Option.some.injEq] at this
    exact this
  rw [this, circRef_fin]
  obtain ⟨x, y, hp, hd⟩ := err i i (List.getElem?_range hi)
  rw [pointPasses_iff hp]
  have hs : √(2 * L) ≤ eps := Real.sqrt_le_iff.2 ⟨he, hle⟩
  have hd : hyp (x - stairX i) (y - stairY i) ≤ eps := by rw [hyp_eq_dist]; exact hd.trans hs
  unfold hyp at hd
  rw [Real.sqrt_le_left he] at hd
  constructor
  · exact abs_le_of_sq_le_sq (by nlinarith [mul_self_nonneg (y - stairY i)]) he
  · exact abs_le_of_sq_le_sq (by nlinarith [mul_self_nonneg (x - stairX i)]) he

/-- **C66.** A benchmark run (any solver, any size) that reports an error of at most `5e-13` reports `solved`. -/
theorem C66_circle_run {n : Nat} (h1 : 0 < n) (hn : 2 * n ≤ 2 ^ 64) {b : Bench XR} (hb : circleNew n = some b) (pinv : PInv XR)
    (k : SolverKind XR) {solved : Bool} {loss : XR}
    (hrun : benchRun pinv k (fun h => some (circleCheck h b.points 1e-6)) b = some (solved, loss))
    (hl : (loss <=. .fin 5e-13) = true) : solved = true := by
  unfold benchRun at hrun
  dsimp only at hrun
  have hr := (runSolver_moves pinv k b.world.heap b.world.sketch).1
  generalize runSolver pinv k b.world.heap b.world.sketch = o at hr hrun
  split at hrun
  · obtain ⟨s, hs, hrun⟩ := Option.map_eq_some_iff.1 hrun
    cases hrun
    rcases loss_total_notNeg o.heap b.world.sketch with ⟨L', L0, hL⟩ | hL | hL
    · rw [hL, le_fin, decide_eq_true_eq] at hl
      have e6 : (1e-6 : XR) = fin 1e-6 := sci _ _ _
      have := C66_circle_check h1 hn hb hr (eps := 1e-6) (by norm_num) hL (by norm_num at hl ⊢; linarith)
      rw [e6, this, Option.some.injEq] at hs
      exact hs.symm
    · rw [hL] at hl; exact absurd hl (by simp [Num.le, XR.le])
    · rw [hL] at hl; exact absurd hl (by simp [Num.le, XR.le])
  · cases hrun

/-- the hypotheses can be met: a circle of three points exists, with its points moved to the solution its loss is zero -/
example : ∃ (b : Bench XR) (h : Heap XR), circleNew 3 = some b ∧ SameRefs b.world.heap h ∧ getLoss h b.world.sketch = .fin 0 := by
  obtain ⟨b, hb⟩ := C66_circle_build_exact (n := 3) (by norm_num) (by norm_num)
  let h : Heap XR := { b.world.heap with points := fun i => ⟨⟨fin (stairX i), fin (stairY i)⟩, Vec2.zeros⟩ }
  have hr : SameRefs b.world.heap h := ⟨rfl, rfl, fun _ => rfl, fun _ => rfl, fun _ => rfl, rfl, rfl, rfl, rfl, rfl⟩
  refine ⟨b, h, hb, hr, (C66_circle_zero (by norm_num) (by norm_num) hb hr).2 ?_⟩
  intro i p hp
  obtain rfl := circ_xr (n := 3) (by norm_num) (by norm_num) hb
  obtain ⟨hi, rfl⟩ : i < 3 ∧ i = p := by simpa [List.getElem?_range, List.getElem?_eq_some_iff] using hp
  rfl

end Isotope
