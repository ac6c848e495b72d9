import Verif.Props.Rings
import Verif.SpecReal
import Mathlib.Analysis.Real.Pi.Bounds
import Mathlib.Data.List.Rotate
import Mathlib.Tactic.LinearCombination

/-!
# Angles, areas and polygons in exact arithmetic (C40, C42, C47, C49, C50)
-/

namespace Isotope
open XR

theorem lit0 : (0.0 : XR) = fin 0 := by simp only [sci]; norm_num
theorem lit2 : (2.0 : XR) = fin 2 := by simp only [sci]; norm_num

/-! ## C40 -/

/-- **C40.** Every circle of the sketch with a finite non-zero radius is a ring. -/
theorem C40_circle_nonzero (h : Heap XR) (s : Sketch) (c : Nat) (r : ℝ) (hc : PrimCell.circle c ∈ s.cells)
    (hr : (h.circles c).radius = .fin r) (h0 : r ≠ 0) : Ring.circle (h.circles c) ∈ (findRings h s).1 := by
  apply C40_circles h s c hc
  rw [hr, lit0]
  simp only [mul_fin, pi_fin, lt_fin, decide_eq_true_eq]
  have := mul_self_pos.2 h0
  positivity

/-! ## C42 -/

theorem wrap_spec (x : ℝ) (h1 : -(2 * Real.pi) ≤ x) (h2 : x ≤ 4 * Real.pi) :
    ∃ y : ℝ, ∃ k : ℤ, (let a : XR := if gt (fin x) (Num.tau : XR) then fin x - Num.tau else fin x
      if a <. (0.0 : XR) then a + Num.tau else a) = fin y ∧ 0 ≤ y ∧ y ≤ 2 * Real.pi ∧ y = x + k * (2 * Real.pi) := by
  have hp := Real.pi_pos
  simp only [gt, tau_fin, lit0, sub_fin, lt_fin, decide_eq_true_eq]
  by_cases c1 : 2 * Real.pi < x
  · rw [if_pos c1]
    simp only [lt_fin, decide_eq_true_eq]
    rw [if_neg (by linarith)]
    exact ⟨_, -1, rfl, by linarith, by linarith, by push_cast; ring⟩
  · rw [if_neg c1]
    simp only [lt_fin, decide_eq_true_eq]
    by_cases c2 : x < 0
    · rw [if_pos c2, add_fin]
      exact ⟨_, 1, rfl, by linarith, by linarith, by push_cast; ring⟩
    · rw [if_neg c2]
      exact ⟨_, 0, rfl, by linarith, by linarith, by push_cast; ring⟩

/-- **C42.** For angles in `[-2π, 4π]` the result of `angle_difference` lies in `[0, 2π]` and differs from `a1 - a0` by a
multiple of `2π`. -/
theorem C42_angle_difference (a0 a1 : ℝ) (h0 : -(2 * Real.pi) ≤ a0) (h0' : a0 ≤ 4 * Real.pi) (h1 : -(2 * Real.pi) ≤ a1)
    (h1' : a1 ≤ 4 * Real.pi) :
    ∃ d : ℝ, ∃ k : ℤ, angleDifference (fin a0) (fin a1) = fin d ∧ 0 ≤ d ∧ d ≤ 2 * Real.pi ∧
      d = a1 - a0 + k * (2 * Real.pi) := by
  have hp := Real.pi_pos
  obtain ⟨y0, k0, e0, l0, u0, c0⟩ := wrap_spec a0 h0 h0'
  obtain ⟨y1, k1, e1, l1, u1, c1⟩ := wrap_spec a1 h1 h1'
  obtain ⟨y, k, e, l, u, c⟩ := wrap_spec (y1 - y0) (by linarith) (by linarith)
  refine ⟨y, k + k1 - k0, ?_, l, u, by rw [c, c1, c0]; push_cast; ring⟩
  rw [← e, ← sub_fin, ← e0, ← e1]
  rfl

/-- **C42.** The direction back along a segment, `(end_angle + π) % 2π`, is in range whatever the end angle, and so is the
polar angle of a line. -/
theorem C42_in_range (t x y : ℝ) :
    (∃ b : ℝ, Num.rem ((fin t : XR) + Num.pi) ((2.0 : XR) * Num.pi) = fin b ∧ -(2 * Real.pi) ≤ b ∧ b ≤ 4 * Real.pi ∧
      ∃ k : ℤ, b = t + Real.pi + k * (2 * Real.pi)) ∧
    ∃ b : ℝ, Num.atan2 (fin y : XR) (fin x) = fin b ∧ -(2 * Real.pi) ≤ b ∧ b ≤ 4 * Real.pi := by
  have hp := Real.pi_pos
  refine ⟨?_, _, atan2_fin y x, ?_, ?_⟩
  · have e : Num.rem ((fin t : XR) + Num.pi) ((2.0 : XR) * Num.pi) =
        fin (t + Real.pi - 2 * Real.pi * trunc ((t + Real.pi) / (2 * Real.pi))) := by
      rw [lit2, pi_fin, add_fin, mul_fin]
      show XR.rem _ _ = _
      rw [XR.rem, if_neg (by positivity)]
    refine ⟨_, e, ?_⟩
    set q := (t + Real.pi) / (2 * Real.pi) with hq
    have ht : t + Real.pi = 2 * Real.pi * q := by rw [hq]; field_simp
    rw [ht, ← mul_sub]
    unfold trunc
    split
    next hneg =>
      have a1 := Int.ceil_lt_add_one q
      have a2 := Int.le_ceil q
      refine ⟨by nlinarith, by nlinarith, -⌈q⌉, by push_cast; ring⟩
    next hneg =>
      have a1 := Int.lt_floor_add_one q
      have a2 := Int.floor_le q
      refine ⟨by nlinarith, by nlinarith, -⌊q⌋, by push_cast; ring⟩
  · have := Complex.neg_pi_lt_arg ⟨x, y⟩; linarith
  · have := Complex.arg_le_pi ⟨x, y⟩; linarith

/-- the hypotheses of C42 can be met with all three corrections taking place -/
example : ∃ d : ℝ, ∃ k : ℤ, angleDifference (fin (3 * Real.pi)) (fin (-(3 * Real.pi / 2))) = fin d ∧ 0 ≤ d ∧
    d ≤ 2 * Real.pi ∧ d = -(3 * Real.pi / 2) - 3 * Real.pi + k * (2 * Real.pi) := by
  have hp := Real.pi_pos
  apply C42_angle_difference <;> linarith

/-! ## Areas -/

theorem signedArea_fin {h : Heap XR} {segs : List (Segment XR)} {es : List ((ℝ × ℝ) × (ℝ × ℝ))}
    (he : List.Forall₂ (EndsAt h) segs es) :
    (Ring.segments segs).signedArea h = fin ((es.map (fun e => cross e.1 e.2)).sum / 2) := by
  have key : ∀ a : ℝ, segs.foldl (fun area sg =>
      let s := sg.getStart h
      let e := sg.getEnd h
      area + (s.x * e.y - e.x * s.y)) (fin a) = fin (a + (es.map (fun e => cross e.1 e.2)).sum) := by
    induction he with
    | nil => intro a; simp
    | cons hh _ ih =>
      intro a
      rw [List.foldl_cons, hh.1, hh.2]
      simp only [mul_fin, sub_fin, add_fin]
      rw [ih]
      simp only [List.map_cons, List.sum_cons, cross]
      congr 1; ring
  unfold Ring.signedArea
  simp only
  rw [lit0, key, zero_add, lit2, div_fin_of_ne _ two_ne_zero]

theorem EndsAt.reverse {h : Heap XR} {sg : Segment XR} {e : (ℝ × ℝ) × (ℝ × ℝ)} (he : EndsAt h sg e) :
    EndsAt h sg.reverse (e.2, e.1) := by
  cases sg <;> exact ⟨he.2, he.1⟩

section
variable {F : Type} [Num F]
/-- **C47.** `reverse` swaps start and end point. -/
theorem C47_swaps (h : Heap F) (sg : Segment F) :
    sg.reverse.getStart h = sg.getEnd h ∧ sg.reverse.getEnd h = sg.getStart h := by cases sg <;> exact ⟨rfl, rfl⟩

/-- **C47.** `reverse` is an involution on lines. -/
theorem C47_line (a b : Nat) : (Segment.line a b : Segment F).reverse.reverse = .line a b := rfl

/-- **C47.** Reversing an arc twice gives the same arc with the gradient cleared. -/
theorem C47_arc (a : Arc F) : (Segment.arc a).reverse.reverse = .arc { a with grad := ⟨0.0, 0.0, 0.0⟩ } := by
  obtain ⟨c, d, g, cw⟩ := a
  simp [Segment.reverse, Arc.reverse, Arc.new, Arc.radius, Arc.startAngle, Arc.endAngle, Row3.zeros]

/-- **C47.** `reverse` exchanges the angles at both ends of an arc and its sense of rotation, and keeps centre and radius. -/
theorem C47_arc_reverse (a : Arc F) : (Segment.arc a).reverse =
    .arc ⟨a.center, ⟨a.data.a0, a.data.a2, a.data.a1⟩, ⟨0.0, 0.0, 0.0⟩, !a.clockwise⟩ := rfl

/-- **C47.** The reversal of a closed chain, last segment first, is a closed chain, provided `==` is symmetric (as on
`f64`). -/
theorem C47_closed (h : Heap F) (hs : ∀ x y : F, (x ==. y) = (y ==. x)) (segs : List (Segment F))
    (hc : ClosedChain h segs) : ClosedChain h (segs.reverse.map Segment.reverse) := by
  obtain ⟨hne, hc⟩ := hc
  refine ⟨by simpa using hne, fun i a b ha hb => ?_⟩
  rw [List.length_map, List.length_reverse] at hb
  rw [List.getElem?_map, Option.map_eq_some_iff] at ha hb
  obtain ⟨x, hx, rfl⟩ := ha
  obtain ⟨y, hy, rfl⟩ := hb
  have hn : 0 < segs.length := List.length_pos_iff.2 hne
  have hi : i < segs.length := by
    by_contra hi
    rw [List.getElem?_eq_none (by rw [List.length_reverse]; omega)] at hx; cases hx
  have hi' : (i + 1) % segs.length < segs.length := Nat.mod_lt _ hn
  rw [List.getElem?_reverse hi] at hx
  rw [List.getElem?_reverse hi'] at hy
  rw [(C47_swaps h x).2, (C47_swaps h y).1]
  have hsym : ∀ p q : Vec2 F, p.beq q = q.beq p := by
    intro p q; unfold Vec2.beq; rw [hs p.x, hs p.y]
  rw [hsym]
  refine hc (segs.length - 1 - (i + 1) % segs.length) y x hy ?_
  have : (segs.length - 1 - (i + 1) % segs.length + 1) % segs.length = segs.length - 1 - i := by
    by_cases hl : i + 1 < segs.length
    · rw [Nat.mod_eq_of_lt hl, Nat.mod_eq_of_lt (by omega)]; omega
    · have : i + 1 = segs.length := by omega
      rw [this, Nat.mod_self, show segs.length - 1 - 0 + 1 = segs.length by omega, Nat.mod_self]; omega
  rw [this]; exact hx
end

/-- **C47.** Reversing a chain, last segment first, negates its signed area. -/
theorem C47_area (h : Heap XR) (segs : List (Segment XR)) (es : List ((ℝ × ℝ) × (ℝ × ℝ)))
    (he : List.Forall₂ (EndsAt h) segs es) :
    (Ring.segments (segs.reverse.map Segment.reverse)).signedArea h = -(Ring.segments segs).signedArea h := by
  have h2 : List.Forall₂ (EndsAt h) (segs.reverse.map Segment.reverse) (es.reverse.map (fun e => (e.2, e.1))) := by
    rw [List.forall₂_map_left_iff, List.forall₂_map_right_iff, List.forall₂_reverse_iff]
    exact he.imp fun a b hab => hab.reverse
  rw [signedArea_fin he, signedArea_fin h2, neg_fin, List.map_map, List.map_reverse, List.sum_reverse]
  congr 1
  rw [← neg_div]; congr 1
  clear he h2
  induction es with
  | nil => simp
  | cons e es ih' =>
    rw [List.map_cons, List.map_cons, List.sum_cons, List.sum_cons, ih']
    simp only [Function.comp, cross]; ring

/-! ## C49 -/

theorem sum_edges (vs : List (ℝ × ℝ)) (f : ℝ × ℝ → ℝ) :
    ((edges vs).map (fun e => f e.2)).sum = ((edges vs).map (fun e => f e.1)).sum := by
  have h1 : (edges vs).map Prod.fst = vs := by
    unfold edges; rw [List.map_fst_zip]; simp
  have h2 : (edges vs).map Prod.snd = vs.rotate 1 := by
    unfold edges; rw [List.map_snd_zip]; simp
  have e1 : (edges vs).map (fun e => f e.1) = vs.map f := by
    conv_rhs => rw [← h1]
    rw [List.map_map]; rfl
  have e2 : (edges vs).map (fun e => f e.2) = (vs.rotate 1).map f := by
    rw [← h2, List.map_map]; rfl
  rw [e1, e2]
  exact ((List.rotate_perm vs 1).map f).sum_eq

/-- **C49.** The signed area of segments that run once around the polygon `vs` is given by the shoelace formula. -/
theorem C49_shoelace (h : Heap XR) (segs : List (Segment XR)) (vs : List (ℝ × ℝ))
    (he : List.Forall₂ (EndsAt h) segs (edges vs)) : (Ring.segments segs).signedArea h = fin (shoelace vs) :=
  signedArea_fin he

theorem exists_ends {h : Heap XR} {segs : List (Segment XR)} (hf : ∀ sg ∈ segs, ∃ e, EndsAt h sg e) :
    ∃ es, List.Forall₂ (EndsAt h) segs es := by
  induction segs with
  | nil => exact ⟨[], .nil⟩
  | cons sg segs ih =>
    obtain ⟨e, he⟩ := hf sg (by simp)
    obtain ⟨es, hes⟩ := ih (fun sg h => hf sg (by simp [h]))
    exact ⟨_, .cons he hes⟩

/-- **C49.** Every closed chain of segments with finite ends runs around a polygon. -/
theorem C49_closed_polygon (h : Heap XR) (segs : List (Segment XR)) (hc : ClosedChain h segs)
    (hf : ∀ sg ∈ segs, ∃ e, EndsAt h sg e) : ∃ vs, List.Forall₂ (EndsAt h) segs (edges vs) := by
  obtain ⟨es, hes⟩ := exists_ends hf
  refine ⟨es.map Prod.fst, ?_⟩
  have hlen := hes.length_eq
  have : es = edges (es.map Prod.fst) := by
    apply List.ext_getElem
    · simp [edges]
    · intro i h1 h2
      simp only [edges]
      rw [List.getElem_zip, List.getElem_map, List.getElem_rotate, List.getElem_map]
      apply Prod.ext
      · rfl
      · simp only [List.length_map]
        have hi : i < segs.length := by omega
        have hj : (i + 1) % segs.length < segs.length := Nat.mod_lt _ (by omega)
        have := hc.2 i _ _ (List.getElem?_eq_getElem hi) (List.getElem?_eq_getElem hj)
        have a1 := (List.forall₂_iff_get.1 hes).2 i hi h1
        have hj' : (i + 1) % es.length < es.length := Nat.mod_lt _ (by omega)
        have a2 := (List.forall₂_iff_get.1 hes).2 _ hj (by rw [hlen]; exact hj')
        simp only [List.get_eq_getElem] at a1 a2
        rw [a1.2, a2.1] at this
        simp only [Vec2.beq, eq_fin, Bool.and_eq_true, decide_eq_true_eq] at this
        have hh : es[(i + 1) % segs.length]'(by rw [hlen]; exact hj') = es[(i + 1) % es.length] := by
          congr 1; rw [hlen]
        rw [← hh]
        exact Prod.ext this.1 this.2
  rw [← this]; exact hes

/-- **C49.** The starting segment does not matter. -/
theorem C49_start (h : Heap XR) (segs : List (Segment XR)) (hf : ∀ sg ∈ segs, ∃ e, EndsAt h sg e) (k : Nat) :
    (Ring.segments (segs.rotate k)).signedArea h = (Ring.segments segs).signedArea h := by
  obtain ⟨es, hes⟩ := exists_ends hf
  have hr : List.Forall₂ (EndsAt h) (segs.rotate k) (es.rotate k) := by
    rw [List.rotate_eq_drop_append_take_mod, List.rotate_eq_drop_append_take_mod, hes.length_eq]
    exact List.rel_append (List.forall₂_drop _ hes) (List.forall₂_take _ hes)
  rw [signedArea_fin hr, signedArea_fin hes, ((List.rotate_perm es k).map _).sum_eq]

/-- **C49.** An affine map of the plane multiplies the signed area of a closed polygon by its determinant: translations
and rotations do not change it, mirroring negates it, scaling by `k` multiplies it by `k²`. -/
theorem C49_affine (h h' : Heap XR) (segs segs' : List (Segment XR)) (vs : List (ℝ × ℝ)) (a b c d : ℝ) (t : ℝ × ℝ)
    (he : List.Forall₂ (EndsAt h) segs (edges vs)) (he' : List.Forall₂ (EndsAt h') segs' (edges (vs.map (affine a b c d t)))) :
    (Ring.segments segs').signedArea h' = fin (a * d - b * c) * (Ring.segments segs).signedArea h := by
  rw [C49_shoelace h' segs' _ he', C49_shoelace h segs _ he, mul_fin]
  congr 1
  unfold shoelace
  have e1 : edges (vs.map (affine a b c d t)) = (edges vs).map (fun e => (affine a b c d t e.1, affine a b c d t e.2)) := by
    unfold edges
    rw [← List.map_rotate, List.zip_map]; rfl
  rw [e1, List.map_map]
  have hx := sum_edges vs (fun p => (a * d - b * c) * 0 + (t.1 * (c * p.1 + d * p.2) - t.2 * (a * p.1 + b * p.2)))
  have key : ∀ es : List ((ℝ × ℝ) × (ℝ × ℝ)), (es.map ((fun e => cross e.1 e.2) ∘
      fun e => (affine a b c d t e.1, affine a b c d t e.2))).sum =
      (a * d - b * c) * (es.map (fun e => cross e.1 e.2)).sum +
      (es.map (fun e => (fun p : ℝ × ℝ => (a * d - b * c) * 0 + (t.1 * (c * p.1 + d * p.2) - t.2 * (a * p.1 + b * p.2))) e.2)).sum -
      (es.map (fun e => (fun p : ℝ × ℝ => (a * d - b * c) * 0 + (t.1 * (c * p.1 + d * p.2) - t.2 * (a * p.1 + b * p.2))) e.1)).sum := by
    intro es
    induction es with
    | nil => simp
    | cons e es ih =>
      simp only [List.map_cons, List.sum_cons]
      rw [ih]
      simp only [Function.comp, cross, affine]
      ring
  rw [key, hx]
  ring

/-- **C49.** A triangle: half the cross product of two sides. -/
theorem C49_triangle (p q r : ℝ × ℝ) :
    shoelace [p, q, r] = ((q.1 - p.1) * (r.2 - p.2) - (r.1 - p.1) * (q.2 - p.2)) / 2 := by
  simp [shoelace, edges, cross]; ring

/-- sum of the cross products along a path -/
def pathSum : ℝ × ℝ → List (ℝ × ℝ) → ℝ
  | _, [] => 0
  | p, v :: vs => cross p v + pathSum v vs

theorem pathSum_append (p q : ℝ × ℝ) (vs ws : List (ℝ × ℝ)) :
    pathSum p (vs ++ q :: ws) = pathSum p (vs ++ [q]) + pathSum q ws := by
  induction vs generalizing p with
  | nil => simp [pathSum]
  | cons v vs ih => simp only [List.cons_append, pathSum]; rw [ih]; ring

theorem zip_pathSum (p z : ℝ × ℝ) (vs : List (ℝ × ℝ)) :
    (((p :: vs).zip (vs ++ [z])).map (fun e => cross e.1 e.2)).sum = pathSum p (vs ++ [z]) := by
  induction vs generalizing p with
  | nil => simp [pathSum]
  | cons v vs ih =>
    simp only [List.cons_append, List.zip_cons_cons, List.map_cons, List.sum_cons, pathSum]
    rw [← ih]

theorem shoelace_cons (p : ℝ × ℝ) (vs : List (ℝ × ℝ)) : shoelace (p :: vs) = pathSum p (vs ++ [p]) / 2 := by
  unfold shoelace edges
  rw [List.rotate_cons_succ, List.rotate_zero, zip_pathSum]

/-- **C49.** Cutting a polygon along the diagonal from its first vertex: the areas of the parts add up. -/
theorem C49_cut (p q : ℝ × ℝ) (vs ws : List (ℝ × ℝ)) :
    shoelace (p :: vs ++ q :: ws) = shoelace (p :: vs ++ [q]) + shoelace (p :: q :: ws) := by
  rw [List.cons_append, List.cons_append, shoelace_cons, shoelace_cons, shoelace_cons, List.append_assoc, List.append_assoc]
  simp only [List.cons_append, List.nil_append]
  rw [pathSum_append p q vs, pathSum_append p q vs [p]]
  simp only [pathSum, cross]
  ring

/-- **C49.** The area of a circle. -/
theorem C49_circle (h : Heap XR) (c : Circle XR) (r : ℝ) (hr : c.radius = fin r) :
    (Ring.circle c).signedArea h = fin (Real.pi * r ^ 2) := by
  unfold Ring.signedArea
  simp only [hr, mul_fin, pi_fin]
  congr 1; ring

/-- **C49.** `signed_area` ignores the bulge of arcs: segments that only connect two points give no ring. -/
theorem C49_two_points (h : Heap XR) (s : Sketch) (p q : ℝ × ℝ)
    (hs : ∀ sg ∈ drawn h s, ∃ e, EndsAt h sg e ∧ (e.1 = p ∨ e.1 = q) ∧ (e.2 = p ∨ e.2 = q))
    (r : Ring XR) (hr : r ∈ (findRings h s).1) : ∃ c, PrimCell.circle c ∈ s.cells ∧ r = .circle (h.circles c) := by
  have hpos := C40_positive h s r hr
  rcases C38_closed_chain h s r hr with hc | ⟨segs, rfl, hc, hd⟩
  · exact hc
  exfalso
  have hs' : ∀ sg ∈ segs, ∃ e, EndsAt h sg e ∧ (e.1 = p ∨ e.1 = q) ∧ (e.2 = p ∨ e.2 = q) := by
    intro sg hsg
    rcases hd sg hsg with hd | ⟨d, hd, rfl⟩
    · exact hs sg hd
    · obtain ⟨e, he, h1, h2⟩ := hs d hd
      exact ⟨_, he.reverse, h2, h1⟩
  obtain ⟨vs, hvs⟩ := C49_closed_polygon h segs hc (fun sg hsg => let ⟨e, he, _⟩ := hs' sg hsg; ⟨e, he⟩)
  have hmem : ∀ e ∈ edges vs, (e.1 = p ∨ e.1 = q) ∧ (e.2 = p ∨ e.2 = q) := by
    intro e he
    obtain ⟨i, hi, rfl⟩ := List.mem_iff_getElem.1 he
    have hi' : i < segs.length := by rw [hvs.length_eq]; exact hi
    have h1 := (List.forall₂_iff_get.1 hvs).2 i hi' hi
    simp only [List.get_eq_getElem] at h1
    obtain ⟨e', he', h2, h3⟩ := hs' _ (List.getElem_mem hi')
    have h4 := h1.1.symm.trans he'.1
    have h5 := h1.2.symm.trans he'.2
    simp only [Vec2.mk.injEq, XR.fin.injEq] at h4 h5
    rw [Prod.ext h4.1 h4.2, Prod.ext h5.1 h5.2]
    exact ⟨h2, h3⟩
  rw [C49_shoelace h segs vs hvs, lit0] at hpos
  have : shoelace vs = 0 := by
    unfold shoelace
    have hx := sum_edges vs (fun v => if v = q then cross p q else 0)
    have key : ∀ es : List ((ℝ × ℝ) × (ℝ × ℝ)), (∀ e ∈ es, (e.1 = p ∨ e.1 = q) ∧ (e.2 = p ∨ e.2 = q)) →
        (es.map (fun e => cross e.1 e.2)).sum = (es.map (fun e => (fun v => if v = q then cross p q else 0) e.2)).sum -
          (es.map (fun e => (fun v => if v = q then cross p q else 0) e.1)).sum := by
      intro es hes
      induction es with
      | nil => simp
      | cons e es ih =>
        simp only [List.map_cons, List.sum_cons]
        rw [ih (fun e he => hes e (by simp [he]))]
        have : cross e.1 e.2 = (if e.2 = q then cross p q else 0) - (if e.1 = q then cross p q else 0) := by
          obtain ⟨h1, h2⟩ := hes e (by simp)
          by_cases hpq : p = q
          · subst hpq
            simp only [or_self] at h1 h2
            rw [h1, h2]; simp [cross]
          · rcases h1 with h1 | h1 <;> rcases h2 with h2 | h2 <;> rw [h1, h2] <;> simp [hpq] <;> simp [cross]
        rw [this]; ring
    rw [key _ hmem, hx]; simp
  rw [this] at hpos
  simp at hpos

theorem PointAt.eq {h : Heap XR} {p : Nat} {x y : ℝ} (hp : PointAt h p x y) : (h.points p).data = ⟨fin x, fin y⟩ := hp

/-- **C49.** In particular a full circle drawn as two half-circle arcs yields no ring. -/
theorem C49_half_circles (h : Heap XR) (s : Sketch) (a b : Nat) (cx cy r t : ℝ)
    (hs : ∀ c ∈ s.cells, c = .arc a ∨ c = .arc b ∨ ∃ p, c = .point p)
    (ha : ArcAt h a cx cy r t (t + Real.pi)) (hb : ArcAt h b cx cy r (t + Real.pi) (t + 2 * Real.pi)) :
    (findRings h s).1 = [] := by
  rw [List.eq_nil_iff_forall_not_mem]
  intro ring hr
  obtain ⟨hac, had⟩ := ha
  obtain ⟨hbc, hbd⟩ := hb
  obtain ⟨c, hc, -⟩ := C49_two_points h s (cx + r * Real.cos t, cy + r * Real.sin t)
    (cx - r * Real.cos t, cy - r * Real.sin t) (by
      intro sg hsg
      obtain ⟨c, hc, hm⟩ := List.mem_flatMap.1 hsg
      rcases hs c hc with rfl | rfl | ⟨p, rfl⟩
      · rw [segmentOf, List.mem_singleton] at hm
        subst hm
        refine ⟨(_, _), ⟨?_, ?_⟩, .inl rfl, .inr rfl⟩
        · simp [Segment.getStart, Arc.startPoint, Arc.radius, Arc.startAngle, had, hac.eq]
        · simp [Segment.getEnd, Arc.endPoint, Arc.radius, Arc.endAngle, had, hac.eq, Real.cos_add_pi, Real.sin_add_pi,
            sub_eq_add_neg]
      · rw [segmentOf, List.mem_singleton] at hm
        subst hm
        refine ⟨(_, _), ⟨?_, ?_⟩, .inr rfl, .inl rfl⟩
        · simp [Segment.getStart, Arc.startPoint, Arc.radius, Arc.startAngle, hbd, hbc.eq, Real.cos_add_pi, Real.sin_add_pi,
            sub_eq_add_neg]
        · simp [Segment.getEnd, Arc.endPoint, Arc.radius, Arc.endAngle, hbd, hbc.eq]
      · simp [segmentOf] at hm) ring hr
  rcases hs _ hc with h1 | h1 | ⟨p, h1⟩ <;> cases h1

/-! ## C50 -/

/-- **C50.** Segments that run around the polygon `p, …, q` become the polygon of their start points, closed by repeating the
first vertex, without holes. -/
theorem C50_segments (h : Heap XR) (segs : List (Segment XR)) (p q : ℝ × ℝ) (vs : List (ℝ × ℝ)) (hpq : p ≠ q)
    (he : List.Forall₂ (EndsAt h) segs (edges (p :: vs ++ [q]))) :
    (Ring.segments segs).asPolygon h = ⟨(p :: vs ++ [q, p]).map (fun v => (fin v.1, fin v.2)), []⟩ := by
  have h1 : segs.map (fun sg => ((sg.getStart h).x, (sg.getStart h).y)) =
      (p :: vs ++ [q]).map (fun v => (fin v.1, fin v.2)) := by
    have h2 : (edges (p :: vs ++ [q])).map Prod.fst = p :: vs ++ [q] := by
      unfold edges; rw [List.map_fst_zip]; simp
    conv_rhs => rw [← h2]
    rw [List.map_map]
    generalize edges (p :: vs ++ [q]) = es at he
    induction he with
    | nil => rfl
    | cons hh _ ih => rw [List.map_cons, List.map_cons, ih, hh.1]; rfl
  unfold Ring.asPolygon Polygon.new
  simp only [h1, List.map_nil]
  congr 1
  unfold closeRing
  have hl : ((p :: vs ++ [q]).map (fun v => ((fin v.1, fin v.2) : XR × XR))).getLast? = some (fin q.1, fin q.2) := by
    rw [List.getLast?_map, List.getLast?_append]; simp
  have hh : ((p :: vs ++ [q]).map (fun v => ((fin v.1, fin v.2) : XR × XR))).head? = some (fin p.1, fin p.2) := by simp
  rw [hl, hh]
  have : ¬(p.1 = q.1 ∧ p.2 = q.2) := fun h => hpq (Prod.ext h.1 h.2)
  simp [this]

/-- **C50.** A circle becomes a polygon with the vertices `centre + radius · (cos, sin)(2π i / 36)`, `i = 0, …, 35`, and no
holes; the first vertex is repeated at the end (if the radius is not zero). -/
theorem C50_circle (h : Heap XR) (c : Circle XR) (x y r : ℝ) (hc : (h.points c.center).data = ⟨fin x, fin y⟩)
    (hr : c.radius = fin r) (h0 : r ≠ 0) :
    (Ring.circle c).asPolygon h = ⟨((List.range 36).map (fun i : Nat =>
      (fin (x + r * Real.cos (2 * Real.pi * i / 36)), fin (y + r * Real.sin (2 * Real.pi * i / 36))))) ++
      [(fin (x + r), fin y)], []⟩ := by
  have hp := Real.pi_pos
  have e1 : ∀ i : Nat, ((h.points c.center).data.x + c.radius * Num.cos (Num.ofNat i / Num.ofNat 36 * (Num.tau : XR)),
       (h.points c.center).data.y + c.radius * Num.sin (Num.ofNat i / Num.ofNat 36 * (Num.tau : XR))) =
       (fin (x + r * Real.cos (2 * Real.pi * i / 36)), fin (y + r * Real.sin (2 * Real.pi * i / 36))) := by
    intro i
    have : (Num.ofNat i / Num.ofNat 36 * (Num.tau : XR)) = fin (2 * Real.pi * i / 36) := by
      simp only [ofNat_fin, tau_fin]
      rw [div_fin_of_ne _ (by norm_num), mul_fin]
      congr 1; push_cast; ring
    rw [this, hc, hr]; simp
  unfold Ring.asPolygon Polygon.new
  simp only [e1, List.map_nil]
  congr 1
  have h1 : ((List.range 36).map (fun i : Nat => (fin (x + r * Real.cos (2 * Real.pi * i / 36)),
      fin (y + r * Real.sin (2 * Real.pi * i / 36))))).head? = some (fin (x + r), fin y) := by
    simp [List.head?_range]
  have h2 : ((List.range 36).map (fun i : Nat => (fin (x + r * Real.cos (2 * Real.pi * i / 36)),
      fin (y + r * Real.sin (2 * Real.pi * i / 36))))).getLast? =
      some (fin (x + r * Real.cos (2 * Real.pi * 35 / 36)), fin (y + r * Real.sin (2 * Real.pi * 35 / 36))) := by
    rw [List.getLast?_map, List.getLast?_range]; simp
  unfold closeRing
  rw [h1, h2]
  have hne : Real.cos (2 * Real.pi * 35 / 36) ≠ 1 := by
    rw [Ne, Real.cos_eq_one_iff_of_lt_of_lt (by linarith) (by linarith)]
    positivity
  have : ¬(x + r = x + r * Real.cos (2 * Real.pi * 35 / 36)) := by
    intro e
    apply hne
    have : r * (Real.cos (2 * Real.pi * 35 / 36) - 1) = 0 := by linarith
    rcases mul_eq_zero.1 this with h | h
    · exact absurd h h0
    · linarith
  simp [this]

/-- **C50.** All vertices of the polygon of a circle, also of radius zero, are at distance `|radius|` from the centre. -/
theorem C50_distance (h : Heap XR) (c : Circle XR) (x y r : ℝ) (hc : (h.points c.center).data = ⟨fin x, fin y⟩)
    (hr : c.radius = fin r) : ∀ v ∈ ((Ring.circle c).asPolygon h).exterior,
      ∃ a b : ℝ, v = (fin a, fin b) ∧ dist (pt a b) (pt x y) = |r| := by
  have hd : ∀ t : ℝ, dist (pt (x + r * Real.cos t) (y + r * Real.sin t)) (pt x y) = |r| := by
    intro t
    rw [EuclideanSpace.dist_eq]
    simp only [pt, Fin.sum_univ_two, Real.dist_eq, sq_abs]
    simp only [Matrix.cons_val_zero, Matrix.cons_val_one, add_sub_cancel_left]
    rw [mul_pow, mul_pow, ← mul_add, Real.cos_sq_add_sin_sq, mul_one, Real.sqrt_sq_eq_abs]
  have e1 : ∀ i : Nat, ((h.points c.center).data.x + c.radius * Num.cos (Num.ofNat i / Num.ofNat 36 * (Num.tau : XR)),
       (h.points c.center).data.y + c.radius * Num.sin (Num.ofNat i / Num.ofNat 36 * (Num.tau : XR))) =
       (fin (x + r * Real.cos (i / 36 * (2 * Real.pi))), fin (y + r * Real.sin (i / 36 * (2 * Real.pi)))) := by
    intro i
    have : (Num.ofNat i / Num.ofNat 36 * (Num.tau : XR)) = fin (i / 36 * (2 * Real.pi)) := by
      simp only [ofNat_fin, tau_fin]
      rw [div_fin_of_ne _ (by norm_num), mul_fin]
      norm_num
    rw [this, hc, hr]; simp
  intro v hv
  have hclose : ∀ ps : List (XR × XR), ∀ v ∈ closeRing ps, v ∈ ps := by
    intro ps v hv
    unfold closeRing at hv
    split at hv
    next a b ha hb =>
      split at hv
      · exact hv
      · rcases List.mem_append.1 hv with h | h
        · exact h
        · rw [List.mem_singleton.1 h]; exact List.mem_of_head? ha
    next => exact hv
  simp only [Ring.asPolygon, Polygon.new] at hv
  have := hclose _ v hv
  simp only [e1] at this
  obtain ⟨i, -, rfl⟩ := List.mem_map.1 this
  exact ⟨_, _, rfl, hd _⟩

end Isotope
