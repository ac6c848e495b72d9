import Verif.SpecSpread
import Verif.Lemmas.Torque

/-!
# The forces of a constraint about directions are at right angles to its lines
-/

namespace Isotope
open XR

variable {u v : ℝ}

/-- how a coordinate changes when the sketch grows from `(u, v)` -/
noncomputable def swell (u v : ℝ) (h : Heap XR) : Dof → ℝ
  | .px a => (h.points a).data.x.toReal - u
  | .py a => (h.points a).data.y.toReal - v
  | _ => 0

theorem angleForce_swell {a b c d D : ℝ} (h1 : hyp a b ≠ 0) (h2 : hyp c d ≠ 0) :
    a * (angleForce a b c d D).1 + b * (angleForce a b c d D).2 = 0 := by
  unfold angleForce
  dsimp only
  generalize (Real.arccos _ - D) * _ = k
  have e : a ^ 2 + b ^ 2 = hyp a b ^ 2 := by rw [sq, sq, sq, hyp_sq']
  field_simp
  linear_combination (-k) * (a * c + b * d) * e

theorem crossForce_swell {a b c d : ℝ} (h1 : hyp a b ≠ 0) :
    a * (crossForce a b c d).1 + b * (crossForce a b c d).2 = 0 := by
  unfold crossForce
  dsimp only
  rw [← hyp_sq' a b]
  have k : (a * a + b * b) / (hyp a b * hyp a b) = 1 := by rw [← hyp_sq' a b]; exact div_self (mul_ne_zero h1 h1)
  linear_combination (-(a * (d / hyp c d) - b * (c / hyp c d)) * (a / hyp a b * (d / hyp c d) - b / hyp a b * (c / hyp c d)) / hyp a b) * k

theorem dotForce_swell {a b c d : ℝ} (h1 : hyp a b ≠ 0) :
    a * (dotForce a b c d).1 + b * (dotForce a b c d).2 = 0 := by
  unfold dotForce
  dsimp only
  rw [← hyp_sq' a b]
  have k : (a * a + b * b) / (hyp a b * hyp a b) = 1 := by rw [← hyp_sq' a b]; exact div_self (mul_ne_zero h1 h1)
  linear_combination (-(a * (c / hyp c d) + b * (d / hyp c d)) * (a / hyp a b * (c / hyp c d) + b / hyp a b * (d / hyp c d)) / hyp a b) * k

theorem swell_pt {h : Heap XR} {p : Nat} {x y : ℝ} (e : ptData h p = ⟨fin x, fin y⟩) : swell u v h (.px p) = x - u ∧ swell u v h (.py p) = y - v := by
  have e' : (h.points p).data = ⟨fin x, fin y⟩ := e
  simp [swell, e', toReal_fin]
theorem swell_start {h : Heap XR} {l : Nat} {x y : ℝ} (e : lineStart h l = ⟨fin x, fin y⟩) :
    swell u v h (.px (h.lines l).start) = x - u ∧ swell u v h (.py (h.lines l).start) = y - v := swell_pt e
theorem swell_stop {h : Heap XR} {l : Nat} {x y : ℝ} (e : lineEnd h l = ⟨fin x, fin y⟩) :
    swell u v h (.px (h.lines l).stop) = x - u ∧ swell u v h (.py (h.lines l).stop) = y - v := swell_pt e

theorem RealCons.swell_zero {h : Heap XR} {c : Constraint XR} (hc : RealCons h c) (hk : ScaleFree c) :
    ((contribs h c).map fun e => swell u v h e.1 * e.2).sum = 0 := by
  unfold contribs
  cases hc with
  | @angle p1 p2 mid x1 y1 x2 y2 x y D e1 e2 e =>
    rw [chunks_angle e1 e2 e]; dsimp only
    split
    · simp
    · rename_i q
      obtain ⟨q1, q2⟩ := not_or.1 (not_or.1 q).1
      have n1 : hyp (x1 - x) (y1 - y) ≠ 0 := by intro z; rw [z] at q1; norm_num at q1
      have n2 : hyp (x2 - x) (y2 - y) ≠ 0 := by intro z; rw [z] at q2; norm_num at q2
      have t := angleForce_swell (D := D) n1 n2
      have t' := angleForce_swell (D := D) n2 n1
      simp only [Chunk.contrib, List.flatMap_cons, List.flatMap_nil, List.append_nil, List.cons_append, List.nil_append, List.map_cons,
        List.map_nil, List.sum_cons, List.sum_nil, toReal_fin, swell_pt e1, swell_pt e2, swell_pt e]
      linear_combination t + t'
  | @parallel l m x1 y1 x2 y2 u1 v1 u2 v2 e1 e2 f1 f2 =>
    rw [chunks_parallel e1 e2 f1 f2]; dsimp only
    split
    · simp
    · rename_i q
      have t := crossForce_swell (c := u2 - u1) (d := v2 - v1) (not_or.1 q).1
      have t' := crossForce_swell (c := x2 - x1) (d := y2 - y1) (not_or.1 q).2
      simp only [Chunk.contrib, List.flatMap_cons, List.flatMap_nil, List.append_nil, List.cons_append, List.nil_append, List.map_cons,
        List.map_nil, List.sum_cons, List.sum_nil, toReal_fin, swell_start e1, swell_stop e2, swell_start f1, swell_stop f2]
      linear_combination t + t'
  | @perp l m x1 y1 x2 y2 u1 v1 u2 v2 e1 e2 f1 f2 =>
    rw [chunks_perp e1 e2 f1 f2]; dsimp only
    split
    · simp
    · rename_i q
      have t := dotForce_swell (c := u2 - u1) (d := v2 - v1) (not_or.1 q).1
      have t' := dotForce_swell (c := x2 - x1) (d := y2 - y1) (not_or.1 q).2
      simp only [Chunk.contrib, List.flatMap_cons, List.flatMap_nil, List.append_nil, List.cons_append, List.nil_append, List.map_cons,
        List.map_nil, List.sum_cons, List.sum_nil, toReal_fin, swell_start e1, swell_stop e2, swell_start f1, swell_stop f2]
      linear_combination t + t'
  | _ => simp [ScaleFree] at hk

variable {h : Heap XR} {s : Sketch}

/-- a constraint about directions does not make the sketch grow -/
theorem swell_form (hn : s.cells.Nodup) (hc : s.Covers h) (hf : FiniteSketch h s) {k : Nat} (hk : k ∈ s.cons) (hu : ScaleFree (h.cons k)) :
    form s.dofs (swell u v h) (total (contribs h (h.cons k))) = 0 := by
  rw [form_total (Sketch.dofs_nodup hn) _ _ fun e he => mem_sketch_dofs.2 (hc k hk _ (contribs_owner e he))]
  exact (hc.finite hf k hk).real.swell_zero hu

/-- the spread after a movement -/
theorem spread_form (h h' : Heap XR) : spreadAbout s u v h' = spreadAbout s u v h +
    2 * form s.dofs (swell u v h) (fun d => (val h' d).toReal - (val h d).toReal) + walkSq s h h' := by
  unfold spreadAbout walkSq form Sketch.dofs
  rw [List.map_flatMap]
  induction s.cells with
  | nil => simp
  | cons c l ih =>
    rw [List.map_cons, List.sum_cons, List.flatMap_cons, List.sum_append, List.map_cons, List.sum_cons, List.map_cons, List.sum_cons, ih]
    cases c <;> simp [primSpread, primWalk, dofs, swell, val] <;> ring

theorem primSpread_nonneg (c : PrimCell) : 0 ≤ primSpread u v h c := by cases c <;> simp only [primSpread] <;> positivity
theorem primWalk_nonneg {h' : Heap XR} (c : PrimCell) : 0 ≤ primWalk h h' c := by cases c <;> simp only [primWalk] <;> positivity
theorem walkSq_nonneg (h h' : Heap XR) : 0 ≤ walkSq s h h' :=
  List.sum_nonneg fun x hx => by obtain ⟨c, -, rfl⟩ := List.mem_map.1 hx; exact primWalk_nonneg c

theorem gradOnly_point {h h' : Heap XR} (g : GradOnly h h') (a : Nat) : (h'.points a).data = (h.points a).data := by
  have := g.2 (.point a)
  simp only [primData] at this
  cases q : (h'.points a).data; cases q' : (h.points a).data
  rw [q, q'] at this
  simpa using this

theorem spread_gradOnly {h h' : Heap XR} (g : GradOnly h h') : spreadAbout s u v h' = spreadAbout s u v h := by
  refine congrArg List.sum (List.map_congr_left fun c _ => ?_)
  cases c <;> simp only [primSpread]
  rw [gradOnly_point g]

/-- the sums of the coordinates of all points, and their number -/
noncomputable def cellsX (l : List PrimCell) (h : Heap XR) : ℝ := (l.map fun | .point a => (h.points a).data.x.toReal | _ => 0).sum
noncomputable def cellsY (l : List PrimCell) (h : Heap XR) : ℝ := (l.map fun | .point a => (h.points a).data.y.toReal | _ => 0).sum
noncomputable def cellsN (l : List PrimCell) : ℝ := (l.map fun | .point _ => (1 : ℝ) | _ => 0).sum
noncomputable def cellsQ (l : List PrimCell) (h : Heap XR) : ℝ := (l.map (primSpread 0 0 h)).sum

theorem spread_expand (l : List PrimCell) (h : Heap XR) :
    (l.map (primSpread u v h)).sum = cellsQ l h - 2 * u * cellsX l h - 2 * v * cellsY l h + (u ^ 2 + v ^ 2) * cellsN l := by
  unfold cellsQ cellsX cellsY cellsN
  induction l with
  | nil => simp
  | cons c l ih =>
    simp only [List.map_cons, List.sum_cons, ih]
    cases c <;> simp only [primSpread] <;> ring

theorem apart_expand (l l' : List PrimCell) (h : Heap XR) :
    (l.map fun c => (l'.map (primApart h c)).sum).sum =
      cellsN l * cellsQ l' h + cellsN l' * cellsQ l h - 2 * cellsX l h * cellsX l' h - 2 * cellsY l h * cellsY l' h := by
  have one : ∀ c, (l'.map (primApart h c)).sum =
      match c with | .point a => (l'.map (primSpread (h.points a).data.x.toReal (h.points a).data.y.toReal h)).sum | _ => 0 := by
    intro c
    cases c with
    | point a =>
      refine congrArg List.sum (List.map_congr_left fun e _ => ?_)
      cases e <;> simp only [primApart, primSpread]
      ring
    | _ => exact List.sum_eq_zero fun x hx => by obtain ⟨e, -, rfl⟩ := List.mem_map.1 hx; cases e <;> rfl
  simp only [one, spread_expand]
  generalize cellsX l' h = X
  generalize cellsY l' h = Y
  generalize cellsQ l' h = Q
  generalize cellsN l' = N
  unfold cellsX cellsY cellsN cellsQ
  induction l with
  | nil => simp
  | cons c l ih =>
    simp only [List.map_cons, List.sum_cons, ih]
    cases c <;> simp only [primSpread] <;> ring

end Isotope
