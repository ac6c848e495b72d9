import Verif.Lemmas.LeftWalk
import Verif.Lemmas.Grid

/-!
# Left turns in drawings made of horizontal and vertical lines between grid points (for examples)
-/

namespace Isotope
open XR

/-- a grid point as a real point -/
noncomputable def gpt (p : Int × Int) : ℝ × ℝ := ((p.1 : ℝ), (p.2 : ℝ))

theorem gpt_inj {p q : Int × Int} : gpt p = gpt q ↔ p = q := by
  unfold gpt
  rw [Prod.mk.injEq, Prod.ext_iff]; simp

/-- lines between grid points as lines between real points -/
noncomputable def gls (E : List ((Int × Int) × (Int × Int))) : List ((ℝ × ℝ) × (ℝ × ℝ)) := E.map (fun e => (gpt e.1, gpt e.2))

/-- a direction in right angles -/
def gdir (p q : Int × Int) : Int :=
  if 0 < q.1 - p.1 then 0 else if 0 < q.2 - p.2 then 1 else if q.1 - p.1 < 0 then 2 else -1

/-- a left turn in right angles -/
def gturn (a b c : Int × Int) : Int := (gdir b c - gdir b a) % 4

/-- horizontal or vertical, and not a point -/
def GAxis (p q : Int × Int) : Prop := (p.1 = q.1 ∧ p.2 ≠ q.2) ∨ (p.2 = q.2 ∧ p.1 ≠ q.1)

instance (p q : Int × Int) : Decidable (GAxis p q) := by unfold GAxis; infer_instance

theorem direction_grid {p q : Int × Int} (h : GAxis p q) : direction (gpt p) (gpt q) = Real.pi / 2 * gdir p q := by
  have := (quarter_angle [p, q] [] [] (0, 1) (by simpa [Axis, GAxis] using h)).1
  simp only [Segment.startAngle, drawing, realPts_getD, toVec, sub_fin, atan2_fin, quarter, gridHeap] at this
  have := XR.fin.inj this
  simp only [List.getD_cons_zero, List.getD_cons_succ] at this
  unfold direction gpt
  rw [this]
  congr 2
  show (Num.atan2 _ _ : Grid).v = _
  unfold gdir
  show (if 0 < q.1 - p.1 then (⟨0⟩ : Grid) else if 0 < q.2 - p.2 then ⟨1⟩ else if q.1 - p.1 < 0 then ⟨2⟩ else ⟨-1⟩).v = _
  split
  · rfl
  · split
    · rfl
    · split <;> rfl

theorem leftTurn_grid {a b c : Int × Int} (h1 : GAxis b a) (h2 : GAxis b c) :
    leftTurn (gpt a) (gpt b) (gpt c) = Real.pi / 2 * gturn a b c := by
  have hp := Real.pi_pos
  obtain ⟨k, e⟩ := leftTurn_spec (gpt a) (gpt b) (gpt c)
  rw [direction_grid h1, direction_grid h2] at e
  have g1 : 0 ≤ gturn a b c := Int.emod_nonneg _ (by norm_num)
  have g2 : gturn a b c < 4 := Int.emod_lt_of_pos _ (by norm_num)
  have g3 := Int.emod_add_mul_ediv (gdir b c - gdir b a) 4
  have r1 : (0 : ℝ) ≤ gturn a b c := by exact_mod_cast g1
  have r2 : (gturn a b c : ℝ) < 4 := by exact_mod_cast g2
  have r3 : (gturn a b c : ℝ) + 4 * (((gdir b c - gdir b a) / 4 : Int) : ℝ) = (gdir b c : ℝ) - gdir b a := by
    unfold gturn; exact_mod_cast g3
  refine turn_unique (k := k + (gdir b c - gdir b a) / 4) (leftTurn_nonneg _ _ _) (leftTurn_lt _ _ _) (by positivity)
    (by nlinarith) ?_
  rw [e]
  push_cast
  linear_combination (-Real.pi / 2) * r3

/-- joined, on the grid -/
def GJoined (E : List ((Int × Int) × (Int × Int))) (p q : Int × Int) : Prop := (p, q) ∈ E ∨ (q, p) ∈ E

instance (E : List ((Int × Int) × (Int × Int))) (p q : Int × Int) : Decidable (GJoined E p q) := by
  unfold GJoined; infer_instance

theorem GJoined.mem {E : List ((Int × Int) × (Int × Int))} {p q : Int × Int} (h : GJoined E p q) :
    (p, q) ∈ E ++ E.map Prod.swap := by
  rw [List.mem_append, List.mem_map]
  rcases h with h | h
  · exact .inl h
  · exact .inr ⟨_, h, rfl⟩

theorem joined_gpt {E : List ((Int × Int) × (Int × Int))} {p q : Int × Int} : Joined (gls E) (gpt p) (gpt q) ↔ GJoined E p q := by
  unfold Joined GJoined gls
  simp only [List.mem_map, Prod.mk.injEq, gpt_inj]
  constructor
  · rintro (⟨⟨a, b⟩, h, rfl, rfl⟩ | ⟨⟨a, b⟩, h, rfl, rfl⟩)
    · exact .inl h
    · exact .inr h
  · rintro (h | h)
    · exact .inl ⟨_, h, rfl, rfl⟩
    · exact .inr ⟨_, h, rfl, rfl⟩

theorem joined_grid {E : List ((Int × Int) × (Int × Int))} {x y : ℝ × ℝ} (h : Joined (gls E) x y) :
    ∃ p q, x = gpt p ∧ y = gpt q ∧ GJoined E p q := by
  unfold Joined gls at h
  simp only [List.mem_map, Prod.mk.injEq] at h
  rcases h with ⟨⟨a, b⟩, h, rfl, rfl⟩ | ⟨⟨a, b⟩, h, rfl, rfl⟩
  · exact ⟨a, b, rfl, rfl, .inl h⟩
  · exact ⟨b, a, rfl, rfl, .inr h⟩

/-- all lines are horizontal or vertical -/
def GLines (E : List ((Int × Int) × (Int × Int))) : Prop := ∀ e ∈ E ++ E.map Prod.swap, GAxis e.1 e.2

instance (E : List ((Int × Int) × (Int × Int))) : Decidable (GLines E) := by unfold GLines; infer_instance

theorem GLines.axis {E : List ((Int × Int) × (Int × Int))} (hE : GLines E) {p q : Int × Int} (h : GJoined E p q) :
    GAxis p q := by
  exact hE (p, q) h.mem

/-- hardest left turn, on the grid -/
def GHardest (E : List ((Int × Int) × (Int × Int))) (a b c : Int × Int) : Prop :=
  GJoined E b a ∧ GJoined E b c ∧ c ≠ a ∧ ∀ e ∈ E ++ E.map Prod.swap, e.1 = b → e.2 ≠ a → gturn a b e.2 ≤ gturn a b c

instance (E : List ((Int × Int) × (Int × Int))) (a b c : Int × Int) : Decidable (GHardest E a b c) := by
  unfold GHardest; infer_instance

theorem GHardest.hardest {E : List ((Int × Int) × (Int × Int))} (hE : GLines E) {a b c : Int × Int} (h : GHardest E a b c) :
    HardestLeft (gls E) (gpt a) (gpt b) (gpt c) := by
  have hp := Real.pi_pos
  obtain ⟨h0, h1, h2, h3⟩ := h
  refine ⟨joined_gpt.2 h1, fun e => h2 (gpt_inj.1 e), fun d hd hda => ?_⟩
  obtain ⟨b', d', e1, rfl, hj⟩ := joined_grid hd
  have := gpt_inj.1 e1
  subst this
  rw [leftTurn_grid (hE.axis h0) (hE.axis hj), leftTurn_grid (hE.axis h0) (hE.axis h1)]
  have hle := h3 (b, d') hj.mem rfl (fun e => hda (by rw [show d' = a from e]))
  have : (gturn a b d' : ℝ) ≤ gturn a b c := by exact_mod_cast hle
  exact mul_le_mul_of_nonneg_left this (by positivity)

/-- a plain drawing, on the grid -/
def GPlain (E : List ((Int × Int) × (Int × Int))) : Prop :=
  GLines E ∧ (E ++ E.map Prod.swap).Nodup ∧ ∀ e ∈ E ++ E.map Prod.swap, ∀ f ∈ E ++ E.map Prod.swap, e.1 = f.1 →
    gturn e.2 e.1 f.2 = 0 → e.2 = f.2

instance (E : List ((Int × Int) × (Int × Int))) : Decidable (GPlain E) := by unfold GPlain; infer_instance

theorem GPlain.plain {E : List ((Int × Int) × (Int × Int))} (h : GPlain E) : PlainLines (gls E) := by
  have hp := Real.pi_pos
  obtain ⟨h1, h2, h3⟩ := h
  refine ⟨?_, ?_⟩
  · have e : gls E ++ (gls E).map Prod.swap = (E ++ E.map Prod.swap).map (fun e => (gpt e.1, gpt e.2)) := by
      unfold gls; rw [List.map_append, List.map_map, List.map_map]; rfl
    rw [e]
    refine h2.map ?_
    rintro ⟨a, b⟩ ⟨c, d⟩ e
    have e' := Prod.mk.inj e
    exact Prod.ext (gpt_inj.1 e'.1) (gpt_inj.1 e'.2)
  · intro x y z hx hz ht
    obtain ⟨b, a, rfl, rfl, hj⟩ := joined_grid hx
    obtain ⟨b', c, e1, rfl, hj'⟩ := joined_grid hz
    have := gpt_inj.1 e1
    subst this
    rw [leftTurn_grid (h1.axis hj) (h1.axis hj')] at ht
    have hg : gturn a b c = 0 := by
      rcases mul_eq_zero.1 ht with h | h
      · exfalso; linarith
      · exact_mod_cast h
    exact gpt_inj.2 (h3 (b, a) hj.mem (b, c) hj'.mem rfl hg)

/-- around, on the grid -/
def GAround (E : List ((Int × Int) × (Int × Int))) (vs : List (Int × Int)) : Prop :=
  vs ≠ [] ∧ vs.Nodup ∧ ∀ i ∈ List.range vs.length,
    GHardest E (vs.getD i (0, 0)) (vs.getD ((i + 1) % vs.length) (0, 0)) (vs.getD ((i + 2) % vs.length) (0, 0))

instance (E : List ((Int × Int) × (Int × Int))) (vs : List (Int × Int)) : Decidable (GAround E vs) := by
  unfold GAround; infer_instance

theorem GAround.around {E : List ((Int × Int) × (Int × Int))} (hE : GLines E) {vs : List (Int × Int)} (h : GAround E vs) :
    Around (gls E) (vs.map gpt) := by
  obtain ⟨h1, h2, h3⟩ := h
  refine ⟨by simpa using h1, h2.map (fun a b e => gpt_inj.1 e), fun i a b c ha hb hc => ?_⟩
  rw [List.length_map] at hb hc
  rw [List.getElem?_map, Option.map_eq_some_iff] at ha hb hc
  obtain ⟨a', ha, rfl⟩ := ha
  obtain ⟨b', hb, rfl⟩ := hb
  obtain ⟨c', hc, rfl⟩ := hc
  have hl : i < vs.length := by
    by_contra hl
    rw [List.getElem?_eq_none (by omega)] at ha; cases ha
  have := h3 i (List.mem_range.2 hl)
  simp only [List.getD_eq_getElem?_getD, ha, hb, hc, Option.getD_some] at this
  exact this.hardest hE

theorem edges_gpt (vs : List (Int × Int)) : edges (vs.map gpt) = (edges vs).map (fun e => (gpt e.1, gpt e.2)) := by
  unfold edges
  rw [← List.map_rotate, List.zip_map]
  rfl

/-- every line is on a way around, on the grid -/
theorem covered_grid {E : List ((Int × Int) × (Int × Int))} (hE : GLines E) {vss : List (List (Int × Int))}
    (h1 : ∀ vs ∈ vss, GAround E vs) (h2 : ∀ e ∈ E ++ E.map Prod.swap, ∃ vs ∈ vss, e ∈ edges vs) (p q : ℝ × ℝ)
    (hj : Joined (gls E) p q) : ∃ vs, Around (gls E) vs ∧ (p, q) ∈ edges vs := by
  obtain ⟨p, q, rfl, rfl, hj'⟩ := joined_grid hj
  obtain ⟨vs, hv, he⟩ := h2 (p, q) hj'.mem
  refine ⟨vs.map gpt, (h1 vs hv).around hE, ?_⟩
  rw [edges_gpt, List.mem_map]
  exact ⟨(p, q), he, rfl⟩

/-- the lines of a drawing on the grid -/
theorem drawing_lines (ps : List (Int × Int)) (ls ls' : List (Nat × Nat)) (s : Sketch)
    (hs : drawn (drawing (realPts ps) ls []) s = linesOf XR ls') :
    DrawnLines (drawing (realPts ps) ls []) s (gls (ls'.map (fun e => (ps.getD e.1 (0, 0), ps.getD e.2 (0, 0))))) := by
  unfold DrawnLines gls
  rw [hs, linesOf, List.map_map, List.forall₂_map_left_iff, List.forall₂_map_right_iff, List.forall₂_same]
  intro e _
  refine ⟨⟨_, _, rfl⟩, ?_, ?_⟩
  · unfold WayBack
    simp [Segment.reverse, Segment.beq, Point2.beq, Vec2.beq, drawing, toVec]
  · unfold EndsAt
    simp only [Segment.getStart, Segment.getEnd, drawing, realPts_getD, toVec, gpt, Function.comp, and_self]

end Isotope
