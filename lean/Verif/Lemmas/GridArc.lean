import Verif.Lemmas.Grid

/-!
# Drawings made of horizontal and vertical lines and of arcs between quarter angles, on the grid
-/

namespace Isotope
open XR

/-- a line between two points, or an arc around a point whose angles are given in right angles; `g` is stored in its gradient -/
inductive GSeg where
  | line (a b : Nat)
  | arc (c : Nat) (r s e : Int) (cw : Bool) (g : Int)

/-- the segment, in exact arithmetic -/
noncomputable def GSeg.xr : GSeg → Segment XR
  | .line a b => .line a b
  | .arc c r s e cw g => .arc ⟨c, ⟨fin r, fin (Real.pi / 2 * s), fin (Real.pi / 2 * e)⟩, ⟨fin g, fin 0, fin 0⟩, cw⟩

/-- the segment, with integers -/
def GSeg.grid : GSeg → Segment Grid
  | .line a b => .line a b
  | .arc c r s e cw g => .arc ⟨c, ⟨⟨r⟩, ⟨s⟩, ⟨e⟩⟩, ⟨⟨g⟩, ⟨0⟩, ⟨0⟩⟩, cw⟩

/-- the segment, the other way -/
def GSeg.reverse : GSeg → GSeg
  | .line a b => .line b a
  | .arc c r s e cw _ => .arc c r e s (!cw) 0

theorem GSeg.xr_reverse (g : GSeg) : g.reverse.xr = g.xr.reverse := by
  cases g with
  | line => rfl
  | arc c r s e cw g =>
    simp only [GSeg.reverse, GSeg.xr, Segment.reverse, Arc.reverse, Arc.new, Arc.radius, Arc.startAngle, Arc.endAngle,
      Row3.zeros, lit0, Int.cast_zero]

theorem GSeg.grid_reverse (g : GSeg) : g.reverse.grid = g.grid.reverse := by cases g <;> rfl

/-- its direction is a multiple of a right angle -/
def GSeg.Good (ps : List (Int × Int)) : GSeg → Prop
  | .line a b => Axis ps (a, b)
  | .arc _ _ s e _ _ => s ∈ ([-1, 0, 1, 2] : List Int) ∧ e ∈ ([-1, 0, 1, 2] : List Int)

instance (ps : List (Int × Int)) (g : GSeg) : Decidable (g.Good ps) := by cases g <;> unfold GSeg.Good <;> infer_instance

/-- an integer, in exact arithmetic -/
noncomputable def Grid.int (a : Grid) : XR := fin a.v

/-- a point with integer coordinates, in exact arithmetic -/
noncomputable def Grid.vec (v : Vec2 Grid) : Vec2 XR := ⟨v.x.int, v.y.int⟩

theorem Grid.vec_beq (u v : Vec2 Grid) : (Grid.vec u).beq (Grid.vec v) = u.beq v := by
  have e : ∀ a b : Grid, (a.int ==. b.int) = (a ==. b) := by
    intro a b
    unfold Grid.int
    rw [eq_fin]
    show decide _ = decide _
    congr 1
    simp
  simp only [Vec2.beq, Grid.vec, e]

theorem quarter_cos (a : Int) (ha : a ∈ ([-1, 0, 1, 2] : List Int)) :
    Real.cos (Real.pi / 2 * a) = ((Num.cos (⟨a⟩ : Grid)).v : ℝ) ∧ Real.sin (Real.pi / 2 * a) = ((Num.sin (⟨a⟩ : Grid)).v : ℝ) := by
  simp only [List.mem_cons, List.not_mem_nil, or_false] at ha
  have e1 : Real.pi / 2 * ((-1 : Int) : ℝ) = -(Real.pi / 2) := by push_cast; ring
  have e2 : Real.pi / 2 * ((2 : Int) : ℝ) = Real.pi := by push_cast; ring
  rcases ha with rfl | rfl | rfl | rfl
  · rw [e1, Real.cos_neg, Real.sin_neg, Real.cos_pi_div_two, Real.sin_pi_div_two]; simp [Num.cos, Num.sin]
  · simp [Num.cos, Num.sin]
  · simp [Num.cos, Num.sin]
  · rw [e2]; simp [Num.cos, Num.sin]

section
variable (ps : List (Int × Int)) (ls ls' : List (Nat × Nat)) (as : List (Arc XR))

theorem GSeg.ends (g : GSeg) (hg : g.Good ps) :
    g.xr.getStart (drawing (realPts ps) ls as) = Grid.vec (g.grid.getStart (gridHeap ps ls')) ∧
    g.xr.getEnd (drawing (realPts ps) ls as) = Grid.vec (g.grid.getEnd (gridHeap ps ls')) := by
  cases g with
  | line a b =>
    simp only [GSeg.xr, GSeg.grid, Segment.getStart, Segment.getEnd, drawing, gridHeap, realPts_getD, toVec, Grid.vec,
      Grid.int, and_self]
  | arc c r s e cw g =>
    obtain ⟨h1, h2⟩ := hg
    have k1 := quarter_cos s h1
    have k2 := quarter_cos e h2
    simp only [GSeg.xr, GSeg.grid, Segment.getStart, Segment.getEnd, Arc.startPoint, Arc.endPoint, Arc.radius, Arc.startAngle,
      Arc.endAngle, drawing, gridHeap, realPts_getD, toVec, cos_fin, sin_fin, mul_fin, add_fin, k1.1, k1.2, k2.1, k2.2]
    have e : ∀ a b c : Grid, fin ((a.v : ℝ) + b.v * c.v) = Grid.int (a + b * c) := by
      intro a b c
      show _ = fin ((a.v + b.v * c.v : Int) : ℝ)
      congr 1; push_cast; ring
    exact ⟨by rw [Grid.vec, ← e, ← e], by rw [Grid.vec, ← e, ← e]⟩

theorem GSeg.beq (g k : GSeg) : g.xr.beq (drawing (realPts ps) ls as) k.xr = g.grid.beq (gridHeap ps ls') k.grid := by
  have hd : ∀ i j, ((drawing (realPts ps) ls as).points i).beq ((drawing (realPts ps) ls as).points j) =
      ((gridHeap ps ls').points i).beq ((gridHeap ps ls').points j) := fun i j => (drawing_same ps ls ls' i j).1
  cases g with
  | line a b =>
    cases k with
    | line a' b' => simp only [GSeg.xr, GSeg.grid, Segment.beq, hd]
    | arc => rfl
  | arc c r s e cw g =>
    cases k with
    | line a' b' => rfl
    | arc c' r' s' e' cw' g' =>
      have i0 : ∀ a b : Int, ((fin (a : ℝ) : XR) ==. fin (b : ℝ)) = ((⟨a⟩ : Grid) ==. ⟨b⟩) := by
        intro a b
        rw [eq_fin]
        show decide _ = decide _
        congr 1
        simp
      have i1 : ((fin 0 : XR) ==. fin 0) = ((⟨0⟩ : Grid) ==. ⟨0⟩) := by simpa using i0 0 0
      have i2 : ∀ a b : Int, ((fin (Real.pi / 2 * (a : ℝ)) : XR) ==. fin (Real.pi / 2 * (b : ℝ))) = ((⟨a⟩ : Grid) ==. ⟨b⟩) := by
        intro a b
        rw [eq_fin]
        show decide _ = decide _
        congr 1
        have := Real.pi_pos
        rw [mul_right_inj' (by positivity)]
        simp
      simp only [GSeg.xr, GSeg.grid, Segment.beq, Arc.beq, hd, Row3.beq, i0, i1, i2]

theorem GSeg.angle (g : GSeg) (hg : g.Good ps) :
    (g.xr.startAngle (drawing (realPts ps) ls as) = quarter (g.grid.startAngle (gridHeap ps ls'))) ∧
    (g.xr.endAngle (drawing (realPts ps) ls as) = quarter (g.grid.endAngle (gridHeap ps ls'))) ∧
    (g.grid.endAngle (gridHeap ps ls')).v ∈ ([-1, 0, 1, 2] : List Int) := by
  cases g with
  | line a b =>
    have := quarter_angle ps ls ls' (a, b) hg
    exact ⟨this.1, this.1, this.2⟩
  | arc c r s e cw g => exact ⟨rfl, rfl, hg.2⟩

theorem GSeg.sim (E : List GSeg) (hE : ∀ e ∈ E, e.Good ps) :
    Sim (drawing (realPts ps) ls as) (E.map GSeg.xr) (gridHeap ps ls') (E.map GSeg.grid) := by
  have get : ∀ {i : Nat} {a : Segment XR} {a' : Segment Grid}, (E.map GSeg.xr)[i]? = some a →
      (E.map GSeg.grid)[i]? = some a' → ∃ e : GSeg, e.Good ps ∧ a = e.xr ∧ a' = e.grid := by
    intro i a a' h1 h2
    rw [List.getElem?_map] at h1 h2
    cases hi : E[i]? with
    | none => rw [hi] at h1; cases h1
    | some e =>
      rw [hi] at h1 h2
      cases h1; cases h2
      exact ⟨e, hE e (List.mem_of_getElem? hi), rfl, rfl⟩
  constructor
  · simp
  · intro i j a b a' b' ha ha' hb hb'
    obtain ⟨e, he, rfl, rfl⟩ := get ha ha'
    obtain ⟨f, hf, rfl, rfl⟩ := get hb hb'
    unfold Segment.continues
    rw [(e.ends ps ls ls' as he).2, (f.ends ps ls ls' as hf).1, Grid.vec_beq]
  · intro i j a b a' b' ha ha' hb hb' _
    obtain ⟨e, -, rfl, rfl⟩ := get ha ha'
    obtain ⟨f, -, rfl, rfl⟩ := get hb hb'
    unfold Segment.equalsOrReverseEquals Segment.reverseEquals
    rw [← GSeg.xr_reverse, ← GSeg.grid_reverse, GSeg.beq ps ls ls' as, GSeg.beq ps ls ls' as]
  · intro i j k a b c a' b' c' ha ha' hb hb' hc hc' _ _
    obtain ⟨e, he, rfl, rfl⟩ := get ha ha'
    obtain ⟨f, hf, rfl, rfl⟩ := get hb hb'
    obtain ⟨g, hg, rfl, rfl⟩ := get hc hc'
    have key : ∀ f : GSeg, f.Good ps →
        turn (drawing (realPts ps) ls as) e.xr f.xr = quarter (turn (gridHeap ps ls') e.grid f.grid) := by
      intro f hf
      unfold turn
      rw [(e.angle ps ls ls' as he).2.1, (f.angle ps ls ls' as hf).1, quarter_rem _ (e.angle ps ls ls' as he).2.2,
        quarter_angleDifference]
    rw [key f hf, key g hg]
    exact quarter_lt _ _

/-- The traced rings of such a drawing, computed with integers. -/
theorem GSeg.traced (s : Sketch) (E : List GSeg)
    (hs : allSegments (drawing (realPts ps) ls as) s = E.map GSeg.xr) (hE : ∀ e ∈ E, e.Good ps) (used : List Nat)
    (is : List (List Nat))
    (hc : (ringLoop (gridHeap ps []) (E.map GSeg.grid) (enumFrom 0 (E.map GSeg.grid)) [] []).1 = used ∧
      (ringLoop (gridHeap ps []) (E.map GSeg.grid) (enumFrom 0 (E.map GSeg.grid)) [] []).2.map (fun l => l.map (·.1)) = is) :
    (tracedRings (drawing (realPts ps) ls as) s).1 = used ∧
    (tracedRings (drawing (realPts ps) ls as) s).2.map (fun r => r.map (·.2)) =
      is.map (fun l => l.filterMap (fun i => (E.map GSeg.xr)[i]?)) := by
  have := (GSeg.sim ps ls [] as E hE).rings
  rw [hc.1, hc.2] at this
  constructor
  · unfold tracedRings; rw [hs]; exact this.1
  · rw [← hs]
    apply traced_of_indices
    unfold tracedRings; rw [hs]; exact this.2

end
end Isotope
