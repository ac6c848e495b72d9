import Verif.Lemmas.Sim
import Verif.Props.Polygon

/-!
# Drawings made of horizontal and vertical lines between grid points

Their rings are computed with integers (angles counted in right angles) and transferred to exact arithmetic with
`Verif.Lemmas.Sim`.
-/

namespace Isotope
open XR

/-- an integer; as an angle, a number of right angles -/
structure Grid where
  /-- the integer -/
  v : Int

/-- A computable arithmetic for drawings made of horizontal and vertical lines (used in proofs only). -/
instance : Num Grid where
  add a b := ⟨a.v + b.v⟩
  sub a b := ⟨a.v - b.v⟩
  mul a b := ⟨a.v * b.v⟩
  div a b := ⟨a.v / b.v⟩
  neg a := ⟨-a.v⟩
  rem a b := ⟨a.v.tmod b.v⟩
  abs a := ⟨a.v.natAbs⟩
  sqrt a := a
  cos a := if a.v % 4 = 0 then ⟨1⟩ else if a.v % 4 = 2 then ⟨-1⟩ else ⟨0⟩
  sin a := if a.v % 4 = 1 then ⟨1⟩ else if a.v % 4 = 3 then ⟨-1⟩ else ⟨0⟩
  acos a := a
  atan2 y x := if 0 < x.v then ⟨0⟩ else if 0 < y.v then ⟨1⟩ else if x.v < 0 then ⟨2⟩ else ⟨-1⟩
  ofSci m s e := if s then ⟨(m : Int) / 10 ^ e⟩ else ⟨m * 10 ^ e⟩
  ofNat n := ⟨n⟩
  pi := ⟨2⟩
  tau := ⟨4⟩
  inf := ⟨0⟩
  lt a b := decide (a.v < b.v)
  le a b := decide (a.v ≤ b.v)
  eq a b := decide (a.v = b.v)
  isFinite _ := true
  totalLe a b := decide (a.v ≤ b.v)

/-- the same drawing with integers -/
def gridHeap (ps : List (Int × Int)) (ls : List (Nat × Nat)) : Heap Grid :=
  { (Heap.empty : Heap Grid) with
    points := fun i => ⟨⟨⟨(ps.getD i (0, 0)).1⟩, ⟨(ps.getD i (0, 0)).2⟩⟩, ⟨⟨0⟩, ⟨0⟩⟩⟩
    lines := fun i => ⟨(ls.getD i (0, 0)).1, (ls.getD i (0, 0)).2⟩
    nPoints := ps.length
    nLines := ls.length }

/-- the grid points as real points -/
noncomputable def realPts (ps : List (Int × Int)) : List (ℝ × ℝ) := ps.map (fun p => ((p.1 : ℝ), (p.2 : ℝ)))

theorem realPts_getD (ps : List (Int × Int)) (i : Nat) :
    (realPts ps).getD i (0, 0) = (((ps.getD i (0, 0)).1 : ℝ), ((ps.getD i (0, 0)).2 : ℝ)) := by
  unfold realPts
  rw [List.getD_eq_getElem?_getD, List.getD_eq_getElem?_getD, List.getElem?_map]
  cases ps[i]? <;> simp

/-- an integer number of right angles -/
noncomputable def quarter (a : Grid) : XR := fin (Real.pi / 2 * a.v)

theorem quarter_lt (a b : Grid) : (quarter a <. quarter b) = (a <. b) := by
  have hp := Real.pi_pos
  unfold quarter
  rw [lt_fin]
  show _ = decide _
  congr 1
  rw [mul_lt_mul_iff_right₀ (by positivity)]
  simp

theorem quarter_add (a b : Grid) : quarter a + quarter b = quarter (a + b) := by
  unfold quarter
  rw [add_fin]
  show _ = fin (Real.pi / 2 * ((a.v + b.v : Int) : ℝ))
  congr 1; push_cast; ring

theorem quarter_sub (a b : Grid) : quarter a - quarter b = quarter (a - b) := by
  unfold quarter
  rw [sub_fin]
  show _ = fin (Real.pi / 2 * ((a.v - b.v : Int) : ℝ))
  congr 1; push_cast; ring

theorem quarter_tau : (Num.tau : XR) = quarter Num.tau := by
  rw [tau_fin]
  show _ = fin (Real.pi / 2 * ((4 : Int) : ℝ))
  congr 1; push_cast; ring

theorem quarter_pi : (Num.pi : XR) = quarter Num.pi := by
  rw [pi_fin]
  show _ = fin (Real.pi / 2 * ((2 : Int) : ℝ))
  congr 1; push_cast; ring

theorem quarter_zero : (0.0 : XR) = quarter (0.0 : Grid) := by
  rw [lit0]
  show _ = fin (Real.pi / 2 * ((0 : Int) : ℝ))
  simp

theorem quarter_ite (c : Bool) (a b : Grid) :
    (if c = true then quarter a else quarter b) = quarter (if c = true then a else b) := by cases c <;> rfl

theorem quarter_angleDifference (a b : Grid) :
    angleDifference (quarter a) (quarter b) = quarter (angleDifference a b) := by
  unfold angleDifference gt
  simp only [quarter_tau, quarter_zero, quarter_lt, quarter_sub, quarter_add, quarter_ite]

/-- the line from `e.1` to `e.2` is horizontal or vertical, and not a point -/
def Axis (ps : List (Int × Int)) (e : Nat × Nat) : Prop :=
  let p := ps.getD e.1 (0, 0)
  let q := ps.getD e.2 (0, 0)
  (p.1 = q.1 ∧ p.2 ≠ q.2) ∨ (p.2 = q.2 ∧ p.1 ≠ q.1)

instance (ps : List (Int × Int)) (e : Nat × Nat) : Decidable (Axis ps e) := by unfold Axis; infer_instance

theorem quarter_angle (ps : List (Int × Int)) (ls ls' : List (Nat × Nat)) (e : Nat × Nat) (ha : Axis ps e) :
    ((Segment.line e.1 e.2 : Segment XR).startAngle (drawing (realPts ps) ls []) =
      quarter ((Segment.line e.1 e.2 : Segment Grid).startAngle (gridHeap ps ls'))) ∧
    ((Segment.line e.1 e.2 : Segment Grid).startAngle (gridHeap ps ls')).v ∈ ([-1, 0, 1, 2] : List Int) := by
  simp only [Segment.startAngle, drawing, gridHeap, realPts_getD, toVec, sub_fin]
  unfold Axis at ha
  generalize ps.getD e.1 (0, 0) = p at *
  generalize ps.getD e.2 (0, 0) = q at *
  obtain ⟨px, py⟩ := p
  obtain ⟨qx, qy⟩ := q
  rw [atan2_fin]
  show fin (Complex.arg ⟨(qx : ℝ) - px, (qy : ℝ) - py⟩) = quarter (if 0 < qx - px then ⟨0⟩ else if 0 < qy - py then ⟨1⟩
    else if qx - px < 0 then ⟨2⟩ else ⟨-1⟩) ∧ (if 0 < qx - px then (⟨0⟩ : Grid) else if 0 < qy - py then ⟨1⟩
    else if qx - px < 0 then ⟨2⟩ else ⟨-1⟩).v ∈ _
  dsimp only at ha
  rcases ha with ⟨h1, h2⟩ | ⟨h1, h2⟩
  · subst h1
    have e1 : ((px : ℝ) - px) = 0 := sub_self _
    rw [if_neg (by omega), e1]
    by_cases hl : py < qy
    · rw [if_pos (by omega)]
      have : (0 : ℝ) < (qy : ℝ) - py := sub_pos.2 (by exact_mod_cast hl)
      have e2 : (⟨0, (qy : ℝ) - py⟩ : ℂ) = (((qy : ℝ) - py : ℝ) : ℂ) * Complex.I := by
        apply Complex.ext <;> simp
      rw [e2, Complex.arg_real_mul _ this, Complex.arg_I]
      exact ⟨by simp [quarter], by simp⟩
    · rw [if_neg (by omega), if_neg (by omega)]
      have hl' : qy < py := by omega
      have : (0 : ℝ) < (py : ℝ) - qy := sub_pos.2 (by exact_mod_cast hl')
      have e2 : (⟨0, (qy : ℝ) - py⟩ : ℂ) = (((py : ℝ) - qy : ℝ) : ℂ) * (-Complex.I) := by
        apply Complex.ext <;> simp
      rw [e2, Complex.arg_real_mul _ this, Complex.arg_neg_I]
      exact ⟨by simp [quarter], by simp⟩
  · subst h1
    have e1 : ((py : ℝ) - py) = 0 := sub_self _
    rw [e1]
    by_cases hl : px < qx
    · rw [if_pos (by omega)]
      have : (0 : ℝ) < (qx : ℝ) - px := sub_pos.2 (by exact_mod_cast hl)
      have e2 : (⟨(qx : ℝ) - px, 0⟩ : ℂ) = (((qx : ℝ) - px : ℝ) : ℂ) := by apply Complex.ext <;> simp
      rw [e2, Complex.arg_ofReal_of_nonneg this.le]
      exact ⟨by simp [quarter], by simp⟩
    · rw [if_neg (by omega), if_neg (by omega), if_pos (by omega)]
      have hl' : qx < px := by omega
      have : (qx : ℝ) - px < 0 := sub_neg.2 (by exact_mod_cast hl')
      have e2 : (⟨(qx : ℝ) - px, 0⟩ : ℂ) = (((qx : ℝ) - px : ℝ) : ℂ) := by apply Complex.ext <;> simp
      rw [e2, Complex.arg_ofReal_of_neg this]
      refine ⟨?_, by simp⟩
      simp [quarter]

theorem quarter_rem (a : Grid) (ha : a.v ∈ ([-1, 0, 1, 2] : List Int)) :
    Num.rem (quarter a + Num.pi) ((2.0 : XR) * Num.pi) = quarter (Num.rem (a + Num.pi) ((2.0 : Grid) * Num.pi)) := by
  have hp := Real.pi_pos
  rw [lit2, pi_fin, quarter, add_fin, mul_fin]
  show XR.rem _ _ = quarter ⟨(a.v + 2).tmod 4⟩
  rw [XR.rem, if_neg (by positivity)]
  obtain ⟨a⟩ := a
  have e : (Real.pi / 2 * (a : ℝ) + Real.pi) / (2 * Real.pi) = ((a : ℝ) + 2) / 4 := by field_simp; ring
  dsimp only
  rw [e]
  simp only [List.mem_cons, List.not_mem_nil, or_false] at ha
  unfold trunc quarter
  rcases ha with rfl | rfl | rfl | rfl
  all_goals push_cast; norm_num
  · ring
  · ring
  · ring

theorem drawing_same (ps : List (Int × Int)) (ls ls' : List (Nat × Nat)) (i j : Nat) :
    ((drawing (realPts ps) ls []).points i).beq ((drawing (realPts ps) ls []).points j) =
      ((gridHeap ps ls').points i).beq ((gridHeap ps ls').points j) ∧
    ((drawing (realPts ps) ls []).points i).data.beq ((drawing (realPts ps) ls []).points j).data =
      ((gridHeap ps ls').points i).data.beq ((gridHeap ps ls').points j).data := by
  have e : ∀ a b : Int, ((fin (a : ℝ) : XR) ==. fin (b : ℝ)) = ((⟨a⟩ : Grid) ==. ⟨b⟩) := by
    intro a b
    rw [eq_fin]
    show decide _ = decide _
    congr 1
    simp
  have e0 : ((fin 0 : XR) ==. fin 0) = ((⟨0⟩ : Grid) ==. ⟨0⟩) := by simpa using e 0 0
  simp only [Point2.beq, Vec2.beq, drawing, gridHeap, realPts_getD, toVec, e, e0, and_self]

/-- the lines with the given end points -/
def linesOf (F : Type) (E : List (Nat × Nat)) : List (Segment F) := E.map (fun e => .line e.1 e.2)

theorem grid_sim (ps : List (Int × Int)) (ls ls' : List (Nat × Nat)) (E : List (Nat × Nat)) (hE : ∀ e ∈ E, Axis ps e) :
    Sim (drawing (realPts ps) ls []) (linesOf XR E) (gridHeap ps ls') (linesOf Grid E) := by
  have get : ∀ {i : Nat} {a : Segment XR} {a' : Segment Grid}, (linesOf XR E)[i]? = some a → (linesOf Grid E)[i]? = some a' →
      ∃ e, Axis ps e ∧ a = .line e.1 e.2 ∧ a' = .line e.1 e.2 := by
    intro i a a' h1 h2
    unfold linesOf at h1 h2
    rw [List.getElem?_map] at h1 h2
    cases hi : E[i]? with
    | none => rw [hi] at h1; cases h1
    | some e =>
      rw [hi] at h1 h2
      cases h1; cases h2
      exact ⟨e, hE e (List.mem_of_getElem? hi), rfl, rfl⟩
  constructor
  · simp [linesOf]
  · intro i j a b a' b' ha ha' hb hb'
    obtain ⟨e, -, rfl, rfl⟩ := get ha ha'
    obtain ⟨f, -, rfl, rfl⟩ := get hb hb'
    exact (drawing_same ps ls ls' _ _).2
  · intro i j a b a' b' ha ha' hb hb' _
    obtain ⟨e, -, rfl, rfl⟩ := get ha ha'
    obtain ⟨f, -, rfl, rfl⟩ := get hb hb'
    simp only [Segment.equalsOrReverseEquals, Segment.reverseEquals, Segment.reverse, Segment.beq,
      (drawing_same ps ls ls' _ _).1]
  · intro i j k a b c a' b' c' ha ha' hb hb' hc hc' _ _
    obtain ⟨e, he, rfl, rfl⟩ := get ha ha'
    obtain ⟨f, hf, rfl, rfl⟩ := get hb hb'
    obtain ⟨g, hg, rfl, rfl⟩ := get hc hc'
    have key : ∀ f : Nat × Nat, Axis ps f →
        turn (drawing (realPts ps) ls []) (.line e.1 e.2) (.line f.1 f.2) =
        quarter (turn (gridHeap ps ls') (.line e.1 e.2) (.line f.1 f.2)) := by
      intro f hf
      unfold turn
      simp only [Segment.endAngle]
      rw [(quarter_angle ps ls ls' e he).1, (quarter_angle ps ls ls' f hf).1,
        quarter_rem _ (quarter_angle ps ls ls' e he).2, quarter_angleDifference]
    rw [key f hf, key g hg]
    exact quarter_lt _ _

/-- The traced rings of a drawing made of horizontal and vertical lines, computed with integers. -/
theorem grid_traced (ps : List (Int × Int)) (ls : List (Nat × Nat)) (s : Sketch) (E : List (Nat × Nat))
    (hs : allSegments (drawing (realPts ps) ls []) s = linesOf XR E) (hE : ∀ e ∈ E, Axis ps e) (used : List Nat)
    (is : List (List Nat))
    (hc : (ringLoop (gridHeap ps []) (linesOf Grid E) (enumFrom 0 (linesOf Grid E)) [] []).1 = used ∧
      (ringLoop (gridHeap ps []) (linesOf Grid E) (enumFrom 0 (linesOf Grid E)) [] []).2.map (fun l => l.map (·.1)) = is) :
    (tracedRings (drawing (realPts ps) ls []) s).1 = used ∧
    (tracedRings (drawing (realPts ps) ls []) s).2.map (fun r => r.map (·.2)) =
      is.map (fun l => l.filterMap (fun i => (linesOf XR E)[i]?)) := by
  have := (grid_sim ps ls [] E hE).rings
  rw [hc.1, hc.2] at this
  constructor
  · unfold tracedRings; rw [hs]; exact this.1
  · rw [← hs]
    apply traced_of_indices
    unfold tracedRings; rw [hs]; exact this.2

end Isotope
