import Verif.SpecNear
import Verif.SpecLeft

/-!
# Vocabulary: drawings of lines in binary64
-/

namespace Isotope

variable {lm : Libm}

/-- the mathematical library computes `atan2` with an absolute error of at most `κ`, up to whole turns (the sign of a zero may make
a difference of `2π`) -/
def Libm.AtanAccurate (lm : Libm) (κ : ℝ) : Prop :=
  ∀ (y x : B64 lm) (b a : ℝ), y.Is b → x.Is a → a ≠ 0 ∨ b ≠ 0 →
    ∃ θ, (Num.atan2 y x).Is θ ∧ |θ| ≤ Real.pi + κ ∧ ∃ k : ℤ, |θ - Complex.arg ⟨a, b⟩ - k * (2 * Real.pi)| ≤ κ

/-- the same segment, in exact arithmetic -/
noncomputable def Segment.exact : Segment (B64 lm) → Segment XR
  | .line a b => .line a b
  | .arc a => .arc ⟨a.center, a.data.exact, a.grad.exact, a.clockwise⟩

/-- the same ring, in exact arithmetic -/
noncomputable def Ring.exact : Ring (B64 lm) → Ring XR
  | .circle c => .circle ⟨c.center, c.radius.exact, c.grad.exact⟩
  | .segments l => .segments (l.map Segment.exact)

/-- `L` lists the end points of the lines of the sketch, in the order and direction drawn: there are no arcs, all coordinates are
finite, with magnitude at most `M`, and the comparison by value recognises the way back along each line. -/
def DraftLines (h : Heap (B64 lm)) (s : Sketch) (M : ℝ) (L : List ((ℝ × ℝ) × (ℝ × ℝ))) : Prop :=
  List.Forall₂ (fun sg e => (∃ a b, sg = Segment.line a b ∧ At h a e.1.1 e.1.2 ∧ At h b e.2.1 e.2.2) ∧ WayBack h sg) (drawn h s) L ∧
  ∀ e ∈ L, |e.1.1| ≤ M ∧ |e.1.2| ≤ M ∧ |e.2.1| ≤ M ∧ |e.2.2| ≤ M

/-- the directions from `b` to `a` and to `c` make an angle of at least `ε` -/
def Spread (ε : ℝ) (a b c : ℝ × ℝ) : Prop := ∀ k : ℤ, ε ≤ |direction b a - direction b c - k * (2 * Real.pi)|

/-- any two lines, in either direction, that leave the same point make an angle of at least `ε` -/
def SpreadLines (ε : ℝ) (L : List ((ℝ × ℝ) × (ℝ × ℝ))) : Prop :=
  ∀ (i j : Nat) b a c, i ≠ j → (L ++ L.map Prod.swap)[i]? = some (b, a) → (L ++ L.map Prod.swap)[j]? = some (b, c) → Spread ε a b c

/-- the coordinates of the ends of a segment -/
noncomputable def Segment.xy (h : Heap (B64 lm)) (sg : Segment (B64 lm)) : (ℝ × ℝ) × (ℝ × ℝ) :=
  (((sg.getStart h).x.real, (sg.getStart h).y.real), ((sg.getEnd h).x.real, (sg.getEnd h).y.real))

/-- the signed area of a ring, without rounding -/
noncomputable def areaOf (h : Heap (B64 lm)) : Ring (B64 lm) → ℝ
  | .circle c => c.radius.real ^ 2 * Real.pi
  | .segments l => (l.map (fun sg => cross (sg.xy h).1 (sg.xy h).2)).sum / 2

/-- a bound for the error of the computed area -/
noncomputable def areaError (h : Heap (B64 lm)) : Ring (B64 lm) → ℝ
  | .circle c => 2 ^ (-49 : ℤ) * (c.radius.real ^ 2 + 2 ^ (-1000 : ℤ))
  | .segments l => (l.length + 5) * 2 ^ (-53 : ℤ) *
      ((l.map (fun sg => |(sg.xy h).1.1 * (sg.xy h).2.2| + |(sg.xy h).2.1 * (sg.xy h).1.2|)).sum + l.length * 2 ^ (-1000 : ℤ))

/-- the radii of the circles are finite, with magnitude at most `2^100` -/
def ModestCircles (h : Heap (B64 lm)) (s : Sketch) : Prop :=
  ∀ c, PrimCell.circle c ∈ s.cells → ∃ r : ℝ, (h.circles c).radius.Is r ∧ |r| ≤ 2 ^ (100 : ℤ)

/-- a bound for the error of the computed area of a polygon -/
noncomputable def polyError (vs : List (ℝ × ℝ)) : ℝ :=
  (vs.length + 5) * 2 ^ (-53 : ℤ) * (((edges vs).map (fun e => |e.1.1 * e.2.2| + |e.2.1 * e.1.2|)).sum + vs.length * 2 ^ (-1000 : ℤ))

/-- a whole number -/
def Whole (r : ℝ) : Prop := ∃ n : ℤ, r = n

end Isotope
