import Verif.SpecRing
import Mathlib.Data.List.Cycle
import Mathlib.Algebra.Order.ToIntervalMod
import Mathlib.Analysis.SpecialFunctions.Complex.Arg

/-!
# Vocabulary of the property statements about turning left in a drawing
-/

namespace Isotope

/-- `L` lists the end points of the lines of the sketch, in the order and direction drawn: there are no arcs, all end points
are finite, and the comparison by value recognises the way back along each line. -/
def DrawnLines (h : Heap XR) (s : Sketch) (L : List ((ℝ × ℝ) × (ℝ × ℝ))) : Prop :=
  List.Forall₂ (fun sg e => (∃ a b, sg = Segment.line a b) ∧ WayBack h sg ∧ EndsAt h sg e) (drawn h s) L

/-- there is a line between `p` and `q`, drawn in one of the two directions -/
def Joined (L : List ((ℝ × ℝ) × (ℝ × ℝ))) (p q : ℝ × ℝ) : Prop := (p, q) ∈ L ∨ (q, p) ∈ L

/-- the direction from `p` to `q`, as an angle -/
noncomputable def direction (p q : ℝ × ℝ) : ℝ := Complex.arg ⟨q.1 - p.1, q.2 - p.2⟩

/-- the angle, at least `0` and less than `2π`, by which the direction from `b` back to `a` is turned counter-clockwise to
get the direction from `b` to `c` -/
noncomputable def leftTurn (a b c : ℝ × ℝ) : ℝ := toIcoMod Real.two_pi_pos 0 (direction b c - direction b a)

/-- A plain drawing: no line has length zero, no two points are joined by two lines, and no two lines leave a point in the
same direction. -/
def PlainLines (L : List ((ℝ × ℝ) × (ℝ × ℝ))) : Prop :=
  (L ++ L.map Prod.swap).Nodup ∧ ∀ a b c, Joined L b a → Joined L b c → leftTurn a b c = 0 → a = c

/-- Coming from `a` to `b`, the line to `c` is the hardest left turn among the lines at `b`, not counting the way back. -/
def HardestLeft (L : List ((ℝ × ℝ) × (ℝ × ℝ))) (a b c : ℝ × ℝ) : Prop :=
  Joined L b c ∧ c ≠ a ∧ ∀ d, Joined L b d → d ≠ a → leftTurn a b d ≤ leftTurn a b c

/-- Whenever a walk of hardest left turns comes back to the point where it started, the hardest left turn there is the
first line of the walk. -/
def ClosesUp (L : List ((ℝ × ℝ) × (ℝ × ℝ))) : Prop :=
  ∀ (w : Nat → ℝ × ℝ) (n : Nat), Joined L (w 0) (w 1) →
    (∀ i, i < n → HardestLeft L (w i) (w (i + 1)) (w (i + 2))) → w (n + 1) = w 0 → HardestLeft L (w n) (w 0) (w 1)

/-- One gets around `vs` by hardest left turns only, and visits no point twice. -/
def Around (L : List ((ℝ × ℝ) × (ℝ × ℝ))) (vs : List (ℝ × ℝ)) : Prop :=
  vs ≠ [] ∧ vs.Nodup ∧ ∀ (i : Nat) a b c, vs[i]? = some a → vs[(i + 1) % vs.length]? = some b →
    vs[(i + 2) % vs.length]? = some c → HardestLeft L a b c

/-- the segments run once around the polygon `vs` -/
def RunsAround (h : Heap XR) (segs : List (Segment XR)) (vs : List (ℝ × ℝ)) : Prop :=
  List.Forall₂ (EndsAt h) segs (edges vs)

/-- the rings that are not circles -/
noncomputable def lineRings (h : Heap XR) (s : Sketch) : List (Ring XR) := (findRings h s).1.filter (fun r => !r.segs.isEmpty)

end Isotope
