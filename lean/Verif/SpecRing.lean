import Verif.Spec
import Verif.Model.Decompose
import Verif.XR
import Mathlib.Data.List.Rotate

/-!
# Vocabulary of the property statements about rings and faces
-/

namespace Isotope
variable {F : Type} [Num F]

/-- the line or arc segment of a primitive, as drawn -/
def segmentOf (h : Heap F) : PrimCell → List (Segment F)
  | .line l => [.line (h.lines l).start (h.lines l).stop]
  | .arc a => [.arc (h.arcs a)]
  | _ => []

/-- the lines and arcs of the sketch, as drawn, in order of ids -/
def drawn (h : Heap F) (s : Sketch) : List (Segment F) := s.cells.flatMap (segmentOf h)

/-- the segments of a ring (none for a circle) -/
def Ring.segs : Ring F → List (Segment F)
  | .circle _ => []
  | .segments l => l

/-- A closed chain: not empty, every segment ends where its successor starts (as computed, by `==` on both coordinates),
and the first is the successor of the last. -/
def ClosedChain (h : Heap F) (segs : List (Segment F)) : Prop :=
  segs ≠ [] ∧ ∀ i a b, segs[i]? = some a → segs[(i + 1) % segs.length]? = some b →
    (a.getEnd h).beq (b.getStart h) = true

/-- `sg` may follow `cur` in a ring: an unused entry of `segs` that starts where `cur` ends and is neither (by value) `cur`
nor its reverse -/
def MayFollow (h : Heap F) (segs : List (Segment F)) (cur : Segment F) (used : List Nat) (i : Nat) (sg : Segment F) : Prop :=
  segs[i]? = some sg ∧ i ∉ used ∧ (cur.getEnd h).beq (sg.getStart h) = true ∧ sg.beq h cur = false ∧
    sg.beq h cur.reverse = false

/-- the edges of the closed polygon with vertices `vs` -/
def edges {α : Type} (vs : List α) : List (α × α) := vs.zip (vs.rotate 1)

/-- the segment goes from `e.1` to `e.2` -/
def Runs (h : Heap F) (sg : Segment F) (e : Vec2 F × Vec2 F) : Prop := sg.getStart h = e.1 ∧ sg.getEnd h = e.2

/-- The lines and arcs of the sketch outline the polygon `vs`: in any order and each in one of the two directions, they are
the edges of the polygon. -/
def Outline (h : Heap F) (s : Sketch) (vs : List (Vec2 F)) : Prop :=
  ∃ ds : List (Segment F), List.Forall₂ (fun d sg => d = sg ∨ d = sg.reverse) ds (drawn h s) ∧
    (ds.map (fun d => (d.getStart h, d.getEnd h))).Perm (edges vs)

/-- the comparison used by the walk recognises the way back along `d`, in both directions -/
def WayBack (h : Heap F) (d : Segment F) : Prop := d.reverse.beq h d.reverse = true ∧ d.beq h d.reverse.reverse = true

/-- how far to the left one turns from `cur` into `sg` (counter-clockwise from the direction back along `cur`) -/
def turn (h : Heap F) (cur sg : Segment F) : F :=
  angleDifference (Num.rem (cur.endAngle h + Num.pi) ((2.0 : F) * Num.pi)) (sg.startAngle h)

/-- `total_cmp` is a total preorder (it is one on `f64`, NaN and signed zeros included) -/
class TotalCmpLaws (F : Type) [Num F] : Prop where
  total : ∀ a b : F, (Num.totalLe a b || Num.totalLe b a) = true
  trans : ∀ a b c : F, Num.totalLe a b = true → Num.totalLe b c = true → Num.totalLe a c = true

/-- Laws of `<` and `<=` away from NaN (`x == x` says that `x` is not NaN).  They hold for `f64`. -/
class OrderLaws (F : Type) [Num F] : Prop where
  refl : ∀ a : F, (a ==. a) = true → (a <=. a) = true
  of_lt : ∀ a b : F, (a <. b) = true → (a <=. b) = true
  of_not_lt : ∀ a b : F, (a ==. a) = true → (b ==. b) = true → (a <. b) = false → (b <=. a) = true
  trans : ∀ a b c : F, (a <=. b) = true → (b <=. c) = true → (a <=. c) = true

/-! ## Exact arithmetic -/

/-- the segment goes from `e.1` to `e.2`, all coordinates finite -/
def EndsAt (h : Heap XR) (sg : Segment XR) (e : (ℝ × ℝ) × (ℝ × ℝ)) : Prop :=
  sg.getStart h = ⟨.fin e.1.1, .fin e.1.2⟩ ∧ sg.getEnd h = ⟨.fin e.2.1, .fin e.2.2⟩

/-- the triangle `0, p, q` has twice this signed area -/
def cross (p q : ℝ × ℝ) : ℝ := p.1 * q.2 - q.1 * p.2

/-- shoelace formula for the signed area of a closed polygon -/
noncomputable def shoelace (vs : List (ℝ × ℝ)) : ℝ := ((edges vs).map (fun e => cross e.1 e.2)).sum / 2

/-- an affine map of the plane: `(a b; c d) p + t` -/
def affine (a b c d : ℝ) (t p : ℝ × ℝ) : ℝ × ℝ := (a * p.1 + b * p.2 + t.1, c * p.1 + d * p.2 + t.2)

end Isotope
