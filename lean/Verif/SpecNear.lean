import Verif.SpecFloat
import Verif.SpecReal

/-!
# Vocabulary: binary64 sketches and their exact counterparts
-/

namespace Isotope
open Val

variable {lm : Libm}

/-- the number an `f64` stands for, in exact arithmetic -/
noncomputable def B64.exact (x : B64 lm) : XR :=
  match x.v with
  | num s m => .fin (sgn s m.1)
  | inf s => if s then .ninf else .pinf
  | nan => .nan

/-- the real number an `f64` stands for, `0` if exceptional -/
noncomputable def B64.real (x : B64 lm) : ℝ := x.exact.toReal

noncomputable def Vec2.exact (v : Vec2 (B64 lm)) : Vec2 XR := ⟨v.x.exact, v.y.exact⟩
noncomputable def Row3.exact (v : Row3 (B64 lm)) : Row3 XR := ⟨v.a0.exact, v.a1.exact, v.a2.exact⟩

/-- the constraint with the same references and the same parameters -/
noncomputable def Constraint.exact : Constraint (B64 lm) → Constraint XR
  | .angle p1 p2 mid d => .angle p1 p2 mid d.exact
  | .arcEnd a p => .arcEnd a p
  | .arcStart a p => .arcStart a p
  | .euclid p1 p2 d => .euclid p1 p2 d.exact
  | .horizDist p1 p2 d => .horizDist p1 p2 d.exact
  | .vertDist p1 p2 d => .vertDist p1 p2 d.exact
  | .fix p d => .fix p d.exact
  | .eqLen l m => .eqLen l m
  | .horizLine l => .horizLine l
  | .vertLine l => .vertLine l
  | .parallel l m => .parallel l m
  | .perp l m => .perp l m

/-- the same objects with the same numbers, in exact arithmetic -/
noncomputable def Heap.exact (h : Heap (B64 lm)) : Heap XR where
  points a := ⟨(h.points a).data.exact, (h.points a).grad.exact⟩
  lines := h.lines
  arcs a := ⟨(h.arcs a).center, (h.arcs a).data.exact, (h.arcs a).grad.exact, (h.arcs a).clockwise⟩
  circles a := ⟨(h.circles a).center, (h.circles a).radius.exact, (h.circles a).grad.exact⟩
  cons k := (h.cons k).exact
  nPoints := h.nPoints
  nLines := h.nLines
  nArcs := h.nArcs
  nCircles := h.nCircles
  nCons := h.nCons

/-- all coordinates of the sketch and all parameters of its constraints are finite, with magnitude at most `2^100` -/
def Modest (h : Heap (B64 lm)) (s : Sketch) : Prop :=
  (∀ x ∈ getData h s, ∃ r : ℝ, x.Is r ∧ |r| ≤ 2 ^ (100 : ℤ)) ∧
  ∀ k ∈ s.cons, ∀ x ∈ consParams (h.cons k), ∃ r : ℝ, x.Is r ∧ |r| ≤ 2 ^ (100 : ℤ)

/-- the coordinates of a point -/
noncomputable def xOf (h : Heap (B64 lm)) (p : Nat) : ℝ := (h.points p).data.x.real
noncomputable def yOf (h : Heap (B64 lm)) (p : Nat) : ℝ := (h.points p).data.y.real

/-- the distance of two points -/
noncomputable def distOf (h : Heap (B64 lm)) (p q : Nat) : ℝ := √((xOf h p - xOf h q) ^ 2 + (yOf h p - yOf h q) ^ 2)

/-- the length of a line -/
noncomputable def lenOf (h : Heap (B64 lm)) (l : Nat) : ℝ := distOf h (h.lines l).stop (h.lines l).start

/-- the sine of the angle at `o` between `p` and `q`, without sign -/
noncomputable def sinOf (h : Heap (B64 lm)) (p q o : Nat) : ℝ :=
  |(xOf h p - xOf h o) * (yOf h q - yOf h o) - (yOf h p - yOf h o) * (xOf h q - xOf h o)| / (distOf h p o * distOf h q o)

/-- The constraint is well away from its degenerate positions: points with a desired distance and the arms of an angle are not
within `2^-19` (about `1.9e-6`) of each other, the sine of an angle is at least `2^-5`, lines to be compared are not shorter
than `2^-100`. -/
def Clear (h : Heap (B64 lm)) : Constraint (B64 lm) → Prop
  | .angle p q o _ => 2 ^ (-19 : ℤ) ≤ distOf h p o ∧ 2 ^ (-19 : ℤ) ≤ distOf h q o ∧ 2 ^ (-5 : ℤ) ≤ sinOf h p q o
  | .euclid p q _ => 2 ^ (-19 : ℤ) ≤ distOf h p q
  | .eqLen l m => 2 ^ (-100 : ℤ) ≤ lenOf h l ∧ 2 ^ (-100 : ℤ) ≤ lenOf h m
  | .parallel l m => 2 ^ (-100 : ℤ) ≤ lenOf h l ∧ 2 ^ (-100 : ℤ) ≤ lenOf h m
  | .perp l m => 2 ^ (-100 : ℤ) ≤ lenOf h l ∧ 2 ^ (-100 : ℤ) ≤ lenOf h m
  | _ => True

/-- the size of the quantity a constraint computes with: its residual before anything cancels -/
noncomputable def spanOf (h : Heap (B64 lm)) : Constraint (B64 lm) → ℝ
  | .angle _ _ _ d => 4 + |d.real|
  | .euclid p q d => distOf h p q + |d.real|
  | .horizDist p q d => |xOf h q - xOf h p| + |d.real|
  | .vertDist p q d => |yOf h q - yOf h p| + |d.real|
  | .fix p d => |xOf h p - d.x.real| + |yOf h p - d.y.real|
  | .eqLen l m => lenOf h l + lenOf h m
  | .horizLine l => |yOf h (h.lines l).stop - yOf h (h.lines l).start|
  | .vertLine l => |xOf h (h.lines l).stop - xOf h (h.lines l).start|
  | .parallel _ _ => 1
  | .perp _ _ => 1
  | .arcEnd a p => |xOf h (h.arcs a).center| + |yOf h (h.arcs a).center| + |(h.arcs a).radius.real| + |xOf h p| + |yOf h p|
  | .arcStart a p => |xOf h (h.arcs a).center| + |yOf h (h.arcs a).center| + |(h.arcs a).radius.real| + |xOf h p| + |yOf h p|

/-- how much that quantity changes when a coordinate changes by one -/
noncomputable def slopeOf (h : Heap (B64 lm)) : Constraint (B64 lm) → ℝ
  | .angle p q o _ => 1 / distOf h p o + 1 / distOf h q o
  | .parallel l m => 1 / lenOf h l + 1 / lenOf h m
  | .perp l m => 1 / lenOf h l + 1 / lenOf h m
  | .arcEnd a _ => 1 + |(h.arcs a).radius.real|
  | .arcStart a _ => 1 + |(h.arcs a).radius.real|
  | _ => 1

/-- how much more sensitive to rounding errors the arc cosine is than the other functions -/
noncomputable def badness (h : Heap (B64 lm)) : Constraint (B64 lm) → ℝ
  | .angle p q o _ => 1 / sinOf h p q o
  | _ => 1

/-- How far the entries of a row of the Jacobian may be off: about `7e-12` times the size of the residual times its slope, when the
library functions are accurate to the last digits (`κ ≈ 2^-53`). The `2^-100` covers underflow. -/
noncomputable def rowError (κ : ℝ) (h : Heap (B64 lm)) (c : Constraint (B64 lm)) : ℝ :=
  (30720 * (2 ^ (-53 : ℤ) + κ) + 1024 * 2 ^ (-53 : ℤ)) * ((spanOf h c + 2 ^ (-100 : ℤ)) * slopeOf h c * badness h c ^ 3)

/-- how far the entries of the gradient may be off -/
noncomputable def gradError (κ : ℝ) (h : Heap (B64 lm)) (s : Sketch) : ℝ :=
  (30720 * (2 ^ (-53 : ℤ) + κ) + 1024 * s.cons.length * 2 ^ (-53 : ℤ)) *
    (s.cons.map (fun k => (spanOf h (h.cons k) + 2 ^ (-100 : ℤ)) * slopeOf h (h.cons k) * badness h (h.cons k) ^ 3)).sum

/-- how far the loss of one constraint may be off -/
noncomputable def entryError (κ : ℝ) (h : Heap (B64 lm)) (c : Constraint (B64 lm)) : ℝ :=
  1920 * (2 ^ (-53 : ℤ) + κ) * ((spanOf h c + 2 ^ (-100 : ℤ)) ^ 2 * badness h c)

/-- how far the loss of the sketch may be off -/
noncomputable def lossError (κ : ℝ) (h : Heap (B64 lm)) (s : Sketch) : ℝ :=
  (1920 * (2 ^ (-53 : ℤ) + κ) + 8 * s.cons.length * 2 ^ (-53 : ℤ)) *
    (s.cons.map (fun k => (spanOf h (h.cons k) + 2 ^ (-100 : ℤ)) ^ 2 * badness h (h.cons k))).sum

end Isotope
