import Verif.SpecAlike

/-!
# Vocabulary: turning and mirroring a sketch
-/

namespace Isotope

/-- a turn about the origin by an angle, after mirroring in the x-axis if so wished -/
structure Turn where
  angle : ℝ
  mirror : Bool

namespace Turn
variable (t : Turn)

noncomputable def c : ℝ := Real.cos t.angle
noncomputable def s : ℝ := Real.sin t.angle
/-- -1 for a mirror image -/
def e : ℝ := if t.mirror then -1 else 1

/-- where the point `v` goes -/
noncomputable def vec (v : Vec2 XR) : Vec2 XR :=
  ⟨.fin t.c * v.x - .fin (t.e * t.s) * v.y, .fin t.s * v.x + .fin (t.e * t.c) * v.y⟩

/-- where the direction with this angle goes -/
noncomputable def dir (a : XR) : XR := .fin t.e * a + .fin t.angle

/-- a turn by a multiple of 90 degrees -/
def Square : Prop := t.s = 0 ∨ t.c = 0

end Turn

/-- the constraint speaks of the x- or y-direction -/
def Constraint.Directed : Constraint XR → Prop
  | .horizDist .. => True
  | .vertDist .. => True
  | .horizLine .. => True
  | .vertLine .. => True
  | _ => False

open Classical in
/-- The constraint for the turned sketch: the desired place of a `FixPoint` turns along; a turn by 90 or 270 degrees exchanges horizontal
and vertical, and distances along the axes change sign with the axes. -/
noncomputable def Constraint.turn (t : Turn) : Constraint XR → Constraint XR
  | .fix p d => .fix p (t.vec d)
  | .horizDist p q d => if t.s = 0 then .horizDist p q (.fin t.c * d) else .vertDist p q (.fin t.s * d)
  | .vertDist p q d => if t.s = 0 then .vertDist p q (.fin (t.e * t.c) * d) else .horizDist p q (.fin (-(t.e * t.s)) * d)
  | .horizLine l => if t.s = 0 then .horizLine l else .vertLine l
  | .vertLine l => if t.s = 0 then .vertLine l else .horizLine l
  | c => c

/-- everything turned: points, the angles of arcs and the constraints; a mirror image of an arc runs the other way round -/
noncomputable def Heap.turn (h : Heap XR) (t : Turn) : Heap XR :=
  { h with
    points := fun a => { h.points a with data := t.vec (h.points a).data }
    arcs := fun a => { h.arcs a with
      data := ⟨(h.arcs a).data.a0, t.dir (h.arcs a).data.a1, t.dir (h.arcs a).data.a2⟩
      clockwise := (h.arcs a).clockwise ^^ t.mirror }
    cons := fun k => (h.cons k).turn t }

/-- The coordinates of a vector or gradient, turned: those of points with the plane, those of angles only mirrored. -/
noncomputable def Turn.lin (t : Turn) (f : Dof → ℝ) : Dof → ℝ
  | .px p => t.c * f (.px p) - t.e * t.s * f (.py p)
  | .py p => t.s * f (.px p) + t.e * t.c * f (.py p)
  | .as a => t.e * f (.as a)
  | .ae a => t.e * f (.ae a)
  | .ar a => f (.ar a)
  | .cr a => f (.cr a)

/-- the matrix `m`, and the matrix with rows and columns turned -/
def TurnedM (t : Turn) (L : List Dof) (A A' : List (List XR)) : Prop :=
  ∃ m : Dof → Dof → ℝ, A = L.map (fun i => L.map (fun j => .fin (m i j))) ∧
    A' = L.map (fun i => L.map (fun j => .fin (t.lin (fun a => t.lin (m a) j) i)))

end Isotope
