import Verif.SpecTurn
import Verif.SpecSwap

/-!
# Vocabulary: symmetric sketches
-/

namespace Isotope
variable {F : Type}

/-- other names (addresses) for objects: which object takes the place of which -/
structure Renaming where
  point : Equiv.Perm Nat
  line : Equiv.Perm Nat
  arc : Equiv.Perm Nat
  circle : Equiv.Perm Nat
  cons : Equiv.Perm Nat

/-- the renamed primitive -/
def PrimCell.rename (r : Renaming) : PrimCell → PrimCell
  | .point a => .point (r.point a)
  | .line a => .line (r.line a)
  | .arc a => .arc (r.arc a)
  | .circle a => .circle (r.circle a)

/-- the same constraint on the renamed objects -/
def Constraint.rename (r : Renaming) : Constraint F → Constraint F
  | .angle p q m d => .angle (r.point p) (r.point q) (r.point m) d
  | .arcEnd a p => .arcEnd (r.arc a) (r.point p)
  | .arcStart a p => .arcStart (r.arc a) (r.point p)
  | .euclid p q d => .euclid (r.point p) (r.point q) d
  | .horizDist p q d => .horizDist (r.point p) (r.point q) d
  | .vertDist p q d => .vertDist (r.point p) (r.point q) d
  | .fix p d => .fix (r.point p) d
  | .eqLen l m => .eqLen (r.line l) (r.line m)
  | .horizLine l => .horizLine (r.line l)
  | .vertLine l => .vertLine (r.line l)
  | .parallel l m => .parallel (r.line l) (r.line m)
  | .perp l m => .perp (r.line l) (r.line m)

/-- all objects under their new names -/
def Heap.rename (r : Renaming) (h : Heap F) : Heap F :=
  { h with
    points := fun b => h.points (r.point.symm b)
    lines := fun b => ⟨r.point (h.lines (r.line.symm b)).start, r.point (h.lines (r.line.symm b)).stop⟩
    arcs := fun b => { h.arcs (r.arc.symm b) with center := r.point (h.arcs (r.arc.symm b)).center }
    circles := fun b => { h.circles (r.circle.symm b) with center := r.point (h.circles (r.circle.symm b)).center }
    cons := fun b => (h.cons (r.cons.symm b)).rename r }

/-- the sketch of the renamed objects -/
def Sketch.rename (r : Renaming) (s : Sketch) : Sketch :=
  ⟨s.prims.map fun kp => (kp.1, kp.2.rename r), s.nextId, s.cons.map r.cons⟩

/-- The motion of the plane that turns (and perhaps mirrors) it by `t` and then moves it by `(tx, ty)`, applied to everything. -/
noncomputable def Heap.moved (h : Heap XR) (t : Turn) (tx ty : ℝ) : Heap XR := (h.turn t).moveBy tx ty

/-- where the motion takes the point `v` -/
noncomputable def Turn.place (t : Turn) (tx ty : ℝ) (v : Vec2 XR) : Vec2 XR := ⟨(t.vec v).x + .fin tx, (t.vec v).y + .fin ty⟩

/-- The sketch is symmetric: the motion takes every primitive and every constraint of the sketch to the one that the renaming names -
possibly a line that runs the other way, or a constraint that says the same in other words. -/
structure Symmetric (t : Turn) (tx ty : ℝ) (r : Renaming) (h : Heap XR) (s : Sketch) : Prop where
  /-- the objects of the sketch are exchanged among themselves -/
  cells : (s.cells.map (PrimCell.rename r)).Perm s.cells
  cons : (s.cons.map r.cons).Perm s.cons
  points : ∀ a, .point a ∈ s.cells → (h.points (r.point a)).data = t.place tx ty (h.points a).data
  lines : ∀ a, .line a ∈ s.cells → h.lines (r.line a) = ⟨r.point (h.lines a).start, r.point (h.lines a).stop⟩ ∨
    h.lines (r.line a) = ⟨r.point (h.lines a).stop, r.point (h.lines a).start⟩
  arcs : ∀ a, .arc a ∈ s.cells → (h.arcs (r.arc a)).center = r.point (h.arcs a).center ∧
    (h.arcs (r.arc a)).data = ⟨(h.arcs a).data.a0, t.dir (h.arcs a).data.a1, t.dir (h.arcs a).data.a2⟩ ∧
    (h.arcs (r.arc a)).clockwise = ((h.arcs a).clockwise ^^ t.mirror)
  circles : ∀ a, .circle a ∈ s.cells → (h.circles (r.circle a)).center = r.point (h.circles a).center ∧
    (h.circles (r.circle a)).radius = (h.circles a).radius
  meaning : ∀ k ∈ s.cons, SameMeaning ((((h.cons k).turn t).moveBy tx ty).rename r) (h.cons (r.cons k))

/-- the run keeps the symmetry: before and after every step and, unless it panics, at the end the sketch is symmetric -/
def KeepsSymmetry (t : Turn) (tx ty : ℝ) (r : Renaming) (s : Sketch) (o : SolveOut XR) : Prop :=
  (o.res ≠ .panic → Symmetric t tx ty r o.heap s) ∧ ∀ st ∈ o.steps, Symmetric t tx ty r st.pre s ∧ Symmetric t tx ty r st.post s

/-- the place is on the line through `(u, v)` in the direction `θ` -/
def OnLine (θ u v : ℝ) (d : Vec2 XR) : Prop := ∃ l : ℝ, d = ⟨.fin (u + l * Real.cos θ), .fin (v + l * Real.sin θ)⟩

/-- All points of the sketch are on the line. -/
def Flat (θ u v : ℝ) (h : Heap XR) (s : Sketch) : Prop := ∀ a, .point a ∈ s.cells → OnLine θ u v (h.points a).data

/-- The constraint makes no difference between the two sides of the line: a point is to be fixed on the line; distances along the axes are
demanded only if the line is parallel to an axis, and a distance across the line is demanded to be zero. -/
def Constraint.FitsLine (θ u v : ℝ) : Constraint XR → Prop
  | .fix _ d => OnLine θ u v d
  | .horizDist _ _ d => Real.sin θ = 0 ∨ Real.cos θ = 0 ∧ d = .fin 0
  | .vertDist _ _ d => Real.cos θ = 0 ∨ Real.sin θ = 0 ∧ d = .fin 0
  | .horizLine _ => Real.sin θ = 0 ∨ Real.cos θ = 0
  | .vertLine _ => Real.sin θ = 0 ∨ Real.cos θ = 0
  | _ => True

/-- the run keeps the sketch flat: before and after every step and, unless it panics, at the end all points are on the line -/
def KeepsFlat (θ u v : ℝ) (s : Sketch) (o : SolveOut XR) : Prop :=
  (o.res ≠ .panic → Flat θ u v o.heap s) ∧ ∀ st ∈ o.steps, Flat θ u v st.pre s ∧ Flat θ u v st.post s

end Isotope
