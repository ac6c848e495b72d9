import Verif.SpecAlike
import Verif.Spec
import Verif.Model.Multi

/-!
# Vocabulary: what belongs to a sketch and what does not
-/

namespace Isotope
variable {F : Type}

/-- the objects of the sketch `s` - its primitives and constraints - as in `h`, all other objects as in `z` -/
def Heap.graft (h z : Heap F) (s : Sketch) : Heap F where
  points a := if .point a ∈ s.cells then h.points a else z.points a
  lines a := if .line a ∈ s.cells then h.lines a else z.lines a
  arcs a := if .arc a ∈ s.cells then h.arcs a else z.arcs a
  circles a := if .circle a ∈ s.cells then h.circles a else z.circles a
  cons k := if k ∈ s.cons then h.cons k else z.cons k
  nPoints := z.nPoints
  nLines := z.nLines
  nArcs := z.nArcs
  nCircles := z.nCircles
  nCons := z.nCons

/-- the objects of the sketch `s` - coordinates, gradients, references, parameters of constraints - are the same in both heaps -/
structure SameObjects (s : Sketch) (h h' : Heap F) : Prop where
  points : ∀ a, .point a ∈ s.cells → h'.points a = h.points a
  lines : ∀ a, .line a ∈ s.cells → h'.lines a = h.lines a
  arcs : ∀ a, .arc a ∈ s.cells → h'.arcs a = h.arcs a
  circles : ∀ a, .circle a ∈ s.cells → h'.circles a = h.circles a
  cons : ∀ k ∈ s.cons, h'.cons k = h.cons k

/-- the two sketches have no primitive in common -/
def Sketch.Apart (s t : Sketch) : Prop := ∀ c ∈ s.cells, c ∉ t.cells

/-- calls that compute with a sketch without changing what it consists of -/
def Op.computes (s : Sketch) : Op F → Prop
  | .setData _ | .getGradient | .getJacobian | .solve _ => True
  | .checkGradients _ c _ => c ∈ s.cons
  | _ => False

/-- the calls made on sketch `i`, in order -/
def callsOn (i : Nat) (ops : List (MOp F)) : List (Op F) :=
  ops.filterMap fun | .on j op => if j = i then some op else none | _ => none

/-- what the calls on sketch `i` returned, in order -/
def outsOn (i : Nat) (ops : List (MOp F)) (outs : List (Out F)) : List (Out F) :=
  (ops.zip outs).filterMap fun | (.on j _, o) => if j = i then some o else none | _ => none

end Isotope
