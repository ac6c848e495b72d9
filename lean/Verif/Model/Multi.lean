import Verif.Model.Api
import Verif.Model.Decompose

/-!
# Several sketches over one heap

`Sketch` derives `Clone` (`src/sketch/mod.rs:24`).  Cloning copies the map, the id counter and the queue; the cells are
`Rc` handles (`src/primitives/mod.rs:48-56`, `src/constraints/mod.rs:65-89`, both `derive(Clone)`), so the clone refers to
the same objects.
-/

namespace Isotope
variable {F : Type}

/-- one heap, any number of sketches, named by their position -/
structure Multi (F : Type) where
  heap : Heap F
  sketches : List Sketch

/-- calls of a program that owns several sketches -/
inductive MOp (F : Type) where
  /-- the call `op` on sketch `i` -/
  | on (i : Nat) (op : Op F)
  /-- `Sketch::new()` -/
  | newSketch
  /-- `sketches[i].clone()` -/
  | clone (i : Nat)

variable [Num F]

/-- `Sketch::clone` (derived, `src/sketch/mod.rs:24`): field by field; handles stay the same. -/
def Sketch.clone (s : Sketch) : Sketch := ⟨s.prims, s.nextId, s.cons⟩

/-- One call in a program with several sketches. -/
def mstep (pinv : PInv F) (m : Multi F) : MOp F → Out F × Multi F
  | .on i op =>
    match m.sketches[i]? with
    | none => (.illTyped, m)
    | some s =>
      let r := step pinv ⟨m.heap, s⟩ op
      (r.1, ⟨r.2.heap, m.sketches.set i r.2.sketch⟩)
  | .newSketch => (.unit, ⟨m.heap, m.sketches ++ [Sketch.new]⟩)
  | .clone i =>
    match m.sketches[i]? with
    | none => (.illTyped, m)
    | some s => (.unit, ⟨m.heap, m.sketches ++ [s.clone]⟩)

/-- Run a history of calls on several sketches. -/
def mrun (pinv : PInv F) (m : Multi F) : List (MOp F) → List (Out F) × Multi F
  | [] => ([], m)
  | op :: ops =>
    let r := mstep pinv m op
    let rest := mrun pinv r.2 ops
    (r.1 :: rest.1, rest.2)

/-- program start: no objects, no sketches -/
def Multi.init : Multi F := ⟨Heap.empty, []⟩

end Isotope
