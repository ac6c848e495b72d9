import Verif.Spec

/-!
# Vocabulary for deleted primitives (C102)
-/

namespace Isotope

variable {F : Type} [Num F]

/-- how many coordinates the primitives with a smaller id than `id` have: where the block of `id` starts in the data
vector -/
def blockStart (h : Heap F) (s : Sketch) (id : Nat) : Nat :=
  ((s.prims.filter (fun kp => decide (kp.1 < id))).map (fun kp => (primData h kp.2).length)).sum

/-- `l` without the `n` entries from position `i` on -/
def cutOut {α : Type} (i n : Nat) (l : List α) : List α := l.take i ++ l.drop (i + n)

/-- `l` with `d` inserted at position `i` -/
def putIn {α : Type} (i : Nat) (d l : List α) : List α := l.take i ++ d ++ l.drop i

end Isotope
