import Verif.Spec

/-!
# How many points a sketch has
-/

namespace Isotope

/-- the points of a sketch, in the order of their ids -/
def pointIds (s : Sketch) : List Nat := s.cells.filterMap fun
  | .point p => some p
  | _ => none

end Isotope
