import Verif.Spec
import Verif.XR

/-!
# Vocabulary: how far the coordinates move
-/

namespace Isotope

/-- the sum of the squares of the changes of all coordinates -/
noncomputable def dataWay (a b : List XR) : ℝ := (List.zipWith (fun x y => (y.toReal - x.toReal) ^ 2) a b).sum

end Isotope
