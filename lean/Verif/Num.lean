/-!
# The number interface

`Num F` lists the `f64` operations used by the Rust code and nothing else.  It has **no laws**: a theorem
that only assumes `[Num F]` holds for IEEE binary64 with any rounding, for NaN, for infinities.

Models: the primitive operations of `f64` as used throughout `/repo/src` (there is no single source location).
-/

namespace Isotope

/-- The operations of `f64` that `/repo/src` uses.
* `lt`/`le`/`eq` are the IEEE comparisons (`<`, `<=`, `==`), Boolean valued; false when a side is NaN.
* `totalLe a b` is `a.total_cmp(&b) != Greater` (`src/decompose/mod.rs:193`).
* `rem` is Rust's `%` (`src/decompose/mod.rs:210`).
* `ofSci` gives decimal literals; `ofNat` is `i as f64` (`src/decompose/ring.rs:64`).
* `pi`, `tau`, `inf` are `std::f64::consts::{PI, TAU}` and `f64::INFINITY`. -/
class Num (F : Type) where
  add : F → F → F
  sub : F → F → F
  mul : F → F → F
  div : F → F → F
  neg : F → F
  rem : F → F → F
  abs : F → F
  sqrt : F → F
  cos : F → F
  sin : F → F
  acos : F → F
  atan2 : F → F → F
  ofSci : Nat → Bool → Nat → F
  ofNat : Nat → F
  pi : F
  tau : F
  inf : F
  lt : F → F → Bool
  le : F → F → Bool
  eq : F → F → Bool
  isFinite : F → Bool
  totalLe : F → F → Bool

namespace Num
variable {F : Type} [Num F]

instance : Add F := ⟨Num.add⟩
instance : Sub F := ⟨Num.sub⟩
instance : Mul F := ⟨Num.mul⟩
instance : Div F := ⟨Num.div⟩
instance : Neg F := ⟨Num.neg⟩
instance (priority := low) : OfScientific F := ⟨Num.ofSci⟩
instance : Inhabited F := ⟨Num.ofSci 0 true 1⟩

end Num

infix:50 " <. " => Num.lt
infix:50 " <=. " => Num.le
infix:50 " ==. " => Num.eq

section
variable {F : Type} [Num F]

/-- `a > b` on `f64` is `b < a`. -/
abbrev gt (a b : F) : Bool := b <. a
/-- `a >= b` on `f64` is `b <= a`. -/
abbrev ge (a b : F) : Bool := b <=. a

/-- `f64::clamp(lo, hi)`: NaN stays NaN.  Used at `src/constraints/angle_between_points.rs:93,129`. -/
def clamp (x lo hi : F) : F := if x <. lo then lo else if hi <. x then hi else x

/-- `f64::max`: the other operand if one is NaN.  Used at `src/constraints/angle_between_points.rs:147` and by
nalgebra's `UniformNorm` (`src/solvers/bfgs_solver.rs:61`). -/
def fmax (a b : F) : F := if a <. b || !(a ==. a) then b else a
end

end Isotope
