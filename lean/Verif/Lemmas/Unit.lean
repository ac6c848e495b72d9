import Verif.SpecUnit
import Verif.Lemmas.Swap
import Verif.Lemmas.MoveBy
import Verif.Lemmas.ReorderCut
import Verif.Lemmas.NewtonStep

/-!
# The unit of length
-/

namespace Isotope
open XR

/-! ## Arithmetic -/

section arith
variable {c : ℝ} (hc : 0 < c)

include hc

theorem unit_negative (a : ℝ) : c * a < 0 ↔ a < 0 := by constructor <;> intro h <;> nlinarith

theorem XR.unit_pinf : fin c * pinf = pinf := by show infOf c = pinf; rw [infOf, if_pos hc]
theorem XR.unit_ninf : fin c * ninf = ninf := by
  show infOf (-c) = ninf
  rw [infOf, if_neg (by linarith), if_pos (by linarith)]

omit hc in
theorem XR.unit_nan : fin c * nan = nan := rfl

theorem XR.unit_infOf (a : ℝ) : infOf (c * a) = infOf a := by
  unfold infOf
  simp only [mul_pos_iff_of_pos_left hc, unit_negative hc]

theorem XR.unit_add (a b : XR) : fin c * a + fin c * b = fin c * (a + b) := by
  have p := unit_pinf hc
  have n := unit_ninf hc
  cases a <;> cases b <;> simp only [mul_fin, p, n, unit_nan, add_fin] <;>
    first | (rw [mul_add]; done) | exact p.symm | exact n.symm | rfl

omit hc in
theorem XR.unit_neg (a : XR) : -(fin c * a) = fin c * -a := (mul_neg' ..).symm

theorem XR.unit_sub (a b : XR) : fin c * a - fin c * b = fin c * (a - b) := by
  rw [sub_def, unit_neg, unit_add hc, ← sub_def]

omit hc in
theorem XR.unit_mul_left (k a : XR) : k * (fin c * a) = fin c * (k * a) := by
  rw [← mul_assoc', mul_comm' k, mul_assoc']

omit hc in
theorem XR.unit_mul_right (a k : XR) : fin c * a * k = fin c * (a * k) := mul_assoc' ..

omit hc in
theorem XR.unit_unit (c' : ℝ) (a : XR) : fin c * (fin c' * a) = fin (c * c') * a := by rw [← mul_assoc', mul_fin]

omit hc in
theorem XR.unit_mul (a b : XR) : fin c * a * (fin c * b) = fin (c * c) * (a * b) := by
  rw [unit_mul_left, unit_mul_right, unit_unit]

theorem XR.unit_div (a b : XR) : fin c * a / (fin c * b) = a / b := by
  have p := unit_pinf hc
  have n := unit_ninf hc
  cases a with
  | fin a =>
    cases b with
    | fin b =>
      rw [mul_fin, mul_fin, div_fin, div_fin, unit_infOf hc]
      simp only [mul_eq_zero, hc.ne', false_or, mul_div_mul_left _ _ hc.ne']
    | pinf => rw [p]; rfl
    | ninf => rw [n]; rfl
    | nan => rfl
  | pinf =>
    cases b with
    | fin b =>
      rw [p, mul_fin]
      show (if c * b < 0 then ninf else pinf) = if b < 0 then ninf else pinf
      simp only [unit_negative hc]
    | pinf => rw [p]
    | ninf => rw [p, n]
    | nan => rw [p]; rfl
  | ninf =>
    cases b with
    | fin b =>
      rw [n, mul_fin]
      show (if c * b < 0 then pinf else ninf) = if b < 0 then pinf else ninf
      simp only [unit_negative hc]
    | pinf => rw [p, n]
    | ninf => rw [n]
    | nan => rw [n]; rfl
  | nan => cases b <;> rfl

theorem XR.unit_sqrt (a : XR) : Num.sqrt (fin (c * c) * a) = fin c * Num.sqrt a := by
  have hcc := mul_pos hc hc
  cases a with
  | fin a =>
    rw [mul_fin]
    show XR.sqrt (fin (c * c * a)) = fin c * XR.sqrt (fin a)
    unfold XR.sqrt
    simp only [unit_negative hcc]
    split
    · rfl
    · rw [mul_fin, Real.sqrt_mul hcc.le, Real.sqrt_mul_self hc.le]
  | pinf => rw [unit_pinf hcc]; exact (unit_pinf hc).symm
  | ninf => rw [unit_ninf hcc]; rfl
  | nan => rfl

theorem XR.unit_lt (a b : XR) : (fin c * a <. fin c * b) = (a <. b) := by
  have p := unit_pinf hc
  have n := unit_ninf hc
  cases a <;> cases b <;> simp only [mul_fin, p, n, unit_nan, lt_fin, mul_lt_mul_iff_right₀ hc] <;> rfl

theorem XR.unit_le (a b : XR) : (fin c * a <=. fin c * b) = (a <=. b) := by
  have p := unit_pinf hc
  have n := unit_ninf hc
  cases a <;> cases b <;> simp only [mul_fin, p, n, unit_nan, le_fin, mul_le_mul_iff_right₀ hc] <;> rfl

omit hc in
theorem XR.unit_zero : fin c * (0.0 : XR) = 0.0 := by
  rw [show (0.0 : XR) = fin 0 by rw [sci]; norm_num, mul_fin, mul_zero]

theorem XR.unit_finite (a : XR) : Num.isFinite (fin c * a) = Num.isFinite a := by
  cases a with
  | fin a => rfl
  | pinf => rw [unit_pinf hc]
  | ninf => rw [unit_ninf hc]
  | nan => rfl

end arith

/-! ## Vectors -/

/-- both entries times `c` -/
noncomputable def Vec2.inUnit (c : ℝ) (v : Vec2 XR) : Vec2 XR := ⟨fin c * v.x, fin c * v.y⟩
/-- all entries times `c` -/
noncomputable def Row4.inUnit (c : ℝ) (v : Row4 XR) : Row4 XR := ⟨fin c * v.a0, fin c * v.a1, fin c * v.a2, fin c * v.a3⟩

section vectors
variable {c : ℝ} (hc : 0 < c)

include hc

theorem Vec2.unit_sub (v w : Vec2 XR) : v.inUnit c - w.inUnit c = (v - w).inUnit c := by
  show Vec2.mk _ _ = Vec2.mk _ _
  simp only [inUnit, XR.unit_sub hc, sub_x, sub_y]

theorem Vec2.unit_add (v w : Vec2 XR) : v.inUnit c + w.inUnit c = (v + w).inUnit c := by
  show Vec2.mk _ _ = Vec2.mk _ _
  simp only [inUnit, XR.unit_add hc]
  rfl

omit hc in
theorem Vec2.unit_neg (v : Vec2 XR) : -(v.inUnit c) = (-v).inUnit c := by
  show Vec2.mk _ _ = Vec2.mk _ _
  simp only [inUnit, XR.unit_neg, neg_x, neg_y]

theorem Vec2.unit_normSq (v : Vec2 XR) : (v.inUnit c).normSq = fin (c * c) * v.normSq := by
  simp only [normSq, inUnit, unit_mul, XR.unit_add (mul_pos hc hc)]

theorem Vec2.unit_norm (v : Vec2 XR) : (v.inUnit c).norm = fin c * v.norm := by
  simp only [norm, unit_normSq hc, unit_sqrt hc]

theorem Vec2.unit_sdiv (v : Vec2 XR) (a : XR) : (v.inUnit c).sdiv (fin c * a) = v.sdiv a := by
  simp only [sdiv, inUnit, unit_div hc]

omit hc in
theorem Vec2.unit_smul (v : Vec2 XR) (a : XR) : Vec2.smul (fin c * a) v = (Vec2.smul a v).inUnit c := by
  simp only [smul, inUnit, unit_mul_right]

theorem Vec2.unit_mul22 (v : Vec2 XR) (m : Mat2 (Vec2 XR)) : (v.inUnit c).mul22 m = (v.mul22 m).inUnit c := by
  simp only [mul22, inUnit, unit_mul_right, XR.unit_add hc]

theorem Vec2.unit_mul24 (v : Vec2 XR) (m : Mat2 (Row4 XR)) : (v.inUnit c).mul24 m = (v.mul24 m).inUnit c := by
  simp only [mul24, inUnit, Row4.inUnit, unit_mul_right, XR.unit_add hc]

theorem Vec2.unit_finite (v : Vec2 XR) : (v.inUnit c).allFinite = v.allFinite := by
  simp only [allFinite, inUnit, XR.unit_finite hc]

theorem Row4.unit_finite (v : Row4 XR) : (v.inUnit c).allFinite = v.allFinite := by
  simp only [allFinite, inUnit, XR.unit_finite hc]

omit hc in
theorem Vec2.unit_left (a : XR) : (⟨(0.0 : XR), fin c * a⟩ : Vec2 XR) = Vec2.inUnit c ⟨0.0, a⟩ := by
  simp only [inUnit, unit_zero]

omit hc in
theorem Vec2.unit_right (a : XR) : (⟨fin c * a, (0.0 : XR)⟩ : Vec2 XR) = Vec2.inUnit c ⟨a, 0.0⟩ := by
  simp only [inUnit, unit_zero]

end vectors

/-! ## Heaps -/

section heaps
variable {c : ℝ} (hc : 0 < c) (h : Heap XR)

/-- the heap in the new unit -/
local notation "T" => fun h : Heap XR => Heap.inUnit h c

/-- the point in the new unit -/
noncomputable def Point2.inUnit (c : ℝ) (p : Point2 XR) : Point2 XR := ⟨p.data.inUnit c, p.grad.inUnit c⟩

theorem unit_points (a : Nat) : (h.inUnit c).points a = (h.points a).inUnit c := rfl
theorem unit_lines : (h.inUnit c).lines = h.lines := rfl
theorem unit_cons (k : Nat) : (h.inUnit c).cons k = (h.cons k).inUnit c := rfl

theorem unit_ptData (p : Nat) : ptData (h.inUnit c) p = (ptData h p).inUnit c := rfl
theorem unit_lineStart (l : Nat) : lineStart (h.inUnit c) l = (lineStart h l).inUnit c := rfl
theorem unit_lineEnd (l : Nat) : lineEnd (h.inUnit c) l = (lineEnd h l).inUnit c := rfl

theorem unit_setPoint (a : Nat) (p : Point2 XR) : (h.inUnit c).setPoint a (p.inUnit c) = (h.setPoint a p).inUnit c := by
  unfold Heap.setPoint Heap.inUnit
  congr 1
  funext b
  simp only [upd]
  split <;> rfl

include hc

theorem unit_pointAdd (a : Nat) (g : Vec2 XR) : pointAddGrad (h.inUnit c) a (g.inUnit c) = mapE T (pointAddGrad h a g) := by
  unfold pointAddGrad
  rw [Vec2.unit_finite hc]
  split
  · refine congrArg Except.ok (Eq.trans ?_ (unit_setPoint h a { h.points a with grad := (h.points a).grad + g }))
    congr 1
    show Point2.mk _ _ = Point2.mk _ _
    rw [unit_points, Point2.inUnit]
    dsimp only
    rw [Vec2.unit_add hc]
  · rfl

theorem unit_lineAdd (l : Nat) (g : Row4 XR) : lineAddGrad (h.inUnit c) l (g.inUnit c) = mapE T (lineAddGrad h l g) := by
  unfold lineAddGrad
  rw [Row4.unit_finite hc]
  split
  · rw [unit_lines, show (⟨(g.inUnit c).a0, (g.inUnit c).a1⟩ : Vec2 XR) = Vec2.inUnit c ⟨g.a0, g.a1⟩ from rfl, unit_pointAdd hc]
    exact mapE_bind _ _ _ _ fun h => by
      rw [unit_lines]
      exact unit_pointAdd hc h _ ⟨g.a2, g.a3⟩
  · rfl

theorem unit_loss {k : Constraint XR} (hk : k.IsLength) : lossValue (h.inUnit c) (k.inUnit c) = fin (c * c) * lossValue h k := by
  have sq : ∀ e : XR, (0.5 : XR) * (fin c * e) * (fin c * e) = fin (c * c) * ((0.5 : XR) * e * e) := fun e => by
    rw [unit_mul_left, unit_mul_left, unit_mul_right, unit_unit]
  cases k with
  | horizDist p q d =>
    simp only [Constraint.inUnit, lossValue, horizCurrent, unit_ptData, Vec2.inUnit, XR.unit_sub hc, sq]
  | vertDist p q d =>
    simp only [Constraint.inUnit, lossValue, vertCurrent, unit_ptData, Vec2.inUnit, XR.unit_sub hc, sq]
  | fix p d =>
    show (0.5 : XR) * (ptData (h.inUnit c) p - d.inUnit c).normSq = _
    rw [unit_ptData, Vec2.unit_sub hc, Vec2.unit_normSq hc, unit_mul_left]
    rfl
  | eqLen l m =>
    simp only [Constraint.inUnit, lossValue, unit_lineStart, unit_lineEnd, Vec2.unit_sub hc, Vec2.unit_norm hc, XR.unit_sub hc, sq]
  | horizLine l =>
    simp only [Constraint.inUnit, lossValue, unit_lineStart, unit_lineEnd, Vec2.inUnit, XR.unit_sub hc, sq]
  | vertLine l =>
    simp only [Constraint.inUnit, lossValue, unit_lineStart, unit_lineEnd, Vec2.inUnit, XR.unit_sub hc, sq]
  | _ => exact hk.elim

theorem unit_update {k : Constraint XR} (hk : k.IsLength) : updateGradient (h.inUnit c) (k.inUnit c) = mapE T (updateGradient h k) := by
  cases k with
  | horizDist p q d =>
    simp only [Constraint.inUnit, updateGradient, horizUpdate, unit_ptData, Vec2.unit_sub hc]
    rw [show ∀ v : Vec2 XR, (v.inUnit c).x = fin c * v.x from fun _ => rfl, XR.unit_sub hc, unit_mul_right, Vec2.unit_smul,
      Vec2.unit_neg, Vec2.unit_mul22 hc, Vec2.unit_mul22 hc, unit_pointAdd hc]
    exact mapE_bind _ _ _ _ fun h => unit_pointAdd hc ..
  | vertDist p q d =>
    simp only [Constraint.inUnit, updateGradient, vertUpdate, unit_ptData, Vec2.unit_sub hc]
    rw [show ∀ v : Vec2 XR, (v.inUnit c).y = fin c * v.y from fun _ => rfl, XR.unit_sub hc, unit_mul_right, Vec2.unit_smul,
      Vec2.unit_neg, Vec2.unit_mul22 hc, Vec2.unit_mul22 hc, unit_pointAdd hc]
    exact mapE_bind _ _ _ _ fun h => unit_pointAdd hc ..
  | fix p d =>
    show pointAddGrad (h.inUnit c) p (ptData (h.inUnit c) p - d.inUnit c) = _
    rw [unit_ptData, Vec2.unit_sub hc, unit_pointAdd hc]
    rfl
  | eqLen l m =>
    simp only [Constraint.inUnit, updateGradient, eqLenUpdate, unit_lineStart, unit_lineEnd, Vec2.unit_sub hc, Vec2.unit_norm hc, XR.unit_sub hc,
      Vec2.unit_neg, Vec2.unit_sdiv hc, Vec2.unit_smul, Vec2.unit_mul24 hc, unit_lineAdd hc]
    exact mapE_bind _ _ _ _ fun h => unit_lineAdd hc ..
  | horizLine l =>
    simp only [Constraint.inUnit, updateGradient, horizLineUpdate, unit_lineStart, unit_lineEnd]
    rw [show ∀ v : Vec2 XR, (v.inUnit c).y = fin c * v.y from fun _ => rfl, show ∀ v : Vec2 XR, (v.inUnit c).y = fin c * v.y from fun _ => rfl,
      XR.unit_sub hc, Vec2.unit_left, Vec2.unit_neg, Vec2.unit_mul24 hc, Vec2.unit_mul24 hc, unit_lineAdd hc]
    exact mapE_bind _ _ _ _ fun h => unit_lineAdd hc ..
  | vertLine l =>
    simp only [Constraint.inUnit, updateGradient, vertLineUpdate, unit_lineStart, unit_lineEnd]
    rw [show ∀ v : Vec2 XR, (v.inUnit c).x = fin c * v.x from fun _ => rfl, show ∀ v : Vec2 XR, (v.inUnit c).x = fin c * v.x from fun _ => rfl,
      XR.unit_sub hc, Vec2.unit_right, Vec2.unit_neg, Vec2.unit_mul24 hc, Vec2.unit_mul24 hc, unit_lineAdd hc]
    exact mapE_bind _ _ _ _ fun h => unit_lineAdd hc ..
  | _ => exact hk.elim

end heaps

/-! ## Sketches -/

/-- all entries times `c` -/
noncomputable def inUnitL (c : ℝ) (l : List XR) : List XR := l.map (fin c * ·)

/-- change result and heap of a query -/
def mapQ {F α β : Type} (f : α → β) (T : Heap F → Heap F) : Except (Heap F) (α × Heap F) → Except (Heap F) (β × Heap F)
  | .ok (a, h) => .ok (f a, T h)
  | .error h => .error (T h)

section sketches
variable {c : ℝ} (hc : 0 < c) {s : Sketch} (ha : NoArcs s) (h : Heap XR)

local notation "T" => fun h : Heap XR => Heap.inUnit h c

theorem unit_flatMap {f g : PrimCell → List XR} (ha : NoArcs s) (hf : ∀ x, (∀ a, x ≠ .arc a) → g x = inUnitL c (f x)) :
    s.cells.flatMap g = inUnitL c (s.cells.flatMap f) := by
  unfold inUnitL
  rw [List.map_flatMap]
  exact List.flatMap_congr fun x hx => hf x fun a e => ha a (e ▸ hx)

theorem unit_primGrad (x : PrimCell) (hx : ∀ a, x ≠ .arc a) : primGrad (h.inUnit c) x = inUnitL c (primGrad h x) := by
  cases x with
  | arc a => exact absurd rfl (hx a)
  | _ => rfl

theorem unit_primData (x : PrimCell) (hx : ∀ a, x ≠ .arc a) : primData (h.inUnit c) x = inUnitL c (primData h x) := by
  cases x with
  | arc a => exact absurd rfl (hx a)
  | _ => rfl

include ha

theorem unit_getData : getData (h.inUnit c) s = inUnitL c (getData h s) := by
  rw [getData_eq, getData_eq]
  exact unit_flatMap ha (unit_primData h)

theorem unit_row : jacobianRow (h.inUnit c) s = inUnitL c (jacobianRow h s) := by
  rw [jacobianRow_eq, jacobianRow_eq]
  exact unit_flatMap ha (unit_primGrad h)

omit ha in
include hc in
theorem unit_all (l : List XR) : (inUnitL c l).all Num.isFinite = l.all Num.isFinite := by
  unfold inUnitL
  rw [List.all_map]
  congr 1
  funext x
  exact unit_finite hc x

include hc in
theorem unit_collect : collectGradient (h.inUnit c) s = (collectGradient h s).map (inUnitL c) := by
  rw [collectGradient_eq, collectGradient_eq, unit_flatMap ha (unit_primGrad h), unit_all hc]
  split <;> rfl

theorem unit_zero : zeroGrads (h.inUnit c) s = (zeroGrads h s).inUnit c := by
  unfold zeroGrads
  have hl : ∀ kp ∈ s.prims, ∀ a, kp.2 ≠ .arc a := fun kp hk a e => ha a (e ▸ List.mem_map_of_mem hk)
  generalize s.prims = l at hl
  induction l generalizing h with
  | nil => rfl
  | cons kp l ih =>
    rw [List.foldl_cons, List.foldl_cons, ← ih _ fun kp hk => hl kp (List.mem_cons_of_mem _ hk)]
    congr 1
    have hk := hl kp List.mem_cons_self
    generalize kp.2 = x at hk
    cases x with
    | point a =>
      refine Eq.trans ?_ (unit_setPoint h a { h.points a with grad := Vec2.zeros })
      show Heap.setPoint _ _ _ = _
      congr 1
      show Point2.mk _ _ = Point2.mk _ _
      simp only [unit_points, Point2.inUnit, Vec2.inUnit, Vec2.zeros, XR.unit_zero]
    | line a => rfl
    | arc a => exact absurd rfl (hk a)
    | circle a =>
      show Heap.setCircle _ _ _ = Heap.inUnit (Heap.setCircle _ _ _) c
      unfold Heap.setCircle Heap.inUnit
      congr 1
      funext b
      simp only [upd]
      split
      · simp only [XR.unit_zero]
      · rfl

omit ha in
include hc in
theorem unit_updateAll (cs : List Nat) (hl : ∀ k ∈ cs, (h.cons k).IsLength) : updateAll (h.inUnit c) cs = mapE T (updateAll h cs) := by
  unfold updateAll
  induction cs generalizing h with
  | nil => rfl
  | cons k cs ih =>
    rw [List.foldlM_cons, List.foldlM_cons, unit_cons, unit_update hc h (hl k List.mem_cons_self)]
    have g := updateGradient_gradOnly h h (h.cons k) (.refl h)
    cases e : updateGradient h (h.cons k) with
    | error h1 => rfl
    | ok h1 =>
      rw [e] at g
      have g : GradOnly h h1 := g
      exact ih h1 fun k' hk => by rw [g.1.cons]; exact hl k' (List.mem_cons_of_mem _ hk)

include hc in
theorem unit_gradient (hl : Lengths s h) : getGradient (h.inUnit c) s = mapQ (inUnitL c) T (getGradient h s) := by
  unfold getGradient
  rw [unit_zero ha, unit_updateAll hc _ _ fun k hk => by rw [(zeroGrads_gradOnly h s).1.cons]; exact hl k hk]
  cases updateAll (zeroGrads h s) s.cons with
  | error h => rfl
  | ok h =>
    simp only [mapE, unit_collect hc ha]
    cases collectGradient h s <;> rfl

include hc in
theorem unit_rows (cs : List Nat) (hl : ∀ k ∈ cs, (h.cons k).IsLength) :
    jacobianRows s cs (h.inUnit c) = mapQ (List.map (inUnitL c)) T (jacobianRows s cs h) := by
  induction cs generalizing h with
  | nil => rfl
  | cons k cs ih =>
    unfold jacobianRows
    have z := zeroGrads_gradOnly h s
    have hk : ((zeroGrads h s).cons k).IsLength := by rw [z.1.cons]; exact hl k List.mem_cons_self
    have g := updateGradient_gradOnly h (zeroGrads h s) ((zeroGrads h s).cons k) z
    simp only [unit_zero ha, unit_cons, unit_update hc _ hk]
    cases e : updateGradient (zeroGrads h s) ((zeroGrads h s).cons k) with
    | error h => rfl
    | ok h1 =>
      rw [e] at g
      have g : GradOnly h h1 := g
      simp only [mapE, ih h1 fun k' hk => by rw [g.1.cons]; exact hl k' (List.mem_cons_of_mem _ hk), unit_row ha]
      cases jacobianRows s cs h1 <;> rfl

omit ha in
include hc in
theorem unit_getLoss (hl : Lengths s h) : getLoss (h.inUnit c) s = fin (c * c) * getLoss h s := by
  unfold getLoss
  have key : ∀ (l : List Nat) (a : XR), (∀ k ∈ l, (h.cons k).IsLength) →
      l.foldl (fun loss k => loss + lossValue (h.inUnit c) ((h.inUnit c).cons k)) (fin (c * c) * a) =
        fin (c * c) * l.foldl (fun loss k => loss + lossValue h (h.cons k)) a := by
    intro l
    induction l with
    | nil => intro a _; rfl
    | cons k l ih =>
      intro a hl
      rw [List.foldl_cons, List.foldl_cons, unit_cons, unit_loss hc h (hl k List.mem_cons_self), XR.unit_add (mul_pos hc hc)]
      exact ih _ fun k' hk => hl k' (List.mem_cons_of_mem _ hk)
  have q := key s.cons 0.0 hl
  rwa [XR.unit_zero] at q

omit ha in
include hc in
theorem unit_losses (hl : Lengths s h) : getLossPerConstraint (h.inUnit c) s = inUnitL (c * c) (getLossPerConstraint h s) := by
  unfold getLossPerConstraint inUnitL
  rw [List.map_map]
  exact List.map_congr_left fun k hk => unit_loss hc h (hl k hk)

omit ha in
include hc in
theorem unit_primSet (x : PrimCell) (hx : ∀ a, x ≠ .arc a) (d : List XR) :
    primSetData (h.inUnit c) x (inUnitL c d) = mapE T (primSetData h x d) := by
  cases x with
  | point a =>
    unfold primSetData
    dsimp only
    rw [unit_all hc]
    split
    · match d with
      | [] => rfl
      | [x] => rfl
      | [x, y] => exact congrArg Except.ok (unit_setPoint h a { h.points a with data := ⟨x, y⟩ })
      | _ :: _ :: _ :: _ => rfl
    · rfl
  | line a => rfl
  | arc a => exact absurd rfl (hx a)
  | circle a =>
    unfold primSetData
    dsimp only
    rw [unit_all hc]
    split
    · match d with
      | [] => rfl
      | [x] =>
        refine congrArg Except.ok ?_
        unfold Heap.setCircle Heap.inUnit
        congr 1
        funext b
        simp only [upd]
        split <;> rfl
      | _ :: _ :: _ => rfl
    · rfl

include hc in
theorem unit_set (d : List XR) : setData (h.inUnit c) s (inUnitL c d) = mapE T (setData h s d) := by
  unfold setData
  rw [getNDofs_congr h (h.inUnit c), show (inUnitL c d).length = d.length from List.length_map ..]
  split
  · rename_i hlen
    clear hlen
    have hl : ∀ kp ∈ s.prims, ∀ a, kp.2 ≠ .arc a := fun kp hk a e => ha a (e ▸ List.mem_map_of_mem hk)
    generalize s.prims = l at hl
    generalize (0 : Nat) = i
    induction l generalizing i h with
    | nil => rfl
    | cons kp l ih =>
      unfold setDataLoop
      dsimp only
      have e1 : (primData (h.inUnit c) kp.2).length = (primData h kp.2).length := by cases kp.2 <;> rfl
      have e2 : ((inUnitL c d).drop i).take (primData h kp.2).length = inUnitL c ((d.drop i).take (primData h kp.2).length) := by
        unfold inUnitL
        rw [List.map_take, List.map_drop]
      rw [e1, e2, unit_primSet hc h _ (hl kp List.mem_cons_self)]
      cases primSetData h kp.2 _ with
      | error h1 => rfl
      | ok h1 => exact ih h1 (fun kp hk => hl kp (List.mem_cons_of_mem _ hk)) _
  · rfl

end sketches

/-! ## Gradient descent -/

section gd
variable {c : ℝ} (hc : 0 < c)

theorem unit_vneg (l : List XR) : vneg (inUnitL c l) = inUnitL c (vneg l) := by
  simp only [vneg, inUnitL, List.map_map]
  exact List.map_congr_left fun x _ => XR.unit_neg x

theorem unit_vscale (k : XR) (l : List XR) : vscale k (inUnitL c l) = inUnitL c (vscale k l) := by
  simp only [vscale, inUnitL, List.map_map]
  exact List.map_congr_left fun x _ => unit_mul_left ..

theorem unit_dotL_eq (c' : ℝ) (hcc : 0 < c * c') (a b : List XR) : dotL (inUnitL c a) (inUnitL c' b) = fin (c * c') * dotL a b := by
  have m : ∀ x y : XR, fin c * x * (fin c' * y) = fin (c * c') * (x * y) := fun x y => by
    rw [unit_mul_left, unit_mul_right, unit_unit, mul_comm]
  cases a with
  | nil => exact XR.unit_zero.symm
  | cons x a =>
    cases b with
    | nil => exact XR.unit_zero.symm
    | cons y b =>
      show ((inUnitL c a).zip (inUnitL c' b)).foldl _ (fin c * x * (fin c' * y)) = fin (c * c') * (a.zip b).foldl _ (x * y)
      rw [m]
      generalize x * y = t
      induction a generalizing b t with
      | nil => rfl
      | cons x a ih =>
        cases b with
        | nil => rfl
        | cons y b =>
          show ((inUnitL c a).zip (inUnitL c' b)).foldl _ (fin (c * c') * t + fin c * x * (fin c' * y)) = _
          rw [m, XR.unit_add hcc]
          exact ih b _

include hc

theorem unit_vadd (a b : List XR) : vadd (inUnitL c a) (inUnitL c b) = inUnitL c (vadd a b) := by
  unfold vadd inUnitL
  rw [List.zipWith_map, List.map_zipWith]
  simp only [XR.unit_add hc]

theorem unit_vsub (a b : List XR) : vsub (inUnitL c a) (inUnitL c b) = inUnitL c (vsub a b) := by
  unfold vsub inUnitL
  rw [List.zipWith_map, List.map_zipWith]
  simp only [XR.unit_sub hc]

theorem unit_axpy (a : List XR) (k : XR) (b : List XR) : axpy (inUnitL c a) k (inUnitL c b) = inUnitL c (axpy a k b) := by
  unfold axpy inUnitL
  rw [List.zipWith_map, List.map_zipWith]
  simp only [unit_mul_left, XR.unit_add hc]

theorem unit_dotV (a b : List XR) : dotV (inUnitL c a) (inUnitL c b) = fin (c * c) * dotV a b := by
  rw [dotV_eq, dotV_eq, unit_dotL_eq c (mul_pos hc hc)]

theorem unit_normL (a : List XR) : normL (inUnitL c a) = fin c * normL a := by
  unfold normL
  rw [unit_dotV hc, unit_sqrt hc]

variable {s : Sketch} (ha : NoArcs s)

/-- the second sketch is the first in the new unit, and its constraints are about lengths -/
def InUnit (c : ℝ) (s : Sketch) (h h' : Heap XR) : Prop := h' = h.inUnit c ∧ Lengths s h

omit hc in
theorem setData_lengths {h h1 : Heap XR} {d : List XR} (e : setData h s d = .ok h1) (hl : Lengths s h) : Lengths s h1 := by
  have := (setData_dataOnly h s d)
  rw [e] at this
  intro k hk
  rw [(DataOnly.moves (show DataOnly s h h1 from this)).1.cons]
  exact hl k hk

omit hc in
theorem getGradient_lengths {h h1 : Heap XR} {g : List XR} (e : getGradient h s = .ok (g, h1)) (hl : Lengths s h) : Lengths s h1 := by
  intro k hk
  rw [(getGradient_frame e).1.cons]
  exact hl k hk

include ha

theorem unit_lsLoop (dir x : List XR) (loss m : XR) (n : Nat) (al : XR) (h : Heap XR) (hl : Lengths s h) :
    lsLoop s (inUnitL c dir) (inUnitL c x) (fin (c * c) * loss) (fin (c * c) * m) n al (h.inUnit c) =
      ((lsLoop s dir x loss m n al h).1, (lsLoop s dir x loss m n al h).2.inUnit c) ∧
    ((lsLoop s dir x loss m n al h).1 ≠ .panic → Lengths s (lsLoop s dir x loss m n al h).2) := by
  have hcc := mul_pos hc hc
  induction n generalizing al h with
  | zero => exact ⟨rfl, fun _ => hl⟩
  | succ n ih =>
    unfold lsLoop
    rw [unit_vscale, unit_vadd hc, unit_set hc ha]
    cases e : setData h s (vadd x (vscale al dir)) with
    | error h1 => exact ⟨rfl, fun e => absurd rfl e⟩
    | ok h1 =>
      have hl1 := setData_lengths e hl
      simp only [mapE]
      rw [unit_getLoss hc h1 hl1, unit_mul_left, XR.unit_add hcc, unit_le hcc]
      split
      · rw [unit_gradient hc ha h1 hl1]
        cases eg : getGradient h1 s with
        | error h2 => exact ⟨rfl, fun e => absurd rfl e⟩
        | ok q =>
          obtain ⟨g, h2⟩ := q
          have hl2 := getGradient_lengths eg hl1
          simp only [mapQ]
          rw [unit_dotV hc, unit_mul_left wolfeC2]
          show (if (fin (c * c) * (wolfeC2 * m) <=. fin (c * c) * dotV g dir) = true then _ else _) = _ ∧ _
          rw [unit_le hcc]
          split
          · exact ⟨rfl, fun _ => hl2⟩
          · exact ih _ h2 hl2
      · exact ih _ h1 hl1

theorem unit_lineSearch (dir g : List XR) (h : Heap XR) (hl : Lengths s h) :
    lineSearch (h.inUnit c) s (inUnitL c dir) (inUnitL c g) = ((lineSearch h s dir g).1, (lineSearch h s dir g).2.inUnit c) ∧
    ((lineSearch h s dir g).1 ≠ .panic → Lengths s (lineSearch h s dir g).2) := by
  have hcc := mul_pos hc hc
  unfold lineSearch
  dsimp only
  rw [unit_dotV hc, unit_getData ha, unit_getLoss hc h hl]
  have e : ge (fin (c * c) * dotV g dir) (0.0 : XR) = ge (dotV g dir) (0.0 : XR) := by
    have q := unit_le hcc (0.0 : XR) (dotV g dir)
    rwa [XR.unit_zero] at q
  rw [e]
  split
  · exact ⟨rfl, fun _ => hl⟩
  · exact unit_lsLoop hc ha dir _ _ _ _ _ h hl

theorem unit_gdLoop (p : GDParams XR) (n : Nat) (h : Heap XR) (hl : Lengths s h) (g : List XR) (gn loss : XR) :
    SameRun (InUnit c s) (fun h h' => h' = h.inUnit c) Eq (gdLoop p s n h g gn loss)
      (gdLoop ⟨p.maxIterations, fin (c * c) * p.minLoss, fin c * p.minGrad⟩ s n (h.inUnit c) (inUnitL c g) (fin c * gn) (fin (c * c) * loss)) := by
  have hcc := mul_pos hc hc
  induction n generalizing h g gn loss with
  | zero => exact .stop nofun ⟨rfl, hl⟩
  | succ n ih =>
    unfold gdLoop
    dsimp only
    rw [unit_lt hc, unit_lt hcc]
    split
    · exact .stop nofun ⟨rfl, hl⟩
    · split
      · exact .stop nofun ⟨rfl, hl⟩
      · obtain ⟨h1, h2⟩ := unit_lineSearch hc ha (vneg g) g h hl
        rw [unit_vneg, h1]
        generalize lineSearch h s (vneg g) g = r at h2
        obtain ⟨r, hr⟩ := r
        cases r with
        | notDescent => exact .stop nofun ⟨rfl, h2 nofun⟩
        | searchFailed => exact .stop nofun ⟨rfl, h2 nofun⟩
        | panic => exact .panic rfl
        | ok al =>
          dsimp only
          rw [unit_getData ha, unit_axpy hc, unit_set hc ha]
          cases e : setData hr s (axpy (getData h s) al (vneg g)) with
          | error h3 => exact .panic rfl
          | ok h3 =>
            have hl3 := setData_lengths e (h2 nofun)
            simp only [mapE]
            rw [unit_getLoss hc h3 hl3, unit_gradient hc ha h3 hl3]
            cases eg : getGradient h3 s with
            | error h4 => exact .panic rfl
            | ok q =>
              obtain ⟨g4, h4⟩ := q
              have hl4 := getGradient_lengths eg hl3
              simp only [mapQ]
              rw [unit_normL hc]
              exact (ih h4 hl4 g4 _ _).cons ⟨⟨rfl, hl⟩, rfl, ⟨rfl, hl4⟩, rfl⟩

theorem unit_gd (p : GDParams XR) (h : Heap XR) (hl : Lengths s h) :
    SameRun (InUnit c s) (fun h h' => h' = h.inUnit c) Eq (gdSolve p h s)
      (gdSolve ⟨p.maxIterations, fin (c * c) * p.minLoss, fin c * p.minGrad⟩ (h.inUnit c) s) := by
  unfold gdSolve
  rw [unit_gradient hc ha h hl]
  cases eg : getGradient h s with
  | error h4 => exact .panic rfl
  | ok q =>
    obtain ⟨g, h1⟩ := q
    have hl1 := getGradient_lengths eg hl
    simp only [mapQ]
    rw [unit_getLoss hc h1 hl1, unit_normL hc]
    exact unit_gdLoop hc ha p _ h1 hl1 g _ _

end gd

/-! ## Gauss-Newton and Levenberg-Marquardt -/

section newton
open Matrix
variable {c : ℝ} (hc : 0 < c) {s : Sketch} (ha : NoArcs s)

theorem unit_vec {n : Nat} (x : Fin n → ℝ) : inUnitL c (vec x) = vec (c • x) := by
  unfold inUnitL vec
  rw [List.map_ofFn]
  rfl

theorem unit_mat {m n : Nat} (J : Matrix (Fin m) (Fin n) ℝ) : (mat J).map (inUnitL c) = mat (c • J) := by
  unfold mat
  rw [List.map_ofFn]
  congr 1
  funext i
  exact unit_vec (J i)

theorem unit_sumL (hc : 0 < c) (l : List XR) : sumL (inUnitL c l) = fin c * sumL l := by
  unfold sumL inUnitL
  have key : ∀ (l : List XR) (a : XR), (l.map (fin c * ·)).foldl (· + ·) (fin c * a) = fin c * l.foldl (· + ·) a := by
    intro l
    induction l with
    | nil => intro a; rfl
    | cons x l ih => intro a; rw [List.map_cons, List.foldl_cons, List.foldl_cons, XR.unit_add hc]; exact ih _
  have q := key l 0.0
  rwa [XR.unit_zero] at q

/-- the pseudo-inverse with cut-off, the matrix and the cut-off times `k` -/
theorem cut_unit {pinv : PInv XR} (hp : CutPInv pinv) {n : Nat} (hn : 0 < n) {A : Matrix (Fin n) (Fin n) ℝ} (hA : Aᵀ = A)
    (hpos : ∀ x, 0 ≤ x ⬝ᵥ (A *ᵥ x)) {ε : ℝ} (h0 : 0 ≤ ε) {k : ℝ} (hk : 0 < k) :
    ∃ P : Matrix (Fin n) (Fin n) ℝ, pinv (mat A) (fin ε) = .ok (mat P) ∧ pinv (mat (k • A)) (fin (k * ε)) = .ok (mat (k⁻¹ • P)) := by
  obtain ⟨P, eP, hP⟩ := hp n A ε hn hA hpos h0
  have hA' : (k • A)ᵀ = k • A := by rw [transpose_smul, hA]
  obtain ⟨P', eP', hP'⟩ := hp n (k • A) (k * ε) hn hA'
    (fun x => by rw [smul_mulVec, dotProduct_smul, smul_eq_mul]; exact mul_nonneg hk.le (hpos x)) (mul_nonneg hk.le h0)
  refine ⟨P, eP, ?_⟩
  rw [eP']
  congr 2
  refine cut_unique hA' (fun w => if k * ε < w then w⁻¹ else 0) hP' fun x w hx => ?_
  have hx' : A *ᵥ x = (k⁻¹ * w) • x := by
    rw [smul_mulVec] at hx
    rw [mul_smul, ← hx, smul_smul, inv_mul_cancel₀ hk.ne', one_smul]
  rw [smul_mulVec, hP x _ hx', smul_smul]
  congr 1
  have e : ε < k⁻¹ * w ↔ k * ε < w := by rw [inv_mul_eq_div, lt_div_iff₀ hk, mul_comm]
  simp only [e]
  split
  · rw [mul_inv, inv_inv, ← mul_assoc, inv_mul_cancel₀ hk.ne', one_mul]
  · rw [mul_zero]

/-- what the two solvers need of the matrix of their normal equations -/
def UnitNormal (c : ℝ) (normal normal' : Nat → List (List XR) → List (List XR)) : Prop :=
  ∀ {m n : Nat} (J : Matrix (Fin m) (Fin n) ℝ), ∃ A : Matrix (Fin n) (Fin n) ℝ,
    normal n (mat J) = mat A ∧ normal' n (mat (c • J)) = mat ((c * c) • A) ∧ Aᵀ = A ∧ ∀ x, 0 ≤ x ⬝ᵥ (A *ᵥ x)

theorem unit_gn : UnitNormal c gnNormal gnNormal := by
  intro m n J
  refine ⟨_, gnNormal_mat J, ?_, gram_symm J, fun x => by rw [gram_form]; exact dot_self_nonneg _⟩
  rw [gnNormal_mat, transpose_smul, smul_mul, Matrix.mul_smul, smul_smul]

theorem unit_lm {β : ℝ} (h1 : 0 ≤ β) : UnitNormal c (lmNormal (fin β)) (lmNormal (fin (c * c) * fin β)) := by
  intro m n J
  refine ⟨_, lmNormal_mat β J, ?_, lm_symm J β, fun x => ?_⟩
  · rw [mul_fin, lmNormal_mat, transpose_smul, smul_mul, Matrix.mul_smul, smul_smul, smul_add, smul_smul]
  · rw [Matrix.add_mulVec, dotProduct_add, gram_form, Matrix.smul_mulVec, Matrix.one_mulVec, dotProduct_smul, smul_eq_mul]
    have := dot_self_nonneg (J *ᵥ x)
    have := mul_nonneg h1 (dot_self_nonneg x)
    linarith

include hc ha

theorem unit_newton {pinv : PInv XR} (hp : CutPInv pinv) {normal normal' : Nat → List (List XR) → List (List XR)}
    (hN : UnitNormal c normal normal') {ε σ : ℝ} (h0 : 0 ≤ ε) (ml : XR) (hn : s.cells.Nodup) (n : Nat) (ls ls' : XR)
    (hls : ls' = fin (c * c) * ls) (h : Heap XR) (hd : getNDofs h s ≠ 0) (hl : Lengths s h) (hcl : Closed ⟨h, s⟩) (hf : FiniteSketch h s) :
    SameRun (InUnit c s) (fun h h' => h' = h.inUnit c) Eq (newtonLoop pinv ml (fin σ) (fin ε) normal s n ls h)
      (newtonLoop pinv (fin (c * c) * ml) (fin σ) (fin (c * c * ε)) normal' s n ls' (h.inUnit c)) := by
  have hcc := mul_pos hc hc
  induction n generalizing ls ls' h with
  | zero => exact .stop nofun ⟨rfl, hl⟩
  | succ n ih =>
    unfold newtonLoop
    rw [hls]
    have e : gt (fin (c * c) * ls) (fin (c * c) * ml) = gt ls ml := unit_lt hcc ml ls
    rw [e]
    split
    · dsimp only
      rw [unit_losses hc h hl, unit_sumL hcc, unit_getData ha, show (inUnitL c (getData h s)).length = (getData h s).length from List.length_map ..,
        show getJacobian (h.inUnit c) s = _ from unit_rows hc ha h s.cons hl]
      cases ej : getJacobian h s with
      | error h1 =>
        rw [show jacobianRows s s.cons h = .error h1 from ej]
        exact .panic rfl
      | ok q =>
        obtain ⟨jac, h1⟩ := q
        rw [show jacobianRows s s.cons h = .ok (jac, h1) from ej]
        simp only [mapQ]
        have g1 : GradOnly h h1 := by have := getJacobian_gradOnly h s; rwa [ej] at this
        obtain ⟨J, rfl⟩ := getJacobian_mat hcl hf ej
        obtain ⟨l, el⟩ := losses_vec hcl hf
        obtain ⟨x, ex⟩ := exists_vec' (List.all_eq_true.2 hf.1) (getData_length h s)
        have hl1 : Lengths s h1 := fun k hk => by rw [g1.1.cons]; exact hl k hk
        rw [getData_length, unit_mat]
        obtain ⟨A, e1, e2, sy, po⟩ := hN J
        obtain ⟨P, eP, eP'⟩ := cut_unit hp (Nat.pos_of_ne_zero hd) sy po h0 hcc
        rw [e1, e2, eP, eP']
        dsimp only
        have ln : ∀ B : Matrix (Fin s.cons.length) (Fin (getNDofs h s)) ℝ, (mat B).length = s.cons.length := fun B => by simp [mat]
        have eu : ∀ x : Fin (getNDofs h s) → ℝ, (vec x).map (· * fin σ) = vec (σ • x) := fun x => by
          unfold vec
          rw [List.map_ofFn]
          congr 1
          funext i
          simp only [Function.comp, mul_fin, Pi.smul_apply, smul_eq_mul, mul_comm]
        rw [ln, ln, transpose_mat, transpose_mat, matMul_mat, matMul_mat, el, unit_vec, matVec_mat, matVec_mat, eu, eu]
        have key : ((c * c)⁻¹ • P * (c • J)ᵀ) *ᵥ ((c * c) • l) = c • ((P * Jᵀ) *ᵥ l) := by
          rw [transpose_smul, smul_mul, Matrix.mul_smul, smul_mulVec, smul_mulVec, mulVec_smul, smul_smul, smul_smul]
          congr 1
          field_simp
        rw [key, smul_comm σ c, ← unit_vec (c := c), unit_vsub hc, unit_set hc ha]
        cases e3 : setData h1 s (vsub (getData h s) (vec (σ • ((P * Jᵀ) *ᵥ l)))) with
        | error h2 => exact .panic rfl
        | ok h2 =>
          simp only [mapE]
          have r3 : SameRefs h1 h2 := by
            have := (C14_frame h1 s (vsub (getData h s) (vec (σ • ((P * Jᵀ) *ᵥ l))))).1
            rwa [e3] at this
          have r : SameRefs h h2 := g1.1.trans r3
          have hf2 : FiniteSketch h2 s := by
            refine ⟨?_, ?_⟩
            · rw [C12_roundtrip h1 h2 s _ hn e3, ex, vsub_vec]
              intro y hy
              obtain ⟨i, rfl⟩ := List.mem_ofFn.1 hy
              rfl
            · intro k hk
              rw [r.cons]
              exact hf.2 k hk
          have hl2 := setData_lengths e3 hl1
          have q := ih (sumL (vec l)) _ rfl h2 (by rw [getNDofs_congr h h2]; exact hd) hl2 (hcl.sameRefs r) hf2
          exact ⟨q.res, q.heap, q.panicked, q.searches, q.failed, .cons ⟨⟨rfl, hl⟩, rfl, ⟨rfl, hl2⟩, rfl⟩ q.steps⟩
    · exact .stop nofun ⟨rfl, hl⟩

end newton

/-! ## Too small to be seen -/

section stuck
open Matrix

/-- if all singular values are cut off, Gauss-Newton moves nothing -/
theorem newton_stuck {pinv : PInv XR} (hp : CutPInv pinv) {h h0 : Heap XR} {s : Sketch} (hn : s.cells.Nodup) {N : Nat} (hd : N ≠ 0)
    {ε σ : ℝ} (h0e : 0 ≤ ε) (ml : XR) {x : Fin (N) → ℝ} (ex : getData h s = vec x) {l : Fin s.cons.length → ℝ}
    (el : getLossPerConstraint h s = vec l) {J : Matrix (Fin s.cons.length) (Fin (N)) ℝ}
    (eJ : getJacobian h s = .ok (mat J, h0)) (hJ : ∀ z, (J *ᵥ z) ⬝ᵥ (J *ᵥ z) ≤ ε * (z ⬝ᵥ z)) (n : Nat) (ls : XR) (h1 : Heap XR)
    (g : GradOnly h h1) :
    (newtonLoop pinv ml (fin σ) (fin ε) gnNormal s n ls h1).res = .ok ∧
      GradOnly h (newtonLoop pinv ml (fin σ) (fin ε) gnNormal s n ls h1).heap := by
  induction n generalizing ls h1 with
  | zero => exact ⟨rfl, g⟩
  | succ n ih =>
    unfold newtonLoop
    split
    · dsimp only
      have ej := C23_jacobian_independent h h1 s g
      rw [eJ] at ej
      cases e1 : getJacobian h1 s with
      | error h2 => rw [e1] at ej; cases ej
      | ok q =>
        obtain ⟨jac, h2⟩ := q
        rw [e1] at ej
        obtain rfl : jac = mat J := Option.some.inj ej
        have g1 : GradOnly h1 h2 := by have := getJacobian_gradOnly h1 s; rwa [e1] at this
        obtain ⟨P, eP, hP⟩ := hp (N) (Jᵀ * J) ε (Nat.pos_of_ne_zero hd) (gram_symm J)
          (fun z => by rw [gram_form]; exact dot_self_nonneg _) h0e
        obtain rfl : P = 0 := by
          refine cut_unique (gram_symm J) (fun w => if ε < w then w⁻¹ else 0) hP fun z w hz => ?_
          rw [zero_mulVec]
          by_cases hz0 : z = 0
          · rw [hz0, smul_zero]
          · have q := gram_form J z
            rw [hz, dotProduct_smul, smul_eq_mul] at q
            have q2 := hJ z
            rw [← q] at q2
            rw [if_neg (not_lt.2 (le_of_mul_le_mul_right q2 (dot_self_pos hz0))), zero_smul]
        rw [g.getData, g.lossPer, ex, el]
        have lv : (vec x).length = N := by simp [vec]
        have lm : (mat J).length = s.cons.length := by simp [mat]
        dsimp only
        rw [lv, gnNormal_mat, eP]
        dsimp only
        rw [lm, transpose_mat, matMul_mat, matVec_mat, Matrix.zero_mul, zero_mulVec]
        have eu : (vec (0 : Fin (N) → ℝ)).map (· * fin σ) = vec (0 : Fin (N) → ℝ) := by
          unfold vec
          rw [List.map_ofFn]
          congr 1
          funext i
          simp only [Function.comp, mul_fin, Pi.zero_apply, zero_mul]
        rw [eu, vsub_vec, sub_zero, ← ex, ← (g.trans g1).getData s, C13_write_back h2 s hn (by
          rw [(g.trans g1).getData, ex, List.all_eq_true]
          intro y hy
          obtain ⟨i, rfl⟩ := List.mem_ofFn.1 hy
          rfl)]
        exact ih _ h2 (g.trans g1)
    · exact ⟨rfl, g⟩

theorem frobenius {m n : Nat} (J : Matrix (Fin m) (Fin n) ℝ) (z : Fin n → ℝ) :
    (J *ᵥ z) ⬝ᵥ (J *ᵥ z) ≤ (∑ i, ∑ j, J i j ^ 2) * (z ⬝ᵥ z) := by
  rw [Finset.sum_mul]
  refine Finset.sum_le_sum fun i _ => ?_
  have := Finset.sum_mul_sq_le_sq_mul_sq Finset.univ (J i) z
  have e : z ⬝ᵥ z = ∑ j, z j ^ 2 := Finset.sum_congr rfl fun j _ => (sq _).symm
  rw [e, ← sq]
  exact this

end stuck

end Isotope
