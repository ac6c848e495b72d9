import Verif.Lemmas.Alike
import Verif.Lemmas.Dot

/-!
# Moving a sketch as a whole
-/

namespace Isotope
open XR

/-! ## Arithmetic -/

theorem XR.sub_def (a b : XR) : a - b = a + -b := rfl

theorem XR.move_sub_move (a b : XR) (t : ℝ) : (a + fin t) - (b + fin t) = a - b := by
  cases a <;> cases b <;> first | rfl | (simp only [add_fin, sub_fin, fin.injEq]; ring)

theorem XR.move_add (a b : XR) (t : ℝ) : (a + fin t) + b = (a + b) + fin t := by
  rw [add_assoc', add_comm' (fin t), ← add_assoc']

theorem XR.move_sub (a b : XR) (t : ℝ) : (a + fin t) - b = (a - b) + fin t := by
  rw [sub_def, sub_def, move_add]

theorem XR.one_mul' (a : XR) : (1.0 : XR) * a = a := by
  have e : (1.0 : XR) = fin 1 := by rw [sci]; norm_num
  rw [e]
  cases a with
  | fin a => rw [mul_fin, one_mul]
  | pinf => show infOf 1 = pinf; simp [infOf]
  | ninf => show infOf (-1) = ninf; simp only [infOf]; norm_num
  | nan => rfl

theorem XR.isFinite_move (a : XR) (t : ℝ) : Num.isFinite (a + fin t) = Num.isFinite a := by
  cases a <;> rfl

/-! ## Heaps -/

/-- apply a function to the heap a call returns or leaves behind -/
def mapE {F : Type} (T : Heap F → Heap F) : Except (Heap F) (Heap F) → Except (Heap F) (Heap F)
  | .ok h => .ok (T h)
  | .error h => .error (T h)

theorem mapE_bind {F : Type} (T : Heap F → Heap F) (e : Except (Heap F) (Heap F)) (f f' : Heap F → Except (Heap F) (Heap F))
    (hf : ∀ h, f' (T h) = mapE T (f h)) : (mapE T e >>= f') = mapE T (e >>= f) := by
  cases e with
  | ok h => exact hf h
  | error h => rfl

/-- apply a function to the heap a query leaves behind -/
def mapG {F α : Type} (T : Heap F → Heap F) : Except (Heap F) (α × Heap F) → Except (Heap F) (α × Heap F)
  | .ok (a, h) => .ok (a, T h)
  | .error h => .error (T h)

variable (tx ty : ℝ) (h : Heap XR)

/-- the point moved -/
noncomputable def Point2.moveBy (p : Point2 XR) : Point2 XR := { p with data := ⟨p.data.x + fin tx, p.data.y + fin ty⟩ }

theorem moveBy_points (a : Nat) : (h.moveBy tx ty).points a = (h.points a).moveBy tx ty := rfl
theorem moveBy_lines : (h.moveBy tx ty).lines = h.lines := rfl
theorem moveBy_arcs : (h.moveBy tx ty).arcs = h.arcs := rfl
theorem moveBy_circles : (h.moveBy tx ty).circles = h.circles := rfl
theorem moveBy_cons (k : Nat) : (h.moveBy tx ty).cons k = (h.cons k).moveBy tx ty := rfl

theorem moveBy_setPoint (a : Nat) (p : Point2 XR) : (h.moveBy tx ty).setPoint a (p.moveBy tx ty) = (h.setPoint a p).moveBy tx ty := by
  unfold Heap.setPoint Heap.moveBy
  congr 1
  funext b
  simp only [upd]
  split <;> rfl

theorem moveBy_setArc (a : Nat) (p : Arc XR) : (h.moveBy tx ty).setArc a p = (h.setArc a p).moveBy tx ty := rfl
theorem moveBy_setCircle (a : Nat) (p : Circle XR) : (h.moveBy tx ty).setCircle a p = (h.setCircle a p).moveBy tx ty := rfl

theorem moveBy_diff (p q : Nat) : ptData (h.moveBy tx ty) p - ptData (h.moveBy tx ty) q = ptData h p - ptData h q := by
  show Vec2.mk _ _ = Vec2.mk _ _
  simp only [ptData, moveBy_points, Point2.moveBy, move_sub_move]

theorem moveBy_diff_x (p q : Nat) : (ptData (h.moveBy tx ty) p).x - (ptData (h.moveBy tx ty) q).x = (ptData h p).x - (ptData h q).x := by
  simp only [ptData, moveBy_points, Point2.moveBy, move_sub_move]

theorem moveBy_diff_y (p q : Nat) : (ptData (h.moveBy tx ty) p).y - (ptData (h.moveBy tx ty) q).y = (ptData h p).y - (ptData h q).y := by
  simp only [ptData, moveBy_points, Point2.moveBy, move_sub_move]

theorem moveBy_start (a : Arc XR) (p : Nat) :
    (a.startPoint (h.moveBy tx ty)).x - (ptData (h.moveBy tx ty) p).x = (a.startPoint h).x - (ptData h p).x ∧
    (a.startPoint (h.moveBy tx ty)).y - (ptData (h.moveBy tx ty) p).y = (a.startPoint h).y - (ptData h p).y := by
  simp only [Arc.startPoint, ptData, moveBy_points, Point2.moveBy, move_add, move_sub_move, and_self]

theorem moveBy_end (a : Arc XR) (p : Nat) :
    (a.endPoint (h.moveBy tx ty)).x - (ptData (h.moveBy tx ty) p).x = (a.endPoint h).x - (ptData h p).x ∧
    (a.endPoint (h.moveBy tx ty)).y - (ptData (h.moveBy tx ty) p).y = (a.endPoint h).y - (ptData h p).y := by
  simp only [Arc.endPoint, ptData, moveBy_points, Point2.moveBy, move_add, move_sub_move, and_self]

theorem moveBy_fix (p : Nat) (d : Vec2 XR) :
    ptData (h.moveBy tx ty) p - ⟨d.x + fin tx, d.y + fin ty⟩ = ptData h p - d := by
  show Vec2.mk _ _ = Vec2.mk _ _
  simp only [ptData, moveBy_points, Point2.moveBy, move_sub_move]

theorem moveBy_line (l : Nat) : lineEnd (h.moveBy tx ty) l - lineStart (h.moveBy tx ty) l = lineEnd h l - lineStart h l := moveBy_diff ..

/-! ## Losses and gradients -/

theorem moveBy_loss (c : Constraint XR) : lossValue (h.moveBy tx ty) (c.moveBy tx ty) = lossValue h c := by
  cases c with
  | angle p1 p2 mid d => simp only [Constraint.moveBy, lossValue, currentAngle, moveBy_diff]
  | arcEnd a p => simp only [Constraint.moveBy, lossValue, moveBy_arcs, moveBy_end]
  | arcStart a p => simp only [Constraint.moveBy, lossValue, moveBy_arcs, moveBy_start]
  | euclid p1 p2 d => simp only [Constraint.moveBy, lossValue, euclidCurrent, moveBy_diff]
  | horizDist p1 p2 d => simp only [Constraint.moveBy, lossValue, horizCurrent, moveBy_diff_x]
  | vertDist p1 p2 d => simp only [Constraint.moveBy, lossValue, vertCurrent, moveBy_diff_y]
  | fix p d => simp only [Constraint.moveBy, lossValue, moveBy_fix]
  | eqLen l m => simp only [Constraint.moveBy, lossValue, lineStart, lineEnd, moveBy_lines, moveBy_diff]
  | horizLine l => simp only [Constraint.moveBy, lossValue, lineStart, lineEnd, moveBy_lines, moveBy_diff_y]
  | vertLine l => simp only [Constraint.moveBy, lossValue, lineStart, lineEnd, moveBy_lines, moveBy_diff_x]
  | parallel l m =>
    dsimp only [Constraint.moveBy, lossValue]
    rw [moveBy_line, moveBy_line]
  | perp l m =>
    dsimp only [Constraint.moveBy, lossValue]
    rw [moveBy_line, moveBy_line]

/-- moving commutes with an effect -/
local notation "T" => fun h : Heap XR => Heap.moveBy h tx ty

theorem moveBy_pointAdd (a : Nat) (g : Vec2 XR) : pointAddGrad (h.moveBy tx ty) a g = mapE T (pointAddGrad h a g) := by
  unfold pointAddGrad
  split
  · exact congrArg Except.ok (moveBy_setPoint tx ty h a { h.points a with grad := (h.points a).grad + g })
  · rfl

theorem moveBy_lineAdd (l : Nat) (g : Row4 XR) : lineAddGrad (h.moveBy tx ty) l g = mapE T (lineAddGrad h l g) := by
  unfold lineAddGrad
  split
  · rw [moveBy_lines, moveBy_pointAdd]
    exact mapE_bind _ _ _ _ fun h => by rw [moveBy_lines]; exact moveBy_pointAdd ..
  · rfl

theorem moveBy_arcAdd (a : Nat) (g : Row5 XR) : arcAddGrad (h.moveBy tx ty) a g = mapE T (arcAddGrad h a g) := by
  unfold arcAddGrad
  split
  · rw [moveBy_arcs, moveBy_pointAdd]
    exact mapE_bind _ _ _ _ fun h => rfl
  · rfl

theorem moveBy_update (c : Constraint XR) : updateGradient (h.moveBy tx ty) (c.moveBy tx ty) = mapE T (updateGradient h c) := by
  cases c with
  | angle p1 p2 mid d =>
    simp only [Constraint.moveBy, updateGradient, angleUpdate, moveBy_diff]
    split
    · rfl
    · split
      · rfl
      · split
        · rfl
        · rw [moveBy_pointAdd]
          exact mapE_bind _ _ _ _ fun h => by rw [moveBy_pointAdd]; exact mapE_bind _ _ _ _ fun h => moveBy_pointAdd ..
  | arcEnd a p =>
    simp only [Constraint.moveBy, updateGradient, arcEndUpdate, moveBy_arcs, moveBy_end, moveBy_arcAdd]
    exact mapE_bind _ _ _ _ fun h => moveBy_pointAdd ..
  | arcStart a p =>
    simp only [Constraint.moveBy, updateGradient, arcStartUpdate, moveBy_arcs, moveBy_start, moveBy_arcAdd]
    exact mapE_bind _ _ _ _ fun h => moveBy_pointAdd ..
  | euclid p1 p2 d =>
    simp only [Constraint.moveBy, updateGradient, euclidUpdate, moveBy_diff]
    split
    · rfl
    · rw [moveBy_pointAdd]
      exact mapE_bind _ _ _ _ fun h => moveBy_pointAdd ..
  | horizDist p1 p2 d =>
    simp only [Constraint.moveBy, updateGradient, horizUpdate, moveBy_diff, moveBy_pointAdd]
    exact mapE_bind _ _ _ _ fun h => moveBy_pointAdd ..
  | vertDist p1 p2 d =>
    simp only [Constraint.moveBy, updateGradient, vertUpdate, moveBy_diff, moveBy_pointAdd]
    exact mapE_bind _ _ _ _ fun h => moveBy_pointAdd ..
  | fix p d => simp only [Constraint.moveBy, updateGradient, fixUpdate, moveBy_fix, moveBy_pointAdd]
  | eqLen l m =>
    simp only [Constraint.moveBy, updateGradient, eqLenUpdate, lineStart, lineEnd, moveBy_lines, moveBy_diff, moveBy_lineAdd]
    exact mapE_bind _ _ _ _ fun h => moveBy_lineAdd ..
  | horizLine l =>
    simp only [Constraint.moveBy, updateGradient, horizLineUpdate, lineStart, lineEnd, moveBy_lines, moveBy_diff_y, moveBy_lineAdd]
    exact mapE_bind _ _ _ _ fun h => moveBy_lineAdd ..
  | vertLine l =>
    simp only [Constraint.moveBy, updateGradient, vertLineUpdate, lineStart, lineEnd, moveBy_lines, moveBy_diff_x, moveBy_lineAdd]
    exact mapE_bind _ _ _ _ fun h => moveBy_lineAdd ..
  | parallel l m =>
    dsimp only [Constraint.moveBy, updateGradient, parallelUpdate]
    rw [moveBy_line, moveBy_line]
    split
    · rfl
    · rw [moveBy_lineAdd]
      exact mapE_bind _ _ _ _ fun h => moveBy_lineAdd ..
  | perp l m =>
    dsimp only [Constraint.moveBy, updateGradient, perpUpdate]
    rw [moveBy_line, moveBy_line]
    split
    · rfl
    · rw [moveBy_lineAdd]
      exact mapE_bind _ _ _ _ fun h => moveBy_lineAdd ..

/-! ## Sketches -/

theorem moveBy_getLoss (s : Sketch) : getLoss (h.moveBy tx ty) s = getLoss h s := by
  simp only [getLoss, moveBy_cons, moveBy_loss]

theorem moveBy_losses (s : Sketch) : getLossPerConstraint (h.moveBy tx ty) s = getLossPerConstraint h s := by
  simp only [getLossPerConstraint, moveBy_cons, moveBy_loss]

theorem moveBy_primGrad (c : PrimCell) : primGrad (h.moveBy tx ty) c = primGrad h c := by cases c <;> rfl

theorem moveBy_primLen (c : PrimCell) : (primData (h.moveBy tx ty) c).length = (primData h c).length := by cases c <;> rfl

theorem moveBy_nDofs (s : Sketch) : getNDofs (h.moveBy tx ty) s = getNDofs h s := by
  simp only [getNDofs, moveBy_primLen]

theorem moveBy_zero (s : Sketch) : zeroGrads (h.moveBy tx ty) s = (zeroGrads h s).moveBy tx ty := by
  unfold zeroGrads
  generalize s.prims = l
  induction l generalizing h with
  | nil => rfl
  | cons kp l ih =>
    rw [List.foldl_cons, List.foldl_cons, ← ih]
    congr 1
    cases kp.2 with
    | point a => exact moveBy_setPoint tx ty h a { h.points a with grad := Vec2.zeros }
    | line a => rfl
    | arc a => rfl
    | circle a => rfl

theorem moveBy_updateAll (cs : List Nat) : updateAll (h.moveBy tx ty) cs = mapE T (updateAll h cs) := by
  unfold updateAll
  induction cs generalizing h with
  | nil => rfl
  | cons c cs ih =>
    rw [List.foldlM_cons, List.foldlM_cons, moveBy_cons, moveBy_update]
    exact mapE_bind _ _ _ _ ih

theorem moveBy_collect (s : Sketch) : collectGradient (h.moveBy tx ty) s = collectGradient h s := by
  simp only [collectGradient, moveBy_primGrad, moveBy_nDofs]

theorem moveBy_row (s : Sketch) : jacobianRow (h.moveBy tx ty) s = jacobianRow h s := by
  simp only [jacobianRow, moveBy_primGrad, moveBy_nDofs]

theorem moveBy_gradient (s : Sketch) : getGradient (h.moveBy tx ty) s = mapG T (getGradient h s) := by
  unfold getGradient
  rw [moveBy_zero, moveBy_updateAll]
  cases updateAll (zeroGrads h s) s.cons with
  | error h => rfl
  | ok h =>
    simp only [mapE, moveBy_collect]
    cases collectGradient h s <;> rfl

theorem moveBy_rows (s : Sketch) (cs : List Nat) : jacobianRows s cs (h.moveBy tx ty) = mapG T (jacobianRows s cs h) := by
  induction cs generalizing h with
  | nil => rfl
  | cons c cs ih =>
    unfold jacobianRows
    simp only [moveBy_zero, moveBy_cons, moveBy_update]
    cases updateGradient (zeroGrads h s) ((zeroGrads h s).cons c) with
    | error h => rfl
    | ok h =>
      simp only [mapE, ih, moveBy_row]
      cases jacobianRows s cs h <;> rfl

theorem moveBy_jacobian (s : Sketch) : getJacobian (h.moveBy tx ty) s = mapG T (getJacobian h s) := moveBy_rows ..

/-- how far each coordinate of a primitive moves -/
noncomputable def primShift : PrimCell → List XR
  | .point _ => [fin tx, fin ty]
  | .line _ => []
  | .arc _ => [fin 0, fin 0, fin 0]
  | .circle _ => [fin 0]

theorem moveBy_primData (c : PrimCell) : primData (h.moveBy tx ty) c = vadd (primData h c) (primShift tx ty c) := by
  cases c with
  | point a => rfl
  | line a => rfl
  | arc a => simp [primData, primShift, vadd, add_zero', moveBy_arcs]
  | circle a => simp [primData, primShift, vadd, add_zero', moveBy_circles]

theorem primShift_length (c : PrimCell) : (primShift tx ty c).length = (primData h c).length := by cases c <;> rfl

theorem moveBy_primSet (c : PrimCell) (d : List XR) (hd : d.length ≤ (primShift tx ty c).length) :
    primSetData (h.moveBy tx ty) c (vadd d (primShift tx ty c)) = mapE T (primSetData h c d) := by
  cases c with
  | point a =>
    match d with
    | [] => rfl
    | [x] =>
      have e : (vadd [x] [fin tx, fin ty]).all Num.isFinite = [x].all Num.isFinite := by simp [vadd, isFinite_move]
      show primSetData _ _ (vadd [x] [fin tx, fin ty]) = _
      unfold primSetData
      dsimp only
      rw [e]
      split <;> rfl
    | [x, y] =>
      have e : (vadd [x, y] [fin tx, fin ty]).all Num.isFinite = [x, y].all Num.isFinite := by simp [vadd, isFinite_move]
      show primSetData _ _ (vadd [x, y] [fin tx, fin ty]) = _
      unfold primSetData
      dsimp only
      rw [e]
      split
      · exact congrArg Except.ok (moveBy_setPoint tx ty h a { h.points a with data := ⟨x, y⟩ })
      · rfl
    | _ :: _ :: _ :: _ => simp [primShift] at hd
  | line a => rfl
  | arc a =>
    have e : vadd d [fin 0, fin 0, fin 0] = d := by
      match d with
      | [] => rfl
      | [x] => simp [vadd, add_zero']
      | [x, y] => simp [vadd, add_zero']
      | [x, y, z] => simp [vadd, add_zero']
      | _ :: _ :: _ :: _ :: _ => simp [primShift] at hd; omega
    simp only [primShift, e, primSetData]
    split
    · match d with
      | [] => rfl
      | [x] => rfl
      | [x, y] => rfl
      | [x, y, z] => rfl
      | _ :: _ :: _ :: _ :: _ => rfl
    · rfl
  | circle a =>
    have e : vadd d [fin 0] = d := by
      match d with
      | [] => rfl
      | [x] => simp [vadd, add_zero']
      | _ :: _ :: _ => simp [primShift] at hd
    simp only [primShift, e, primSetData]
    split
    · match d with
      | [] => rfl
      | [x] => rfl
      | _ :: _ :: _ => rfl
    · rfl

/-- how far each entry of the data vector moves -/
noncomputable def shiftVec (l : List PrimCell) : List XR := l.flatMap (primShift tx ty)

theorem shiftVec_length (l : List PrimCell) : (shiftVec tx ty l).length = (l.flatMap (primData h)).length := by
  induction l with
  | nil => rfl
  | cons c l ih =>
    unfold shiftVec at ih ⊢
    rw [List.flatMap_cons, List.flatMap_cons, List.length_append, List.length_append, ih, primShift_length tx ty h]

theorem moveBy_getData (s : Sketch) : getData (h.moveBy tx ty) s = vadd (getData h s) (shiftVec tx ty s.cells) := by
  rw [getData_eq, getData_eq]
  generalize s.cells = l
  induction l with
  | nil => rfl
  | cons c l ih =>
    unfold shiftVec vadd at *
    rw [List.flatMap_cons, List.flatMap_cons, List.flatMap_cons, List.zipWith_append (primShift_length tx ty h c).symm, ih,
      moveBy_primData]
    rfl

theorem moveBy_setLoop (data t : List XR) (l : List (Nat × PrimCell)) (i : Nat) (ht : t.drop i = shiftVec tx ty (l.map (·.2))) :
    setDataLoop (vadd data t) l i (h.moveBy tx ty) = mapE T (setDataLoop data l i h) := by
  induction l generalizing i h with
  | nil => rfl
  | cons kp l ih =>
    unfold setDataLoop
    dsimp only
    rw [moveBy_primLen]
    have hs : shiftVec tx ty ((kp :: l).map (·.2)) = primShift tx ty kp.2 ++ shiftVec tx ty (l.map (·.2)) := rfl
    have e1 : (t.drop i).take (primData h kp.2).length = primShift tx ty kp.2 := by
      rw [ht, hs, ← primShift_length tx ty h, List.take_left]
    have e2 : t.drop (i + (primData h kp.2).length) = shiftVec tx ty (l.map (·.2)) := by
      rw [← List.drop_drop, ht, hs, ← primShift_length tx ty h, List.drop_left]
    have e3 : ((vadd data t).drop i).take (primData h kp.2).length =
        vadd ((data.drop i).take (primData h kp.2).length) (primShift tx ty kp.2) := by
      unfold vadd
      rw [List.drop_zipWith, List.take_zipWith, e1]
    rw [e3, moveBy_primSet tx ty h _ _ (by rw [primShift_length tx ty h]; exact List.length_take_le ..)]
    cases primSetData h kp.2 _ with
    | error h1 => rfl
    | ok h1 => exact ih h1 _ e2

/-- data vectors of a sketch and of the moved sketch -/
def Shifted (s : Sketch) (d d' : List XR) : Prop :=
  d.length ≤ (shiftVec tx ty s.cells).length ∧ d' = vadd d (shiftVec tx ty s.cells)

theorem Shifted.length {s : Sketch} {d d' : List XR} (hd : Shifted tx ty s d d') : d.length = d'.length := by
  rw [hd.2, vadd, List.length_zipWith]
  exact (min_eq_left hd.1).symm

theorem moveBy_set (s : Sketch) {d d' : List XR} (hd : Shifted tx ty s d d') :
    setData (h.moveBy tx ty) s d' = mapE T (setData h s d) := by
  unfold setData
  rw [moveBy_nDofs, ← hd.length]
  split
  · rw [hd.2]
    exact moveBy_setLoop tx ty h _ _ _ _ rfl
  · rfl

/-- moving each entry commutes with changing each entry -/
theorem zip_move (f : XR → XR → XR) (hf : ∀ a b t, f (a + t) b = f a b + t) (x d t : List XR) :
    List.zipWith f (List.zipWith (· + ·) x t) d = List.zipWith (· + ·) (List.zipWith f x d) t := by
  induction x generalizing d t with
  | nil => rfl
  | cons a x ih =>
    cases d with
    | nil => simp
    | cons b d =>
      cases t with
      | nil => simp
      | cons u t => simp [ih, hf]

theorem alike_move (s : Sketch) : Alike s s (fun h h' => h' = h.moveBy tx ty) (fun h h' => h' = h.moveBy tx ty) (Shifted tx ty s) Eq
    (fun _ => True) where
  first := trivial
  shorter := fun _ => trivial
  longer := fun _ => trivial
  imp := fun h => h
  data := by
    rintro h _ rfl
    exact ⟨by rw [shiftVec_length tx ty h, getData_eq], moveBy_getData tx ty h s⟩
  set := by
    rintro h _ d d' rfl hd
    rw [moveBy_set tx ty h s hd]
    cases setData h s d with
    | ok h1 => exact .ok rfl
    | error h1 => exact .error rfl
  loss := by
    rintro h _ rfl
    exact (moveBy_getLoss ..).symm
  grad := by
    rintro h _ rfl
    rw [moveBy_gradient]
    cases getGradient h s with
    | ok r => exact .ok rfl rfl
    | error h1 => exact .error rfl
  dot := by rintro a _ b _ rfl rfl; rfl
  neg := by rintro a _ rfl; rfl
  add := by
    rintro x x' d _ k - ⟨hl, rfl⟩ rfl
    refine ⟨?_, ?_⟩
    · rw [vadd, List.length_zipWith]; exact (min_le_left ..).trans hl
    · exact zip_move _ (fun a b t => by rw [add_assoc', add_comm' t, ← add_assoc']) ..
  axpy := by
    rintro x x' d _ k - ⟨hl, rfl⟩ rfl
    refine ⟨?_, ?_⟩
    · rw [axpy, List.length_zipWith]; exact (min_le_left ..).trans hl
    · exact zip_move _ (fun a b t => by rw [one_mul', one_mul', add_assoc']) ..

theorem Shifted.sub {s : Sketch} {x x' : List XR} (u : List XR) (hx : Shifted tx ty s x x') : Shifted tx ty s (vsub x u) (vsub x' u) := by
  obtain ⟨hl, rfl⟩ := hx
  refine ⟨?_, ?_⟩
  · rw [vsub, List.length_zipWith]; exact (min_le_left ..).trans hl
  · exact zip_move _ (fun a b t => by rw [sub_def, sub_def, add_assoc', add_comm' t, ← add_assoc']) ..

theorem newton_move (s : Sketch) (normal : Nat → List (List XR) → List (List XR)) (pinv : PInv XR) (ml σ eps : XR) (n : Nat) (ls : XR) :
    SameRun (fun h h' => h' = h.moveBy tx ty) (fun h h' => h' = h.moveBy tx ty) Eq (newtonLoop pinv ml σ eps normal s n ls h)
      (newtonLoop pinv ml σ eps normal s n ls (h.moveBy tx ty)) := by
  refine (alike_move tx ty s).newton (Shifted.length tx ty) (Shifted.sub tx ty) normal ?_ ?_ pinv ml trivial eps n ls rfl
  · rintro h _ rfl
    rw [moveBy_losses]
  · rintro h _ rfl
    rw [moveBy_losses, moveBy_jacobian]
    cases getJacobian h s with
    | ok r => exact .ok ⟨rfl, fun _ => rfl⟩ rfl
    | error h1 => exact .error rfl

end Isotope
