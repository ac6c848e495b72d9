import Verif.SpecSym
import Verif.Lemmas.Apart

/-!
# Other names for objects change nothing
-/

namespace Isotope
variable {F : Type} [Num F] (r : Renaming) (h : Heap F) (s : Sketch)

section
omit [Num F]

@[simp] theorem rename_points (a : Nat) : (h.rename r).points (r.point a) = h.points a := by simp [Heap.rename]
@[simp] theorem rename_lines (a : Nat) : (h.rename r).lines (r.line a) = ⟨r.point (h.lines a).start, r.point (h.lines a).stop⟩ := by
  simp [Heap.rename]
@[simp] theorem rename_arcs (a : Nat) : (h.rename r).arcs (r.arc a) = { h.arcs a with center := r.point (h.arcs a).center } := by
  simp [Heap.rename]
@[simp] theorem rename_circles (a : Nat) :
    (h.rename r).circles (r.circle a) = { h.circles a with center := r.point (h.circles a).center } := by
  simp [Heap.rename]
@[simp] theorem rename_cons (k : Nat) : (h.rename r).cons (r.cons k) = (h.cons k).rename r := by simp [Heap.rename]

theorem rename_setPoint (a : Nat) (p : Point2 F) : (h.rename r).setPoint (r.point a) p = (h.setPoint a p).rename r := by
  unfold Heap.setPoint Heap.rename
  congr 1
  funext b
  simp only [upd, Equiv.symm_apply_eq]

theorem rename_setArc (a : Nat) (p : Arc F) :
    (h.rename r).setArc (r.arc a) { p with center := r.point p.center } = (h.setArc a p).rename r := by
  unfold Heap.setArc Heap.rename
  congr 1
  funext b
  simp only [upd, Equiv.symm_apply_eq]
  split <;> rfl

theorem rename_setCircle (a : Nat) (p : Circle F) :
    (h.rename r).setCircle (r.circle a) { p with center := r.point p.center } = (h.setCircle a p).rename r := by
  unfold Heap.setCircle Heap.rename
  congr 1
  funext b
  simp only [upd, Equiv.symm_apply_eq]
  split <;> rfl

theorem rename_pt (a : Nat) : ptData (h.rename r) (r.point a) = ptData h a := by unfold ptData; rw [rename_points]
theorem rename_ls (l : Nat) : lineStart (h.rename r) (r.line l) = lineStart h l := by unfold lineStart; rw [rename_lines, rename_pt]
theorem rename_le (l : Nat) : lineEnd (h.rename r) (r.line l) = lineEnd h l := by unfold lineEnd; rw [rename_lines, rename_pt]

end

theorem rename_arcStart (a : Nat) : ((h.rename r).arcs (r.arc a)).startPoint (h.rename r) = (h.arcs a).startPoint h := by
  rw [rename_arcs]; simp [Arc.startPoint, Arc.radius, Arc.startAngle]

theorem rename_arcEnd (a : Nat) : ((h.rename r).arcs (r.arc a)).endPoint (h.rename r) = (h.arcs a).endPoint h := by
  rw [rename_arcs]; simp [Arc.endPoint, Arc.radius, Arc.endAngle]

theorem rename_arcStartG (a : Nat) : ((h.rename r).arcs (r.arc a)).startPointGradient = (h.arcs a).startPointGradient := by
  rw [rename_arcs]; rfl

theorem rename_arcEndG (a : Nat) : ((h.rename r).arcs (r.arc a)).endPointGradient = (h.arcs a).endPointGradient := by
  rw [rename_arcs]; rfl

theorem rename_loss (c : Constraint F) : lossValue (h.rename r) (c.rename r) = lossValue h c := by
  cases c <;> simp only [Constraint.rename, lossValue, currentAngle, euclidCurrent, horizCurrent, vertCurrent, rename_pt, rename_ls, rename_le,
    rename_arcStart, rename_arcEnd]

/-- the contribution to the renamed object -/
def Chunk.rename (r : Renaming) : Chunk F → Chunk F
  | .point a g => .point (r.point a) g
  | .line a g => .line (r.line a) g
  | .arc a g => .arc (r.arc a) g

theorem rename_chunks (c : Constraint F) : chunks (h.rename r) (c.rename r) = (chunks h c).map (Chunk.rename r) := by
  cases c <;> simp only [Constraint.rename, chunks, rename_pt, rename_ls, rename_le, rename_arcStart, rename_arcEnd, rename_arcStartG, rename_arcEndG] <;>
    (try split) <;> (try split) <;> (try split) <;> rfl

theorem rename_pointAdd (a : Nat) (g : Vec2 F) :
    pointAddGrad (h.rename r) (r.point a) g = mapE (Heap.rename r) (pointAddGrad h a g) := by
  unfold pointAddGrad
  split
  · rw [rename_points, rename_setPoint]; rfl
  · rfl

theorem rename_applyChunk (k : Chunk F) : applyChunk (h.rename r) (k.rename r) = mapE (Heap.rename r) (applyChunk h k) := by
  cases k with
  | point a g => exact rename_pointAdd r h a g
  | line l g =>
    show lineAddGrad _ _ _ = mapE _ (lineAddGrad _ _ _)
    unfold lineAddGrad
    split
    · rw [rename_lines, rename_pointAdd]
      refine mapE_bind _ _ _ _ fun h1 => ?_
      rw [rename_lines]
      exact rename_pointAdd r h1 _ _
    · rfl
  | arc a g =>
    show arcAddGrad _ _ _ = mapE _ (arcAddGrad _ _ _)
    unfold arcAddGrad
    split
    · rw [rename_arcs, rename_pointAdd]
      refine mapE_bind _ _ _ _ fun h1 => ?_
      rw [rename_arcs]
      exact congrArg Except.ok (rename_setArc r h1 a { h1.arcs a with grad := (h1.arcs a).grad + ⟨g.a2, g.a3, g.a4⟩ })
    · rfl

theorem rename_fold (ks : List (Chunk F)) :
    (ks.map (Chunk.rename r)).foldlM applyChunk (h.rename r) = mapE (Heap.rename r) (ks.foldlM applyChunk h) := by
  induction ks generalizing h with
  | nil => rfl
  | cons k ks ih =>
    rw [List.map_cons, List.foldlM_cons, List.foldlM_cons, rename_applyChunk r h k]
    exact mapE_bind _ _ _ _ fun h1 => ih h1

theorem rename_update (c : Constraint F) : updateGradient (h.rename r) (c.rename r) = mapE (Heap.rename r) (updateGradient h c) := by
  rw [updateGradient_eq, updateGradient_eq, rename_chunks]
  exact rename_fold r h _

/-! ## Sketches -/

theorem rename_getLoss : getLoss (h.rename r) (s.rename r) = getLoss h s := by
  unfold getLoss
  simp only [Sketch.rename, List.foldl_map, rename_cons, rename_loss]

theorem rename_losses : getLossPerConstraint (h.rename r) (s.rename r) = getLossPerConstraint h s := by
  unfold getLossPerConstraint
  simp only [Sketch.rename, List.map_map]
  refine List.map_congr_left fun k _ => ?_
  simp only [Function.comp, rename_cons, rename_loss]

omit [Num F] in
theorem rename_primGrad (c : PrimCell) : primGrad (h.rename r) (c.rename r) = primGrad h c := by
  cases c <;> simp only [PrimCell.rename, primGrad, rename_points, rename_arcs, rename_circles]

omit [Num F] in
theorem rename_primData (c : PrimCell) : primData (h.rename r) (c.rename r) = primData h c := by
  cases c <;> simp only [PrimCell.rename, primData, rename_points, rename_arcs, rename_circles]

theorem rename_primZero (c : PrimCell) : primZeroGrad (h.rename r) (c.rename r) = (primZeroGrad h c).rename r := by
  cases c with
  | point a => simp only [PrimCell.rename, primZeroGrad, rename_points, rename_setPoint]
  | line a => rfl
  | arc a =>
    simp only [PrimCell.rename, primZeroGrad, rename_arcs]
    exact rename_setArc r h a { h.arcs a with grad := Row3.zeros }
  | circle a =>
    simp only [PrimCell.rename, primZeroGrad, rename_circles]
    exact rename_setCircle r h a { h.circles a with grad := 0.0 }

theorem rename_zero : zeroGrads (h.rename r) (s.rename r) = (zeroGrads h s).rename r := by
  unfold zeroGrads
  simp only [Sketch.rename, List.foldl_map]
  generalize s.prims = l
  induction l generalizing h with
  | nil => rfl
  | cons kp l ih => rw [List.foldl_cons, List.foldl_cons, rename_primZero, ih]

theorem rename_updateAll (cs : List Nat) :
    updateAll (h.rename r) (cs.map r.cons) = mapE (Heap.rename r) (updateAll h cs) := by
  unfold updateAll
  induction cs generalizing h with
  | nil => rfl
  | cons k cs ih =>
    rw [List.map_cons, List.foldlM_cons, List.foldlM_cons, rename_cons, rename_update]
    exact mapE_bind _ _ _ _ fun h1 => ih h1

theorem rename_cells : (s.rename r).cells = s.cells.map (PrimCell.rename r) := by
  simp [Sketch.cells, Sketch.rename]

theorem rename_row : jacobianRow (h.rename r) (s.rename r) = jacobianRow h s := by
  rw [jacobianRow_eq, jacobianRow_eq, rename_cells, List.flatMap_map]
  exact flatMap_congr_mem fun c _ => rename_primGrad r h c

theorem rename_getData : getData (h.rename r) (s.rename r) = getData h s := by
  rw [getData_eq, getData_eq, rename_cells, List.flatMap_map]
  exact flatMap_congr_mem fun c _ => rename_primData r h c

theorem rename_collect : collectGradient (h.rename r) (s.rename r) = collectGradient h s := by
  have e : (s.rename r).cells.flatMap (primGrad (h.rename r)) = s.cells.flatMap (primGrad h) := by
    rw [rename_cells, List.flatMap_map]
    exact flatMap_congr_mem fun c _ => rename_primGrad r h c
  rw [collectGradient_eq, collectGradient_eq, e]

theorem rename_gradient : getGradient (h.rename r) (s.rename r) = mapG (Heap.rename r) (getGradient h s) := by
  unfold getGradient
  rw [rename_zero, show (s.rename r).cons = s.cons.map r.cons from rfl, rename_updateAll]
  cases updateAll (zeroGrads h s) s.cons with
  | error h => rfl
  | ok h =>
    simp only [mapE, rename_collect]
    cases collectGradient h s <;> rfl

theorem rename_rows (cs : List Nat) :
    jacobianRows (s.rename r) (cs.map r.cons) (h.rename r) = mapG (Heap.rename r) (jacobianRows s cs h) := by
  induction cs generalizing h with
  | nil => rfl
  | cons k cs ih =>
    rw [List.map_cons]
    unfold jacobianRows
    simp only [rename_zero, rename_cons, rename_update]
    cases updateGradient (zeroGrads h s) ((zeroGrads h s).cons k) with
    | error h => rfl
    | ok h1 =>
      simp only [mapE, ih, rename_row]
      cases jacobianRows s cs h1 <;> rfl

theorem rename_jacobian : getJacobian (h.rename r) (s.rename r) = mapG (Heap.rename r) (getJacobian h s) := rename_rows r h s s.cons

theorem rename_primSet (c : PrimCell) (d : List F) : primSetData (h.rename r) (c.rename r) d = mapE (Heap.rename r) (primSetData h c d) := by
  cases c with
  | point a =>
    simp only [PrimCell.rename, primSetData, rename_points]
    split
    · split
      · rw [rename_setPoint]; rfl
      · rfl
    · rfl
  | line a => rfl
  | arc a =>
    simp only [PrimCell.rename, primSetData, rename_arcs]
    split
    · split
      · rename_i x y z _
        exact congrArg Except.ok (rename_setArc r h a { h.arcs a with data := ⟨x, y, z⟩ })
      · rfl
    · rfl
  | circle a =>
    simp only [PrimCell.rename, primSetData, rename_circles]
    split
    · split
      · rename_i x _
        exact congrArg Except.ok (rename_setCircle r h a { h.circles a with radius := x })
      · rfl
    · rfl

theorem rename_setLoop (d : List F) (l : List (Nat × PrimCell)) (i : Nat) :
    setDataLoop d (l.map fun kp => (kp.1, kp.2.rename r)) i (h.rename r) = mapE (Heap.rename r) (setDataLoop d l i h) := by
  induction l generalizing h i with
  | nil => rfl
  | cons kp l ih =>
    rw [List.map_cons]
    unfold setDataLoop
    simp only [rename_primSet, rename_primData]
    cases primSetData h kp.2 _ with
    | error h => rfl
    | ok h => exact ih h _

theorem rename_nDofs : getNDofs (h.rename r) (s.rename r) = getNDofs h s := by
  rw [← getData_length, ← getData_length, rename_getData]

theorem rename_setData (d : List F) : setData (h.rename r) (s.rename r) d = mapE (Heap.rename r) (setData h s d) := by
  unfold setData
  rw [rename_nDofs]
  split
  · exact rename_setLoop r h d s.prims 0
  · rfl

/-! ## Runs -/

theorem alike_rename : Alike s (s.rename r) (fun h h' => h' = h.rename r) (fun h h' => h' = h.rename r) (@Eq (List F)) Eq (fun _ => True) where
  first := trivial
  shorter := fun _ => trivial
  longer := fun _ => trivial
  imp := fun r => r
  data := by rintro h _ rfl; exact (rename_getData r h s).symm
  set := by
    rintro h _ d _ rfl rfl
    rw [rename_setData]
    cases setData h s d with
    | error h1 => exact .error rfl
    | ok h1 => exact .ok rfl
  loss := by rintro h _ rfl; exact (rename_getLoss r h s).symm
  grad := by
    rintro h _ rfl
    rw [rename_gradient]
    cases getGradient h s with
    | error h1 => exact .error rfl
    | ok q => exact .ok rfl rfl
  dot := by rintro a _ b _ rfl rfl; rfl
  neg := by rintro a _ rfl; rfl
  add := by rintro x _ d _ k _ rfl rfl; rfl
  axpy := by rintro x _ d _ k _ rfl rfl; rfl

theorem newton_rename (pinv : PInv F) (ml σ eps : F) (normal : Nat → List (List F) → List (List F)) (n : Nat) (ls : F) :
    SameRun (fun h h' => h' = h.rename r) (fun h h' => h' = h.rename r) Eq
      (newtonLoop pinv ml σ eps normal s n ls h) (newtonLoop pinv ml σ eps normal (s.rename r) n ls (h.rename r)) := by
  refine (alike_rename r s).newton (fun e => by rw [e]) (fun u e => by rw [e]) normal ?_ ?_ pinv ml trivial eps n ls rfl
  · rintro h1 _ rfl
    rw [rename_losses]
  · rintro h1 _ rfl
    rw [rename_jacobian, rename_losses]
    cases getJacobian h1 s with
    | error h1 => exact .error rfl
    | ok q => exact .ok ⟨rfl, fun pi => rfl⟩ rfl

theorem run_rename (pinv : PInv F) (k : SolverKind F) :
    SameRun (fun h h' => h' = h.rename r) (fun h h' => h' = h.rename r) Eq (runSolver pinv k h s) (runSolver pinv k (h.rename r) (s.rename r)) := by
  cases k with
  | gd p => exact (alike_rename r s).gd rfl p rfl
  | bfgs p => exact (alike_rename r s).bfgs (fun e => by rw [e]) p rfl
  | gn p => exact newton_rename r h s ..
  | lm p => exact newton_rename r h s ..

end Isotope
