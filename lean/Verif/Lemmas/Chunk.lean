import Verif.Lemmas.Data

/-!
# Gradient updates as lists of contributions

`update_gradient` of every constraint is: compute a list of contributions from the coordinates only, then add them one by
one.  (any arithmetic)
-/

set_option linter.unusedSectionVars false

namespace Isotope
variable {F : Type}

/-- one `add_to_gradient` call -/
inductive Chunk (F : Type) where
  | point (a : Nat) (g : Vec2 F)
  | line (a : Nat) (g : Row4 F)
  | arc (a : Nat) (g : Row5 F)

section
variable [Num F]

/-- perform it -/
def applyChunk (h : Heap F) : Chunk F → Except (Heap F) (Heap F)
  | .point a g => pointAddGrad h a g
  | .line a g => lineAddGrad h a g
  | .arc a g => arcAddGrad h a g

/-- its finiteness assertion -/
def Chunk.finite : Chunk F → Bool
  | .point _ g => g.allFinite
  | .line _ g => g.allFinite
  | .arc _ g => g.allFinite

/-- the contributions of a constraint -/
def chunks (h : Heap F) : Constraint F → List (Chunk F)
  | .angle p1 p2 mid desired =>
    let d1 := ptData h p1 - ptData h mid
    let d2 := ptData h p2 - ptData h mid
    let dotProduct := d1.dot d2
    let norm1 := d1.norm
    let norm2 := d2.norm
    if Num.abs norm1 <. (1e-6 : F) || Num.abs norm2 <. (1e-6 : F) then []
    else
      let cosTheta := dotProduct / (norm1 * norm2)
      let theta := Num.acos (clamp cosTheta (-1.0) 1.0)
      if !Num.isFinite theta then []
      else
        let gradThetaFromCos := -(1.0 : F) / Num.sqrt (fmax ((1.0 : F) - cosTheta * cosTheta) 0.0)
        if !Num.isFinite gradThetaFromCos then []
        else
          let gradLoss := theta - desired
          let gradFromD1 :=
            (d2.smul (gradLoss * gradThetaFromCos * ((1.0 : F) / (norm1 * norm2)))) +
            ((d1.sdiv norm1).smul (gradLoss * gradThetaFromCos * (-dotProduct / (norm1 * norm1 * norm2))))
          let gradFromD2 :=
            (d1.smul (gradLoss * gradThetaFromCos * ((1.0 : F) / (norm1 * norm2)))) +
            ((d2.sdiv norm2).smul (gradLoss * gradThetaFromCos * (-dotProduct / (norm1 * norm2 * norm2))))
          [.point p1 (gradFromD1.mul22 pointGradient), .point p2 (gradFromD2.mul22 pointGradient),
           .point mid ((-gradFromD1).mul22 pointGradient - gradFromD2.mul22 pointGradient)]
  | .arcEnd a p =>
    let e := (h.arcs a).endPoint h
    let g : Vec2 F := ⟨e.x - (ptData h p).x, e.y - (ptData h p).y⟩
    [.arc a (g.mul25 (h.arcs a).endPointGradient), .point p ((-g).mul22 pointGradient)]
  | .arcStart a p =>
    let e := (h.arcs a).startPoint h
    let g : Vec2 F := ⟨e.x - (ptData h p).x, e.y - (ptData h p).y⟩
    [.arc a (g.mul25 (h.arcs a).startPointGradient), .point p ((-g).mul22 pointGradient)]
  | .euclid p1 p2 desired =>
    let d := ptData h p1 - ptData h p2
    if d.norm <. (1e-6 : F) then []
    else
      let g := (d.sdiv d.norm).smul ((d.norm - desired) * (1.0 : F))
      [.point p1 (g.mul22 pointGradient), .point p2 ((-g).mul22 pointGradient)]
  | .horizDist p1 p2 desired =>
    let d := ptData h p2 - ptData h p1
    let g := (⟨1.0, 0.0⟩ : Vec2 F).smul ((d.x - desired) * (1.0 : F))
    [.point p1 ((-g).mul22 pointGradient), .point p2 (g.mul22 pointGradient)]
  | .vertDist p1 p2 desired =>
    let d := ptData h p2 - ptData h p1
    let g := (⟨0.0, 1.0⟩ : Vec2 F).smul ((d.y - desired) * (1.0 : F))
    [.point p1 ((-g).mul22 pointGradient), .point p2 (g.mul22 pointGradient)]
  | .fix p desired => [.point p (ptData h p - desired)]
  | .eqLen l1 l2 =>
    let d1 := lineEnd h l1 - lineStart h l1
    let d2 := lineEnd h l2 - lineStart h l2
    let difference := d1.norm - d2.norm
    [.line l1 (((d1.sdiv d1.norm).smul difference).mul24 (lineEndGradient - lineStartGradient)),
     .line l2 ((((-d2).sdiv d2.norm).smul difference).mul24 (lineEndGradient - lineStartGradient))]
  | .horizLine l =>
    let g : Vec2 F := ⟨0.0, (lineEnd h l).y - (lineStart h l).y⟩
    [.line l ((-g).mul24 lineStartGradient), .line l (g.mul24 lineEndGradient)]
  | .vertLine l =>
    let g : Vec2 F := ⟨(lineEnd h l).x - (lineStart h l).x, 0.0⟩
    [.line l ((-g).mul24 lineStartGradient), .line l (g.mul24 lineEndGradient)]
  | .parallel l1 l2 =>
    let dir1 := lineEnd h l1 - lineStart h l1
    let n1 := dir1.normalize
    let dir2 := lineEnd h l2 - lineStart h l2
    let n2 := dir2.normalize
    if !Num.isFinite n1.x || !Num.isFinite n1.y || !Num.isFinite n2.x || !Num.isFinite n2.y then []
    else
      let cr := n1.x * n2.y - n1.y * n2.x
      [.line l1 ((((⟨n2.y, -n2.x⟩ : Vec2 F).smul cr).mul22 (normalizeJacobian dir1)).mul24 (lineEndGradient - lineStartGradient)),
       .line l2 ((((⟨-n1.y, n1.x⟩ : Vec2 F).smul cr).mul22 (normalizeJacobian dir2)).mul24 (lineEndGradient - lineStartGradient))]
  | .perp l1 l2 =>
    let dir1 := lineEnd h l1 - lineStart h l1
    let n1 := dir1.normalize
    let dir2 := lineEnd h l2 - lineStart h l2
    let n2 := dir2.normalize
    if !Num.isFinite n1.x || !Num.isFinite n1.y || !Num.isFinite n2.x || !Num.isFinite n2.y then []
    else
      let dp := n1.dot n2
      [.line l1 (((n2.smul dp).mul22 (normalizeJacobian dir1)).mul24 (lineEndGradient - lineStartGradient)),
       .line l2 (((n1.smul dp).mul22 (normalizeJacobian dir2)).mul24 (lineEndGradient - lineStartGradient))]

theorem bind_ok_right (r : Except (Heap F) (Heap F)) : (r >>= fun h => Except.ok h) = r := by cases r <;> rfl

theorem updateGradient_eq (h : Heap F) (c : Constraint F) : updateGradient h c = (chunks h c).foldlM applyChunk h := by
  cases c <;> simp only [updateGradient, chunks]
  case angle p1 p2 mid d =>
    unfold angleUpdate
    dsimp only
    split
    · rfl
    split
    · rfl
    split
    · rfl
    simp only [List.foldlM_cons, List.foldlM_nil, applyChunk]
    congr 1; funext h1; congr 1; funext h2; exact (bind_ok_right _).symm
  case euclid =>
    unfold euclidUpdate
    dsimp only
    split
    · rfl
    simp only [List.foldlM_cons, List.foldlM_nil, applyChunk]
    congr 1; funext h1; exact (bind_ok_right _).symm
  case parallel =>
    unfold parallelUpdate
    dsimp only
    split
    · rfl
    simp only [List.foldlM_cons, List.foldlM_nil, applyChunk]
    congr 1; funext h1; exact (bind_ok_right _).symm
  case perp =>
    unfold perpUpdate
    dsimp only
    split
    · rfl
    simp only [List.foldlM_cons, List.foldlM_nil, applyChunk]
    congr 1; funext h1; exact (bind_ok_right _).symm
  case fix =>
    unfold fixUpdate
    simp only [List.foldlM_cons, List.foldlM_nil, applyChunk]
    exact (bind_ok_right _).symm
  all_goals
    first | unfold arcEndUpdate | unfold arcStartUpdate | unfold horizUpdate | unfold vertUpdate | unfold eqLenUpdate |
      unfold horizLineUpdate | unfold vertLineUpdate
    dsimp only
    simp only [List.foldlM_cons, List.foldlM_nil, applyChunk]
    congr 1; funext h1; exact (bind_ok_right _).symm

/-! ## Contributions and losses depend on coordinates and references only -/

theorem GradOnly.point {h h' : Heap F} (g : GradOnly h h') (a : Nat) : (h'.points a).data = (h.points a).data := by
  have := g.2 (.point a)
  simp only [primData, List.cons.injEq, and_true] at this
  rcases hp : (h'.points a).data with ⟨x, y⟩
  rcases hq : (h.points a).data with ⟨x', y'⟩
  simp_all

theorem GradOnly.arcData {h h' : Heap F} (g : GradOnly h h') (a : Nat) : (h'.arcs a).data = (h.arcs a).data := by
  have := g.2 (.arc a)
  simp only [primData, List.cons.injEq, and_true] at this
  rcases hp : (h'.arcs a).data with ⟨x, y, z⟩
  rcases hq : (h.arcs a).data with ⟨x', y', z'⟩
  simp_all

theorem GradOnly.radius {h h' : Heap F} (g : GradOnly h h') (a : Nat) : (h'.circles a).radius = (h.circles a).radius := by
  have := g.2 (.circle a)
  simpa only [primData, List.cons.injEq, and_true] using this

theorem GradOnly.pt {h h' : Heap F} (g : GradOnly h h') (a : Nat) : ptData h' a = ptData h a := g.point a
theorem GradOnly.ls {h h' : Heap F} (g : GradOnly h h') (a : Nat) : lineStart h' a = lineStart h a := by
  unfold lineStart; rw [g.1.lines, g.pt]
theorem GradOnly.le {h h' : Heap F} (g : GradOnly h h') (a : Nat) : lineEnd h' a = lineEnd h a := by
  unfold lineEnd; rw [g.1.lines, g.pt]
theorem GradOnly.startPoint {h h' : Heap F} (g : GradOnly h h') (a : Nat) :
    (h'.arcs a).startPoint h' = (h.arcs a).startPoint h := by
  unfold Arc.startPoint Arc.radius Arc.startAngle; rw [g.1.arcCenter, g.point, g.arcData]
theorem GradOnly.endPoint {h h' : Heap F} (g : GradOnly h h') (a : Nat) :
    (h'.arcs a).endPoint h' = (h.arcs a).endPoint h := by
  unfold Arc.endPoint Arc.radius Arc.endAngle; rw [g.1.arcCenter, g.point, g.arcData]
theorem GradOnly.startPointGradient {h h' : Heap F} (g : GradOnly h h') (a : Nat) :
    (h'.arcs a).startPointGradient = (h.arcs a).startPointGradient := by
  unfold Arc.startPointGradient Arc.radius Arc.startAngle; rw [g.arcData]
theorem GradOnly.endPointGradient {h h' : Heap F} (g : GradOnly h h') (a : Nat) :
    (h'.arcs a).endPointGradient = (h.arcs a).endPointGradient := by
  unfold Arc.endPointGradient Arc.radius Arc.endAngle; rw [g.arcData]

theorem GradOnly.chunks {h h' : Heap F} (g : GradOnly h h') (c : Constraint F) : chunks h' c = chunks h c := by
  cases c <;> simp only [Isotope.chunks, g.pt, g.ls, g.le, g.startPoint, g.endPoint, g.startPointGradient, g.endPointGradient]

theorem GradOnly.lossValue {h h' : Heap F} (g : GradOnly h h') (c : Constraint F) : lossValue h' c = lossValue h c := by
  cases c <;> simp only [Isotope.lossValue, currentAngle, euclidCurrent, horizCurrent, vertCurrent, g.pt, g.ls, g.le,
    g.startPoint, g.endPoint]

theorem GradOnly.getLoss {h h' : Heap F} (g : GradOnly h h') (s : Sketch) : getLoss h' s = getLoss h s := by
  unfold Isotope.getLoss
  congr 1
  funext l c
  rw [g.1.cons, g.lossValue]

theorem GradOnly.lossPer {h h' : Heap F} (g : GradOnly h h') (s : Sketch) :
    getLossPerConstraint h' s = getLossPerConstraint h s := by
  unfold Isotope.getLossPerConstraint
  rw [g.1.cons]
  exact List.map_congr_left fun c _ => g.lossValue _

theorem GradOnly.getData {h h' : Heap F} (g : GradOnly h h') (s : Sketch) : getData h' s = getData h s := by
  rw [getData_eq, getData_eq]
  congr 1
  funext c
  exact g.2 c

/-! ## All contributions of a list of constraints -/

theorem applyChunk_gradOnly (h0 h : Heap F) (k : Chunk F) (hh : GradOnly h0 h) : Post (applyChunk h k) (GradOnly h0) := by
  cases k
  · exact pointAddGrad_gradOnly _ _ _ _ hh
  · exact lineAddGrad_gradOnly _ _ _ _ hh
  · exact arcAddGrad_gradOnly _ _ _ _ hh

theorem foldChunks_gradOnly (h0 h : Heap F) (ks : List (Chunk F)) (hh : GradOnly h0 h) :
    Post (ks.foldlM applyChunk h) (GradOnly h0) := by
  induction ks generalizing h with
  | nil => exact hh
  | cons k ks ih =>
    rw [List.foldlM_cons]
    exact post_bind (applyChunk_gradOnly h0 h k hh) fun h1 hh1 => ih h1 hh1

/-- the accumulation loop of `get_gradient` is one list of contributions -/
theorem updateAll_eq (h0 h : Heap F) (cs : List Nat) (hh : GradOnly h0 h) :
    updateAll h cs = (cs.flatMap (fun c => chunks h0 (h0.cons c))).foldlM applyChunk h := by
  induction cs generalizing h with
  | nil => rfl
  | cons c cs ih =>
    unfold updateAll at *
    rw [List.foldlM_cons, List.flatMap_cons, List.foldlM_append, hh.1.cons, updateGradient_eq, hh.chunks]
    have P := foldChunks_gradOnly h0 h (chunks h0 (h0.cons c)) hh
    cases hf : (chunks h0 (h0.cons c)).foldlM applyChunk h with
    | error e => rfl
    | ok h1 => rw [hf] at P; exact ih h1 P

/-! ## Two heaps that differ in gradients outside a set of cells -/

/-- same references and coordinates, and same gradients on `S` -/
def Agree (S : PrimCell → Prop) (h h' : Heap F) : Prop := GradOnly h h' ∧ ∀ c, S c → primGrad h' c = primGrad h c

/-- both return or both panic, in agreeing heaps -/
def AgreeE (S : PrimCell → Prop) : Except (Heap F) (Heap F) → Except (Heap F) (Heap F) → Prop
  | .ok h, .ok h' => Agree S h h'
  | .error h, .error h' => Agree S h h'
  | _, _ => False

theorem agreeE_bind {S : PrimCell → Prop} {r r' : Except (Heap F) (Heap F)} {f f' : Heap F → Except (Heap F) (Heap F)}
    (h1 : AgreeE S r r') (h2 : ∀ h h', Agree S h h' → AgreeE S (f h) (f' h')) : AgreeE S (r >>= f) (r' >>= f') := by
  cases r <;> cases r'
  · exact h1
  · exact h1.elim
  · exact h1.elim
  · exact h2 _ _ h1

theorem Agree.pointGrad {S : PrimCell → Prop} {h h' : Heap F} (g : Agree S h h') {a : Nat} (ha : S (.point a)) :
    (h'.points a).grad = (h.points a).grad := by
  have := g.2 (.point a) ha
  simp only [primGrad, List.cons.injEq, and_true] at this
  rcases hp : (h'.points a).grad with ⟨x, y⟩
  rcases hq : (h.points a).grad with ⟨x', y'⟩
  simp_all

theorem Agree.arcGrad {S : PrimCell → Prop} {h h' : Heap F} (g : Agree S h h') {a : Nat} (ha : S (.arc a)) :
    (h'.arcs a).grad = (h.arcs a).grad := by
  have := g.2 (.arc a) ha
  simp only [primGrad, List.cons.injEq, and_true] at this
  rcases hp : (h'.arcs a).grad with ⟨x, y, z⟩
  rcases hq : (h.arcs a).grad with ⟨x', y', z'⟩
  simp_all

theorem pointAddGrad_agree {S : PrimCell → Prop} {h h' : Heap F} (g : Agree S h h') (a : Nat) (v : Vec2 F) :
    AgreeE S (pointAddGrad h a v) (pointAddGrad h' a v) := by
  unfold pointAddGrad
  split
  · refine ⟨(setPointGrad_gradOnly h a _).symm.trans (g.1.trans (setPointGrad_gradOnly h' a _)), fun c hc => ?_⟩
    have gc := g.2 c hc
    cases c with
    | point b =>
      by_cases e : b = a
      · subst e
        have := g.pointGrad hc
        simp [primGrad, Heap.setPoint, this]
      · simpa [primGrad, Heap.setPoint, upd_other _ _ e] using gc
    | _ => exact gc
  · exact g

theorem lineAddGrad_agree {S : PrimCell → Prop} {h h' : Heap F} (g : Agree S h h') (a : Nat) (v : Row4 F) :
    AgreeE S (lineAddGrad h a v) (lineAddGrad h' a v) := by
  unfold lineAddGrad
  split
  · rw [g.1.1.lines]
    refine agreeE_bind (pointAddGrad_agree g _ _) fun h1 h1' g1 => ?_
    rw [g1.1.1.lines]
    exact pointAddGrad_agree g1 _ _
  · exact g

theorem arcAddGrad_agree {S : PrimCell → Prop} {h h' : Heap F} (g : Agree S h h') (a : Nat) (v : Row5 F) :
    AgreeE S (arcAddGrad h a v) (arcAddGrad h' a v) := by
  unfold arcAddGrad
  split
  · rw [g.1.1.arcCenter]
    refine agreeE_bind (pointAddGrad_agree g _ _) fun h1 h1' g => ?_
    refine ⟨(setArcGrad_gradOnly h1 a _).symm.trans (g.1.trans (setArcGrad_gradOnly h1' a _)), fun c hc => ?_⟩
    have gc := g.2 c hc
    cases c with
    | arc b =>
      by_cases e : b = a
      · subst e
        have := g.arcGrad hc
        simp [primGrad, Heap.setArc, this]
      · simpa [primGrad, Heap.setArc, upd_other _ _ e] using gc
    | _ => exact gc
  · exact g

theorem applyChunk_agree {S : PrimCell → Prop} {h h' : Heap F} (g : Agree S h h') (k : Chunk F) :
    AgreeE S (applyChunk h k) (applyChunk h' k) := by
  cases k
  · exact pointAddGrad_agree g _ _
  · exact lineAddGrad_agree g _ _
  · exact arcAddGrad_agree g _ _

theorem foldChunks_agree {S : PrimCell → Prop} (ks : List (Chunk F)) {h h' : Heap F} (g : Agree S h h') :
    AgreeE S (ks.foldlM applyChunk h) (ks.foldlM applyChunk h') := by
  induction ks generalizing h h' with
  | nil => exact g
  | cons k ks ih =>
    rw [List.foldlM_cons, List.foldlM_cons]
    exact agreeE_bind (applyChunk_agree g k) fun h1 h1' g1 => ih g1

/-! ## Zeroing -/

theorem primZeroGrad_grad (h : Heap F) (c x : PrimCell) :
    primGrad (primZeroGrad h c) x = if x = c then zerosVec (primData h c).length else primGrad h x := by
  cases c with
  | point a =>
    cases x with
    | point b =>
      by_cases e : b = a
      · subst e; simp [primZeroGrad, primGrad, Heap.setPoint, Vec2.zeros, zerosVec, primData, List.replicate]
      · simp [primZeroGrad, primGrad, Heap.setPoint, upd_other _ _ e, e]
    | _ => simp [primZeroGrad, primGrad, Heap.setPoint]
  | line a => cases x <;> simp [primZeroGrad, primGrad, zerosVec, primData]
  | arc a =>
    cases x with
    | arc b =>
      by_cases e : b = a
      · subst e; simp [primZeroGrad, primGrad, Heap.setArc, Row3.zeros, zerosVec, primData, List.replicate]
      · simp [primZeroGrad, primGrad, Heap.setArc, upd_other _ _ e, e]
    | _ => simp [primZeroGrad, primGrad, Heap.setArc]
  | circle a =>
    cases x with
    | circle b =>
      by_cases e : b = a
      · subst e; simp [primZeroGrad, primGrad, Heap.setCircle, zerosVec, primData]
      · simp [primZeroGrad, primGrad, Heap.setCircle, upd_other _ _ e, e]
    | _ => simp [primZeroGrad, primGrad, Heap.setCircle]

theorem zeroGrads_grad (h : Heap F) (s : Sketch) (x : PrimCell) :
    primGrad (zeroGrads h s) x = if x ∈ s.cells then zerosVec (primData h x).length else primGrad h x := by
  unfold zeroGrads Sketch.cells
  generalize s.prims = l
  induction l generalizing h with
  | nil => simp
  | cons kp l ih =>
    rw [List.foldl_cons, ih, primZeroGrad_grad]
    rw [primData_length h (primZeroGrad h kp.2)]
    simp only [List.map_cons, List.mem_cons]
    by_cases h1 : x = kp.2
    · subst h1; simp
    · by_cases h2 : x ∈ l.map (·.2) <;> simp [h1, h2]

theorem zeroGrads_agree {h h' : Heap F} (s : Sketch) (g : GradOnly h h') :
    Agree (fun c => c ∈ s.cells) (zeroGrads h s) (zeroGrads h' s) := by
  refine ⟨(zeroGrads_gradOnly h s).symm.trans (g.trans (zeroGrads_gradOnly h' s)), fun c hc => ?_⟩
  rw [zeroGrads_grad, zeroGrads_grad, if_pos hc, if_pos hc, primData_length h h']

theorem flatMap_congr_mem {α β : Type} {l : List α} {f g : α → List β} (h : ∀ a ∈ l, f a = g a) :
    l.flatMap f = l.flatMap g := by
  induction l with
  | nil => rfl
  | cons a l ih => rw [List.flatMap_cons, List.flatMap_cons, h a (by simp), ih fun b hb => h b (by simp [hb])]

theorem collect_agree {h h' : Heap F} (s : Sketch) (g : Agree (fun c => c ∈ s.cells) h h') :
    collectGradient h' s = collectGradient h s := by
  rw [collectGradient_eq, collectGradient_eq, flatMap_congr_mem fun c hc => g.2 c hc]

end
end Isotope
