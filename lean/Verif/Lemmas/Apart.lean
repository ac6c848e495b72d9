import Verif.SpecApart
import Verif.Lemmas.MoveBy
import Verif.Lemmas.Chunk
import Verif.Props.Clone

/-!
# Solvers neither read nor write outside of their sketch
-/

namespace Isotope
variable {F : Type} [Num F]

omit [Num F] in
theorem Closed.same {h h1 : Heap F} {s : Sketch} (hc : Closed ⟨h, s⟩) (r : SameRefs h h1) : Closed ⟨h1, s⟩ := by
  refine ⟨fun c hs x hx => hc.1 c hs x ?_, fun k hs x hx => hc.2 k hs x ?_⟩
  · cases c with
    | point a => cases hx
    | line a => simpa [primFields, r.lines] using hx
    | arc a => simpa [primFields, r.arcCenter] using hx
    | circle a => simpa [primFields, r.circleCenter] using hx
  · simpa [r.cons] using hx

variable {h : Heap F} (z : Heap F) {s : Sketch}

section
omit [Num F]

theorem graft_points {a : Nat} (ha : .point a ∈ s.cells) : (h.graft z s).points a = h.points a := if_pos ha
theorem graft_lines {a : Nat} (ha : .line a ∈ s.cells) : (h.graft z s).lines a = h.lines a := if_pos ha
theorem graft_arcs {a : Nat} (ha : .arc a ∈ s.cells) : (h.graft z s).arcs a = h.arcs a := if_pos ha
theorem graft_circles {a : Nat} (ha : .circle a ∈ s.cells) : (h.graft z s).circles a = h.circles a := if_pos ha
theorem graft_cons {k : Nat} (hk : k ∈ s.cons) : (h.graft z s).cons k = h.cons k := if_pos hk

theorem graft_setPoint {a : Nat} (ha : .point a ∈ s.cells) (p : Point2 F) : (h.graft z s).setPoint a p = (h.setPoint a p).graft z s := by
  unfold Heap.setPoint Heap.graft
  congr 1
  funext b
  simp only [upd]
  by_cases e : b = a
  · subst e; simp [ha]
  · simp [e]

theorem graft_setArc {a : Nat} (ha : .arc a ∈ s.cells) (p : Arc F) : (h.graft z s).setArc a p = (h.setArc a p).graft z s := by
  unfold Heap.setArc Heap.graft
  congr 1
  funext b
  simp only [upd]
  by_cases e : b = a
  · subst e; simp [ha]
  · simp [e]

theorem graft_setCircle {a : Nat} (ha : .circle a ∈ s.cells) (p : Circle F) :
    (h.graft z s).setCircle a p = (h.setCircle a p).graft z s := by
  unfold Heap.setCircle Heap.graft
  congr 1
  funext b
  simp only [upd]
  by_cases e : b = a
  · subst e; simp [ha]
  · simp [e]

end

omit [Num F] in
theorem Closed.lineIn (hc : Closed ⟨h, s⟩) {l : Nat} (hl : .line l ∈ s.cells) :
    .point (h.lines l).start ∈ s.cells ∧ .point (h.lines l).stop ∈ s.cells :=
  ⟨hc.1 _ hl _ (by simp [primFields]), hc.1 _ hl _ (by simp [primFields])⟩

omit [Num F] in
theorem Closed.arcIn (hc : Closed ⟨h, s⟩) {a : Nat} (ha : .arc a ∈ s.cells) : .point (h.arcs a).center ∈ s.cells :=
  hc.1 _ ha _ (by simp [primFields])

omit [Num F] in
theorem graft_pt {a : Nat} (ha : .point a ∈ s.cells) : ptData (h.graft z s) a = ptData h a := by
  unfold ptData; rw [graft_points z ha]

omit [Num F] in
theorem graft_ls (hc : Closed ⟨h, s⟩) {l : Nat} (hl : .line l ∈ s.cells) : lineStart (h.graft z s) l = lineStart h l := by
  unfold lineStart; rw [graft_lines z hl, graft_pt z (hc.lineIn hl).1]

omit [Num F] in
theorem graft_le (hc : Closed ⟨h, s⟩) {l : Nat} (hl : .line l ∈ s.cells) : lineEnd (h.graft z s) l = lineEnd h l := by
  unfold lineEnd; rw [graft_lines z hl, graft_pt z (hc.lineIn hl).2]

theorem graft_arcStart (hc : Closed ⟨h, s⟩) {a : Nat} (ha : .arc a ∈ s.cells) :
    (h.arcs a).startPoint (h.graft z s) = (h.arcs a).startPoint h := by
  unfold Arc.startPoint; rw [graft_points z (hc.arcIn ha)]

theorem graft_arcEnd (hc : Closed ⟨h, s⟩) {a : Nat} (ha : .arc a ∈ s.cells) :
    (h.arcs a).endPoint (h.graft z s) = (h.arcs a).endPoint h := by
  unfold Arc.endPoint; rw [graft_points z (hc.arcIn ha)]

/-- all fields of the constraint are in the sketch -/
def ConsIn (s : Sketch) (c : Constraint F) : Prop := ∀ r ∈ consFields c, r ∈ s.cells

theorem graft_loss (hc : Closed ⟨h, s⟩) {c : Constraint F} (hk : ConsIn s c) : lossValue (h.graft z s) c = lossValue h c := by
  cases c <;> simp only [ConsIn, consFields, List.forall_mem_cons, List.not_mem_nil, false_imp_iff, implies_true, and_true] at hk <;>
    simp only [lossValue, currentAngle, euclidCurrent, horizCurrent, vertCurrent, graft_pt, graft_ls, graft_le, graft_arcs, graft_arcStart, graft_arcEnd, hc, hk]

theorem graft_chunks (hc : Closed ⟨h, s⟩) {c : Constraint F} (hk : ConsIn s c) : chunks (h.graft z s) c = chunks h c := by
  cases c <;> simp only [ConsIn, consFields, List.forall_mem_cons, List.not_mem_nil, false_imp_iff, implies_true, and_true] at hk <;>
    simp only [chunks, graft_pt, graft_ls, graft_le, graft_arcs, graft_arcStart, graft_arcEnd, hc, hk]

/-- the object the contribution goes to -/
def Chunk.cell : Chunk F → PrimCell
  | .point a _ => .point a
  | .line a _ => .line a
  | .arc a _ => .arc a

theorem chunks_cell (h : Heap F) (c : Constraint F) : ∀ k ∈ chunks h c, k.cell ∈ consFields c := by
  cases c <;> simp only [chunks, consFields] <;> (try split) <;> (try split) <;> (try split) <;>
    simp [Chunk.cell]

theorem graft_pointAdd {a : Nat} (ha : .point a ∈ s.cells) (g : Vec2 F) :
    pointAddGrad (h.graft z s) a g = mapE (fun h => h.graft z s) (pointAddGrad h a g) := by
  unfold pointAddGrad
  split
  · rw [graft_points z ha, graft_setPoint z ha]; rfl
  · rfl

omit [Num F] in
theorem mapE_bind_post (T : Heap F → Heap F) {P : Heap F → Prop} {e : Except (Heap F) (Heap F)} {f f' : Heap F → Except (Heap F) (Heap F)}
    (p : Post e P) (hf : ∀ h, P h → f' (T h) = mapE T (f h)) : (mapE T e >>= f') = mapE T (e >>= f) := by
  cases e with
  | ok h => exact hf h p
  | error h => rfl

theorem graft_applyChunk (hc : Closed ⟨h, s⟩) (k : Chunk F) (hk : k.cell ∈ s.cells) :
    applyChunk (h.graft z s) k = mapE (fun h => h.graft z s) (applyChunk h k) := by
  cases k with
  | point a g => exact graft_pointAdd z hk g
  | line l g =>
    show lineAddGrad _ _ _ = mapE _ (lineAddGrad _ _ _)
    unfold lineAddGrad
    split
    · rw [graft_lines z hk, graft_pointAdd z (hc.lineIn hk).1]
      refine mapE_bind_post _ (pointAddGrad_gradOnly h h _ _ (.refl h)) fun h1 q => ?_
      rw [graft_lines z hk]
      exact graft_pointAdd z ((hc.same q.1).lineIn hk).2 _
    · rfl
  | arc a g =>
    show arcAddGrad _ _ _ = mapE _ (arcAddGrad _ _ _)
    unfold arcAddGrad
    split
    · rw [graft_arcs z hk, graft_pointAdd z (hc.arcIn hk)]
      refine mapE_bind_post _ (pointAddGrad_gradOnly h h _ _ (.refl h)) fun h1 q => ?_
      rw [graft_arcs z hk, graft_setArc z hk]
      rfl
    · rfl

theorem graft_fold (hc : Closed ⟨h, s⟩) (ks : List (Chunk F)) (hk : ∀ k ∈ ks, k.cell ∈ s.cells) :
    ks.foldlM applyChunk (h.graft z s) = mapE (fun h => h.graft z s) (ks.foldlM applyChunk h) := by
  induction ks generalizing h with
  | nil => rfl
  | cons k ks ih =>
    rw [List.foldlM_cons, List.foldlM_cons, graft_applyChunk z hc k (hk k (by simp))]
    exact mapE_bind_post _ (applyChunk_gradOnly h h k (.refl h)) fun h1 q => ih (hc.same q.1) fun k hm => hk k (by simp [hm])

theorem graft_update (hc : Closed ⟨h, s⟩) {c : Constraint F} (hk : ConsIn s c) :
    updateGradient (h.graft z s) c = mapE (fun h => h.graft z s) (updateGradient h c) := by
  rw [updateGradient_eq, updateGradient_eq, graft_chunks z hc hk]
  exact graft_fold z hc _ fun k hm => hk _ (chunks_cell h c k hm)

/-! ## Sketches -/

omit [Num F] in
theorem Closed.consIn (hc : Closed ⟨h, s⟩) {k : Nat} (hk : k ∈ s.cons) : ConsIn s (h.cons k) := hc.2 k hk

theorem graft_getLoss (hc : Closed ⟨h, s⟩) : getLoss (h.graft z s) s = getLoss h s := by
  unfold getLoss
  refine List.foldl_ext _ _ _ fun l k hk => ?_
  rw [graft_cons z hk, graft_loss z hc (hc.consIn hk)]

theorem graft_losses (hc : Closed ⟨h, s⟩) : getLossPerConstraint (h.graft z s) s = getLossPerConstraint h s := by
  unfold getLossPerConstraint
  refine List.map_congr_left fun k hk => ?_
  rw [graft_cons z hk, graft_loss z hc (hc.consIn hk)]

omit [Num F] in
theorem graft_primGrad {c : PrimCell} (hm : c ∈ s.cells) : primGrad (h.graft z s) c = primGrad h c := by
  cases c with
  | point a => simp only [primGrad, graft_points z hm]
  | line a => rfl
  | arc a => simp only [primGrad, graft_arcs z hm]
  | circle a => simp only [primGrad, graft_circles z hm]

omit [Num F] in
theorem graft_primData {c : PrimCell} (hm : c ∈ s.cells) : primData (h.graft z s) c = primData h c := by
  cases c with
  | point a => simp only [primData, graft_points z hm]
  | line a => rfl
  | arc a => simp only [primData, graft_arcs z hm]
  | circle a => simp only [primData, graft_circles z hm]

theorem graft_zero : zeroGrads (h.graft z s) s = (zeroGrads h s).graft z s := by
  have H : ∀ (l : List (Nat × PrimCell)), (∀ kp ∈ l, kp.2 ∈ s.cells) → ∀ h : Heap F,
      l.foldl (fun h kp => primZeroGrad h kp.2) (h.graft z s) = (l.foldl (fun h kp => primZeroGrad h kp.2) h).graft z s := by
    intro l
    induction l with
    | nil => intro _ h; rfl
    | cons kp l ih =>
      intro hl h
      rw [List.foldl_cons, List.foldl_cons, ← ih fun kp hm => hl kp (by simp [hm])]
      congr 1
      have hm := hl kp (by simp)
      generalize kp.2 = c at hm
      cases c with
      | point a => simp only [primZeroGrad, graft_points z hm, graft_setPoint z hm]
      | line a => rfl
      | arc a => simp only [primZeroGrad, graft_arcs z hm, graft_setArc z hm]
      | circle a => simp only [primZeroGrad, graft_circles z hm, graft_setCircle z hm]
  exact H s.prims (fun kp hm => List.mem_map_of_mem hm) h

theorem graft_updateAll (hc : Closed ⟨h, s⟩) (cs : List Nat) (hs : ∀ k ∈ cs, k ∈ s.cons) :
    updateAll (h.graft z s) cs = mapE (fun h => h.graft z s) (updateAll h cs) := by
  unfold updateAll
  induction cs generalizing h with
  | nil => rfl
  | cons k cs ih =>
    have hk := hs k (by simp)
    rw [List.foldlM_cons, List.foldlM_cons, graft_cons z hk, graft_update z hc (hc.consIn hk)]
    exact mapE_bind_post _ (updateGradient_gradOnly h h _ (.refl h)) fun h1 q => ih (hc.same q.1) fun k hm => hs k (by simp [hm])

omit [Num F] in
theorem flatMap_in {f g : PrimCell → List F} (e : ∀ c ∈ s.cells, f c = g c) : s.cells.flatMap f = s.cells.flatMap g :=
  flatMap_congr_mem e

theorem graft_row : jacobianRow (h.graft z s) s = jacobianRow h s := by
  rw [jacobianRow_eq, jacobianRow_eq]
  exact flatMap_in fun c hm => graft_primGrad z hm

theorem graft_getData : getData (h.graft z s) s = getData h s := by
  rw [getData_eq, getData_eq]
  exact flatMap_in fun c hm => graft_primData z hm

theorem graft_collect : collectGradient (h.graft z s) s = collectGradient h s := by
  rw [collectGradient_eq, collectGradient_eq, flatMap_in fun c hm => graft_primGrad (h := h) z hm]

theorem graft_gradient (hc : Closed ⟨h, s⟩) :
    getGradient (h.graft z s) s = mapG (fun h => h.graft z s) (getGradient h s) := by
  unfold getGradient
  rw [graft_zero, graft_updateAll z (hc.same (zeroGrads_gradOnly h s).1) _ fun _ => id]
  cases updateAll (zeroGrads h s) s.cons with
  | error h => rfl
  | ok h =>
    simp only [mapE, graft_collect]
    cases collectGradient h s <;> rfl

theorem graft_rows (hc : Closed ⟨h, s⟩) (cs : List Nat) (hs : ∀ k ∈ cs, k ∈ s.cons) :
    jacobianRows s cs (h.graft z s) = mapG (fun h => h.graft z s) (jacobianRows s cs h) := by
  induction cs generalizing h with
  | nil => rfl
  | cons k cs ih =>
    have hk := hs k (by simp)
    have hc0 := hc.same (zeroGrads_gradOnly h s).1
    unfold jacobianRows
    simp only [graft_zero, graft_cons z hk, graft_update z hc0 (hc0.consIn hk)]
    have p := updateGradient_gradOnly (zeroGrads h s) (zeroGrads h s) ((zeroGrads h s).cons k) (.refl _)
    cases e : updateGradient (zeroGrads h s) ((zeroGrads h s).cons k) with
    | error h => rfl
    | ok h1 =>
      rw [e] at p
      simp only [mapE, ih (hc0.same (show GradOnly _ h1 from p).1) fun k hm => hs k (by simp [hm]), graft_row]
      cases jacobianRows s cs h1 <;> rfl

theorem graft_jacobian (hc : Closed ⟨h, s⟩) :
    getJacobian (h.graft z s) s = mapG (fun h => h.graft z s) (getJacobian h s) := graft_rows z hc _ fun _ => id

theorem graft_primSet {c : PrimCell} (hm : c ∈ s.cells) (d : List F) :
    primSetData (h.graft z s) c d = mapE (fun h => h.graft z s) (primSetData h c d) := by
  cases c with
  | point a =>
    simp only [primSetData, graft_points z hm]
    split
    · split
      · rw [graft_setPoint z hm]; rfl
      · rfl
    · rfl
  | line a => rfl
  | arc a =>
    simp only [primSetData, graft_arcs z hm]
    split
    · split
      · rw [graft_setArc z hm]; rfl
      · rfl
    · rfl
  | circle a =>
    simp only [primSetData, graft_circles z hm]
    split
    · split
      · rw [graft_setCircle z hm]; rfl
      · rfl
    · rfl

theorem graft_setLoop (d : List F) (l : List (Nat × PrimCell)) (hl : ∀ kp ∈ l, kp.2 ∈ s.cells) (i : Nat) :
    setDataLoop d l i (h.graft z s) = mapE (fun h => h.graft z s) (setDataLoop d l i h) := by
  induction l generalizing h i with
  | nil => rfl
  | cons kp l ih =>
    have hm := hl kp (by simp)
    unfold setDataLoop
    simp only [graft_primSet z hm, primData_length h (h.graft z s)]
    cases primSetData h kp.2 _ with
    | error h => rfl
    | ok h => exact ih (fun kp hm => hl kp (by simp [hm])) _

theorem graft_setData (d : List F) : setData (h.graft z s) s d = mapE (fun h => h.graft z s) (setData h s d) := by
  unfold setData
  rw [getNDofs_congr h]
  split
  · exact graft_setLoop z d _ (fun kp hm => List.mem_map_of_mem hm) 0
  · rfl

/-! ## Runs -/

theorem alike_graft (s : Sketch) (h0 : Heap F) (hc : Closed ⟨h0, s⟩) :
    Alike s s (fun h h' => SameRefs h0 h ∧ h' = h.graft z s) (fun h h' => h' = h.graft z s) Eq Eq (fun _ => True) where
  first := trivial
  shorter := fun _ => trivial
  longer := fun _ => trivial
  imp := fun r => r.2
  data := by rintro h _ ⟨_, rfl⟩; exact (graft_getData z).symm
  set := by
    rintro h _ d _ ⟨r, rfl⟩ rfl
    rw [graft_setData]
    have p := setData_dataOnly h s d
    cases e : setData h s d with
    | error h1 => exact .error rfl
    | ok h1 => rw [e] at p; exact .ok ⟨r.trans p.1, rfl⟩
  loss := by rintro h _ ⟨r, rfl⟩; exact (graft_getLoss z (hc.same r)).symm
  grad := by
    rintro h _ ⟨r, rfl⟩
    rw [graft_gradient z (hc.same r)]
    have p := getGradient_gradOnly h s
    cases e : getGradient h s with
    | error h1 => exact .error rfl
    | ok q => rw [e] at p; exact .ok rfl ⟨r.trans p.1, rfl⟩
  dot := by rintro a _ b _ rfl rfl; rfl
  neg := by rintro a _ rfl; rfl
  add := by rintro x _ d _ k _ rfl rfl; rfl
  axpy := by rintro x _ d _ k _ rfl rfl; rfl

theorem newton_graft (hc : Closed ⟨h, s⟩) (pinv : PInv F) (ml σ eps : F) (normal : Nat → List (List F) → List (List F)) (n : Nat) (ls : F) :
    SameRun (fun h1 h' => SameRefs h h1 ∧ h' = h1.graft z s) (fun h h' => h' = h.graft z s) Eq
      (newtonLoop pinv ml σ eps normal s n ls h) (newtonLoop pinv ml σ eps normal s n ls (h.graft z s)) := by
  refine (alike_graft z s h hc).newton (fun e => by rw [e]) (fun u e => by rw [e]) normal ?_ ?_ pinv ml trivial eps n ls ⟨.refl h, rfl⟩
  · rintro h1 _ ⟨r, rfl⟩
    rw [graft_losses z (hc.same r)]
  · rintro h1 _ ⟨r, rfl⟩
    rw [graft_jacobian z (hc.same r)]
    have p := getJacobian_gradOnly h1 s
    cases e : getJacobian h1 s with
    | error h1 => exact .error rfl
    | ok q => rw [e] at p; exact .ok ⟨rfl, fun pi => by rw [graft_losses z (hc.same r)]⟩ ⟨r.trans p.1, rfl⟩

/-! ## Calls -/

theorem graft_checkLoop (hc : Closed ⟨h, s⟩) {k : Nat} (hk : k ∈ s.cons) (eps cl : F) {p : PrimCell} (hp : p ∈ s.cells) (orig : List F)
    (is : List Nat) : checkPrimLoop k eps cl p orig is (h.graft z s) = mapG (fun h => h.graft z s) (checkPrimLoop k eps cl p orig is h) := by
  induction is generalizing h with
  | nil => rfl
  | cons i is ih =>
    unfold checkPrimLoop
    rw [graft_primSet z hp]
    have f1 := primSetData_frame h p (orig.set i (orig.getD i 0.0 + eps))
    cases e1 : primSetData h p (orig.set i (orig.getD i 0.0 + eps)) with
    | error h1 => rfl
    | ok h1 =>
      rw [e1] at f1
      have hc1 : Closed ⟨h1, s⟩ := hc.same f1.1
      simp only [mapE, graft_cons z hk, graft_loss z hc1 (hc1.consIn hk)]
      rw [graft_primSet z hp]
      have f2 := primSetData_frame h1 p orig
      cases e2 : primSetData h1 p orig with
      | error h2 => rfl
      | ok h2 =>
        rw [e2] at f2
        have hc2 : Closed ⟨h2, s⟩ := hc1.same f2.1
        simp only [mapE, ih hc2]
        cases checkPrimLoop k eps cl p orig is h2 <;> rfl

theorem graft_checkPrims (hc : Closed ⟨h, s⟩) {k : Nat} (hk : k ∈ s.cons) (eps cl ce : F) (l : List (Nat × PrimCell))
    (hl : ∀ kp ∈ l, kp.2 ∈ s.cells) : checkPrims k eps cl ce l (h.graft z s) = mapE (fun h => h.graft z s) (checkPrims k eps cl ce l h) := by
  induction l generalizing h with
  | nil => rfl
  | cons kp l ih =>
    have hp := hl kp (by simp)
    unfold checkPrims
    simp only [graft_primData z hp, graft_primGrad z hp, graft_checkLoop z hc hk eps cl hp]
    split
    · have f := checkPrimLoop_moves s k eps cl kp.2 hp (primData h kp.2) (List.range (primData h kp.2).length) h h (.refl s h)
      cases e : checkPrimLoop k eps cl kp.2 (primData h kp.2) (List.range (primData h kp.2).length) h with
      | error h1 => rfl
      | ok q =>
        rw [e] at f
        obtain ⟨g, h1⟩ := q
        simp only [mapG]
        split
        · exact ih (hc.same f.1) fun kp hm => hl kp (by simp [hm])
        · rfl
    · rfl

theorem graft_check (hc : Closed ⟨h, s⟩) {k : Nat} (hk : k ∈ s.cons) (eps ce : F) :
    checkGradients (h.graft z s) s eps k ce = mapE (fun h => h.graft z s) (checkGradients h s eps k ce) := by
  unfold checkGradients
  rw [graft_gradient z hc]
  have p := getGradient_gradOnly h s
  cases e : getGradient h s with
  | error h1 => rfl
  | ok q =>
    rw [e] at p
    obtain ⟨g, h1⟩ := q
    have hc1 := hc.same (show GradOnly h h1 from p).1
    simp only [mapG, graft_cons z hk, graft_loss z hc1 (hc1.consIn hk)]
    exact graft_checkPrims z hc1 hk eps _ ce _ fun kp hm => List.mem_map_of_mem hm

theorem run_graft (hc : Closed ⟨h, s⟩) (pinv : PInv F) (k : SolverKind F) :
    SameRun (fun h1 h' => SameRefs h h1 ∧ h' = h1.graft z s) (fun h h' => h' = h.graft z s) Eq
      (runSolver pinv k h s) (runSolver pinv k (h.graft z s) s) := by
  cases k with
  | gd p => exact (alike_graft z s h hc).gd rfl p ⟨.refl h, rfl⟩
  | bfgs p => exact (alike_graft z s h hc).bfgs (fun e => by rw [e]) p ⟨.refl h, rfl⟩
  | gn p => exact newton_graft z hc ..
  | lm p => exact newton_graft z hc ..

theorem run_graft_heap (hc : Closed ⟨h, s⟩) (pinv : PInv F) (k : SolverKind F) :
    (runSolver pinv k (h.graft z s) s).heap = (runSolver pinv k h s).heap.graft z s := by
  have q := run_graft z hc pinv k
  by_cases e : (runSolver pinv k h s).res = .panic
  · exact q.panicked e
  · exact (q.heap e).2

theorem step_graft (hc : Closed ⟨h, s⟩) (hz : z.nCons = h.nCons) (pinv : PInv F) {op : Op F} (ho : op.computes s) :
    step pinv ⟨h.graft z s, s⟩ op = ((step pinv ⟨h, s⟩ op).1, ⟨(step pinv ⟨h, s⟩ op).2.heap.graft z s, s⟩) := by
  have hl : op.live ⟨h.graft z s, s⟩ = op.live ⟨h, s⟩ := by
    cases op <;> simp only [Op.computes] at ho <;> simp only [Op.live]
    show decide (_ < z.nCons) = _
    rw [hz]
  unfold step
  rw [hl]
  cases op.live ⟨h, s⟩
  · rfl
  cases op <;> simp only [Op.computes] at ho <;> simp only [Bool.not_true, Bool.false_eq_true, if_false]
  case setData d => rw [graft_setData]; cases setData h s d <;> rfl
  case getGradient => rw [graft_gradient z hc]; cases getGradient h s <;> rfl
  case getJacobian => rw [graft_jacobian z hc]; cases getJacobian h s <;> rfl
  case checkGradients eps k ce => rw [graft_check z hc ho]; cases checkGradients h s eps k ce <;> rfl
  case solve k => rw [run_graft_heap z hc, (run_graft z hc pinv k).res]

/-! ## The same objects -/

omit [Num F] in
theorem SameObjects.eq {z : Heap F} (q : SameObjects s h z) : z = h.graft z s := by
  cases z
  unfold Heap.graft
  congr 1 <;> funext a <;> simp only
  · split
    · exact q.points a ‹_›
    · rfl
  · split
    · exact q.lines a ‹_›
    · rfl
  · split
    · exact q.arcs a ‹_›
    · rfl
  · split
    · exact q.circles a ‹_›
    · rfl
  · split
    · exact q.cons a ‹_›
    · rfl

omit [Num F] in
theorem sameObjects_graft (h : Heap F) : SameObjects s h (h.graft z s) :=
  ⟨fun _ hx => if_pos hx, fun _ hx => if_pos hx, fun _ hx => if_pos hx, fun _ hx => if_pos hx, fun _ hx => if_pos hx⟩

omit [Num F] in
theorem SameObjects.refl (s : Sketch) (h : Heap F) : SameObjects s h h :=
  ⟨fun _ _ => rfl, fun _ _ => rfl, fun _ _ => rfl, fun _ _ => rfl, fun _ _ => rfl⟩

omit [Num F] in
theorem SameObjects.trans {h1 h2 h3 : Heap F} (a : SameObjects s h1 h2) (b : SameObjects s h2 h3) : SameObjects s h1 h3 :=
  ⟨fun x hx => (b.points x hx).trans (a.points x hx), fun x hx => (b.lines x hx).trans (a.lines x hx),
    fun x hx => (b.arcs x hx).trans (a.arcs x hx), fun x hx => (b.circles x hx).trans (a.circles x hx),
    fun x hx => (b.cons x hx).trans (a.cons x hx)⟩

theorem step_refs (pinv : PInv F) (h : Heap F) {op : Op F} (ho : op.computes s) :
    SameRefs h (step pinv ⟨h, s⟩ op).2.heap ∧ (step pinv ⟨h, s⟩ op).2.sketch = s := by
  unfold step
  cases op.live ⟨h, s⟩
  · exact ⟨.refl h, rfl⟩
  cases op <;> simp only [Op.computes] at ho <;> simp only [Bool.not_true, Bool.false_eq_true, if_false]
  case setData d =>
    have p := setData_dataOnly h s d
    cases e : setData h s d <;> rw [e] at p <;> exact ⟨p.1, rfl⟩
  case getGradient =>
    have p := getGradient_gradOnly h s
    cases e : getGradient h s <;> rw [e] at p <;> exact ⟨p.1, rfl⟩
  case getJacobian =>
    have p := getJacobian_gradOnly h s
    cases e : getJacobian h s <;> rw [e] at p <;> exact ⟨p.1, rfl⟩
  case checkGradients eps k ce =>
    have p := checkGradients_moves h s eps k ce
    cases e : checkGradients h s eps k ce <;> rw [e] at p <;> exact ⟨p.1, rfl⟩
  case solve k => exact ⟨(runSolver_moves pinv k h s).1, trivial⟩

/-- a call on one sketch leaves the objects of others alone -/
theorem step_other (pinv : PInv F) {t : Sketch} (hc : Closed ⟨h, t⟩) {op : Op F} (ho : op.computes t) (ha : Sketch.Apart s t) :
    SameObjects s h (step pinv ⟨h, t⟩ op).2.heap := by
  have e := step_graft h hc rfl pinv ho
  rw [← (SameObjects.refl t h).eq] at e
  have r := (step_refs pinv h ho).1
  generalize step pinv ⟨h, t⟩ op = q at e r
  have e' : q.2.heap = q.2.heap.graft h t := congrArg (fun q => q.2.heap) e
  refine ⟨fun a hm => ?_, fun a hm => by rw [r.lines], fun a hm => ?_, fun a hm => ?_, fun k _ => by rw [r.cons]⟩
  · rw [e']; exact if_neg (ha _ hm)
  · rw [e']; exact if_neg (ha _ hm)
  · rw [e']; exact if_neg (ha _ hm)

/-- a call on a sketch sees only its objects -/
theorem step_same (pinv : PInv F) {h' : Heap F} (hc : Closed ⟨h, s⟩) (q : SameObjects s h h') (hz : h'.nCons = h.nCons) {op : Op F}
    (ho : op.computes s) : (step pinv ⟨h', s⟩ op).1 = (step pinv ⟨h, s⟩ op).1 ∧
      SameObjects s (step pinv ⟨h, s⟩ op).2.heap (step pinv ⟨h', s⟩ op).2.heap := by
  have e := step_graft h' hc hz pinv ho
  rw [← q.eq] at e
  rw [e]
  exact ⟨rfl, sameObjects_graft _ _⟩

end Isotope
