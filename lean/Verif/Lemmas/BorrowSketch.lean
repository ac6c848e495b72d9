import Verif.Lemmas.Borrow

/-!
# Borrow flags: the sketch and the solvers
-/

namespace Isotope
variable {F : Type} [Num F]

/-! ## Loops -/

omit [Num F] in
/-- a loop of reads -/
theorem foldlM_read {α β : Type} {fl : Flags} {h : Heap F} (f : β → α → B F β) (g : β → α → β)
    (hf : ∀ b a, f b a ⟨h, fl⟩ = .ok (g b a) ⟨h, fl⟩) :
    ∀ (l : List α) (b : β), l.foldlM f b ⟨h, fl⟩ = .ok (l.foldl g b) ⟨h, fl⟩ := by
  intro l
  induction l with
  | nil => intro b; rfl
  | cons a l ih => intro b; rw [List.foldlM_cons]; exact bind_read (hf b a) (ih _)

omit [Num F] in
/-- a mapping loop of reads -/
theorem mapM_read {α β : Type} {fl : Flags} {h : Heap F} (f : α → B F β) (g : α → β)
    (hf : ∀ a, f a ⟨h, fl⟩ = .ok (g a) ⟨h, fl⟩) :
    ∀ (l : List α), l.mapM f ⟨h, fl⟩ = .ok (l.map g) ⟨h, fl⟩ := by
  have aux : ∀ (l : List α) (acc : List β), List.mapM.loop f l acc ⟨h, fl⟩ = .ok (acc.reverse ++ l.map g) ⟨h, fl⟩ := by
    intro l
    induction l with
    | nil => intro acc; simp only [List.map_nil, List.append_nil]; rfl
    | cons a l ih =>
      intro acc
      unfold List.mapM.loop
      refine bind_read (hf a) ?_
      rw [ih]
      simp
  intro l
  exact aux l []

section reads
variable {fl : Flags} (sh : AllSh fl) (h : Heap F) (s : Sketch)
include sh

theorem bConsLoss_eq (c : Nat) : bConsLoss c ⟨h, fl⟩ = .ok (lossValue h (h.cons c)) ⟨h, fl⟩ :=
  withShared_read (sh _) (bLoss_eq (sh.bump _).prim h _)

omit [Num F] in
theorem bNDofs_eq : bNDofs s ⟨h, fl⟩ = .ok (getNDofs h s) ⟨h, fl⟩ :=
  foldlM_read _ (fun n (kp : Nat × PrimCell) => n + (primData h kp.2).length)
    (fun _ _ => bind_read (bPrimData_eq sh.prim h _) rfl) _ _

theorem bGetData_eq : bGetData s ⟨h, fl⟩ = .ok (getData h s) ⟨h, fl⟩ := by
  refine bind_read (bNDofs_eq sh h s) (bind_read (foldlM_read _
    (fun (st : List F × Nat) (kp : Nat × PrimCell) =>
      (blit st.1 st.2 (primData h kp.2), st.2 + (primData h kp.2).length)) ?_ _ _) rfl)
  exact fun _ _ => withShared_read (sh _) rfl

theorem bGetLoss_eq : bGetLoss s ⟨h, fl⟩ = .ok (getLoss h s) ⟨h, fl⟩ :=
  foldlM_read _ (fun loss c => loss + lossValue h (h.cons c)) (fun _ _ => bind_read (bConsLoss_eq sh h _) rfl) _ _

theorem bGetLossPerConstraint_eq : bGetLossPerConstraint s ⟨h, fl⟩ = .ok (getLossPerConstraint h s) ⟨h, fl⟩ :=
  mapM_read _ _ (bConsLoss_eq sh h) _

omit [Num F] in
theorem bGetAllPoints_eq : ∀ kps : List (Nat × PrimCell),
    bGetAllPoints kps ⟨h, fl⟩ = .ok (kps.filterMap (fun kp =>
      match kp.2 with
      | .point a => some (kp.1, h.points a)
      | _ => none)) ⟨h, fl⟩ := by
  intro kps
  induction kps with
  | nil => rfl
  | cons kp kps ih =>
    obtain ⟨k, p⟩ := kp
    cases p with
    | point a => exact bind_read (withShared_read (v := some (k, h.points a)) (sh _) rfl) (bind_read ih rfl)
    | line a => exact bind_read (withShared_read (v := none) (sh _) rfl) (bind_read ih rfl)
    | arc a => exact bind_read (withShared_read (v := none) (sh _) rfl) (bind_read ih rfl)
    | circle a => exact bind_read (withShared_read (v := none) (sh _) rfl) (bind_read ih rfl)

omit [Num F] in
theorem bAddPrimitive_eq (p : PrimCell) : bAddPrimitive s p ⟨h, fl⟩ = .ok (s.addPrimitive h p) ⟨h, fl⟩ := by
  refine bind_read (withShared_read (sh _) rfl) ?_
  simp only [Sketch.addPrimitive, ite_apply_B, pure_apply]
  split
  · rfl
  · split <;> rfl

omit [Num F] in
theorem bAddConstraint_eq (c : Nat) : bAddConstraint s c ⟨h, fl⟩ = .ok (s.addConstraint h c) ⟨h, fl⟩ := by
  refine bind_read (withShared_read (sh _) rfl) ?_
  simp only [Sketch.addConstraint, ite_apply_B, pure_apply]
  split
  · rfl
  · split <;> rfl

end reads

section writes
variable {fl : Flags} (fr : AllFree fl)
include fr

theorem bConsUpdate_eq (h : Heap F) (c : Nat) :
    bConsUpdate c ⟨h, fl⟩ = toRes fl (unitRes (updateGradient h (h.cons c))) :=
  withExcl_eq (fr _) (bUpdate_eq (fr.prim.bumpCons c (-1)) h _)

theorem bZeroAll_eq (kps : List (Nat × PrimCell)) : ∀ h : Heap F,
    bZeroAll kps ⟨h, fl⟩ = .ok () ⟨kps.foldl (fun h kp => primZeroGrad h kp.2) h, fl⟩ := by
  induction kps with
  | nil => intro h; rfl
  | cons kp kps ih =>
    intro h
    unfold bZeroAll
    rw [bind_apply, bPrimZero_eq fr.prim]
    exact ih _

theorem bUpdateAll_eq (cs : List Nat) : ∀ h : Heap F,
    bUpdateAll cs ⟨h, fl⟩ = toRes fl (unitRes (updateAll h cs)) := by
  induction cs with
  | nil => intro h; rfl
  | cons c cs ih =>
    intro h
    unfold bUpdateAll updateAll
    rw [List.foldlM_cons]
    exact two_eff (bConsUpdate_eq fr h c) ih

theorem collect_eq (h : Heap F) (kps : List (Nat × PrimCell)) : ∀ st : List F × Nat,
    kps.foldlM
      (fun (st : List F × Nat) kp => withShared (.prim kp.2) do
        let g := primGrad (← heapB) kp.2
        assertB (g.all Num.isFinite)
        return (blit st.1 st.2 g, st.2 + g.length)) st ⟨h, fl⟩ =
    (match kps.foldlM
      (fun (st : List F × Nat) kp =>
        if (primGrad h kp.2).all Num.isFinite then
          some (blit st.1 st.2 (primGrad h kp.2), st.2 + (primGrad h kp.2).length)
        else none) st with
      | none => Res.panic ⟨h, fl⟩
      | some st => .ok st ⟨h, fl⟩) := by
  induction kps with
  | nil => intro st; rfl
  | cons kp kps ih =>
    intro st
    rw [List.foldlM_cons, List.foldlM_cons, bind_apply]
    by_cases k : (primGrad h kp.2).all Num.isFinite = true
    · rw [withShared_eq (r := .ok ((blit st.1 st.2 (primGrad h kp.2), st.2 + (primGrad h kp.2).length), h)) (fr.sh _)]
      · simp only [toRes, k, if_true]
        exact ih _
      · refine bind_read rfl ?_
        simp only [k]
        rfl
    · rw [withShared_eq (r := .error h) (fr.sh _)]
      · simp only [toRes, k]
        rfl
      · refine bind_read rfl ?_
        simp only [k]
        rfl

theorem bGetGradient_eq (h : Heap F) (s : Sketch) : bGetGradient s ⟨h, fl⟩ = toRes fl (getGradient h s) := by
  unfold bGetGradient getGradient zeroGrads
  rw [bind_apply, bZeroAll_eq fr]
  simp only
  rw [bind_apply, bUpdateAll_eq fr]
  cases updateAll (s.prims.foldl (fun h kp => primZeroGrad h kp.2) h) s.cons with
  | error h' => rfl
  | ok h' =>
    simp only [unitRes, Except.map, toRes]
    rw [bind_apply, bNDofs_eq fr.sh]
    simp only
    rw [bind_apply, collect_eq fr]
    unfold collectGradient
    cases s.prims.foldlM
      (fun (st : List F × Nat) kp =>
        if (primGrad h' kp.2).all Num.isFinite then
          some (blit st.1 st.2 (primGrad h' kp.2), st.2 + (primGrad h' kp.2).length)
        else none) (zerosVec (getNDofs h' s), 0) with
    | none => rfl
    | some st => rfl

theorem bJacobianRows_eq (s : Sketch) (cs : List Nat) : ∀ (h : Heap F) (n : Nat),
    (∀ h' : Heap F, getNDofs h' s = n) →
    bJacobianRows s n cs ⟨h, fl⟩ = toRes fl (jacobianRows s cs h) := by
  induction cs with
  | nil => intro h n _; rfl
  | cons c cs ih =>
    intro h n hn
    unfold bJacobianRows jacobianRows zeroGrads
    rw [bind_apply, bZeroAll_eq fr]
    simp only
    rw [bind_apply, bConsUpdate_eq fr]
    cases updateGradient (s.prims.foldl (fun h kp => primZeroGrad h kp.2) h)
      ((s.prims.foldl (fun h kp => primZeroGrad h kp.2) h).cons c) with
    | error h' => rfl
    | ok h2 =>
      simp only [unitRes, Except.map, toRes]
      refine bind_read (foldlM_read _ (fun (st : List F × Nat) (kp : Nat × PrimCell) =>
        (blit st.1 st.2 (primGrad h2 kp.2), st.2 + (primGrad h2 kp.2).length)) ?_ _ _) ?_
      · exact fun _ _ => withShared_read (fr.sh _) rfl
      rw [bind_apply, ih h2 n hn]
      cases jacobianRows s cs h2 with
      | error h3 => rfl
      | ok x =>
        simp only [toRes, jacobianRow, hn h2]
        rfl

omit fr [Num F] in
/-- the number of degrees of freedom depends on the kinds of the primitives only -/
theorem getNDofs_const (h h' : Heap F) (s : Sketch) : getNDofs h s = getNDofs h' s := by
  have : ∀ p : PrimCell, (primData h p).length = (primData h' p).length := by intro p; cases p <;> rfl
  unfold getNDofs
  simp only [this]

theorem bGetJacobian_eq (h : Heap F) (s : Sketch) : bGetJacobian s ⟨h, fl⟩ = toRes fl (getJacobian h s) :=
  bind_read (bNDofs_eq fr.sh h s) (bJacobianRows_eq fr s s.cons h _ (fun h' => getNDofs_const h' h s))

theorem bSetDataLoop_eq (data : List F) (kps : List (Nat × PrimCell)) : ∀ (i : Nat) (h : Heap F),
    bSetDataLoop data kps i ⟨h, fl⟩ = toRes fl (unitRes (setDataLoop data kps i h)) := by
  induction kps with
  | nil => intro i h; rfl
  | cons kp kps ih =>
    intro i h
    unfold bSetDataLoop setDataLoop
    refine bind_read (bPrimData_eq fr.prim.sh h _) ?_
    rw [bind_apply, bPrimSet_eq fr.prim]
    simp only
    cases primSetData h kp.2 ((data.drop i).take (primData h kp.2).length) with
    | error h' => rfl
    | ok h' => exact ih _ _

theorem bSetData_eq (h : Heap F) (s : Sketch) (data : List F) :
    bSetData s data ⟨h, fl⟩ = toRes fl (unitRes (setData h s data)) := by
  unfold bSetData setData
  refine bind_read (bNDofs_eq fr.sh h s) ?_
  rw [bind_apply, assertB_eq]
  by_cases k : data.length = getNDofs h s
  · simp only [k, decide_true, if_true]
    exact bSetDataLoop_eq fr data s.prims 0 h
  · simp only [k, decide_false, if_false]
    rfl

theorem bCheckPrimLoop_eq (c : Nat) (eps closs : F) (p : PrimCell) (orig : List F) (is : List Nat) : ∀ h : Heap F,
    bCheckPrimLoop c eps closs p orig is ⟨h, fl⟩ = toRes fl (checkPrimLoop c eps closs p orig is h) := by
  induction is with
  | nil => intro h; rfl
  | cons i is ih =>
    intro h
    unfold bCheckPrimLoop checkPrimLoop
    rw [bind_apply, bPrimSet_eq fr.prim]
    cases primSetData h p (orig.set i (orig.getD i 0.0 + eps)) with
    | error h' => rfl
    | ok h1 =>
      simp only [unitRes, Except.map, toRes]
      refine bind_read (bConsLoss_eq fr.sh h1 c) ?_
      rw [bind_apply, bPrimSet_eq fr.prim]
      cases primSetData h1 p orig with
      | error h' => rfl
      | ok h2 =>
        simp only [unitRes, Except.map, toRes]
        rw [bind_apply, ih h2]
        cases checkPrimLoop c eps closs p orig is h2 with
        | error h' => rfl
        | ok x => rfl

theorem bCheckPrims_eq (c : Nat) (eps closs checkEps : F) (kps : List (Nat × PrimCell)) : ∀ h : Heap F,
    bCheckPrims c eps closs checkEps kps ⟨h, fl⟩ = toRes fl (unitRes (checkPrims c eps closs checkEps kps h)) := by
  induction kps with
  | nil => intro h; rfl
  | cons kp kps ih =>
    intro h
    unfold bCheckPrims checkPrims
    refine bind_read (bPrimData_eq fr.prim.sh h _) (bind_read (bPrimGrad_eq fr.prim.sh h _)
      (bind_read (bPrimData_eq fr.prim.sh h _) ?_))
    rw [bind_apply, assertB_eq]
    by_cases k : (primData h kp.2).length = (primGrad h kp.2).length
    · simp only [decide_eq_true k, if_true, unitRes, Except.map, toRes, if_pos k]
      rw [bind_apply, bCheckPrimLoop_eq fr]
      cases checkPrimLoop c eps closs kp.2 (primData h kp.2) (List.range (primData h kp.2).length) h with
      | error h' => rfl
      | ok x =>
        simp only [toRes]
        rw [bind_apply, assertB_eq]
        by_cases k2 : (normL (List.zipWith (· - ·) x.1 (primGrad h kp.2)) <. checkEps) = true
        · simp only [k2, if_true, unitRes, Except.map, toRes]
          exact ih _
        · simp only [k2, unitRes, Except.map, toRes]
          rfl
    · simp only [decide_eq_false k, unitRes, Except.map, toRes, if_neg k]
      rfl

theorem bCheckGradients_eq (h : Heap F) (s : Sketch) (eps : F) (c : Nat) (checkEps : F) :
    bCheckGradients s eps c checkEps ⟨h, fl⟩ = toRes fl (unitRes (checkGradients h s eps c checkEps)) := by
  unfold bCheckGradients checkGradients
  rw [bind_apply, bGetGradient_eq fr]
  cases getGradient h s with
  | error h' => rfl
  | ok x => exact bind_read (bConsLoss_eq fr.sh _ c) (bCheckPrims_eq fr c eps _ checkEps s.prims _)

/-! ## Solvers -/

omit fr in
/-- result of a line search, with flags -/
def lsRes (fl : Flags) : LSRes F × Heap F → Res F (LSRes F)
  | (.panic, h) => .panic ⟨h, fl⟩
  | (r, h) => .ok r ⟨h, fl⟩

theorem bLsLoop_eq (s : Sketch) (direction x0 : List F) (loss m : F) (n : Nat) : ∀ (alpha : F) (h : Heap F),
    bLsLoop s direction x0 loss m n alpha ⟨h, fl⟩ = lsRes fl (lsLoop s direction x0 loss m n alpha h) := by
  induction n with
  | zero => intro alpha h; rfl
  | succ n ih =>
    intro alpha h
    unfold bLsLoop lsLoop
    rw [bind_apply, bSetData_eq fr]
    cases setData h s (vadd x0 (vscale alpha direction)) with
    | error h' => rfl
    | ok h1 =>
      simp only [unitRes, Except.map, toRes]
      refine bind_read (bGetLoss_eq fr.sh h1 s) ?_
      simp only [ite_apply_B]
      split
      · rw [bind_apply, bGetGradient_eq fr]
        cases getGradient h1 s with
        | error h' => rfl
        | ok x =>
          simp only [toRes, ite_apply_B]
          split
          · rfl
          · exact ih _ _
      · exact ih _ _

theorem bLineSearch_eq (h : Heap F) (s : Sketch) (direction gradient : List F) :
    bLineSearch s direction gradient ⟨h, fl⟩ = lsRes fl (lineSearch h s direction gradient) := by
  unfold bLineSearch lineSearch
  simp only [ite_apply_B]
  split
  · rfl
  · exact bind_read (bGetData_eq fr.sh h s) (bind_read (bGetLoss_eq fr.sh h s) (bLsLoop_eq fr s _ _ _ _ _ _ _))

omit fr in
/-- result of a solver, with flags -/
def solveRes (fl : Flags) (r : SolveRes) (h : Heap F) : Res F SolveRes :=
  match r with
  | .panic => .panic ⟨h, fl⟩
  | r => .ok r ⟨h, fl⟩

theorem bGdLoop_eq (p : GDParams F) (s : Sketch) (n : Nat) : ∀ (gradient : List F) (gn loss : F) (h : Heap F),
    bGdLoop p s n gradient gn loss ⟨h, fl⟩ =
      solveRes fl (gdLoop p s n h gradient gn loss).res (gdLoop p s n h gradient gn loss).heap := by
  induction n with
  | zero => intros; rfl
  | succ n ih =>
    intro gradient gn loss h
    unfold bGdLoop gdLoop
    simp only [ite_apply_B]
    split
    · rfl
    · split
      · rfl
      · refine bind_read (bGetData_eq fr.sh h s) ?_
        rw [bind_apply, bLineSearch_eq fr]
        cases lineSearch h s (vneg gradient) gradient with
        | mk r h1 =>
          cases r with
          | notDescent => rfl
          | searchFailed => rfl
          | panic => rfl
          | ok alpha =>
            simp only [lsRes]
            rw [bind_apply, bSetData_eq fr]
            cases setData h1 s (axpy (getData h s) alpha (vneg gradient)) with
            | error h' => rfl
            | ok h2 =>
              simp only [unitRes, Except.map, toRes]
              refine bind_read (bGetLoss_eq fr.sh h2 s) ?_
              rw [bind_apply, bGetGradient_eq fr]
              cases getGradient h2 s with
              | error h' => rfl
              | ok x => exact ih _ _ _ _

theorem bGdSolve_eq (p : GDParams F) (h : Heap F) (s : Sketch) :
    bGdSolve p s ⟨h, fl⟩ = solveRes fl (gdSolve p h s).res (gdSolve p h s).heap := by
  unfold bGdSolve gdSolve
  rw [bind_apply, bGetGradient_eq fr]
  cases getGradient h s with
  | error h' => rfl
  | ok x => exact bind_read (bGetLoss_eq fr.sh _ s) (bGdLoop_eq fr p s _ _ _ _ _)

theorem bBfgsLoop_step (p : BFGSParams F) (s : Sketch) (nd : Nat) (n : Nat) (reset : Bool)
    (ih : ∀ hm data h, bBfgsLoop p s nd n false hm data ⟨h, fl⟩ =
      solveRes fl (bfgsLoop p s nd n false hm data h).res (bfgsLoop p s nd n false hm data h).heap)
    (ihr : reset = false → ∀ hm data h, bBfgsLoop p s nd (n + 1) true hm data ⟨h, fl⟩ =
      solveRes fl (bfgsLoop p s nd (n + 1) true hm data h).res (bfgsLoop p s nd (n + 1) true hm data h).heap)
    (hm : List (List F)) (data : List F) (h : Heap F) :
    bBfgsLoop p s nd (n + 1) reset hm data ⟨h, fl⟩ =
      solveRes fl (bfgsLoop p s nd (n + 1) reset hm data h).res (bfgsLoop p s nd (n + 1) reset hm data h).heap := by
  rw [bBfgsLoop.eq_def, bfgsLoop]
  refine bind_read (bGetLoss_eq fr.sh h s) ?_
  simp only [ite_apply_B]
  split
  · rfl
  · rw [bind_apply, bGetGradient_eq fr]
    cases getGradient h s with
    | error h' => rfl
    | ok x =>
      obtain ⟨gradient, h1⟩ := x
      simp only [toRes, ite_apply_B]
      split
      · rfl
      · split
        · rfl
        · split
          · rfl
          · rw [bind_apply, bLineSearch_eq fr]
            cases lineSearch h1 s (matVec (matNeg hm) gradient) gradient with
            | mk r h2 =>
              cases r with
              | panic => rfl
              | notDescent => rfl
              | searchFailed =>
                cases reset with
                | true => rfl
                | false => exact ihr rfl _ _ _
              | ok alpha =>
                simp only [lsRes]
                rw [bind_apply, bSetData_eq fr]
                cases setData h2 s (vadd data (vscale alpha (matVec (matNeg hm) gradient))) with
                | error h' => rfl
                | ok h3 =>
                  simp only [unitRes, Except.map, toRes]
                  rw [bind_apply, bGetGradient_eq fr]
                  cases getGradient h3 s with
                  | error h' => rfl
                  | ok x => exact ih _ _ _

theorem bBfgsLoop_eq (p : BFGSParams F) (s : Sketch) (nd : Nat) (n : Nat) : ∀ (reset : Bool) (hm : List (List F))
    (data : List F) (h : Heap F), bBfgsLoop p s nd n reset hm data ⟨h, fl⟩ =
      solveRes fl (bfgsLoop p s nd n reset hm data h).res (bfgsLoop p s nd n reset hm data h).heap := by
  induction n with
  | zero => intro reset hm data h; rw [bBfgsLoop, bfgsLoop]; rfl
  | succ n ih =>
    have ht := bBfgsLoop_step fr p s nd n true (ih false) (by simp)
    intro reset
    cases reset with
    | true => exact ht
    | false => exact bBfgsLoop_step fr p s nd n false (ih false) (fun _ => ht)

theorem bBfgsSolve_eq (p : BFGSParams F) (h : Heap F) (s : Sketch) :
    bBfgsSolve p s ⟨h, fl⟩ = solveRes fl (bfgsSolve p h s).res (bfgsSolve p h s).heap :=
  bind_read (bGetData_eq fr.sh h s) (bBfgsLoop_eq fr p s _ _ _ _ _ _)

theorem bNewtonLoop_eq (pinv : PInv F) (minLoss stepSize eps : F) (normal : Nat → List (List F) → List (List F))
    (s : Sketch) (n : Nat) : ∀ (lossSum : F) (h : Heap F),
    bNewtonLoop pinv minLoss stepSize eps normal s n lossSum ⟨h, fl⟩ =
      solveRes fl (newtonLoop pinv minLoss stepSize eps normal s n lossSum h).res
        (newtonLoop pinv minLoss stepSize eps normal s n lossSum h).heap := by
  induction n with
  | zero => intros; rfl
  | succ n ih =>
    intro lossSum h
    unfold bNewtonLoop newtonLoop
    simp only [ite_apply_B]
    split
    · refine bind_read (bGetData_eq fr.sh h s) (bind_read (bGetLossPerConstraint_eq fr.sh h s) ?_)
      rw [bind_apply, bGetJacobian_eq fr]
      cases getJacobian h s with
      | error h' => rfl
      | ok x =>
        obtain ⟨jac, h1⟩ := x
        simp only [toRes]
        cases pinv (normal (getData h s).length jac) eps with
        | panic => rfl
        | err => rfl
        | ok pi =>
          simp only
          rw [bind_apply, bSetData_eq fr]
          cases setData h1 s (vsub (getData h s) ((matVec (matMul jac.length pi
              (transpose (getData h s).length jac)) (getLossPerConstraint h s)).map (· * stepSize))) with
          | error h' => rfl
          | ok h2 => exact ih _ _
    · rfl

theorem bRunSolver_eq (pinv : PInv F) (k : SolverKind F) (h : Heap F) (s : Sketch) :
    bRunSolver pinv k s ⟨h, fl⟩ = solveRes fl (runSolver pinv k h s).res (runSolver pinv k h s).heap := by
  cases k with
  | gd p => exact bGdSolve_eq fr p h s
  | bfgs p => exact bBfgsSolve_eq fr p h s
  | gn p => exact bNewtonLoop_eq fr pinv _ _ _ _ s _ _ h
  | lm p => exact bNewtonLoop_eq fr pinv _ _ _ _ s _ _ h

end writes
end Isotope
