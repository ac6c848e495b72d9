import Verif.Model.BorrowApi
import Verif.Lemmas.BorrowFaces
import Verif.XR

/-!
# C58: `RefCell` borrows never clash
-/

namespace Isotope
variable {F : Type} [Num F]

/-- what one instrumented call has to satisfy: no clash, same flags, same outcome as `step` -/
def StepOk (fl : Flags) (s : Sketch) (op : Op F) (r : Res F (Out F × Sketch)) (o : Out F × World F) : Prop :=
  match r with
  | .clash => False
  | .ok x st => o = (x.1, ⟨st.heap, x.2⟩) ∧ st.flags = fl
  | .panic st => o = (bplay.panicOut op, ⟨st.heap, s⟩) ∧ st.flags = fl

omit [Num F] in
theorem bAddNew_ok {fl : Flags} (fr : AllFree fl) (op : Op F) (h : Heap F) (s : Sketch) (g : Heap F → Nat × Heap F)
    (cell : Nat → PrimCell) :
    StepOk fl s op (bAddNew s g cell ⟨h, fl⟩)
      (match s.addPrimitive (g h).2 (cell (g h).1) with
        | (.error e, s') => (.err e, ⟨(g h).2, s'⟩)
        | (.ok _, s') => (.addr (g h).1, ⟨(g h).2, s'⟩)) := by
  unfold bAddNew
  rw [bind_apply]
  simp only [allocB]
  rw [bind_apply, bAddPrimitive_eq fr.sh]
  simp only
  cases s.addPrimitive (g h).2 (cell (g h).1) with
  | mk e s' => cases e <;> exact ⟨rfl, rfl⟩

theorem bConstrain_ok {fl : Flags} (fr : AllFree fl) (op : Op F) (hop : bplay.panicOut op = .panic) (h : Heap F)
    (s : Sketch) (c : Constraint F) :
    StepOk fl s op (bConstrain s c ⟨h, fl⟩) (constrain ⟨h, s⟩ c) := by
  unfold bConstrain constrain
  rw [bind_apply, assertB_eq]
  by_cases k : consNewOk c = true
  · simp only [k, if_true, unitRes, Except.map, toRes]
    rw [bind_apply]
    simp only [allocB]
    rw [bind_apply, bAddConstraint_eq fr.sh]
    simp only
    cases s.addConstraint (h.allocCons c).2 (h.allocCons c).1 with
    | mk e s' => cases e <;> exact ⟨rfl, rfl⟩
  · simp only [k, unitRes, Except.map, toRes]
    exact ⟨by rw [hop]; rfl, rfl⟩

theorem bstep_ok {fl : Flags} (fr : AllFree fl) (pinv : PInv F) (h : Heap F) (s : Sketch) (op : Op F) :
    StepOk fl s op (bstep pinv s op ⟨h, fl⟩) (step pinv ⟨h, s⟩ op) := by
  unfold bstep step
  rw [bind_apply, heapB_apply]
  simp only [ite_apply_B]
  by_cases hl : op.live ⟨h, s⟩ = true
  swap
  · simp only [hl]; exact ⟨rfl, rfl⟩
  simp only [hl, Bool.not_true, Bool.false_eq_true, if_false]
  cases op with
  | newPoint x y => exact ⟨rfl, rfl⟩
  | newLine a e => exact ⟨rfl, rfl⟩
  | newArc c r cw sa ea => exact ⟨rfl, rfl⟩
  | newCircle c r => exact ⟨rfl, rfl⟩
  | newCons c =>
    simp only
    rw [bind_apply, assertB_eq]
    by_cases k : consNewOk c = true
    · simp only [k, if_true]; exact ⟨rfl, rfl⟩
    · simp only [k]; exact ⟨rfl, rfl⟩
  | writePoint a p =>
    simp only
    rw [bind_apply, withExcl_eq (r := .ok ((), h.setPoint a p)) (fr _) (effB_eq _ h _)]
    exact ⟨rfl, rfl⟩
  | writeLine a p =>
    simp only
    rw [bind_apply, withExcl_eq (r := .ok ((), h.setLine a p)) (fr _) (effB_eq _ h _)]
    exact ⟨rfl, rfl⟩
  | writeArc a p =>
    simp only
    rw [bind_apply, withExcl_eq (r := .ok ((), h.setArc a p)) (fr _) (effB_eq _ h _)]
    exact ⟨rfl, rfl⟩
  | writeCircle a p =>
    simp only
    rw [bind_apply, withExcl_eq (r := .ok ((), h.setCircle a p)) (fr _) (effB_eq _ h _)]
    exact ⟨rfl, rfl⟩
  | writeCons a p =>
    simp only
    rw [bind_apply, withExcl_eq (r := .ok ((), h.setCons a p)) (fr _) (effB_eq _ h _)]
    exact ⟨rfl, rfl⟩
  | addPrimitive p =>
    simp only
    rw [bind_apply, bAddPrimitive_eq fr.sh]
    simp only
    cases s.addPrimitive h p with
    | mk e s' => cases e <;> exact ⟨rfl, rfl⟩
  | addPoint2 x y => exact bAddNew_ok fr _ h s _ _
  | addLine a e => exact bAddNew_ok fr _ h s _ _
  | addArc c r cw sa ea => exact bAddNew_ok fr _ h s _ _
  | addConstraint c =>
    simp only
    rw [bind_apply, bAddConstraint_eq fr.sh]
    simp only
    cases s.addConstraint h c with
    | mk e s' => cases e <;> exact ⟨rfl, rfl⟩
  | constrainPerpendicularLines l1 l2 => exact bConstrain_ok fr _ rfl h s _
  | constrainParallelLines l1 l2 => exact bConstrain_ok fr _ rfl h s _
  | constrainDistanceEuclidean p1 p2 d => exact bConstrain_ok fr _ rfl h s _
  | constrainFixPoint p pos => exact bConstrain_ok fr _ rfl h s _
  | constrainAngleBetweenPoints p1 p2 m a => exact bConstrain_ok fr _ rfl h s _
  | deletePrimitive id =>
    simp only
    cases s.deletePrimitive id with
    | mk e s' => cases e <;> exact ⟨rfl, rfl⟩
  | deleteConstraint c =>
    simp only
    cases s.deleteConstraint c with
    | mk e s' => cases e <;> exact ⟨rfl, rfl⟩
  | setData d =>
    simp only
    rw [bind_apply, bSetData_eq fr]
    cases setData h s d <;> exact ⟨rfl, rfl⟩
  | getGradient =>
    simp only
    rw [bind_apply, bGetGradient_eq fr]
    cases getGradient h s <;> exact ⟨rfl, rfl⟩
  | getJacobian =>
    simp only
    rw [bind_apply, bGetJacobian_eq fr]
    cases getJacobian h s <;> exact ⟨rfl, rfl⟩
  | checkGradients eps c ce =>
    simp only
    rw [bind_apply, bCheckGradients_eq fr]
    cases checkGradients h s eps c ce <;> exact ⟨rfl, rfl⟩
  | solve k =>
    simp only
    rw [bind_apply, bRunSolver_eq fr]
    cases hr : (runSolver pinv k h s).res <;> exact ⟨rfl, rfl⟩

/-- **C58**: queries need no more than that no cell is exclusively borrowed: whatever shared borrows the caller holds,
they do not clash, leave all borrows as they were, and return the value of the uninstrumented function. -/
theorem C58_queries (q : Query F) (h : Heap F) (s : Sketch) (fl : Flags) (sh : ∀ c, 0 ≤ fl c) :
    bask s q ⟨h, fl⟩ = .ok (ask h s q) ⟨h, fl⟩ ∨ (ask h s q = .panic ∧ bask s q ⟨h, fl⟩ = .panic ⟨h, fl⟩) := by
  have sh' : AllSh fl := sh
  cases q with
  | getNDofs => exact Or.inl (bind_read (bNDofs_eq sh' h s) rfl)
  | getData => exact Or.inl (bind_read (bGetData_eq sh' h s) rfl)
  | getLoss => exact Or.inl (bind_read (bGetLoss_eq sh' h s) rfl)
  | getLossPerConstraint => exact Or.inl (bind_read (bGetLossPerConstraint_eq sh' h s) rfl)
  | getAllPoints => exact Or.inl (bind_read (bGetAllPoints_eq sh' h s.prims) rfl)
  | getFaces g => exact Or.inl (bind_read (bGetFaces_eq sh'.prim h g s) rfl)
  | getMergedFaces g =>
    unfold bask ask
    simp only
    rw [bind_apply, bGetMergedFaces_eq sh'.prim h g s]
    cases getMergedFaces g h s with
    | none => exact Or.inr ⟨rfl, rfl⟩
    | some l => exact Or.inl rfl

/-- **C58**: a client that holds no borrow between its calls never meets a borrow panic, whatever it builds, however its
primitives and constraints alias each other, and even when it catches library panics; after every such program no cell
is borrowed, and results, sketch and heap are those of the model without borrow flags. -/
theorem C58_no_clash (pinv : PInv F) (acts : List (Act F)) (fl : Flags) (free : ∀ c, fl c = 0) (w : World F) :
    bplay pinv w.sketch ⟨w.heap, fl⟩ acts =
      some ((play pinv w acts).1, (play pinv w acts).2.sketch, ⟨(play pinv w acts).2.heap, fl⟩) := by
  induction acts generalizing w with
  | nil => rfl
  | cons a as ih =>
    cases a with
    | op o =>
      have hs := bstep_ok free pinv w.heap w.sketch o
      unfold bplay play
      unfold StepOk at hs
      cases hr : bstep pinv w.sketch o ⟨w.heap, fl⟩ with
      | clash => rw [hr] at hs; exact hs.elim
      | ok x st =>
        rw [hr] at hs
        obtain ⟨h1, h2⟩ := hs
        subst h2
        have := ih ⟨st.heap, x.2⟩
        simp only at this
        simp only [h1, this, Option.map_some]
      | panic st =>
        rw [hr] at hs
        obtain ⟨h1, h2⟩ := hs
        subst h2
        have := ih ⟨st.heap, w.sketch⟩
        simp only at this
        simp only [h1, this, Option.map_some]
    | query q =>
      unfold bplay play
      rcases C58_queries q w.heap w.sketch fl (fun c => by rw [free c]) with hq | ⟨hp, hq⟩
      · simp only [hq, ih w, Option.map_some]
      · simp only [hq, hp, ih w, Option.map_some]

/-- **C58**: the condition is needed: with any borrow of any primitive of the sketch alive, `get_gradient` panics in
`RefCell`. -/
theorem C58_guard_clash (h : Heap F) (s : Sketch) (fl : Flags) (held : ∃ kp ∈ s.prims, fl (.prim kp.2) ≠ 0) :
    bGetGradient s ⟨h, fl⟩ = .clash := by
  have key : ∀ (kps : List (Nat × PrimCell)) (h : Heap F), (∃ kp ∈ kps, fl (.prim kp.2) ≠ 0) →
      bZeroAll kps ⟨h, fl⟩ = .clash := by
    intro kps
    induction kps with
    | nil => rintro h ⟨kp, hk, _⟩; cases hk
    | cons kp kps ih =>
      rintro h ⟨kp', hk, hn⟩
      unfold bZeroAll
      rw [bind_apply]
      by_cases z : fl (.prim kp.2) = 0
      · have e : bPrimZero kp.2 ⟨h, fl⟩ = .ok () ⟨primZeroGrad h kp.2, fl⟩ :=
          withExcl_eq (r := .ok ((), primZeroGrad h kp.2)) z (effB_eq _ _ _)
        rw [e]
        rcases List.mem_cons.1 hk with rfl | hk
        · exact absurd z hn
        · exact ih _ ⟨kp', hk, hn⟩
      · have e : bPrimZero kp.2 ⟨h, fl⟩ = (.clash : Res F Unit) := by
          unfold bPrimZero withExcl
          rw [if_pos z]
        rw [e]
  unfold bGetGradient
  rw [bind_apply, key s.prims h held]

/-- The hypotheses of `C58_no_clash` at program start, for a program with aliasing: a line from a point to itself, a
parallelism constraint between that line and itself, a distance of a point to itself, then solver and queries. -/
noncomputable example (pinv : PInv XR) (g : Geo XR) :
    ∃ r, bplay pinv Sketch.new ⟨Heap.empty, fun _ => 0⟩
      [.op (.addPoint2 1.0 0.5), .op (.addLine 0 0), .op (.constrainParallelLines 0 0),
       .op (.constrainDistanceEuclidean 0 0 1.0), .op .getGradient, .query .getData, .op .getJacobian,
       .op (.solve (.bfgs .default)), .query (.getMergedFaces g)] = some r ∧ r.2.2.flags = fun _ => 0 :=
  ⟨_, C58_no_clash pinv _ (fun _ => 0) (fun _ => rfl) World.init, rfl⟩

/-- A shared guard on a point of the sketch is compatible with the queries but not with `get_gradient`. -/
example (h : Heap XR) :
    bask ⟨[(0, .point 0)], 1, []⟩ .getData ⟨h, fun c => if c = .prim (.point 0) then 1 else 0⟩ ≠ .clash ∧
    bGetGradient ⟨[(0, .point 0)], 1, []⟩ ⟨h, fun c => if c = .prim (.point 0) then 1 else 0⟩ = .clash := by
  constructor
  · intro e
    rcases C58_queries .getData h ⟨[(0, .point 0)], 1, []⟩ (fun c => if c = .prim (.point 0) then 1 else 0)
      (fun c => by by_cases k : c = .prim (.point 0) <;> simp [k]) with hq | ⟨_, hq⟩
    · rw [hq] at e; cases e
    · rw [hq] at e; cases e
  · exact C58_guard_clash h _ _ ⟨_, List.mem_singleton.2 rfl, by decide⟩

end Isotope
