import Verif.Model.Borrow

/-!
# Lemmas on borrow flags

Each call of `Verif.Model.Borrow`, started with flags that allow it, ends with the same flags and the result of the
function it instruments.
-/

namespace Isotope
variable {F : Type}

/-- result of an uninstrumented function, with flags -/
def toRes {α : Type} (fl : Flags) : Except (Heap F) (α × Heap F) → Res F α
  | .ok (a, h) => .ok a ⟨h, fl⟩
  | .error h => .panic ⟨h, fl⟩

/-- the same for functions without a value -/
def unitRes (e : Except (Heap F) (Heap F)) : Except (Heap F) (Unit × Heap F) := e.map (fun h => ((), h))

/-- no primitive is exclusively borrowed -/
def PrimSh (fl : Flags) : Prop := ∀ p, 0 ≤ fl (.prim p)
/-- no primitive is borrowed -/
def PrimFree (fl : Flags) : Prop := ∀ p, fl (.prim p) = 0
/-- no point is borrowed -/
def PtsFree (fl : Flags) : Prop := ∀ p, fl (.prim (.point p)) = 0
/-- no cell is exclusively borrowed -/
def AllSh (fl : Flags) : Prop := ∀ c, 0 ≤ fl c
/-- no cell is borrowed -/
def AllFree (fl : Flags) : Prop := ∀ c, fl c = 0

theorem PrimFree.sh {fl : Flags} (a : PrimFree fl) : PrimSh fl := fun p => by rw [a p]; exact Int.le_refl 0
theorem PrimFree.pts {fl : Flags} (a : PrimFree fl) : PtsFree fl := fun _ => a _
theorem AllFree.prim {fl : Flags} (a : AllFree fl) : PrimFree fl := fun _ => a _
theorem AllFree.sh {fl : Flags} (a : AllFree fl) : AllSh fl := fun c => by rw [a c]; exact Int.le_refl 0
theorem AllSh.prim {fl : Flags} (a : AllSh fl) : PrimSh fl := fun _ => a _

theorem bump_bump (fl : Flags) (c : Cell) (d e : Int) (z : d + e = 0) : bump (bump fl c d) c e = fl := by
  funext c'
  unfold bump
  by_cases k : c' = c
  · simp only [k, if_true]; omega
  · simp only [k, if_false]

theorem bump_ge (fl : Flags) (c c' : Cell) : fl c' ≤ bump fl c 1 c' := by
  unfold bump
  split
  · omega
  · exact Int.le_refl _

theorem PrimSh.bump {fl : Flags} (a : PrimSh fl) (c : Cell) : PrimSh (bump fl c 1) :=
  fun p => Int.le_trans (a p) (bump_ge fl c _)
theorem AllSh.bump {fl : Flags} (a : AllSh fl) (c : Cell) : AllSh (bump fl c 1) :=
  fun p => Int.le_trans (a p) (bump_ge fl c _)
theorem PrimSh.bumpCons {fl : Flags} (a : PrimSh fl) (c : Nat) (d : Int) : PrimSh (Isotope.bump fl (.cons c) d) :=
  fun p => by unfold Isotope.bump; simpa using a p
theorem PrimFree.bumpCons {fl : Flags} (a : PrimFree fl) (c : Nat) (d : Int) : PrimFree (Isotope.bump fl (.cons c) d) :=
  fun p => by unfold Isotope.bump; simpa using a p
theorem PtsFree.bumpLine {fl : Flags} (a : PtsFree fl) (l : Nat) (d : Int) :
    PtsFree (Isotope.bump fl (.prim (.line l)) d) := fun p => by unfold Isotope.bump; simpa using a p
theorem PtsFree.bumpArc {fl : Flags} (a : PtsFree fl) (l : Nat) (d : Int) :
    PtsFree (Isotope.bump fl (.prim (.arc l)) d) := fun p => by unfold Isotope.bump; simpa using a p
theorem PtsFree.bumpCircle {fl : Flags} (a : PtsFree fl) (l : Nat) (d : Int) :
    PtsFree (Isotope.bump fl (.prim (.circle l)) d) := fun p => by unfold Isotope.bump; simpa using a p

theorem dropGuard_toRes {α : Type} (fl : Flags) (c : Cell) (d e : Int) (z : d + e = 0)
    (r : Except (Heap F) (α × Heap F)) : dropGuard c e (toRes (bump fl c d) r) = toRes fl r := by
  cases r with
  | error h => simp only [toRes, dropGuard, bump_bump fl c d e z]
  | ok x => simp only [toRes, dropGuard, bump_bump fl c d e z]

theorem withShared_eq {α : Type} {fl : Flags} {c : Cell} {body : B F α} {h : Heap F} {r : Except (Heap F) (α × Heap F)}
    (h0 : 0 ≤ fl c) (hb : body ⟨h, bump fl c 1⟩ = toRes (bump fl c 1) r) : withShared c body ⟨h, fl⟩ = toRes fl r := by
  unfold withShared
  rw [if_neg (by simpa using h0)]
  simp only [hb]
  exact dropGuard_toRes fl c 1 (-1) (by omega) r

theorem withExcl_eq {α : Type} {fl : Flags} {c : Cell} {body : B F α} {h : Heap F} {r : Except (Heap F) (α × Heap F)}
    (h0 : fl c = 0) (hb : body ⟨h, bump fl c (-1)⟩ = toRes (bump fl c (-1)) r) :
    withExcl c body ⟨h, fl⟩ = toRes fl r := by
  unfold withExcl
  rw [if_neg (by simpa using h0)]
  simp only [hb]
  exact dropGuard_toRes fl c (-1) 1 (by omega) r

/-- a shared borrow around a read -/
theorem withShared_read {α : Type} {fl : Flags} {c : Cell} {body : B F α} {h : Heap F} {v : α}
    (h0 : 0 ≤ fl c) (hb : body ⟨h, bump fl c 1⟩ = .ok v ⟨h, bump fl c 1⟩) :
    withShared c body ⟨h, fl⟩ = .ok v ⟨h, fl⟩ :=
  withShared_eq (r := .ok (v, h)) h0 hb

theorem bind_apply {α β : Type} (m : B F α) (k : α → B F β) (s : BSt F) :
    (m >>= k) s = (match m s with | .ok a s' => k a s' | .panic s' => .panic s' | .clash => .clash) := rfl
theorem pure_apply {α : Type} (a : α) (s : BSt F) : (pure a : B F α) s = .ok a s := rfl
theorem heapB_apply (s : BSt F) : (heapB : B F (Heap F)) s = .ok s.heap s := rfl
theorem ite_apply_B {α : Type} (c : Prop) [Decidable c] (a b : B F α) (s : BSt F) :
    (if c then a else b) s = if c then a s else b s := by split <;> rfl

theorem bind_toRes {α β : Type} {m : B F α} {k : α → B F β} {h : Heap F} {fl : Flags}
    {r : Except (Heap F) (α × Heap F)} {g : α → Heap F → Except (Heap F) (β × Heap F)}
    (hm : m ⟨h, fl⟩ = toRes fl r) (hk : ∀ a h', k a ⟨h', fl⟩ = toRes fl (g a h')) :
    (m >>= k) ⟨h, fl⟩ = toRes fl (r >>= fun x => g x.1 x.2) := by
  rw [bind_apply, hm]
  cases r with
  | error h' => rfl
  | ok x => exact hk x.1 x.2

theorem bind_unitRes {β : Type} {m : B F Unit} {k : Unit → B F β} {h : Heap F} {fl : Flags}
    {e : Except (Heap F) (Heap F)} {g : Heap F → Except (Heap F) (β × Heap F)}
    (hm : m ⟨h, fl⟩ = toRes fl (unitRes e)) (hk : ∀ h', k () ⟨h', fl⟩ = toRes fl (g h')) :
    (m >>= k) ⟨h, fl⟩ = toRes fl (e >>= g) := by
  rw [bind_apply, hm]
  cases e with
  | error h' => rfl
  | ok h' => exact hk h'

theorem bind_read {α β : Type} {m : B F α} {k : α → B F β} {h : Heap F} {fl : Flags} {v : α} {R : Res F β}
    (hm : m ⟨h, fl⟩ = .ok v ⟨h, fl⟩) (hk : k v ⟨h, fl⟩ = R) : (m >>= k) ⟨h, fl⟩ = R := by
  rw [bind_apply, hm]
  exact hk

theorem unitRes_bind (e : Except (Heap F) (Heap F)) (g : Heap F → Except (Heap F) (Heap F)) :
    (e >>= fun h => unitRes (g h)) = unitRes (e >>= g) := by
  cases e <;> rfl

theorem effB_eq (g : Heap F → Except (Heap F) (Heap F)) (h : Heap F) (fl : Flags) :
    effB g ⟨h, fl⟩ = toRes fl (unitRes (g h)) := by
  unfold effB
  cases k : g h <;> simp [unitRes, toRes, Except.map]

theorem assertB_eq (b : Bool) (h : Heap F) (fl : Flags) :
    (assertB b : B F Unit) ⟨h, fl⟩ = toRes fl (unitRes (if b then .ok h else .error h)) := by
  cases b <;> rfl

section
variable [Num F]

/-! ## Reads of primitives -/

section reads
variable {fl : Flags} (sh : PrimSh fl) (h : Heap F)
include sh

omit [Num F] in
theorem bPoint_eq (p : Nat) : bPoint p ⟨h, fl⟩ = .ok (ptData h p) ⟨h, fl⟩ := withShared_read (sh _) rfl
omit [Num F] in
theorem bPointX_eq (p : Nat) : bPointX p ⟨h, fl⟩ = .ok (ptData h p).x ⟨h, fl⟩ := withShared_read (sh _) rfl
omit [Num F] in
theorem bPointY_eq (p : Nat) : bPointY p ⟨h, fl⟩ = .ok (ptData h p).y ⟨h, fl⟩ := withShared_read (sh _) rfl
theorem bPointGradient_eq (p : Nat) : bPointGradient p ⟨h, fl⟩ = .ok pointGradient ⟨h, fl⟩ :=
  withShared_read (sh _) rfl
omit [Num F] in
theorem bLineStart_eq (l : Nat) : bLineStart l ⟨h, fl⟩ = .ok (lineStart h l) ⟨h, fl⟩ :=
  withShared_read (sh _) (bPoint_eq (sh.bump _) h _)
omit [Num F] in
theorem bLineEnd_eq (l : Nat) : bLineEnd l ⟨h, fl⟩ = .ok (lineEnd h l) ⟨h, fl⟩ :=
  withShared_read (sh _) (bPoint_eq (sh.bump _) h _)
theorem bLineStartGradient_eq (l : Nat) : bLineStartGradient l ⟨h, fl⟩ = .ok lineStartGradient ⟨h, fl⟩ :=
  withShared_read (sh _) rfl
theorem bLineEndGradient_eq (l : Nat) : bLineEndGradient l ⟨h, fl⟩ = .ok lineEndGradient ⟨h, fl⟩ :=
  withShared_read (sh _) rfl
theorem bArcStartPoint_eq (a : Arc F) : bArcStartPoint a ⟨h, fl⟩ = .ok (a.startPoint h) ⟨h, fl⟩ :=
  bind_read (bPointX_eq sh h _) (bind_read (bPointY_eq sh h _) rfl)
theorem bArcEndPoint_eq (a : Arc F) : bArcEndPoint a ⟨h, fl⟩ = .ok (a.endPoint h) ⟨h, fl⟩ :=
  bind_read (bPointX_eq sh h _) (bind_read (bPointY_eq sh h _) rfl)
theorem bArcStart_eq (a : Nat) : bArcStart a ⟨h, fl⟩ = .ok ((h.arcs a).startPoint h) ⟨h, fl⟩ :=
  withShared_read (sh _) (bArcStartPoint_eq (sh.bump _) h _)
theorem bArcEnd_eq (a : Nat) : bArcEnd a ⟨h, fl⟩ = .ok ((h.arcs a).endPoint h) ⟨h, fl⟩ :=
  withShared_read (sh _) (bArcEndPoint_eq (sh.bump _) h _)
theorem bArcStartGradient_eq (a : Nat) : bArcStartGradient a ⟨h, fl⟩ = .ok (h.arcs a).startPointGradient ⟨h, fl⟩ :=
  withShared_read (sh _) rfl
theorem bArcEndGradient_eq (a : Nat) : bArcEndGradient a ⟨h, fl⟩ = .ok (h.arcs a).endPointGradient ⟨h, fl⟩ :=
  withShared_read (sh _) rfl
omit [Num F] in
theorem bPrimData_eq (p : PrimCell) : bPrimData p ⟨h, fl⟩ = .ok (primData h p) ⟨h, fl⟩ := withShared_read (sh _) rfl
omit [Num F] in
theorem bPrimGrad_eq (p : PrimCell) : bPrimGrad p ⟨h, fl⟩ = .ok (primGrad h p) ⟨h, fl⟩ := withShared_read (sh _) rfl

theorem bCurrentAngle_eq (p1 p2 mid : Nat) :
    bCurrentAngle p1 p2 mid ⟨h, fl⟩ = .ok (currentAngle h p1 p2 mid) ⟨h, fl⟩ := by
  refine bind_read (bPoint_eq sh h _) (bind_read (bPoint_eq sh h _) (bind_read (bPoint_eq sh h _) ?_))
  simp only [currentAngle, ite_apply_B, pure_apply]
  split
  · rfl
  · split <;> rfl

theorem bLoss_eq (c : Constraint F) : bLoss c ⟨h, fl⟩ = .ok (lossValue h c) ⟨h, fl⟩ := by
  cases c with
  | angle p1 p2 mid d => exact bind_read (bCurrentAngle_eq sh h _ _ _) rfl
  | arcEnd a p => exact bind_read (bArcEnd_eq sh h _) (bind_read (bPoint_eq sh h _) rfl)
  | arcStart a p => exact bind_read (bArcStart_eq sh h _) (bind_read (bPoint_eq sh h _) rfl)
  | euclid p q d => exact bind_read (bPoint_eq sh h _) (bind_read (bPoint_eq sh h _) rfl)
  | horizDist p q d => exact bind_read (bPoint_eq sh h _) (bind_read (bPoint_eq sh h _) rfl)
  | vertDist p q d => exact bind_read (bPoint_eq sh h _) (bind_read (bPoint_eq sh h _) rfl)
  | fix p d => exact bind_read (bPoint_eq sh h _) rfl
  | eqLen l1 l2 =>
    exact bind_read (bLineStart_eq sh h _) (bind_read (bLineEnd_eq sh h _)
      (bind_read (bLineStart_eq sh h _) (bind_read (bLineEnd_eq sh h _) rfl)))
  | horizLine l => exact bind_read (bLineStart_eq sh h _) (bind_read (bLineEnd_eq sh h _) rfl)
  | vertLine l => exact bind_read (bLineStart_eq sh h _) (bind_read (bLineEnd_eq sh h _) rfl)
  | parallel l1 l2 =>
    refine bind_read (bLineStart_eq sh h _) (bind_read (bLineEnd_eq sh h _)
      (bind_read (bLineStart_eq sh h _) (bind_read (bLineEnd_eq sh h _) ?_)))
    simp only [lossValue, ite_apply_B, pure_apply]
    split <;> rfl
  | perp l1 l2 =>
    refine bind_read (bLineStart_eq sh h _) (bind_read (bLineEnd_eq sh h _)
      (bind_read (bLineStart_eq sh h _) (bind_read (bLineEnd_eq sh h _) ?_)))
    simp only [lossValue, ite_apply_B, pure_apply]
    split <;> rfl

end reads

/-! ## Writes of primitives -/

theorem bPointAdd_eq {fl : Flags} (fr : PtsFree fl) (h : Heap F) (p : Nat) (g : Vec2 F) :
    bPointAdd p g ⟨h, fl⟩ = toRes fl (unitRes (pointAddGrad h p g)) := withExcl_eq (fr p) (effB_eq _ _ _)

theorem bLineAdd_eq {fl : Flags} (fr : PrimFree fl) (h : Heap F) (l : Nat) (g : Row4 F) :
    bLineAdd l g ⟨h, fl⟩ = toRes fl (unitRes (lineAddGrad h l g)) := by
  refine withExcl_eq (fr _) ?_
  have fr' := fr.pts.bumpLine l (-1)
  rw [bind_unitRes (assertB_eq _ _ _) (fun h' => ?_)
    (g := fun h => unitRes (pointAddGrad h (h.lines l).start ⟨g.a0, g.a1⟩ >>= fun h1 =>
      pointAddGrad h1 (h1.lines l).stop ⟨g.a2, g.a3⟩))]
  · rw [unitRes_bind]
    unfold lineAddGrad
    by_cases k : g.allFinite = true
    · simp only [k, if_true]; rfl
    · simp only [k]; rfl
  · rw [← unitRes_bind]
    exact bind_read rfl (bind_unitRes (bPointAdd_eq fr' _ _ _) (fun h1 => bind_read rfl (bPointAdd_eq fr' _ _ _)))

theorem bArcAdd_eq {fl : Flags} (fr : PrimFree fl) (h : Heap F) (l : Nat) (g : Row5 F) :
    bArcAdd l g ⟨h, fl⟩ = toRes fl (unitRes (arcAddGrad h l g)) := by
  refine withExcl_eq (fr _) ?_
  have fr' := fr.pts.bumpArc l (-1)
  rw [bind_unitRes (assertB_eq _ _ _) (fun h' => ?_)
    (g := fun h => unitRes (pointAddGrad h (h.arcs l).center ⟨g.a0, g.a1⟩ >>= fun h1 =>
      .ok (h1.setArc l { h1.arcs l with grad := (h1.arcs l).grad + ⟨g.a2, g.a3, g.a4⟩ })))]
  · rw [unitRes_bind]
    unfold arcAddGrad
    by_cases k : g.allFinite = true
    · simp only [k, if_true]; rfl
    · simp only [k]; rfl
  · rw [← unitRes_bind]
    exact bind_read rfl (bind_unitRes (bPointAdd_eq fr' _ _ _) (fun h1 => effB_eq _ _ _))

theorem bCircleAdd_eq {fl : Flags} (fr : PrimFree fl) (h : Heap F) (l : Nat) (g : Row3 F) :
    bCircleAdd l g ⟨h, fl⟩ = toRes fl (unitRes (circleAddGrad h l g)) := by
  refine withExcl_eq (fr _) ?_
  have fr' := fr.pts.bumpCircle l (-1)
  rw [bind_unitRes (assertB_eq _ _ _) (fun h' => ?_)
    (g := fun h => unitRes (pointAddGrad h (h.circles l).center ⟨g.a0, g.a1⟩ >>= fun h1 =>
      .ok (h1.setCircle l { h1.circles l with grad := (h1.circles l).grad + g.a2 })))]
  · rw [unitRes_bind]
    unfold circleAddGrad
    by_cases k : g.allFinite = true
    · simp only [k, if_true]; rfl
    · simp only [k]; rfl
  · rw [← unitRes_bind]
    exact bind_read rfl (bind_unitRes (bPointAdd_eq fr' _ _ _) (fun h1 => effB_eq _ _ _))

theorem bPrimZero_eq {fl : Flags} (fr : PrimFree fl) (h : Heap F) (p : PrimCell) :
    bPrimZero p ⟨h, fl⟩ = .ok () ⟨primZeroGrad h p, fl⟩ :=
  withExcl_eq (r := .ok ((), primZeroGrad h p)) (fr p) (effB_eq _ _ _)

theorem bPrimSet_eq {fl : Flags} (fr : PrimFree fl) (h : Heap F) (p : PrimCell) (d : List F) :
    bPrimSet p d ⟨h, fl⟩ = toRes fl (unitRes (primSetData h p d)) := withExcl_eq (fr p) (effB_eq _ _ _)

/-! ## `update_gradient` -/

omit [Num F] in
/-- two effects in a row -/
theorem two_eff {m k : B F Unit} {fl : Flags} {h : Heap F} {e : Except (Heap F) (Heap F)}
    {g : Heap F → Except (Heap F) (Heap F)} (hm : m ⟨h, fl⟩ = toRes fl (unitRes e))
    (hk : ∀ h', k ⟨h', fl⟩ = toRes fl (unitRes (g h'))) :
    (m >>= fun _ => k) ⟨h, fl⟩ = toRes fl (unitRes (e >>= g)) := by
  rw [← unitRes_bind]
  exact bind_unitRes hm hk

theorem bTwoLineUpdate_eq {fl : Flags} (fr : PrimFree fl) (h : Heap F) (l1 l2 : Nat)
    (g1 g2 : Vec2 F → Vec2 F → Vec2 F) (e : Except (Heap F) (Heap F))
    (he : (let dir1 := lineEnd h l1 - lineStart h l1
           let n1 := dir1.normalize
           let dir2 := lineEnd h l2 - lineStart h l2
           let n2 := dir2.normalize
           if !Num.isFinite n1.x || !Num.isFinite n1.y || !Num.isFinite n2.x || !Num.isFinite n2.y then .ok h
           else
             lineAddGrad h l1 (((g1 n1 n2).mul22 (normalizeJacobian dir1)).mul24 (lineEndGradient - lineStartGradient))
             >>= fun h1 => lineAddGrad h1 l2
               (((g2 n1 n2).mul22 (normalizeJacobian dir2)).mul24 (lineEndGradient - lineStartGradient))) = e) :
    bTwoLineUpdate l1 l2 g1 g2 ⟨h, fl⟩ = toRes fl (unitRes e) := by
  have sh := fr.sh
  refine bind_read (bLineStart_eq sh h _) (bind_read (bLineEnd_eq sh h _)
    (bind_read (bLineStart_eq sh h _) (bind_read (bLineEnd_eq sh h _) ?_)))
  subst he
  simp only [ite_apply_B, pure_apply]
  split
  · rfl
  · refine bind_read (bLineStartGradient_eq sh h _) (bind_read (bLineEndGradient_eq sh h _)
      (bind_read (bLineStartGradient_eq sh h _) (bind_read (bLineEndGradient_eq sh h _) ?_)))
    exact two_eff (bLineAdd_eq fr _ _ _) (fun h' => bLineAdd_eq fr _ _ _)

theorem bAngleUpdate_eq {fl : Flags} (fr : PrimFree fl) (h : Heap F) (p1 p2 mid : Nat) (d : F) :
    bAngleUpdate p1 p2 mid d ⟨h, fl⟩ = toRes fl (unitRes (angleUpdate h p1 p2 mid d)) := by
  have sh := fr.sh
  refine bind_read (bPoint_eq sh h _) (bind_read (bPoint_eq sh h _) (bind_read (bPoint_eq sh h _) ?_))
  simp only [angleUpdate, ite_apply_B, pure_apply]
  split
  · rfl
  · split
    · rfl
    · refine bind_read (bPointGradient_eq sh h _) (bind_read (bPointGradient_eq sh h _)
        (bind_read (bPointGradient_eq sh h _) ?_))
      simp only [ite_apply_B, pure_apply]
      split
      · rfl
      · exact two_eff (bPointAdd_eq fr.pts _ _ _) (fun h' =>
          two_eff (bPointAdd_eq fr.pts _ _ _) (fun h' => bPointAdd_eq fr.pts _ _ _))

theorem bParallel_eq {fl : Flags} (fr : PrimFree fl) (h : Heap F) (l1 l2 : Nat) :
    bUpdate (.parallel l1 l2) ⟨h, fl⟩ = toRes fl (unitRes (parallelUpdate h l1 l2)) := by
  rw [bUpdate]
  refine bTwoLineUpdate_eq fr h l1 l2 _ _ _ ?_
  unfold parallelUpdate
  rfl

theorem bPerp_eq {fl : Flags} (fr : PrimFree fl) (h : Heap F) (l1 l2 : Nat) :
    bUpdate (.perp l1 l2) ⟨h, fl⟩ = toRes fl (unitRes (perpUpdate h l1 l2)) := by
  rw [bUpdate]
  refine bTwoLineUpdate_eq fr h l1 l2 _ _ _ ?_
  unfold perpUpdate
  rfl

theorem bUpdate_eq {fl : Flags} (fr : PrimFree fl) (h : Heap F) (c : Constraint F) :
    bUpdate c ⟨h, fl⟩ = toRes fl (unitRes (updateGradient h c)) := by
  have sh := fr.sh
  cases c with
  | angle p1 p2 mid d => exact bAngleUpdate_eq fr h _ _ _ _
  | arcEnd a p =>
    exact bind_read (bArcEnd_eq sh h _) (bind_read (bPoint_eq sh h _) (bind_read (bArcEndGradient_eq sh h _)
      (bind_read (bPointGradient_eq sh h _) (two_eff (bArcAdd_eq fr _ _ _) (fun h' => bPointAdd_eq fr.pts _ _ _)))))
  | arcStart a p =>
    exact bind_read (bArcStart_eq sh h _) (bind_read (bPoint_eq sh h _) (bind_read (bArcStartGradient_eq sh h _)
      (bind_read (bPointGradient_eq sh h _) (two_eff (bArcAdd_eq fr _ _ _) (fun h' => bPointAdd_eq fr.pts _ _ _)))))
  | euclid p q d =>
    refine bind_read (bPoint_eq sh h _) (bind_read (bPoint_eq sh h _) ?_)
    simp only [updateGradient, euclidUpdate, ite_apply_B, pure_apply]
    split
    · rfl
    · exact bind_read (bPointGradient_eq sh h _) (bind_read (bPointGradient_eq sh h _)
        (two_eff (bPointAdd_eq fr.pts _ _ _) (fun h' => bPointAdd_eq fr.pts _ _ _)))
  | horizDist p q d =>
    exact bind_read (bPoint_eq sh h _) (bind_read (bPoint_eq sh h _) (bind_read (bPointGradient_eq sh h _)
      (bind_read (bPointGradient_eq sh h _)
        (two_eff (bPointAdd_eq fr.pts _ _ _) (fun h' => bPointAdd_eq fr.pts _ _ _)))))
  | vertDist p q d =>
    exact bind_read (bPoint_eq sh h _) (bind_read (bPoint_eq sh h _) (bind_read (bPointGradient_eq sh h _)
      (bind_read (bPointGradient_eq sh h _)
        (two_eff (bPointAdd_eq fr.pts _ _ _) (fun h' => bPointAdd_eq fr.pts _ _ _)))))
  | fix p d => exact bind_read (bPoint_eq sh h _) (bPointAdd_eq fr.pts _ _ _)
  | eqLen l1 l2 =>
    exact bind_read (bLineStart_eq sh h _) (bind_read (bLineEnd_eq sh h _)
      (bind_read (bLineStart_eq sh h _) (bind_read (bLineEnd_eq sh h _)
      (bind_read (bLineStartGradient_eq sh h _) (bind_read (bLineEndGradient_eq sh h _)
      (bind_read (bLineStartGradient_eq sh h _) (bind_read (bLineEndGradient_eq sh h _)
        (two_eff (bLineAdd_eq fr _ _ _) (fun h' => bLineAdd_eq fr _ _ _)))))))))
  | horizLine l =>
    exact bind_read (bLineStart_eq sh h _) (bind_read (bLineEnd_eq sh h _)
      (bind_read (bLineStartGradient_eq sh h _) (bind_read (bLineEndGradient_eq sh h _)
        (two_eff (bLineAdd_eq fr _ _ _) (fun h' => bLineAdd_eq fr _ _ _)))))
  | vertLine l =>
    exact bind_read (bLineStart_eq sh h _) (bind_read (bLineEnd_eq sh h _)
      (bind_read (bLineStartGradient_eq sh h _) (bind_read (bLineEndGradient_eq sh h _)
        (two_eff (bLineAdd_eq fr _ _ _) (fun h' => bLineAdd_eq fr _ _ _)))))
  | parallel l1 l2 => exact bParallel_eq fr h l1 l2
  | perp l1 l2 => exact bPerp_eq fr h l1 l2

end
end Isotope
