import Verif.SpecSelf
import Verif.Lemmas.Frame

/-! # Gradients stay free of NaN (any arithmetic with `AddSelf`) -/

set_option linter.unusedSectionVars false

namespace Isotope
variable {F : Type} [Num F] [AddSelf F]

theorem setPointGrad_self {h : Heap F} (a : Nat) {g : Vec2 F} (hh : GradsSelf h) (gx : (g.x ==. g.x) = true)
    (gy : (g.y ==. g.y) = true) (p : Vec2 F) : GradsSelf (h.setPoint a ⟨p, g⟩) := by
  intro c x hx
  cases c with
  | point b =>
    simp only [primGrad, Heap.setPoint, upd_apply] at hx
    split at hx
    · simp only [List.mem_cons, List.not_mem_nil, or_false] at hx
      rcases hx with rfl | rfl <;> assumption
    · exact hh (.point b) x hx
  | line b => exact hh (.line b) x hx
  | arc b => exact hh (.arc b) x hx
  | circle b => exact hh (.circle b) x hx

theorem setArcGrad_self {h : Heap F} (a : Nat) {v : Arc F} (hh : GradsSelf h) (g0 : (v.grad.a0 ==. v.grad.a0) = true)
    (g1 : (v.grad.a1 ==. v.grad.a1) = true) (g2 : (v.grad.a2 ==. v.grad.a2) = true) : GradsSelf (h.setArc a v) := by
  intro c x hx
  cases c with
  | arc b =>
    simp only [primGrad, Heap.setArc, upd_apply] at hx
    split at hx
    · simp only [List.mem_cons, List.not_mem_nil, or_false] at hx
      rcases hx with rfl | rfl | rfl <;> assumption
    · exact hh (.arc b) x hx
  | line b => exact hh (.line b) x hx
  | point b => exact hh (.point b) x hx
  | circle b => exact hh (.circle b) x hx

theorem setCircleGrad_self {h : Heap F} (a : Nat) {v : Circle F} (hh : GradsSelf h) (g0 : (v.grad ==. v.grad) = true) :
    GradsSelf (h.setCircle a v) := by
  intro c x hx
  cases c with
  | circle b =>
    simp only [primGrad, Heap.setCircle, upd_apply] at hx
    split at hx
    · simp only [List.mem_cons, List.not_mem_nil, or_false] at hx
      rcases hx with rfl; assumption
    · exact hh (.circle b) x hx
  | line b => exact hh (.line b) x hx
  | point b => exact hh (.point b) x hx
  | arc b => exact hh (.arc b) x hx

theorem GradsSelf.px {h : Heap F} (hh : GradsSelf h) (a : Nat) : ((h.points a).grad.x ==. (h.points a).grad.x) = true :=
  hh (.point a) _ (by simp [primGrad])
theorem GradsSelf.py {h : Heap F} (hh : GradsSelf h) (a : Nat) : ((h.points a).grad.y ==. (h.points a).grad.y) = true :=
  hh (.point a) _ (by simp [primGrad])

theorem pointAddGrad_self (h : Heap F) (a : Nat) (g : Vec2 F) (hh : GradsSelf h) :
    Post (pointAddGrad h a g) GradsSelf := by
  unfold pointAddGrad
  split
  next hg =>
    simp only [Vec2.allFinite, Bool.and_eq_true] at hg
    exact setPointGrad_self a hh (AddSelf.add _ _ (hh.px a) hg.1) (AddSelf.add _ _ (hh.py a) hg.2) _
  · exact hh

theorem lineAddGrad_self (h : Heap F) (a : Nat) (g : Row4 F) (hh : GradsSelf h) :
    Post (lineAddGrad h a g) GradsSelf := by
  unfold lineAddGrad
  split
  · exact post_bind (pointAddGrad_self _ _ _ hh) fun h1 h1h => pointAddGrad_self _ _ _ h1h
  · exact hh

theorem arcAddGrad_self (h : Heap F) (a : Nat) (g : Row5 F) (hh : GradsSelf h) :
    Post (arcAddGrad h a g) GradsSelf := by
  unfold arcAddGrad
  split
  next hg =>
    simp only [Row5.allFinite, Bool.and_eq_true] at hg
    refine post_bind (pointAddGrad_self _ _ _ hh) fun h1 h1h => ?_
    refine setArcGrad_self a h1h ?_ ?_ ?_
    · exact AddSelf.add _ _ (h1h (.arc a) _ (by simp [primGrad])) hg.1.1.2
    · exact AddSelf.add _ _ (h1h (.arc a) _ (by simp [primGrad])) hg.1.2
    · exact AddSelf.add _ _ (h1h (.arc a) _ (by simp [primGrad])) hg.2
  · exact hh

theorem updateGradient_self (h : Heap F) (c : Constraint F) (hh : GradsSelf h) :
    Post (updateGradient h c) GradsSelf := by
  cases c with
  | angle p1 p2 mid d =>
    simp only [updateGradient, angleUpdate]
    split
    · exact hh
    split
    · exact hh
    split
    · exact hh
    exact post_bind (pointAddGrad_self _ _ _ hh) fun h1 h1h =>
      post_bind (pointAddGrad_self _ _ _ h1h) fun h2 h2h => pointAddGrad_self _ _ _ h2h
  | arcEnd a p =>
    exact post_bind (arcAddGrad_self _ _ _ hh) fun h1 h1h => pointAddGrad_self _ _ _ h1h
  | arcStart a p =>
    exact post_bind (arcAddGrad_self _ _ _ hh) fun h1 h1h => pointAddGrad_self _ _ _ h1h
  | euclid p1 p2 d =>
    simp only [updateGradient, euclidUpdate]
    split
    · exact hh
    exact post_bind (pointAddGrad_self _ _ _ hh) fun h1 h1h => pointAddGrad_self _ _ _ h1h
  | horizDist p1 p2 d =>
    exact post_bind (pointAddGrad_self _ _ _ hh) fun h1 h1h => pointAddGrad_self _ _ _ h1h
  | vertDist p1 p2 d =>
    exact post_bind (pointAddGrad_self _ _ _ hh) fun h1 h1h => pointAddGrad_self _ _ _ h1h
  | fix p d => exact pointAddGrad_self _ _ _ hh
  | eqLen l1 l2 =>
    exact post_bind (lineAddGrad_self _ _ _ hh) fun h1 h1h => lineAddGrad_self _ _ _ h1h
  | horizLine l =>
    exact post_bind (lineAddGrad_self _ _ _ hh) fun h1 h1h => lineAddGrad_self _ _ _ h1h
  | vertLine l =>
    exact post_bind (lineAddGrad_self _ _ _ hh) fun h1 h1h => lineAddGrad_self _ _ _ h1h
  | parallel l1 l2 =>
    simp only [updateGradient, parallelUpdate]
    split
    · exact hh
    exact post_bind (lineAddGrad_self _ _ _ hh) fun h1 h1h => lineAddGrad_self _ _ _ h1h
  | perp l1 l2 =>
    simp only [updateGradient, perpUpdate]
    split
    · exact hh
    exact post_bind (lineAddGrad_self _ _ _ hh) fun h1 h1h => lineAddGrad_self _ _ _ h1h

theorem primZeroGrad_self (h : Heap F) (c : PrimCell) (hh : GradsSelf h) : GradsSelf (primZeroGrad h c) := by
  cases c with
  | point a => exact setPointGrad_self a hh AddSelf.zero AddSelf.zero _
  | line a => exact hh
  | arc a => exact setArcGrad_self a hh AddSelf.zero AddSelf.zero AddSelf.zero
  | circle a => exact setCircleGrad_self a hh AddSelf.zero

theorem zeroGrads_self (h : Heap F) (s : Sketch) (hh : GradsSelf h) : GradsSelf (zeroGrads h s) := by
  unfold zeroGrads
  suffices ∀ (l : List (Nat × PrimCell)) (h1 : Heap F), GradsSelf h1 →
      GradsSelf (l.foldl (fun h kp => primZeroGrad h kp.2) h1) from this _ _ hh
  intro l
  induction l with
  | nil => intro h1 h1h; exact h1h
  | cons kp l ih => intro h1 h1h; exact ih _ (primZeroGrad_self _ _ h1h)

theorem updateAll_self (h : Heap F) (cs : List Nat) (hh : GradsSelf h) :
    Post (updateAll h cs) GradsSelf := by
  unfold updateAll
  induction cs generalizing h with
  | nil => exact hh
  | cons c cs ih =>
    rw [List.foldlM_cons]
    exact post_bind (updateGradient_self _ _ hh) fun h1 h1h => ih h1 h1h

theorem getGradient_self {h : Heap F} {s : Sketch} (hh : GradsSelf h) : GradsSelf (endHeap (getGradient h s)) := by
  have := updateAll_self _ s.cons (zeroGrads_self h s hh)
  unfold getGradient
  cases hu : updateAll (zeroGrads h s) s.cons with
  | error h' => rw [hu] at this; exact this
  | ok h' =>
    rw [hu] at this
    simp only
    cases collectGradient h' s with
    | none => exact this
    | some g => exact this

theorem jacobianRows_self (s : Sketch) (cs : List Nat) (h : Heap F) (hh : GradsSelf h) :
    GradsSelf (endHeap (jacobianRows s cs h)) := by
  induction cs generalizing h with
  | nil => exact hh
  | cons c cs ih =>
    unfold jacobianRows
    have h1h := zeroGrads_self h s hh
    have := updateGradient_self _ ((zeroGrads h s).cons c) h1h
    simp only
    cases hu : updateGradient (zeroGrads h s) ((zeroGrads h s).cons c) with
    | error h2 => rw [hu] at this; exact this
    | ok h2 =>
      rw [hu] at this
      have := ih h2 this
      simp only
      cases hj : jacobianRows s cs h2 with
      | error h3 => rw [hj] at this; exact this
      | ok r => rw [hj] at this; exact this

theorem getJacobian_self {h : Heap F} {s : Sketch} (hh : GradsSelf h) : GradsSelf (endHeap (getJacobian h s)) :=
  jacobianRows_self s s.cons h hh

/-! ## `set_data` -/

theorem DataOnly.self {s : Sketch} {h h' : Heap F} (d : DataOnly s h h') (hh : GradsSelf h) : GradsSelf h' := by
  intro c x hx
  rw [d.2.1] at hx
  exact hh c x hx

theorem primSetData_gself {h : Heap F} (c : PrimCell) (d : List F) (hh : GradsSelf h) : Post (primSetData h c d) GradsSelf := by
  have := primSetData_frame h c d
  intro c x hx
  rw [this.2.1] at hx
  exact hh c x hx

theorem setData_self {h : Heap F} {s : Sketch} (d : List F) (hh : GradsSelf h) : Post (setData h s d) GradsSelf :=
  DataOnly.self (setData_dataOnly h s d) hh

theorem setData_self_end {h : Heap F} {s : Sketch} {d : List F} {r : Except (Heap F) (Heap F)}
    (hh : GradsSelf h) (e : setData h s d = r) : GradsSelf (endHeap' r) := by
  have := setData_self (s := s) d hh; rw [e] at this; exact this

/-! ## Solvers and `check_gradients` -/

theorem lsLoop_self (s : Sketch) (dir x0 : List F) (loss m : F) (n : Nat) (alpha : F) (h : Heap F)
    (hh : GradsSelf h) : GradsSelf (lsLoop s dir x0 loss m n alpha h).2 := by
  induction n generalizing alpha h with
  | zero => exact hh
  | succ n ih =>
    unfold lsLoop
    have sd := setData_self (s := s) (vadd x0 (vscale alpha dir)) hh
    cases hs : setData h s (vadd x0 (vscale alpha dir)) with
    | error h' => rw [hs] at sd; exact sd
    | ok h1 =>
      rw [hs] at sd
      dsimp only
      split
      · have gg := getGradient_self (s := s) (show GradsSelf h1 from sd)
        cases hg : getGradient h1 s with
        | error h' => rw [hg] at gg; exact gg
        | ok r =>
          rw [hg] at gg
          dsimp only
          split
          · exact gg
          · exact ih _ _ gg
      · exact ih _ _ sd

theorem lineSearch_self' {h : Heap F} {s : Sketch} (dir g : List F) (hh : GradsSelf h) :
    GradsSelf (lineSearch h s dir g).2 := by
  unfold lineSearch
  dsimp only
  split
  · exact hh
  · exact lsLoop_self _ _ _ _ _ _ _ h hh

theorem gdLoop_self (p : GDParams F) (s : Sketch) (n : Nat) (h : Heap F) (g : List F) (gn loss : F)
    (hh : GradsSelf h) : GradsSelf (gdLoop p s n h g gn loss).heap := by
  induction n generalizing h g gn loss with
  | zero => exact hh
  | succ n ih =>
    unfold gdLoop
    split
    · exact hh
    split
    · exact hh
    dsimp only
    have ls := lineSearch_self' (s := s) (vneg g) g hh
    split
    next h' e => rw [e] at ls; exact ls
    next h' e => rw [e] at ls; exact ls
    next h' e => rw [e] at ls; exact ls
    next alpha h1 e =>
      rw [e] at ls
      have sd := setData_self (s := s) (axpy (getData h s) alpha (vneg g)) ls
      split
      next h' e2 => rw [e2] at sd; exact sd
      next h2 e2 =>
        rw [e2] at sd
        have gg := getGradient_self (s := s) sd
        split
        next h' e3 => rw [endHeap', e3] at gg; exact gg
        next g' h3 e3 => rw [endHeap', e3] at gg; exact ih _ _ _ _ gg

theorem gdSolve_self (p : GDParams F) (h : Heap F) (s : Sketch) (hh : GradsSelf h) : GradsSelf (gdSolve p h s).heap := by
  unfold gdSolve
  have gg := getGradient_self (s := s) hh
  split
  next h' e => rw [e] at gg; exact gg
  next g h1 e => rw [e] at gg; exact gdLoop_self _ _ _ _ _ _ _ gg

theorem bfgsLoop_self (p : BFGSParams F) (s : Sketch) (nd : Nat) (n : Nat) (reset : Bool) (hm : List (List F))
    (data : List F) (h : Heap F) (hh : GradsSelf h) :
    GradsSelf (bfgsLoop p s nd n reset hm data h).heap := by
  fun_induction bfgsLoop p s nd n reset hm data h with
  | case1 => exact hh
  | case2 => exact hh
  | case3 n reset hm data h hl h' e =>
    have gg := getGradient_self (s := s) hh; rw [e] at gg; exact gg
  | case4 n reset hm data h hl g h1 e =>
    have gg := getGradient_self (s := s) hh; rw [e] at gg; exact gg
  | case5 n reset hm data h hl g h1 e =>
    have gg := getGradient_self (s := s) hh; rw [e] at gg; exact gg
  | case6 n reset hm data h hl g h1 e =>
    have gg := getGradient_self (s := s) hh; rw [e] at gg; exact gg
  | case7 n reset hm data h hl g h1 e _ _ dir _ h' e2 =>
    have gg := getGradient_self (s := s) hh; rw [e] at gg
    have ls := lineSearch_self' (s := s) dir g gg; rw [endHeap, e2] at ls; exact ls
  | case8 n reset hm data h hl g h1 e _ _ dir _ h' e2 =>
    have gg := getGradient_self (s := s) hh; rw [e] at gg
    have ls := lineSearch_self' (s := s) dir g gg; rw [endHeap, e2] at ls; exact ls
  | case9 n hm data h hl g h1 e _ _ dir _ h' e2 =>
    have gg := getGradient_self (s := s) hh; rw [e] at gg
    have ls := lineSearch_self' (s := s) dir g gg; rw [endHeap, e2] at ls; exact ls
  | case10 n hm data h hl g h1 e _ _ dir _ h' e2 ih =>
    have gg := getGradient_self (s := s) hh; rw [e] at gg
    have ls := lineSearch_self' (s := s) dir g gg; rw [endHeap, e2] at ls; exact ih ls
  | case11 n reset hm data h hl g h1 e _ _ dir _ alpha h2 e2 st nd h' e3 =>
    have gg := getGradient_self (s := s) hh; rw [e] at gg
    have ls := lineSearch_self' (s := s) dir g gg; rw [endHeap, e2] at ls
    have sd := setData_self (s := s) nd ls; rw [e3] at sd; exact sd
  | case12 n reset hm data h hl g h1 e _ _ dir _ alpha h2 e2 st nd h3 e3 h' e4 =>
    have gg := getGradient_self (s := s) hh; rw [e] at gg
    have ls := lineSearch_self' (s := s) dir g gg; rw [endHeap, e2] at ls
    have sd := setData_self (s := s) nd ls; rw [e3] at sd
    have g2 := getGradient_self (s := s) sd; rw [endHeap', e4] at g2; exact g2
  | case13 n reset hm data h hl g h1 e _ _ dir _ alpha h2 e2 st nd h3 e3 g' h4 e4 y ih =>
    have gg := getGradient_self (s := s) hh; rw [e] at gg
    have ls := lineSearch_self' (s := s) dir g gg; rw [endHeap, e2] at ls
    have sd := setData_self (s := s) nd ls; rw [e3] at sd
    have g2 := getGradient_self (s := s) sd; rw [endHeap', e4] at g2; exact ih g2

theorem bfgsSolve_self (p : BFGSParams F) (h : Heap F) (s : Sketch) (hh : GradsSelf h) : GradsSelf (bfgsSolve p h s).heap :=
  bfgsLoop_self _ _ _ _ _ _ _ _ hh

theorem newtonLoop_self (pinv : PInv F) (a b c : F) (nrm : Nat → List (List F) → List (List F)) (s : Sketch) (n : Nat)
    (ls : F) (h : Heap F) (hh : GradsSelf h) :
    GradsSelf (newtonLoop pinv a b c nrm s n ls h).heap := by
  induction n generalizing ls h with
  | zero => exact hh
  | succ n ih =>
    unfold newtonLoop
    split
    · dsimp only
      have jj := getJacobian_self (s := s) hh
      split
      next h' e => rw [e] at jj; exact jj
      next jac h1 e =>
        rw [e] at jj
        split
        · exact jj
        · exact jj
        next pi e2 =>
          split
          next h' e3 => exact setData_self_end jj e3
          next h2 e3 => exact ih _ _ (setData_self_end jj e3)
    · exact hh

theorem runSolver_self (pinv : PInv F) (k : SolverKind F) (h : Heap F) (s : Sketch) (hh : GradsSelf h) :
    GradsSelf (runSolver pinv k h s).heap := by
  cases k with
  | gd p => exact gdSolve_self p h s hh
  | bfgs p => exact bfgsSolve_self p h s hh
  | gn p => exact newtonLoop_self _ _ _ _ _ _ _ _ _ hh
  | lm p => exact newtonLoop_self _ _ _ _ _ _ _ _ _ hh

theorem checkPrimLoop_self (c : Nat) (eps cl : F) (p : PrimCell) (orig : List F)
    (is : List Nat) (h : Heap F) (hh : GradsSelf h) :
    GradsSelf (endHeap (checkPrimLoop c eps cl p orig is h)) := by
  have key : ∀ (h : Heap F) d, GradsSelf h → Post (primSetData h p d) GradsSelf := by
    intro h d hh
    exact primSetData_gself p d hh
  induction is generalizing h with
  | nil => exact hh
  | cons i is ih =>
    unfold checkPrimLoop
    split
    next h' e => have := key h (orig.set i (orig.getD i 0.0 + eps)) hh; rw [e] at this; exact this
    next h1 e =>
      have k1 := key h (orig.set i (orig.getD i 0.0 + eps)) hh; rw [e] at k1
      dsimp only
      split
      next h' e2 => have := key h1 orig k1; rw [e2] at this; exact this
      next h2 e2 =>
        have k2 := key h1 orig k1; rw [e2] at k2
        have := ih h2 k2
        split
        next h' e3 => rw [e3] at this; exact this
        next g h3 e3 => rw [e3] at this; exact this

theorem checkPrims_self (c : Nat) (eps cl ce : F) (kps : List (Nat × PrimCell)) (h : Heap F) (hh : GradsSelf h) :
    Post (checkPrims c eps cl ce kps h) GradsSelf := by
  induction kps generalizing h with
  | nil => exact hh
  | cons kp kps ih =>
    unfold checkPrims
    dsimp only
    split
    · have := checkPrimLoop_self c eps cl kp.2 (primData h kp.2)
        (List.range (primData h kp.2).length) h hh
      split
      next h' e => rw [e] at this; exact this
      next g h1 e =>
        rw [e] at this
        split
        · exact ih _ this
        · exact this
    · exact hh

theorem checkGradients_self (h : Heap F) (s : Sketch) (eps : F) (c : Nat) (ce : F) (hh : GradsSelf h) :
    Post (checkGradients h s eps c ce) GradsSelf := by
  unfold checkGradients
  have gg := getGradient_self (s := s) hh
  split
  next h' e => rw [e] at gg; exact gg
  next g h1 e =>
    rw [e] at gg
    exact checkPrims_self c eps _ ce s.prims h1 gg


end Isotope
