import Verif.Lemmas.NonFinite
import Verif.Props.Data
import Verif.Props.Loss

/-!
# Infinities and NaN in sketches (C68)

Constructors of points, arcs and circles and most setters accept any number.  What the rest of the library does with it, in
any arithmetic that satisfies `NonFiniteLaws` (exact arithmetic and binary64 do).
-/

set_option linter.unusedSectionVars false

namespace Isotope
variable {F : Type} [Num F] [L : NonFiniteLaws F]

/-! ## Constraints that compute with a non-finite number -/

/-- the numbers that constraints of the nine kinds without a finiteness test compute with; the desired distance of a Euclidean
distance is treated separately -/
def watched (h : Heap F) : Constraint F → List F
  | .fix p d => [(h.points p).data.x, (h.points p).data.y, d.x, d.y]
  | .horizDist p q d => [(h.points p).data.x, (h.points q).data.x, d]
  | .vertDist p q d => [(h.points p).data.y, (h.points q).data.y, d]
  | .euclid p q _ => [(h.points p).data.x, (h.points p).data.y, (h.points q).data.x, (h.points q).data.y]
  | .horizLine l => [(h.points (h.lines l).start).data.y, (h.points (h.lines l).stop).data.y]
  | .vertLine l => [(h.points (h.lines l).start).data.x, (h.points (h.lines l).stop).data.x]
  | .eqLen l m => [(h.points (h.lines l).start).data.x, (h.points (h.lines l).start).data.y,
      (h.points (h.lines l).stop).data.x, (h.points (h.lines l).stop).data.y,
      (h.points (h.lines m).start).data.x, (h.points (h.lines m).start).data.y,
      (h.points (h.lines m).stop).data.x, (h.points (h.lines m).stop).data.y]
  | .arcStart a p | .arcEnd a p => [(h.points (h.arcs a).center).data.x, (h.points (h.arcs a).center).data.y,
      (h.arcs a).data.a0, (h.points p).data.x, (h.points p).data.y]
  | .angle .. | .parallel .. | .perp .. => []

/-- the coordinates that the three kinds with finiteness tests compute with -/
def tested (h : Heap F) : Constraint F → List F
  | .angle p q m _ => [(h.points p).data.x, (h.points p).data.y, (h.points q).data.x, (h.points q).data.y,
      (h.points m).data.x, (h.points m).data.y]
  | .parallel l m | .perp l m => [(h.points (h.lines l).start).data.x, (h.points (h.lines l).start).data.y,
      (h.points (h.lines l).stop).data.x, (h.points (h.lines l).stop).data.y,
      (h.points (h.lines m).start).data.x, (h.points (h.lines m).start).data.y,
      (h.points (h.lines m).stop).data.x, (h.points (h.lines m).stop).data.y]
  | _ => []

theorem nf_sq {e : F} (h : NF e) : NF ((0.5 : F) * e * e) := h.mulr

theorem nfv_of_four {a b : Vec2 F} {x : F} (hx : NF x) (h : x = a.x ∨ x = a.y ∨ x = b.x ∨ x = b.y) : NFV (a - b) := by
  rcases h with rfl | rfl | rfl | rfl
  · exact .inl hx.subl
  · exact .inr hx.subl
  · exact .inl hx.subr
  · exact .inr hx.subr

theorem watched_bad (h : Heap F) (c : Constraint F) (x : F) (hm : x ∈ watched h c) (hx : NF x) :
    NF (lossValue h c) ∧ ∃ ch ∈ chunks h c, ch.finite = false := by
  cases c with
  | angle => simp [watched] at hm
  | parallel => simp [watched] at hm
  | perp => simp [watched] at hm
  | fix p d =>
    simp only [watched, List.mem_cons, List.not_mem_nil, or_false] at hm
    have : NFV (ptData h p - d) := nfv_of_four hx (by simpa [ptData] using hm)
    exact ⟨this.normSq.mulr, _, List.mem_singleton.2 rfl, this.allFinite⟩
  | horizDist p q d =>
    simp only [watched, List.mem_cons, List.not_mem_nil, or_false] at hm
    have : NF ((ptData h q - ptData h p).x - d) := by
      rcases hm with rfl | rfl | rfl
      · exact (NF.subr hx).subl
      · exact (NF.subl hx).subl
      · exact hx.subr
    refine ⟨nf_sq this, _, List.mem_cons_of_mem _ (List.mem_singleton.2 rfl), ?_⟩
    exact (NFV.mul22 (NF.smul this.mull) _).allFinite
  | vertDist p q d =>
    simp only [watched, List.mem_cons, List.not_mem_nil, or_false] at hm
    have : NF ((ptData h q - ptData h p).y - d) := by
      rcases hm with rfl | rfl | rfl
      · exact (NF.subr hx).subl
      · exact (NF.subl hx).subl
      · exact hx.subr
    refine ⟨nf_sq this, _, List.mem_cons_of_mem _ (List.mem_singleton.2 rfl), ?_⟩
    exact (NFV.mul22 (NF.smul this.mull) _).allFinite
  | euclid p q d =>
    simp only [watched, List.mem_cons, List.not_mem_nil, or_false] at hm
    have hd : NFV (ptData h p - ptData h q) := nfv_of_four hx (by simpa [ptData] using hm)
    refine ⟨nf_sq hd.norm.subl, ?_⟩
    simp only [chunks]
    rw [if_neg (by rw [hd.norm.not_lt (L.sqrt_nonneg _)]; decide)]
    exact ⟨_, List.mem_cons_self, (NFV.mul22 (NF.smul hd.norm.subl.mull) _).allFinite⟩
  | horizLine l =>
    simp only [watched, List.mem_cons, List.not_mem_nil, or_false] at hm
    have : NF ((lineEnd h l).y - (lineStart h l).y) := by
      rcases hm with rfl | rfl
      · exact NF.subr hx
      · exact NF.subl hx
    exact ⟨nf_sq this, _, List.mem_cons_of_mem _ (List.mem_singleton.2 rfl), NFV.mul24 (.inr this) _⟩
  | vertLine l =>
    simp only [watched, List.mem_cons, List.not_mem_nil, or_false] at hm
    have : NF ((lineEnd h l).x - (lineStart h l).x) := by
      rcases hm with rfl | rfl
      · exact NF.subr hx
      · exact NF.subl hx
    exact ⟨nf_sq this, _, List.mem_cons_of_mem _ (List.mem_singleton.2 rfl), NFV.mul24 (.inl this) _⟩
  | eqLen l m =>
    simp only [watched, List.mem_cons, List.not_mem_nil, or_false] at hm
    have : NF ((lineEnd h l - lineStart h l).norm - (lineEnd h m - lineStart h m).norm) := by
      by_cases h1 : x = (lineEnd h l).x ∨ x = (lineEnd h l).y ∨ x = (lineStart h l).x ∨ x = (lineStart h l).y
      · exact (nfv_of_four hx h1).norm.subl
      · refine (nfv_of_four hx (a := lineEnd h m) (b := lineStart h m) ?_).norm.subr
        simp only [lineEnd, lineStart, ptData] at h1 ⊢
        tauto
    exact ⟨nf_sq this, _, List.mem_cons_self, NFV.mul24 (NF.smul this) _⟩
  | arcStart a p =>
    simp only [watched, List.mem_cons, List.not_mem_nil, or_false] at hm
    have : NFV (⟨((h.arcs a).startPoint h).x - (ptData h p).x, ((h.arcs a).startPoint h).y - (ptData h p).y⟩ : Vec2 F) := by
      rcases hm with rfl | rfl | rfl | rfl | rfl
      · exact .inl (NF.subl (NF.addl hx))
      · exact .inr (NF.subl (NF.addl hx))
      · exact .inl (NF.subl (NF.addr (NF.mull hx)))
      · exact .inl (NF.subr hx)
      · exact .inr (NF.subr hx)
    exact ⟨NF.mulr (NFV.normSq this), _, List.mem_cons_self, this.mul25 _⟩
  | arcEnd a p =>
    simp only [watched, List.mem_cons, List.not_mem_nil, or_false] at hm
    have : NFV (⟨((h.arcs a).endPoint h).x - (ptData h p).x, ((h.arcs a).endPoint h).y - (ptData h p).y⟩ : Vec2 F) := by
      rcases hm with rfl | rfl | rfl | rfl | rfl
      · exact .inl (NF.subl (NF.addl hx))
      · exact .inr (NF.subl (NF.addl hx))
      · exact .inl (NF.subl (NF.addr (NF.mull hx)))
      · exact .inl (NF.subr hx)
      · exact .inr (NF.subr hx)
    exact ⟨NF.mulr (NFV.normSq this), _, List.mem_cons_self, this.mul25 _⟩

theorem getLoss_nf (h : Heap F) (s : Sketch) (k : Nat) (hk : k ∈ s.cons) (hx : NF (lossValue h (h.cons k))) :
    NF (getLoss h s) := by
  have key : ∀ (l : List Nat) (a : F), NF a ∨ k ∈ l → NF (l.foldl (fun loss c => loss + lossValue h (h.cons c)) a) := by
    intro l
    induction l with
    | nil => intro a ha; simpa using ha
    | cons c l ih =>
      intro a ha
      refine ih _ ?_
      rcases ha with ha | ha
      · exact .inl ha.addl
      · rcases List.mem_cons.1 ha with rfl | ha
        · exact .inl hx.addr
        · exact .inr ha
  exact key _ _ (.inr hk)

theorem getJacobian_panics {F : Type} [Num F] (h : Heap F) (s : Sketch) (k : Nat) (hk : k ∈ s.cons)
    (hb : ∃ ch ∈ chunks h (h.cons k), ch.finite = false) : ∃ h', getJacobian h s = .error h' := by
  have key : ∀ (cs : List Nat) (h1 : Heap F), GradOnly h h1 → k ∈ cs → ∃ h', jacobianRows s cs h1 = .error h' := by
    intro cs
    induction cs with
    | nil => intro _ _ hm; cases hm
    | cons c cs ih =>
      intro h1 g hm
      have z := g.trans (zeroGrads_gradOnly h1 s)
      have e1 : updateGradient (zeroGrads h1 s) ((zeroGrads h1 s).cons c) =
          (chunks h (h.cons c)).foldlM applyChunk (zeroGrads h1 s) := by
        rw [updateGradient_eq, z.1.cons, z.chunks]
      unfold jacobianRows
      dsimp only
      cases e : updateGradient (zeroGrads h1 s) ((zeroGrads h1 s).cons c) with
      | error h2 => exact ⟨h2, rfl⟩
      | ok h2 =>
        rcases List.mem_cons.1 hm with rfl | hm
        · exfalso
          obtain ⟨h', e'⟩ := foldChunks_panic _ hb (zeroGrads h1 s)
          rw [e1, e'] at e; cases e
        · have g2 : GradOnly h h2 := by
            have := foldChunks_gradOnly h (zeroGrads h1 s) (chunks h (h.cons c)) z
            rw [← e1, e] at this
            exact this
          obtain ⟨h', e'⟩ := ih h2 g2 hm
          exact ⟨h', by dsimp only; rw [e']⟩
  exact key s.cons h (GradOnly.refl h) hk

/-- **C68.** A constraint of one of the nine kinds without finiteness tests that computes with a non-finite number (a
coordinate, a radius, a desired value): its loss and the total loss are not finite, and `get_gradient` and `get_jacobian`
panic. -/
theorem C68_watched (h : Heap F) (s : Sketch) (k : Nat) (hk : k ∈ s.cons) (x : F) (hm : x ∈ watched h (h.cons k))
    (hx : Num.isFinite x = false) :
    Num.isFinite (lossValue h (h.cons k)) = false ∧ Num.isFinite (getLoss h s) = false ∧
    (∃ h', getGradient h s = .error h') ∧ ∃ h', getJacobian h s = .error h' :=
  have b := watched_bad h (h.cons k) x hm hx
  ⟨b.1, getLoss_nf h s k hk b.1, getGradient_panics h s k hk b.2, getJacobian_panics h s k hk b.2⟩

/-- **C68.** A Euclidean distance constraint with a non-finite desired distance: the losses are not finite; if the computed
distance is not below `1e-6`, `get_gradient` and `get_jacobian` panic, otherwise the constraint is silently ignored. -/
theorem C68_desired_distance (h : Heap F) (s : Sketch) (k : Nat) (hk : k ∈ s.cons) (p q : Nat) (d : F)
    (e : h.cons k = .euclid p q d) (hd : Num.isFinite d = false) :
    Num.isFinite (lossValue h (h.cons k)) = false ∧ Num.isFinite (getLoss h s) = false ∧
    ((((h.points p).data - (h.points q).data).norm <. (1e-6 : F)) = false →
      (∃ h', getGradient h s = .error h') ∧ ∃ h', getJacobian h s = .error h') ∧
    ((((h.points p).data - (h.points q).data).norm <. (1e-6 : F)) = true → updateGradient h (h.cons k) = .ok h) := by
  have hl : NF (lossValue h (h.cons k)) := by rw [e]; exact nf_sq (NF.subr hd)
  refine ⟨hl, getLoss_nf h s k hk hl, fun hn => ?_, fun hn => ?_⟩
  · have b : ∃ ch ∈ chunks h (h.cons k), ch.finite = false := by
      rw [e]
      simp only [chunks]
      rw [if_neg (by rw [show ((ptData h p - ptData h q).norm <. (1e-6 : F)) = false from hn]; decide)]
      exact ⟨_, List.mem_cons_self, (NFV.mul22 (NF.smul (NF.mull (NF.subr hd))) _).allFinite⟩
    exact ⟨getGradient_panics h s k hk b, getJacobian_panics h s k hk b⟩
  · rw [updateGradient_eq, e]
    simp only [chunks]
    rw [if_pos (show ((ptData h p - ptData h q).norm <. (1e-6 : F)) = true from hn)]
    rfl

/-- **C68.** An angle constraint with a non-finite desired angle: the losses are not finite; `get_gradient` and `get_jacobian`
panic, unless the constraint would be ignored with every desired angle. -/
theorem C68_desired_angle (h : Heap F) (s : Sketch) (k : Nat) (hk : k ∈ s.cons) (p q m : Nat) (d : F)
    (e : h.cons k = .angle p q m d) (hd : Num.isFinite d = false) :
    Num.isFinite (lossValue h (h.cons k)) = false ∧ Num.isFinite (getLoss h s) = false ∧
    ((∀ d' : F, updateGradient h (.angle p q m d') = .ok h) ∨
      (∃ h', getGradient h s = .error h') ∧ ∃ h', getJacobian h s = .error h') := by
  have hl : NF (lossValue h (h.cons k)) := by rw [e]; exact NF.mulr (NF.subr hd)
  refine ⟨hl, getLoss_nf h s k hk hl, ?_⟩
  have key : (∀ d' : F, chunks h (.angle p q m d') = []) ∨ ∃ ch ∈ chunks h (h.cons k), ch.finite = false := by
    rw [e]
    simp only [chunks]
    split_ifs
    · exact .inl fun _ => rfl
    · exact .inl fun _ => rfl
    · exact .inl fun _ => rfl
    · refine .inr ⟨_, List.mem_cons_self, ?_⟩
      exact (NFV.mul22 (.inl (NF.addl (NF.mull (NF.mull (NF.mull (NF.subr hd)))))) _).allFinite
  rcases key with key | key
  · exact .inl fun d' => by rw [updateGradient_eq, key d']; rfl
  · exact .inr ⟨getGradient_panics h s k hk key, getJacobian_panics h s k hk key⟩

/-! ## Constraints that look away -/

theorem tested_silent (h : Heap F) (c : Constraint F) (x : F) (hm : x ∈ tested h c) (hx : Num.isFinite x = false)
    (ha : ∀ y : F, Num.isFinite y = false → Num.isFinite (Num.acos y) = false) :
    chunks h c = [] ∧
    match c with
    | .angle _ _ _ d => lossValue h c = (0.5 : F) * ((0.0 : F) - d) * ((0.0 : F) - d)
    | _ => lossValue h c = (0.0 : F) := by
  have line : ∀ l : Nat, (x = (lineEnd h l).x ∨ x = (lineEnd h l).y ∨ x = (lineStart h l).x ∨ x = (lineStart h l).y) →
      NFV (lineEnd h l - lineStart h l).normalize := fun l hl => (nfv_of_four hx hl).normalize
  have two : ∀ l m : Nat, x ∈ tested h (.parallel l m) →
      (!Num.isFinite (lineEnd h l - lineStart h l).normalize.x || !Num.isFinite (lineEnd h l - lineStart h l).normalize.y ||
        !Num.isFinite (lineEnd h m - lineStart h m).normalize.x ||
        !Num.isFinite (lineEnd h m - lineStart h m).normalize.y) = true := by
    intro l m hm
    simp only [tested, List.mem_cons, List.not_mem_nil, or_false] at hm
    by_cases h1 : x = (lineEnd h l).x ∨ x = (lineEnd h l).y ∨ x = (lineStart h l).x ∨ x = (lineStart h l).y
    · rcases line l h1 with h2 | h2 <;> rw [show Num.isFinite _ = false from h2] <;> simp
    · have h2 : x = (lineEnd h m).x ∨ x = (lineEnd h m).y ∨ x = (lineStart h m).x ∨ x = (lineStart h m).y := by
        simp only [lineEnd, lineStart, ptData] at h1 ⊢
        tauto
      rcases line m h2 with h2 | h2 <;> rw [show Num.isFinite _ = false from h2] <;> simp
  cases c with
  | parallel l m =>
    constructor
    · simp only [chunks]
      rw [if_pos (two l m hm)]
    · simp only [lossValue]
      rw [if_pos (two l m hm)]
  | perp l m =>
    constructor
    · simp only [chunks]
      rw [if_pos (two l m hm)]
    · simp only [lossValue]
      rw [if_pos (two l m hm)]
  | angle p q m d =>
    simp only [tested, List.mem_cons, List.not_mem_nil, or_false] at hm
    have hv : NFV (ptData h p - ptData h m) ∨ NFV (ptData h q - ptData h m) := by
      by_cases h1 : x = (ptData h p).x ∨ x = (ptData h p).y ∨ x = (ptData h m).x ∨ x = (ptData h m).y
      · exact .inl (nfv_of_four hx h1)
      · refine .inr (nfv_of_four hx ?_)
        simp only [ptData] at h1 ⊢
        tauto
    have hn : NF ((ptData h p - ptData h m).dot (ptData h q - ptData h m)) := hv.elim NFV.dotl NFV.dotr
    have hm : NF ((ptData h p - ptData h m).norm * (ptData h q - ptData h m).norm) :=
      hv.elim (fun h => h.norm.mull) (fun h => h.norm.mulr)
    have nan := L.div _ _ hn hm
    have nf : NF ((ptData h p - ptData h m).dot (ptData h q - ptData h m) /
        ((ptData h p - ptData h m).norm * (ptData h q - ptData h m).norm)) :=
      nf_of (x := x) (fun e => absurd (L.eq _ e) (by rw [nan]; decide)) hx
    have hc : clamp ((ptData h p - ptData h m).dot (ptData h q - ptData h m) /
        ((ptData h p - ptData h m).norm * (ptData h q - ptData h m).norm)) (-1.0) (1.0 : F) =
        (ptData h p - ptData h m).dot (ptData h q - ptData h m) /
        ((ptData h p - ptData h m).norm * (ptData h q - ptData h m).norm) := by
      unfold clamp
      rw [(L.nan_lt _ _ nan).1, (L.nan_lt _ _ nan).2]
      rfl
    constructor
    · simp only [chunks]
      rw [hc, ha _ nf]
      simp only [Bool.not_false, if_true, ite_self]
    · simp only [lossValue, currentAngle]
      rw [show Num.isFinite _ = false from nf]
      simp only [Bool.not_false, if_true, ite_self]
  | _ => simp [tested] at hm

/-- **C68.** Parallel and perpendicular lines with a non-finite coordinate have loss zero, an angle with a non-finite coordinate
counts as the angle zero, and none of them contributes to gradients: the constraint is silently ignored.  (For angles `acos`
must not make a finite number out of NaN.) -/
theorem C68_tested (h : Heap F) (c : Constraint F) (x : F) (hm : x ∈ tested h c) (hx : Num.isFinite x = false)
    (ha : ∀ y : F, Num.isFinite y = false → Num.isFinite (Num.acos y) = false) :
    updateGradient h c = .ok h ∧
    match c with
    | .angle _ _ _ d => lossValue h c = (0.5 : F) * ((0.0 : F) - d) * ((0.0 : F) - d)
    | _ => lossValue h c = (0.0 : F) :=
  have t := tested_silent h c x hm hx ha
  ⟨by rw [updateGradient_eq, t.1]; rfl, t.2⟩

/-- **C68.** If every constraint of the sketch is of these kinds and has a non-finite coordinate, `get_gradient` succeeds and
reports that nothing needs to move. -/
theorem C68_all_tested (h : Heap F) (s : Sketch) (ha : ∀ y : F, Num.isFinite y = false → Num.isFinite (Num.acos y) = false)
    (hb : ∀ k ∈ s.cons, ∃ x ∈ tested h (h.cons k), Num.isFinite x = false) :
    ∃ h', getGradient h s = .ok (List.replicate (getNDofs h s) (0.0 : F), h') := by
  have hc : ∀ c : Constraint F, (∃ x ∈ tested h c, Num.isFinite x = false) → chunks h c = [] :=
    fun c ⟨x, hm, hx⟩ => (tested_silent h c x hm hx ha).1
  have e : s.cons.flatMap (fun c => chunks h (h.cons c)) = [] := by
    rw [List.flatMap_eq_nil_iff]
    exact fun k hk => hc _ (hb k hk)
  have hz : s.cells.flatMap (primGrad (zeroGrads h s)) = List.replicate (getNDofs h s) (0.0 : F) := by
    rw [getNDofs_eq, flatMap_congr_mem (g := fun c => List.replicate (primData h c).length (0.0 : F))
      (fun c hc => by rw [zeroGrads_grad, if_pos hc]; rfl)]
    generalize s.cells = l
    induction l with
    | nil => rfl
    | cons a l ih => rw [List.flatMap_cons, ih, List.flatMap_cons, List.length_append, List.replicate_add]
  refine ⟨zeroGrads h s, ?_⟩
  unfold getGradient
  rw [updateAll_eq h (zeroGrads h s) s.cons (zeroGrads_gradOnly h s), e]
  show (match collectGradient (zeroGrads h s) s with
    | none => Except.error (zeroGrads h s)
    | some g => .ok (g, zeroGrads h s)) = _
  rw [collectGradient_eq, hz, if_pos]
  rw [List.all_eq_true]
  intro x hx
  rw [List.eq_of_mem_replicate hx]
  exact L.zero

/-! ## Solvers -/

/-- BFGS, Gauss-Newton and Levenberg-Marquardt are allowed at least one iteration, and the last two have a `min_loss` below
infinity -/
def SolverKind.works : SolverKind F → Prop
  | .gd _ => True
  | .bfgs p => 0 < p.maxIterations
  | .gn p => 0 < p.maxIterations ∧ (p.minLoss <. (Num.inf : F)) = true
  | .lm p => 0 < p.maxIterations ∧ (p.minLoss <. (Num.inf : F)) = true

/-- **C68.** Then every solver panics before its first step, with coordinates, references and constraints as they were
(BFGS, Gauss-Newton, Levenberg-Marquardt: if any iteration is allowed; the last two: if `min_loss` is below infinity). -/
theorem C68_solvers (pinv : PInv F) (h : Heap F) (s : Sketch) (k : Nat) (hk : k ∈ s.cons) (x : F)
    (hm : x ∈ watched h (h.cons k)) (hx : Num.isFinite x = false) (hl : (getLoss h s <. (0.0 : F)) = false)
    (solver : SolverKind F)
    (hs : solver.works) :
    (runSolver pinv solver h s).res = .panic ∧ (runSolver pinv solver h s).steps = [] ∧
    GradOnly h (runSolver pinv solver h s).heap := by
  obtain ⟨-, b, ⟨h1, e1⟩, ⟨h2, e2⟩⟩ := C68_watched h s k hk x hm hx
  have g1 : GradOnly h h1 := by have := getGradient_gradOnly h s; rw [e1] at this; exact this
  have g2 : GradOnly h h2 := by have := getJacobian_gradOnly h s; rw [e2] at this; exact this
  have newton : ∀ (ml st ep : F) (normal : Nat → List (List F) → List (List F)) (n : Nat), 0 < n →
      (ml <. (Num.inf : F)) = true → newtonLoop pinv ml st ep normal s n Num.inf h = ⟨.panic, h2, [], 0, 0⟩ := by
    intro ml st ep normal n hn hml
    obtain ⟨n, rfl⟩ : ∃ m, n = m + 1 := ⟨n - 1, by omega⟩
    unfold newtonLoop
    rw [if_pos hml]
    simp only [e2]
  cases solver with
  | gd p =>
    have : runSolver pinv (.gd p) h s = ⟨.panic, h1, [], 0, 0⟩ := by
      simp only [runSolver, gdSolve, e1]
    rw [this]; exact ⟨rfl, rfl, g1⟩
  | bfgs p =>
    have : runSolver pinv (.bfgs p) h s = ⟨.panic, h1, [], 0, 0⟩ := by
      simp only [runSolver, bfgsSolve]
      obtain ⟨n, hn⟩ : ∃ m, p.maxIterations = m + 1 := ⟨p.maxIterations - 1, by have : 0 < p.maxIterations := hs; omega⟩
      rw [hn]
      unfold bfgsLoop
      rw [if_neg (by rw [NF.not_lt b hl]; decide)]
      simp only [e1]
    rw [this]; exact ⟨rfl, rfl, g1⟩
  | gn p =>
    have : runSolver pinv (.gn p) h s = ⟨.panic, h2, [], 0, 0⟩ := by
      simp only [runSolver, gnSolve]
      exact newton _ _ _ _ _ hs.1 hs.2
    rw [this]; exact ⟨rfl, rfl, g2⟩
  | lm p =>
    have : runSolver pinv (.lm p) h s = ⟨.panic, h2, [], 0, 0⟩ := by
      simp only [runSolver, lmSolve]
      exact newton _ _ _ _ _ hs.1 hs.2
    rw [this]; exact ⟨rfl, rfl, g2⟩

/-- **C68.** In binary64 the total loss is never negative, so the last hypothesis on the loss can be dropped. -/
theorem C68_solvers_binary64 {lm : Libm} (pinv : PInv (B64 lm)) (h : Heap (B64 lm)) (s : Sketch) (k : Nat) (hk : k ∈ s.cons)
    (x : B64 lm) (hm : x ∈ watched h (h.cons k)) (hx : Num.isFinite x = false) (solver : SolverKind (B64 lm))
    (hs : solver.works) :
    (runSolver pinv solver h s).res = .panic ∧ (runSolver pinv solver h s).steps = [] ∧
    GradOnly h (runSolver pinv solver h s).heap :=
  C68_solvers pinv h s k hk x hm hx (C61_total_nonneg h s) solver hs

/-! ## A non-finite number anywhere -/

theorem setData_poisoned (h h' : Heap F) (s : Sketch) (hn : s.cells.Nodup) (hx : ∃ x ∈ getData h s, NF x)
    (f : F → F → F) (hf : ∀ x y, NF x → NF (f x y)) (l : List F) (hg : getNDofs h' s = getNDofs h s) :
    ∃ h2, setData h' s (List.zipWith f (getData h s) l) = .error h2 := by
  cases e : setData h' s (List.zipWith f (getData h s) l) with
  | error h2 => exact ⟨h2, rfl⟩
  | ok h2 =>
    exfalso
    obtain ⟨h1, h2⟩ := (C14_ok_iff h' s hn _).1 ⟨h2, e⟩
    rw [List.length_zipWith, hg, getData_length] at h1
    obtain ⟨x, hx, hnf⟩ := hx
    obtain ⟨i, hi, rfl⟩ := List.getElem_of_mem hx
    have hil : i < l.length := by rw [getData_length] at hi; omega
    have := h2 (f (getData h s)[i] l[i]) (by
      rw [List.mem_iff_getElem]
      exact ⟨i, by rw [List.length_zipWith]; omega, by rw [List.getElem_zipWith]⟩)
    have h3 := hf (getData h s)[i] l[i] hnf
    unfold NF at h3
    rw [h3] at this
    cases this

theorem gradOnly_ndofs {h h' : Heap F} (g : GradOnly h h') (s : Sketch) : getNDofs h' s = getNDofs h s := by
  rw [← getData_length, ← getData_length, g.getData]

/-- **C68.** If any coordinate of the sketch is not finite, every line search panics (or finds that its direction does not
descend). -/
theorem C68_search (h : Heap F) (s : Sketch) (hn : s.cells.Nodup) (hx : ∃ x ∈ getData h s, Num.isFinite x = false)
    (direction gradient : List F) :
    lineSearch h s direction gradient = (.notDescent, h) ∨ ∃ h', lineSearch h s direction gradient = (.panic, h') := by
  unfold lineSearch
  dsimp only
  split_ifs
  · exact .inl rfl
  · right
    obtain ⟨h2, e⟩ := setData_poisoned h h s hn hx (· + ·) (fun _ _ => NF.addl) (vscale (1.0 : F) direction) rfl
    refine ⟨h2, ?_⟩
    show lsLoop s direction (getData h s) (getLoss h s) _ (14 + 1) (1.0 : F) h = _
    unfold lsLoop
    rw [show vadd (getData h s) (vscale (1.0 : F) direction) = List.zipWith (· + ·) (getData h s) (vscale (1.0 : F) direction)
      from rfl, e]

/-- **C68.** If any coordinate of the sketch is not finite, whether or not a constraint uses it (say the radius of a circle was
set to NaN), no solver ever makes a step: it panics, or it returns with all coordinates unchanged. -/
theorem C68_no_step (pinv : PInv F) (h : Heap F) (s : Sketch) (hn : s.cells.Nodup)
    (hx : ∃ x ∈ getData h s, Num.isFinite x = false) (solver : SolverKind F) :
    (runSolver pinv solver h s).steps = [] ∧
    ((runSolver pinv solver h s).res = .panic ∨ GradOnly h (runSolver pinv solver h s).heap) := by
  have newton : ∀ (ml st ep : F) (normal : Nat → List (List F) → List (List F)) (n : Nat) (l : F),
      (newtonLoop pinv ml st ep normal s n l h).steps = [] ∧
      ((newtonLoop pinv ml st ep normal s n l h).res = .panic ∨ GradOnly h (newtonLoop pinv ml st ep normal s n l h).heap) := by
    intro ml st ep normal n l
    cases n with
    | zero => exact ⟨rfl, .inr (GradOnly.refl h)⟩
    | succ n =>
      unfold newtonLoop
      split_ifs
      · dsimp only
        have g := getJacobian_gradOnly h s
        cases e : getJacobian h s with
        | error h1 => exact ⟨rfl, .inl rfl⟩
        | ok r =>
          rw [e] at g
          rcases r with ⟨jac, h1⟩
          dsimp only
          cases pinv (normal (getData h s).length jac) ep with
          | panic => exact ⟨rfl, .inl rfl⟩
          | err => exact ⟨rfl, .inr g⟩
          | ok pi =>
            dsimp only
            unfold vsub
            obtain ⟨h2, e2⟩ := setData_poisoned h h1 s hn hx (· - ·) (fun _ _ => NF.subl)
              ((matVec (matMul jac.length pi (transpose (getData h s).length jac)) (getLossPerConstraint h s)).map (· * st))
              (gradOnly_ndofs g s)
            rw [e2]
            exact ⟨rfl, .inl rfl⟩
      · exact ⟨rfl, .inr (GradOnly.refl h)⟩
  cases solver with
  | gn p => exact newton _ _ _ _ _ _
  | lm p => exact newton _ _ _ _ _ _
  | gd p =>
    simp only [runSolver, gdSolve]
    have g := getGradient_gradOnly h s
    cases e : getGradient h s with
    | error h1 => exact ⟨rfl, .inl rfl⟩
    | ok r =>
      rw [e] at g
      rcases r with ⟨gr, h1⟩
      have g' : GradOnly h h1 := g
      dsimp only
      cases p.maxIterations with
      | zero => exact ⟨rfl, .inr g'⟩
      | succ n =>
        unfold gdLoop
        split_ifs
        · exact ⟨rfl, .inr g'⟩
        · exact ⟨rfl, .inr g'⟩
        · dsimp only
          rcases C68_search h1 s hn (by rw [g'.getData]; exact hx) (vneg gr) gr with e | ⟨h2, e⟩
          · rw [e]; exact ⟨rfl, .inr g'⟩
          · rw [e]; exact ⟨rfl, .inl rfl⟩
  | bfgs p =>
    simp only [runSolver, bfgsSolve]
    cases p.maxIterations with
    | zero => unfold bfgsLoop; exact ⟨rfl, .inr (GradOnly.refl h)⟩
    | succ n =>
      unfold bfgsLoop
      split_ifs
      · exact ⟨rfl, .inr (GradOnly.refl h)⟩
      · have g := getGradient_gradOnly h s
        cases e : getGradient h s with
        | error h1 => exact ⟨rfl, .inl rfl⟩
        | ok r =>
          rw [e] at g
          rcases r with ⟨gr, h1⟩
          have g' : GradOnly h h1 := g
          dsimp only
          split_ifs
          · exact ⟨rfl, .inr g'⟩
          · exact ⟨rfl, .inr g'⟩
          · exact ⟨rfl, .inr g'⟩
          · rcases C68_search h1 s hn (by rw [g'.getData]; exact hx)
              (matVec (matNeg (identity (getData h s).length)) gr) gr with e | ⟨h2, e⟩
            · rw [e]; exact ⟨rfl, .inr g'⟩
            · rw [e]; exact ⟨rfl, .inl rfl⟩

/-! ## Examples -/

/-- a circle of radius NaN and a point that should be moved -/
noncomputable def nanHeap : Heap XR :=
  { (Heap.empty : Heap XR) with
    circles := fun _ => Circle.new 0 .nan
    cons := fun _ => .fix 0 ⟨.fin 1, .fin 2⟩
    nPoints := 1, nCircles := 1, nCons := 1 }

def nanSketch : Sketch := ⟨[(0, .point 0), (1, .circle 0)], 2, [0]⟩

/-- the point can not be moved, although the constraint has nothing to do with the circle -/
example (pinv : PInv XR) (solver : SolverKind XR) : (runSolver pinv solver nanHeap nanSketch).steps = [] :=
  (C68_no_step pinv nanHeap nanSketch (by simp [Sketch.cells, nanSketch])
    ⟨.nan, by rw [getData_eq]; simp [Sketch.cells, nanSketch, primData, nanHeap, Circle.new], rfl⟩ solver).1

/-- a point that should be at NaN -/
example (pinv : PInv XR) (p : BFGSParams XR) (hp : 0 < p.maxIterations) :
    (runSolver pinv (.bfgs p) { nanHeap with cons := fun _ => .fix 0 ⟨.nan, .fin 2⟩ } nanSketch).res = .panic :=
  (C68_solvers pinv _ nanSketch 0 (by simp [nanSketch]) .nan (by simp [watched]) rfl (C15_total_nonneg _ _) (.bfgs p) hp).1

/-- two parallel lines, one with an end point at infinity -/
example : ∃ h', getGradient { nanHeap with points := fun _ => Point2.new .pinf (.fin 0), cons := fun _ => .parallel 0 1 }
    nanSketch = .ok ([.fin 0, .fin 0, .fin 0], h') := by
  obtain ⟨h', e⟩ := C68_all_tested { nanHeap with points := fun _ => Point2.new .pinf (.fin 0), cons := fun _ => .parallel 0 1 }
    nanSketch (fun y hy => by cases y <;> first | rfl | exact Bool.noConfusion hy)
    (fun k _ => ⟨.pinf, by simp [tested, Point2.new], rfl⟩)
  refine ⟨h', e.trans ?_⟩
  have : getNDofs (F := XR) { nanHeap with points := fun _ => Point2.new .pinf (.fin 0), cons := fun _ => .parallel 0 1 }
      nanSketch = 3 := by simp [getNDofs, nanSketch, primData]
  have z : (0.0 : XR) = .fin 0 := by simp only [XR.sci]; norm_num
  rw [this, z]
  rfl

end Isotope
