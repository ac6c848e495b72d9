import Verif.Lemmas.Rename
import Verif.Props.Turn
import Verif.Props.MoveBy
import Verif.Props.Swap
import Verif.Props.Apart

/-!
# Symmetric sketches
-/

namespace Isotope
open XR

section
variable {F : Type} {R R' E E' : Heap F → Heap F → Prop} {M M' : List (List F) → List (List F) → Prop} {o o' o'' : SolveOut F}

theorem SameRun.flip (w : SameRun R E M o o') : SameRun (fun h h' => R h' h) (fun h h' => E h' h) (fun A A' => M A' A) o' o :=
  ⟨w.res.symm, fun e => w.heap (by rw [w.res]; exact e), fun e => w.panicked (by rw [w.res]; exact e), w.searches.symm, w.failed.symm,
    (List.Forall₂.flip w.steps).imp fun _ _ q => ⟨q.1, q.2.1.symm, q.2.2.1, q.2.2.2⟩⟩

theorem forall2_comp {α β γ : Type} {P : α → β → Prop} {Q : β → γ → Prop} {a : List α} {b : List β} {c : List γ} (x : List.Forall₂ P a b)
    (y : List.Forall₂ Q b c) : List.Forall₂ (fun u w => ∃ v, P u v ∧ Q v w) a c := by
  induction x generalizing c with
  | nil => cases y; exact .nil
  | cons hp _ ih => cases y with | cons hq y => exact .cons ⟨_, hp, hq⟩ (ih y)

theorem SameRun.comp (w : SameRun R E M o o') (w' : SameRun R' E' M' o' o'') :
    SameRun (fun h h'' => ∃ h', R h h' ∧ R' h' h'') (fun h h'' => ∃ h', E h h' ∧ E' h' h'') (fun A A'' => ∃ A', M A A' ∧ M' A' A'') o o'' := by
  refine ⟨w.res.trans w'.res, fun e => ⟨_, w.heap e, w'.heap (by rw [← w.res]; exact e)⟩,
    fun e => ⟨_, w.panicked e, w'.panicked (by rw [← w.res]; exact e)⟩, w.searches.trans w'.searches, w.failed.trans w'.failed,
    (forall2_comp w.steps w'.steps).imp ?_⟩
  rintro a b ⟨c, p, q⟩
  exact ⟨⟨_, p.1, q.1⟩, p.2.1.trans q.2.1, ⟨_, p.2.2.1, q.2.2.1⟩, ⟨_, p.2.2.2, q.2.2.2⟩⟩

end

variable {t : Turn} {tx ty : ℝ} {r : Renaming} {h : Heap XR} {s : Sketch}

theorem Symmetric.point_in (w : Symmetric t tx ty r h s) {a : Nat} (ha : .point a ∈ s.cells) : .point (r.point a) ∈ s.cells :=
  w.cells.mem_iff.1 (List.mem_map.2 ⟨_, ha, rfl⟩)
theorem Symmetric.line_in (w : Symmetric t tx ty r h s) {a : Nat} (ha : .line a ∈ s.cells) : .line (r.line a) ∈ s.cells :=
  w.cells.mem_iff.1 (List.mem_map.2 ⟨_, ha, rfl⟩)
theorem Symmetric.arc_in (w : Symmetric t tx ty r h s) {a : Nat} (ha : .arc a ∈ s.cells) : .arc (r.arc a) ∈ s.cells :=
  w.cells.mem_iff.1 (List.mem_map.2 ⟨_, ha, rfl⟩)
theorem Symmetric.circle_in (w : Symmetric t tx ty r h s) {a : Nat} (ha : .circle a ∈ s.cells) : .circle (r.circle a) ∈ s.cells :=
  w.cells.mem_iff.1 (List.mem_map.2 ⟨_, ha, rfl⟩)
theorem Symmetric.cons_in (w : Symmetric t tx ty r h s) {k : Nat} (hk : k ∈ s.cons) : r.cons k ∈ s.cons :=
  w.cons.mem_iff.1 (List.mem_map.2 ⟨_, hk, rfl⟩)

theorem Symmetric.point_of (w : Symmetric t tx ty r h s) {b : Nat} (hb : .point b ∈ s.cells) : ∃ a, .point a ∈ s.cells ∧ r.point a = b := by
  obtain ⟨c, hc, e⟩ := List.mem_map.1 (w.cells.mem_iff.2 hb)
  cases c <;> cases e
  exact ⟨_, hc, rfl⟩
theorem Symmetric.line_of (w : Symmetric t tx ty r h s) {b : Nat} (hb : .line b ∈ s.cells) : ∃ a, .line a ∈ s.cells ∧ r.line a = b := by
  obtain ⟨c, hc, e⟩ := List.mem_map.1 (w.cells.mem_iff.2 hb)
  cases c <;> cases e
  exact ⟨_, hc, rfl⟩
theorem Symmetric.arc_of (w : Symmetric t tx ty r h s) {b : Nat} (hb : .arc b ∈ s.cells) : ∃ a, .arc a ∈ s.cells ∧ r.arc a = b := by
  obtain ⟨c, hc, e⟩ := List.mem_map.1 (w.cells.mem_iff.2 hb)
  cases c <;> cases e
  exact ⟨_, hc, rfl⟩
theorem Symmetric.circle_of (w : Symmetric t tx ty r h s) {b : Nat} (hb : .circle b ∈ s.cells) :
    ∃ a, .circle a ∈ s.cells ∧ r.circle a = b := by
  obtain ⟨c, hc, e⟩ := List.mem_map.1 (w.cells.mem_iff.2 hb)
  cases c <;> cases e
  exact ⟨_, hc, rfl⟩
theorem Symmetric.cons_of (w : Symmetric t tx ty r h s) {b : Nat} (hb : b ∈ s.cons) : ∃ a, a ∈ s.cons ∧ r.cons a = b :=
  List.mem_map.1 (w.cons.mem_iff.2 hb)

/-- the image of everything -/
noncomputable def Heap.image (h : Heap XR) (t : Turn) (tx ty : ℝ) (r : Renaming) : Heap XR := (h.moved t tx ty).rename r

theorem Symmetric.restated (w : Symmetric t tx ty r h s) : Restated (h.image t tx ty r) (h.graft (h.image t tx ty r) s) := by
  have hp : ∀ a, (h.image t tx ty r).points (r.point a) = ⟨t.place tx ty (h.points a).data, (h.points a).grad⟩ := fun a => by
    simp [Heap.image, Heap.moved, Heap.turn, Heap.moveBy, Turn.place]
  have hl : ∀ a, (h.image t tx ty r).lines (r.line a) = ⟨r.point (h.lines a).start, r.point (h.lines a).stop⟩ := fun a => by
    simp [Heap.image, Heap.moved, Heap.turn, Heap.moveBy]
  have ha : ∀ a, (h.image t tx ty r).arcs (r.arc a) = ⟨r.point (h.arcs a).center,
      ⟨(h.arcs a).data.a0, t.dir (h.arcs a).data.a1, t.dir (h.arcs a).data.a2⟩, (h.arcs a).grad, (h.arcs a).clockwise ^^ t.mirror⟩ := fun a => by
    simp [Heap.image, Heap.moved, Heap.turn, Heap.moveBy]
  have hc : ∀ a, (h.image t tx ty r).circles (r.circle a) = ⟨r.point (h.circles a).center, (h.circles a).radius, (h.circles a).grad⟩ := fun a => by
    simp [Heap.image, Heap.moved, Heap.turn, Heap.moveBy]
  have hk : ∀ k, (h.image t tx ty r).cons (r.cons k) = (((h.cons k).turn t).moveBy tx ty).rename r := fun k => by
    simp [Heap.image, Heap.moved, Heap.turn, Heap.moveBy]
  generalize h.image t tx ty r = z at hp hl ha hc hk
  refine ⟨fun c => ?_, fun l => ?_, fun a => ?_, fun a => ?_, fun a => ?_, fun k => ?_⟩
  · by_cases hm : c ∈ s.cells
    · rw [graft_primData z hm]
      cases c with
      | point b => obtain ⟨a, h1, rfl⟩ := w.point_of hm; simp only [primData, hp, w.points a h1]
      | line b => rfl
      | arc b => obtain ⟨a, h1, rfl⟩ := w.arc_of hm; simp only [primData, ha, (w.arcs a h1).2.1]
      | circle b => obtain ⟨a, h1, rfl⟩ := w.circle_of hm; simp only [primData, hc, (w.circles a h1).2]
    · cases c <;> simp only [primData, Heap.graft, hm, if_false]
  · by_cases hm : .line l ∈ s.cells
    · rw [graft_lines z hm]
      obtain ⟨a, h1, rfl⟩ := w.line_of hm
      rw [hl]
      exact w.lines a h1
    · simp only [Heap.graft, hm, if_false, true_or]
  · by_cases hm : .arc a ∈ s.cells
    · rw [graft_arcs z hm]
      obtain ⟨b, h1, rfl⟩ := w.arc_of hm
      rw [ha]
      exact (w.arcs b h1).1
    · simp only [Heap.graft, hm, if_false]
  · by_cases hm : .arc a ∈ s.cells
    · rw [graft_arcs z hm]
      obtain ⟨b, h1, rfl⟩ := w.arc_of hm
      rw [ha]
      exact (w.arcs b h1).2.2
    · simp only [Heap.graft, hm, if_false]
  · by_cases hm : .circle a ∈ s.cells
    · rw [graft_circles z hm]
      obtain ⟨b, h1, rfl⟩ := w.circle_of hm
      rw [hc]
      exact (w.circles b h1).1
    · simp only [Heap.graft, hm, if_false]
  · by_cases hm : k ∈ s.cons
    · rw [graft_cons z hm]
      obtain ⟨b, h1, rfl⟩ := w.cons_of hm
      rw [hk]
      exact w.meaning b h1
    · simp only [Heap.graft, hm, if_false]
      exact .same _

theorem vec2_of_primData {h h' : Heap XR} {a b : Nat} (e : primData h' (.point a) = primData h (.point b)) :
    (h'.points a).data = (h.points b).data := by
  simp only [primData, List.cons.injEq, and_true] at e
  rcases hx : (h'.points a).data with ⟨u, v⟩
  rcases hy : (h.points b).data with ⟨u', v'⟩
  rw [hx, hy] at e
  simp only at e
  rw [e.1, e.2]

theorem row3_of_primData {h h' : Heap XR} {a b : Nat} (e : primData h' (.arc a) = primData h (.arc b)) :
    (h'.arcs a).data = (h.arcs b).data := by
  simp only [primData, List.cons.injEq, and_true] at e
  rcases hx : (h'.arcs a).data with ⟨u, v, x⟩
  rcases hy : (h.arcs b).data with ⟨u', v', x'⟩
  rw [hx, hy] at e
  simp only at e
  rw [e.1, e.2.1, e.2.2]

/-- If a heap goes over into its own objects by the motion, other names, other words and other gradients, it is symmetric. -/
theorem symmetric_of_chain {h1 h2 h3 h4 h5 hf : Heap XR} {h : Heap XR} (w : Symmetric t tx ty r h s) (g1 : GradOnly (hf.turn t) h1)
    (e2 : h2 = h1.moveBy tx ty) (e3 : h3 = h2.rename r) (g4 : Restated h3 h4) (g5 : GradOnly h4 h5) (g6 : SameObjects s hf h5) :
    Symmetric t tx ty r hf s := by
  subst e2 e3
  have pd : ∀ c, c ∈ s.cells → primData hf c = primData ((h1.moveBy tx ty).rename r) c := by
    intro c hc
    have : primData h5 c = primData hf c := by
      cases c with
      | point a => simp only [primData, g6.points a hc]
      | line a => rfl
      | arc a => simp only [primData, g6.arcs a hc]
      | circle a => simp only [primData, g6.circles a hc]
    rw [← this, g5.2, g4.data]
  have pd1 : ∀ c, primData h1 c = primData (hf.turn t) c := g1.2
  refine ⟨w.cells, w.cons, fun a ha => ?_, fun a ha => ?_, fun a ha => ?_, fun a ha => ?_, fun k hk => ?_⟩
  · have e := pd _ (w.point_in ha)
    have e1 := vec2_of_primData e
    rw [e1, rename_points]
    show (⟨(h1.points a).data.x + fin tx, (h1.points a).data.y + fin ty⟩ : Vec2 XR) = _
    rw [vec2_of_primData (pd1 (.point a))]
    rfl
  · have e := g6.lines _ (w.line_in ha)
    have e1 := g4.lines (r.line a)
    rw [← g5.1.lines, e, rename_lines] at e1
    simp only [moveBy_lines, g1.1.lines] at e1
    exact e1
  · have hi := w.arc_in ha
    have e := g6.arcs _ hi
    refine ⟨?_, ?_, ?_⟩
    · rw [← e, g5.1.arcCenter, g4.arcCenter, rename_arcs]
      simp only [moveBy_arcs, g1.1.arcCenter]
      rfl
    · rw [row3_of_primData (pd _ hi), rename_arcs]
      simp only [moveBy_arcs]
      rw [row3_of_primData (pd1 (.arc a))]
      rfl
    · rw [← e, g5.1.arcClockwise, g4.arcClockwise, rename_arcs]
      simp only [moveBy_arcs, g1.1.arcClockwise]
      rfl
  · have hi := w.circle_in ha
    have e := g6.circles _ hi
    refine ⟨?_, ?_⟩
    · rw [← e, g5.1.circleCenter, g4.circleCenter, rename_circles]
      simp only [moveBy_circles, g1.1.circleCenter]
      rfl
    · have e1 := pd _ hi
      simp only [primData, List.cons.injEq, and_true, rename_circles, moveBy_circles] at e1
      have e2 := pd1 (.circle a)
      simp only [primData, List.cons.injEq, and_true] at e2
      rw [e1, e2]
      rfl
  · have e := g4.cons (r.cons k)
    rw [← g5.1.cons, g6.cons _ (w.cons_in hk), rename_cons, moveBy_cons, g1.1.cons] at e
    exact e

/-- symmetric, with finite coordinates -/
def Sym (t : Turn) (tx ty : ℝ) (r : Renaming) (s : Sketch) (h : Heap XR) : Prop := Symmetric t tx ty r h s ∧ FiniteSketch h s

/-- at all stages of the run -/
def Throughout (P : Heap XR → Prop) (o : SolveOut XR) : Prop := (o.res ≠ .panic → P o.heap) ∧ ∀ st ∈ o.steps, P st.pre ∧ P st.post

theorem Throughout.imp {P Q : Heap XR → Prop} {o : SolveOut XR} (w : Throughout P o) (f : ∀ h, P h → Q h) : Throughout Q o :=
  ⟨fun e => f _ (w.1 e), fun st hst => ⟨f _ (w.2 st hst).1, f _ (w.2 st hst).2⟩⟩

/-- The runs of the image and of the sketch itself are put together. -/
theorem symmetric_run (w : Symmetric t tx ty r h s) (hc : Closed ⟨h, s⟩) (pinv : PInv XR) (k : SolverKind XR) {E1 E2 : Heap XR → Heap XR → Prop}
    {M1 M2 : List (List XR) → List (List XR) → Prop}
    (turned : SameRun (Turns t s) E1 M1 (runSolver pinv k h s) (runSolver pinv k (h.turn t) s))
    (order : ∀ h', SameRun GradOnly E2 M2 (runSolver pinv k h' (s.rename r)) (runSolver pinv k h' s)) :
    Throughout (Sym t tx ty r s) (runSolver pinv k h s) := by
  have a2 := C85_anywhere pinv k (h.turn t) s tx ty
  have a3 := run_rename r ((h.turn t).moveBy tx ty) s pinv k
  have a4 := C105_restated pinv k w.restated (s.rename r)
  have a5 := order (h.graft (h.image t tx ty r) s)
  have a6 := (C91_reads pinv k hc (sameObjects_graft (h.image t tx ty r) h)).flip
  have q := ((((turned.comp a2).comp a3).comp a4).comp a5).comp a6
  have key : ∀ h0, (∃ h5, (∃ h4, (∃ h3, (∃ h2, (∃ h1, Turns t s h0 h1 ∧ h2 = h1.moveBy tx ty) ∧ h3 = h2.rename r) ∧ Restated h3 h4) ∧
      GradOnly h4 h5) ∧ SameObjects s h0 h5) → Sym t tx ty r s h0 := by
    rintro h0 ⟨h5, ⟨h4, ⟨h3, ⟨h2, ⟨h1, g1, e2⟩, e3⟩, g4⟩, g5⟩, g6⟩
    exact ⟨symmetric_of_chain w g1.grad e2 e3 g4 g5 g6, g1.finite⟩
  refine ⟨fun e => key _ (q.heap e), fun st hst => ?_⟩
  have f := q.steps
  have := List.forall₂_same.1 f st hst
  exact ⟨key _ this.1, key _ this.2.2.1⟩

theorem Symmetric.nodup (w : Symmetric t tx ty r h s) (hn : s.cells.Nodup) : (s.rename r).cells.Nodup := by
  rw [rename_cells]; exact w.cells.nodup_iff.2 hn

theorem Symmetric.perm (w : Symmetric t tx ty r h s) : (s.rename r).cells.Perm s.cells := by
  rw [rename_cells]; exact w.cells

theorem Symmetric.dofs (w : Symmetric t tx ty r h s) (hd : getNDofs h s ≠ 0) : (s.rename r).dofs ≠ [] := by
  intro e
  apply hd
  rw [← getData_length, getData_dofs, List.length_map, ← (dofs_perm w.perm).length_eq, e]
  rfl

theorem sym_gd (w : Symmetric t tx ty r h s) (pinv : PInv XR) (p : GDParams XR) (hn : s.cells.Nodup) (hc : Closed ⟨h, s⟩)
    (hf : FiniteSketch h s) (ht : t.Square ∨ ∀ k ∈ s.cons, ¬(h.cons k).Directed) :
    Throughout (Sym t tx ty r s) (runSolver pinv (.gd p) h s) :=
  symmetric_run w hc pinv (.gd p) ((alike_turn hn).gd (M := fun A A' => A = [] ∧ A' = []) ⟨rfl, rfl⟩ p (turns_start (.refl _) hc hf ht))
    fun h' => C87_any_order pinv (.gd p) (.refl h') (w.nodup hn) w.perm w.cons (.inr (.inl ⟨p, rfl⟩))

theorem sym_bfgs (w : Symmetric t tx ty r h s) (ht : t.Square) (pinv : PInv XR) (p : BFGSParams XR) (hn : s.cells.Nodup) (hc : Closed ⟨h, s⟩)
    (hf : FiniteSketch h s) : Throughout (Sym t tx ty r s) (runSolver pinv (.bfgs p) h s) :=
  symmetric_run w hc pinv (.bfgs p) ((alikeM_turn hn ht).bfgs p (turns_start (.refl _) hc hf (.inl ht))
      (by rw [getData_dofs, List.length_map]) (by rw [getData_dofs, List.length_map]))
    fun h' => C87_any_order pinv (.bfgs p) (.refl h') (w.nodup hn) w.perm w.cons (.inr (.inr ⟨p, rfl⟩))

theorem sym_gn (w : Symmetric t tx ty r h s) {pinv : PInv XR} (hp : CutPInv pinv) (p : GNParams XR) {σ ε : ℝ} (hσ : p.stepSize = fin σ)
    (hε : p.pinvEps = fin ε) (h0 : 0 ≤ ε) (hd : getNDofs h s ≠ 0) (hn : s.cells.Nodup) (hc : Closed ⟨h, s⟩)
    (hf : FiniteSketch h s) (ht : t.Square ∨ ∀ k ∈ s.cons, ¬(h.cons k).Directed) :
    Throughout (Sym t tx ty r s) (runSolver pinv (.gn p) h s) := by
  have hd' : s.dofs ≠ [] := fun e => hd (by rw [← getData_length, getData_dofs, e]; rfl)
  have q := (alikeN_turn hn hp h0 hd' (t := t) turn_gn).newton (M := fun A A' => A = [] ∧ A' = []) ⟨rfl, rfl⟩ p.minLoss ⟨σ, rfl⟩
    p.maxIterations Num.inf (turns_start (.refl _) hc hf ht)
  rw [← hσ, ← hε] at q
  exact symmetric_run w hc pinv (.gn p) q fun h' => C87_gauss_newton hp p hε h0 (.refl h') (w.dofs hd) (w.nodup hn) w.perm w.cons

theorem sym_lm (w : Symmetric t tx ty r h s) {pinv : PInv XR} (hp : CutPInv pinv) (p : LMParams XR) {σ ε β : ℝ}
    (hσ : p.stepSize = fin σ) (hε : p.pinvEps = fin ε) (h0 : 0 ≤ ε) (hβ : p.beta = fin β) (h1 : 0 ≤ β) (hd : getNDofs h s ≠ 0)
    (hn : s.cells.Nodup) (hc : Closed ⟨h, s⟩) (hf : FiniteSketch h s) (ht : t.Square ∨ ∀ k ∈ s.cons, ¬(h.cons k).Directed) :
    Throughout (Sym t tx ty r s) (runSolver pinv (.lm p) h s) := by
  have hd' : s.dofs ≠ [] := fun e => hd (by rw [← getData_length, getData_dofs, e]; rfl)
  have q := (alikeN_turn hn hp h0 hd' (t := t) (turn_lm hn h1)).newton (M := fun A A' => A = [] ∧ A' = []) ⟨rfl, rfl⟩ p.minLoss ⟨σ, rfl⟩
    p.maxIterations Num.inf (turns_start (.refl _) hc hf ht)
  rw [← hσ, ← hε, ← hβ] at q
  exact symmetric_run w hc pinv (.lm p) q fun h' => C87_levenberg_marquardt hp p hε h0 hβ h1 (.refl h') (w.dofs hd) (w.nodup hn) w.perm w.cons

/-! ## Flat sketches -/

/-- mirroring in the line through `(u, v)` in the direction `θ`: the turn -/
noncomputable def mirrorTurn (θ : ℝ) : Turn := ⟨2 * θ, true⟩
/-- and the translation -/
noncomputable def mirrorX (θ u v : ℝ) : ℝ := u - (Real.cos (2 * θ) * u + Real.sin (2 * θ) * v)
noncomputable def mirrorY (θ u v : ℝ) : ℝ := v - (Real.sin (2 * θ) * u - Real.cos (2 * θ) * v)

/-- every object under its own name -/
def Renaming.id : Renaming := ⟨1, 1, 1, 1, 1⟩

theorem place_fin (t : Turn) (tx ty x y : ℝ) :
    t.place tx ty ⟨fin x, fin y⟩ = ⟨fin (t.c * x - t.e * t.s * y + tx), fin (t.s * x + t.e * t.c * y + ty)⟩ := by
  simp [Turn.place, Turn.vec]

theorem place_onLine {θ u v : ℝ} {d : Vec2 XR} (hd : OnLine θ u v d) :
    (mirrorTurn θ).place (mirrorX θ u v) (mirrorY θ u v) d = d := by
  obtain ⟨l, rfl⟩ := hd
  rw [place_fin]
  simp only [mirrorTurn, Turn.c, Turn.s, Turn.e, if_true, mirrorX, mirrorY]
  have e1 := Real.cos_two_mul θ
  have e2 := Real.sin_two_mul θ
  have e3 := Real.sin_sq_add_cos_sq θ
  rw [Vec2.mk.injEq, fin.injEq, fin.injEq, e1, e2]
  constructor
  · linear_combination (2 * l * Real.cos θ) * e3
  · linear_combination (2 * l * Real.sin θ) * e3 - (2 * l * Real.sin θ) * e3

theorem onLine_of_place {θ u v x y : ℝ}
    (e : (⟨fin x, fin y⟩ : Vec2 XR) = (mirrorTurn θ).place (mirrorX θ u v) (mirrorY θ u v) ⟨fin x, fin y⟩) : OnLine θ u v ⟨fin x, fin y⟩ := by
  rw [place_fin] at e
  simp only [mirrorTurn, Turn.c, Turn.s, Turn.e, if_true, mirrorX, mirrorY, Vec2.mk.injEq, fin.injEq] at e
  obtain ⟨ex, ey⟩ := e
  have e1 := Real.cos_two_mul θ
  have e2 := Real.sin_two_mul θ
  have e3 := Real.sin_sq_add_cos_sq θ
  rw [e1, e2] at ex ey
  refine ⟨(x - u) * Real.cos θ + (y - v) * Real.sin θ, ?_⟩
  rw [Vec2.mk.injEq, fin.injEq, fin.injEq]
  constructor
  · linear_combination ex / 2
  · linear_combination ey / 2 - (y - v) * e3

theorem FiniteSketch.point (hf : FiniteSketch h s) {a : Nat} (ha : .point a ∈ s.cells) : ∃ x y, (h.points a).data = ⟨fin x, fin y⟩ := by
  obtain ⟨f, e⟩ := hf.fn
  have ex := e (.px a) (mem_sketch_dofs.2 ha)
  have ey := e (.py a) (mem_sketch_dofs.2 ha)
  exact ⟨f (.px a), f (.py a), by
    rcases hx : (h.points a).data with ⟨x, y⟩
    simp only [val, hx] at ex ey
    rw [ex, ey]⟩

theorem fits_mirror {θ u v : ℝ} {c : Constraint XR} (hc : c.FitsLine θ u v) :
    (((c.turn (mirrorTurn θ)).moveBy (mirrorX θ u v) (mirrorY θ u v)).rename Renaming.id) = c := by
  have hid : ∀ c : Constraint XR, c.rename Renaming.id = c := fun c => by cases c <;> rfl
  rw [hid]
  have one : ∀ x : XR, fin 1 * x = x := fun x => by
    cases x <;> first | (simp only [mul_fin, one_mul]) | rfl | (show infOf 1 = _; simp [infOf]) | (show infOf (-1) = _; simp [infOf])
  have e1 := Real.cos_two_mul θ
  have e1' := Real.cos_two_mul' θ
  have e2 := Real.sin_two_mul θ
  have e3 := Real.sin_sq_add_cos_sq θ
  have hs : Real.sin θ = 0 ∨ Real.cos θ = 0 → (mirrorTurn θ).s = 0 := by
    rintro (e | e) <;> simp [mirrorTurn, Turn.s, e2, e]
  have c1 : Real.sin θ = 0 → (mirrorTurn θ).c = 1 := fun e => by
    rw [e] at e3
    show Real.cos (2 * θ) = 1
    rw [e1', e]; linarith
  have c2 : Real.cos θ = 0 → (mirrorTurn θ).c = -1 := fun e => by
    simp [mirrorTurn, Turn.c, e1, e]
  have ee : (mirrorTurn θ).e = -1 := rfl
  cases c with
  | fix p d =>
    show Constraint.fix p ((mirrorTurn θ).place _ _ d) = _
    rw [place_onLine hc]
  | horizDist p q d =>
    simp only [Constraint.FitsLine] at hc
    simp only [Constraint.turn, hs (hc.imp id And.left), if_true, Constraint.moveBy]
    rcases hc with e | ⟨e, rfl⟩
    · rw [c1 e, one]
    · rw [c2 e, mul_fin, mul_zero]
  | vertDist p q d =>
    simp only [Constraint.FitsLine] at hc
    simp only [Constraint.turn, hs (hc.symm.imp And.left id), if_true, Constraint.moveBy, ee]
    rcases hc with e | ⟨e, rfl⟩
    · rw [c2 e, neg_one_mul, neg_neg, one]
    · rw [mul_fin, mul_zero]
  | horizLine l => simp only [Constraint.FitsLine] at hc; simp only [Constraint.turn, hs hc, if_true, Constraint.moveBy]
  | vertLine l => simp only [Constraint.FitsLine] at hc; simp only [Constraint.turn, hs hc, if_true, Constraint.moveBy]
  | _ => rfl

theorem flat_symmetric {θ u v : ℝ} (w : Flat θ u v h s) (ha : ∀ a, .arc a ∉ s.cells) (hk : ∀ k ∈ s.cons, (h.cons k).FitsLine θ u v)
    : Symmetric (mirrorTurn θ) (mirrorX θ u v) (mirrorY θ u v) Renaming.id h s := by
  have hid : ∀ c : PrimCell, c.rename Renaming.id = c := fun c => by cases c <;> rfl
  refine ⟨?_, ?_, fun a hm => ?_, fun a _ => .inl rfl, fun a hm => absurd hm (ha a), fun a _ => ⟨rfl, rfl⟩, fun k hm => ?_⟩
  · rw [show PrimCell.rename Renaming.id = id from funext hid, List.map_id]
  · show (s.cons.map id).Perm s.cons
    rw [List.map_id]
  · exact (place_onLine (w a hm)).symm
  · rw [fits_mirror (hk k hm)]
    exact .same _

theorem symmetric_flat {θ u v : ℝ} {h : Heap XR} (w : Sym (mirrorTurn θ) (mirrorX θ u v) (mirrorY θ u v) Renaming.id s h) : Flat θ u v h s := by
  intro a ha
  obtain ⟨x, y, e⟩ := w.2.point ha
  have q : (h.points a).data = _ := w.1.points a ha
  rw [e] at q ⊢
  exact onLine_of_place q

/-- the turn suits the constraints -/
theorem fits_turn {θ u v : ℝ} (hk : ∀ k ∈ s.cons, (h.cons k).FitsLine θ u v) :
    (mirrorTurn θ).Square ∨ ∀ k ∈ s.cons, ¬(h.cons k).Directed := by
  by_cases e : (mirrorTurn θ).Square
  · exact .inl e
  · refine .inr fun k hm d => e (.inl ?_)
    have q := hk k hm
    have : Real.sin θ = 0 ∨ Real.cos θ = 0 := by
      generalize h.cons k = c at d q
      cases c <;> simp only [Constraint.Directed] at d <;> simp only [Constraint.FitsLine] at q <;> tauto
    rcases this with e | e <;> simp [mirrorTurn, Turn.s, Real.sin_two_mul, e]

end Isotope
