import Verif.Lemmas.Chunk
import Verif.XR

/-!
# Exact evaluation of losses and contributions

Coordinates as a function `θ` on degrees of freedom (`Dof`), and closed forms of the losses and of the contributions to the
gradient over the reals.
-/

set_option linter.unusedSectionVars false

namespace Isotope

section vec
variable {F : Type} [Num F]
@[simp] theorem Vec2.add_x (a b : Vec2 F) : (a + b).x = a.x + b.x := rfl
@[simp] theorem Vec2.add_y (a b : Vec2 F) : (a + b).y = a.y + b.y := rfl
@[simp] theorem Vec2.sub_x (a b : Vec2 F) : (a - b).x = a.x - b.x := rfl
@[simp] theorem Vec2.sub_y (a b : Vec2 F) : (a - b).y = a.y - b.y := rfl
@[simp] theorem Vec2.neg_x (a : Vec2 F) : (-a).x = -a.x := rfl
@[simp] theorem Vec2.neg_y (a : Vec2 F) : (-a).y = -a.y := rfl
@[simp] theorem Row3.add_def (a b : Row3 F) : a + b = ⟨a.a0 + b.a0, a.a1 + b.a1, a.a2 + b.a2⟩ := rfl
@[simp] theorem Row4.sub_def (a b : Row4 F) : a - b = ⟨a.a0 - b.a0, a.a1 - b.a1, a.a2 - b.a2, a.a3 - b.a3⟩ := rfl
@[simp] theorem Mat2.sub_def {R : Type} [Sub R] (a b : Mat2 R) : a - b = ⟨a.r0 - b.r0, a.r1 - b.r1⟩ := rfl
end vec

/-- one degree of freedom: a coordinate of a point, radius/start/end of an arc, radius of a circle -/
inductive Dof where
  | px (a : Nat)
  | py (a : Nat)
  | ar (a : Nat)
  | as (a : Nat)
  | ae (a : Nat)
  | cr (a : Nat)
deriving DecidableEq

/-- the degrees of freedom of a primitive, in the order of its data vector -/
def dofs : PrimCell → List Dof
  | .point a => [.px a, .py a]
  | .line _ => []
  | .arc a => [.ar a, .as a, .ae a]
  | .circle a => [.cr a]

section gen
variable {F : Type} [Num F]

/-- the value of a degree of freedom -/
def val (h : Heap F) : Dof → F
  | .px a => (h.points a).data.x
  | .py a => (h.points a).data.y
  | .ar a => (h.arcs a).data.a0
  | .as a => (h.arcs a).data.a1
  | .ae a => (h.arcs a).data.a2
  | .cr a => (h.circles a).radius

/-- the stored gradient of a degree of freedom -/
def gr (h : Heap F) : Dof → F
  | .px a => (h.points a).grad.x
  | .py a => (h.points a).grad.y
  | .ar a => (h.arcs a).grad.a0
  | .as a => (h.arcs a).grad.a1
  | .ae a => (h.arcs a).grad.a2
  | .cr a => (h.circles a).grad

theorem primData_dofs (h : Heap F) (c : PrimCell) : primData h c = (dofs c).map (val h) := by cases c <;> rfl
theorem primGrad_dofs (h : Heap F) (c : PrimCell) : primGrad h c = (dofs c).map (gr h) := by cases c <;> rfl

/-- the degrees of freedom of a sketch, in the order of its data vector -/
def Sketch.dofs (s : Sketch) : List Dof := s.cells.flatMap Isotope.dofs

theorem getData_dofs (h : Heap F) (s : Sketch) : getData h s = s.dofs.map (val h) := by
  rw [getData_eq, Sketch.dofs, List.map_flatMap]; congr 1; funext c; exact primData_dofs h c

theorem dofs_owner {c c' : PrimCell} {d : Dof} (h : d ∈ dofs c) (h' : d ∈ dofs c') : c = c' := by
  cases c <;> cases c' <;> simp [dofs] at h h' <;> (try rcases h with rfl | rfl | rfl) <;> simp_all

theorem dofs_nodup (c : PrimCell) : (dofs c).Nodup := by cases c <;> simp [dofs]

theorem Sketch.dofs_nodup {s : Sketch} (hn : s.cells.Nodup) : s.dofs.Nodup := by
  unfold Sketch.dofs
  generalize s.cells = l at *
  induction l with
  | nil => simp
  | cons c cs ih =>
    rw [List.nodup_cons] at hn
    rw [List.flatMap_cons, List.nodup_append]
    refine ⟨Isotope.dofs_nodup c, ih hn.2, ?_⟩
    intro a ha b hb e
    subst e
    obtain ⟨c', hc', hd⟩ := List.mem_flatMap.1 hb
    exact hn.1 (dofs_owner ha hd ▸ hc')

/-- the primitive a degree of freedom belongs to -/
def Dof.owner : Dof → PrimCell
  | .px a => .point a
  | .py a => .point a
  | .ar a => .arc a
  | .as a => .arc a
  | .ae a => .arc a
  | .cr a => .circle a

theorem mem_dofs_owner (d : Dof) : d ∈ dofs d.owner := by cases d <;> simp [Dof.owner, dofs]

theorem mem_sketch_dofs {s : Sketch} {d : Dof} : d ∈ s.dofs ↔ d.owner ∈ s.cells := by
  unfold Sketch.dofs
  rw [List.mem_flatMap]
  exact ⟨fun ⟨c, hc, hd⟩ => dofs_owner hd (mem_dofs_owner d) ▸ hc, fun h => ⟨_, h, mem_dofs_owner d⟩⟩

/-- `GradOnly` in terms of degrees of freedom -/
theorem gradOnly_of_val {h h' : Heap F} (r : SameRefs h h') (hv : ∀ d, val h' d = val h d) : GradOnly h h' :=
  ⟨r, fun c => by rw [primData_dofs, primData_dofs]; exact List.map_congr_left fun d _ => hv d⟩

theorem GradOnly.val {h h' : Heap F} (g : GradOnly h h') (d : Dof) : val h' d = val h d := by
  have := g.2 d.owner
  rw [primData_dofs, primData_dofs] at this
  exact List.map_inj_left.1 this d (mem_dofs_owner d)

end gen

/-- `h` with all coordinates replaced by the real numbers `θ` -/
def Heap.withDofs (h : Heap XR) (θ : Dof → ℝ) : Heap XR :=
  { h with
    points := fun a => { h.points a with data := ⟨.fin (θ (.px a)), .fin (θ (.py a))⟩ }
    arcs := fun a => { h.arcs a with data := ⟨.fin (θ (.ar a)), .fin (θ (.as a)), .fin (θ (.ae a))⟩ }
    circles := fun a => { h.circles a with radius := .fin (θ (.cr a)) } }

theorem withDofs_sameRefs (h : Heap XR) (θ : Dof → ℝ) : SameRefs h (h.withDofs θ) :=
  ⟨rfl, rfl, fun _ => rfl, fun _ => rfl, fun _ => rfl, rfl, rfl, rfl, rfl, rfl⟩

@[simp] theorem val_withDofs (h : Heap XR) (θ : Dof → ℝ) (d : Dof) : val (h.withDofs θ) d = .fin (θ d) := by
  cases d <;> rfl

/-- the contribution of one `add_to_gradient` call to each degree of freedom -/
def Chunk.contrib (h : Heap XR) : Chunk XR → List (Dof × ℝ)
  | .point a g => [(.px a, g.x.toReal), (.py a, g.y.toReal)]
  | .line l g => [(.px (h.lines l).start, g.a0.toReal), (.py (h.lines l).start, g.a1.toReal),
      (.px (h.lines l).stop, g.a2.toReal), (.py (h.lines l).stop, g.a3.toReal)]
  | .arc a g => [(.px (h.arcs a).center, g.a0.toReal), (.py (h.arcs a).center, g.a1.toReal),
      (.ar a, g.a2.toReal), (.as a, g.a3.toReal), (.ae a, g.a4.toReal)]

/-- the total contribution to one degree of freedom -/
def total (l : List (Dof × ℝ)) (d : Dof) : ℝ := (l.map (fun e => if e.1 = d then e.2 else 0)).sum

@[simp] theorem total_nil (d : Dof) : total [] d = 0 := rfl
@[simp] theorem total_cons (e : Dof × ℝ) (l : List (Dof × ℝ)) (d : Dof) :
    total (e :: l) d = (if e.1 = d then e.2 else 0) + total l d := by simp [total]
@[simp] theorem total_append (l l' : List (Dof × ℝ)) (d : Dof) : total (l ++ l') d = total l d + total l' d := by
  simp [total]

theorem Chunk.contrib_congr {h h' : Heap XR} (g : GradOnly h h') (k : Chunk XR) : k.contrib h' = k.contrib h := by
  cases k <;> simp [Chunk.contrib, g.1.lines, g.1.arcCenter]

theorem pointAddGrad_gr {h : Heap XR} {a : Nat} {g : Vec2 XR} (hf : g.allFinite = true) :
    ∃ h', pointAddGrad h a g = .ok h' ∧ ∀ d, gr h' d =
      if d = .px a then gr h d + g.x else if d = .py a then gr h d + g.y else gr h d := by
  refine ⟨_, by unfold pointAddGrad; rw [if_pos hf], fun d => ?_⟩
  cases d with
  | px b =>
    by_cases e : b = a
    · subst e; simp [gr, Heap.setPoint]
    · simp [gr, Heap.setPoint, upd_other _ _ e, e]
  | py b =>
    by_cases e : b = a
    · subst e; simp [gr, Heap.setPoint]
    · simp [gr, Heap.setPoint, upd_other _ _ e, e]
  | _ => simp [gr, Heap.setPoint]

/-- One contribution in exact arithmetic: it is accepted iff finite, and then adds to exactly its degrees of freedom. -/
theorem applyChunk_exact (h : Heap XR) (k : Chunk XR) :
    (k.finite = true → ∃ h', applyChunk h k = .ok h' ∧
      ∀ d r, gr h d = .fin r → gr h' d = .fin (r + total (k.contrib h) d)) ∧
    (k.finite = false → applyChunk h k = .error h) := by
  cases k with
  | point a g =>
    constructor
    · intro hf
      obtain ⟨h', e, hd⟩ := pointAddGrad_gr (h := h) (a := a) hf
      refine ⟨h', e, fun d r hr => ?_⟩
      simp only [Chunk.finite, Vec2.allFinite, Bool.and_eq_true] at hf
      obtain ⟨r0, rfl0⟩ := (XR.isFinite_iff _).1 hf.1
      obtain ⟨r1, rfl1⟩ := (XR.isFinite_iff _).1 hf.2
      rw [hd, hr]
      by_cases e1 : d = .px a
      · subst e1; simp [Chunk.contrib, rfl0]
      · by_cases e2 : d = .py a
        · subst e2; simp [Chunk.contrib, rfl1]
        · simp [e1, e2, Chunk.contrib, Ne.symm e1, Ne.symm e2]
    · intro hf
      simp only [Chunk.finite] at hf
      simp [applyChunk, pointAddGrad, hf]
  | line l g =>
    constructor
    · intro hf
      have hf' := hf
      simp only [Chunk.finite, Row4.allFinite, Bool.and_eq_true] at hf
      obtain ⟨⟨⟨f0, f1⟩, f2⟩, f3⟩ := hf
      obtain ⟨h1, e1, hd1⟩ := pointAddGrad_gr (h := h) (a := (h.lines l).start) (g := ⟨g.a0, g.a1⟩)
        (by simp [Vec2.allFinite, f0, f1])
      have hl : h1.lines = h.lines := by
        have := pointAddGrad_gradOnly h h (h.lines l).start ⟨g.a0, g.a1⟩ (.refl h)
        rw [e1] at this; exact this.1.lines
      obtain ⟨h2, e2, hd2⟩ := pointAddGrad_gr (h := h1) (a := (h.lines l).stop) (g := ⟨g.a2, g.a3⟩)
        (by simp [Vec2.allFinite, f2, f3])
      obtain ⟨r0, rfl0⟩ := (XR.isFinite_iff _).1 f0
      obtain ⟨r1, rfl1⟩ := (XR.isFinite_iff _).1 f1
      obtain ⟨r2, rfl2⟩ := (XR.isFinite_iff _).1 f2
      obtain ⟨r3, rfl3⟩ := (XR.isFinite_iff _).1 f3
      refine ⟨h2, ?_, fun d r hr => ?_⟩
      · simp only [Chunk.finite] at hf'
        simp only [applyChunk, lineAddGrad, hf', if_true]
        rw [e1]; show pointAddGrad h1 (h1.lines l).stop ⟨g.a2, g.a3⟩ = _; rw [hl]; exact e2
      · rw [hd2, hd1]
        simp only [Chunk.contrib, total_cons, total_nil, rfl0, rfl1, rfl2, rfl3, hr, XR.toReal_fin]
        cases d <;> simp only [Dof.px.injEq, Dof.py.injEq, reduceCtorEq, if_false, eq_comm (a := (h.lines l).start),
          eq_comm (a := (h.lines l).stop)] <;> (repeat' split) <;> simp [add_assoc]
    · intro hf
      simp only [Chunk.finite] at hf
      simp [applyChunk, lineAddGrad, hf]
  | arc a g =>
    constructor
    · intro hf
      have hf' := hf
      simp only [Chunk.finite, Row5.allFinite, Bool.and_eq_true] at hf
      obtain ⟨⟨⟨⟨f0, f1⟩, f2⟩, f3⟩, f4⟩ := hf
      obtain ⟨h1, e1, hd1⟩ := pointAddGrad_gr (h := h) (a := (h.arcs a).center) (g := ⟨g.a0, g.a1⟩)
        (by simp [Vec2.allFinite, f0, f1])
      obtain ⟨r0, rfl0⟩ := (XR.isFinite_iff _).1 f0
      obtain ⟨r1, rfl1⟩ := (XR.isFinite_iff _).1 f1
      obtain ⟨r2, rfl2⟩ := (XR.isFinite_iff _).1 f2
      obtain ⟨r3, rfl3⟩ := (XR.isFinite_iff _).1 f3
      obtain ⟨r4, rfl4⟩ := (XR.isFinite_iff _).1 f4
      refine ⟨h1.setArc a { h1.arcs a with grad := (h1.arcs a).grad + ⟨g.a2, g.a3, g.a4⟩ }, ?_, fun d r hr => ?_⟩
      · simp only [Chunk.finite] at hf'
        simp only [applyChunk, arcAddGrad, hf', if_true]
        rw [e1]; rfl
      · have hd := hd1 d
        simp only [Chunk.contrib, total_cons, total_nil, rfl0, rfl1, rfl2, rfl3, rfl4, XR.toReal_fin]
        cases d with
        | px b =>
          simp only [Dof.px.injEq, reduceCtorEq, if_false, eq_comm (a := (h.arcs a).center)] at hd ⊢
          show gr h1 (.px b) = _
          rw [hd, hr, rfl0]; split <;> simp
        | py b =>
          simp only [Dof.py.injEq, reduceCtorEq, if_false, eq_comm (a := (h.arcs a).center)] at hd ⊢
          show gr h1 (.py b) = _
          rw [hd, hr, rfl1]; split <;> simp
        | ar b =>
          simp only [Dof.ar.injEq, reduceCtorEq, if_false] at hd ⊢
          rw [hr] at hd
          by_cases e : b = a
          · subst e; simp only [gr] at hd; simp [gr, Heap.setArc, hd]
          · simp [gr, Heap.setArc, upd_other _ _ e, Ne.symm e] at hd ⊢; exact hd
        | as b =>
          simp only [Dof.as.injEq, reduceCtorEq, if_false] at hd ⊢
          rw [hr] at hd
          by_cases e : b = a
          · subst e; simp only [gr] at hd; simp [gr, Heap.setArc, hd]
          · simp [gr, Heap.setArc, upd_other _ _ e, Ne.symm e] at hd ⊢; exact hd
        | ae b =>
          simp only [Dof.ae.injEq, reduceCtorEq, if_false] at hd ⊢
          rw [hr] at hd
          by_cases e : b = a
          · subst e; simp only [gr] at hd; simp [gr, Heap.setArc, hd]
          · simp [gr, Heap.setArc, upd_other _ _ e, Ne.symm e] at hd ⊢; exact hd
        | cr b =>
          simp only [reduceCtorEq, if_false] at hd ⊢
          show gr h1 (.cr b) = _
          rw [hd, hr]; simp
    · intro hf
      simp only [Chunk.finite] at hf
      simp [applyChunk, arcAddGrad, hf]

/-- A list of contributions in exact arithmetic. -/
theorem foldChunks_exact (h0 h : Heap XR) (ks : List (Chunk XR)) (g0 : GradOnly h0 h) :
    ((∀ k ∈ ks, k.finite = true) → ∃ h', ks.foldlM applyChunk h = .ok h' ∧ GradOnly h0 h' ∧
      ∀ d r, gr h d = .fin r → gr h' d = .fin (r + total (ks.flatMap (Chunk.contrib h0)) d)) ∧
    ((∃ k ∈ ks, k.finite = false) → ∃ h', ks.foldlM applyChunk h = .error h') := by
  induction ks generalizing h with
  | nil =>
    refine ⟨fun _ => ⟨h, rfl, g0, fun d r hr => ?_⟩, by simp⟩
    simp [hr]
  | cons k ks ih =>
    obtain ⟨A, B⟩ := applyChunk_exact h k
    cases hk : k.finite with
    | false =>
      refine ⟨fun H => ?_, fun _ => ⟨h, ?_⟩⟩
      · have := H k (by simp); rw [hk] at this; cases this
      · rw [List.foldlM_cons, B hk]; rfl
    | true =>
      obtain ⟨h1, e1, d1⟩ := A hk
      have g1 : GradOnly h0 h1 := by have := applyChunk_gradOnly h0 h k g0; rw [e1] at this; exact this
      obtain ⟨C, D⟩ := ih h1 g1
      rw [List.foldlM_cons, e1]
      refine ⟨fun H => ?_, ?_⟩
      · obtain ⟨h2, e2, g2, d2⟩ := C fun x hx => H x (by simp [hx])
        refine ⟨h2, e2, g2, fun d r hr => ?_⟩
        rw [d2 d _ (d1 d r hr), List.flatMap_cons, total_append, Chunk.contrib_congr g0, add_assoc]
      · rintro ⟨x, hx, hb⟩
        rcases List.mem_cons.1 hx with rfl | hx
        · rw [hk] at hb; cases hb
        · exact D ⟨x, hx, hb⟩

end Isotope
