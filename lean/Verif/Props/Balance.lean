import Verif.Lemmas.Balance
import Verif.Props.Sym
import Verif.Props.Forest

/-!
# C112: groups of points without a hold keep their centre of gravity

`centreX`, `centreY`, `Heedless`, `LooseX`, `LooseY` and `Conserves` are in `SpecBalance.lean`; `Sketch.Covers` and `SolverKind.Exact` in
`SpecStill.lean`; `CutPInv` in `SpecCut.lean`.
-/

namespace Isotope
open XR

variable {h : Heap XR} {s : Sketch} {P : List Nat}

open Classical in
/-- 1 for the coordinates `Q`, 0 for the others -/
noncomputable def onlyOf (Q : List Dof) (d : Dof) : ℝ := if d ∈ Q then 1 else 0

open Classical in
theorem form_only {L Q : List Dof} (hL : L.Nodup) (hQ : Q.Nodup) (sub : ∀ d ∈ Q, d ∈ L) (f : Dof → ℝ) : form L (onlyOf Q) f = (Q.map f).sum := by
  have p : (L.filter fun d => decide (d ∈ Q)).Perm Q := by
    rw [List.perm_ext_iff_of_nodup (hL.filter _) hQ]
    intro d
    rw [List.mem_filter, decide_eq_true_eq]
    exact ⟨fun q => q.2, fun q => ⟨sub d q, q⟩⟩
  rw [← (p.map f).sum_eq]
  unfold form onlyOf
  clear hL sub p hQ
  induction L with
  | nil => rfl
  | cons d L ih =>
    rw [List.map_cons, List.sum_cons, ih, List.filter_cons]
    by_cases q : d ∈ Q <;> simp [q]

theorem nodup_px (hP : P.Nodup) : (P.map Dof.px).Nodup := hP.map fun _ _ e => Dof.px.inj e
theorem nodup_py (hP : P.Nodup) : (P.map Dof.py).Nodup := hP.map fun _ _ e => Dof.py.inj e

theorem in_px (hs : ∀ a ∈ P, .point a ∈ s.cells) : ∀ d ∈ P.map Dof.px, d ∈ s.dofs := fun d hd => by
  obtain ⟨a, ha, rfl⟩ := List.mem_map.1 hd
  exact mem_sketch_dofs.2 (hs a ha)
theorem in_py (hs : ∀ a ∈ P, .point a ∈ s.cells) : ∀ d ∈ P.map Dof.py, d ∈ s.dofs := fun d hd => by
  obtain ⟨a, ha, rfl⟩ := List.mem_map.1 hd
  exact mem_sketch_dofs.2 (hs a ha)

/-- the forces of a constraint on the group -/
theorem heedless_zero {c : Constraint XR} (hP : P.Nodup) (hf : FiniteCons h c) (hd : ¬DegenerateEqLen h c) (w : Heedless P h c) :
    (P.map fun a => total (contribs h c) (.px a)).sum = 0 ∧ (P.map fun a => total (contribs h c) (.py a)).sum = 0 := by
  rcases w with ⟨hfix, hdep⟩ | hout
  · have hnf : ¬IsFix c := by intro hi; cases c <;> first | exact hi | exact hfix _ _ rfl
    obtain ⟨zx, zy⟩ := hf.real.sum_zero hnf hd
    refine ⟨?_, ?_⟩
    · rw [sum_total_px P hP, zx]
      intro d hd a ha
      have := contribs_owner d hd
      rw [ha] at this
      exact hdep a this
    · rw [sum_total_py P hP, zy]
      intro d hd a ha
      have := contribs_owner d hd
      rw [ha] at this
      exact hdep a this
  · constructor
    · refine List.sum_eq_zero fun x hx => ?_
      obtain ⟨a, ha, rfl⟩ := List.mem_map.1 hx
      exact total_owner (hout a ha)
    · refine List.sum_eq_zero fun x hx => ?_
      obtain ⟨a, ha, rfl⟩ := List.mem_map.1 hx
      exact total_owner (hout a ha)

theorem looseX_zero {c : Constraint XR} (hP : P.Nodup) (hf : FiniteCons h c) (hd : ¬DegenerateEqLen h c) (w : LooseX P h c) :
    (P.map fun a => total (contribs h c) (.px a)).sum = 0 := by
  rcases w with w | ⟨p, q, d, rfl⟩ | ⟨l, rfl⟩
  · exact (heedless_zero hP hf hd w).1
  · refine List.sum_eq_zero fun x hx => ?_
    obtain ⟨a, ha, rfl⟩ := List.mem_map.1 hx
    cases hf.real with
    | vertDist e1 e2 => rw [contribs, chunks_vert e1 e2]; simp [Chunk.contrib]
  · refine List.sum_eq_zero fun x hx => ?_
    obtain ⟨a, ha, rfl⟩ := List.mem_map.1 hx
    cases hf.real with
    | horizLine e1 e2 => rw [contribs, chunks_horizLine e1 e2]; simp [Chunk.contrib]

theorem looseY_zero {c : Constraint XR} (hP : P.Nodup) (hf : FiniteCons h c) (hd : ¬DegenerateEqLen h c) (w : LooseY P h c) :
    (P.map fun a => total (contribs h c) (.py a)).sum = 0 := by
  rcases w with w | ⟨p, q, d, rfl⟩ | ⟨l, rfl⟩
  · exact (heedless_zero hP hf hd w).2
  · refine List.sum_eq_zero fun x hx => ?_
    obtain ⟨a, ha, rfl⟩ := List.mem_map.1 hx
    cases hf.real with
    | horizDist e1 e2 => rw [contribs, chunks_horiz e1 e2]; simp [Chunk.contrib]
  · refine List.sum_eq_zero fun x hx => ?_
    obtain ⟨a, ha, rfl⟩ := List.mem_map.1 hx
    cases hf.real with
    | vertLine e1 e2 => rw [contribs, chunks_vertLine e1 e2]; simp [Chunk.contrib]

theorem Heedless.sameRefs {h' : Heap XR} {c : Constraint XR} (r : SameRefs h h') (w : Heedless P h c) : Heedless P h' c := by
  unfold Heedless at w ⊢
  rwa [consDeps_sameRefs r]

theorem nonempty_dofs (hs : ∀ a ∈ P, .point a ∈ s.cells) (hP : P ≠ []) : s.dofs ≠ [] := by
  obtain ⟨a, ha⟩ := List.exists_mem_of_ne_nil P hP
  exact List.ne_nil_of_mem (mem_sketch_dofs (d := .px a) |>.2 (hs a ha))

theorem sum_exchange (l m : List Nat) (f : Nat → Nat → ℝ) : (l.map fun a => (m.map fun i => f i a).sum).sum = (m.map fun i => (l.map fun a => f i a).sum).sum := by
  induction l with
  | nil => simp
  | cons a l ih => simp only [List.map_cons, List.sum_cons, List.sum_map_add, ih]

/-- **C112.** `P` is a group of points of the sketch, and every constraint looks only at points of the group - without fixing one -, or at none of
them, or only at y-coordinates.  In exact arithmetic the x-coordinate of the centre of gravity of the group is the same at the start, before and
after every step and at the end of the run of each of the four solvers. -/
theorem C112_x {pinv : PInv XR} (hp : CutPInv pinv) {k : SolverKind XR} (hk : k.Exact) (hn : s.cells.Nodup) (hc : s.Covers h)
    (hf : FiniteSketch h s) (hP : P.Nodup) (hs : ∀ a ∈ P, .point a ∈ s.cells) (hl : ∀ k ∈ s.cons, LooseX P h (h.cons k)) :
    Conserves (centreX P) h (runSolver pinv k h s) := by
  by_cases he : P = []
  · subst he; exact ⟨fun _ => rfl, fun _ _ => ⟨rfl, rfl⟩⟩
  have e : ∀ h', centreX P h' = formAt s (onlyOf (P.map Dof.px)) h' / P.length := fun h' => by
    rw [formAt, form_only (Sketch.dofs_nodup hn) (nodup_px hP) (in_px hs), List.map_map]; rfl
  have nt : Neutral h s (onlyOf (P.map Dof.px)) := fun h' r f k hk hd => by
    rw [form_only (Sketch.dofs_nodup hn) (nodup_px hP) (in_px hs), List.map_map]
    have w : LooseX P h' (h'.cons k) := by rw [r.cons]; exact (hl k hk).imp_left (·.sameRefs r)
    exact looseX_zero hP ((hc.sameRefs r).finite f k hk) hd w
  have q := bal_run hn hc nt hp hk (nonempty_dofs hs he) hf
  exact ⟨fun e1 => by rw [e, e, q.1 e1], fun st hst => ⟨by rw [e, e, (q.2 st hst).1], by rw [e, e, (q.2 st hst).2]⟩⟩

/-- **C112.** The same for y-coordinates. -/
theorem C112_y {pinv : PInv XR} (hp : CutPInv pinv) {k : SolverKind XR} (hk : k.Exact) (hn : s.cells.Nodup) (hc : s.Covers h)
    (hf : FiniteSketch h s) (hP : P.Nodup) (hs : ∀ a ∈ P, .point a ∈ s.cells) (hl : ∀ k ∈ s.cons, LooseY P h (h.cons k)) :
    Conserves (centreY P) h (runSolver pinv k h s) := by
  by_cases he : P = []
  · subst he; exact ⟨fun _ => rfl, fun _ _ => ⟨rfl, rfl⟩⟩
  have e : ∀ h', centreY P h' = formAt s (onlyOf (P.map Dof.py)) h' / P.length := fun h' => by
    rw [formAt, form_only (Sketch.dofs_nodup hn) (nodup_py hP) (in_py hs), List.map_map]; rfl
  have nt : Neutral h s (onlyOf (P.map Dof.py)) := fun h' r f k hk hd => by
    rw [form_only (Sketch.dofs_nodup hn) (nodup_py hP) (in_py hs), List.map_map]
    have w : LooseY P h' (h'.cons k) := by rw [r.cons]; exact (hl k hk).imp_left (·.sameRefs r)
    exact looseY_zero hP ((hc.sameRefs r).finite f k hk) hd w
  have q := bal_run hn hc nt hp hk (nonempty_dofs hs he) hf
  exact ⟨fun e1 => by rw [e, e, q.1 e1], fun st hst => ⟨by rw [e, e, (q.2 st hst).1], by rw [e, e, (q.2 st hst).2]⟩⟩

/-- **C112.** So a sketch without `FixPoint` constraints keeps the centre of gravity of all its points. -/
theorem C112_sketch {pinv : PInv XR} (hp : CutPInv pinv) {k : SolverKind XR} (hk : k.Exact) (hn : s.cells.Nodup) (hc : s.Covers h)
    (hf : FiniteSketch h s) (hP : P.Nodup) (hs : ∀ a, a ∈ P ↔ .point a ∈ s.cells) (hl : ∀ k ∈ s.cons, ∀ p d, h.cons k ≠ .fix p d) :
    Conserves (centreX P) h (runSolver pinv k h s) ∧ Conserves (centreY P) h (runSolver pinv k h s) := by
  have w : ∀ k ∈ s.cons, Heedless P h (h.cons k) := fun k hk => .inl ⟨hl k hk, fun a ha => (hs a).2 (hc k hk _ ha)⟩
  exact ⟨C112_x hp hk hn hc hf hP (fun a ha => (hs a).1 ha) fun k hk => .inl (w k hk),
    C112_y hp hk hn hc hf hP (fun a ha => (hs a).1 ha) fun k hk => .inl (w k hk)⟩

/-- **C112.** A group of points is held by one `FixPoint` constraint only.  Then the gradients of its points add up to the way from the place where
the point is to be to where it is. -/
theorem C112_lone_fix (hc : s.Covers h) (hf : FiniteSketch h s) (hP : P.Nodup) (hs : ∀ a ∈ P, .point a ∈ s.cells)
    {as bs : List Nat} {k p : Nat} {X Y x y : ℝ} (hcons : s.cons = as ++ k :: bs) (hk : h.cons k = .fix p ⟨fin X, fin Y⟩) (hp : p ∈ P)
    (hl : ∀ i ∈ as ++ bs, Heedless P h (h.cons i)) (hx : (h.points p).data = ⟨fin x, fin y⟩) {g : List XR} {h' : Heap XR}
    (e : getGradient h s = .ok (g, h')) :
    (P.map fun a => (h'.points a).grad.x.toReal).sum = x - X ∧ (P.map fun a => (h'.points a).grad.y.toReal).sum = y - Y := by
  obtain ⟨A, B⟩ := getGradient_exact h s (hc.finite hf)
  have hnd : ∀ k ∈ s.cons, ¬DegenerateEqLen h (h.cons k) := fun i hi q => by
    obtain ⟨h1, e1⟩ := B ⟨i, hi, q⟩
    rw [e1] at e; cases e
  obtain ⟨h1, -, hv, e1⟩ := A hnd
  rw [e1] at e
  cases e
  have px : ∀ a ∈ P, (h'.points a).grad.x.toReal = (s.cons.map fun i => total (contribs h (h.cons i)) (.px a)).sum := fun a ha => by
    rw [← total_flatMap]
    have := hv (.px a) (mem_sketch_dofs.2 (hs a ha))
    simp only [gr] at this
    rw [this, toReal_fin]
  have py : ∀ a ∈ P, (h'.points a).grad.y.toReal = (s.cons.map fun i => total (contribs h (h.cons i)) (.py a)).sum := fun a ha => by
    rw [← total_flatMap]
    have := hv (.py a) (mem_sketch_dofs.2 (hs a ha))
    simp only [gr] at this
    rw [this, toReal_fin]
  have split : ∀ f : Nat → ℝ, (∀ i ∈ as ++ bs, f i = 0) → (s.cons.map f).sum = f k := fun f hz => by
    rw [hcons, List.map_append, List.sum_append, List.map_cons, List.sum_cons,
      List.sum_eq_zero (l := as.map f) (fun x hx => by obtain ⟨i, hi, rfl⟩ := List.mem_map.1 hx; exact hz i (List.mem_append_left _ hi)),
      List.sum_eq_zero (l := bs.map f) (fun x hx => by obtain ⟨i, hi, rfl⟩ := List.mem_map.1 hx; exact hz i (List.mem_append_right _ hi))]
    ring
  have mem : ∀ i ∈ as ++ bs, i ∈ s.cons := fun i hi => by
    rw [hcons]
    rcases List.mem_append.1 hi with q | q
    · exact List.mem_append_left _ q
    · exact List.mem_append_right _ (List.mem_cons_of_mem _ q)
  have zero : ∀ i ∈ as ++ bs, _ := fun i hi => heedless_zero hP (hc.finite hf i (mem i hi)) (hnd i (mem i hi)) (hl i hi)
  rw [List.map_congr_left px, List.map_congr_left py, sum_exchange _ _ fun i a => total (contribs h (h.cons i)) (.px a),
    sum_exchange _ _ fun i a => total (contribs h (h.cons i)) (.py a), split _ fun i hi => (zero i hi).1, split _ fun i hi => (zero i hi).2, hk]
  have e0 : ptData h p = ⟨fin x, fin y⟩ := hx
  have own : ∀ e ∈ contribs h (.fix p ⟨fin X, fin Y⟩), e.1 = .px p ∨ e.1 = .py p := by
    rw [contribs, chunks_fix e0]; simp [Chunk.contrib]
  rw [sum_total_px P hP, sum_total_py P hP]
  · rw [contribs, chunks_fix e0]; simp [Chunk.contrib]
  · intro d hd a ha
    rcases own d hd with q | q <;> rw [ha] at q <;> cases q
    exact hp
  · intro d hd a ha
    rcases own d hd with q | q <;> rw [ha] at q <;> cases q
    exact hp

/-- **C112.** Hence, if no entry of the gradient exceeds `G`, the point is within `n G` of its place in both directions, `n` being the number of
points of the group; and exactly there where the gradient vanishes. -/
theorem C112_rest (hc : s.Covers h) (hf : FiniteSketch h s) (hP : P.Nodup) (hs : ∀ a ∈ P, .point a ∈ s.cells)
    {as bs : List Nat} {k p : Nat} {X Y x y G : ℝ} (hcons : s.cons = as ++ k :: bs) (hk : h.cons k = .fix p ⟨fin X, fin Y⟩) (hp : p ∈ P)
    (hl : ∀ i ∈ as ++ bs, Heedless P h (h.cons i)) (hx : (h.points p).data = ⟨fin x, fin y⟩) {g : List XR} {h' : Heap XR}
    (e : getGradient h s = .ok (g, h')) (hG : ∀ r ∈ g, |r.toReal| ≤ G) : |x - X| ≤ P.length * G ∧ |y - Y| ≤ P.length * G := by
  obtain ⟨sx, sy⟩ := C112_lone_fix hc hf hP hs hcons hk hp hl hx e
  obtain ⟨A, B⟩ := getGradient_exact h s (hc.finite hf)
  obtain ⟨h1, -, hv, e1⟩ := A fun i hi q => by
    obtain ⟨h1, e1⟩ := B ⟨i, hi, q⟩
    rw [e1] at e; cases e
  rw [e1] at e
  cases e
  have bound : ∀ f : Nat → ℝ, (∀ a ∈ P, |f a| ≤ G) → |(P.map f).sum| ≤ P.length * G := by
    intro f hb
    clear sx sy hp hs hP hl
    induction P with
    | nil => simp
    | cons a P ih =>
      have h1 := hb a (by simp)
      have h2 := ih fun b hb' => hb b (by simp [hb'])
      rw [List.map_cons, List.sum_cons, List.length_cons]
      push_cast
      have := abs_add_le (f a) (P.map f).sum
      linarith
  rw [← sx, ← sy]
  constructor
  · refine bound _ fun a ha => ?_
    have hd : Dof.px a ∈ s.dofs := mem_sketch_dofs.2 (hs a ha)
    have := hv _ hd
    simp only [gr] at this
    rw [this]
    exact hG _ (List.mem_map.2 ⟨_, hd, rfl⟩)
  · refine bound _ fun a ha => ?_
    have hd : Dof.py a ∈ s.dofs := mem_sketch_dofs.2 (hs a ha)
    have := hv _ hd
    simp only [gr] at this
    rw [this]
    exact hG _ (List.mem_map.2 ⟨_, hd, rfl⟩)

/-! ## Examples -/

theorem gable_covers : gableSketch.Covers gableHeap := by
  simp [Sketch.Covers, gableSketch, gableHeap, consDeps, consFields, primFields, Sketch.cells]

/-- the isosceles triangle of C111: its centre stays at `(0, 1/3)` -/
example (p : BFGSParams XR) (hr : (runSolver cutPInv (.bfgs p) gableHeap gableSketch).res ≠ .panic) :
    centreX [0, 1, 2] (runSolver cutPInv (.bfgs p) gableHeap gableSketch).heap = 0 ∧
    centreY [0, 1, 2] (runSolver cutPInv (.bfgs p) gableHeap gableSketch).heap = 1 / 3 := by
  have q := C112_sketch (P := [0, 1, 2]) cutPInv_cut (k := .bfgs p) trivial gable_nodup gable_covers gable_finite (by simp)
    (by simp [gableSketch, Sketch.cells]) (by simp [gableSketch, gableHeap])
  rw [q.1.1 hr, q.2.1 hr]
  simp [centreX, centreY, gableHeap, XR.toReal]

/-- three points: the first two are to be 5 apart, the second 3 above the third, which is to be at the origin -/
noncomputable def shelfHeap : Heap XR :=
  { (Heap.empty : Heap XR) with
    points := fun a => if a = 0 then ⟨⟨fin 7, fin 1⟩, ⟨fin 0, fin 0⟩⟩ else
      if a = 1 then ⟨⟨fin 1, fin 2⟩, ⟨fin 0, fin 0⟩⟩ else ⟨⟨fin 1, fin 1⟩, ⟨fin 0, fin 0⟩⟩
    nPoints := 3
    cons := fun k => if k = 0 then .euclid 0 1 (fin 5) else if k = 1 then .vertDist 1 2 (fin 3) else .fix 2 ⟨fin 0, fin 0⟩
    nCons := 3 }

def shelfSketch : Sketch := ⟨[(0, .point 0), (1, .point 1), (2, .point 2)], 3, [0, 1, 2]⟩

/-- the middle of the first two is moved up or down, but not sideways -/
example (p : GDParams XR) : Conserves (centreX [0, 1]) shelfHeap (runSolver cutPInv (.gd p) shelfHeap shelfSketch) := by
  refine C112_x (P := [0, 1]) cutPInv_cut (k := .gd p) trivial (by simp [Sketch.cells, shelfSketch])
    (by simp [Sketch.Covers, shelfSketch, shelfHeap, consDeps, consFields, primFields, Sketch.cells])
    ⟨by simp [getData, getNDofs, shelfSketch, shelfHeap, primData, zerosVec, blit], by simp [shelfSketch, shelfHeap, consParams]⟩
    (by simp) (by simp [shelfSketch, Sketch.cells]) ?_
  intro k hk
  have : k = 0 ∨ k = 1 ∨ k = 2 := by simpa [shelfSketch] using hk
  rcases this with rfl | rfl | rfl
  · exact .inl (.inl ⟨by simp [shelfHeap], by simp [shelfHeap, consDeps, consFields, primFields]⟩)
  · exact .inr (.inl ⟨1, 2, fin 3, rfl⟩)
  · exact .inl (.inr (by simp [shelfHeap, consDeps, consFields, primFields]))

/-- the chain of C81, held at its first point: the gradients of its three points add up to the displacement of the first -/
example {g : List XR} {h' : Heap XR} (e : getGradient linkHeap linkSketch = .ok (g, h')) :
    ([0, 1, 2].map fun a => (h'.points a).grad.x.toReal).sum = 0 - 0 ∧ ([0, 1, 2].map fun a => (h'.points a).grad.y.toReal).sum = 0 - 0 := by
  have c : linkSketch.Covers linkHeap := by simp [Sketch.Covers, linkSketch, linkHeap, consDeps, consFields, primFields, Sketch.cells]
  refine C112_lone_fix c link_finite (P := [0, 1, 2]) (by simp) (by simp [linkSketch, Sketch.cells]) (as := [1, 2]) (bs := []) (k := 0)
    (p := 0) rfl rfl (by simp) ?_ rfl e
  intro i hi
  refine .inl ⟨by revert i; simp [linkHeap], fun a ha => ?_⟩
  have := c i (by revert hi; simp [linkSketch]; tauto) _ ha
  simpa [linkSketch, Sketch.cells] using this

end Isotope
