import Verif.Lemmas.Sym

/-!
# C111: symmetric sketches stay symmetric, and flat ones stay flat

`Symmetric`, `KeepsSymmetry`, `Flat`, `FitsLine` and `KeepsFlat` are in `SpecSym.lean`; `Turn` in `SpecTurn.lean`; `CutPInv` in `SpecCut.lean`;
`Closed` and `FiniteSketch` in `Spec.lean`.
-/

namespace Isotope
open XR

variable {t : Turn} {tx ty : ℝ} {r : Renaming} {h : Heap XR} {s : Sketch}

/-- **C111.** A motion of the plane - a turn about the origin, perhaps after mirroring, followed by a translation - takes a sketch to itself:
every point, line, arc, circle and constraint to another one of the same sketch, or to itself.  (If constraints speak of the x- or
y-direction, the turn must be by a multiple of 90 degrees.)  In exact arithmetic gradient descent keeps this symmetry: with any parameters,
before and after every step and at the end the motion takes the sketch to itself with the same objects exchanged. -/
theorem C111_gradient_descent (w : Symmetric t tx ty r h s) (pinv : PInv XR) (p : GDParams XR) (hn : s.cells.Nodup) (hc : Closed ⟨h, s⟩)
    (hf : FiniteSketch h s) (ht : t.Square ∨ ∀ k ∈ s.cons, ¬(h.cons k).Directed) :
    KeepsSymmetry t tx ty r s (runSolver pinv (.gd p) h s) :=
  (sym_gd w pinv p hn hc hf ht).imp fun _ q => q.1

/-- **C111.** BFGS keeps the symmetry if the motion turns by a multiple of 90 degrees (mirror images in horizontal, vertical and diagonal lines,
half turns and quarter turns). -/
theorem C111_bfgs (w : Symmetric t tx ty r h s) (ht : t.Square) (pinv : PInv XR) (p : BFGSParams XR) (hn : s.cells.Nodup) (hc : Closed ⟨h, s⟩)
    (hf : FiniteSketch h s) : KeepsSymmetry t tx ty r s (runSolver pinv (.bfgs p) h s) :=
  (sym_bfgs w ht pinv p hn hc hf).imp fun _ q => q.1

/-- **C111.** With the pseudo-inverse with cut-off, a finite step size and a finite cut-off that is not negative, the Gauss-Newton solver keeps
the symmetry. -/
theorem C111_gauss_newton (w : Symmetric t tx ty r h s) {pinv : PInv XR} (hp : CutPInv pinv) (p : GNParams XR) {σ ε : ℝ} (hσ : p.stepSize = fin σ)
    (hε : p.pinvEps = fin ε) (h0 : 0 ≤ ε) (hd : getNDofs h s ≠ 0) (hn : s.cells.Nodup) (hc : Closed ⟨h, s⟩)
    (hf : FiniteSketch h s) (ht : t.Square ∨ ∀ k ∈ s.cons, ¬(h.cons k).Directed) :
    KeepsSymmetry t tx ty r s (runSolver pinv (.gn p) h s) :=
  (sym_gn w hp p hσ hε h0 hd hn hc hf ht).imp fun _ q => q.1

/-- **C111.** So does the Levenberg-Marquardt solver with a finite damping that is not negative. -/
theorem C111_levenberg_marquardt (w : Symmetric t tx ty r h s) {pinv : PInv XR} (hp : CutPInv pinv) (p : LMParams XR) {σ ε β : ℝ}
    (hσ : p.stepSize = fin σ) (hε : p.pinvEps = fin ε) (h0 : 0 ≤ ε) (hβ : p.beta = fin β) (h1 : 0 ≤ β) (hd : getNDofs h s ≠ 0)
    (hn : s.cells.Nodup) (hc : Closed ⟨h, s⟩) (hf : FiniteSketch h s) (ht : t.Square ∨ ∀ k ∈ s.cons, ¬(h.cons k).Directed) :
    KeepsSymmetry t tx ty r s (runSolver pinv (.lm p) h s) :=
  (sym_lm w hp p hσ hε h0 hβ h1 hd hn hc hf ht).imp fun _ q => q.1

/-! ## Flat sketches -/

/-- **C111.** All points of a sketch without arcs are on one line, and no constraint tells the two sides of the line apart.  In exact arithmetic
gradient descent, with any parameters, never takes a point off the line. -/
theorem C111_flat_gradient_descent {θ u v : ℝ} (w : Flat θ u v h s) (ha : ∀ a, .arc a ∉ s.cells) (hk : ∀ k ∈ s.cons, (h.cons k).FitsLine θ u v)
    (pinv : PInv XR) (p : GDParams XR) (hn : s.cells.Nodup) (hc : Closed ⟨h, s⟩) (hf : FiniteSketch h s) :
    KeepsFlat θ u v s (runSolver pinv (.gd p) h s) :=
  (sym_gd (flat_symmetric w ha hk) pinv p hn hc hf (fits_turn hk)).imp fun _ => symmetric_flat

/-- **C111.** Neither does BFGS, if the line is horizontal, vertical or diagonal. -/
theorem C111_flat_bfgs {θ u v : ℝ} (w : Flat θ u v h s) (ha : ∀ a, .arc a ∉ s.cells) (hk : ∀ k ∈ s.cons, (h.cons k).FitsLine θ u v)
    (hθ : Real.sin (2 * θ) = 0 ∨ Real.cos (2 * θ) = 0)
    (pinv : PInv XR) (p : BFGSParams XR) (hn : s.cells.Nodup) (hc : Closed ⟨h, s⟩) (hf : FiniteSketch h s) :
    KeepsFlat θ u v s (runSolver pinv (.bfgs p) h s) :=
  (sym_bfgs (flat_symmetric w ha hk) hθ pinv p hn hc hf).imp fun _ => symmetric_flat

/-- **C111.** Neither does the Gauss-Newton solver. -/
theorem C111_flat_gauss_newton {θ u v : ℝ} (w : Flat θ u v h s) (ha : ∀ a, .arc a ∉ s.cells) (hk : ∀ k ∈ s.cons, (h.cons k).FitsLine θ u v)
    {pinv : PInv XR} (hp : CutPInv pinv) (p : GNParams XR) {σ ε : ℝ} (hσ : p.stepSize = fin σ)
    (hε : p.pinvEps = fin ε) (h0 : 0 ≤ ε) (hd : getNDofs h s ≠ 0) (hn : s.cells.Nodup) (hc : Closed ⟨h, s⟩) (hf : FiniteSketch h s) :
    KeepsFlat θ u v s (runSolver pinv (.gn p) h s) :=
  (sym_gn (flat_symmetric w ha hk) hp p hσ hε h0 hd hn hc hf (fits_turn hk)).imp fun _ => symmetric_flat

/-- **C111.** Neither does the Levenberg-Marquardt solver. -/
theorem C111_flat_levenberg_marquardt {θ u v : ℝ} (w : Flat θ u v h s) (ha : ∀ a, .arc a ∉ s.cells)
    (hk : ∀ k ∈ s.cons, (h.cons k).FitsLine θ u v)
    {pinv : PInv XR} (hp : CutPInv pinv) (p : LMParams XR) {σ ε β : ℝ} (hσ : p.stepSize = fin σ)
    (hε : p.pinvEps = fin ε) (h0 : 0 ≤ ε) (hβ : p.beta = fin β) (h1 : 0 ≤ β) (hd : getNDofs h s ≠ 0)
    (hn : s.cells.Nodup) (hc : Closed ⟨h, s⟩) (hf : FiniteSketch h s) :
    KeepsFlat θ u v s (runSolver pinv (.lm p) h s) :=
  (sym_lm (flat_symmetric w ha hk) hp p hσ hε h0 hβ h1 hd hn hc hf (fits_turn hk)).imp fun _ => symmetric_flat

/-- **C111.** The sketch demands the distances `a`, `b` and `c` of three points, of which any two together exceed the third by at least `m`: a
triangle.  If a run keeps the sketch flat and does not panic, then at its end at least one of the three constraints has a loss of at least
`m² / 18`: a triangle drawn flat never opens. -/
theorem C111_triangle {θ u v : ℝ} {o : SolveOut XR} (w : KeepsFlat θ u v s o) (hr : o.res ≠ .panic) (hc : Closed ⟨h, s⟩) {p q r k1 k2 k3 : Nat}
    {a b c m : ℝ} (m1 : k1 ∈ s.cons) (m2 : k2 ∈ s.cons) (e1 : h.cons k1 = .euclid p q (fin a))
    (e2 : h.cons k2 = .euclid q r (fin b)) (e3 : h.cons k3 = .euclid p r (fin c)) (m0 : 0 ≤ m) (h1 : m ≤ a + b - c) (h2 : m ≤ b + c - a)
    (h3 : m ≤ a + c - b) :
    ∃ k ∈ [k1, k2, k3], ∃ L, lossValue o.heap (h.cons k) = fin L ∧ m ^ 2 / 18 ≤ L := by
  have dist : ∀ {x y : Nat} {l k e : ℝ}, ptData o.heap x = ⟨fin (u + l * Real.cos θ), fin (v + l * Real.sin θ)⟩ →
      ptData o.heap y = ⟨fin (u + k * Real.cos θ), fin (v + k * Real.sin θ)⟩ →
      lossValue o.heap (.euclid x y (fin e)) = fin ((|l - k| - e) ^ 2 / 2) := by
    intro x y l k e ex ey
    have e3 := Real.sin_sq_add_cos_sq θ
    have q1 : (u + l * Real.cos θ - (u + k * Real.cos θ)) * (u + l * Real.cos θ - (u + k * Real.cos θ)) +
        (v + l * Real.sin θ - (v + k * Real.sin θ)) * (v + l * Real.sin θ - (v + k * Real.sin θ)) = (l - k) ^ 2 := by
      linear_combination (l - k) ^ 2 * e3
    rw [loss_euclid ex ey, hyp, q1, Real.sqrt_sq_eq_abs]
  have cell : ∀ {k x}, k ∈ s.cons → .point x ∈ consFields (h.cons k) → OnLine θ u v (o.heap.points x).data :=
    fun hk hx => w.1 hr _ (hc.2 _ hk _ hx)
  obtain ⟨lp, ep⟩ := cell (x := p) m1 (by rw [e1]; simp [consFields])
  obtain ⟨lq, eq⟩ := cell (x := q) m1 (by rw [e1]; simp [consFields])
  obtain ⟨lr, er⟩ := cell (x := r) m2 (by rw [e2]; simp [consFields])
  have big : ∀ {x : ℝ}, m / 3 ≤ |x| → m ^ 2 / 18 ≤ x ^ 2 / 2 := by
    intro x hx
    rw [← sq_abs x]
    nlinarith [abs_nonneg x]
  by_contra no
  push Not at no
  have n1 := no k1 (by simp) _ (by rw [e1]; exact dist ep eq)
  have n2 := no k2 (by simp) _ (by rw [e2]; exact dist eq er)
  have n3 := no k3 (by simp) _ (by rw [e3]; exact dist ep er)
  have s1 := lt_of_not_ge fun q => absurd (big q) (not_le.2 n1)
  have s2 := lt_of_not_ge fun q => absurd (big q) (not_le.2 n2)
  have s3 := lt_of_not_ge fun q => absurd (big q) (not_le.2 n3)
  rw [abs_lt] at s1 s2 s3
  rcases le_total lp lq with g1 | g1 <;> rcases le_total lq lr with g2 | g2 <;> rcases le_total lp lr with g3 | g3 <;>
    simp only [abs_of_nonneg (sub_nonneg.2 g1), abs_of_nonpos (sub_nonpos.2 g1), abs_of_nonneg (sub_nonneg.2 g2),
      abs_of_nonpos (sub_nonpos.2 g2), abs_of_nonneg (sub_nonneg.2 g3), abs_of_nonpos (sub_nonpos.2 g3)] at s1 s2 s3 <;> linarith

/-! ## Examples -/

/-- an isosceles triangle: the ends of the base at `(-1, 0)` and `(1, 0)`, the apex at `(0, 1)`; the base is to be horizontal and the apex at
distance 3 from both its ends -/
noncomputable def gableHeap : Heap XR :=
  { (Heap.empty : Heap XR) with
    points := fun a => if a = 0 then ⟨⟨fin (-1), fin 0⟩, ⟨fin 0, fin 0⟩⟩ else
      if a = 1 then ⟨⟨fin 1, fin 0⟩, ⟨fin 0, fin 0⟩⟩ else ⟨⟨fin 0, fin 1⟩, ⟨fin 0, fin 0⟩⟩
    nPoints := 3
    lines := fun _ => ⟨0, 1⟩
    nLines := 1
    cons := fun k => if k = 0 then .euclid 0 2 (fin 3) else if k = 1 then .euclid 1 2 (fin 3) else .horizLine 0
    nCons := 3 }

def gableSketch : Sketch := ⟨[(0, .point 0), (1, .point 1), (2, .point 2), (3, .line 0)], 4, [0, 1, 2]⟩

/-- the ends of the base change places -/
def gableSwap : Renaming := ⟨Equiv.swap 0 1, 1, 1, 1, Equiv.swap 0 1⟩

theorem gable_symmetric : Symmetric ⟨Real.pi, true⟩ 0 0 gableSwap gableHeap gableSketch := by
  have c1 : (⟨Real.pi, true⟩ : Turn).c = -1 := Real.cos_pi
  have s1 : (⟨Real.pi, true⟩ : Turn).s = 0 := Real.sin_pi
  have w2 : Equiv.swap 0 1 2 = 2 := Equiv.swap_apply_of_ne_of_ne (by decide) (by decide)
  refine ⟨?_, ?_, ?_, ?_, ?_, ?_, ?_⟩
  · simp only [gableSketch, Sketch.cells, gableSwap, List.map_cons, List.map_nil, PrimCell.rename, Equiv.swap_apply_left,
      Equiv.swap_apply_right, w2, Equiv.Perm.one_apply]
    decide
  · simp only [gableSketch, gableSwap, List.map_cons, List.map_nil, Equiv.swap_apply_left, Equiv.swap_apply_right, w2]
    decide
  · intro a ha
    have : a = 0 ∨ a = 1 ∨ a = 2 := by simpa [gableSketch, Sketch.cells] using ha
    rcases this with rfl | rfl | rfl <;>
      simp [gableSwap, gableHeap, w2, place_fin, c1, s1, Turn.e]
  · intro a _
    right
    simp [gableSwap, gableHeap]
  · intro a ha
    simp [gableSketch, Sketch.cells] at ha
  · intro a ha
    simp [gableSketch, Sketch.cells] at ha
  · intro k hk
    have : k = 0 ∨ k = 1 ∨ k = 2 := by simpa [gableSketch] using hk
    rcases this with rfl | rfl | rfl
    · simpa [gableSwap, gableHeap, Constraint.turn, Constraint.moveBy, Constraint.rename, w2] using SameMeaning.same (.euclid 1 2 (fin 3))
    · simpa [gableSwap, gableHeap, Constraint.turn, Constraint.moveBy, Constraint.rename, w2] using SameMeaning.same (.euclid 0 2 (fin 3))
    · simpa [gableSwap, gableHeap, Constraint.turn, Constraint.moveBy, Constraint.rename, w2, s1] using SameMeaning.same (.horizLine 0)

theorem gable_nodup : gableSketch.cells.Nodup := by simp [Sketch.cells, gableSketch]
theorem gable_closed : Closed ⟨gableHeap, gableSketch⟩ := by simp [Closed, gableHeap, gableSketch, Sketch.cells, primFields, consFields]
theorem gable_finite : FiniteSketch gableHeap gableSketch :=
  ⟨by simp [getData, getNDofs, gableSketch, gableHeap, primData, zerosVec, blit], by simp [gableSketch, gableHeap, consParams]⟩
theorem gable_dofs : getNDofs gableHeap gableSketch ≠ 0 := by simp [getNDofs, gableSketch, gableHeap, primData]

/-- all four solvers keep the triangle isosceles -/
example (p1 : GDParams XR) (p2 : BFGSParams XR) :
    KeepsSymmetry ⟨Real.pi, true⟩ 0 0 gableSwap gableSketch (runSolver cutPInv (.gd p1) gableHeap gableSketch) ∧
    KeepsSymmetry ⟨Real.pi, true⟩ 0 0 gableSwap gableSketch (runSolver cutPInv (.bfgs p2) gableHeap gableSketch) ∧
    KeepsSymmetry ⟨Real.pi, true⟩ 0 0 gableSwap gableSketch (runSolver cutPInv (.gn ⟨10, fin 1, fin 1, fin 1⟩) gableHeap gableSketch) ∧
    KeepsSymmetry ⟨Real.pi, true⟩ 0 0 gableSwap gableSketch (runSolver cutPInv (.lm ⟨10, fin 1, fin 1, fin 1, fin 1⟩) gableHeap gableSketch) :=
  ⟨C111_gradient_descent gable_symmetric cutPInv p1 gable_nodup gable_closed gable_finite (.inl (.inl Real.sin_pi)),
   C111_bfgs gable_symmetric (.inl Real.sin_pi) cutPInv p2 gable_nodup gable_closed gable_finite,
   C111_gauss_newton gable_symmetric cutPInv_cut ⟨10, fin 1, fin 1, fin 1⟩ (σ := 1) (ε := 1) rfl rfl zero_le_one gable_dofs gable_nodup gable_closed
     gable_finite (.inl (.inl Real.sin_pi)),
   C111_levenberg_marquardt gable_symmetric cutPInv_cut ⟨10, fin 1, fin 1, fin 1, fin 1⟩ (σ := 1) (ε := 1) (β := 1) rfl rfl zero_le_one rfl
     zero_le_one gable_dofs gable_nodup gable_closed gable_finite (.inl (.inl Real.sin_pi))⟩

/-- an equilateral triangle with sides 2, drawn flat: its corners at 0, 1 and 3 on the x-axis -/
noncomputable def flatHeap : Heap XR :=
  { (Heap.empty : Heap XR) with
    points := fun a => if a = 0 then ⟨⟨fin 0, fin 0⟩, ⟨fin 0, fin 0⟩⟩ else
      if a = 1 then ⟨⟨fin 1, fin 0⟩, ⟨fin 0, fin 0⟩⟩ else ⟨⟨fin 3, fin 0⟩, ⟨fin 0, fin 0⟩⟩
    nPoints := 3
    cons := fun k => if k = 0 then .euclid 0 1 (fin 2) else if k = 1 then .euclid 1 2 (fin 2) else .euclid 0 2 (fin 2)
    nCons := 3 }

def flatSketch : Sketch := ⟨[(0, .point 0), (1, .point 1), (2, .point 2)], 3, [0, 1, 2]⟩

theorem flat_nodup : flatSketch.cells.Nodup := by simp [Sketch.cells, flatSketch]
theorem flat_closed : Closed ⟨flatHeap, flatSketch⟩ := by simp [Closed, flatHeap, flatSketch, Sketch.cells, primFields, consFields]
theorem flat_finite : FiniteSketch flatHeap flatSketch :=
  ⟨by simp [getData, getNDofs, flatSketch, flatHeap, primData, zerosVec, blit], by simp [flatSketch, flatHeap, consParams]⟩
theorem flat_dofs : getNDofs flatHeap flatSketch ≠ 0 := by simp [getNDofs, flatSketch, flatHeap, primData]
theorem flat_flat : Flat 0 0 0 flatHeap flatSketch := by
  intro a ha
  have : a = 0 ∨ a = 1 ∨ a = 2 := by simpa [flatSketch, Sketch.cells] using ha
  rcases this with rfl | rfl | rfl
  · exact ⟨0, by simp [flatHeap]⟩
  · exact ⟨1, by simp [flatHeap]⟩
  · exact ⟨3, by simp [flatHeap]⟩
theorem flat_noArc : ∀ a, .arc a ∉ flatSketch.cells := by simp [flatSketch, Sketch.cells]
theorem flat_fits : ∀ k ∈ flatSketch.cons, (flatHeap.cons k).FitsLine 0 0 0 := by simp [flatSketch, flatHeap, Constraint.FitsLine]

theorem flat_stuck {o : SolveOut XR} (w : KeepsFlat 0 0 0 flatSketch o) (hr : o.res ≠ .panic) :
    ∃ k ∈ flatSketch.cons, ∃ L, lossValue o.heap (flatHeap.cons k) = fin L ∧ 2 / 9 ≤ L := by
  obtain ⟨k, hk, L, e, hL⟩ := C111_triangle w hr flat_closed (p := 0) (q := 1) (r := 2) (k1 := 0) (k2 := 1) (k3 := 2) (a := 2) (b := 2) (c := 2)
    (m := 2) (by simp [flatSketch]) (by simp [flatSketch]) rfl rfl rfl (by norm_num) (by norm_num) (by norm_num) (by norm_num)
  exact ⟨k, hk, L, e, by linarith⟩

/-- none of the four solvers solves it -/
example (p1 : GDParams XR) (p2 : BFGSParams XR) (k : SolverKind XR)
    (hk : k = .gd p1 ∨ k = .bfgs p2 ∨ k = .gn ⟨10, fin 1, fin 1, fin 1⟩ ∨ k = .lm ⟨10, fin 1, fin 1, fin 1, fin 1⟩)
    (hr : (runSolver cutPInv k flatHeap flatSketch).res ≠ .panic) :
    ∃ i ∈ flatSketch.cons, ∃ L, lossValue (runSolver cutPInv k flatHeap flatSketch).heap (flatHeap.cons i) = fin L ∧ 2 / 9 ≤ L := by
  refine flat_stuck ?_ hr
  rcases hk with rfl | rfl | rfl | rfl
  · exact C111_flat_gradient_descent flat_flat flat_noArc flat_fits cutPInv p1 flat_nodup flat_closed flat_finite
  · exact C111_flat_bfgs flat_flat flat_noArc flat_fits (.inl (by simp)) cutPInv p2 flat_nodup flat_closed flat_finite
  · exact C111_flat_gauss_newton flat_flat flat_noArc flat_fits cutPInv_cut ⟨10, fin 1, fin 1, fin 1⟩ (σ := 1) (ε := 1) rfl rfl zero_le_one flat_dofs
      flat_nodup flat_closed flat_finite
  · exact C111_flat_levenberg_marquardt flat_flat flat_noArc flat_fits cutPInv_cut ⟨10, fin 1, fin 1, fin 1, fin 1⟩ (σ := 1) (ε := 1) (β := 1) rfl
      rfl zero_le_one rfl zero_le_one flat_dofs flat_nodup flat_closed flat_finite

end Isotope
