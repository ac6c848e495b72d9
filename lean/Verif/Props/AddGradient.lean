import Verif.Lemmas.Frame
import Verif.Lemmas.Data
import Verif.XR

/-!
# The `add_to_gradient` methods (C55) and the assertion of `get_gradient` (C23)
-/

namespace Isotope
variable {F : Type} [Num F]

/-- **C55.** `Point2::add_to_gradient` panics exactly on a non-finite entry, leaving everything; otherwise it adds to the
gradient of that point and changes nothing else. -/
theorem C55_point_add (h : Heap F) (a : Nat) (x y : F) :
    ((∃ v ∈ [x, y], Num.isFinite v = false) → pointAddGrad h a ⟨x, y⟩ = .error h) ∧
    ((∀ v ∈ [x, y], Num.isFinite v = true) → ∃ h', pointAddGrad h a ⟨x, y⟩ = .ok h' ∧ GradOnly h h' ∧
      primGrad h' (.point a) = List.zipWith (· + ·) (primGrad h (.point a)) [x, y] ∧
      ∀ c, c ≠ .point a → primGrad h' c = primGrad h c) := by
  constructor
  · rintro ⟨v, hv, hf⟩
    have : (⟨x, y⟩ : Vec2 F).allFinite = false := by
      simp only [List.mem_cons, List.not_mem_nil, or_false] at hv
      rcases hv with rfl | rfl <;> simp [Vec2.allFinite, hf]
    rw [pointAddGrad, this]; rfl
  · intro hf
    have : (⟨x, y⟩ : Vec2 F).allFinite = true := by
      simp [Vec2.allFinite, hf x (by simp), hf y (by simp)]
    refine ⟨_, by rw [pointAddGrad, this]; rfl, ?_, ?_, ?_⟩
    · have := pointAddGrad_gradOnly h h a ⟨x, y⟩ (.refl h)
      rw [pointAddGrad, ‹(⟨x, y⟩ : Vec2 F).allFinite = true›] at this
      exact this
    · simp only [primGrad, Heap.setPoint, upd, if_true]; rfl
    · intro c hc
      cases c with
      | point b =>
        have : b ≠ a := fun e => hc (by rw [e])
        simp [primGrad, Heap.setPoint, upd, this]
      | _ => rfl

/-- **C55.** `Line::add_to_gradient` panics exactly on a non-finite entry, leaving everything; otherwise it adds the first two
entries to the gradient of its start point and the other two to that of its end point, in this order, and changes nothing
else. -/
theorem C55_line_add (h : Heap F) (l : Nat) (x y u v : F) (p q : Nat) (hr : primFields h (.line l) = [.point p, .point q]) :
    ((∃ w ∈ [x, y, u, v], Num.isFinite w = false) → lineAddGrad h l ⟨x, y, u, v⟩ = .error h) ∧
    ((∀ w ∈ [x, y, u, v], Num.isFinite w = true) → ∃ h', lineAddGrad h l ⟨x, y, u, v⟩ = .ok h' ∧ GradOnly h h' ∧
      (p ≠ q → primGrad h' (.point p) = List.zipWith (· + ·) (primGrad h (.point p)) [x, y] ∧
        primGrad h' (.point q) = List.zipWith (· + ·) (primGrad h (.point q)) [u, v]) ∧
      (p = q → primGrad h' (.point p) =
        List.zipWith (· + ·) (List.zipWith (· + ·) (primGrad h (.point p)) [x, y]) [u, v]) ∧
      ∀ c, c ≠ .point p → c ≠ .point q → primGrad h' c = primGrad h c) := by
  obtain ⟨rfl, rfl⟩ : (h.lines l).start = p ∧ (h.lines l).stop = q := by simpa [primFields] using hr
  constructor
  · rintro ⟨w, hw, hf⟩
    have : (⟨x, y, u, v⟩ : Row4 F).allFinite = false := by
      simp only [List.mem_cons, List.not_mem_nil, or_false] at hw
      rcases hw with rfl | rfl | rfl | rfl <;> simp [Row4.allFinite, hf]
    rw [lineAddGrad, this]; rfl
  · intro hf
    have ht : (⟨x, y, u, v⟩ : Row4 F).allFinite = true := by
      simp [Row4.allFinite, hf x (by simp), hf y (by simp), hf u (by simp), hf v (by simp)]
    obtain ⟨h1, e1, g1, a1, b1⟩ := (C55_point_add h (h.lines l).start x y).2 fun w hw => hf w (by simp at hw ⊢; tauto)
    obtain ⟨h2, e2, g2, a2, b2⟩ := (C55_point_add h1 (h.lines l).stop u v).2 fun w hw => hf w (by simp at hw ⊢; tauto)
    refine ⟨h2, ?_, g1.trans g2, ?_, ?_, ?_⟩
    · rw [lineAddGrad, ht, if_pos rfl, e1]
      show pointAddGrad h1 (h1.lines l).stop ⟨u, v⟩ = _
      rw [g1.1.lines]; exact e2
    · intro hne
      refine ⟨by rw [b2 _ fun e => hne (PrimCell.point.inj e), a1], ?_⟩
      rw [a2, b1 _ fun e => hne (PrimCell.point.inj e).symm]
    · intro he
      rw [he, a2, ← he, a1]
    · intro c c1 c2
      rw [b2 c c2, b1 c c1]

/-- **C55.** `Arc::add_to_gradient` panics exactly on a non-finite entry, leaving everything; otherwise it adds the first two
entries to the gradient of the centre and the other three to its own, and changes nothing else. -/
theorem C55_arc_add (h : Heap F) (a : Nat) (x y r s t : F) (p : Nat) (hr : primFields h (.arc a) = [.point p]) :
    ((∃ w ∈ [x, y, r, s, t], Num.isFinite w = false) → arcAddGrad h a ⟨x, y, r, s, t⟩ = .error h) ∧
    ((∀ w ∈ [x, y, r, s, t], Num.isFinite w = true) → ∃ h', arcAddGrad h a ⟨x, y, r, s, t⟩ = .ok h' ∧ GradOnly h h' ∧
      primGrad h' (.point p) = List.zipWith (· + ·) (primGrad h (.point p)) [x, y] ∧
      primGrad h' (.arc a) = List.zipWith (· + ·) (primGrad h (.arc a)) [r, s, t] ∧
      ∀ c, c ≠ .point p → c ≠ .arc a → primGrad h' c = primGrad h c) := by
  obtain rfl : (h.arcs a).center = p := by simpa [primFields] using hr
  constructor
  · rintro ⟨w, hw, hf⟩
    have : (⟨x, y, r, s, t⟩ : Row5 F).allFinite = false := by
      simp only [List.mem_cons, List.not_mem_nil, or_false] at hw
      rcases hw with rfl | rfl | rfl | rfl | rfl <;> simp [Row5.allFinite, hf]
    rw [arcAddGrad, this]; rfl
  · intro hf
    have ht : (⟨x, y, r, s, t⟩ : Row5 F).allFinite = true := by
      simp [Row5.allFinite, hf x (by simp), hf y (by simp), hf r (by simp), hf s (by simp), hf t (by simp)]
    obtain ⟨h1, e1, g1, a1, b1⟩ := (C55_point_add h (h.arcs a).center x y).2 fun w hw => hf w (by simp at hw ⊢; tauto)
    have e2 : arcAddGrad h a ⟨x, y, r, s, t⟩ = .ok (h1.setArc a { h1.arcs a with grad := (h1.arcs a).grad + ⟨r, s, t⟩ }) := by
      rw [arcAddGrad, ht, if_pos rfl, e1]; rfl
    refine ⟨_, e2, ?_, ?_, ?_, ?_⟩
    · have := arcAddGrad_gradOnly h h a ⟨x, y, r, s, t⟩ (.refl h)
      rw [e2] at this
      exact this
    · rw [← a1]; rfl
    · have := b1 (.arc a) (by simp)
      rw [← this]
      simp only [primGrad, Heap.setArc, upd, if_true]; rfl
    · intro c c1 c2
      rw [← b1 c c1]
      cases c with
      | arc b =>
        have : b ≠ a := fun e => c2 (by rw [e])
        simp [primGrad, Heap.setArc, upd, this]
      | _ => rfl

/-- **C55.** `Circle::add_to_gradient` panics exactly on a non-finite entry, leaving everything; otherwise it adds the first two
entries to the gradient of the centre and the third to its own, and changes nothing else. -/
theorem C55_circle_add (h : Heap F) (a : Nat) (x y r : F) (p : Nat) (hr : primFields h (.circle a) = [.point p]) :
    ((∃ w ∈ [x, y, r], Num.isFinite w = false) → circleAddGrad h a ⟨x, y, r⟩ = .error h) ∧
    ((∀ w ∈ [x, y, r], Num.isFinite w = true) → ∃ h', circleAddGrad h a ⟨x, y, r⟩ = .ok h' ∧ GradOnly h h' ∧
      primGrad h' (.point p) = List.zipWith (· + ·) (primGrad h (.point p)) [x, y] ∧
      primGrad h' (.circle a) = List.zipWith (· + ·) (primGrad h (.circle a)) [r] ∧
      ∀ c, c ≠ .point p → c ≠ .circle a → primGrad h' c = primGrad h c) := by
  obtain rfl : (h.circles a).center = p := by simpa [primFields] using hr
  constructor
  · rintro ⟨w, hw, hf⟩
    have : (⟨x, y, r⟩ : Row3 F).allFinite = false := by
      simp only [List.mem_cons, List.not_mem_nil, or_false] at hw
      rcases hw with rfl | rfl | rfl <;> simp [Row3.allFinite, hf]
    rw [circleAddGrad, this]; rfl
  · intro hf
    have ht : (⟨x, y, r⟩ : Row3 F).allFinite = true := by
      simp [Row3.allFinite, hf x (by simp), hf y (by simp), hf r (by simp)]
    obtain ⟨h1, e1, g1, a1, b1⟩ := (C55_point_add h (h.circles a).center x y).2 fun w hw => hf w (by simp at hw ⊢; tauto)
    have e2 : circleAddGrad h a ⟨x, y, r⟩ = .ok (h1.setCircle a { h1.circles a with grad := (h1.circles a).grad + r }) := by
      rw [circleAddGrad, ht, if_pos rfl, e1]; rfl
    refine ⟨_, e2, ?_, ?_, ?_, ?_⟩
    · refine g1.trans ⟨⟨rfl, rfl, fun _ => rfl, fun _ => rfl, fun b => ?_, rfl, rfl, rfl, rfl, rfl⟩, fun c => ?_⟩
      · by_cases hb : b = a <;> simp [Heap.setCircle, upd, hb]
      · cases c with
        | circle b => by_cases hb : b = a <;> simp [primData, Heap.setCircle, upd, hb]
        | _ => rfl
    · rw [← a1]; rfl
    · have := b1 (.circle a) (by simp)
      rw [← this]
      simp [primGrad, Heap.setCircle, upd]
    · intro c c1 c2
      rw [← b1 c c1]
      cases c with
      | circle b =>
        have : b ≠ a := fun e => c2 (by rw [e])
        simp [primGrad, Heap.setCircle, upd, this]
      | _ => rfl

/-- **C23.** If `get_gradient` returns, all numbers it returns are finite (whatever the arithmetic). -/
theorem C23_gradient_finite (h h' : Heap F) (s : Sketch) (g : List F) (e : getGradient h s = .ok (g, h')) :
    ∀ x ∈ g, Num.isFinite x = true := by
  unfold getGradient at e
  cases hu : updateAll (zeroGrads h s) s.cons with
  | error h1 => rw [hu] at e; cases e
  | ok h1 =>
    rw [hu] at e
    dsimp only at e
    rw [collectGradient_eq] at e
    split at e
    · cases e
    · rename_i g' hg
      split at hg
      · rename_i hall
        obtain ⟨rfl, rfl⟩ := Prod.mk.inj (Except.ok.inj e)
        obtain rfl := Option.some.inj hg
        exact List.all_eq_true.1 hall
      · cases hg

/-- a case of each kind -/
example : (∃ w ∈ [XR.fin 1, .nan, .fin 2, .fin 3], Num.isFinite w = false) ∧ ∀ w ∈ [XR.fin 1, .fin 4, .fin 2], Num.isFinite w = true :=
  ⟨⟨.nan, by simp, rfl⟩, by simp [Num.isFinite, XR.isFinite]⟩

end Isotope
