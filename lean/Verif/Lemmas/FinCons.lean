import Verif.Lemmas.Force

/-!
# Finite constraints
-/

namespace Isotope
open XR

variable {h : Heap XR}

theorem finite_pt {p : Nat} (hf : ∀ x ∈ primData h (.point p), Num.isFinite x = true) :
    ∃ x y, ptData h p = ⟨fin x, fin y⟩ := by
  simp only [primData, List.mem_cons, List.not_mem_nil, or_false, forall_eq_or_imp, forall_eq] at hf
  obtain ⟨x, hx⟩ := (isFinite_iff _).1 hf.1
  obtain ⟨y, hy⟩ := (isFinite_iff _).1 hf.2
  exact ⟨x, y, by unfold ptData; rw [← hx, ← hy]⟩

theorem finite_arc {a : Nat} (hf : ∀ x ∈ primData h (.arc a), Num.isFinite x = true) :
    ∃ r s e, (h.arcs a).data = ⟨fin r, fin s, fin e⟩ := by
  simp only [primData, List.mem_cons, List.not_mem_nil, or_false, forall_eq_or_imp, forall_eq] at hf
  obtain ⟨x, hx⟩ := (isFinite_iff _).1 hf.1
  obtain ⟨y, hy⟩ := (isFinite_iff _).1 hf.2.1
  obtain ⟨z, hz⟩ := (isFinite_iff _).1 hf.2.2
  exact ⟨x, y, z, by rw [← hx, ← hy, ← hz]⟩

/-- The twelve kinds of constraints with finite data, spelled out. -/
inductive RealCons (h : Heap XR) : Constraint XR → Prop
  | angle {p1 p2 mid : Nat} {x1 y1 x2 y2 x y D : ℝ} (e1 : ptData h p1 = ⟨fin x1, fin y1⟩)
      (e2 : ptData h p2 = ⟨fin x2, fin y2⟩) (e : ptData h mid = ⟨fin x, fin y⟩) : RealCons h (.angle p1 p2 mid (fin D))
  | arcEnd {a p : Nat} {x y cx cy r t0 t1 : ℝ} (e : ptData h p = ⟨fin x, fin y⟩)
      (ec : ptData h (h.arcs a).center = ⟨fin cx, fin cy⟩) (ea : (h.arcs a).data = ⟨fin r, fin t0, fin t1⟩) :
      RealCons h (.arcEnd a p)
  | arcStart {a p : Nat} {x y cx cy r t0 t1 : ℝ} (e : ptData h p = ⟨fin x, fin y⟩)
      (ec : ptData h (h.arcs a).center = ⟨fin cx, fin cy⟩) (ea : (h.arcs a).data = ⟨fin r, fin t0, fin t1⟩) :
      RealCons h (.arcStart a p)
  | euclid {p1 p2 : Nat} {x1 y1 x2 y2 D : ℝ} (e1 : ptData h p1 = ⟨fin x1, fin y1⟩)
      (e2 : ptData h p2 = ⟨fin x2, fin y2⟩) : RealCons h (.euclid p1 p2 (fin D))
  | horizDist {p1 p2 : Nat} {x1 y1 x2 y2 D : ℝ} (e1 : ptData h p1 = ⟨fin x1, fin y1⟩)
      (e2 : ptData h p2 = ⟨fin x2, fin y2⟩) : RealCons h (.horizDist p1 p2 (fin D))
  | vertDist {p1 p2 : Nat} {x1 y1 x2 y2 D : ℝ} (e1 : ptData h p1 = ⟨fin x1, fin y1⟩)
      (e2 : ptData h p2 = ⟨fin x2, fin y2⟩) : RealCons h (.vertDist p1 p2 (fin D))
  | fix {p : Nat} {x y X Y : ℝ} (e : ptData h p = ⟨fin x, fin y⟩) : RealCons h (.fix p ⟨fin X, fin Y⟩)
  | eqLen {l m : Nat} {x1 y1 x2 y2 u1 v1 u2 v2 : ℝ} (e1 : lineStart h l = ⟨fin x1, fin y1⟩)
      (e2 : lineEnd h l = ⟨fin x2, fin y2⟩) (f1 : lineStart h m = ⟨fin u1, fin v1⟩)
      (f2 : lineEnd h m = ⟨fin u2, fin v2⟩) : RealCons h (.eqLen l m)
  | horizLine {l : Nat} {x1 y1 x2 y2 : ℝ} (e1 : lineStart h l = ⟨fin x1, fin y1⟩)
      (e2 : lineEnd h l = ⟨fin x2, fin y2⟩) : RealCons h (.horizLine l)
  | vertLine {l : Nat} {x1 y1 x2 y2 : ℝ} (e1 : lineStart h l = ⟨fin x1, fin y1⟩)
      (e2 : lineEnd h l = ⟨fin x2, fin y2⟩) : RealCons h (.vertLine l)
  | parallel {l m : Nat} {x1 y1 x2 y2 u1 v1 u2 v2 : ℝ} (e1 : lineStart h l = ⟨fin x1, fin y1⟩)
      (e2 : lineEnd h l = ⟨fin x2, fin y2⟩) (f1 : lineStart h m = ⟨fin u1, fin v1⟩)
      (f2 : lineEnd h m = ⟨fin u2, fin v2⟩) : RealCons h (.parallel l m)
  | perp {l m : Nat} {x1 y1 x2 y2 u1 v1 u2 v2 : ℝ} (e1 : lineStart h l = ⟨fin x1, fin y1⟩)
      (e2 : lineEnd h l = ⟨fin x2, fin y2⟩) (f1 : lineStart h m = ⟨fin u1, fin v1⟩)
      (f2 : lineEnd h m = ⟨fin u2, fin v2⟩) : RealCons h (.perp l m)

theorem FiniteCons.real {c : Constraint XR} (hf : FiniteCons h c) : RealCons h c := by
  obtain ⟨hd, hp⟩ := hf
  have P : ∀ p, PrimCell.point p ∈ consDeps h c → ∃ x y, ptData h p = ⟨fin x, fin y⟩ := fun p hp => finite_pt (hd _ hp)
  have A : ∀ a, PrimCell.arc a ∈ consDeps h c → ∃ r s e, (h.arcs a).data = ⟨fin r, fin s, fin e⟩ :=
    fun a ha => finite_arc (hd _ ha)
  cases c with
  | angle p1 p2 mid D =>
    obtain ⟨_, _, e1⟩ := P p1 (by simp [consDeps, consFields, primFields])
    obtain ⟨_, _, e2⟩ := P p2 (by simp [consDeps, consFields, primFields])
    obtain ⟨_, _, e⟩ := P mid (by simp [consDeps, consFields, primFields])
    obtain ⟨_, rfl⟩ := (isFinite_iff _).1 (hp D (by simp [consParams]))
    exact .angle e1 e2 e
  | arcEnd a p =>
    obtain ⟨_, _, e1⟩ := P p (by simp [consDeps, consFields, primFields])
    obtain ⟨_, _, e2⟩ := P (h.arcs a).center (by simp [consDeps, consFields, primFields])
    obtain ⟨_, _, _, e3⟩ := A a (by simp [consDeps, consFields, primFields])
    exact .arcEnd e1 e2 e3
  | arcStart a p =>
    obtain ⟨_, _, e1⟩ := P p (by simp [consDeps, consFields, primFields])
    obtain ⟨_, _, e2⟩ := P (h.arcs a).center (by simp [consDeps, consFields, primFields])
    obtain ⟨_, _, _, e3⟩ := A a (by simp [consDeps, consFields, primFields])
    exact .arcStart e1 e2 e3
  | euclid p1 p2 D =>
    obtain ⟨_, _, e1⟩ := P p1 (by simp [consDeps, consFields, primFields])
    obtain ⟨_, _, e2⟩ := P p2 (by simp [consDeps, consFields, primFields])
    obtain ⟨_, rfl⟩ := (isFinite_iff _).1 (hp D (by simp [consParams]))
    exact .euclid e1 e2
  | horizDist p1 p2 D =>
    obtain ⟨_, _, e1⟩ := P p1 (by simp [consDeps, consFields, primFields])
    obtain ⟨_, _, e2⟩ := P p2 (by simp [consDeps, consFields, primFields])
    obtain ⟨_, rfl⟩ := (isFinite_iff _).1 (hp D (by simp [consParams]))
    exact .horizDist e1 e2
  | vertDist p1 p2 D =>
    obtain ⟨_, _, e1⟩ := P p1 (by simp [consDeps, consFields, primFields])
    obtain ⟨_, _, e2⟩ := P p2 (by simp [consDeps, consFields, primFields])
    obtain ⟨_, rfl⟩ := (isFinite_iff _).1 (hp D (by simp [consParams]))
    exact .vertDist e1 e2
  | fix p D =>
    obtain ⟨X, Y⟩ := D
    obtain ⟨_, _, e1⟩ := P p (by simp [consDeps, consFields, primFields])
    obtain ⟨_, rfl⟩ := (isFinite_iff _).1 (hp X (by simp [consParams]))
    obtain ⟨_, rfl⟩ := (isFinite_iff _).1 (hp Y (by simp [consParams]))
    exact .fix e1
  | horizLine l =>
    obtain ⟨_, _, e1⟩ := P (h.lines l).start (by simp [consDeps, consFields, primFields])
    obtain ⟨_, _, e2⟩ := P (h.lines l).stop (by simp [consDeps, consFields, primFields])
    exact .horizLine e1 e2
  | vertLine l =>
    obtain ⟨_, _, e1⟩ := P (h.lines l).start (by simp [consDeps, consFields, primFields])
    obtain ⟨_, _, e2⟩ := P (h.lines l).stop (by simp [consDeps, consFields, primFields])
    exact .vertLine e1 e2
  | eqLen l m =>
    obtain ⟨_, _, e1⟩ := P (h.lines l).start (by simp [consDeps, consFields, primFields])
    obtain ⟨_, _, e2⟩ := P (h.lines l).stop (by simp [consDeps, consFields, primFields])
    obtain ⟨_, _, f1⟩ := P (h.lines m).start (by simp [consDeps, consFields, primFields])
    obtain ⟨_, _, f2⟩ := P (h.lines m).stop (by simp [consDeps, consFields, primFields])
    exact .eqLen e1 e2 f1 f2
  | parallel l m =>
    obtain ⟨_, _, e1⟩ := P (h.lines l).start (by simp [consDeps, consFields, primFields])
    obtain ⟨_, _, e2⟩ := P (h.lines l).stop (by simp [consDeps, consFields, primFields])
    obtain ⟨_, _, f1⟩ := P (h.lines m).start (by simp [consDeps, consFields, primFields])
    obtain ⟨_, _, f2⟩ := P (h.lines m).stop (by simp [consDeps, consFields, primFields])
    exact .parallel e1 e2 f1 f2
  | perp l m =>
    obtain ⟨_, _, e1⟩ := P (h.lines l).start (by simp [consDeps, consFields, primFields])
    obtain ⟨_, _, e2⟩ := P (h.lines l).stop (by simp [consDeps, consFields, primFields])
    obtain ⟨_, _, f1⟩ := P (h.lines m).start (by simp [consDeps, consFields, primFields])
    obtain ⟨_, _, f2⟩ := P (h.lines m).stop (by simp [consDeps, consFields, primFields])
    exact .perp e1 e2 f1 f2

theorem startPoint_fin {a : Nat} {cx cy r t0 t1 : ℝ}
    (ec : ptData h (h.arcs a).center = ⟨fin cx, fin cy⟩) (ea : (h.arcs a).data = ⟨fin r, fin t0, fin t1⟩) :
    (h.arcs a).startPoint h = ⟨fin (cx + r * Real.cos t0), fin (cy + r * Real.sin t0)⟩ := by
  simp only [ptData] at ec
  simp [Arc.startPoint, Arc.radius, Arc.startAngle, ec, ea]

theorem endPoint_fin {a : Nat} {cx cy r t0 t1 : ℝ}
    (ec : ptData h (h.arcs a).center = ⟨fin cx, fin cy⟩) (ea : (h.arcs a).data = ⟨fin r, fin t0, fin t1⟩) :
    (h.arcs a).endPoint h = ⟨fin (cx + r * Real.cos t1), fin (cy + r * Real.sin t1)⟩ := by
  simp only [ptData] at ec
  simp [Arc.endPoint, Arc.radius, Arc.endAngle, ec, ea]

/-- the loss of a finite constraint is a non-negative real -/
theorem RealCons.loss {c : Constraint XR} (hc : RealCons h c) : ∃ r, 0 ≤ r ∧ lossValue h c = fin r := by
  cases hc with
  | angle e1 e2 e => exact ⟨_, by positivity, loss_angle e1 e2 e⟩
  | arcEnd e ec ea => exact ⟨_, by positivity, loss_arcEnd e (endPoint_fin ec ea)⟩
  | arcStart e ec ea => exact ⟨_, by positivity, loss_arcStart e (startPoint_fin ec ea)⟩
  | euclid e1 e2 => exact ⟨_, by positivity, loss_euclid e1 e2⟩
  | horizDist e1 e2 => exact ⟨_, by positivity, loss_horiz e1 e2⟩
  | vertDist e1 e2 => exact ⟨_, by positivity, loss_vert e1 e2⟩
  | fix e => exact ⟨_, by positivity, loss_fix e⟩
  | eqLen e1 e2 f1 f2 => exact ⟨_, by positivity, loss_eqLen e1 e2 f1 f2⟩
  | horizLine e1 e2 => exact ⟨_, by positivity, loss_horizLine e1 e2⟩
  | vertLine e1 e2 => exact ⟨_, by positivity, loss_vertLine e1 e2⟩
  | parallel e1 e2 f1 f2 => exact ⟨_, by positivity, loss_parallel e1 e2 f1 f2⟩
  | perp e1 e2 f1 f2 => exact ⟨_, by positivity, loss_perp e1 e2 f1 f2⟩

/-- an `EqualLength` constraint with a line of length zero -/
def DegenerateEqLen (h : Heap XR) : Constraint XR → Prop
  | .eqLen l m => (lineStart h l = lineEnd h l) ∨ (lineStart h m = lineEnd h m)
  | _ => False

/-- contributions of a finite constraint are finite unless it is a degenerate `EqualLength` -/
theorem RealCons.chunks_finite {c : Constraint XR} (hc : RealCons h c) :
    (¬DegenerateEqLen h c → ∀ k ∈ chunks h c, k.finite = true) ∧
    (DegenerateEqLen h c → ∃ k ∈ chunks h c, k.finite = false) := by
  cases hc with
  | angle e1 e2 e =>
    refine ⟨fun _ => ?_, fun hd => hd.elim⟩
    rw [chunks_angle e1 e2 e]; dsimp only; split <;> simp [Chunk.finite, Vec2.allFinite]
  | arcEnd e ec ea =>
    refine ⟨fun _ => ?_, fun hd => hd.elim⟩
    rw [chunks_arcEnd e ec ea]; simp [Chunk.finite, Vec2.allFinite, Row5.allFinite]
  | arcStart e ec ea =>
    refine ⟨fun _ => ?_, fun hd => hd.elim⟩
    rw [chunks_arcStart e ec ea]; simp [Chunk.finite, Vec2.allFinite, Row5.allFinite]
  | euclid e1 e2 =>
    refine ⟨fun _ => ?_, fun hd => hd.elim⟩
    rw [chunks_euclid e1 e2]; dsimp only; split <;> simp [Chunk.finite, Vec2.allFinite]
  | horizDist e1 e2 =>
    refine ⟨fun _ => ?_, fun hd => hd.elim⟩
    rw [chunks_horiz e1 e2]; simp [Chunk.finite, Vec2.allFinite]
  | vertDist e1 e2 =>
    refine ⟨fun _ => ?_, fun hd => hd.elim⟩
    rw [chunks_vert e1 e2]; simp [Chunk.finite, Vec2.allFinite]
  | fix e =>
    refine ⟨fun _ => ?_, fun hd => hd.elim⟩
    rw [chunks_fix e]; simp [Chunk.finite, Vec2.allFinite]
  | @eqLen l m x1 y1 x2 y2 u1 v1 u2 v2 e1 e2 f1 f2 =>
    have k1 : lineStart h l = lineEnd h l ↔ hyp (x2 - x1) (y2 - y1) = 0 := by
      rw [e1, e2, hyp_eq_zero, sub_eq_zero, sub_eq_zero]; simp [eq_comm]
    have k2 : lineStart h m = lineEnd h m ↔ hyp (u2 - u1) (v2 - v1) = 0 := by
      rw [f1, f2, hyp_eq_zero, sub_eq_zero, sub_eq_zero]; simp [eq_comm]
    constructor
    · intro hd
      simp only [DegenerateEqLen, k1, k2, not_or] at hd
      rw [chunks_eqLen e1 e2 f1 f2 hd.1 hd.2]; simp [Chunk.finite, Row4.allFinite]
    · intro hd
      simp only [DegenerateEqLen, k1, k2] at hd
      exact chunks_eqLen_bad e1 e2 f1 f2 hd
  | horizLine e1 e2 =>
    refine ⟨fun _ => ?_, fun hd => hd.elim⟩
    rw [chunks_horizLine e1 e2]; simp [Chunk.finite, Row4.allFinite]
  | vertLine e1 e2 =>
    refine ⟨fun _ => ?_, fun hd => hd.elim⟩
    rw [chunks_vertLine e1 e2]; simp [Chunk.finite, Row4.allFinite]
  | parallel e1 e2 f1 f2 =>
    refine ⟨fun _ => ?_, fun hd => hd.elim⟩
    rw [chunks_parallel e1 e2 f1 f2]; dsimp only; split <;> simp [Chunk.finite, Row4.allFinite]
  | perp e1 e2 f1 f2 =>
    refine ⟨fun _ => ?_, fun hd => hd.elim⟩
    rw [chunks_perp e1 e2 f1 f2]; dsimp only; split <;> simp [Chunk.finite, Row4.allFinite]

end Isotope
