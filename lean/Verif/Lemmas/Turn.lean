import Verif.SpecTurn
import Verif.Lemmas.Alike
import Verif.Lemmas.Grad

/-!
# Turning a sketch: losses and contributions to the gradient
-/

namespace Isotope
open XR

namespace Turn
variable (t : Turn)

theorem e_sq : t.e * t.e = 1 := by unfold e; split <;> norm_num
theorem cs : t.c * t.c + t.s * t.s = 1 := by
  have := Real.cos_sq_add_sin_sq t.angle
  unfold c s; nlinarith

/-- first coordinate of a turned vector -/
noncomputable def u (a b : ℝ) : ℝ := t.c * a - t.e * t.s * b
/-- second coordinate of a turned vector -/
noncomputable def v (a b : ℝ) : ℝ := t.s * a + t.e * t.c * b

theorem vec_fin (a b : ℝ) : t.vec ⟨fin a, fin b⟩ = ⟨fin (t.u a b), fin (t.v a b)⟩ := by
  simp only [vec, u, v, mul_fin, sub_fin, add_fin]

theorem u_sub (a b a' b' : ℝ) : t.u a b - t.u a' b' = t.u (a - a') (b - b') := by unfold u; ring
theorem v_sub (a b a' b' : ℝ) : t.v a b - t.v a' b' = t.v (a - a') (b - b') := by unfold v; ring
theorem u_neg (a b : ℝ) : -t.u a b = t.u (-a) (-b) := by unfold u; ring
theorem v_neg (a b : ℝ) : -t.v a b = t.v (-a) (-b) := by unfold v; ring

theorem inner (a b a' b' : ℝ) : t.u a b * t.u a' b' + t.v a b * t.v a' b' = a * a' + b * b' := by
  unfold u v
  linear_combination (a * a' + b * b' * (t.e * t.e)) * t.cs + b * b' * t.e_sq

theorem cross (a b a' b' : ℝ) : t.u a b * t.v a' b' - t.v a b * t.u a' b' = t.e * (a * b' - b * a') := by
  unfold u v
  linear_combination t.e * (a * b' - b * a') * t.cs

theorem hyp_turn (a b : ℝ) : hyp (t.u a b) (t.v a b) = hyp a b := by
  unfold hyp; rw [inner]

theorem cos_dir (a : ℝ) : Real.cos (t.e * a + t.angle) = t.u (Real.cos a) (Real.sin a) := by
  unfold u
  rw [Real.cos_add, c, s, e]
  split <;> simp <;> ring

theorem sin_dir (a : ℝ) : Real.sin (t.e * a + t.angle) = t.v (Real.cos a) (Real.sin a) := by
  unfold v
  rw [Real.sin_add, c, s, e]
  split <;> simp <;> ring

end Turn

variable {h : Heap XR} (t : Turn)

theorem turn_pt {p : Nat} {x y : ℝ} (e : ptData h p = ⟨fin x, fin y⟩) : ptData (h.turn t) p = ⟨fin (t.u x y), fin (t.v x y)⟩ := by
  rw [← t.vec_fin, ← e]; rfl

theorem turn_lineStart {l : Nat} {x y : ℝ} (e : lineStart h l = ⟨fin x, fin y⟩) :
    lineStart (h.turn t) l = ⟨fin (t.u x y), fin (t.v x y)⟩ := turn_pt t e

theorem turn_lineEnd {l : Nat} {x y : ℝ} (e : lineEnd h l = ⟨fin x, fin y⟩) :
    lineEnd (h.turn t) l = ⟨fin (t.u x y), fin (t.v x y)⟩ := turn_pt t e

theorem turn_arc {a : Nat} {r t0 t1 : ℝ} (e : (h.arcs a).data = ⟨fin r, fin t0, fin t1⟩) :
    ((h.turn t).arcs a).data = ⟨fin r, fin (t.e * t0 + t.angle), fin (t.e * t1 + t.angle)⟩ := by
  show Row3.mk _ _ _ = _
  rw [e]
  simp only [Turn.dir, mul_fin, add_fin]

/-- the turned constraint is right if it does not speak of directions or the turn is by a multiple of 90 degrees -/
def Turnable (c : Constraint XR) : Prop := c.Directed → t.Square

theorem loss_of {p q : ℝ} {c c' : Constraint XR} {h' : Heap XR} (e : lossValue h c = fin q) (e' : lossValue h' c' = fin p) (w : p = q) :
    lossValue h' c' = lossValue h c := by rw [e, e', w]

theorem Turn.u_add (a b a' b' : ℝ) : t.u a b + t.u a' b' = t.u (a + a') (b + b') := by unfold Turn.u; ring
theorem Turn.v_add (a b a' b' : ℝ) : t.v a b + t.v a' b' = t.v (a + a') (b + b') := by unfold Turn.v; ring
theorem Turn.u_mul (k a b : ℝ) : k * t.u a b = t.u (k * a) (k * b) := by unfold Turn.u; ring
theorem Turn.v_mul (k a b : ℝ) : k * t.v a b = t.v (k * a) (k * b) := by unfold Turn.v; ring
theorem Turn.u_div (k a b : ℝ) : t.u a b / k = t.u (a / k) (b / k) := by unfold Turn.u; ring
theorem Turn.v_div (k a b : ℝ) : t.v a b / k = t.v (a / k) (b / k) := by unfold Turn.v; ring
theorem Turn.inner' (a b : ℝ) : t.u a b ^ 2 + t.v a b ^ 2 = a ^ 2 + b ^ 2 := by
  rw [_root_.sq, _root_.sq, Turn.inner]; ring

/-- a turn by a multiple of 180 degrees -/
theorem Turn.flat (hs : t.s = 0) : t.c * t.c = 1 := by have := t.cs; rw [hs] at this; linarith
/-- a turn by 90 or 270 degrees -/
theorem Turn.upright (hs : t.Square) (h0 : t.s ≠ 0) : t.c = 0 ∧ t.s * t.s = 1 := by
  have h1 := hs.resolve_left h0
  have := t.cs; rw [h1] at this; exact ⟨h1, by linarith⟩

theorem turn_loss {c : Constraint XR} (hc : RealCons h c) (ht : Turnable t c) : lossValue (h.turn t) (c.turn t) = lossValue h c := by
  cases hc with
  | angle e1 e2 e =>
    refine loss_of (loss_angle e1 e2 e) (loss_angle (turn_pt t e1) (turn_pt t e2) (turn_pt t e)) ?_
    simp only [Turn.u_sub, Turn.v_sub, angleOf, Turn.hyp_turn, Turn.inner]
  | arcEnd e ec ea =>
    refine loss_of (loss_arcEnd e (endPoint_fin ec ea)) (loss_arcEnd (turn_pt t e) (endPoint_fin (turn_pt t ec) (turn_arc t ea))) ?_
    simp only [Turn.cos_dir, Turn.sin_dir, Turn.u_mul, Turn.v_mul, Turn.u_add, Turn.v_add, Turn.u_sub, Turn.v_sub, Turn.inner']
  | arcStart e ec ea =>
    refine loss_of (loss_arcStart e (startPoint_fin ec ea)) (loss_arcStart (turn_pt t e) (startPoint_fin (turn_pt t ec) (turn_arc t ea))) ?_
    simp only [Turn.cos_dir, Turn.sin_dir, Turn.u_mul, Turn.v_mul, Turn.u_add, Turn.v_add, Turn.u_sub, Turn.v_sub, Turn.inner']
  | euclid e1 e2 =>
    refine loss_of (loss_euclid e1 e2) (loss_euclid (turn_pt t e1) (turn_pt t e2)) ?_
    simp only [Turn.u_sub, Turn.v_sub, Turn.hyp_turn]
  | @horizDist p1 p2 x1 y1 x2 y2 D e1 e2 =>
    by_cases hs : t.s = 0
    · have hc : (Constraint.horizDist p1 p2 (fin D)).turn t = .horizDist p1 p2 (fin (t.c * D)) := by simp only [Constraint.turn, if_pos hs, mul_fin]
      rw [hc]
      refine loss_of (loss_horiz e1 e2) (loss_horiz (turn_pt t e1) (turn_pt t e2)) ?_
      unfold Turn.u; rw [hs]
      linear_combination (x2 - x1 - D) ^ 2 / 2 * t.flat hs
    · obtain ⟨h1, h2⟩ := t.upright (ht trivial) hs
      have hc : (Constraint.horizDist p1 p2 (fin D)).turn t = .vertDist p1 p2 (fin (t.s * D)) := by simp only [Constraint.turn, if_neg hs, mul_fin]
      rw [hc]
      refine loss_of (loss_horiz e1 e2) (loss_vert (turn_pt t e1) (turn_pt t e2)) ?_
      unfold Turn.v; rw [h1]
      linear_combination (x2 - x1 - D) ^ 2 / 2 * h2
  | @vertDist p1 p2 x1 y1 x2 y2 D e1 e2 =>
    by_cases hs : t.s = 0
    · have hc : (Constraint.vertDist p1 p2 (fin D)).turn t = .vertDist p1 p2 (fin (t.e * t.c * D)) := by simp only [Constraint.turn, if_pos hs, mul_fin]
      rw [hc]
      refine loss_of (loss_vert e1 e2) (loss_vert (turn_pt t e1) (turn_pt t e2)) ?_
      unfold Turn.v; rw [hs]
      linear_combination (y2 - y1 - D) ^ 2 / 2 * (t.e * t.e) * t.flat hs + (y2 - y1 - D) ^ 2 / 2 * t.e_sq
    · obtain ⟨h1, h2⟩ := t.upright (ht trivial) hs
      have hc : (Constraint.vertDist p1 p2 (fin D)).turn t = .horizDist p1 p2 (fin (-(t.e * t.s) * D)) := by simp only [Constraint.turn, if_neg hs, mul_fin]
      rw [hc]
      refine loss_of (loss_vert e1 e2) (loss_horiz (turn_pt t e1) (turn_pt t e2)) ?_
      unfold Turn.u; rw [h1]
      linear_combination (y2 - y1 - D) ^ 2 / 2 * (t.e * t.e) * h2 + (y2 - y1 - D) ^ 2 / 2 * t.e_sq
  | @fix p x y X Y e =>
    have hc : (Constraint.fix p ⟨fin X, fin Y⟩).turn t = .fix p ⟨fin (t.u X Y), fin (t.v X Y)⟩ := by rw [← Turn.vec_fin]; rfl
    rw [hc]
    refine loss_of (loss_fix e) (loss_fix (turn_pt t e)) ?_
    simp only [Turn.u_sub, Turn.v_sub, Turn.inner']
  | eqLen e1 e2 f1 f2 =>
    refine loss_of (loss_eqLen e1 e2 f1 f2) (loss_eqLen (turn_lineStart t e1) (turn_lineEnd t e2) (turn_lineStart t f1) (turn_lineEnd t f2)) ?_
    simp only [Turn.u_sub, Turn.v_sub, Turn.hyp_turn]
  | @horizLine l x1 y1 x2 y2 e1 e2 =>
    by_cases hs : t.s = 0
    · have hc : (Constraint.horizLine l : Constraint XR).turn t = .horizLine l := by simp only [Constraint.turn, if_pos hs]
      rw [hc]
      refine loss_of (loss_horizLine e1 e2) (loss_horizLine (turn_lineStart t e1) (turn_lineEnd t e2)) ?_
      unfold Turn.v; rw [hs]
      linear_combination (y2 - y1) ^ 2 / 2 * (t.e * t.e) * t.flat hs + (y2 - y1) ^ 2 / 2 * t.e_sq
    · obtain ⟨h1, h2⟩ := t.upright (ht trivial) hs
      have hc : (Constraint.horizLine l : Constraint XR).turn t = .vertLine l := by simp only [Constraint.turn, if_neg hs]
      rw [hc]
      refine loss_of (loss_horizLine e1 e2) (loss_vertLine (turn_lineStart t e1) (turn_lineEnd t e2)) ?_
      unfold Turn.u; rw [h1]
      linear_combination (y2 - y1) ^ 2 / 2 * (t.e * t.e) * h2 + (y2 - y1) ^ 2 / 2 * t.e_sq
  | @vertLine l x1 y1 x2 y2 e1 e2 =>
    by_cases hs : t.s = 0
    · have hc : (Constraint.vertLine l : Constraint XR).turn t = .vertLine l := by simp only [Constraint.turn, if_pos hs]
      rw [hc]
      refine loss_of (loss_vertLine e1 e2) (loss_vertLine (turn_lineStart t e1) (turn_lineEnd t e2)) ?_
      unfold Turn.u; rw [hs]
      linear_combination (x2 - x1) ^ 2 / 2 * t.flat hs
    · obtain ⟨h1, h2⟩ := t.upright (ht trivial) hs
      have hc : (Constraint.vertLine l : Constraint XR).turn t = .horizLine l := by simp only [Constraint.turn, if_neg hs]
      rw [hc]
      refine loss_of (loss_vertLine e1 e2) (loss_horizLine (turn_lineStart t e1) (turn_lineEnd t e2)) ?_
      unfold Turn.v; rw [h1]
      linear_combination (x2 - x1) ^ 2 / 2 * h2
  | parallel e1 e2 f1 f2 =>
    refine loss_of (loss_parallel e1 e2 f1 f2) (loss_parallel (turn_lineStart t e1) (turn_lineEnd t e2) (turn_lineStart t f1) (turn_lineEnd t f2)) ?_
    simp only [Turn.u_sub, Turn.v_sub, crossOf, Turn.hyp_turn, Turn.cross]
    split
    · rfl
    · rw [mul_div_assoc, mul_pow, _root_.sq t.e, t.e_sq, one_mul]
  | perp e1 e2 f1 f2 =>
    refine loss_of (loss_perp e1 e2 f1 f2) (loss_perp (turn_lineStart t e1) (turn_lineEnd t e2) (turn_lineStart t f1) (turn_lineEnd t f2)) ?_
    simp only [Turn.u_sub, Turn.v_sub, dotOf, Turn.hyp_turn, Turn.inner]

/-! ## Contributions to the gradient -/

/-- the contribution turned -/
noncomputable def Chunk.turn : Chunk XR → Chunk XR
  | .point a g => .point a (t.vec g)
  | .line l g => .line l ⟨(t.vec ⟨g.a0, g.a1⟩).x, (t.vec ⟨g.a0, g.a1⟩).y, (t.vec ⟨g.a2, g.a3⟩).x, (t.vec ⟨g.a2, g.a3⟩).y⟩
  | .arc a g => .arc a ⟨(t.vec ⟨g.a0, g.a1⟩).x, (t.vec ⟨g.a0, g.a1⟩).y, g.a2, fin t.e * g.a3, fin t.e * g.a4⟩

theorem chunk_point (a : Nat) (x y : ℝ) : Chunk.turn t (.point a ⟨fin x, fin y⟩) = .point a ⟨fin (t.u x y), fin (t.v x y)⟩ := by
  rw [Chunk.turn, Turn.vec_fin]

theorem chunk_line (a : Nat) (x y z w : ℝ) : Chunk.turn t (.line a ⟨fin x, fin y, fin z, fin w⟩) =
    .line a ⟨fin (t.u x y), fin (t.v x y), fin (t.u z w), fin (t.v z w)⟩ := by
  simp only [Chunk.turn, Turn.vec_fin]

theorem chunk_arc (a : Nat) (x y r p q : ℝ) : Chunk.turn t (.arc a ⟨fin x, fin y, fin r, fin p, fin q⟩) =
    .arc a ⟨fin (t.u x y), fin (t.v x y), fin r, fin (t.e * p), fin (t.e * q)⟩ := by
  simp only [Chunk.turn, Turn.vec_fin, mul_fin]

theorem turn_angleForce (a b c d D : ℝ) : angleForce (t.u a b) (t.v a b) (t.u c d) (t.v c d) D =
    (t.u (angleForce a b c d D).1 (angleForce a b c d D).2, t.v (angleForce a b c d D).1 (angleForce a b c d D).2) := by
  unfold angleForce
  simp only [Turn.hyp_turn, Turn.inner]
  simp only [Turn.u_div, Turn.v_div, Turn.u_mul, Turn.v_mul, Turn.u_add, Turn.v_add]

theorem crossForce_eq {a b c d : ℝ} (h1 : hyp a b ≠ 0) : crossForce a b c d =
    let k := (a * d - b * c) * (a * c + b * d) / (hyp a b * hyp a b * (hyp c d * hyp c d) * (a * a + b * b))
    (k * b, k * -a) := by
  have hq : a ^ 2 + b ^ 2 ≠ 0 := by rw [_root_.sq, _root_.sq, ← hyp_mul_self]; exact mul_ne_zero h1 h1
  unfold crossForce
  by_cases h2 : hyp c d = 0
  · simp [h2]
  · simp only [← _root_.sq]
    ext <;> dsimp only <;> field_simp <;> ring

theorem dotForce_eq {a b c d : ℝ} (h1 : hyp a b ≠ 0) : dotForce a b c d =
    let k := (a * c + b * d) * -(a * d - b * c) / (hyp a b * hyp a b * (hyp c d * hyp c d) * (a * a + b * b))
    (k * b, k * -a) := by
  have hq : a ^ 2 + b ^ 2 ≠ 0 := by rw [_root_.sq, _root_.sq, ← hyp_mul_self]; exact mul_ne_zero h1 h1
  unfold dotForce
  by_cases h2 : hyp c d = 0
  · simp [h2]
  · simp only [← _root_.sq]
    ext <;> dsimp only <;> field_simp <;> ring

theorem turn_crossForce {a b c d : ℝ} (h1 : hyp a b ≠ 0) : crossForce (t.u a b) (t.v a b) (t.u c d) (t.v c d) =
    (t.u (crossForce a b c d).1 (crossForce a b c d).2, t.v (crossForce a b c d).1 (crossForce a b c d).2) := by
  rw [crossForce_eq h1, crossForce_eq (by rwa [Turn.hyp_turn])]
  dsimp only
  simp only [Turn.hyp_turn, Turn.inner, Turn.cross]
  generalize hk : hyp a b * hyp a b * (hyp c d * hyp c d) * (a * a + b * b) = k
  generalize (a * d - b * c) = x
  generalize (a * c + b * d) = y
  unfold Turn.u Turn.v
  ext <;> dsimp only
  · linear_combination x * y / k * t.c * b * t.e_sq
  · linear_combination x * y / k * t.s * b * t.e_sq

theorem turn_dotForce {a b c d : ℝ} (h1 : hyp a b ≠ 0) : dotForce (t.u a b) (t.v a b) (t.u c d) (t.v c d) =
    (t.u (dotForce a b c d).1 (dotForce a b c d).2, t.v (dotForce a b c d).1 (dotForce a b c d).2) := by
  rw [dotForce_eq h1, dotForce_eq (by rwa [Turn.hyp_turn])]
  dsimp only
  simp only [Turn.hyp_turn, Turn.inner, Turn.cross]
  generalize hk : hyp a b * hyp a b * (hyp c d * hyp c d) * (a * a + b * b) = k
  generalize (a * d - b * c) = x
  generalize (a * c + b * d) = y
  unfold Turn.u Turn.v
  ext <;> dsimp only
  · linear_combination - x * y / k * t.c * b * t.e_sq
  · linear_combination - x * y / k * t.s * b * t.e_sq

theorem turn_degenerate {c : Constraint XR} (hc : RealCons h c) : DegenerateEqLen (h.turn t) (c.turn t) ↔ DegenerateEqLen h c := by
  have key : ∀ {x y x' y' : ℝ}, ((⟨fin (t.u x y), fin (t.v x y)⟩ : Vec2 XR) = ⟨fin (t.u x' y'), fin (t.v x' y')⟩) ↔
      ((⟨fin x, fin y⟩ : Vec2 XR) = ⟨fin x', fin y'⟩) := by
    intro x y x' y'
    have q : ∀ a b a' b' : ℝ, ((⟨fin a, fin b⟩ : Vec2 XR) = ⟨fin a', fin b'⟩) ↔ hyp (a - a') (b - b') = 0 := by
      intro a b a' b'
      rw [hyp_eq_zero, sub_eq_zero, sub_eq_zero, Vec2.mk.injEq, fin.injEq, fin.injEq]
    rw [q, q, Turn.u_sub, Turn.v_sub, Turn.hyp_turn]
  cases hc with
  | eqLen e1 e2 f1 f2 =>
    show _ ∨ _ ↔ _ ∨ _
    rw [e1, e2, f1, f2, turn_lineStart t e1, turn_lineStart t f1, turn_lineEnd t e2, turn_lineEnd t f2, key, key]
  | horizDist _ _ => simp only [Constraint.turn]; split <;> exact Iff.rfl
  | vertDist _ _ => simp only [Constraint.turn]; split <;> exact Iff.rfl
  | horizLine _ _ => simp only [Constraint.turn]; split <;> exact Iff.rfl
  | vertLine _ _ => simp only [Constraint.turn]; split <;> exact Iff.rfl
  | _ => exact Iff.rfl

theorem turn_chunks {c : Constraint XR} (hc : RealCons h c) (ht : Turnable t c) (hd : ¬DegenerateEqLen h c) :
    chunks (h.turn t) (c.turn t) = (chunks h c).map (Chunk.turn t) := by
  cases hc with
  | angle e1 e2 e =>
    refine (chunks_angle (turn_pt t e1) (turn_pt t e2) (turn_pt t e)).trans ?_
    rw [chunks_angle e1 e2 e]
    simp only [Turn.u_sub, Turn.v_sub, Turn.hyp_turn, Turn.inner, turn_angleForce]
    split
    · rfl
    · simp only [List.map_cons, List.map_nil, chunk_point, Turn.u_neg, Turn.v_neg, Turn.u_sub, Turn.v_sub]
  | @arcEnd a p x y cx cy r t0 t1 e ec ea =>
    refine (chunks_arcEnd (turn_pt t e) (turn_pt t ec) (turn_arc t ea)).trans ?_
    rw [chunks_arcEnd e ec ea]
    dsimp only
    rw [Turn.cos_dir, Turn.sin_dir]
    have hu : t.u cx cy + r * t.u (Real.cos t1) (Real.sin t1) - t.u x y = t.u (cx + r * Real.cos t1 - x) (cy + r * Real.sin t1 - y) := by
      rw [Turn.u_mul, Turn.u_add, Turn.u_sub]
    have hv : t.v cx cy + r * t.v (Real.cos t1) (Real.sin t1) - t.v x y = t.v (cx + r * Real.cos t1 - x) (cy + r * Real.sin t1 - y) := by
      rw [Turn.v_mul, Turn.v_add, Turn.v_sub]
    rw [hu, hv]
    generalize cx + r * Real.cos t1 - x = U
    generalize cy + r * Real.sin t1 - y = V
    have q : t.u U V * (-r * t.v (Real.cos t1) (Real.sin t1)) + t.v U V * (r * t.u (Real.cos t1) (Real.sin t1)) =
        t.e * (U * (-r * Real.sin t1) + V * (r * Real.cos t1)) := by
      linear_combination (-r) * t.cross U V (Real.cos t1) (Real.sin t1)
    simp only [List.map_cons, List.map_nil, chunk_point, chunk_arc, Turn.inner, q, Turn.u_neg, Turn.v_neg, mul_zero]
  | @arcStart a p x y cx cy r t0 t1 e ec ea =>
    refine (chunks_arcStart (turn_pt t e) (turn_pt t ec) (turn_arc t ea)).trans ?_
    rw [chunks_arcStart e ec ea]
    dsimp only
    rw [Turn.cos_dir, Turn.sin_dir]
    have hu : t.u cx cy + r * t.u (Real.cos t0) (Real.sin t0) - t.u x y = t.u (cx + r * Real.cos t0 - x) (cy + r * Real.sin t0 - y) := by
      rw [Turn.u_mul, Turn.u_add, Turn.u_sub]
    have hv : t.v cx cy + r * t.v (Real.cos t0) (Real.sin t0) - t.v x y = t.v (cx + r * Real.cos t0 - x) (cy + r * Real.sin t0 - y) := by
      rw [Turn.v_mul, Turn.v_add, Turn.v_sub]
    rw [hu, hv]
    generalize cx + r * Real.cos t0 - x = U
    generalize cy + r * Real.sin t0 - y = V
    have q : t.u U V * (-r * t.v (Real.cos t0) (Real.sin t0)) + t.v U V * (r * t.u (Real.cos t0) (Real.sin t0)) =
        t.e * (U * (-r * Real.sin t0) + V * (r * Real.cos t0)) := by
      linear_combination (-r) * t.cross U V (Real.cos t0) (Real.sin t0)
    simp only [List.map_cons, List.map_nil, chunk_point, chunk_arc, Turn.inner, q, Turn.u_neg, Turn.v_neg, mul_zero]
  | euclid e1 e2 =>
    refine (chunks_euclid (turn_pt t e1) (turn_pt t e2)).trans ?_
    rw [chunks_euclid e1 e2]
    simp only [Turn.u_sub, Turn.v_sub, Turn.hyp_turn]
    split
    · rfl
    · simp only [List.map_cons, List.map_nil, chunk_point, Turn.u_div, Turn.v_div, Turn.u_mul, Turn.v_mul, Turn.u_neg, Turn.v_neg]
  | @horizDist p1 p2 x1 y1 x2 y2 D e1 e2 =>
    rw [chunks_horiz e1 e2]
    by_cases hs : t.s = 0
    · have hc : (Constraint.horizDist p1 p2 (fin D)).turn t = .horizDist p1 p2 (fin (t.c * D)) := by simp only [Constraint.turn, if_pos hs, mul_fin]
      rw [hc, chunks_horiz (turn_pt t e1) (turn_pt t e2)]
      simp only [List.map_cons, List.map_nil, chunk_point, Turn.u, Turn.v, hs]
      ring_nf
    · obtain ⟨h1, h2⟩ := t.upright (ht trivial) hs
      have hc : (Constraint.horizDist p1 p2 (fin D)).turn t = .vertDist p1 p2 (fin (t.s * D)) := by simp only [Constraint.turn, if_neg hs, mul_fin]
      rw [hc, chunks_vert (turn_pt t e1) (turn_pt t e2)]
      simp only [List.map_cons, List.map_nil, chunk_point, Turn.u, Turn.v, h1]
      ring_nf
  | @vertDist p1 p2 x1 y1 x2 y2 D e1 e2 =>
    rw [chunks_vert e1 e2]
    by_cases hs : t.s = 0
    · have hc : (Constraint.vertDist p1 p2 (fin D)).turn t = .vertDist p1 p2 (fin (t.e * t.c * D)) := by simp only [Constraint.turn, if_pos hs, mul_fin]
      rw [hc, chunks_vert (turn_pt t e1) (turn_pt t e2)]
      simp only [List.map_cons, List.map_nil, chunk_point, Turn.u, Turn.v, hs]
      ring_nf
    · obtain ⟨h1, h2⟩ := t.upright (ht trivial) hs
      have hc : (Constraint.vertDist p1 p2 (fin D)).turn t = .horizDist p1 p2 (fin (-(t.e * t.s) * D)) := by simp only [Constraint.turn, if_neg hs, mul_fin]
      rw [hc, chunks_horiz (turn_pt t e1) (turn_pt t e2)]
      simp only [List.map_cons, List.map_nil, chunk_point, Turn.u, Turn.v, h1]
      ring_nf
  | @fix p x y X Y e =>
    have hc : (Constraint.fix p ⟨fin X, fin Y⟩).turn t = .fix p ⟨fin (t.u X Y), fin (t.v X Y)⟩ := by rw [← Turn.vec_fin]; rfl
    rw [hc, chunks_fix e, chunks_fix (turn_pt t e)]
    simp only [List.map_cons, List.map_nil, chunk_point, Turn.u_sub, Turn.v_sub]
  | @eqLen l m x1 y1 x2 y2 u1 v1 u2 v2 e1 e2 f1 f2 =>
    have hn : hyp (x2 - x1) (y2 - y1) ≠ 0 ∧ hyp (u2 - u1) (v2 - v1) ≠ 0 := by
      constructor
      · intro hh
        obtain ⟨q1, q2⟩ := hyp_eq_zero.1 hh
        exact hd (.inl (by rw [e1, e2, sub_eq_zero.1 q1, sub_eq_zero.1 q2]))
      · intro hh
        obtain ⟨q1, q2⟩ := hyp_eq_zero.1 hh
        exact hd (.inr (by rw [f1, f2, sub_eq_zero.1 q1, sub_eq_zero.1 q2]))
    refine (chunks_eqLen (turn_lineStart t e1) (turn_lineEnd t e2) (turn_lineStart t f1) (turn_lineEnd t f2)
      (by rw [Turn.u_sub, Turn.v_sub, Turn.hyp_turn]; exact hn.1) (by rw [Turn.u_sub, Turn.v_sub, Turn.hyp_turn]; exact hn.2)).trans ?_
    rw [chunks_eqLen e1 e2 f1 f2 hn.1 hn.2]
    simp only [List.map_cons, List.map_nil, chunk_line, Turn.u_sub, Turn.v_sub, Turn.hyp_turn, Turn.u_neg, Turn.v_neg, Turn.u_div, Turn.v_div,
      Turn.u_mul, Turn.v_mul]
  | @horizLine l x1 y1 x2 y2 e1 e2 =>
    rw [chunks_horizLine e1 e2]
    by_cases hs : t.s = 0
    · have hc : (Constraint.horizLine l : Constraint XR).turn t = .horizLine l := by simp only [Constraint.turn, if_pos hs]
      rw [hc, chunks_horizLine (turn_lineStart t e1) (turn_lineEnd t e2)]
      simp only [List.map_cons, List.map_nil, chunk_line, Turn.u, Turn.v, hs]
      ring_nf
    · obtain ⟨h1, h2⟩ := t.upright (ht trivial) hs
      have hc : (Constraint.horizLine l : Constraint XR).turn t = .vertLine l := by simp only [Constraint.turn, if_neg hs]
      rw [hc, chunks_vertLine (turn_lineStart t e1) (turn_lineEnd t e2)]
      simp only [List.map_cons, List.map_nil, chunk_line, Turn.u, Turn.v, h1]
      ring_nf
  | @vertLine l x1 y1 x2 y2 e1 e2 =>
    rw [chunks_vertLine e1 e2]
    by_cases hs : t.s = 0
    · have hc : (Constraint.vertLine l : Constraint XR).turn t = .vertLine l := by simp only [Constraint.turn, if_pos hs]
      rw [hc, chunks_vertLine (turn_lineStart t e1) (turn_lineEnd t e2)]
      simp only [List.map_cons, List.map_nil, chunk_line, Turn.u, Turn.v, hs]
      ring_nf
    · obtain ⟨h1, h2⟩ := t.upright (ht trivial) hs
      have hc : (Constraint.vertLine l : Constraint XR).turn t = .horizLine l := by simp only [Constraint.turn, if_neg hs]
      rw [hc, chunks_horizLine (turn_lineStart t e1) (turn_lineEnd t e2)]
      simp only [List.map_cons, List.map_nil, chunk_line, Turn.u, Turn.v, h1]
      ring_nf
  | @parallel l m x1 y1 x2 y2 u1 v1 u2 v2 e1 e2 f1 f2 =>
    refine (chunks_parallel (turn_lineStart t e1) (turn_lineEnd t e2) (turn_lineStart t f1) (turn_lineEnd t f2)).trans ?_
    rw [chunks_parallel e1 e2 f1 f2]
    simp only [Turn.u_sub, Turn.v_sub, Turn.hyp_turn]
    split
    · rfl
    · rename_i hn
      rw [not_or] at hn
      rw [turn_crossForce t hn.1, turn_crossForce t hn.2]
      simp only [List.map_cons, List.map_nil, chunk_line, Turn.u_neg, Turn.v_neg]
  | @perp l m x1 y1 x2 y2 u1 v1 u2 v2 e1 e2 f1 f2 =>
    refine (chunks_perp (turn_lineStart t e1) (turn_lineEnd t e2) (turn_lineStart t f1) (turn_lineEnd t f2)).trans ?_
    rw [chunks_perp e1 e2 f1 f2]
    simp only [Turn.u_sub, Turn.v_sub, Turn.hyp_turn]
    split
    · rfl
    · rename_i hn
      rw [not_or] at hn
      rw [turn_dotForce t hn.1, turn_dotForce t hn.2]
      simp only [List.map_cons, List.map_nil, chunk_line, Turn.u_neg, Turn.v_neg]

end Isotope
