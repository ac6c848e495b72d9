import Verif.SpecLong
import Verif.Lemmas.TurnRate
import Verif.Lemmas.Forest
import Verif.Lemmas.LocalGD

/-!
# Line searches among perpendicular and parallel constraints of long lines
-/

namespace Isotope
open XR Matrix

variable {h : Heap XR} {s : Sketch} {x d : Fin (getNDofs h s) → ℝ}

/-- the direction of a line while the data moves along `x + t d` -/
noncomputable def lineArm (h : Heap XR) (s : Sketch) (x d : Fin (getNDofs h s) → ℝ) (l : Nat) : Arm where
  a := coordOf h s x (.px (h.lines l).stop) - coordOf h s x (.px (h.lines l).start)
  b := coordOf h s x (.py (h.lines l).stop) - coordOf h s x (.py (h.lines l).start)
  p := lift h s d (.px (h.lines l).stop) - lift h s d (.px (h.lines l).start)
  q := lift h s d (.py (h.lines l).stop) - lift h s d (.py (h.lines l).start)

theorem coordOf_along (t : ℝ) (e : Dof) : coordOf h s (x + t • d) e = coordOf h s x e + t * lift h s d e := by
  have h1 := congrFun (coordOf_sub (x + t • d) x) e
  have h2 : lift h s (x + t • d - x) e = t * lift h s d e := by
    rw [add_sub_cancel_left]
    unfold lift
    rw [map_smul, smul_eq_mul]
  rw [Pi.sub_apply, h2] at h1
  linarith

theorem lineArm_x (l : Nat) (t : ℝ) : (lineArm h s x d l).x t =
    coordOf h s (x + t • d) (.px (h.lines l).stop) - coordOf h s (x + t • d) (.px (h.lines l).start) := by
  rw [coordOf_along, coordOf_along]; unfold Arm.x lineArm; ring

theorem lineArm_y (l : Nat) (t : ℝ) : (lineArm h s x d l).y t =
    coordOf h s (x + t • d) (.py (h.lines l).stop) - coordOf h s (x + t • d) (.py (h.lines l).start) := by
  rw [coordOf_along, coordOf_along]; unfold Arm.y lineArm; ring

/-- every constraint compares the directions of two lines at least `len` long -/
def LongAt (h : Heap XR) (s : Sketch) (len : ℝ) (v : Fin (getNDofs h s) → ℝ) : Prop :=
  ∀ k ∈ s.cons, ∃ l m, (h.cons k = .perp l m ∨ h.cons k = .parallel l m) ∧
    len ^ 2 ≤ (lineArm h s v 0 l).sq 0 ∧ len ^ 2 ≤ (lineArm h s v 0 m).sq 0

theorem lineArm_sq (l : Nat) (t : ℝ) : (lineArm h s x d l).sq t = (lineArm h s (x + t • d) 0 l).sq 0 := by
  unfold Arm.sq
  rw [lineArm_x, lineArm_y, lineArm_x, lineArm_y]
  simp

theorem lineArm_proper {v : Fin (getNDofs h s) → ℝ} {l : Nat} : ProperLine (h.withDofs (coordOf h s v)) l ↔ (lineArm h s v 0 l).sq 0 ≠ 0 := by
  unfold ProperLine
  rw [← dist_ne_zero]
  have e : dist (ptOf (h.withDofs (coordOf h s v)) (h.lines l).start) (ptOf (h.withDofs (coordOf h s v)) (h.lines l).stop) =
      hyp (coordOf h s v (.px (h.lines l).start) - coordOf h s v (.px (h.lines l).stop))
        (coordOf h s v (.py (h.lines l).start) - coordOf h s v (.py (h.lines l).stop)) := (hyp_pt _ _ _ _).symm
  show dist (ptOf (h.withDofs (coordOf h s v)) (h.lines l).start) (ptOf (h.withDofs (coordOf h s v)) (h.lines l).stop) ≠ 0 ↔ _
  rw [e, ne_eq, hyp_eq_zero, ne_eq, Arm.sq, lineArm_x, lineArm_y]
  simp only [zero_smul, add_zero]
  generalize coordOf h s v (.px (h.lines l).start) = a; generalize coordOf h s v (.px (h.lines l).stop) = b
  generalize coordOf h s v (.py (h.lines l).start) = a'; generalize coordOf h s v (.py (h.lines l).stop) = b'
  rw [not_iff_not]
  constructor
  · rintro ⟨h1, h2⟩
    rw [show b - a = 0 by linarith, show b' - a' = 0 by linarith]; ring
  · intro hh
    have h1 := sq_nonneg (b - a)
    have h2 := sq_nonneg (b' - a')
    have h3 := pow_eq_zero_iff (n := 2) (by norm_num) |>.1 (show (b - a) ^ 2 = 0 by linarith)
    have h4 := pow_eq_zero_iff (n := 2) (by norm_num) |>.1 (show (b' - a') ^ 2 = 0 by linarith)
    constructor <;> linarith

theorem LongAt.good {len : ℝ} (hl : 0 < len) {v : Fin (getNDofs h s) → ℝ} (hv : LongAt h s len v) : Good h s v := by
  intro k hk
  obtain ⟨l, m, e, h1, h2⟩ := hv k hk
  have l2 : 0 < len ^ 2 := by positivity
  rcases e with e | e <;> rw [e] <;> exact ⟨lineArm_proper.2 (by linarith), lineArm_proper.2 (by linarith)⟩

theorem dot_sq_form (a b c d : ℝ) : dotOf a b c d ^ 2 / 2 = (a * c + b * d) ^ 2 / ((a ^ 2 + b ^ 2) * (c ^ 2 + d ^ 2)) / 2 := by
  unfold dotOf
  have key : ∀ a b : ℝ, hyp a b ^ 2 = a ^ 2 + b ^ 2 := fun a b => by
    unfold hyp; rw [Real.sq_sqrt (add_nonneg (mul_self_nonneg _) (mul_self_nonneg _))]; ring
  split
  · rename_i hh
    have : (a ^ 2 + b ^ 2) * (c ^ 2 + d ^ 2) = 0 := by
      rw [← key, ← key]
      rcases hh with e | e <;> rw [e] <;> ring
    rw [this]; simp
  · rw [div_pow, mul_pow, key, key]

theorem cross_sq_form (a b c d : ℝ) : crossOf a b c d ^ 2 / 2 = (a * d - b * c) ^ 2 / ((a ^ 2 + b ^ 2) * (c ^ 2 + d ^ 2)) / 2 := by
  unfold crossOf
  have key : ∀ a b : ℝ, hyp a b ^ 2 = a ^ 2 + b ^ 2 := fun a b => by
    unfold hyp; rw [Real.sq_sqrt (add_nonneg (mul_self_nonneg _) (mul_self_nonneg _))]; ring
  split
  · rename_i hh
    have : (a ^ 2 + b ^ 2) * (c ^ 2 + d ^ 2) = 0 := by
      rw [← key, ← key]
      rcases hh with e | e <;> rw [e] <;> ring
    rw [this]; simp
  · rw [div_pow, mul_pow, key, key]

/-- the rate at which the loss of a constraint changes -/
noncomputable def turnRate (h : Heap XR) (s : Sketch) (x d : Fin (getNDofs h s) → ℝ) (t : ℝ) : Constraint XR → ℝ
  | .perp l m => (lineArm h s x d l).rate (lineArm h s x d m) t
  | .parallel l m => -(lineArm h s x d l).rate (lineArm h s x d m) t
  | _ => 0

theorem loss_rate {t : ℝ} {c : Constraint XR} {l m : Nat} (e : c = .perp l m ∨ c = .parallel l m) (hl : (lineArm h s x d l).sq t ≠ 0)
    (hm : (lineArm h s x d m).sq t ≠ 0) :
    HasDerivAt (fun t => (lossValue (h.withDofs (coordOf h s (x + t • d))) c).toReal) (turnRate h s x d t c) t := by
  rcases e with rfl | rfl
  · have : (fun t => (lossValue (h.withDofs (coordOf h s (x + t • d))) (.perp l m)).toReal) = fun t =>
        (lineArm h s x d l).dot (lineArm h s x d m) t ^ 2 / ((lineArm h s x d l).sq t * (lineArm h s x d m).sq t) / 2 := by
      funext t
      rw [loss_perp (h := h.withDofs (coordOf h s (x + t • d))) (l := l) (m := m) rfl rfl rfl rfl, toReal_fin, dot_sq_form]
      unfold Arm.dot Arm.sq
      rw [lineArm_x, lineArm_x, lineArm_y, lineArm_y]
      rfl
    rw [this]
    exact Arm.hasDerivAt_perp hl hm
  · have : (fun t => (lossValue (h.withDofs (coordOf h s (x + t • d))) (.parallel l m)).toReal) = fun t =>
        (lineArm h s x d l).cross (lineArm h s x d m) t ^ 2 / ((lineArm h s x d l).sq t * (lineArm h s x d m).sq t) / 2 := by
      funext t
      rw [loss_parallel (h := h.withDofs (coordOf h s (x + t • d))) (l := l) (m := m) rfl rfl rfl rfl, toReal_fin, cross_sq_form]
      unfold Arm.cross Arm.sq
      rw [lineArm_x, lineArm_x, lineArm_y, lineArm_y]
      rfl
    rw [this]
    exact Arm.hasDerivAt_par hl hm

section
variable (hn : s.cells.Nodup) (hc : Closed ⟨h, s⟩) (hf : FiniteSketch h s)

include hn hc hf in
theorem hasDerivAt_along {t : ℝ} (hg : Good h s (x + t • d)) :
    HasDerivAt (fun t => lossAfter h s (x + t • d)) (gradAt h s (x + t • d) ⬝ᵥ d) t := by
  have h1 : HasDerivAt (fun a : ℝ => x + a • d) d t := by
    simpa using ((hasDerivAt_id t).smul_const d).const_add x
  have := (hasFDerivAt_lossAfter hn hc hf hg).comp_hasDerivAt t h1
  rw [linForm_apply] at this
  exact this

include hn hc hf in
theorem slope_eq {t len : ℝ} (hl : 0 < len) (hv : LongAt h s len (x + t • d)) :
    gradAt h s (x + t • d) ⬝ᵥ d = (s.cons.map fun k => turnRate h s x d t (h.cons k)).sum := by
  refine (hasDerivAt_along hn hc hf (hv.good hl)).unique ?_
  have e : (fun t : ℝ => lossAfter h s (x + t • d)) = fun t =>
      (s.cons.map fun k => (lossValue (h.withDofs (coordOf h s (x + t • d))) (h.cons k)).toReal).sum :=
    funext fun t => lossAfter_eq hn hc hf _
  rw [e]
  have key : ∀ L : List Nat, (∀ k ∈ L, k ∈ s.cons) → HasDerivAt (fun t : ℝ =>
      (L.map fun k => (lossValue (h.withDofs (coordOf h s (x + t • d))) (h.cons k)).toReal).sum)
      (L.map fun k => turnRate h s x d t (h.cons k)).sum t := by
    intro L
    induction L with
    | nil => intro _; simpa using hasDerivAt_const t (0 : ℝ)
    | cons k L ih =>
      intro hL
      simp only [List.map_cons, List.sum_cons]
      obtain ⟨l, m, e, h1, h2⟩ := hv k (hL k (by simp))
      have l2 : 0 < len ^ 2 := by positivity
      rw [← lineArm_sq] at h1 h2
      exact (loss_rate e (by linarith) (by linarith)).add (ih fun k hk => hL k (by simp [hk]))
  exact key _ fun _ => id

include hn in
/-- the ends of a line move apart at most √2 times as fast as the data -/
theorem lineArm_speed {l : Nat} (hs : (h.lines l).start ≠ (h.lines l).stop) : (lineArm h s x d l).speed ≤ 2 * (d ⬝ᵥ d) := by
  have := sum_lift_le hn d {.px (h.lines l).start, .py (h.lines l).start, .px (h.lines l).stop, .py (h.lines l).stop}
  rw [Finset.sum_insert (by simp [hs]), Finset.sum_insert (by simp [hs]), Finset.sum_insert (by simp), Finset.sum_singleton] at this
  unfold Arm.speed lineArm
  dsimp only
  generalize lift h s d (.px (h.lines l).start) = a at *
  generalize lift h s d (.py (h.lines l).start) = b at *
  generalize lift h s d (.px (h.lines l).stop) = a' at *
  generalize lift h s d (.py (h.lines l).stop) = b' at *
  nlinarith [sq_nonneg (a + a'), sq_nonneg (b + b')]

theorem lineArm_ne {v : Fin (getNDofs h s) → ℝ} {l : Nat} (hh : (lineArm h s v d l).sq 0 ≠ 0) : (h.lines l).start ≠ (h.lines l).stop := by
  intro e
  apply hh
  unfold Arm.sq
  rw [lineArm_x, lineArm_y, e]
  ring

/-- a line gets shorter at most at the speed of its ends -/
theorem Arm.shrink (u : Arm) {len e t T : ℝ} (hl : len ^ 2 ≤ u.sq 0) (he : u.speed ≤ e ^ 2) (he0 : 0 ≤ e) (t0 : 0 ≤ t) (tT : t ≤ T)
    (h0 : T * e ≤ len) : (len - T * e) ^ 2 ≤ u.sq t := by
  have hx : hyp (u.x t) (u.y t) = ‖(⟨u.x t, u.y t⟩ : ℂ)‖ := hyp_norm _ _
  have n1 : ∀ a b : ℝ, ‖(⟨a, b⟩ : ℂ)‖ ^ 2 = a ^ 2 + b ^ 2 := by
    intro a b; rw [← Complex.normSq_eq_norm_sq, Complex.normSq_mk]; ring
  have e1 : (⟨u.x 0, u.y 0⟩ : ℂ) = ⟨u.x t, u.y t⟩ - (t : ℂ) * ⟨u.p, u.q⟩ := by
    apply Complex.ext <;> simp [Arm.x, Arm.y]
  have e2 : ‖(⟨u.x 0, u.y 0⟩ : ℂ)‖ ≤ ‖(⟨u.x t, u.y t⟩ : ℂ)‖ + t * ‖(⟨u.p, u.q⟩ : ℂ)‖ := by
    rw [e1]
    refine (norm_sub_le _ _).trans ?_
    rw [norm_mul, Complex.norm_real, Real.norm_of_nonneg t0]
  have e3 : ‖(⟨u.p, u.q⟩ : ℂ)‖ ≤ e := abs_le_of_sq_le_sq (by rw [n1]; exact he) he0 |> (le_abs_self _).trans
  have hT0 : 0 ≤ T := t0.trans tT
  have e4 : len ≤ ‖(⟨u.x 0, u.y 0⟩ : ℂ)‖ := abs_le_of_sq_le_sq (by rw [n1]; exact hl) (norm_nonneg _) |> (le_abs_self _).trans
  have e5 : t * ‖(⟨u.p, u.q⟩ : ℂ)‖ ≤ T * e := mul_le_mul tT e3 (norm_nonneg _) hT0
  have e6 : len - T * e ≤ ‖(⟨u.x t, u.y t⟩ : ℂ)‖ := by linarith
  have := pow_le_pow_left₀ (by linarith) e6 2
  rwa [n1] at this

include hn in
/-- lines stay long -/
theorem LongAt.shrink {len t T N : ℝ} (hl : 0 < len) (hv : LongAt h s len x) (hN : 0 ≤ N) (hd : 2 * (d ⬝ᵥ d) ≤ N ^ 2) (t0 : 0 ≤ t) (tT : t ≤ T)
    (h0 : T * N ≤ len) : LongAt h s (len - T * N) (x + t • d) := by
  intro k hk
  obtain ⟨l, m, e, h1, h2⟩ := hv k hk
  have l2 : 0 < len ^ 2 := by positivity
  have key : ∀ l, len ^ 2 ≤ (lineArm h s x 0 l).sq 0 → (len - T * N) ^ 2 ≤ (lineArm h s (x + t • d) 0 l).sq 0 := by
    intro l hh
    rw [← lineArm_sq]
    refine Arm.shrink _ ?_ ((lineArm_speed hn (lineArm_ne (d := 0) (v := x) (by linarith))).trans hd) hN t0 tT h0
    rw [lineArm_sq, zero_smul, add_zero]; exact hh
  exact ⟨l, m, e, key l h1, key m h2⟩

theorem abs_sum_le {α : Type} (L : List α) (f : α → ℝ) (B : ℝ) (hB : ∀ k ∈ L, |f k| ≤ B) : |(L.map f).sum| ≤ L.length * B := by
  induction L with
  | nil => simp
  | cons k L ih =>
    rw [List.map_cons, List.sum_cons, List.length_cons]
    have h1 := hB k (by simp)
    have h2 := ih fun k hk => hB k (by simp [hk])
    have := abs_add_le (f k) (L.map f).sum
    push_cast
    linarith

include hn hc hf in
/-- the slope is small -/
theorem slope_small {len N : ℝ} (hl : 0 < len) (hv : LongAt h s len x) (hN : 0 ≤ N) (hd : 2 * (d ⬝ᵥ d) ≤ N ^ 2) :
    |gradAt h s x ⬝ᵥ d| ≤ s.cons.length * (N / len) := by
  have e := slope_eq (x := x) (d := d) (t := 0) (len := len) hn hc hf hl (by rw [zero_smul, add_zero]; exact hv)
  rw [zero_smul, add_zero] at e
  rw [e]
  refine abs_sum_le _ _ _ fun k hk => ?_
  obtain ⟨l, m, e, h1, h2⟩ := hv k hk
  have l2 : 0 < len ^ 2 := by positivity
  have b := Arm.bounds (u := lineArm h s x d l) (v := lineArm h s x d m) (t := 0) hl hN (by rw [lineArm_sq, zero_smul, add_zero]; exact h1)
    (by rw [lineArm_sq, zero_smul, add_zero]; exact h2) ((lineArm_speed hn (lineArm_ne (d := 0) (v := x) (by linarith))).trans hd)
    ((lineArm_speed hn (lineArm_ne (d := 0) (v := x) (by linarith))).trans hd)
  rcases e with e | e <;> rw [e] <;> simp only [turnRate, abs_neg] <;> exact b.1

include hn hc hf in
/-- the slope changes slowly -/
theorem slope_change {len N T : ℝ} (hl : 0 < len) (hT : 0 ≤ T) (hv : ∀ t, 0 ≤ t → t ≤ T → LongAt h s len (x + t • d)) (hN : 0 ≤ N)
    (hd : 2 * (d ⬝ᵥ d) ≤ N ^ 2) :
    |gradAt h s (x + T • d) ⬝ᵥ d - gradAt h s x ⬝ᵥ d| ≤ s.cons.length * (5 * (N / len) ^ 2 * T) := by
  have e0 := slope_eq (x := x) (d := d) (t := 0) (len := len) hn hc hf hl (hv 0 le_rfl hT)
  rw [zero_smul, add_zero] at e0
  have e1 := slope_eq (x := x) (d := d) (t := T) (len := len) hn hc hf hl (hv T hT le_rfl)
  have es : ∀ (L : List Nat) (f g : Nat → ℝ), (L.map f).sum - (L.map g).sum = (L.map fun k => f k - g k).sum := by
    intro L f g
    induction L with
    | nil => simp
    | cons k L ih => simp only [List.map_cons, List.sum_cons, ← ih]; ring
  rw [e0, e1, es]
  refine abs_sum_le _ _ _ fun k hk => ?_
  obtain ⟨l, m, e, h1, h2⟩ := hv 0 le_rfl hT k hk
  rw [zero_smul, add_zero] at h1 h2
  have l2 : 0 < len ^ 2 := by positivity
  have hlm : ∀ t, 0 ≤ t → t ≤ T → len ^ 2 ≤ (lineArm h s x d l).sq t ∧ len ^ 2 ≤ (lineArm h s x d m).sq t := by
    intro t t0 tT
    obtain ⟨l', m', e', h1', h2'⟩ := hv t t0 tT k hk
    have : l' = l ∧ m' = m := by
      rcases e with e | e <;> rcases e' with e' | e' <;> rw [e] at e' <;> cases e' <;> exact ⟨rfl, rfl⟩
    obtain ⟨rfl, rfl⟩ := this
    exact ⟨by rw [lineArm_sq]; exact h1', by rw [lineArm_sq]; exact h2'⟩
  have b := Arm.rate_change (u := lineArm h s x d l) (v := lineArm h s x d m) hl hN hT hlm
    ((lineArm_speed hn (lineArm_ne (d := 0) (v := x) (by linarith))).trans hd)
    ((lineArm_speed hn (lineArm_ne (d := 0) (v := x) (by linarith))).trans hd)
  rcases e with e | e <;> rw [e] <;> simp only [turnRate]
  · exact b
  · rw [neg_sub_neg, abs_sub_comm]; exact b

end
end Isotope
