import Verif.SpecAlone
import Verif.Lemmas.SketchResid
import Verif.Lemmas.LinearGD
import Verif.Lemmas.LinearBFGS

/-!
# Constraints that share no coordinate

Along the negative gradient every such constraint moves on its own.
-/

namespace Isotope
open XR

/-- a coordinate of a point as a degree of freedom -/
def toDof (e : Nat × Fin 2) : Dof := if e.2 = 0 then .px e.1 else .py e.1

theorem toDof_inj : Function.Injective toDof := by
  rintro ⟨p, a⟩ ⟨q, b⟩ hh
  fin_cases a <;> fin_cases b <;> simp_all [toDof]

/-- the degrees of freedom a constraint uses -/
def used (h : Heap XR) (c : Constraint XR) : List Dof := (coordsUsed h c).map toDof

variable {h : Heap XR} {s : Sketch}

/-- What a step along the contributions does to a constraint: the error is multiplied by `1 - lam * a`; twice the right step, or more, does
not reduce it. -/
structure Ray (h : Heap XR) (c : Constraint XR) (θ : Dof → ℝ) (lam : ℝ) : Prop where
  off : ∀ d ∉ used h c, total (contribs (h.withDofs θ) c) d = 0
  now : Regular (h.withDofs θ) c
  go : ∀ θ' G : Dof → ℝ, (∀ d ∈ used h c, G d = total (contribs (h.withDofs θ) c) d) → ∀ a, 0 ≤ a → lam * a ≤ 1 →
    (∀ d ∈ used h c, θ' d = θ d - a * G d) →
    (lossValue (h.withDofs θ') c).toReal = (1 - lam * a) ^ 2 * (lossValue (h.withDofs θ) c).toReal
  ends : ∀ θ' G : Dof → ℝ, (∀ d ∈ used h c, G d = total (contribs (h.withDofs θ) c) d) → ∀ a, lam * a = 1 →
    (∀ d ∈ used h c, θ' d = θ d - a * G d) → Regular (h.withDofs θ') c
  far : ∀ θ' G : Dof → ℝ, (∀ d ∈ used h c, G d = total (contribs (h.withDofs θ) c) d) → ∀ a, a ≤ 1 → 2 ≤ lam * a →
    (∀ d ∈ used h c, θ' d = θ d - a * G d) → (lossValue (h.withDofs θ) c).toReal ≤ (lossValue (h.withDofs θ') c).toReal

section kinds
variable {θ : Dof → ℝ}

theorem ray_fix {p : Nat} {X Y : ℝ} : Ray h (.fix p ⟨fin X, fin Y⟩) θ 1 := by
  have ec := chunks_fix (X := X) (Y := Y) (ptData_withDofs (H := h) θ p)
  have hL : ∀ θ, (lossValue (h.withDofs θ) (.fix p ⟨fin X, fin Y⟩)).toReal = ((θ (.px p) - X) ^ 2 + (θ (.py p) - Y) ^ 2) / 2 :=
    fun θ => by rw [loss_fix (ptData_withDofs _ _), toReal_fin]
  constructor
  · intro d hd
    simp only [used, coordsUsed, toDof, List.map_cons, List.map_nil, List.mem_cons, List.not_mem_nil, or_false, not_or] at hd
    simp only [contribs, ec, Chunk.contrib, List.flatMap_cons, List.flatMap_nil, List.append_nil, total_cons, total_nil, add_zero]
    rw [if_neg (fun e => hd.1 (by simpa using e.symm)), if_neg (fun e => hd.2 (by simpa using e.symm)), add_zero]
  · trivial
  · intro θ' G hG a _ _ hθ
    have gx := hG (.px p) (by simp [used, coordsUsed, toDof])
    have gy := hG (.py p) (by simp [used, coordsUsed, toDof])
    simp [contribs, ec, Chunk.contrib] at gx gy
    rw [hL, hL, hθ _ (by simp [used, coordsUsed, toDof]), hθ _ (by simp [used, coordsUsed, toDof]), gx, gy]
    ring
  · intros; trivial
  · intro θ' G hG a h1 h2; linarith

/-- the five numbers of a constraint on one coordinate of two points -/
theorem ray_diff {c : Constraint XR} {d1 d2 : Dof} {D : ℝ} (hne : d1 ≠ d2) (hu : used h c = [d1, d2])
    (ht : ∀ θ d, total (contribs (h.withDofs θ) c) d = (if d1 = d then -(θ d2 - θ d1 - D) else 0) + (if d2 = d then θ d2 - θ d1 - D else 0))
    (hL : ∀ θ, (lossValue (h.withDofs θ) c).toReal = (θ d2 - θ d1 - D) ^ 2 / 2) (hr : ∀ θ, Regular (h.withDofs θ) c) : Ray h c θ 2 := by
  have key : ∀ θ' G : Dof → ℝ, (∀ d ∈ used h c, G d = total (contribs (h.withDofs θ) c) d) → ∀ a,
      (∀ d ∈ used h c, θ' d = θ d - a * G d) →
      (lossValue (h.withDofs θ') c).toReal = (1 - 2 * a) ^ 2 * (lossValue (h.withDofs θ) c).toReal := by
    intro θ' G hG a hθ
    rw [hu] at hG hθ
    have g1 := hG d1 (by simp)
    have g2 := hG d2 (by simp)
    rw [ht, if_pos rfl, if_neg hne.symm, add_zero] at g1
    rw [ht, if_neg hne, if_pos rfl, zero_add] at g2
    rw [hL, hL, hθ d1 (by simp), hθ d2 (by simp), g1, g2]
    ring
  constructor
  · intro d hd
    rw [hu] at hd
    simp only [List.mem_cons, List.not_mem_nil, or_false, not_or] at hd
    rw [ht, if_neg (Ne.symm hd.1), if_neg (Ne.symm hd.2), add_zero]
  · exact hr θ
  · intro θ' G hG a _ _ hθ; exact key θ' G hG a hθ
  · intros; exact hr _
  · intro θ' G hG a h1 h2 hθ
    rw [key θ' G hG a hθ, show a = 1 by linarith]
    norm_num

theorem ray_horiz {p1 p2 : Nat} {D : ℝ} (hp : p1 ≠ p2) : Ray h (.horizDist p1 p2 (fin D)) θ 2 := by
  refine ray_diff (d1 := .px p1) (d2 := .px p2) (D := D) (by simpa using hp) (by simp [used, coordsUsed, toDof]) (fun θ d => ?_) (fun θ => ?_) fun _ => trivial
  · simp [contribs, chunks_horiz (ptData_withDofs (H := h) θ p1) (ptData_withDofs θ p2), Chunk.contrib]
  · rw [loss_horiz (ptData_withDofs _ _) (ptData_withDofs _ _), toReal_fin]

theorem ray_vert {p1 p2 : Nat} {D : ℝ} (hp : p1 ≠ p2) : Ray h (.vertDist p1 p2 (fin D)) θ 2 := by
  refine ray_diff (d1 := .py p1) (d2 := .py p2) (D := D) (by simpa using hp) (by simp [used, coordsUsed, toDof]) (fun θ d => ?_) (fun θ => ?_) fun _ => trivial
  · simp [contribs, chunks_vert (ptData_withDofs (H := h) θ p1) (ptData_withDofs θ p2), Chunk.contrib]
  · rw [loss_vert (ptData_withDofs _ _) (ptData_withDofs _ _), toReal_fin]

theorem ray_horizLine {l : Nat} (hp : (h.lines l).start ≠ (h.lines l).stop) : Ray h (.horizLine l) θ 2 := by
  refine ray_diff (d1 := .py (h.lines l).start) (d2 := .py (h.lines l).stop) (D := 0) (by simpa using hp) (by simp [used, coordsUsed, toDof])
    (fun θ d => ?_) (fun θ => ?_) fun _ => trivial
  · have el : (h.withDofs θ).lines l = h.lines l := rfl
    simp [contribs, chunks_horizLine (lineStart_withDofs (H := h) θ l) (lineEnd_withDofs θ l), Chunk.contrib, el]
  · rw [loss_horizLine (lineStart_withDofs _ _) (lineEnd_withDofs _ _), toReal_fin, sub_zero]

theorem ray_vertLine {l : Nat} (hp : (h.lines l).start ≠ (h.lines l).stop) : Ray h (.vertLine l) θ 2 := by
  refine ray_diff (d1 := .px (h.lines l).start) (d2 := .px (h.lines l).stop) (D := 0) (by simpa using hp) (by simp [used, coordsUsed, toDof])
    (fun θ d => ?_) (fun θ => ?_) fun _ => trivial
  · have el : (h.withDofs θ).lines l = h.lines l := rfl
    simp [contribs, chunks_vertLine (lineStart_withDofs (H := h) θ l) (lineEnd_withDofs θ l), Chunk.contrib, el]
  · rw [loss_vertLine (lineStart_withDofs _ _) (lineEnd_withDofs _ _), toReal_fin, sub_zero]

theorem hyp_smul (t a b : ℝ) : hyp (t * a) (t * b) = |t| * hyp a b := by
  unfold hyp
  rw [show t * a * (t * a) + t * b * (t * b) = t ^ 2 * (a * a + b * b) by ring, Real.sqrt_mul (sq_nonneg t), Real.sqrt_sq_eq_abs]

theorem ray_euclid {p1 p2 : Nat} {D : ℝ} (hp : p1 ≠ p2) (h1 : 1e-6 ≤ hyp (θ (.px p1) - θ (.px p2)) (θ (.py p1) - θ (.py p2)))
    (h2 : 1e-6 ≤ D) (h3 : hyp (θ (.px p1) - θ (.px p2)) (θ (.py p1) - θ (.py p2)) ≤ 2 * D) : Ray h (.euclid p1 p2 (fin D)) θ 2 := by
  have ec := chunks_euclid (D := D) (ptData_withDofs (H := h) θ p1) (ptData_withDofs θ p2)
  dsimp only at ec
  rw [if_neg (not_lt.2 h1)] at ec
  have hL : ∀ θ, (lossValue (h.withDofs θ) (.euclid p1 p2 (fin D))).toReal =
      (hyp (θ (.px p1) - θ (.px p2)) (θ (.py p1) - θ (.py p2)) - D) ^ 2 / 2 :=
    fun θ => by rw [loss_euclid (ptData_withDofs _ _) (ptData_withDofs _ _), toReal_fin]
  have n0 : 0 < hyp (θ (.px p1) - θ (.px p2)) (θ (.py p1) - θ (.py p2)) := lt_of_lt_of_le (by norm_num) h1
  have key : ∀ θ' G : Dof → ℝ, (∀ d ∈ used h (.euclid p1 p2 (fin D)), G d = total (contribs (h.withDofs θ) (.euclid p1 p2 (fin D))) d) → ∀ a,
      0 ≤ a → a ≤ 1 → (∀ d ∈ used h (.euclid p1 p2 (fin D)), θ' d = θ d - a * G d) →
      hyp (θ' (.px p1) - θ' (.px p2)) (θ' (.py p1) - θ' (.py p2)) - D =
        (1 - 2 * a) * (hyp (θ (.px p1) - θ (.px p2)) (θ (.py p1) - θ (.py p2)) - D) := by
    intro θ' G hG a a0 a1 hθ
    have g1 := hG (.px p1) (by simp [used, coordsUsed, toDof])
    have g2 := hG (.py p1) (by simp [used, coordsUsed, toDof])
    have g3 := hG (.px p2) (by simp [used, coordsUsed, toDof])
    have g4 := hG (.py p2) (by simp [used, coordsUsed, toDof])
    simp [contribs, ec, Chunk.contrib, hp, Ne.symm hp] at g1 g2 g3 g4
    rw [hθ (.px p1) (by simp [used, coordsUsed, toDof]), hθ (.py p1) (by simp [used, coordsUsed, toDof]),
      hθ (.px p2) (by simp [used, coordsUsed, toDof]), hθ (.py p2) (by simp [used, coordsUsed, toDof]), g1, g2, g3, g4]
    generalize eX : θ (.px p1) - θ (.px p2) = X at *
    generalize eY : θ (.py p1) - θ (.py p2) = Y at *
    generalize hn : hyp X Y = n at *
    have e1 : θ (.px p1) - a * ((n - D) * (X / n)) - (θ (.px p2) - a * -((n - D) * (X / n))) = (1 - 2 * a * (n - D) / n) * X := by
      rw [show (1 - 2 * a * (n - D) / n) * X = X - 2 * a * (n - D) / n * X by ring, ← eX]; ring
    have e2 : θ (.py p1) - a * ((n - D) * (Y / n)) - (θ (.py p2) - a * -((n - D) * (Y / n))) = (1 - 2 * a * (n - D) / n) * Y := by
      rw [show (1 - 2 * a * (n - D) / n) * Y = Y - 2 * a * (n - D) / n * Y by ring, ← eY]; ring
    rw [e1, e2, hyp_smul, hn, abs_of_nonneg]
    · field_simp; ring
    · rw [sub_nonneg, div_le_one n0]
      nlinarith
  constructor
  · intro d hd
    simp only [used, coordsUsed, toDof, List.map_cons, List.map_nil, List.mem_cons, List.not_mem_nil, or_false, not_or] at hd
    simp only [contribs, ec, Chunk.contrib, List.flatMap_cons, List.flatMap_nil, List.append_nil, List.cons_append, List.nil_append,
      total_cons, total_nil, add_zero]
    rw [if_neg (fun e => hd.1 (by simpa using e.symm)), if_neg (fun e => hd.2.1 (by simpa using e.symm)),
      if_neg (fun e => hd.2.2.1 (by simpa using e.symm)), if_neg (fun e => hd.2.2.2 (by simpa using e.symm))]
    simp
  · show 1e-6 ≤ dist _ _
    have := hyp_pt (θ (.px p1)) (θ (.py p1)) (θ (.px p2)) (θ (.py p2))
    exact h1.trans_eq this
  · intro θ' G hG a a0 a1 hθ
    rw [hL, hL, key θ' G hG a a0 (by linarith) hθ]
    ring
  · intro θ' G hG a ha hθ
    have k := key θ' G hG a (by linarith) (by linarith) hθ
    rw [show (1 : ℝ) - 2 * a = 0 by linarith, zero_mul, sub_eq_zero] at k
    show 1e-6 ≤ dist _ _
    have := hyp_pt (θ' (.px p1)) (θ' (.py p1)) (θ' (.px p2)) (θ' (.py p2))
    exact (h2.trans_eq k.symm).trans_eq this
  · intro θ' G hG a a1 a2 hθ
    have ea : a = 1 := by linarith
    rw [hL, hL, key θ' G hG a (by linarith) a1 hθ, ea]
    apply le_of_eq; ring

theorem ray_eqLen {l m : Nat} (hu : (coordsUsed h (.eqLen l m)).Nodup)
    (h1 : hyp (θ (.px (h.lines l).stop) - θ (.px (h.lines l).start)) (θ (.py (h.lines l).stop) - θ (.py (h.lines l).start)) ≠ 0)
    (h2 : hyp (θ (.px (h.lines m).stop) - θ (.px (h.lines m).start)) (θ (.py (h.lines m).stop) - θ (.py (h.lines m).start)) ≠ 0) :
    Ray h (.eqLen l m) θ 4 := by
  have ec := chunks_eqLen (lineStart_withDofs (H := h) θ l) (lineEnd_withDofs θ l) (lineStart_withDofs θ m) (lineEnd_withDofs θ m) h1 h2
  have hL : ∀ θ, (lossValue (h.withDofs θ) (.eqLen l m)).toReal =
      (hyp (θ (.px (h.lines l).stop) - θ (.px (h.lines l).start)) (θ (.py (h.lines l).stop) - θ (.py (h.lines l).start)) -
        hyp (θ (.px (h.lines m).stop) - θ (.px (h.lines m).start)) (θ (.py (h.lines m).stop) - θ (.py (h.lines m).start))) ^ 2 / 2 :=
    fun θ => by
      rw [loss_eqLen (lineStart_withDofs _ _) (lineEnd_withDofs _ _) (lineStart_withDofs _ _) (lineEnd_withDofs _ _), toReal_fin]
  have el : ∀ l, (h.withDofs θ).lines l = h.lines l := fun _ => rfl
  simp only [coordsUsed] at hu
  generalize ep : (h.lines l).start = p at *
  generalize eq : (h.lines l).stop = q at *
  generalize er : (h.lines m).start = r at *
  generalize et : (h.lines m).stop = t at *
  have us : used h (.eqLen l m) = [.px p, .py p, .px q, .py q, .px r, .py r, .px t, .py t] := by
    simp [used, coordsUsed, toDof, ep, eq, er, et]
  simp at hu
  obtain ⟨⟨q1, q2, q3⟩, ⟨q4, q5⟩, q6⟩ := hu
  have n1 : 0 < hyp (θ (.px q) - θ (.px p)) (θ (.py q) - θ (.py p)) := lt_of_le_of_ne (Real.sqrt_nonneg _) (Ne.symm h1)
  have n2 : 0 < hyp (θ (.px t) - θ (.px r)) (θ (.py t) - θ (.py r)) := lt_of_le_of_ne (Real.sqrt_nonneg _) (Ne.symm h2)
  have key : ∀ θ' G : Dof → ℝ, (∀ d ∈ used h (.eqLen l m), G d = total (contribs (h.withDofs θ) (.eqLen l m)) d) → ∀ a,
      (∀ d ∈ used h (.eqLen l m), θ' d = θ d - a * G d) →
      hyp (θ' (.px q) - θ' (.px p)) (θ' (.py q) - θ' (.py p)) =
        |hyp (θ (.px q) - θ (.px p)) (θ (.py q) - θ (.py p)) - 2 * a * (hyp (θ (.px q) - θ (.px p)) (θ (.py q) - θ (.py p)) - hyp (θ (.px t) - θ (.px r)) (θ (.py t) - θ (.py r)))| ∧
      hyp (θ' (.px t) - θ' (.px r)) (θ' (.py t) - θ' (.py r)) =
        |hyp (θ (.px t) - θ (.px r)) (θ (.py t) - θ (.py r)) + 2 * a * (hyp (θ (.px q) - θ (.px p)) (θ (.py q) - θ (.py p)) - hyp (θ (.px t) - θ (.px r)) (θ (.py t) - θ (.py r)))| := by
    intro θ' G hG a hθ
    rw [us] at hG hθ
    have g1 := hG (.px p) (by simp)
    have g2 := hG (.py p) (by simp)
    have g3 := hG (.px q) (by simp)
    have g4 := hG (.py q) (by simp)
    have g5 := hG (.px r) (by simp)
    have g6 := hG (.py r) (by simp)
    have g7 := hG (.px t) (by simp)
    have g8 := hG (.py t) (by simp)
    simp [contribs, ec, Chunk.contrib, el, ep, eq, er, et, q1, q2, q3, q4, q5, q6, Ne.symm q1, Ne.symm q2, Ne.symm q3, Ne.symm q4, Ne.symm q5, Ne.symm q6] at g1 g2 g3 g4 g5 g6 g7 g8
    rw [hθ (.px p) (by simp), hθ (.py p) (by simp), hθ (.px q) (by simp), hθ (.py q) (by simp), hθ (.px r) (by simp), hθ (.py r) (by simp),
      hθ (.px t) (by simp), hθ (.py t) (by simp), g1, g2, g3, g4, g5, g6, g7, g8]
    generalize eX : θ (.px q) - θ (.px p) = X at *
    generalize eY : θ (.py q) - θ (.py p) = Y at *
    generalize eU : θ (.px t) - θ (.px r) = U at *
    generalize eV : θ (.py t) - θ (.py r) = V at *
    generalize hn : hyp X Y = n at *
    generalize hk : hyp U V = k at *
    constructor
    · rw [show ∀ X : ℝ, θ (.px q) - a * ((n - k) * (X / n)) - (θ (.px p) - a * -((n - k) * (X / n))) = θ (.px q) - θ (.px p) - 2 * a * (n - k) / n * X by intro X; ring,
        show ∀ X : ℝ, θ (.py q) - a * ((n - k) * (X / n)) - (θ (.py p) - a * -((n - k) * (X / n))) = θ (.py q) - θ (.py p) - 2 * a * (n - k) / n * X by intro X; ring,
        eX, eY, show X - 2 * a * (n - k) / n * X = (1 - 2 * a * (n - k) / n) * X by ring,
        show Y - 2 * a * (n - k) / n * Y = (1 - 2 * a * (n - k) / n) * Y by ring, hyp_smul, hn]
      have ee : ∀ t : ℝ, |t| * n = |t * n| := fun t => by rw [abs_mul, abs_of_pos n1]
      rw [ee]
      congr 1
      field_simp
    · rw [show θ (.px r) - θ (.px t) = -U by rw [← eU]; ring, show θ (.py r) - θ (.py t) = -V by rw [← eV]; ring,
        show ∀ X : ℝ, θ (.px t) - a * ((n - k) * (-X / k)) - (θ (.px r) - a * -((n - k) * (-X / k))) = θ (.px t) - θ (.px r) + 2 * a * (n - k) / k * X by intro X; ring,
        show ∀ X : ℝ, θ (.py t) - a * ((n - k) * (-X / k)) - (θ (.py r) - a * -((n - k) * (-X / k))) = θ (.py t) - θ (.py r) + 2 * a * (n - k) / k * X by intro X; ring,
        eU, eV, show U + 2 * a * (n - k) / k * U = (1 + 2 * a * (n - k) / k) * U by ring,
        show V + 2 * a * (n - k) / k * V = (1 + 2 * a * (n - k) / k) * V by ring, hyp_smul, hk]
      have ee : ∀ t : ℝ, |t| * k = |t * k| := fun t => by rw [abs_mul, abs_of_pos n2]
      rw [ee]
      congr 1
      field_simp
  have proper : ∀ θ' l', hyp (θ' (.px (h.lines l').stop) - θ' (.px (h.lines l').start)) (θ' (.py (h.lines l').stop) - θ' (.py (h.lines l').start)) ≠ 0 →
      ProperLine (h.withDofs θ') l' := by
    intro θ' l' hh e
    rw [hyp_pt] at hh
    exact hh (dist_eq_zero.2 (by
      have : pt (θ' (.px (h.lines l').start)) (θ' (.py (h.lines l').start)) = pt (θ' (.px (h.lines l').stop)) (θ' (.py (h.lines l').stop)) := e
      exact this.symm))
  constructor
  · intro d hd
    rw [us] at hd
    simp only [List.mem_cons, List.not_mem_nil, or_false, not_or] at hd
    obtain ⟨d1, d2, d3, d4, d5, d6, d7, d8⟩ := hd
    simp [contribs, ec, Chunk.contrib, el, ep, eq, er, et, Ne.symm d1, Ne.symm d2, Ne.symm d3, Ne.symm d4, Ne.symm d5, Ne.symm d6, Ne.symm d7, Ne.symm d8]
  · exact ⟨proper θ l (by rw [ep, eq]; exact h1), proper θ m (by rw [er, et]; exact h2)⟩
  · intro θ' G hG a a0 a1 hθ
    obtain ⟨k1, k2⟩ := key θ' G hG a hθ
    rw [hL, hL, k1, k2]
    generalize hyp (θ (.px q) - θ (.px p)) (θ (.py q) - θ (.py p)) = n at *
    generalize hyp (θ (.px t) - θ (.px r)) (θ (.py t) - θ (.py r)) = k at *
    rw [abs_of_nonneg (by nlinarith), abs_of_nonneg (by nlinarith)]
    ring
  · intro θ' G hG a ha hθ
    obtain ⟨k1, k2⟩ := key θ' G hG a hθ
    have ea : a = 1 / 4 := by linarith
    refine ⟨proper θ' l ?_, proper θ' m ?_⟩
    · rw [ep, eq, k1, ea]; exact (abs_pos.2 (by linarith)).ne'
    · rw [er, et, k2, ea]; exact (abs_pos.2 (by linarith)).ne'
  · intro θ' G hG a a1 a2 hθ
    obtain ⟨k1, k2⟩ := key θ' G hG a hθ
    rw [hL, hL, k1, k2]
    generalize hyp (θ (.px q) - θ (.px p)) (θ (.py q) - θ (.py p)) = n at *
    generalize hyp (θ (.px t) - θ (.px r)) (θ (.py t) - θ (.py r)) = k at *
    suffices |n - k| ≤ |(|n - 2 * a * (n - k)| - |k + 2 * a * (n - k)|)| by
      have := sq_le_sq.2 this
      linarith
    rcases le_total k n with hh | hh
    · rw [abs_of_nonneg (sub_nonneg.2 hh), abs_of_nonneg (show 0 ≤ k + 2 * a * (n - k) by nlinarith)]
      refine le_trans ?_ (neg_le_abs _)
      rcases abs_cases (n - 2 * a * (n - k)) with ⟨e, -⟩ | ⟨e, -⟩ <;> rw [e] <;> nlinarith
    · rw [abs_of_nonpos (sub_nonpos.2 hh), abs_of_nonneg (show 0 ≤ n - 2 * a * (n - k) by nlinarith)]
      refine le_trans ?_ (le_abs_self _)
      rcases abs_cases (k + 2 * a * (n - k)) with ⟨e, -⟩ | ⟨e, -⟩ <;> rw [e] <;> nlinarith

end kinds

end Isotope
