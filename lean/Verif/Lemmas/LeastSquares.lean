import Verif.Lemmas.LinearBFGS
import Verif.Lemmas.Conflict
import Verif.Lemmas.Tree
import Verif.Lemmas.SketchResid
import Verif.SpecCount
import Mathlib.LinearAlgebra.Matrix.Rank

/-!
# Linear sketches without a solution

The least loss of a linear sketch, and how its loss grows with the distance from the positions where it is least.
-/

namespace Isotope
open XR
open Matrix

section alg
variable {m n : Nat} (R : Matrix (Fin m) (Fin n) ℝ) (b : Fin m → ℝ)

/-- the normal equations have a solution -/
theorem exists_least : ∃ x, quadGrad R b x = 0 := by
  have hle : LinearMap.range (Rᵀ * R).mulVecLin ≤ LinearMap.range Rᵀ.mulVecLin := by
    rintro _ ⟨x, rfl⟩
    exact ⟨R *ᵥ x, by simp⟩
  have heq := Submodule.eq_of_le_of_finrank_eq hle (by
    change (Rᵀ * R).rank = Rᵀ.rank
    rw [rank_transpose_mul_self, rank_transpose])
  have : Rᵀ *ᵥ b ∈ LinearMap.range (Rᵀ * R).mulVecLin := by
    rw [heq]; exact ⟨b, rfl⟩
  obtain ⟨x, hx⟩ := this
  refine ⟨x, ?_⟩
  unfold quadGrad
  rw [mulVec_sub, mulVec_mulVec, sub_eq_zero]
  exact hx

variable {R b}

theorem quadGrad_shift {x0 : Fin n → ℝ} (h0 : quadGrad R b x0 = 0) (x : Fin n → ℝ) : quadGrad R (R *ᵥ x0) x = quadGrad R b x := by
  have e : x = x0 + (x - x0) := by abel
  conv_rhs => rw [e, quadGrad_add, h0, zero_add]
  unfold quadGrad
  rw [mulVec_sub R]

theorem quad_shift {x0 : Fin n → ℝ} (h0 : quadGrad R b x0 = 0) (x : Fin n → ℝ) :
    quad R b x = quad R b x0 + quad R (R *ᵥ x0) x := by
  have e : x = x0 + (x - x0) := by abel
  conv_lhs => rw [e, quad_add, h0, zero_dotProduct, add_zero]
  unfold quad
  rw [mulVec_sub]

/-- the conditioning of a linear system, with or without a solution -/
structure Sized (R : Matrix (Fin m) (Fin n) ℝ) (mu M : ℝ) : Prop where
  low : ∀ e, ∃ e0, R *ᵥ e0 = R *ᵥ e ∧ mu * (e0 ⬝ᵥ e0) ≤ (R *ᵥ e) ⬝ᵥ (R *ᵥ e)
  high : ∀ e : Fin n → ℝ, (R *ᵥ e) ⬝ᵥ (R *ᵥ e) ≤ M * (e ⬝ᵥ e)

theorem Sized.wellPosed {mu M : ℝ} (w : Sized R mu M) (x0 : Fin n → ℝ) : WellPosed R (R *ᵥ x0) mu M := by
  refine ⟨fun v => ?_, w.high⟩
  obtain ⟨e0, h1, h2⟩ := w.low (v - x0)
  refine ⟨v - e0, by rw [mulVec_sub, h1, mulVec_sub]; abel, ?_⟩
  rw [sub_sub_cancel]
  refine h2.trans (le_of_eq ?_)
  unfold quad
  rw [mulVec_sub]
  ring

theorem quad_polar (e : Fin n → ℝ) : (R *ᵥ e) ⬝ᵥ (R *ᵥ e) = quad R b e + quad R b (-e) - 2 * quad R b 0 := by
  unfold quad
  rw [mulVec_neg, mulVec_zero]
  simp only [sub_dotProduct, dotProduct_sub, neg_dotProduct, dotProduct_neg, zero_dotProduct, dotProduct_zero]
  ring

end alg

variable {h : Heap XR} {s : Sketch} {m : Nat} {R : Matrix (Fin m) (Fin (getNDofs h s)) ℝ} {b : Fin m → ℝ}

/-- the places of the points in a data vector (0 for points outside the sketch) -/
noncomputable def placeIn (h : Heap XR) (s : Sketch) (x : Fin (getNDofs h s) → ℝ) (p : Nat) (a : Fin 2) : ℝ := coordOf' h s (axDof a p) x

theorem placeIn_neg (e : Fin (getNDofs h s) → ℝ) (p : Nat) (a : Fin 2) : placeIn h s (-e) p a = -placeIn h s e p a := by
  unfold placeIn; rw [map_neg]

theorem placeIn_sub (e e' : Fin (getNDofs h s) → ℝ) (p : Nat) (a : Fin 2) :
    placeIn h s (e - e') p a = placeIn h s e p a - placeIn h s e' p a := by
  unfold placeIn; rw [map_sub]

theorem placeIn_zero (p : Nat) (a : Fin 2) : placeIn h s 0 p a = 0 := by
  unfold placeIn; rw [map_zero]

/-- the ends of the demand a linear constraint makes on axis `a`: a point or the origin -/
def axEnds (h : Heap XR) (a : Fin 2) : Constraint XR → Option Nat × Option Nat
  | .fix p _ => (none, some p)
  | .horizDist p1 p2 _ => if a = 0 then (some p1, some p2) else (none, none)
  | .vertDist p1 p2 _ => if a = 1 then (some p1, some p2) else (none, none)
  | .horizLine l => if a = 1 then (some (h.lines l).start, some (h.lines l).stop) else (none, none)
  | .vertLine l => if a = 0 then (some (h.lines l).start, some (h.lines l).stop) else (none, none)
  | _ => (none, none)

theorem axRow_ends (y : Nat → ℝ) (a : Fin 2) (c : Constraint XR) :
    Finsupp.linearCombination ℝ y (axRow h a c) = (axEnds h a c).2.elim 0 y - (axEnds h a c).1.elim 0 y := by
  cases c <;> simp only [axRow, axEnds] <;> (try split_ifs) <;> simp

theorem axEnds_mem {a : Fin 2} {c : Constraint XR} {p : Nat} (hp : (axEnds h a c).1 = some p ∨ (axEnds h a c).2 = some p) :
    .point p ∈ consDeps h c := by
  cases c <;> simp only [axEnds] at hp <;> (try split_ifs at hp) <;> simp at hp <;>
    (try rcases hp with rfl | rfl) <;> simp [consDeps, consFields, primFields]

theorem lin_congr {y y' : Nat → ℝ} {a : Fin 2} {c : Constraint XR} (hy : ∀ p, .point p ∈ consDeps h c → y p = y' p) :
    Finsupp.linearCombination ℝ y (axRow h a c) = Finsupp.linearCombination ℝ y' (axRow h a c) := by
  rw [axRow_ends, axRow_ends]
  congr 1
  · cases e : (axEnds h a c).2 with
    | none => rfl
    | some p => exact hy p (axEnds_mem (.inr e))
  · cases e : (axEnds h a c).1 with
    | none => rfl
    | some p => exact hy p (axEnds_mem (.inl e))

theorem axDof_mem {a : Fin 2} {p : Nat} : axDof a p ∈ s.dofs ↔ .point p ∈ s.cells := by
  rw [mem_sketch_dofs, axDof_owner]

theorem placeOf_data {h1 : Heap XR} {x : Fin (getNDofs h s) → ℝ} (ex : getData h1 s = vec x) {p : Nat} (hp : .point p ∈ s.cells) (a : Fin 2) :
    placeOf h1 p a = placeIn h s x p a := by
  have hd : axDof a p ∈ s.dofs := axDof_mem.2 hp
  have e := val_of_data ex hd
  have e1 : placeOf h1 p a = (val h1 (axDof a p)).toReal := by fin_cases a <;> rfl
  rw [e1, e, toReal_fin]
  unfold placeIn coordOf coordOf'
  rw [dif_pos (idxOf_lt hd), dif_pos (idxOf_lt hd)]
  rfl

/-- the loss of a constraint at a data vector -/
theorem LinAt.value (l : LinAt h s R b) (hc : Closed ⟨h, s⟩) (hl : ∀ k ∈ s.cons, IsLinear (h.cons k)) {H : Heap XR} (r : SameRefs h H)
    {x : Fin (getNDofs h s) → ℝ} (ed : getData H s = vec x) {k : Nat} (hk : k ∈ s.cons) :
    lossValue H (H.cons k) = fin ((axErr h (placeIn h s x) 0 (h.cons k) ^ 2 + axErr h (placeIn h s x) 1 (h.cons k) ^ 2) / 2) := by
  have hf : FiniteSketch H s := finite_at l.par r (v := x) ed
  have hfk := hf.cons (hc.sameRefs r) k hk
  rw [r.cons] at hfk ⊢
  rw [ax_loss hfk (hl k hk)]
  have key : ∀ a, axErr H (placeOf H) a (h.cons k) = axErr h (placeIn h s x) a (h.cons k) := by
    intro a
    have er : axRow H a (h.cons k) = axRow h a (h.cons k) := by
      generalize h.cons k = c
      cases c <;> simp [axRow, r.lines]
    unfold axErr
    rw [er, lin_congr fun p hp => placeOf_data ed (hc.deps hk hp) a]
  rw [key, key]

/-- the loss at a data vector, constraint by constraint and axis by axis -/
theorem LinAt.quad_eq (l : LinAt h s R b) (hc : Closed ⟨h, s⟩) (hl : ∀ k ∈ s.cons, IsLinear (h.cons k)) (x : Fin (getNDofs h s) → ℝ) :
    quad R b x = (s.cons.map (fun k => (axErr h (placeIn h s x) 0 (h.cons k) ^ 2 + axErr h (placeIn h s x) 1 (h.cons k) ^ 2) / 2)).sum := by
  obtain ⟨H, -, r, ed⟩ := l.set (SameRefs.refl h) x
  have e1 := (l.at r ed).1
  rw [getLoss_fin fun k hk => ⟨_, l.value hc hl r ed hk⟩] at e1
  rw [← XR.fin.inj e1]
  congr 1
  refine List.map_congr_left fun k hk => ?_
  rw [l.value hc hl r ed hk, toReal_fin]

/-- the linear part of the demand on axis `a` -/
noncomputable def axLin (h : Heap XR) (s : Sketch) (e : Fin (getNDofs h s) → ℝ) (a : Fin 2) (c : Constraint XR) : ℝ :=
  Finsupp.linearCombination ℝ (fun p => placeIn h s e p a) (axRow h a c)

theorem axLin_neg (e : Fin (getNDofs h s) → ℝ) (a : Fin 2) (c : Constraint XR) : axLin h s (-e) a c = -axLin h s e a c := by
  unfold axLin
  rw [axRow_ends, axRow_ends]
  cases (axEnds h a c).1 <;> cases (axEnds h a c).2 <;> simp [placeIn_neg]; ring

theorem axLin_sub (e e' : Fin (getNDofs h s) → ℝ) (a : Fin 2) (c : Constraint XR) : axLin h s (e - e') a c = axLin h s e a c - axLin h s e' a c := by
  unfold axLin
  rw [axRow_ends, axRow_ends, axRow_ends]
  cases (axEnds h a c).1 <;> cases (axEnds h a c).2 <;> simp [placeIn_sub] <;> ring

theorem axLin_zero (a : Fin 2) (c : Constraint XR) : axLin h s 0 a c = 0 := by
  unfold axLin
  rw [axRow_ends]
  cases (axEnds h a c).1 <;> cases (axEnds h a c).2 <;> simp [placeIn_zero]

theorem LinAt.form (l : LinAt h s R b) (hc : Closed ⟨h, s⟩) (hl : ∀ k ∈ s.cons, IsLinear (h.cons k)) (e : Fin (getNDofs h s) → ℝ) :
    (R *ᵥ e) ⬝ᵥ (R *ᵥ e) = (s.cons.map (fun k => axLin h s e 0 (h.cons k) ^ 2 + axLin h s e 1 (h.cons k) ^ 2)).sum := by
  rw [quad_polar (b := b), l.quad_eq hc hl, l.quad_eq hc hl, l.quad_eq hc hl]
  generalize s.cons = L
  induction L with
  | nil => simp
  | cons k L ih =>
    simp only [List.map_cons, List.sum_cons]
    rw [← ih]
    have key : ∀ e a, axErr h (placeIn h s e) a (h.cons k) = axLin h s e a (h.cons k) - axGoal a (h.cons k) := fun _ _ => rfl
    simp only [key, axLin_neg, axLin_zero]
    ring

/-! ## The conditioning of any linear sketch -/

/-- a point of the sketch among all points -/
def toP (L : List Nat) (o : Option Nat) : Option {p // p ∈ L.toFinset} :=
  o.bind fun p => if hp : p ∈ L.toFinset then some ⟨p, hp⟩ else none

theorem mem_pointIds {p : Nat} : p ∈ pointIds s ↔ .point p ∈ s.cells := by
  unfold pointIds
  rw [List.mem_filterMap]
  constructor
  · rintro ⟨c, hc, e⟩
    cases c <;> simp at e
    subst e
    exact hc
  · exact fun hp => ⟨_, hp, rfl⟩

theorem dot_sum {n : Nat} (L : List Dof) (hn : L.length = n) (f : Dof → ℝ) (v : Fin n → ℝ) (hv : ∀ i : Fin n, v i = f (L[i.1]'(by rw [hn]; exact i.2))) :
    v ⬝ᵥ v = (L.map (fun d => f d ^ 2)).sum := by
  subst hn
  rw [dotProduct, ← List.sum_ofFn]
  congr 1
  apply List.ext_getElem <;> simp [hv, pow_two]

theorem dofs_sum (F : Fin 2 → Nat → ℝ) (g : Dof → ℝ) (g0 : ∀ p, g (.px p) = F 0 p) (g1 : ∀ p, g (.py p) = F 1 p)
    (g2 : ∀ p, g (.ar p) = 0) (g3 : ∀ p, g (.as p) = 0) (g4 : ∀ p, g (.ae p) = 0) (g5 : ∀ p, g (.cr p) = 0) (s : Sketch) :
    (s.dofs.map (fun d => g d ^ 2)).sum = ((pointIds s).map (fun p => F 0 p ^ 2 + F 1 p ^ 2)).sum := by
  unfold Sketch.dofs pointIds
  induction s.cells with
  | nil => rfl
  | cons c l ih =>
    rw [List.flatMap_cons, List.map_append, List.sum_append, ih]
    cases c <;> simp [dofs, g0, g1, g2, g3, g4, g5]

theorem LinAt.low (l : LinAt h s R b) (hc : Closed ⟨h, s⟩) (hl : ∀ k ∈ s.cons, IsLinear (h.cons k)) (e : Fin (getNDofs h s) → ℝ) :
    ∃ e0, R *ᵥ e0 = R *ᵥ e ∧ e0 ⬝ᵥ e0 ≤ ((pointIds s).length : ℝ) ^ 2 * ((R *ᵥ e) ⬝ᵥ (R *ᵥ e)) := by
  classical
  set L := pointIds s with eL
  have memL : ∀ p, p ∈ L.toFinset ↔ .point p ∈ s.cells := fun p => by rw [List.mem_toFinset, eL, mem_pointIds]
  let f : Fin 2 → Option {p // p ∈ L.toFinset} → ℝ := fun a o => o.elim 0 fun p => placeIn h s e p a
  let u : Fin 2 → Fin s.cons.length → Option {p // p ∈ L.toFinset} := fun a i => toP L (axEnds h a (h.cons s.cons[i])).1
  let w : Fin 2 → Fin s.cons.length → Option {p // p ∈ L.toFinset} := fun a i => toP L (axEnds h a (h.cons s.cons[i])).2
  have key : ∀ a, ∃ f0 : Option {p // p ∈ L.toFinset} → ℝ, f0 none = 0 ∧ (∀ i, f0 (w a i) - f0 (u a i) = f a (w a i) - f a (u a i)) ∧
      ∀ p, f0 p ^ 2 ≤ Fintype.card {p // p ∈ L.toFinset} * ∑ i, (f a (w a i) - f a (u a i)) ^ 2 :=
    fun a => small_values (u a) (w a) (f a) rfl
  choose f0 z0 d0 b0 using key
  let F : Fin 2 → Nat → ℝ := fun a p => f0 a (toP L (some p))
  let g : Dof → ℝ := fun
    | .px p => F 0 p
    | .py p => F 1 p
    | _ => 0
  let e0 : Fin (getNDofs h s) → ℝ := fun j => g (s.dofs[j.1]'(by rw [dofs_length h]; exact j.2))
  have hplace : ∀ p a, placeIn h s e0 p a = F a p := by
    intro p a
    unfold placeIn coordOf'
    by_cases hp : .point p ∈ s.cells
    · have hd : axDof a p ∈ s.dofs := axDof_mem.2 hp
      rw [dif_pos (idxOf_lt hd)]
      change g (s.dofs[s.dofs.idxOf (axDof a p)]'_) = _
      rw [List.getElem_idxOf]
      fin_cases a <;> rfl
    · have hd : axDof a p ∉ s.dofs := fun hh => hp (axDof_mem.1 hh)
      rw [dif_neg (by rw [← dofs_length]; exact fun hh => hd (List.idxOf_lt_length_iff.1 hh))]
      have : toP L (some p) = none := by
        simp only [toP, Option.bind_some]
        exact dif_neg fun hh => hp ((memL p).1 hh)
      simp only [F, this, z0]
      rfl
  -- the values at the ends
  have ends : ∀ a (i : Fin s.cons.length) (o : Option Nat), (∀ p, o = some p → .point p ∈ s.cells) →
      o.elim 0 (fun p => placeIn h s e p a) = f a (toP L o) ∧ o.elim 0 (fun p => placeIn h s e0 p a) = f0 a (toP L o) := by
    intro a i o ho
    cases o with
    | none => exact ⟨rfl, (z0 a).symm⟩
    | some p =>
      refine ⟨?_, hplace p a⟩
      have : toP L (some p) = some ⟨p, (memL p).2 (ho p rfl)⟩ := by
        simp only [toP, Option.bind_some]
        exact dif_pos ((memL p).2 (ho p rfl))
      rw [this]
      rfl
  have hmem : ∀ a (i : Fin s.cons.length) p, (axEnds h a (h.cons s.cons[i])).1 = some p ∨ (axEnds h a (h.cons s.cons[i])).2 = some p →
      .point p ∈ s.cells := fun a i p hp => hc.deps (List.getElem_mem i.2) (axEnds_mem hp)
  have hlin : ∀ a (i : Fin s.cons.length), axLin h s e a (h.cons s.cons[i]) = f a (w a i) - f a (u a i) := by
    intro a i
    unfold axLin
    rw [axRow_ends, (ends a i _ fun p hp => hmem a i p (.inr hp)).1, (ends a i _ fun p hp => hmem a i p (.inl hp)).1]
  have hlin0 : ∀ a (i : Fin s.cons.length), axLin h s e0 a (h.cons s.cons[i]) = axLin h s e a (h.cons s.cons[i]) := by
    intro a i
    rw [hlin, ← d0]
    unfold axLin
    rw [axRow_ends, (ends a i _ fun p hp => hmem a i p (.inr hp)).2, (ends a i _ fun p hp => hmem a i p (.inl hp)).2]
  refine ⟨e0, ?_, ?_⟩
  · rw [← sub_eq_zero, ← mulVec_sub, ← dotProduct_self_eq_zero, l.form hc hl]
    apply List.sum_eq_zero
    intro y hy
    obtain ⟨k, hk, rfl⟩ := List.mem_map.1 hy
    obtain ⟨i, hi, rfl⟩ := List.getElem_of_mem hk
    have := fun a => hlin0 a ⟨i, hi⟩
    simp only [Fin.getElem_fin] at this
    rw [axLin_sub, axLin_sub, this, this]
    simp
  · have hQ : (R *ᵥ e) ⬝ᵥ (R *ᵥ e) = ∑ i, (f 0 (w 0 i) - f 0 (u 0 i)) ^ 2 + ∑ i, (f 1 (w 1 i) - f 1 (u 1 i)) ^ 2 := by
      rw [l.form hc hl, sum_get, ← Finset.sum_add_distrib]
      refine Finset.sum_congr rfl fun i _ => ?_
      rw [← hlin, ← hlin]
    have hP : (Fintype.card {p // p ∈ L.toFinset} : ℝ) ≤ L.length := by
      rw [Fintype.card_coe]
      exact_mod_cast L.toFinset_card_le
    rw [dot_sum s.dofs (dofs_length h s) g e0 fun _ => rfl, dofs_sum F g (fun _ => rfl) (fun _ => rfl) (fun _ => rfl) (fun _ => rfl)
      (fun _ => rfl) (fun _ => rfl), ← eL]
    have hB : ∀ p, F 0 p ^ 2 + F 1 p ^ 2 ≤ L.length * ((R *ᵥ e) ⬝ᵥ (R *ᵥ e)) := by
      intro p
      have k0 := b0 0 (toP L (some p))
      have k1 := b0 1 (toP L (some p))
      calc _ ≤ (Fintype.card {p // p ∈ L.toFinset} : ℝ) * ((R *ᵥ e) ⬝ᵥ (R *ᵥ e)) := by
            rw [hQ, mul_add]; exact add_le_add k0 k1
        _ ≤ _ := mul_le_mul_of_nonneg_right hP (dot_self_nonneg _)
    have := List.sum_le_card_nsmul (L.map (fun p => F 0 p ^ 2 + F 1 p ^ 2)) (L.length * ((R *ᵥ e) ⬝ᵥ (R *ᵥ e))) (by
      intro y hy
      obtain ⟨p, -, rfl⟩ := List.mem_map.1 hy
      exact hB p)
    rw [List.length_map, nsmul_eq_mul] at this
    refine this.trans (le_of_eq (by ring))

theorem two_le_dot {n : Nat} (e : Fin n → ℝ) {i j : Fin n} (hij : i ≠ j) : e i ^ 2 + e j ^ 2 ≤ e ⬝ᵥ e := by
  classical
  have : ∑ k ∈ {i, j}, e k * e k ≤ ∑ k, e k * e k :=
    Finset.sum_le_sum_of_subset_of_nonneg (Finset.subset_univ _) fun _ _ _ => mul_self_nonneg _
  rw [Finset.sum_pair hij] at this
  calc _ = e i * e i + e j * e j := by ring
    _ ≤ _ := this

theorem place_two (e : Fin (getNDofs h s) → ℝ) {p q : Nat} {a a' : Fin 2} (hd : axDof a p ≠ axDof a' q) :
    placeIn h s e p a ^ 2 + placeIn h s e q a' ^ 2 ≤ e ⬝ᵥ e := by
  have one : ∀ i, e i ^ 2 ≤ e ⬝ᵥ e := fun i => by
    have := Finset.single_le_sum (f := fun k => e k * e k) (fun k _ => mul_self_nonneg _) (Finset.mem_univ i)
    calc _ = e i * e i := by ring
      _ ≤ _ := this
  unfold placeIn coordOf'
  have hn := dot_self_nonneg e
  split_ifs with h1 h2 h2
  · refine two_le_dot e fun hh => hd ?_
    have hh := Fin.mk.inj hh
    have i1 : s.dofs.idxOf (axDof a p) < s.dofs.length := by rw [dofs_length h]; exact h1
    have e1 := List.getElem_idxOf i1
    have i2 : s.dofs.idxOf (axDof a' q) < s.dofs.length := by rw [dofs_length h]; exact h2
    have e2 := List.getElem_idxOf i2
    rw [← e1, ← e2]
    congr 1
  · simpa using one ⟨_, h1⟩
  · simpa using one ⟨_, h2⟩
  · simpa using hn

theorem axLin_le (e : Fin (getNDofs h s) → ℝ) (c : Constraint XR) (hl : IsLinear c) :
    axLin h s e 0 c ^ 2 + axLin h s e 1 c ^ 2 ≤ 2 * (e ⬝ᵥ e) := by
  have hn := dot_self_nonneg e
  have diff : ∀ p q a, (placeIn h s e q a - placeIn h s e p a) ^ 2 ≤ 2 * (e ⬝ᵥ e) := by
    intro p q a
    by_cases hpq : p = q
    · subst hpq; simp; exact hn
    · have := place_two (h := h) e (p := p) (q := q) (a := a) (a' := a) (by
        fin_cases a <;> simp [axDof, hpq])
      nlinarith [sq_nonneg (placeIn h s e q a + placeIn h s e p a)]
  have hl' : IsFix c ∨ IsDiff c := hl
  unfold axLin
  rw [axRow_ends, axRow_ends]
  cases c <;> simp only [IsFix, IsDiff, or_self] at hl' <;> simp [axEnds]
  case fix p d =>
    have := place_two (h := h) e (p := p) (q := p) (a := 0) (a' := 1) (by simp [axDof])
    linarith
  all_goals exact diff _ _ _

/-- every linear sketch is conditioned by how many points and constraints it has -/
theorem LinAt.sized (l : LinAt h s R b) (hc : Closed ⟨h, s⟩) (hl : ∀ k ∈ s.cons, IsLinear (h.cons k)) {N K : Nat} (hN0 : 0 < N)
    (hN : (pointIds s).length ≤ N) (hK : s.cons.length ≤ K) : Sized R (1 / (N : ℝ) ^ 2) (2 * K) := by
  have hNr : (0 : ℝ) < (N : ℝ) ^ 2 := by positivity
  refine ⟨fun e => ?_, fun e => ?_⟩
  · obtain ⟨e0, h1, h2⟩ := l.low hc hl e
    refine ⟨e0, h1, ?_⟩
    rw [div_mul_eq_mul_div, one_mul, div_le_iff₀ hNr, mul_comm]
    refine h2.trans (mul_le_mul_of_nonneg_right ?_ (dot_self_nonneg _))
    exact pow_le_pow_left₀ (by positivity) (by exact_mod_cast hN) 2
  · rw [l.form hc hl]
    have := List.sum_le_card_nsmul (s.cons.map (fun k => axLin h s e 0 (h.cons k) ^ 2 + axLin h s e 1 (h.cons k) ^ 2)) (2 * (e ⬝ᵥ e)) (by
      intro y hy
      obtain ⟨k, hk, rfl⟩ := List.mem_map.1 hy
      exact axLin_le e _ (hl k hk))
    rw [List.length_map, nsmul_eq_mul] at this
    refine this.trans ?_
    have hK' : (s.cons.length : ℝ) ≤ K := by exact_mod_cast hK
    nlinarith [dot_self_nonneg e]

end Isotope
