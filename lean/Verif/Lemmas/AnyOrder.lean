import Verif.Lemmas.MoveBy
import Verif.Lemmas.Exact

/-!
# Constraints in any order
-/

namespace Isotope
open XR

/-! ## Sums -/

theorem XR.zero_add' (a : XR) : (0.0 : XR) + a = a := by
  have e : (0.0 : XR) = fin 0 := by rw [sci]; norm_num
  rw [e, add_comm', add_zero']

instance : RightCommutative (fun a b : XR => a + b) := ⟨fun a b c => by rw [add_assoc', add_comm' b, ← add_assoc']⟩

theorem sum_perm {l l' : List XR} (p : l.Perm l') (a : XR) : l.foldl (· + ·) a = l'.foldl (· + ·) a := p.foldl_eq a

theorem dotL_maps {α : Type} (l : List α) (f g : α → XR) :
    dotL (l.map f) (l.map g) = (l.map (fun x => f x * g x)).foldl (· + ·) (0.0 : XR) := by
  cases l with
  | nil => rfl
  | cons a l =>
    show ((l.map f).zip (l.map g)).foldl _ (f a * g a) = (l.map (fun x => f x * g x)).foldl (· + ·) (0.0 + f a * g a)
    rw [zero_add']
    generalize f a * g a = u
    induction l generalizing u with
    | nil => rfl
    | cons b l ih => exact ih _

theorem dotL_perm {α : Type} {l l' : List α} (p : l.Perm l') (f g : α → XR) : dotL (l.map f) (l.map g) = dotL (l'.map f) (l'.map g) := by
  rw [dotL_maps, dotL_maps, sum_perm (p.map _)]

theorem matMul_transpose_perm {α : Type} {l l' : List α} (p : l.Perm l') (ρ : α → List XR) (nd : Nat) :
    matMul nd (transpose nd (l.map ρ)) (l.map ρ) = matMul nd (transpose nd (l'.map ρ)) (l'.map ρ) := by
  simp only [matMul, transpose, List.map_map]
  refine List.map_congr_left fun j _ => List.map_congr_left fun i _ => ?_
  exact dotL_perm p _ _

theorem matMul_columns {α : Type} (l : List α) (ρ : α → List XR) (nd : Nat) (pi : List (List XR)) :
    matMul (l.map ρ).length pi (transpose nd (l.map ρ)) =
      pi.map (fun row => l.map (fun c => dotL row ((List.range nd).map (fun i => (ρ c).getD i 0.0)))) := by
  simp only [matMul, transpose, List.map_map, List.length_map]
  refine List.map_congr_left fun row _ => ?_
  refine List.ext_getElem (by simp) fun j h1 h2 => ?_
  simp only [List.getElem_map, List.getElem_range]
  congr 1
  refine List.map_congr_left fun i _ => ?_
  simp only [List.length_map] at h2
  simp [List.getD_eq_getElem?_getD, h2]

theorem sameNormal_perm {α : Type} {l l' : List α} (p : l.Perm l') (ρ : α → List XR) (lo : α → XR) (nd : Nat)
    (pi : List (List XR)) :
    matVec (matMul (l.map ρ).length pi (transpose nd (l.map ρ))) (l.map lo) =
      matVec (matMul (l'.map ρ).length pi (transpose nd (l'.map ρ))) (l'.map lo) := by
  rw [matMul_columns, matMul_columns]
  simp only [matVec, List.map_map]
  exact List.map_congr_left fun row _ => dotL_perm p _ _

/-! ## Setting data -/

section
variable {F : Type} [Num F]

theorem gradOnly_primSet {h h' : Heap F} (g : GradOnly h h') (c : PrimCell) (d : List F) :
    BothE GradOnly GradOnly (primSetData h c d) (primSetData h' c d) := by
  have key : ∀ {h1 h1' : Heap F}, SameRefs h h1 → SameRefs h' h1' → (∀ x, x ≠ c → primData h1 x = primData h x) →
      (∀ x, x ≠ c → primData h1' x = primData h' x) → primData h1' c = primData h1 c → GradOnly h1 h1' := by
    intro h1 h1' r r' f f' e
    refine ⟨r.symm.trans (g.1.trans r'), fun x => ?_⟩
    by_cases w : x = c
    · rw [w, e]
    · rw [f x w, f' x w, g.2 x]
  have step : ∀ {h1 h1' : Heap F}, primSetData h c d = .ok h1 → primSetData h' c d = .ok h1' → primData h1' c = primData h1 c →
      BothE GradOnly GradOnly (primSetData h c d) (primSetData h' c d) := by
    intro h1 h1' e e' q
    obtain ⟨r, -, f⟩ := primSetData_ok_frame e
    obtain ⟨r', -, f'⟩ := primSetData_ok_frame e'
    rw [e, e']
    exact .ok (key r r' f f' q)
  cases c with
  | line a => exact .ok g
  | point a =>
    by_cases hf : d.all Num.isFinite = true
    · match d with
      | [x, y] =>
        exact step (by simp only [primSetData]; rw [if_pos hf]) (by simp only [primSetData]; rw [if_pos hf]) (by simp [primData, Heap.setPoint])
      | [] => simpa [primSetData] using BothE.error g
      | [x] => simpa [primSetData] using BothE.error g
      | _ :: _ :: _ :: _ => simpa [primSetData] using BothE.error g
    · simp only [primSetData, hf]
      exact .error g
  | arc a =>
    by_cases hf : d.all Num.isFinite = true
    · match d with
      | [x, y, z] =>
        exact step (by simp only [primSetData]; rw [if_pos hf]) (by simp only [primSetData]; rw [if_pos hf]) (by simp [primData, Heap.setArc])
      | [] => simpa [primSetData] using BothE.error g
      | [x] => simpa [primSetData] using BothE.error g
      | [x, y] => simpa [primSetData] using BothE.error g
      | _ :: _ :: _ :: _ :: _ => simpa [primSetData] using BothE.error g
    · simp only [primSetData, hf]
      exact .error g
  | circle a =>
    by_cases hf : d.all Num.isFinite = true
    · match d with
      | [x] =>
        exact step (by simp only [primSetData]; rw [if_pos hf]) (by simp only [primSetData]; rw [if_pos hf]) (by simp [primData, Heap.setCircle])
      | [] => simpa [primSetData] using BothE.error g
      | _ :: _ :: _ => simpa [primSetData] using BothE.error g
    · simp only [primSetData, hf]
      exact .error g

theorem gradOnly_setLoop (d : List F) (l : List (Nat × PrimCell)) (i : Nat) {h h' : Heap F} (g : GradOnly h h') :
    BothE GradOnly GradOnly (setDataLoop d l i h) (setDataLoop d l i h') := by
  induction l generalizing i h h' with
  | nil => exact .ok g
  | cons kp l ih =>
    unfold setDataLoop
    dsimp only
    rw [primData_length h h']
    have q := gradOnly_primSet g kp.2 ((d.drop i).take (primData h kp.2).length)
    generalize primSetData h kp.2 _ = e at q
    generalize primSetData h' kp.2 _ = e' at q
    cases q with
    | error r => exact .error r
    | ok r => exact ih _ r

theorem gradOnly_set (s : Sketch) (cs : List Nat) (d : List F) {h h' : Heap F} (g : GradOnly h h') :
    BothE GradOnly GradOnly (setData h s d) (setData h' { s with cons := cs } d) := by
  unfold setData
  rw [show getNDofs h' { s with cons := cs } = getNDofs h s from getNDofs_congr h h' s]
  split
  · exact gradOnly_setLoop _ _ _ g
  · exact .error g

/-! ## The Jacobian -/

/-- does the gradient update of this constraint return? -/
def rowOk (h : Heap F) (s : Sketch) (c : Nat) : Bool :=
  match updateGradient (zeroGrads h s) (h.cons c) with
  | .ok _ => true
  | .error _ => false

/-- the row of the Jacobian for this constraint -/
def rowOf (h : Heap F) (s : Sketch) (c : Nat) : List F :=
  match updateGradient (zeroGrads h s) (h.cons c) with
  | .ok h1 => jacobianRow h1 s
  | .error _ => []

theorem update_agree {h h' : Heap F} (g : GradOnly h h') (s : Sketch) (c : Nat) :
    AgreeE (fun c => c ∈ s.cells) (updateGradient (zeroGrads h s) (h.cons c)) (updateGradient (zeroGrads h' s) (h'.cons c)) := by
  have a := zeroGrads_agree s g
  rw [updateGradient_eq, updateGradient_eq, g.1.cons, a.1.chunks]
  exact foldChunks_agree _ a

theorem rowOk_congr {h h' : Heap F} (g : GradOnly h h') (s : Sketch) (c : Nat) : rowOk h' s c = rowOk h s c := by
  have a := update_agree g s c
  unfold rowOk
  cases e : updateGradient (zeroGrads h s) (h.cons c) <;> cases e' : updateGradient (zeroGrads h' s) (h'.cons c) <;>
    rw [e, e'] at a <;> first | rfl | exact a.elim

theorem rowOf_congr {h h' : Heap F} (g : GradOnly h h') (s : Sketch) (c : Nat) : rowOf h' s c = rowOf h s c := by
  have a := update_agree g s c
  unfold rowOf
  generalize updateGradient (zeroGrads h s) (h.cons c) = e at a
  generalize updateGradient (zeroGrads h' s) (h'.cons c) = e' at a
  cases e with
  | error h1 =>
    cases e' with
    | error h2 => rfl
    | ok h2 => exact a.elim
  | ok h1 =>
    cases e' with
    | error h2 => exact a.elim
    | ok h2 =>
      dsimp only
      rw [jacobianRow_eq, jacobianRow_eq]
      exact flatMap_congr_mem fun c hc => a.2 c hc

theorem jacobianRows_eq (s : Sketch) (cs : List Nat) (h0 h : Heap F) (g : GradOnly h0 h) :
    ∃ h1, GradOnly h0 h1 ∧ jacobianRows s cs h = if cs.all (rowOk h0 s) then .ok (cs.map (rowOf h0 s), h1) else .error h1 := by
  induction cs generalizing h with
  | nil => exact ⟨h, g, rfl⟩
  | cons c cs ih =>
    have ec : (zeroGrads h s).cons c = h.cons c := by rw [(zeroGrads_gradOnly h s).1.cons]
    have P := updateGradient_gradOnly h0 (zeroGrads h s) (h.cons c) (g.trans (zeroGrads_gradOnly h s))
    have k1 := rowOk_congr g s c
    have k2 := rowOf_congr g s c
    unfold rowOk at k1
    unfold rowOf at k2
    unfold jacobianRows
    simp only [ec, List.all_cons, List.map_cons]
    cases e : updateGradient (zeroGrads h s) (h.cons c) with
    | error h2 =>
      rw [e] at P k1
      refine ⟨h2, P, ?_⟩
      have : rowOk h0 s c = false := by unfold rowOk; exact k1.symm
      simp [this]
    | ok h2 =>
      rw [e] at P k1 k2
      have o : rowOk h0 s c = true := by unfold rowOk; exact k1.symm
      obtain ⟨h3, g3, e3⟩ := ih h2 P
      refine ⟨h3, g3, ?_⟩
      have r : jacobianRow h2 s = rowOf h0 s c := k2
      dsimp only
      rw [e3, o, Bool.true_and, r]
      by_cases w : cs.all (rowOk h0 s) = true
      · rw [if_pos w, if_pos w]
      · rw [if_neg w, if_neg w]

end

/-! ## The gradient -/

theorem total_perm {l l' : List (Dof × ℝ)} (p : l.Perm l') (d : Dof) : total l d = total l' d := (p.map _).sum_eq

theorem gr_zero (h : Heap XR) (s : Sketch) {c : PrimCell} (hc : c ∈ s.cells) {d : Dof} (hd : d ∈ dofs c) : gr (zeroGrads h s) d = fin 0 := by
  have z := zeroGrads_grad h s c
  rw [if_pos hc, primGrad_dofs] at z
  have m : gr (zeroGrads h s) d ∈ (dofs c).map (gr (zeroGrads h s)) := List.mem_map_of_mem hd
  rw [z] at m
  rw [List.eq_of_mem_replicate m]
  show (0.0 : XR) = _
  rw [sci]; norm_num

theorem gradient_perm {h h' : Heap XR} (g : GradOnly h h') (s : Sketch) {cs : List Nat} (p : s.cons.Perm cs) :
    BothG GradOnly GradOnly Eq (getGradient h s) (getGradient h' { s with cons := cs }) := by
  have a := (zeroGrads_agree s g).1
  have u := updateAll_eq (zeroGrads h s) (zeroGrads h s) s.cons (.refl _)
  have u' := updateAll_eq (zeroGrads h s) (zeroGrads h' s) cs a
  unfold getGradient
  rw [show updateAll (zeroGrads h' { s with cons := cs }) ({ s with cons := cs } : Sketch).cons = updateAll (zeroGrads h' s) cs from rfl, u, u']
  have pc : (s.cons.flatMap (fun c => chunks (zeroGrads h s) ((zeroGrads h s).cons c))).Perm
      (cs.flatMap (fun c => chunks (zeroGrads h s) ((zeroGrads h s).cons c))) := p.flatMap_right _
  generalize s.cons.flatMap (fun c => chunks (zeroGrads h s) ((zeroGrads h s).cons c)) = L at *
  generalize cs.flatMap (fun c => chunks (zeroGrads h s) ((zeroGrads h s).cons c)) = L' at *
  obtain ⟨A, B⟩ := foldChunks_exact (zeroGrads h s) (zeroGrads h s) L (.refl _)
  obtain ⟨A', B'⟩ := foldChunks_exact (zeroGrads h s) (zeroGrads h' s) L' a
  have P := foldChunks_gradOnly (zeroGrads h s) (zeroGrads h s) L (.refl _)
  have P' := foldChunks_gradOnly (zeroGrads h s) (zeroGrads h' s) L' a
  by_cases hf : ∀ k ∈ L, k.finite = true
  · obtain ⟨h1, e1, g1, d1⟩ := A hf
    obtain ⟨h2, e2, g2, d2⟩ := A' fun k hk => hf k (pc.mem_iff.2 hk)
    rw [e1, e2]
    have ag : Agree (fun c => c ∈ s.cells) h1 h2 := by
      refine ⟨g1.symm.trans g2, fun c hc => ?_⟩
      rw [primGrad_dofs, primGrad_dofs]
      refine List.map_congr_left fun d hd => ?_
      rw [d1 d 0 (gr_zero h s hc hd), d2 d 0 (gr_zero h' s hc hd), total_perm (pc.flatMap_right _)]
    dsimp only
    rw [show collectGradient h2 { s with cons := cs } = collectGradient h2 s from rfl, collect_agree s ag]
    cases collectGradient h1 s with
    | none => exact .error ag.1
    | some v => exact .ok rfl ag.1
  · have : ∃ k ∈ L, k.finite = false := by
      by_contra w
      exact hf fun k hk => by
        cases e : k.finite with
        | true => rfl
        | false => exact absurd ⟨k, hk, e⟩ w
    obtain ⟨h1, e1⟩ := B this
    obtain ⟨k, hk, e⟩ := this
    obtain ⟨h2, e2⟩ := B' ⟨k, pc.mem_iff.1 hk, e⟩
    rw [e1] at P ⊢
    rw [e2] at P' ⊢
    exact .error (P.symm.trans P')

theorem getLoss_sum (h : Heap XR) (s : Sketch) : getLoss h s = (s.cons.map (fun c => lossValue h (h.cons c))).foldl (· + ·) (0.0 : XR) := by
  unfold getLoss
  rw [List.foldl_map]

theorem loss_perm {h h' : Heap XR} (g : GradOnly h h') (s : Sketch) {cs : List Nat} (p : s.cons.Perm cs) :
    getLoss h s = getLoss h' { s with cons := cs } := by
  rw [g.getLoss, getLoss_sum, getLoss_sum]
  exact sum_perm (p.map _) _

theorem alike_perm (s : Sketch) {cs : List Nat} (p : s.cons.Perm cs) : Alike s { s with cons := cs } GradOnly GradOnly (Eq (α := List XR)) Eq
    (fun _ => True) where
  first := trivial
  shorter := fun _ => trivial
  longer := fun _ => trivial
  imp := fun h => h
  data := fun g => (g.getData s).symm
  set := by
    rintro h h' d _ g rfl
    exact gradOnly_set s cs d g
  loss := fun g => loss_perm g s p
  grad := fun g => gradient_perm g s p
  dot := by rintro a _ b _ rfl rfl; rfl
  neg := by rintro a _ rfl; rfl
  add := by rintro x _ d _ k - rfl rfl; rfl
  axpy := by rintro x _ d _ k - rfl rfl; rfl

theorem newton_perm (s : Sketch) {cs : List Nat} (p : s.cons.Perm cs) (normal : Nat → List (List XR) → List (List XR))
    (hn : ∀ (nd : Nat) (l l' : List Nat) (ρ : Nat → List XR), l.Perm l' → normal nd (l.map ρ) = normal nd (l'.map ρ))
    (pinv : PInv XR) (ml σ eps : XR) (n : Nat) (ls : XR) {h h' : Heap XR} (g : GradOnly h h') :
    SameRun GradOnly GradOnly Eq (newtonLoop pinv ml σ eps normal s n ls h) (newtonLoop pinv ml σ eps normal { s with cons := cs } n ls h') := by
  refine (alike_perm s p).newton (fun e => by rw [e]) (by rintro x _ u rfl; rfl) normal ?_ ?_ pinv ml trivial eps n ls g
  · intro h h' g
    exact (getLoss_sum h s).symm.trans ((loss_perm g s p).trans (getLoss_sum ..))
  · intro h h' g
    obtain ⟨h1, g1, e1⟩ := jacobianRows_eq s s.cons h h (.refl h)
    obtain ⟨h2, g2, e2⟩ := jacobianRows_eq { s with cons := cs } cs h h' g
    have r : rowOk h { s with cons := cs } = rowOk h s := rfl
    have r' : rowOf h { s with cons := cs } = rowOf h s := rfl
    rw [r, r'] at e2
    unfold getJacobian
    show BothG _ _ _ _ (jacobianRows { s with cons := cs } cs h')
    rw [e1, e2]
    have ea : s.cons.all (rowOk h s) = cs.all (rowOk h s) := p.all_eq
    rw [ea]
    split
    · refine .ok ⟨hn _ _ _ _ p, fun pi => ?_⟩ (g1.symm.trans g2)
      rw [show getLossPerConstraint h' { s with cons := cs } = cs.map (fun c => lossValue h (h.cons c)) from g.lossPer { s with cons := cs }]
      exact sameNormal_perm p _ _ _ _
    · exact .error (g1.symm.trans g2)

end Isotope
