import Verif.Lemmas.Deriv
import Verif.Props.Loss

/-!
# Coordinates as a vector
-/

set_option linter.unusedSimpArgs false

namespace Isotope
open XR

/-- same references, and the same numbers in everything the constraint looks at -/
def DepEq (h h1 : Heap XR) (c : Constraint XR) : Prop :=
  SameRefs h h1 ∧ ∀ p ∈ consDeps h c, primData h1 p = primData h p

section
variable {h h1 : Heap XR} {c : Constraint XR}

theorem pt_of_primData {p : Nat} (e : primData h1 (.point p) = primData h (.point p)) : (h1.points p).data = (h.points p).data := by
  simp only [primData, List.cons.injEq, and_true] at e
  rcases hp : (h1.points p).data with ⟨x, y⟩
  rcases hq : (h.points p).data with ⟨x', y'⟩
  simp_all

theorem arc_of_primData {p : Nat} (e : primData h1 (.arc p) = primData h (.arc p)) : (h1.arcs p).data = (h.arcs p).data := by
  simp only [primData, List.cons.injEq, and_true] at e
  rcases hp : (h1.arcs p).data with ⟨x, y, z⟩
  rcases hq : (h.arcs p).data with ⟨x', y', z'⟩
  simp_all

theorem DepEq.all (g : DepEq h h1 c) :
    lossValue h1 c = lossValue h c ∧ chunks h1 c = chunks h c ∧ (Regular h1 c ↔ Regular h c) := by
  obtain ⟨r, hd⟩ := g
  have P : ∀ p, PrimCell.point p ∈ consDeps h c → ptData h1 p = ptData h p := fun p hp => pt_of_primData (hd _ hp)
  have O : ∀ p, PrimCell.point p ∈ consDeps h c → ptOf h1 p = ptOf h p := fun p hp => by
    unfold ptOf; rw [pt_of_primData (hd _ hp)]
  have S : ∀ l, PrimCell.point (h.lines l).start ∈ consDeps h c → lineStart h1 l = lineStart h l := fun l hp => by
    unfold lineStart; rw [r.lines]; exact P _ hp
  have E : ∀ l, PrimCell.point (h.lines l).stop ∈ consDeps h c → lineEnd h1 l = lineEnd h l := fun l hp => by
    unfold lineEnd; rw [r.lines]; exact P _ hp
  have L : ∀ l, PrimCell.point (h.lines l).start ∈ consDeps h c → PrimCell.point (h.lines l).stop ∈ consDeps h c →
      (ProperLine h1 l ↔ ProperLine h l) := fun l hp hq => by
    unfold ProperLine; rw [r.lines, O _ hp, O _ hq]
  have A : ∀ p, PrimCell.arc p ∈ consDeps h c → PrimCell.point (h.arcs p).center ∈ consDeps h c →
      (h1.arcs p).startPoint h1 = (h.arcs p).startPoint h ∧ (h1.arcs p).endPoint h1 = (h.arcs p).endPoint h ∧
      (h1.arcs p).startPointGradient = (h.arcs p).startPointGradient ∧
      (h1.arcs p).endPointGradient = (h.arcs p).endPointGradient := fun p hp hq => by
    unfold Arc.startPoint Arc.endPoint Arc.startPointGradient Arc.endPointGradient Arc.radius Arc.startAngle Arc.endAngle
    have := pt_of_primData (hd _ hq)
    rw [arc_of_primData (hd _ hp), r.arcCenter, this]
    exact ⟨rfl, rfl, rfl, rfl⟩
  cases c with
  | angle p1 p2 mid D =>
    have e0 := P p1 (by simp [consDeps, consFields, primFields])
    have o0 := O p1 (by simp [consDeps, consFields, primFields])
    have e1 := P p2 (by simp [consDeps, consFields, primFields])
    have o1 := O p2 (by simp [consDeps, consFields, primFields])
    have e2 := P mid (by simp [consDeps, consFields, primFields])
    have o2 := O mid (by simp [consDeps, consFields, primFields])
    refine ⟨?_, ?_, ?_⟩ <;> simp only [lossValue, currentAngle, euclidCurrent, horizCurrent, vertCurrent, chunks, Regular, e0, o0, e1, o1, e2, o2]
  | euclid p1 p2 D =>
    have e0 := P p1 (by simp [consDeps, consFields, primFields])
    have o0 := O p1 (by simp [consDeps, consFields, primFields])
    have e1 := P p2 (by simp [consDeps, consFields, primFields])
    have o1 := O p2 (by simp [consDeps, consFields, primFields])
    refine ⟨?_, ?_, ?_⟩ <;> simp only [lossValue, currentAngle, euclidCurrent, horizCurrent, vertCurrent, chunks, Regular, e0, o0, e1, o1]
  | horizDist p1 p2 D =>
    have e0 := P p1 (by simp [consDeps, consFields, primFields])
    have o0 := O p1 (by simp [consDeps, consFields, primFields])
    have e1 := P p2 (by simp [consDeps, consFields, primFields])
    have o1 := O p2 (by simp [consDeps, consFields, primFields])
    refine ⟨?_, ?_, ?_⟩ <;> simp only [lossValue, currentAngle, euclidCurrent, horizCurrent, vertCurrent, chunks, Regular, e0, o0, e1, o1]
  | vertDist p1 p2 D =>
    have e0 := P p1 (by simp [consDeps, consFields, primFields])
    have o0 := O p1 (by simp [consDeps, consFields, primFields])
    have e1 := P p2 (by simp [consDeps, consFields, primFields])
    have o1 := O p2 (by simp [consDeps, consFields, primFields])
    refine ⟨?_, ?_, ?_⟩ <;> simp only [lossValue, currentAngle, euclidCurrent, horizCurrent, vertCurrent, chunks, Regular, e0, o0, e1, o1]
  | fix p D =>
    have e0 := P p (by simp [consDeps, consFields, primFields])
    have o0 := O p (by simp [consDeps, consFields, primFields])
    refine ⟨?_, ?_, ?_⟩ <;> simp only [lossValue, currentAngle, euclidCurrent, horizCurrent, vertCurrent, chunks, Regular, e0, o0]
  | arcEnd a p =>
    have e1 := P p (by simp [consDeps, consFields, primFields])
    obtain ⟨a1, a2, a3, a4⟩ := A a (by simp [consDeps, consFields, primFields]) (by simp [consDeps, consFields, primFields])
    refine ⟨?_, ?_, ?_⟩ <;> simp only [lossValue, chunks, Regular, e1, a1, a2, a3, a4]
  | arcStart a p =>
    have e1 := P p (by simp [consDeps, consFields, primFields])
    obtain ⟨a1, a2, a3, a4⟩ := A a (by simp [consDeps, consFields, primFields]) (by simp [consDeps, consFields, primFields])
    refine ⟨?_, ?_, ?_⟩ <;> simp only [lossValue, chunks, Regular, e1, a1, a2, a3, a4]
  | horizLine l =>
    have s0 := S l (by simp [consDeps, consFields, primFields])
    have e0 := E l (by simp [consDeps, consFields, primFields])
    have l0 := L l (by simp [consDeps, consFields, primFields]) (by simp [consDeps, consFields, primFields])
    refine ⟨?_, ?_, ?_⟩ <;> simp only [lossValue, chunks, Regular, s0, e0, l0]
  | vertLine l =>
    have s0 := S l (by simp [consDeps, consFields, primFields])
    have e0 := E l (by simp [consDeps, consFields, primFields])
    have l0 := L l (by simp [consDeps, consFields, primFields]) (by simp [consDeps, consFields, primFields])
    refine ⟨?_, ?_, ?_⟩ <;> simp only [lossValue, chunks, Regular, s0, e0, l0]
  | eqLen l m =>
    have s0 := S l (by simp [consDeps, consFields, primFields])
    have e0 := E l (by simp [consDeps, consFields, primFields])
    have l0 := L l (by simp [consDeps, consFields, primFields]) (by simp [consDeps, consFields, primFields])
    have s1 := S m (by simp [consDeps, consFields, primFields])
    have e1 := E m (by simp [consDeps, consFields, primFields])
    have l1 := L m (by simp [consDeps, consFields, primFields]) (by simp [consDeps, consFields, primFields])
    refine ⟨?_, ?_, ?_⟩ <;> simp only [lossValue, chunks, Regular, s0, e0, l0, s1, e1, l1]
  | parallel l m =>
    have s0 := S l (by simp [consDeps, consFields, primFields])
    have e0 := E l (by simp [consDeps, consFields, primFields])
    have l0 := L l (by simp [consDeps, consFields, primFields]) (by simp [consDeps, consFields, primFields])
    have s1 := S m (by simp [consDeps, consFields, primFields])
    have e1 := E m (by simp [consDeps, consFields, primFields])
    have l1 := L m (by simp [consDeps, consFields, primFields]) (by simp [consDeps, consFields, primFields])
    refine ⟨?_, ?_, ?_⟩ <;> simp only [lossValue, chunks, Regular, s0, e0, l0, s1, e1, l1]
  | perp l m =>
    have s0 := S l (by simp [consDeps, consFields, primFields])
    have e0 := E l (by simp [consDeps, consFields, primFields])
    have l0 := L l (by simp [consDeps, consFields, primFields]) (by simp [consDeps, consFields, primFields])
    have s1 := S m (by simp [consDeps, consFields, primFields])
    have e1 := E m (by simp [consDeps, consFields, primFields])
    have l1 := L m (by simp [consDeps, consFields, primFields]) (by simp [consDeps, consFields, primFields])
    refine ⟨?_, ?_, ?_⟩ <;> simp only [lossValue, chunks, Regular, s0, e0, l0, s1, e1, l1]

theorem contrib_sameRefs (r : SameRefs h h1) (k : Chunk XR) : k.contrib h1 = k.contrib h := by
  cases k <;> simp [Chunk.contrib, r.lines, r.arcCenter]

theorem DepEq.contribs (g : DepEq h h1 c) : contribs h1 c = contribs h c := by
  unfold Isotope.contribs
  rw [g.all.2.1]
  congr 1
  funext k
  exact contrib_sameRefs g.1 k

end

section
variable {h : Heap XR} {s : Sketch}

theorem dofs_length (h : Heap XR) (s : Sketch) : s.dofs.length = getNDofs h s := by
  rw [← getData_length, getData_dofs, List.length_map]

/-- the coordinates of a heap in which the sketch has the data vector `v` -/
noncomputable def coordOf (h : Heap XR) (s : Sketch) (v : Fin (getNDofs h s) → ℝ) (d : Dof) : ℝ :=
  if hd : s.dofs.idxOf d < getNDofs h s then v ⟨_, hd⟩ else (val h d).toReal

theorem idxOf_lt {d : Dof} (hd : d ∈ s.dofs) : s.dofs.idxOf d < getNDofs h s := by
  rw [← dofs_length]; exact List.idxOf_lt_length_iff.2 hd

theorem val_of_data {h1 : Heap XR} {v : Fin (getNDofs h s) → ℝ}
    (e : getData h1 s = List.ofFn (fun i => fin (v i))) {d : Dof} (hd : d ∈ s.dofs) : val h1 d = fin (coordOf h s v d) := by
  have hi : s.dofs.idxOf d < getNDofs h s := idxOf_lt hd
  have hi' : s.dofs.idxOf d < s.dofs.length := List.idxOf_lt_length_iff.2 hd
  rw [coordOf, dif_pos hi]
  rw [getData_dofs] at e
  have := congrArg (fun l => l[s.dofs.idxOf d]?) e
  simp only [List.getElem?_map, List.getElem?_eq_getElem hi', List.getElem_idxOf, Option.map_some] at this
  rw [List.getElem?_ofFn] at this
  simpa [hi] using this

/-- reading the data vector through the sketch -/
theorem depEq_of_data {h1 : Heap XR} (r : SameRefs h h1) (hc : Closed ⟨h, s⟩) {v : Fin (getNDofs h s) → ℝ}
    (e : getData h1 s = List.ofFn (fun i => fin (v i))) {k : Nat} (hk : k ∈ s.cons) :
    DepEq (h.withDofs (coordOf h s v)) h1 (h.cons k) := by
  have r0 := withDofs_sameRefs h (coordOf h s v)
  refine ⟨⟨?_, ?_, ?_, ?_, ?_, ?_, ?_, ?_, ?_, ?_⟩, fun p hp => ?_⟩
  · exact r.lines
  · exact r.cons
  · exact r.arcCenter
  · exact r.arcClockwise
  · exact r.circleCenter
  · exact r.nPoints
  · exact r.nLines
  · exact r.nArcs
  · exact r.nCircles
  · exact r.nCons
  · have hp' : p ∈ s.cells := by
      have : p ∈ consDeps h (h.cons k) := by
        have : consDeps (h.withDofs (coordOf h s v)) (h.cons k) = consDeps h (h.cons k) := by
          unfold consDeps; congr 2
        rw [← this]; exact hp
      unfold consDeps at this
      rcases List.mem_append.1 this with hp | hp
      · exact hc.2 k hk p hp
      · obtain ⟨x, hx, hp⟩ := List.mem_flatMap.1 hp
        exact hc.1 x (hc.2 k hk x hx) p hp
    rw [primData_dofs, primData_dofs]
    refine List.map_congr_left fun d hd => ?_
    rw [val_withDofs]
    refine val_of_data e (mem_sketch_dofs.2 ?_)
    rwa [dofs_owner (mem_dofs_owner d) hd]

/-- the partial derivatives of the coordinates -/
noncomputable def coordOf' (h : Heap XR) (s : Sketch) (d : Dof) : (Fin (getNDofs h s) → ℝ) →L[ℝ] ℝ :=
  if hd : s.dofs.idxOf d < getNDofs h s then ContinuousLinearMap.proj (R := ℝ) (φ := fun _ => ℝ) ⟨_, hd⟩ else 0

theorem hasFDerivAt_coordOf (v : Fin (getNDofs h s) → ℝ) (d : Dof) :
    HasFDerivAt (fun v => coordOf h s v d) (coordOf' h s d) v := by
  unfold coordOf coordOf'
  split
  · exact (ContinuousLinearMap.proj (R := ℝ) (φ := fun _ => ℝ) _).hasFDerivAt
  · exact hasFDerivAt_const _ _

theorem setData_vec (hn : s.cells.Nodup) (v : Fin (getNDofs h s) → ℝ) :
    ∃ h1, setData h s (List.ofFn (fun i => fin (v i))) = .ok h1 ∧ SameRefs h h1 ∧
      getData h1 s = List.ofFn (fun i => fin (v i)) := by
  obtain ⟨h1, e⟩ := (C14_ok_iff h s hn (List.ofFn (fun i => fin (v i)))).2 ⟨by simp, by
    intro x hx
    obtain ⟨i, rfl⟩ := List.mem_ofFn.1 hx
    rfl⟩
  refine ⟨h1, e, ?_, C12_roundtrip h h1 s _ hn e⟩
  have := C14_frame h s (List.ofFn (fun i => fin (v i)))
  rw [e] at this
  exact this.1

theorem linForm_apply {n : Nat} (g x : Fin n → ℝ) : linForm g x = ∑ i, g i * x i := by
  simp [linForm]

theorem sum_contribs (hn : s.cells.Nodup) (l : List (Dof × ℝ)) :
    (l.map (fun e => e.2 • coordOf' h s e.1)).sum =
      linForm (fun i : Fin (getNDofs h s) => total l (s.dofs[i.1]'(by rw [dofs_length h]; exact i.2))) := by
  ext1 x
  rw [linForm_apply]
  induction l with
  | nil => simp
  | cons e l ih =>
    simp only [List.map_cons, List.sum_cons, add_apply, ih, total_cons, add_mul, Finset.sum_add_distrib]
    congr 1
    unfold coordOf'
    by_cases hd : e.1 ∈ s.dofs
    · have hi : s.dofs.idxOf e.1 < getNDofs h s := idxOf_lt hd
      rw [dif_pos hi, Finset.sum_eq_single ⟨s.dofs.idxOf e.1, hi⟩]
      · simp
      · intro b _ hb
        rw [if_neg, zero_mul]
        intro he
        apply hb
        ext
        simp only
        rw [he]
        exact ((Sketch.dofs_nodup hn).idxOf_getElem b.1 (by rw [dofs_length h]; exact b.2)).symm
      · simp
    · have hi : ¬s.dofs.idxOf e.1 < getNDofs h s := by
        rw [← dofs_length h]; exact fun hh => hd (List.idxOf_lt_length_iff.1 hh)
      rw [dif_neg hi]
      simp only [smul_zero, zero_apply]
      symm
      apply Finset.sum_eq_zero
      intro b _
      rw [if_neg, zero_mul]
      intro he
      exact hd (he ▸ List.getElem_mem _)

end
end Isotope
