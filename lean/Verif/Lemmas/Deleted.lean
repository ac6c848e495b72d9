import Verif.SpecDelete
import Verif.Lemmas.FloatSum
import Verif.Lemmas.FloatCons
import Verif.Props.Bookkeeping

/-!
# Deleting a primitive that constraints still use
-/

namespace Isotope

section gen
variable {F : Type} [Num F]

/-- the gradient of all constraints with respect to one coordinate -/
def gradOf (h : Heap F) (cs : List Nat) (d : Dof) : F := addUp d (0.0 : F) (cs.flatMap (fun k => consEntries h (h.cons k)))

/-- `get_gradient` succeeds iff all contributions are finite and so are the sums -/
theorem getGradient_iff (h : Heap F) (s : Sketch) :
    (((∀ k ∈ s.cons, ∀ c ∈ chunks h (h.cons k), c.finite = true) ∧ ∀ d ∈ s.dofs, Num.isFinite (gradOf h s.cons d) = true) →
      ∃ h', getGradient h s = .ok (s.dofs.map (gradOf h s.cons), h')) ∧
    (¬((∀ k ∈ s.cons, ∀ c ∈ chunks h (h.cons k), c.finite = true) ∧ ∀ d ∈ s.dofs, Num.isFinite (gradOf h s.cons d) = true) →
      ∃ h', getGradient h s = .error h') := by
  have g0 : GradOnly h (zeroGrads h s) := zeroGrads_gradOnly h s
  have ue := updateAll_eq h (zeroGrads h s) s.cons g0
  by_cases hc : ∀ k ∈ s.cons, ∀ c ∈ chunks h (h.cons k), c.finite = true
  · obtain ⟨h', e, -, hv⟩ := foldChunks_entries h (s.cons.flatMap (fun c => chunks h (h.cons c))) (zeroGrads h s) g0 (by
      intro ch hch
      obtain ⟨k, hk, hch⟩ := List.mem_flatMap.1 hch
      exact hc k hk ch hch)
    have hl : s.cells.flatMap (primGrad h') = s.dofs.map (gradOf h s.cons) := by
      rw [cells_grad_dofs]
      refine List.map_congr_left fun d hd => ?_
      rw [hv d, gr_zeroed hd, flatMap_flatMap']
      rfl
    by_cases ht : ∀ d ∈ s.dofs, Num.isFinite (gradOf h s.cons d) = true
    · refine ⟨fun _ => ⟨h', ?_⟩, fun hn => absurd ⟨hc, ht⟩ hn⟩
      unfold getGradient
      rw [ue, e]
      dsimp only
      rw [collectGradient_eq, hl, if_pos]
      rw [List.all_eq_true]
      intro x hx
      obtain ⟨d, hd, rfl⟩ := List.mem_map.1 hx
      exact ht d hd
    · refine ⟨fun hn => absurd hn.2 ht, fun _ => ⟨h', ?_⟩⟩
      unfold getGradient
      rw [ue, e]
      dsimp only
      rw [collectGradient_eq, hl, if_neg]
      intro hx
      rw [List.all_eq_true] at hx
      exact ht fun d hd => hx _ (List.mem_map_of_mem hd)
  · refine ⟨fun hn => absurd hn.1 hc, fun _ => ?_⟩
    push Not at hc
    obtain ⟨k, hk, c, hck, hf⟩ := hc
    obtain ⟨h', e⟩ := foldChunks_panic (s.cons.flatMap (fun c => chunks h (h.cons c)))
      ⟨c, List.mem_flatMap.2 ⟨k, hk, hck⟩, by simpa using hf⟩ (zeroGrads h s)
    refine ⟨h', ?_⟩
    unfold getGradient
    rw [ue, e]

/-- the rows of `get_jacobian` -/
theorem jacobianRows_iff (h : Heap F) (s : Sketch) (cs : List Nat) : ∀ h0 : Heap F, GradOnly h h0 →
    ((∀ k ∈ cs, ∀ c ∈ chunks h (h.cons k), c.finite = true) →
      ∃ h', jacobianRows s cs h0 = .ok (cs.map (fun k => s.dofs.map (gradOf h [k])), h')) ∧
    (¬(∀ k ∈ cs, ∀ c ∈ chunks h (h.cons k), c.finite = true) → ∃ h', jacobianRows s cs h0 = .error h') := by
  induction cs with
  | nil => intro h0 _; exact ⟨fun _ => ⟨h0, rfl⟩, fun hn => absurd (by simp) hn⟩
  | cons k cs ih =>
    intro h0 g
    have g1 : GradOnly h (zeroGrads h0 s) := g.trans (zeroGrads_gradOnly h0 s)
    have hu : updateGradient (zeroGrads h0 s) ((zeroGrads h0 s).cons k) = (chunks h (h.cons k)).foldlM applyChunk (zeroGrads h0 s) := by
      rw [updateGradient_eq, g1.chunks, g1.1.cons]
    by_cases hk : ∀ c ∈ chunks h (h.cons k), c.finite = true
    · obtain ⟨h2, e2, g2, hv⟩ := foldChunks_entries h (chunks h (h.cons k)) (zeroGrads h0 s) g1 hk
      have hrow : jacobianRow h2 s = s.dofs.map (gradOf h [k]) := by
        rw [jacobianRow_eq, cells_grad_dofs]
        refine List.map_congr_left fun d hd => ?_
        rw [hv d, gr_zeroed hd]
        simp [gradOf, consEntries]
      refine ⟨fun ha => ?_, fun hn => ?_⟩
      · obtain ⟨h3, e3⟩ := (ih h2 g2).1 fun k hk => ha k (by simp [hk])
        refine ⟨h3, ?_⟩
        simp only [jacobianRows]
        rw [hu, e2]
        dsimp only
        rw [e3]
        dsimp only
        rw [hrow]; rfl
      · obtain ⟨h3, e3⟩ := (ih h2 g2).2 fun ha => hn (by
          intro k' hk'
          rcases List.mem_cons.1 hk' with rfl | hk'
          · exact hk
          · exact ha k' hk')
        refine ⟨h3, ?_⟩
        simp only [jacobianRows]
        rw [hu, e2]
        dsimp only
        rw [e3]
    · refine ⟨fun ha => absurd (ha k (by simp)) hk, fun _ => ?_⟩
      push Not at hk
      obtain ⟨c, hck, hf⟩ := hk
      obtain ⟨h', e⟩ := foldChunks_panic (chunks h (h.cons k)) ⟨c, hck, by simpa using hf⟩ (zeroGrads h0 s)
      refine ⟨h', ?_⟩
      simp only [jacobianRows]
      rw [hu, e]

omit [Num F] in
/-- where the deleted primitive was -/
theorem delete_split {s s' : Sketch} {id : Nat} {p : PrimCell} (hs : SortedKeys s.prims) (hp : (id, p) ∈ s.prims)
    (hd : s.deletePrimitive id = (.ok (), s')) (h : Heap F) :
    ∃ a b, s.prims = a ++ (id, p) :: b ∧ s'.prims = a ++ b ∧ s'.cons = s.cons ∧
      blockStart h s id = ((a.map (·.2)).flatMap (primData h)).length := by
  obtain ⟨a, b, s1, e, e1, e2, e3, -⟩ := C07_present s hs id p hp
  rw [hd] at e
  obtain rfl : s' = s1 := by simpa using e
  refine ⟨a, b, e1, e2, e3, ?_⟩
  unfold SortedKeys at hs
  rw [e1] at hs
  simp only [List.pairwise_append, List.pairwise_cons] at hs
  have ha : ∀ kp ∈ a, kp.1 < id := fun kp hkp => hs.2.2 kp hkp (id, p) (by simp)
  have hb : ∀ kp ∈ b, ¬kp.1 < id := fun kp hkp => not_lt.2 (hs.2.1.1 kp hkp).le
  unfold blockStart
  rw [e1, List.filter_append, List.filter_cons, if_neg (by simp), List.filter_eq_self.2 (fun kp hkp => by simpa using ha kp hkp),
    List.filter_eq_nil_iff.2 (fun kp hkp => by simpa using hb kp hkp), List.append_nil, List.length_flatMap, List.map_map]
  rfl

theorem cutOut_blocks {α : Type} {i n : Nat} {x d y : List α} (hi : i = x.length) (hn : n = d.length) :
    cutOut i n (x ++ (d ++ y)) = x ++ y := by
  subst hi hn
  unfold cutOut
  rw [List.take_left', List.drop_append, List.drop_append]
  · simp
  · rfl

/-- writing a primitive's own coordinates back changes nothing -/
theorem primSetData_self (h : Heap F) (p : PrimCell) (hf : ∀ x ∈ primData h p, Num.isFinite x = true) :
    primSetData h p (primData h p) = .ok h := by
  have ha : (primData h p).all Num.isFinite = true := List.all_eq_true.2 hf
  cases p with
  | point a =>
    unfold primSetData
    dsimp only
    rw [if_pos ha]
    simp only [primData, Heap.setPoint]
    congr 1
    rcases h with ⟨⟩
    simp [upd_self]
  | line a => rfl
  | arc a =>
    unfold primSetData
    dsimp only
    rw [if_pos ha]
    simp only [primData, Heap.setArc]
    congr 1
    rcases h with ⟨⟩
    simp [upd_self]
  | circle a =>
    unfold primSetData
    dsimp only
    rw [if_pos ha]
    simp only [primData, Heap.setCircle]
    congr 1
    rcases h with ⟨⟩
    simp [upd_self]

/-- the loop of `set_data` only looks at the blocks it is given -/
theorem setDataLoop_shift (kps : List (Nat × PrimCell)) : ∀ (d d' : List F) (i i' : Nat) (h : Heap F),
    (∀ n, n ≤ ((kps.map (·.2)).flatMap (primData h)).length → (d.drop i).take n = (d'.drop i').take n) →
    setDataLoop d kps i h = setDataLoop d' kps i' h := by
  induction kps with
  | nil => intro d d' i i' h _; rfl
  | cons kp kps ih =>
    intro d d' i i' h hd
    simp only [setDataLoop]
    have e0 := hd (primData h kp.2).length (by simp)
    rw [e0]
    cases e : primSetData h kp.2 ((d'.drop i').take (primData h kp.2).length) with
    | error h1 => rfl
    | ok h1 =>
      dsimp only
      refine ih _ _ _ _ _ fun n hn => ?_
      rw [flatMap_primData_length h h1] at hn
      have := hd ((primData h kp.2).length + n) (by simpa using hn)
      have := congrArg (List.drop (primData h kp.2).length) this
      rw [List.drop_take, List.drop_take, List.drop_drop, List.drop_drop] at this
      simpa using this

theorem setDataLoop_append (d : List F) (a b : List (Nat × PrimCell)) : ∀ (i : Nat) (h : Heap F),
    setDataLoop d (a ++ b) i h = match setDataLoop d a i h with
      | .error h' => .error h'
      | .ok h' => setDataLoop d b (i + ((a.map (·.2)).flatMap (primData h)).length) h' := by
  induction a with
  | nil => intro i h; simp [setDataLoop]
  | cons kp a ih =>
    intro i h
    simp only [List.cons_append, setDataLoop]
    cases e : primSetData h kp.2 ((d.drop i).take (primData h kp.2).length) with
    | error h1 => rfl
    | ok h1 =>
      dsimp only
      rw [ih]
      cases setDataLoop d a (i + (primData h kp.2).length) h1 with
      | error h2 => rfl
      | ok h2 =>
        dsimp only
        rw [List.map_cons, List.flatMap_cons, List.length_append, flatMap_primData_length h h1, Nat.add_assoc]

end gen
end Isotope
