import Verif.Lemmas.Check
import Verif.Lemmas.ExFix

/-!
# C88: what `check_gradients` checks
-/

namespace Isotope
open XR
open Filter Topology

variable {h : Heap XR} {s : Sketch}

theorem sqrt_toReal {p : PrimCell} {h' : Heap XR} {f : Dof → ℝ} (e : ∀ d ∈ dofs p, gr h' d = fin (f d)) :
    Real.sqrt ((primGrad h' p).map (fun x => x.toReal ^ 2)).sum = Real.sqrt ((dofs p).map (fun d => f d * f d)).sum := by
  rw [primGrad_dofs, List.map_map]
  congr 2
  refine List.map_congr_left fun d hd => ?_
  simp only [Function.comp_apply]
  rw [e d hd, toReal_fin, sq]

theorem exists_step {P : ℝ → Prop} (h : ∀ᶠ ε in 𝓝[≠] (0 : ℝ), P ε) : ∃ δ > 0, ∀ ε : ℝ, 0 < |ε| → |ε| < δ → P ε := by
  obtain ⟨δ, hδ, H⟩ := Metric.eventually_nhds_iff.1 (eventually_nhdsWithin_iff.1 h)
  exact ⟨δ, hδ, fun ε h0 h1 => H (by rwa [Real.dist_eq, sub_zero]) (abs_pos.1 h0)⟩

/-- **C88.** `check_gradients(ε, c, tol)` compares the difference quotients of the loss of the one constraint `c` with the gradient of the
whole sketch.  Let no constraint be degenerate, and let `h'` hold, for every primitive, the force of the constraints other than `c`
(as computed by `get_gradient` without `c`).  If all these forces are shorter than `tol` the check passes for all small enough steps `ε`,
positive or negative; if one of them is longer than `tol` the check panics for all small enough steps. -/
theorem C88_check (hc : Closed ⟨h, s⟩) (hf : FiniteSketch h s) (hr : ∀ k ∈ s.cons, Regular h (h.cons k)) {c : Nat}
    (hk : c ∈ s.cons) {v : List XR} {h' : Heap XR} (e : getGradient h { s with cons := s.cons.erase c } = .ok (v, h')) (tol : ℝ) :
    ((∀ p ∈ s.cells, Real.sqrt ((primGrad h' p).map (fun x => x.toReal ^ 2)).sum < tol) →
      ∃ δ > 0, ∀ ε : ℝ, 0 < |ε| → |ε| < δ → ∃ h1, checkGradients h s (fin ε) c (fin tol) = .ok h1) ∧
    ((∃ p ∈ s.cells, tol < Real.sqrt ((primGrad h' p).map (fun x => x.toReal ^ 2)).sum) →
      ∃ δ > 0, ∀ ε : ℝ, 0 < |ε| → |ε| < δ → ∃ h1, checkGradients h s (fin ε) c (fin tol) = .error h1) := by
  have hfc := hf.cons hc
  have hnd := fun k hk => regular_not_degenerate (hfc k hk) (hr k hk)
  obtain ⟨h1, g1, d1, e1⟩ := (getGradient_exact h s hfc).1 hnd
  obtain ⟨h2, g2, d2, e2⟩ := (getGradient_exact h { s with cons := s.cons.erase c } fun k hk => hfc k (List.mem_of_mem_erase hk)).1
    fun k hk => hnd k (List.mem_of_mem_erase hk)
  rw [e2] at e
  cases e
  have split : ∀ d, total (s.cons.flatMap (fun k => contribs h (h.cons k))) d - total (contribs h (h.cons c)) d =
      total ((s.cons.erase c).flatMap (fun k => contribs h (h.cons k))) d := by
    intro d
    have p := (List.perm_cons_erase hk).flatMap_right (fun k => contribs h (h.cons k))
    rw [total_perm p, List.flatMap_cons, total_append]
    ring
  generalize hT : total (s.cons.flatMap (fun k => contribs h (h.cons k))) = T at *
  have norm : ∀ p ∈ s.cells, Real.sqrt ((primGrad h' p).map (fun x => x.toReal ^ 2)).sum =
      Real.sqrt ((dofs p).map (fun d => (T d - total (contribs h (h.cons c)) d) * (T d - total (contribs h (h.cons c)) d))).sum := by
    intro p hp
    refine sqrt_toReal fun d hd => ?_
    rw [split]
    exact d2 d (mem_sketch_dofs.2 (by rwa [dofs_owner (mem_dofs_owner _) hd]))
  have mem : ∀ kp ∈ s.prims, kp.2 ∈ s.cells := fun kp hkp => List.mem_map_of_mem hkp
  constructor
  · intro w
    have ev : ∀ᶠ ε in 𝓝[≠] (0 : ℝ), ∀ kp ∈ s.prims, gap h c T kp.2 ε < tol := by
      have : ∀ l : List (Nat × PrimCell), (∀ kp ∈ l, kp.2 ∈ s.cells) → ∀ᶠ ε in 𝓝[≠] (0 : ℝ), ∀ kp ∈ l, gap h c T kp.2 ε < tol := by
        intro l hl
        induction l with
        | nil => simp
        | cons kp l ih =>
          have q := w kp.2 (hl kp (by simp))
          rw [norm _ (hl kp (by simp))] at q
          filter_upwards [ih fun x hx => hl x (by simp [hx]), (gap_tendsto hc hf hk (hr c hk) T kp.2).eventually_lt_const q] with ε a b
          intro x hx
          rcases List.mem_cons.1 hx with rfl | hx
          · exact b
          · exact a x hx
      exact this _ mem
    obtain ⟨δ, hδ, H⟩ := exists_step ev
    refine ⟨δ, hδ, fun ε a b => ⟨h1, ?_⟩⟩
    unfold checkGradients
    rw [e1]
    exact (checkPrims_exact hc hf hk g1 d1 (abs_pos.1 a) tol s.prims mem).1 (H ε a b)
  · rintro ⟨p, hp, w⟩
    rw [norm p hp] at w
    obtain ⟨δ, hδ, H⟩ := exists_step ((gap_tendsto hc hf hk (hr c hk) T p).eventually_const_lt w)
    refine ⟨δ, hδ, fun ε a b => ⟨h1, ?_⟩⟩
    unfold checkGradients
    rw [e1]
    obtain ⟨kp, hkp, rfl⟩ := List.mem_map.1 hp
    exact (checkPrims_exact hc hf hk g1 d1 (abs_pos.1 a) tol s.prims mem).2 ⟨kp, hkp, H ε a b⟩

/-- **C88.** For the only constraint of a sketch, if it is not degenerate, the check passes with every positive tolerance and all small
enough steps. -/
theorem C88_only_constraint (hc : Closed ⟨h, s⟩) (hf : FiniteSketch h s) {c : Nat} (hs : s.cons = [c])
    (hr : Regular h (h.cons c)) {tol : ℝ} (ht : 0 < tol) :
    ∃ δ > 0, ∀ ε : ℝ, 0 < |ε| → |ε| < δ → ∃ h1, checkGradients h s (fin ε) c (fin tol) = .ok h1 := by
  have hr' : ∀ k ∈ s.cons, Regular h (h.cons k) := by rw [hs]; simpa using hr
  obtain ⟨h2, g2, d2, e2⟩ := (getGradient_exact h { s with cons := s.cons.erase c } (by simp [hs])).1 (by simp [hs])
  refine (C88_check hc hf hr' (by simp [hs]) e2 tol).1 fun p hp => ?_
  rw [sqrt_toReal (f := fun _ => 0) fun d hd => ?_]
  · simpa using ht
  · rw [d2 d (mem_sketch_dofs.2 (by rwa [dofs_owner (mem_dofs_owner _) hd]))]
    simp [hs]

/-- a point with a wish for another place, and the same wish once more: the other constraint pulls with force 5, so the check of the one
passes with tolerance 6 and panics with tolerance 4 -/
example : (∃ δ > 0, ∀ ε : ℝ, 0 < |ε| → |ε| < δ → ∃ h1, checkGradients (fixHeap 3 4 0 0 0 0) ⟨[(0, .point 0)], 1, [0, 0]⟩ (fin ε) 0 (fin 6) = .ok h1) ∧
    (∃ δ > 0, ∀ ε : ℝ, 0 < |ε| → |ε| < δ → ∃ h1, checkGradients (fixHeap 3 4 0 0 0 0) ⟨[(0, .point 0)], 1, [0, 0]⟩ (fin ε) 0 (fin 4) = .error h1) ∧
    (∃ δ > 0, ∀ ε : ℝ, 0 < |ε| → |ε| < δ → ∃ h1, checkGradients (fixHeap 3 4 0 0 0 0) fixSketch (fin ε) 0 (fin 1e-6) = .ok h1) := by
  have hd : getData (fixHeap 3 4 0 0 0 0) ⟨[(0, .point 0)], 1, [0, 0]⟩ = [fin 0, fin 0] := fix_data (x := 3) (y := 4) (a := 0) (b := 0) (u := 0) (v := 0)
  have e : getGradient (fixHeap 3 4 0 0 0 0) { (⟨[(0, .point 0)], 1, [0, 0]⟩ : Sketch) with cons := List.erase [0, 0] 0 } =
      .ok ([fin (0 - 3), fin (0 - 4)], fixHeap 3 4 0 0 (0 - 3) (0 - 4)) := by
    rw [← fix_gradient (u := 0) (v := 0)]
    rfl
  have hf : FiniteSketch (fixHeap 3 4 0 0 0 0) ⟨[(0, .point 0)], 1, [0, 0]⟩ := by
    refine ⟨by rw [hd]; simp, ?_⟩
    simp [fixHeap, consParams]
  have hc : Closed ⟨fixHeap 3 4 0 0 0 0, ⟨[(0, .point 0)], 1, [0, 0]⟩⟩ := by
    simp [Closed, fixHeap, Sketch.cells, primFields, consFields]
  have q := C88_check (s := ⟨[(0, .point 0)], 1, [0, 0]⟩) hc hf (by simp [fixHeap, Regular]) (c := 0) (by simp) e
  have n : ((primGrad (fixHeap 3 4 0 0 (0 - 3) (0 - 4)) (.point 0)).map (fun x => x.toReal ^ 2)).sum = 5 ^ 2 := by
    simp [primGrad, fixHeap, upd]; norm_num
  refine ⟨(q 6).1 ?_, (q 4).2 ⟨.point 0, by simp [Sketch.cells], ?_⟩, C88_only_constraint (s := fixSketch) ?_ ?_ rfl ?_ (by norm_num)⟩
  · intro p hp
    obtain rfl : p = .point 0 := by simpa [Sketch.cells] using hp
    rw [n, Real.sqrt_sq (by norm_num)]; norm_num
  · rw [n, Real.sqrt_sq (by norm_num)]; norm_num
  · simp [Closed, fixHeap, fixSketch, Sketch.cells, primFields, consFields]
  · refine ⟨by rw [fix_data]; simp, ?_⟩
    simp [fixHeap, fixSketch, consParams]
  · simp [fixHeap, Regular]

end Isotope
