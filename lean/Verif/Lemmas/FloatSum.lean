import Verif.Lemmas.FloatAngle
import Verif.Props.FloatPanic
import Verif.Props.Gradient

/-!
# Adding up the contributions in binary64
-/

set_option linter.unusedSectionVars false

namespace Isotope
open Round Val XR

variable {lm : Libm} {η : ℝ} {h : Heap (B64 lm)}

section gen
variable {F : Type} [Num F]

/-- add the entries that belong to `d`, in order -/
def addUp (d : Dof) (g : F) (l : List (Dof × F)) : F := l.foldl (fun g e => if e.1 = d then g + e.2 else g) g

theorem addUp_append (d : Dof) (g : F) (l l' : List (Dof × F)) : addUp d g (l ++ l') = addUp d (addUp d g l) l' := by
  unfold addUp; rw [List.foldl_append]

theorem entries_congr {h h' : Heap F} (g : GradOnly h h') (k : Chunk F) : k.entries h' = k.entries h := by
  cases k <;> simp [Chunk.entries, g.1.lines, g.1.arcCenter]

theorem pointAdd_gr {h : Heap F} {a : Nat} {g : Vec2 F} (hf : g.allFinite = true) :
    ∃ h', pointAddGrad h a g = .ok h' ∧ GradOnly h h' ∧ ∀ d, gr h' d = addUp d (gr h d) [(.px a, g.x), (.py a, g.y)] := by
  have ok : pointAddGrad h a g = .ok (h.setPoint a { h.points a with grad := (h.points a).grad + g }) := by
    unfold pointAddGrad; rw [if_pos hf]
  refine ⟨_, ok, ?_, fun d => ?_⟩
  · have := pointAddGrad_gradOnly h h a g (.refl h)
    rw [ok] at this
    exact this
  · simp only [addUp, List.foldl_cons, List.foldl_nil]
    cases d with
    | px b =>
      by_cases e : b = a
      · subst e; simp [gr, Heap.setPoint]
      · simp [gr, Heap.setPoint, upd_other _ _ e, Ne.symm e]
    | py b =>
      by_cases e : b = a
      · subst e; simp [gr, Heap.setPoint]
      · simp [gr, Heap.setPoint, upd_other _ _ e, Ne.symm e]
    | _ => simp [gr, Heap.setPoint]

theorem applyChunk_entries (h : Heap F) (k : Chunk F) (hf : k.finite = true) :
    ∃ h', applyChunk h k = .ok h' ∧ GradOnly h h' ∧ ∀ d, gr h' d = addUp d (gr h d) (k.entries h) := by
  cases k with
  | point a g => exact pointAdd_gr hf
  | line l g =>
    have hf' := hf
    simp only [Chunk.finite, Row4.allFinite, Bool.and_eq_true] at hf
    obtain ⟨⟨⟨f0, f1⟩, f2⟩, f3⟩ := hf
    obtain ⟨h1, e1, g1, hd1⟩ := pointAdd_gr (h := h) (a := (h.lines l).start) (g := ⟨g.a0, g.a1⟩)
      (by simp [Vec2.allFinite, f0, f1])
    have hl : h1.lines = h.lines := g1.1.lines
    obtain ⟨h2, e2, g2, hd2⟩ := pointAdd_gr (h := h1) (a := (h.lines l).stop) (g := ⟨g.a2, g.a3⟩)
      (by simp [Vec2.allFinite, f2, f3])
    refine ⟨h2, ?_, g1.trans g2, fun d => ?_⟩
    · simp only [Chunk.finite] at hf'
      simp only [applyChunk, lineAddGrad, hf', if_true]
      rw [e1]; show pointAddGrad h1 (h1.lines l).stop ⟨g.a2, g.a3⟩ = _; rw [hl]; exact e2
    · rw [hd2, hd1, ← addUp_append]; rfl
  | arc a g =>
    have hf' := hf
    simp only [Chunk.finite, Row5.allFinite, Bool.and_eq_true] at hf
    obtain ⟨⟨⟨⟨f0, f1⟩, f2⟩, f3⟩, f4⟩ := hf
    obtain ⟨h1, e1, g1, hd1⟩ := pointAdd_gr (h := h) (a := (h.arcs a).center) (g := ⟨g.a0, g.a1⟩)
      (by simp [Vec2.allFinite, f0, f1])
    have ok : applyChunk h (.arc a g) = .ok (h1.setArc a { h1.arcs a with grad := (h1.arcs a).grad + ⟨g.a2, g.a3, g.a4⟩ }) := by
      simp only [Chunk.finite] at hf'
      simp only [applyChunk, arcAddGrad, hf', if_true]
      rw [e1]; rfl
    refine ⟨_, ok, ?_, fun d => ?_⟩
    · have := applyChunk_gradOnly h h (.arc a g) (.refl h)
      rw [ok] at this
      exact this
    · have hs : (Chunk.arc a g).entries h = [(.px (h.arcs a).center, g.a0), (.py (h.arcs a).center, g.a1)] ++
          [(.ar a, g.a2), (.as a, g.a3), (.ae a, g.a4)] := rfl
      rw [hs, addUp_append, ← hd1]
      simp only [addUp, List.foldl_cons, List.foldl_nil]
      cases d with
      | ar b =>
        by_cases e : b = a
        · subst e; simp [gr, Heap.setArc]
        · simp [gr, Heap.setArc, upd_other _ _ e, Ne.symm e]
      | as b =>
        by_cases e : b = a
        · subst e; simp [gr, Heap.setArc]
        · simp [gr, Heap.setArc, upd_other _ _ e, Ne.symm e]
      | ae b =>
        by_cases e : b = a
        · subst e; simp [gr, Heap.setArc]
        · simp [gr, Heap.setArc, upd_other _ _ e, Ne.symm e]
      | _ => simp [gr, Heap.setArc]

theorem foldChunks_entries (h : Heap F) (ks : List (Chunk F)) : ∀ h0 : Heap F, GradOnly h h0 → (∀ k ∈ ks, k.finite = true) →
    ∃ h', ks.foldlM applyChunk h0 = .ok h' ∧ GradOnly h h' ∧
      ∀ d, gr h' d = addUp d (gr h0 d) (ks.flatMap (Chunk.entries h)) := by
  induction ks with
  | nil => intro h0 g _; exact ⟨h0, rfl, g, fun d => rfl⟩
  | cons k ks ih =>
    intro h0 g hf
    obtain ⟨h1, e1, g1, d1⟩ := applyChunk_entries h0 k (hf k (by simp))
    obtain ⟨h2, e2, g2, d2⟩ := ih h1 (g.trans g1) (fun k' hk' => hf k' (by simp [hk']))
    refine ⟨h2, ?_, g2, fun d => ?_⟩
    · rw [List.foldlM_cons, e1]; exact e2
    · rw [d2, d1, entries_congr g, List.flatMap_cons, addUp_append]

/-- finiteness of a contribution in terms of its entries -/
theorem finite_entries {h : Heap F} {k : Chunk F} (hk : ∀ e ∈ k.entries h, Num.isFinite e.2 = true) : k.finite = true := by
  cases k with
  | point a g => 
    simp only [Chunk.entries, List.forall_mem_cons] at hk
    simp [Chunk.finite, Vec2.allFinite, hk.1, hk.2.1]
  | line l g => 
    simp only [Chunk.entries, List.forall_mem_cons] at hk
    simp [Chunk.finite, Row4.allFinite, hk.1, hk.2.1, hk.2.2.1, hk.2.2.2.1]
  | arc a g => 
    simp only [Chunk.entries, List.forall_mem_cons] at hk
    simp [Chunk.finite, Row5.allFinite, hk.1, hk.2.1, hk.2.2.1, hk.2.2.2.1, hk.2.2.2.2.1]

theorem gr_zeroed {h : Heap F} {s : Sketch} {d : Dof} (hd : d ∈ s.dofs) : gr (zeroGrads h s) d = (0.0 : F) := by
  have := zeroGrads_grad h s d.owner
  rw [if_pos (mem_sketch_dofs.1 hd), primGrad_dofs] at this
  have hm : gr (zeroGrads h s) d ∈ (dofs d.owner).map (gr (zeroGrads h s)) := List.mem_map.2 ⟨d, mem_dofs_owner d, rfl⟩
  rw [this, zerosVec] at hm
  exact List.eq_of_mem_replicate hm

theorem cells_grad_dofs (h : Heap F) (s : Sketch) : s.cells.flatMap (primGrad h) = s.dofs.map (gr h) := by
  rw [Sketch.dofs, List.map_flatMap]; congr 1; funext c; exact primGrad_dofs h c

/-- the entries of all contributions of a constraint -/
def consEntries (h : Heap F) (c : Constraint F) : List (Dof × F) := (chunks h c).flatMap (Chunk.entries h)

theorem consEntries_length (h : Heap F) (c : Constraint F) : (consEntries h c).length ≤ 8 := by
  unfold consEntries
  cases c <;> simp only [chunks] <;> (repeat' split) <;> simp [Chunk.entries]

/-- `get_gradient` adds up the entries -/
theorem getGradient_entries (h : Heap F) (s : Sketch)
    (hf : ∀ k ∈ s.cons, ∀ e ∈ consEntries h (h.cons k), Num.isFinite e.2 = true)
    (ht : ∀ d ∈ s.dofs, Num.isFinite (addUp d (0.0 : F) (s.cons.flatMap (fun k => consEntries h (h.cons k)))) = true) :
    ∃ h', getGradient h s = .ok (s.dofs.map (fun d => addUp d (0.0 : F) (s.cons.flatMap (fun k => consEntries h (h.cons k)))), h') := by
  have g0 : GradOnly h (zeroGrads h s) := zeroGrads_gradOnly h s
  have ue := updateAll_eq h (zeroGrads h s) s.cons g0
  obtain ⟨h', e, -, hv⟩ := foldChunks_entries h (s.cons.flatMap (fun c => chunks h (h.cons c))) (zeroGrads h s) g0 (by
    intro ch hch
    obtain ⟨k, hk, hch⟩ := List.mem_flatMap.1 hch
    exact finite_entries (h := h) fun e he => hf k hk e (List.mem_flatMap.2 ⟨ch, hch, he⟩))
  refine ⟨h', ?_⟩
  have hl : s.cells.flatMap (primGrad h') =
      s.dofs.map (fun d => addUp d (0.0 : F) (s.cons.flatMap (fun k => consEntries h (h.cons k)))) := by
    rw [cells_grad_dofs]
    refine List.map_congr_left fun d hd => ?_
    rw [hv d, gr_zeroed hd, flatMap_flatMap']
    rfl
  unfold getGradient
  rw [ue, e]
  dsimp only
  rw [collectGradient_eq, hl, if_pos]
  rw [List.all_eq_true]
  intro x hx
  obtain ⟨d, hd, rfl⟩ := List.mem_map.1 hx
  exact ht d hd

end gen

/-- the state of a summation: `i` terms of total magnitude `T` so far -/
def Summed (η : ℝ) (g : B64 lm) (R T : ℝ) (i : ℕ) : Prop :=
  ∃ v, g.Is v ∧ |v - R| ≤ (480 * η + 2 * i * ulp) * T ∧ |R| ≤ T ∧ T ≤ i * 2 ^ (300 : ℤ)

theorem Summed.zero : Summed η (0.0 : B64 lm) 0 0 0 := ⟨0, B64.is_zero, by simp, by simp, by simp⟩

theorem Summed.mono (hη : ErrUnit η) {g : B64 lm} {R T T' : ℝ} {i i' : ℕ} (hg : Summed η g R T i) (hT : T ≤ T') (hi : i ≤ i')
    (hT' : T' ≤ i' * 2 ^ (300 : ℤ)) : Summed η g R T' i' := by
  obtain ⟨v, h1, h2, h3, h4⟩ := hg
  refine ⟨v, h1, h2.trans ?_, h3.trans hT, hT'⟩
  have hi' : (i : ℝ) ≤ i' := by exact_mod_cast hi
  have := hη.pos
  have := ulp_pos
  have : (0 : ℝ) ≤ i := by positivity
  have : 0 ≤ T := (abs_nonneg R).trans h3
  refine mul_le_mul ?_ hT this (by positivity)
  nlinarith

theorem small_count (hη : ErrUnit η) {i : ℕ} (hi : i < 2 ^ 50) : 480 * η + 2 * i * ulp ≤ 1 / 2 := by
  have h1 := (hη.small (k := 480) (by norm_num) (by norm_num)).2
  have h2 : (i : ℝ) ≤ 2 ^ 50 := by exact_mod_cast hi.le
  have h3 : 2 * (i : ℝ) * ulp ≤ 2 * 2 ^ 50 * ulp := by have := ulp_pos; nlinarith
  have h4 : 2 * 2 ^ 50 * ulp = 1 / 4 := by rw [ulp_eq]; norm_num
  linarith

theorem sum_bound {E v w R r A B T S u : ℝ} (hu : 0 ≤ u) (h1 : |v - R| ≤ E * T) (h2 : |w - r| ≤ A * S) (hA : A ≤ E) (hE : E ≤ 1 / 2)
    (h3 : |R| ≤ T) (h4 : |r| ≤ S) (h5 : |B - (v + w)| ≤ u * |v + w|) :
    |v + w| ≤ 2 * (T + S) ∧ |B - (R + r)| ≤ (E + 2 * u) * (T + S) ∧ |R + r| ≤ T + S := by
  have hT : 0 ≤ T := (abs_nonneg _).trans h3
  have hS : 0 ≤ S := (abs_nonneg _).trans h4
  have e1 : |v + w - (R + r)| ≤ E * (T + S) := by
    rw [show v + w - (R + r) = (v - R) + (w - r) by ring]
    refine (abs_add_le _ _).trans ?_
    have : A * S ≤ E * S := mul_le_mul_of_nonneg_right hA hS
    linarith
  have e2 : |R + r| ≤ T + S := (abs_add_le _ _).trans (add_le_add h3 h4)
  have e3 : |v + w| ≤ |v + w - (R + r)| + |R + r| := by
    have := abs_add_le (v + w - (R + r)) (R + r)
    rwa [sub_add_cancel] at this
  have e4 : E * (T + S) ≤ 1 * (T + S) := mul_le_mul_of_nonneg_right (by linarith) (by linarith)
  refine ⟨by linarith, ?_, e2⟩
  have e5 : |B - (R + r)| ≤ |B - (v + w)| + |v + w - (R + r)| := by
    have := abs_add_le (B - (v + w)) (v + w - (R + r))
    rwa [sub_add_sub_cancel] at this
  have e6 : u * |v + w| ≤ u * (2 * (T + S)) := mul_le_mul_of_nonneg_left (by linarith) hu
  nlinarith

theorem Summed.add (hη : ErrUnit η) {g x : B64 lm} {R r T S : ℝ} {i : ℕ} (hg : Summed η g R T i) (hx : x.Ap η r S 480 300)
    (hi : i < 2 ^ 50) : Summed η (g + x) (R + r) (T + S) (i + 1) := by
  obtain ⟨v, h1, h2, h3, h4⟩ := hg
  obtain ⟨w, x1, x2, x3, x4, x5, -⟩ := hx
  have hd := small_count hη hi
  have hi' : (i : ℝ) ≤ 2 ^ 50 := by exact_mod_cast hi.le
  have hu := ulp_pos
  obtain ⟨b1, b2, b3⟩ := sum_bound (B := rs (v + w)) hu.le h2 x2 (le_add_of_nonneg_right (by positivity)) hd h3 x3 (rs_add_err h1.rep x1.rep)
  have hT : T + S ≤ ((i + 1 : ℕ) : ℝ) * 2 ^ (300 : ℤ) := by push_cast; rw [add_mul, one_mul]; exact add_le_add h4 x5
  have htop : |rs (v + w)| < top := by
    refine abs_rs_lt_top (k := 352) (by norm_num) (by norm_num) (b1.trans ?_)
    have e1 : ((i + 1 : ℕ) : ℝ) * 2 ^ (300 : ℤ) ≤ 2 ^ (51 : ℤ) * 2 ^ (300 : ℤ) := by
      refine mul_le_mul_of_nonneg_right ?_ (two_pos _).le
      push_cast
      have : (2 : ℝ) ^ (51 : ℤ) = 2 * 2 ^ 50 := by norm_num
      have : (1 : ℝ) ≤ 2 ^ 50 := by norm_num
      linarith
    rw [two_mul_two] at e1
    have e2 : (2 : ℝ) ^ (352 : ℤ) = 2 * 2 ^ ((51 : ℤ) + 300) := by rw [two_mul, two_double]; norm_num
    rw [e2]
    linarith
  refine ⟨_, h1.add x1 htop, ?_, b3, hT⟩
  refine b2.trans (le_of_eq ?_)
  push_cast
  ring

/-- the entries of one constraint -/
theorem Summed.entries (hη : ErrUnit η) (d : Dof) {S : ℝ} {l : List (Dof × B64 lm)} {L : List (Dof × ℝ)}
    (hl : List.Forall₂ (NearEntry η S 480) l L) : ∀ {g : B64 lm} {R T : ℝ} {i : ℕ}, Summed η g R T i → i + l.length < 2 ^ 50 →
      Summed η (addUp d g l) (R + total L d) (T + l.length * S) (i + l.length) := by
  induction hl with
  | nil => intro g R T i hg _; simpa [addUp] using hg
  | @cons e E l L he _ ih =>
    intro g R T i hg hi
    rw [List.length_cons] at hi
    have hS := he.2.scale_pos
    have hS' : S ≤ 2 ^ (300 : ℤ) := by obtain ⟨-, -, -, -, -, h, -⟩ := he.2; exact h
    have key : Summed η (if e.1 = d then g + e.2 else g) (R + if E.1 = d then E.2 else 0) (T + S) (i + 1) := by
      rw [he.1]
      by_cases hd : E.1 = d
      · rw [if_pos hd, if_pos hd]; exact hg.add hη he.2 (by omega)
      · rw [if_neg hd, if_neg hd, add_zero]
        obtain ⟨-, -, -, -, hT⟩ := id hg
        exact hg.mono hη (by linarith) (by omega) (by push_cast; linarith)
    have := ih key (by omega)
    rw [total_cons, List.length_cons, ← add_assoc R]
    have e1 : T + ((l.length + 1 : ℕ) : ℝ) * S = T + S + l.length * S := by push_cast; ring
    have e2 : i + (l.length + 1) = i + 1 + l.length := by omega
    rw [e1, e2]
    exact this

theorem distOf_nonneg (h : Heap (B64 lm)) (p q : Nat) : 0 ≤ distOf h p q := Real.sqrt_nonneg _
theorem lenOf_nonneg (h : Heap (B64 lm)) (l : Nat) : 0 ≤ lenOf h l := distOf_nonneg h _ _
theorem sinOf_nonneg (h : Heap (B64 lm)) (p q o : Nat) : 0 ≤ sinOf h p q o :=
  div_nonneg (abs_nonneg _) (mul_nonneg (distOf_nonneg h _ _) (distOf_nonneg h _ _))

theorem spanOf_nonneg (h : Heap (B64 lm)) (c : Constraint (B64 lm)) : 0 ≤ spanOf h c := by
  have h1 := distOf_nonneg h
  have h2 := lenOf_nonneg h
  cases c with
  | euclid p q d => exact add_nonneg (h1 _ _) (abs_nonneg _)
  | eqLen l m => exact add_nonneg (h2 _) (h2 _)
  | _ => simp only [spanOf]; positivity

theorem slopeOf_nonneg (h : Heap (B64 lm)) (c : Constraint (B64 lm)) : 0 ≤ slopeOf h c := by
  have h1 := distOf_nonneg h
  have h2 := lenOf_nonneg h
  have key : ∀ {a b : ℝ}, 0 ≤ a → 0 ≤ b → 0 ≤ 1 / a + 1 / b := fun ha hb => by positivity
  cases c with
  | angle p q o d => exact key (h1 _ _) (h1 _ _)
  | parallel l m => exact key (h2 _) (h2 _)
  | perp l m => exact key (h2 _) (h2 _)
  | _ => simp only [slopeOf]; positivity

theorem badness_nonneg (h : Heap (B64 lm)) (c : Constraint (B64 lm)) : 0 ≤ badness h c := by
  cases c with
  | angle p q o d => exact div_nonneg zero_le_one (sinOf_nonneg h _ _ _)
  | _ => simp only [badness]; positivity

theorem scaleOf_nonneg (h : Heap (B64 lm)) (c : Constraint (B64 lm)) : 0 ≤ scaleOf h c :=
  mul_nonneg (mul_nonneg (add_nonneg (spanOf_nonneg h c) (two_pos _).le) (slopeOf_nonneg h c)) (pow_nonneg (badness_nonneg h c) 3)

/-- the entries of all constraints -/
theorem Summed.all (hη : ErrUnit η) (d : Dof) (ks : List Nat) (hk : ∀ k ∈ ks, NearCons η h (h.cons k)) :
    ∀ {g : B64 lm} {R T : ℝ} {i : ℕ}, Summed η g R T i → i + 8 * ks.length < 2 ^ 50 →
      ∃ T', T' ≤ T + 64 * (ks.map (fun k => scaleOf h (h.cons k))).sum ∧
        Summed η (addUp d g (ks.flatMap (fun k => consEntries h (h.cons k))))
          (R + total (ks.flatMap (fun k => contribs h.exact (h.cons k).exact)) d) T' (i + 8 * ks.length) := by
  induction ks with
  | nil => intro g R T i hg _; exact ⟨T, by simp, by simpa [addUp] using hg⟩
  | cons k ks ih =>
    intro g R T i hg hi
    rw [List.length_cons] at hi
    have hlen := consEntries_length h (h.cons k)
    have h1 : Summed η (addUp d g (consEntries h (h.cons k))) (R + total (contribs h.exact (h.cons k).exact) d)
        (T + (consEntries h (h.cons k)).length * (8 * scaleOf h (h.cons k))) (i + (consEntries h (h.cons k)).length) :=
      hg.entries hη d (hk k (by simp)) (by show i + (consEntries h (h.cons k)).length < _; omega)
    have h2 := h1.mono hη le_rfl (i' := i + 8) (by omega) (by
      obtain ⟨-, -, -, -, hT⟩ := h1
      refine hT.trans (mul_le_mul_of_nonneg_right ?_ (two_pos _).le)
      exact_mod_cast (by omega : i + (consEntries h (h.cons k)).length ≤ i + 8))
    obtain ⟨T', hT', hS⟩ := ih (fun k' hk' => hk k' (by simp [hk'])) h2 (by omega)
    refine ⟨T', hT'.trans ?_, ?_⟩
    · have a1 : ((consEntries h (h.cons k)).length : ℝ) ≤ 8 := by exact_mod_cast hlen
      have a2 := scaleOf_nonneg h (h.cons k)
      rw [List.map_cons, List.sum_cons]
      nlinarith
    · rw [List.flatMap_cons, List.flatMap_cons, addUp_append, total_append, ← add_assoc R, List.length_cons,
        show i + 8 * (ks.length + 1) = i + 8 + 8 * ks.length by omega]
      exact hS

/-- every constraint away from its degenerate positions has contributions close to the exact ones -/
theorem near_cons {κ : ℝ} (hη : ErrUnit η) (hl : lm.Accurate κ) (hκ : κ ≤ η) {c : Constraint (B64 lm)} (hm : ModestCons h c)
    (hc : Clear h c) : NearCons η h c := by
  cases c with
  | angle p q o d => exact near_angle hη hl hκ hm hc
  | arcEnd a p => exact near_arcEnd hη hl hκ hm
  | arcStart a p => exact near_arcStart hη hl hκ hm
  | euclid p q d => exact near_euclid hη hm hc
  | horizDist p q d => exact near_horiz hη hm
  | vertDist p q d => exact near_vert hη hm
  | fix p d => exact near_fix hη hm
  | eqLen l m => exact near_eqLen hη hm hc
  | horizLine l => exact near_horizLine hη hm
  | vertLine l => exact near_vertLine hη hm
  | parallel l m => exact near_parallel hη hm hc
  | perp l m => exact near_perp hη hm hc

theorem Modest.cons {s : Sketch} (hf : Modest h s) (hc : Closed ⟨h, s⟩) : ∀ k ∈ s.cons, ModestCons h (h.cons k) := by
  intro k hk
  refine ⟨fun p hp x hx => ?_, hf.2 k hk⟩
  apply hf.1
  rw [getData_eq]
  refine List.mem_flatMap.2 ⟨p, ?_, hx⟩
  unfold consDeps at hp
  rcases List.mem_append.1 hp with hp | hp
  · exact hc.2 k hk p hp
  · obtain ⟨r, hr, hp⟩ := List.mem_flatMap.1 hp
    exact hc.1 r (hc.2 k hk r hr) p hp

theorem forall₂_left {α β : Type} {P : α → β → Prop} {l : List α} {l' : List β} (hl : List.Forall₂ P l l') :
    ∀ a ∈ l, ∃ b, P a b := by
  induction hl with
  | nil => simp
  | cons h _ ih =>
    intro a ha
    rcases List.mem_cons.1 ha with rfl | ha
    · exact ⟨_, h⟩
    · exact ih a ha

/-! ## the exact counterpart -/

theorem exact_fields (c : Constraint (B64 lm)) : consFields c.exact = consFields c := by cases c <;> rfl
theorem exact_prims (h : Heap (B64 lm)) (c : PrimCell) : primFields h.exact c = primFields h c := by cases c <;> rfl

theorem exact_closed {s : Sketch} (hc : Closed ⟨h, s⟩) : Closed ⟨h.exact, s⟩ := by
  refine ⟨fun c hc' r hr => hc.1 c hc' r ?_, fun k hk r hr => hc.2 k hk r ?_⟩
  · have hr : r ∈ primFields h.exact c := hr
    rwa [exact_prims] at hr
  · have hr : r ∈ consFields (h.cons k).exact := hr
    rwa [exact_fields] at hr

theorem exact_data (h : Heap (B64 lm)) (c : PrimCell) : primData h.exact c = (primData h c).map B64.exact := by
  cases c <;> rfl

theorem exact_getData (h : Heap (B64 lm)) (s : Sketch) : getData h.exact s = (getData h s).map B64.exact := by
  rw [getData_eq, getData_eq, List.map_flatMap]
  congr 1
  funext c
  exact exact_data h c

theorem exact_params (c : Constraint (B64 lm)) : consParams c.exact = (consParams c).map B64.exact := by cases c <;> rfl

theorem Modest.finite {s : Sketch} (hm : Modest h s) : FiniteSketch h.exact s := by
  constructor
  · intro x hx
    rw [exact_getData] at hx
    obtain ⟨y, hy, rfl⟩ := List.mem_map.1 hx
    obtain ⟨r, hr, -⟩ := hm.1 y hy
    rw [hr.exact]; rfl
  · intro k hk x hx
    have hx : x ∈ consParams (h.cons k).exact := hx
    rw [exact_params] at hx
    obtain ⟨y, hy, rfl⟩ := List.mem_map.1 hx
    obtain ⟨r, hr, -⟩ := hm.2 k hk y hy
    rw [hr.exact]; rfl

theorem exact_nDofs (h : Heap (B64 lm)) (s : Sketch) : getNDofs h.exact s = getNDofs h s := by
  unfold getNDofs
  congr 1
  funext n kp
  rw [exact_data, List.length_map]

theorem exact_dist (h : Heap (B64 lm)) (p q : Nat) : dist (ptOf h.exact p) (ptOf h.exact q) = distOf h p q := by
  rw [EuclideanSpace.dist_eq, Fin.sum_univ_two, Real.dist_eq, Real.dist_eq, _root_.sq_abs, _root_.sq_abs]
  rfl

/-- well away from degenerate positions means not in one -/
theorem Clear.regular {c : Constraint (B64 lm)} (hc : Clear h c) : Regular h.exact c.exact := by
  have hl : ∀ l, 2 ^ (-100 : ℤ) ≤ lenOf h l → ProperLine h.exact l := by
    intro l hl e
    have : lenOf h l = 0 := by
      unfold lenOf
      rw [← exact_dist]
      have e : ptOf h.exact (h.lines l).start = ptOf h.exact (h.lines l).stop := e
      rw [e, dist_self]
    rw [this] at hl
    exact absurd (two_pos (-100)) (not_lt.2 hl)
  have h6 : (1e-6 : ℝ) < 2 ^ (-19 : ℤ) := by norm_num
  cases c with
  | angle p q o d =>
    obtain ⟨h1, h2, h3⟩ := hc
    refine ⟨by rw [exact_dist]; exact h6.trans_le h1, by rw [exact_dist]; exact h6.trans_le h2, ?_⟩
    intro e
    have e : (xOf h p - xOf h o) * (yOf h q - yOf h o) = (yOf h p - yOf h o) * (xOf h q - xOf h o) := e
    have : sinOf h p q o = 0 := by unfold sinOf; rw [e, sub_self, abs_zero, zero_div]
    rw [this] at h3
    exact absurd (two_pos (-5)) (not_lt.2 h3)
  | euclid p q d => show _ ≤ dist (ptOf h.exact p) (ptOf h.exact q); rw [exact_dist]; exact h6.le.trans hc
  | eqLen l m => exact ⟨hl l hc.1, hl m hc.2⟩
  | parallel l m => exact ⟨hl l hc.1, hl m hc.2⟩
  | perp l m => exact ⟨hl l hc.1, hl m hc.2⟩
  | _ => trivial

/-- **the gradient in binary64 and in exact arithmetic** -/
theorem gradient_near {κ : ℝ} (hl : lm.Accurate κ) (hκ : κ ≤ 2 ^ (-45 : ℤ)) {s : Sketch} (hc : Closed ⟨h, s⟩) (hm : Modest h s)
    (hr : ∀ k ∈ s.cons, Clear h (h.cons k)) (hn : s.cons.length < 2 ^ 40) :
    ∃ h' H', ∃ g : Dof → B64 lm, ∃ G : Dof → ℝ, getGradient h s = .ok (s.dofs.map g, h') ∧
      getGradient h.exact s = .ok (s.dofs.map (fun d => fin (G d)), H') ∧
      ∀ d, ∃ v, (g d).Is v ∧ |v - G d| ≤ (30720 * (2 ^ (-53 : ℤ) + κ) + 1024 * s.cons.length * 2 ^ (-53 : ℤ)) *
        (s.cons.map (fun k => (spanOf h (h.cons k) + 2 ^ (-100 : ℤ)) * slopeOf h (h.cons k) * badness h (h.cons k) ^ 3)).sum := by
  have k0 : 0 ≤ κ := by
    obtain ⟨c, -, h2⟩ := hl.cos _ _ B64.is_zero
    exact (abs_nonneg _).trans h2
  have hη : ErrUnit (ulp + κ) := by
    refine ⟨by linarith, ?_⟩
    have : (2 : ℝ) ^ (-44 : ℤ) = 2 ^ (-45 : ℤ) + 2 ^ (-45 : ℤ) := by norm_num
    have : ulp ≤ 2 ^ (-45 : ℤ) := by rw [ulp_eq]; norm_num
    linarith
  have hkη : κ ≤ ulp + κ := by linarith [ulp_pos]
  have hne : ∀ k ∈ s.cons, NearCons (ulp + κ) h (h.cons k) := fun k hk => near_cons hη hl hkη (hm.cons hc k hk) (hr k hk)
  have hs : ∀ d, _ := fun d => Summed.all hη d s.cons hne Summed.zero (by omega)
  obtain ⟨h', e⟩ := getGradient_entries h s (fun k hk x hx => by
      obtain ⟨E, -, h2⟩ := forall₂_left (hne k hk) x hx
      exact h2.isFinite) (fun d _ => by
      obtain ⟨T', -, v, h2, -⟩ := hs d
      exact h2.isFinite)
  have hfc := hm.finite.cons (exact_closed hc)
  obtain ⟨H', -, -, E⟩ := (getGradient_exact h.exact s hfc).1 fun k hk => regular_not_degenerate (hfc k hk) (hr k hk).regular
  refine ⟨h', H', _, _, e, E, fun d => ?_⟩
  obtain ⟨T', hT, v, h1, h2, h3, -⟩ := hs d
  refine ⟨v, h1, ?_⟩
  rw [zero_add] at h2 hT
  refine h2.trans ((mul_le_mul_of_nonneg_left hT ?_).trans (le_of_eq ?_))
  · have := ulp_pos; positivity
  · rw [show (ulp : ℝ) = 2 ^ (-53 : ℤ) by rw [ulp_eq]; norm_num]
    simp only [scaleOf]
    push_cast
    ring

end Isotope
