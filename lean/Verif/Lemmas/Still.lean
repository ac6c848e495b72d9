import Verif.SpecStill
import Verif.Lemmas.Part
import Verif.Lemmas.TurnNewton
import Verif.Lemmas.Linear

/-!
# A satisfied sketch beside another one
-/

namespace Isotope
open XR
open Matrix

/-! ## Vectors and matrices -/

section
variable {U S T : List Dof}

theorem fins_dot (L : List Dof) (f g : Dof → ℝ) :
    dotL (L.map fun d => fin (f d)) (L.map fun d => fin (g d)) = fin (L.map fun d => f d * g d).sum := by
  have := dotL_map (L.map f) (L.map g)
  rwa [List.map_map, List.map_map, zip_maps] at this

/-- a vector over `U` and one over `T`, with the given entries over `S` -/
def BesideV (U S T : List Dof) (b : Dof → ℝ) (v v' : List XR) : Prop :=
  ∃ f : Dof → ℝ, (∀ d ∈ S, f d = b d) ∧ v = U.map (fun d => fin (f d)) ∧ v' = T.map (fun d => fin (f d))

/-- a matrix over `U` and one over `T`, the first being the identity over `S` -/
def BesideM (U S T : List Dof) (A A' : List (List XR)) : Prop :=
  ∃ m : Dof → Dof → ℝ, (∀ d e, d ∈ S ∨ e ∈ S → m d e = if d = e then 1 else 0) ∧
    A = U.map (fun d => U.map (fun e => fin (m d e))) ∧ A' = T.map (fun d => T.map (fun e => fin (m d e)))

variable (q : U.Perm (S ++ T)) (hn : U.Nodup)

include q in
theorem sum_beside {f : Dof → ℝ} (h0 : ∀ d ∈ S, f d = 0) : (U.map f).sum = (T.map f).sum := by
  rw [(q.map f).sum_eq, List.map_append, List.sum_append]
  have : (S.map f).sum = 0 := List.sum_eq_zero (by
    intro x hx; obtain ⟨k, hk, rfl⟩ := List.mem_map.1 hx; exact h0 k hk)
  rw [this, zero_add]

include q hn in
theorem beside_apart {d e : Dof} (hd : d ∈ S) (he : e ∈ T) : d ≠ e := by
  rintro rfl
  exact (List.nodup_append.1 (q.nodup_iff.1 hn)).2.2 d hd d he rfl

include q in
theorem BesideV.dot {a a' b b' : List XR} (w : BesideV U S T 0 a a') (w' : BesideV U S T 0 b b') : dotV a b = dotV a' b' := by
  obtain ⟨f, hf, rfl, rfl⟩ := w
  obtain ⟨g, hg, rfl, rfl⟩ := w'
  rw [dotV_eq, dotV_eq, fins_dot, fins_dot, sum_beside q fun d hd => by rw [hf d hd, Pi.zero_apply, zero_mul]]

theorem BesideV.neg {a a' : List XR} (w : BesideV U S T 0 a a') : BesideV U S T 0 (vneg a) (vneg a') := by
  obtain ⟨f, hf, rfl, rfl⟩ := w
  refine ⟨fun d => -f d, fun d hd => by dsimp only; rw [hf d hd, Pi.zero_apply, neg_zero], ?_, ?_⟩ <;> simp [vneg]

theorem BesideV.scale {a a' : List XR} {k : XR} (hk : ∃ r, k = fin r) (w : BesideV U S T 0 a a') : BesideV U S T 0 (vscale k a) (vscale k a') := by
  obtain ⟨f, hf, rfl, rfl⟩ := w
  obtain ⟨r, rfl⟩ := hk
  refine ⟨fun d => r * f d, fun d hd => by dsimp only; rw [hf d hd, Pi.zero_apply, mul_zero], ?_, ?_⟩ <;> simp [vscale]

theorem BesideV.mul {a a' : List XR} {k : XR} (hk : ∃ r, k = fin r) (w : BesideV U S T 0 a a') : BesideV U S T 0 (a.map (· * k)) (a'.map (· * k)) := by
  obtain ⟨f, hf, rfl, rfl⟩ := w
  obtain ⟨r, rfl⟩ := hk
  refine ⟨fun d => f d * r, fun d hd => by dsimp only; rw [hf d hd, Pi.zero_apply, zero_mul], ?_, ?_⟩ <;> simp

variable {b : Dof → ℝ}

theorem BesideV.add {x x' d d' : List XR} (w : BesideV U S T b x x') (w' : BesideV U S T 0 d d') : BesideV U S T b (vadd x d) (vadd x' d') := by
  obtain ⟨f, hf, rfl, rfl⟩ := w
  obtain ⟨g, hg, rfl, rfl⟩ := w'
  refine ⟨fun d => f d + g d, fun d hd => by dsimp only; rw [hf d hd, hg d hd, Pi.zero_apply, add_zero], ?_, ?_⟩ <;> simp [vadd]

theorem BesideV.sub {x x' d d' : List XR} (w : BesideV U S T b x x') (w' : BesideV U S T 0 d d') : BesideV U S T b (vsub x d) (vsub x' d') := by
  obtain ⟨f, hf, rfl, rfl⟩ := w
  obtain ⟨g, hg, rfl, rfl⟩ := w'
  refine ⟨fun d => f d - g d, fun d hd => by dsimp only; rw [hf d hd, hg d hd, Pi.zero_apply, sub_zero], ?_, ?_⟩ <;> simp [vsub]

theorem BesideV.axpy {x x' d d' : List XR} {k : XR} (hk : ∃ r, k = fin r) (w : BesideV U S T b x x') (w' : BesideV U S T 0 d d') :
    BesideV U S T b (Isotope.axpy x k d) (Isotope.axpy x' k d') := by
  obtain ⟨f, hf, rfl, rfl⟩ := w
  obtain ⟨g, hg, rfl, rfl⟩ := w'
  obtain ⟨r, rfl⟩ := hk
  refine ⟨fun d => r * g d + 1 * f d, fun d hd => by dsimp only; rw [hf d hd, hg d hd, Pi.zero_apply]; ring, ?_, ?_⟩ <;>
    simp only [Isotope.axpy, zip_maps, one_lit, mul_fin, add_fin]

theorem BesideV.finite {a a' : List XR} (w : BesideV U S T b a a') : a.all Num.isFinite = a'.all Num.isFinite := by
  obtain ⟨f, hf, rfl, rfl⟩ := w
  have : ∀ L : List Dof, (L.map fun d => fin (f d)).all Num.isFinite = true := fun L => by
    rw [List.all_eq_true]; intro x hx; obtain ⟨d, -, rfl⟩ := List.mem_map.1 hx; rfl
  rw [this, this]

include q in
theorem BesideV.norm {a a' : List XR} (w : BesideV U S T 0 a a') : uniformNorm a = uniformNorm a' := by
  obtain ⟨f, hf, rfl, rfl⟩ := w
  rw [uniformNorm_perm (q.map _) (by simp), List.map_append]
  unfold uniformNorm
  rw [List.foldl_append]
  congr 1
  rw [zero_lit]
  have := uniformNorm_zero (S.map fun d => fin (f d)) fun x hx => by
    obtain ⟨d, hd, rfl⟩ := List.mem_map.1 hx
    rw [hf d hd]; rfl
  unfold uniformNorm at this
  rwa [zero_lit] at this

include q hn in
theorem BesideM.one : BesideM U S T (identity U.length) (identity T.length) := by
  refine ⟨fun d e => if d = e then 1 else 0, fun _ _ _ => rfl, ?_, ?_⟩
  · rw [identity_table hn]
    refine List.map_congr_left fun d _ => List.map_congr_left fun e _ => ?_
    dsimp only
    split
    · exact one_lit
    · exact zero_lit
  · rw [identity_table (List.nodup_append.1 (q.nodup_iff.1 hn)).2.1]
    refine List.map_congr_left fun d _ => List.map_congr_left fun e _ => ?_
    dsimp only
    split
    · exact one_lit
    · exact zero_lit

include q in
theorem beside_mulVec {m : Dof → Dof → ℝ} (hm : ∀ d ∈ S, ∀ e ∈ T, m d e = 0) {g g' : List XR} (w' : BesideV U S T 0 g g') :
    BesideV U S T 0 (matVec (U.map fun d => U.map fun e => fin (m d e)) g) (matVec (T.map fun d => T.map fun e => fin (m d e)) g') := by
  obtain ⟨f, hf, rfl, rfl⟩ := w'
  refine ⟨fun d => (T.map fun e => m d e * f e).sum, fun d hd => ?_, ?_, ?_⟩
  · refine List.sum_eq_zero fun x hx => ?_
    obtain ⟨e, he, rfl⟩ := List.mem_map.1 hx
    rw [hm d hd e he, zero_mul]
  · rw [matVec_table U U (fun d e => fin (m d e)) fun d => fin (f d)]
    refine List.map_congr_left fun d _ => ?_
    rw [fins_dot, sum_beside q fun e he => by rw [hf e he, Pi.zero_apply, mul_zero]]
  · rw [matVec_table T T (fun d e => fin (m d e)) fun d => fin (f d)]
    exact List.map_congr_left fun d _ => fins_dot ..

include q hn in
theorem BesideM.mulVec {A A' : List (List XR)} {g g' : List XR} (w : BesideM U S T A A') (w' : BesideV U S T 0 g g') :
    BesideV U S T 0 (matVec A g) (matVec A' g') := by
  obtain ⟨m, hm, rfl, rfl⟩ := w
  exact beside_mulVec q (fun d hd e he => by rw [hm d e (.inl hd), if_neg (beside_apart q hn hd he)]) w'

include q hn in
theorem BesideM.dir {A A' : List (List XR)} {g g' : List XR} (w : BesideM U S T A A') (w' : BesideV U S T 0 g g') :
    BesideV U S T 0 (matVec (matNeg A) g) (matVec (matNeg A') g') := by
  obtain ⟨m, hm, rfl, rfl⟩ := w
  have e : ∀ L : List Dof, matNeg (L.map fun d => L.map fun e => fin (m d e)) = L.map fun d => L.map fun e => fin (-m d e) := fun L => by
    simp [matNeg, vneg]
  rw [e, e]
  exact beside_mulVec q (fun d hd e he => by rw [hm d e (.inl hd), if_neg (beside_apart q hn hd he), neg_zero]) w'

theorem BesideM.ger {A A' : List (List XR)} {x x' y y' : List XR} {k : XR} (hk : ∃ r, k = fin r) (w : BesideM U S T A A') (wx : BesideV U S T 0 x x')
    (wy : BesideV U S T 0 y y') : BesideM U S T (Isotope.ger A k x y) (Isotope.ger A' k x' y') := by
  obtain ⟨m, hm, rfl, rfl⟩ := w
  obtain ⟨f, hf, rfl, rfl⟩ := wx
  obtain ⟨g, hg, rfl, rfl⟩ := wy
  obtain ⟨r, rfl⟩ := hk
  refine ⟨fun d e => (r * g e) * f d + 1 * m d e, fun d e hde => ?_, ?_, ?_⟩
  · dsimp only
    rw [hm d e hde, one_mul, add_eq_right]
    rcases hde with hd | he
    · rw [hf d hd, Pi.zero_apply, mul_zero]
    · rw [hg e he, Pi.zero_apply, mul_zero, zero_mul]
  · simp only [Isotope.ger, zip_maps, one_lit, mul_fin, add_fin]
  · simp only [Isotope.ger, zip_maps, one_lit, mul_fin, add_fin]

include q hn in
theorem BesideM.upd {A A' : List (List XR)} {st st' y y' : List XR} (w : BesideM U S T A A') (ws : BesideV U S T 0 st st')
    (wy : BesideV U S T 0 y y') : BesideM U S T (bfgsUpdate A st y) (bfgsUpdate A' st' y') := by
  have hh := w.mulVec q hn wy
  have e : guardedSy st y = guardedSy st' y' := by unfold guardedSy; rw [ws.dot q wy]
  have hsy : ∃ r, guardedSy st y = fin r ∧ r ≠ 0 := by
    obtain ⟨f, hf, rfl, rfl⟩ := ws
    obtain ⟨g, hg, rfl, rfl⟩ := wy
    have := guardedSy_vec (fun i : Fin U.length => f U[i]) (fun i => g U[i])
    rw [← map_vec fun _ _ => rfl, ← map_vec fun _ _ => rfl] at this
    exact ⟨_, this, rhoOf_ne _ _⟩
  have hyh : ∃ r, dotV y (matVec A y) = fin r := by
    obtain ⟨f, hf, e1, -⟩ := hh
    obtain ⟨g, hg, e2, -⟩ := wy
    rw [dotV_eq, e1, e2, fins_dot]
    exact ⟨_, rfl⟩
  unfold bfgsUpdate
  dsimp only
  rw [← e, ← wy.dot q hh]
  obtain ⟨r, er, hr⟩ := hsy
  obtain ⟨v, ev⟩ := hyh
  rw [er, ev, one_lit, neg_fin, div_fin_of_ne _ hr, mul_fin, add_fin, div_fin_of_ne _ (mul_ne_zero hr hr)]
  exact BesideM.ger ⟨_, rfl⟩ (BesideM.ger ⟨_, rfl⟩ (BesideM.ger ⟨_, rfl⟩ w ws ws) hh ws) ws hh

end

/-! ## Sketches -/

section
variable {h : Heap XR} {s : Sketch}

theorem Sketch.Covers.finite (hf : FiniteSketch h s) (hc : s.Covers h) : ∀ k ∈ s.cons, FiniteCons h (h.cons k) := fun k hk =>
  ⟨fun p hp x hx => hf.1 x (by rw [getData_eq]; exact List.mem_flatMap.2 ⟨p, hc k hk p hp, hx⟩), hf.2 k hk⟩

theorem Sketch.Covers.sameRefs {h' : Heap XR} (r : SameRefs h h') (hc : s.Covers h) : s.Covers h' := fun k hk c hc' => by
  rw [consDeps_sameRefs r, r.cons] at hc'
  exact hc k hk c hc'

/-- the loss vector, entry by entry -/
theorem losses_covered (hc : s.Covers h) (hf : FiniteSketch h s) :
    getLossPerConstraint h s = vec fun i : Fin s.cons.length => (lossValue h (h.cons s.cons[i])).toReal := by
  unfold getLossPerConstraint vec
  refine List.ext_getElem (by simp) fun i a1 a2 => ?_
  rw [List.getElem_map, List.getElem_ofFn]
  have hi : i < s.cons.length := by simpa using a1
  obtain ⟨r, -, hr⟩ := (hc.finite hf _ (List.getElem_mem hi)).real.loss
  exact hr.trans (by show _ = fin (lossValue h (h.cons s.cons[i])).toReal; rw [hr]; rfl)

end

/-- two heaps with the same coordinates, during runs on `u` and on `t` -/
structure Beside (h0 : Heap XR) (s u : Sketch) (h1 h2 : Heap XR) : Prop where
  grad : GradOnly h1 h2
  refs : SameRefs h0 h1
  finite : FiniteSketch h1 u
  still : SameData s h0 h1

section
variable {h0 : Heap XR} {s t u : Sketch} (made : u.MadeOf s t) (hn : u.cells.Nodup)

include made in
theorem made_dofs : u.dofs.Perm (s.dofs ++ t.dofs) := by
  have := made.cells.flatMap_right dofs
  rwa [List.flatMap_append] at this

include made hn in
theorem made_nodup : t.cells.Nodup := (List.nodup_append.1 (made.cells.nodup_iff.1 hn)).2.1

include made in
theorem made_covers (hs : s.Covers h0) (ht : t.Covers h0) : u.Covers h0 := by
  intro k hk c hc
  rcases List.mem_append.1 (made.cons.mem_iff.1 hk) with hk | hk
  · exact made.cells.mem_iff.2 (List.mem_append_left _ (hs k hk c hc))
  · exact made.cells.mem_iff.2 (List.mem_append_right _ (ht k hk c hc))

include made in
theorem made_finite {h1 : Heap XR} (hf : FiniteSketch h1 u) : FiniteSketch h1 t ∧ FiniteSketch h1 s := by
  refine ⟨⟨fun x hx => hf.1 x ?_, fun k hk => hf.2 k (made.cons.mem_iff.2 (List.mem_append_right _ hk))⟩,
    ⟨fun x hx => hf.1 x ?_, fun k hk => hf.2 k (made.cons.mem_iff.2 (List.mem_append_left _ hk))⟩⟩
  · rw [getData_eq] at hx ⊢
    obtain ⟨c, hc, hx⟩ := List.mem_flatMap.1 hx
    exact List.mem_flatMap.2 ⟨c, made.cells.mem_iff.2 (List.mem_append_right _ hc), hx⟩
  · rw [getData_eq] at hx ⊢
    obtain ⟨c, hc, hx⟩ := List.mem_flatMap.1 hx
    exact List.mem_flatMap.2 ⟨c, made.cells.mem_iff.2 (List.mem_append_left _ hc), hx⟩

/-- the coordinates the satisfied sketch keeps -/
noncomputable def kept (h0 : Heap XR) (d : Dof) : ℝ := (val h0 d).toReal

theorem Beside.grad_left {h1 h2 h1' : Heap XR} (w : Beside h0 s u h1 h2) (g : GradOnly h1 h1') : Beside h0 s u h1' h2 where
  grad := g.symm.trans w.grad
  refs := w.refs.trans g.1
  finite := ⟨by rw [g.getData]; exact w.finite.1, by rw [g.1.cons]; exact w.finite.2⟩
  still := fun c hc => by rw [g.2 c]; exact w.still c hc

theorem Beside.grad_right {h1 h2 h2' : Heap XR} (w : Beside h0 s u h1 h2) (g : GradOnly h2 h2') : Beside h0 s u h1 h2' where
  grad := w.grad.trans g
  refs := w.refs
  finite := w.finite
  still := w.still

theorem Beside.still_val {h1 h2 : Heap XR} (w : Beside h0 s u h1 h2) {d : Dof} (hd : d ∈ s.dofs) : val h1 d = val h0 d := w.still.val hd

include made in
theorem Beside.data {h1 h2 : Heap XR} (w : Beside h0 s u h1 h2) :
    BesideV u.dofs s.dofs t.dofs (kept h0) (getData h1 u) (getData h2 t) := by
  have fv : ∀ d ∈ u.dofs, val h1 d = fin (val h1 d).toReal := fun d hd => val_real w.finite hd
  refine ⟨fun d => (val h1 d).toReal, fun d hd => by unfold kept; dsimp only; rw [w.still_val hd], ?_, ?_⟩
  · rw [getData_dofs]; exact List.map_congr_left fv
  · rw [getData_dofs]
    refine List.map_congr_left fun d hd => ?_
    rw [w.grad.val]
    exact fv d ((made_dofs made).mem_iff.2 (List.mem_append_right _ hd))

include made hn in
theorem Beside.set {h1 h2 : Heap XR} (w : Beside h0 s u h1 h2) {d d' : List XR} (hd : BesideV u.dofs s.dofs t.dofs (kept h0) d d') :
    BothE (Beside h0 s u) (Beside h0 s u) (setData h1 u d) (setData h2 t d') := by
  obtain ⟨f, hf, rfl, rfl⟩ := hd
  have q := made_dofs made
  obtain ⟨h3, e3, r3, v3, o3⟩ := set_vec hn h1 (fun i => f u.dofs[i])
  obtain ⟨h4, e4, r4, v4, o4⟩ := set_vec (made_nodup made hn) h2 (fun i => f t.dofs[i])
  rw [map_vec fun _ _ => rfl, map_vec fun _ _ => rfl, e3, e4]
  have v3' : ∀ d ∈ u.dofs, val h3 d = fin (f d) := by
    intro d hd
    obtain ⟨i, hi, rfl⟩ := List.getElem_of_mem hd
    exact v3 ⟨i, hi⟩
  have v4' : ∀ d ∈ t.dofs, val h4 d = fin (f d) := by
    intro d hd
    obtain ⟨i, hi, rfl⟩ := List.getElem_of_mem hd
    exact v4 ⟨i, hi⟩
  have fs : ∀ d ∈ s.dofs, fin (f d) = val h0 d := fun d hd => by
    have hu := q.mem_iff.2 (List.mem_append_left _ hd)
    rw [hf d hd, kept, ← w.still_val hd, ← val_real w.finite hu]
  refine .ok ⟨gradOnly_of_val (r3.symm.trans (w.grad.1.trans r4)) fun d => ?_, w.refs.trans r3, ⟨?_, ?_⟩, .of_val fun d hd => ?_⟩
  · by_cases hu : d ∈ u.dofs
    · by_cases ht : d ∈ t.dofs
      · rw [v3' d hu, v4' d ht]
      · have hs : d ∈ s.dofs := (List.mem_append.1 (q.mem_iff.1 hu)).resolve_right ht
        rw [o4 d ht, w.grad.val, w.still_val hs, v3' d hu, fs d hs]
    · rw [o4 d fun ht => hu (q.mem_iff.2 (List.mem_append_right _ ht)), o3 d hu, w.grad.val]
  · intro y hy
    rw [getData_dofs] at hy
    obtain ⟨d, hd, rfl⟩ := List.mem_map.1 hy
    rw [v3' d hd]; rfl
  · rw [r3.cons]; exact w.finite.2
  · rw [v3' d (q.mem_iff.2 (List.mem_append_left _ hd)), fs d hd]

variable (hs : s.Covers h0) (ht : t.Covers h0) (sat : ∀ k ∈ s.cons, lossValue h0 (h0.cons k) = fin 0 ∧ ¬DegenerateEqLen h0 (h0.cons k))

section
variable {h1 h2 : Heap XR} (w : Beside h0 s u h1 h2)
include hs w

include sat made in
/-- the satisfied sketch stays satisfied -/
theorem Beside.idle {k : Nat} (hk : k ∈ s.cons) : lossValue h1 (h1.cons k) = fin 0 ∧ ¬DegenerateEqLen h1 (h1.cons k) ∧
    ∀ d, total (contribs h1 (h1.cons k)) d = 0 := by
  have e : DepEq h0 h1 (h0.cons k) := ⟨w.refs, fun _ hp => w.still _ (hs k hk _ hp)⟩
  have f0 : FiniteCons h0 (h0.cons k) := by
    have hf : FiniteSketch h0 s := by
      obtain ⟨-, a, b⟩ := made_finite made w.finite
      refine ⟨?_, by rw [w.refs.cons] at b; exact b⟩
      rw [getData_eq] at a ⊢
      intro x hx
      obtain ⟨c, hc, hx⟩ := List.mem_flatMap.1 hx
      refine a x (List.mem_flatMap.2 ⟨c, hc, ?_⟩)
      rw [w.still c hc]; exact hx
    exact hs.finite hf k hk
  have f1 : FiniteCons h1 (h0.cons k) := by
    have := (hs.sameRefs w.refs).finite (made_finite made w.finite).2 k hk
    rwa [w.refs.cons] at this
  rw [w.refs.cons]
  have nd : ¬DegenerateEqLen h1 (h0.cons k) := fun hd => (sat k hk).2 (e.degenerate f0 f1 hd)
  have l1 : lossValue h1 (h0.cons k) = fin 0 := e.all.1.trans (sat k hk).1
  exact ⟨l1, nd, fun d => total_zero (f1.real.contribs_zero l1 nd) d⟩

include ht in
omit hs in
theorem Beside.other {k : Nat} (hk : k ∈ t.cons) {d : Dof} (hd : d ∉ t.dofs) : total (contribs h1 (h1.cons k)) d = 0 :=
  total_owner fun hm => hd (mem_sketch_dofs.2 ((ht.sameRefs w.refs) k hk _ hm))

include sat made ht in
theorem Beside.loss : getLoss h1 u = getLoss h2 t ∧ sumL (getLossPerConstraint h1 u) = sumL (getLossPerConstraint h2 t) := by
  have cu := (made_covers made hs ht).sameRefs w.refs
  have key : getLoss h1 u = getLoss h2 t := by
    rw [w.grad.getLoss, getLoss_fin, getLoss_fin]
    · congr 1
      rw [(made.cons.map _).sum_eq, List.map_append, List.sum_append, add_eq_right]
      refine List.sum_eq_zero fun x hx => ?_
      obtain ⟨k, hk, rfl⟩ := List.mem_map.1 hx
      rw [(w.idle made hs sat hk).1]; rfl
    · intro k hk
      obtain ⟨r, -, hr⟩ := ((ht.sameRefs w.refs).finite (made_finite made w.finite).1 k hk).real.loss
      exact ⟨r, hr⟩
    · intro k hk
      obtain ⟨r, -, hr⟩ := (cu.finite w.finite k hk).real.loss
      exact ⟨r, hr⟩
  refine ⟨key, ?_⟩
  rw [getLoss_sum, getLoss_sum] at key
  exact key

include sat made ht hn in
theorem Beside.gradient : BothG (Beside h0 s u) (Beside h0 s u) (BesideV u.dofs s.dofs t.dofs 0) (getGradient h1 u) (getGradient h2 t) := by
  have cu := (made_covers made hs ht).sameRefs w.refs
  have ct := ht.sameRefs w.refs
  have ct2 := ct.sameRefs w.grad.1
  have ft := (made_finite made w.finite).1
  have ft2 : FiniteSketch h2 t := ⟨by rw [w.grad.getData]; exact ft.1, by rw [w.grad.1.cons]; exact ft.2⟩
  obtain ⟨A, B⟩ := getGradient_exact h1 u (cu.finite w.finite)
  obtain ⟨A', B'⟩ := getGradient_exact h2 t (ct2.finite ft2)
  have de : ∀ k ∈ t.cons, DegenerateEqLen h2 (h2.cons k) ↔ DegenerateEqLen h1 (h1.cons k) := fun k hk => by
    have f1 := ct.finite ft k hk
    have f2 := ct2.finite ft2 k hk
    have d12 : DepEq h1 h2 (h1.cons k) := ⟨w.grad.1, fun p _ => w.grad.2 p⟩
    have d21 : DepEq h2 h1 (h1.cons k) := ⟨w.grad.1.symm, fun p _ => (w.grad.2 p).symm⟩
    rw [w.grad.1.cons] at f2 ⊢
    exact ⟨d12.degenerate f1 f2, d21.degenerate f2 f1⟩
  by_cases hd : ∃ k ∈ t.cons, DegenerateEqLen h1 (h1.cons k)
  · obtain ⟨k, hk, hd⟩ := hd
    obtain ⟨h3, e3⟩ := B ⟨k, made.cons.mem_iff.2 (List.mem_append_right _ hk), hd⟩
    obtain ⟨h4, e4⟩ := B' ⟨k, hk, (de k hk).2 hd⟩
    have g3 : GradOnly h1 h3 := by have := getGradient_gradOnly h1 u; rwa [e3] at this
    have g4 : GradOnly h2 h4 := by have := getGradient_gradOnly h2 t; rwa [e4] at this
    rw [e3, e4]
    exact .error ((w.grad_left g3).grad_right g4)
  · obtain ⟨h3, g3, -, e3⟩ := A fun k hk => by
      rcases List.mem_append.1 (made.cons.mem_iff.1 hk) with hk | hk
      · exact (w.idle made hs sat hk).2.1
      · exact fun q => hd ⟨k, hk, q⟩
    obtain ⟨h4, g4, -, e4⟩ := A' fun k hk q => hd ⟨k, hk, (de k hk).1 q⟩
    rw [e3, e4]
    refine .ok ⟨total (t.cons.flatMap fun k => contribs h1 (h1.cons k)), fun d hd => ?_, ?_, ?_⟩ ((w.grad_left g3).grad_right g4)
    · rw [total_flatMap]
      refine List.sum_eq_zero fun x hx => ?_
      obtain ⟨k, hk, rfl⟩ := List.mem_map.1 hx
      exact w.other ht hk fun hd' => beside_apart (made_dofs made) (Sketch.dofs_nodup hn) hd hd' rfl
    · refine List.map_congr_left fun d _ => congrArg fin ?_
      rw [total_flatMap, total_flatMap, (made.cons.map _).sum_eq, List.map_append, List.sum_append, add_eq_right]
      refine List.sum_eq_zero fun x hx => ?_
      obtain ⟨k, hk, rfl⟩ := List.mem_map.1 hx
      exact (w.idle made hs sat hk).2.2 d
    · refine List.map_congr_left fun d _ => congrArg fin ?_
      congr 1
      refine flatMap_congr_mem fun k _ => ?_
      rw [w.grad.1.cons]
      exact DepEq.contribs ⟨w.grad.1, fun p _ => w.grad.2 p⟩

end

include made hn hs ht sat in
theorem alikeM_beside : AlikeM u t (Beside h0 s u) (Beside h0 s u) (BesideV u.dofs s.dofs t.dofs (kept h0)) (BesideV u.dofs s.dofs t.dofs 0)
    (BesideM u.dofs s.dofs t.dofs) (fun k => ∃ r, k = fin r) u.dofs.length t.dofs.length where
  first := ⟨1, one_lit⟩
  shorter := by rintro _ ⟨r, rfl⟩; rw [sci]; exact ⟨_, rfl⟩
  longer := by rintro _ ⟨r, rfl⟩; rw [sci]; exact ⟨_, rfl⟩
  imp := id
  data := fun w => w.data made
  set := fun w hd => w.set made hn hd
  loss := fun w => (w.loss made hs ht sat).1
  grad := fun w => w.gradient made hn hs ht sat
  dot := fun a b => a.dot (made_dofs made) b
  neg := fun a => a.neg
  add := fun _ hk a b => a.add (b.scale hk)
  axpy := fun _ hk a b => a.axpy hk b
  one := .one (made_dofs made) (Sketch.dofs_nodup hn)
  dir := fun a b => a.dir (made_dofs made) (Sketch.dofs_nodup hn) b
  upd := fun a b c => a.upd (made_dofs made) (Sketch.dofs_nodup hn) b c
  fin := fun a => a.finite
  norm := fun a _ => a.norm (made_dofs made)
  scale := fun _ hk a => a.scale hk
  sub := fun a b => a.sub b

/-! ## The Newton solvers -/

section
variable {h1 h2 : Heap XR} (w : Beside h0 s u h1 h2)
include w hs ht made sat

/-- both Jacobians, with entries from the same table -/
theorem Beside.jacobian : BothG (Beside h0 s u) (Beside h0 s u) (fun J J' =>
      ∃ (B : Matrix (Fin u.cons.length) (Fin u.dofs.length) ℝ) (B' : Matrix (Fin t.cons.length) (Fin t.dofs.length) ℝ), J = mat B ∧ J' = mat B' ∧
        (∀ i j, B i j = total (contribs h1 (h1.cons u.cons[i])) u.dofs[j]) ∧ ∀ i j, B' i j = total (contribs h1 (h1.cons t.cons[i])) t.dofs[j])
    (getJacobian h1 u) (getJacobian h2 t) := by
  have cu := (made_covers made hs ht).sameRefs w.refs
  have ct := ht.sameRefs w.refs
  have ft := (made_finite made w.finite).1
  obtain ⟨A, B⟩ := jacobianRows_exact h1 u u.cons h1 (.refl h1) (cu.finite w.finite)
  obtain ⟨A', B'⟩ := jacobianRows_exact h1 t t.cons h2 w.grad (ct.finite ft)
  unfold getJacobian
  by_cases hd : ∃ k ∈ t.cons, DegenerateEqLen h1 (h1.cons k)
  · obtain ⟨h4, e4⟩ := B' hd
    obtain ⟨k, hk, hd⟩ := hd
    obtain ⟨h3, e3⟩ := B ⟨k, made.cons.mem_iff.2 (List.mem_append_right _ hk), hd⟩
    have g3 : GradOnly h1 h3 := by have := getJacobian_gradOnly h1 u; unfold getJacobian at this; rwa [e3] at this
    have g4 : GradOnly h2 h4 := by have := getJacobian_gradOnly h2 t; unfold getJacobian at this; rwa [e4] at this
    rw [e3, e4]
    exact .error ((w.grad_left g3).grad_right g4)
  · obtain ⟨h3, g3, e3⟩ := A fun k hk => by
      rcases List.mem_append.1 (made.cons.mem_iff.1 hk) with hk | hk
      · exact (w.idle made hs sat hk).2.1
      · exact fun q => hd ⟨k, hk, q⟩
    obtain ⟨h4, g4, e4⟩ := A' fun k hk q => hd ⟨k, hk, q⟩
    rw [e3, e4]
    have tab : ∀ v : Sketch, (v.cons.map fun k => v.dofs.map fun d => fin (total (contribs h1 (h1.cons k)) d)) =
        mat (Matrix.of fun (i : Fin v.cons.length) (j : Fin v.dofs.length) => total (contribs h1 (h1.cons v.cons[i])) v.dofs[j]) := fun v => by
      unfold mat vec
      refine List.ext_getElem (by simp) fun i a1 a2 => ?_
      rw [List.getElem_map, List.getElem_ofFn]
      refine List.ext_getElem (by simp) fun j a3 a4 => ?_
      rw [List.getElem_map, List.getElem_ofFn]
      rfl
    exact .ok ⟨_, _, tab u, tab t, fun _ _ => rfl, fun _ _ => rfl⟩ ((w.grad_left g3).grad_right (w.grad.symm.trans g4))

end

include made hn hs ht sat in
theorem alikeN_beside {pinv : PInv XR} (hp : CutPInv pinv) {ε β : ℝ} (hε : 0 ≤ ε) (hβ : 0 ≤ β) (hne : t.dofs ≠ [])
    {normal : Nat → List (List XR) → List (List XR)}
    (hN : ∀ (n m : Nat) (J : Matrix (Fin m) (Fin n) ℝ), normal n (mat J) = mat (Jᵀ * J + β • 1)) :
    AlikeN u t (Beside h0 s u) (Beside h0 s u) (BesideV u.dofs s.dofs t.dofs (kept h0)) (BesideV u.dofs s.dofs t.dofs 0)
      (fun k => ∃ r, k = fin r) pinv (fin ε) normal u.dofs.length t.dofs.length where
  toAlike := (alikeM_beside made hn hs ht sat).toAlike
  length := fun _ => ⟨by rw [getData_dofs, List.length_map], by rw [getData_dofs, List.length_map]⟩
  sub := fun _ hk a b => a.sub (b.mul hk)
  losses := fun w => (w.loss made hs ht sat).2
  jac := by
    intro h1 h2 w
    have q := w.jacobian made hs ht sat
    generalize getJacobian h1 u = e at q
    generalize getJacobian h2 t = e' at q
    cases q with
    | error r => exact .error r
    | ok q r =>
      refine .ok ?_ r
      obtain ⟨J, J1, rfl, rfl, eJ, eJ1⟩ := q
      have cu := (made_covers made hs ht).sameRefs w.refs
      have ct := ht.sameRefs w.refs
      have ft := (made_finite made w.finite).1
      have pm := made_dofs made
      have nu := Sketch.dofs_nodup hn
      have nt := Sketch.dofs_nodup (made_nodup made hn)
      have psd : ∀ {m n : Nat} (J : Matrix (Fin m) (Fin n) ℝ) (x : Fin n → ℝ), 0 ≤ x ⬝ᵥ ((Jᵀ * J + β • (1 : Matrix (Fin n) (Fin n) ℝ)) *ᵥ x) :=
        fun J x => by
          rw [Matrix.add_mulVec, dotProduct_add, gram_form, Matrix.smul_mulVec, Matrix.one_mulVec, dotProduct_smul, smul_eq_mul]
          have := dot_self_nonneg (J *ᵥ x)
          have := mul_nonneg hβ (dot_self_nonneg x)
          linarith
      have lt : 0 < t.dofs.length := List.length_pos_iff.2 hne
      have lu : 0 < u.dofs.length := by
        rw [pm.length_eq, List.length_append]; omega
      obtain ⟨P, eP, hP⟩ := hp _ _ ε lu (lm_symm J β) (psd J) hε
      obtain ⟨P1, eP1, hP1⟩ := hp _ _ ε lt (lm_symm J1 β) (psd J1) hε
      rw [hN, hN, eP, eP1]
      dsimp only
      have ln : ∀ {m n : Nat} (B : Matrix (Fin m) (Fin n) ℝ), (mat B).length = m := fun B => by simp [mat]
      have l2 : getLossPerConstraint h2 t = getLossPerConstraint h1 t := w.grad.lossPer t
      rw [ln, ln, transpose_mat, transpose_mat, matMul_mat, matMul_mat, l2, losses_covered cu w.finite, losses_covered ct ft, matVec_mat, matVec_mat,
        ← mulVec_mulVec, ← mulVec_mulVec]
      -- the other sketch
      obtain ⟨ι, hi, hι⟩ := exists_index (L := u.dofs) (L1 := t.dofs) nt rfl rfl fun d hd => pm.mem_iff.2 (List.mem_append_right _ hd)
      have pc : u.cons.Perm (t.cons ++ s.cons) := made.cons.trans List.perm_append_comm
      have z1 : ∀ k ∈ s.cons, ∀ d ∈ t.dofs, total (contribs h1 (h1.cons k)) d = 0 := fun k hk d _ => (w.idle made hs sat hk).2.2 d
      have z2 : ∀ k ∈ t.cons, ∀ d, d ∉ t.dofs → total (contribs h1 (h1.cons k)) d = 0 := fun k hk d hd => w.other ht hk hd
      have gram := part_gram (fun k d => total (contribs h1 (h1.cons k)) d) rfl rfl hι eJ eJ1 pc z1 hi nu z2
      have tr := part_transpose (fun k d => total (contribs h1 (h1.cons k)) d) rfl rfl hι eJ eJ1 pc z1
        fun k => (lossValue h1 (h1.cons k)).toReal
      have comm := part_pinv (A1 := J1ᵀ * J1 + β • 1) ι (lm_symm J β) (fun x => by
        rw [Matrix.add_mulVec, Matrix.add_mulVec, ← gram, Matrix.smul_mulVec, Matrix.smul_mulVec, Matrix.one_mulVec, Matrix.one_mulVec]
        rfl) (fun w => if ε < w then w⁻¹ else 0) hP hP1 (Jᵀ *ᵥ fun i : Fin u.cons.length => (lossValue h1 (h1.cons u.cons[i])).toReal)
      rw [tr] at comm
      -- the satisfied one
      have ns : s.dofs.Nodup := (List.nodup_append.1 (pm.nodup_iff.1 nu)).1
      obtain ⟨κ, ki, hκ⟩ := exists_index (L := u.dofs) (L1 := s.dofs) ns rfl rfl fun d hd => pm.mem_iff.2 (List.mem_append_left _ hd)
      have z3 : ∀ k ∈ u.cons, ∀ d ∈ s.dofs, total (contribs h1 (h1.cons k)) d = 0 := fun k hk d hd => by
        rcases List.mem_append.1 (made.cons.mem_iff.1 hk) with hk | hk
        · exact (w.idle made hs sat hk).2.2 d
        · exact w.other ht hk fun hd' => beside_apart pm nu hd hd' rfl
      have gram2 := part_gram (cs1 := []) (J1 := Matrix.of fun (i : Fin 0) (j : Fin s.dofs.length) => (0 : ℝ))
        (fun k d => total (contribs h1 (h1.cons k)) d) rfl rfl hκ eJ (fun i => i.elim0) (rest := u.cons) (.refl _) z3 ki nu (by simp)
      have tr2 := part_transpose (cs1 := []) (J1 := Matrix.of fun (i : Fin 0) (j : Fin s.dofs.length) => (0 : ℝ))
        (fun k d => total (contribs h1 (h1.cons k)) d) rfl rfl hκ eJ (fun i => i.elim0) (rest := u.cons) (.refl _) z3
        fun k => (lossValue h1 (h1.cons k)).toReal
      have comm2 := part_pinv (A1 := β • 1) (P1 := (if ε < β then β⁻¹ else 0) • 1) κ (lm_symm J β) (fun x => by
        rw [Matrix.add_mulVec, Matrix.smul_mulVec, Matrix.smul_mulVec, Matrix.one_mulVec, Matrix.one_mulVec]
        have := (gram2 x).trans (by funext j; simp [mulVec, dotProduct, Matrix.mul_apply] : _ = (0 : Fin s.dofs.length → ℝ))
        funext j
        have := congrFun this j
        simp only [Function.comp, Pi.add_apply, Pi.zero_apply, Pi.smul_apply] at this ⊢
        rw [this, zero_add]) (fun w => if ε < w then w⁻¹ else 0) hP (fun x v hx => by
        rw [Matrix.smul_mulVec, Matrix.one_mulVec] at hx ⊢
        by_cases hv : β = v
        · rw [hv]
        · have : x = 0 := by
            have : (β - v) • x = 0 := by rw [sub_smul, hx, sub_self]
            exact (smul_eq_zero.1 this).resolve_left (sub_ne_zero.2 hv)
          rw [this, smul_zero, smul_zero])
        (Jᵀ *ᵥ fun i : Fin u.cons.length => (lossValue h1 (h1.cons u.cons[i])).toReal)
      have zs : (Jᵀ *ᵥ fun i : Fin u.cons.length => (lossValue h1 (h1.cons u.cons[i])).toReal) ∘ κ = 0 := by
        rw [tr2]; funext j; simp [mulVec, dotProduct]
      rw [zs, mulVec_zero] at comm2
      generalize P *ᵥ (Jᵀ *ᵥ fun i : Fin u.cons.length => (lossValue h1 (h1.cons u.cons[i])).toReal) = v at comm comm2
      rw [← comm]
      obtain ⟨f, rfl⟩ := exists_fn hn v
      refine ⟨f, fun d hd => ?_, (map_vec fun _ _ => rfl).symm, ?_⟩
      · obtain ⟨i, hi, rfl⟩ := List.getElem_of_mem hd
        have := congrFun comm2 ⟨i, hi⟩
        rw [← hκ ⟨i, hi⟩]
        exact this
      · rw [map_vec fun _ _ => rfl]
        congr 1; funext j
        exact congrArg f (hι j)

theorem sameRun_mono {R R' E E' : Heap XR → Heap XR → Prop} {M M' : List (List XR) → List (List XR) → Prop} {o o' : SolveOut XR}
    (w : SameRun R E M o o') (hR : ∀ a b, R a b → R' a b) (hE : ∀ a b, E a b → E' a b) (hM : ∀ a b, M a b → M' a b) : SameRun R' E' M' o o' :=
  ⟨w.res, fun q => hR _ _ (w.heap q), fun q => hE _ _ (w.panicked q), w.searches, w.failed,
    w.steps.imp fun _ _ q => ⟨hR _ _ q.1, q.2.1, hR _ _ q.2.2.1, hM _ _ q.2.2.2⟩⟩

include made hn hs ht sat in
/-- all four solvers -/
theorem beside_run {pinv : PInv XR} (hp : CutPInv pinv) {k : SolverKind XR} (hk : k.Exact) (hne : t.dofs ≠ []) (hf : FiniteSketch h0 u) :
    SameRun (Beside h0 s u) (Beside h0 s u) (fun _ _ => True) (runSolver pinv k h0 u) (runSolver pinv k h0 t) := by
  have R : Beside h0 s u h0 h0 := ⟨.refl h0, .refl h0, hf, fun _ _ => rfl⟩
  have a := alikeM_beside made hn hs ht sat
  cases k with
  | gd p => exact a.toAlike.gd trivial p R
  | bfgs p =>
    exact sameRun_mono (a.bfgs p R (by rw [getData_dofs, List.length_map]) (by rw [getData_dofs, List.length_map])) (fun _ _ => id) (fun _ _ => id)
      fun _ _ _ => trivial
  | gn p =>
    obtain ⟨⟨σ, hσ⟩, ε, hε, h1⟩ := hk
    simp only [runSolver, gnSolve]
    rw [hσ, hε]
    exact (alikeN_beside made hn hs ht sat hp h1 le_rfl hne
      (fun n m J => by rw [gnNormal_mat, zero_smul, add_zero])).newton trivial _ ⟨σ, rfl⟩ _ _ R
  | lm p =>
    obtain ⟨⟨σ, hσ⟩, ⟨ε, hε, h1⟩, β, hβ, h2⟩ := hk
    simp only [runSolver, lmSolve]
    rw [hσ, hε, hβ]
    exact (alikeN_beside made hn hs ht sat hp h1 h2 hne (fun n m J => lmNormal_mat β J)).newton trivial _ ⟨σ, rfl⟩ _ _ R

end

end Isotope
