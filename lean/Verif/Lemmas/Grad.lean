import Verif.Lemmas.FinCons

/-!
# `get_gradient` and `get_jacobian` in exact arithmetic
-/

namespace Isotope
open XR

/-- all contributions of a constraint -/
noncomputable def contribs (h : Heap XR) (c : Constraint XR) : List (Dof × ℝ) := (chunks h c).flatMap (Chunk.contrib h)

theorem zero_lit : (0.0 : XR) = fin 0 := by simp only [sci]; norm_num

theorem gr_zeroGrads {h : Heap XR} {s : Sketch} {d : Dof} (hd : d ∈ s.dofs) : gr (zeroGrads h s) d = fin 0 := by
  have := zeroGrads_grad h s d.owner
  rw [if_pos (mem_sketch_dofs.1 hd), primGrad_dofs] at this
  have hm : gr (zeroGrads h s) d ∈ (dofs d.owner).map (gr (zeroGrads h s)) := List.mem_map.2 ⟨d, mem_dofs_owner d, rfl⟩
  rw [this, zerosVec] at hm
  rw [List.eq_of_mem_replicate hm, zero_lit]

theorem flatMap_primGrad_dofs (h : Heap XR) (s : Sketch) : s.cells.flatMap (primGrad h) = s.dofs.map (gr h) := by
  rw [Sketch.dofs, List.map_flatMap]; congr 1; funext c; exact primGrad_dofs h c

theorem flatMap_flatMap' {α β γ : Type} (l : List α) (f : α → List β) (g : β → List γ) :
    (l.flatMap f).flatMap g = l.flatMap (fun a => (f a).flatMap g) := by
  rw [List.flatMap_assoc]

theorem Chunk.finite_cases (k : Chunk XR) : k.finite = true ∨ k.finite = false := by cases k.finite <;> simp

theorem getGradient_exact (h : Heap XR) (s : Sketch) (hf : ∀ k ∈ s.cons, FiniteCons h (h.cons k)) :
    ((∀ k ∈ s.cons, ¬DegenerateEqLen h (h.cons k)) → ∃ h', GradOnly h h' ∧
      (∀ d ∈ s.dofs, gr h' d = fin (total (s.cons.flatMap (fun k => contribs h (h.cons k))) d)) ∧
      getGradient h s = .ok (s.dofs.map (fun d => fin (total (s.cons.flatMap (fun k => contribs h (h.cons k))) d)), h')) ∧
    ((∃ k ∈ s.cons, DegenerateEqLen h (h.cons k)) → ∃ h', getGradient h s = .error h') := by
  have g0 : GradOnly h (zeroGrads h s) := zeroGrads_gradOnly h s
  obtain ⟨A, B⟩ := foldChunks_exact h (zeroGrads h s) (s.cons.flatMap (fun c => chunks h (h.cons c))) g0
  have ue := updateAll_eq h (zeroGrads h s) s.cons g0
  constructor
  · intro hd
    obtain ⟨h', e, g, hv⟩ := A (by
      intro k hk
      obtain ⟨c, hc, hk⟩ := List.mem_flatMap.1 hk
      exact (hf c hc).real.chunks_finite.1 (hd c hc) k hk)
    have hv' : ∀ d ∈ s.dofs, gr h' d = fin (total (s.cons.flatMap (fun k => contribs h (h.cons k))) d) := by
      intro d hd
      rw [hv d 0 (gr_zeroGrads hd), zero_add, flatMap_flatMap']
      rfl
    have hl : s.cells.flatMap (primGrad h') =
        s.dofs.map (fun d => fin (total (s.cons.flatMap (fun k => contribs h (h.cons k))) d)) := by
      rw [flatMap_primGrad_dofs]
      exact List.map_congr_left hv'
    refine ⟨h', g, hv', ?_⟩
    unfold getGradient
    rw [ue, e]
    dsimp only
    rw [collectGradient_eq, hl, if_pos (by simp)]
  · rintro ⟨c, hc, hd⟩
    obtain ⟨k, hk, hb⟩ := (hf c hc).real.chunks_finite.2 hd
    obtain ⟨h', e⟩ := B ⟨k, List.mem_flatMap.2 ⟨c, hc, hk⟩, hb⟩
    exact ⟨h', by unfold getGradient; rw [ue, e]⟩

theorem jacobianRows_exact (h0 : Heap XR) (s : Sketch) (cs : List Nat) (h : Heap XR) (g : GradOnly h0 h)
    (hf : ∀ k ∈ cs, FiniteCons h0 (h0.cons k)) :
    ((∀ k ∈ cs, ¬DegenerateEqLen h0 (h0.cons k)) → ∃ h', GradOnly h0 h' ∧ jacobianRows s cs h =
      .ok (cs.map (fun k => s.dofs.map (fun d => fin (total (contribs h0 (h0.cons k)) d))), h')) ∧
    ((∃ k ∈ cs, DegenerateEqLen h0 (h0.cons k)) → ∃ h', jacobianRows s cs h = .error h') := by
  induction cs generalizing h with
  | nil => exact ⟨fun _ => ⟨h, g, rfl⟩, by simp⟩
  | cons c cs ih =>
    have g0 : GradOnly h0 (zeroGrads h s) := g.trans (zeroGrads_gradOnly h s)
    have ce : (zeroGrads h s).cons = h0.cons := g0.1.cons
    obtain ⟨A, B⟩ := foldChunks_exact h0 (zeroGrads h s) (chunks h0 (h0.cons c)) g0
    have ue : updateGradient (zeroGrads h s) ((zeroGrads h s).cons c) =
        (chunks h0 (h0.cons c)).foldlM applyChunk (zeroGrads h s) := by
      rw [ce, updateGradient_eq, g0.chunks]
    by_cases hd : DegenerateEqLen h0 (h0.cons c)
    · constructor
      · intro H; exact absurd hd (H c (by simp))
      · intro _
        obtain ⟨k, hk, hb⟩ := (hf c (by simp)).real.chunks_finite.2 hd
        obtain ⟨h', e⟩ := B ⟨k, hk, hb⟩
        exact ⟨h', by unfold jacobianRows; dsimp only; rw [ue, e]⟩
    · obtain ⟨h1, e1, g1, hv⟩ := A ((hf c (by simp)).real.chunks_finite.1 hd)
      have hl : jacobianRow h1 s = s.dofs.map (fun d => fin (total (contribs h0 (h0.cons c)) d)) := by
        rw [jacobianRow_eq, flatMap_primGrad_dofs]
        refine List.map_congr_left fun d hd => ?_
        rw [hv d 0 (gr_zeroGrads hd), zero_add]
        rfl
      obtain ⟨C, D⟩ := ih h1 g1 fun k hk => hf k (by simp [hk])
      constructor
      · intro H
        obtain ⟨h2, g2, e2⟩ := C fun k hk => H k (by simp [hk])
        refine ⟨h2, g2, ?_⟩
        unfold jacobianRows; dsimp only; rw [ue, e1]; dsimp only; rw [e2]; dsimp only; rw [hl]; rfl
      · rintro ⟨k, hk, hb⟩
        rcases List.mem_cons.1 hk with rfl | hk
        · exact absurd hb hd
        · obtain ⟨h2, e2⟩ := D ⟨k, hk, hb⟩
          exact ⟨h2, by unfold jacobianRows; dsimp only; rw [ue, e1]; dsimp only; rw [e2]⟩

/-- the constraints of a closed sketch with finite numbers have finite data -/
theorem FiniteSketch.cons {h : Heap XR} {s : Sketch} (hf : FiniteSketch h s) (hc : Closed ⟨h, s⟩) :
    ∀ k ∈ s.cons, FiniteCons h (h.cons k) := by
  intro k hk
  refine ⟨fun p hp x hx => ?_, hf.2 k hk⟩
  apply hf.1
  rw [getData_eq]
  refine List.mem_flatMap.2 ⟨p, ?_, hx⟩
  unfold consDeps at hp
  rcases List.mem_append.1 hp with hp | hp
  · exact hc.2 k hk p hp
  · obtain ⟨r, hr, hp⟩ := List.mem_flatMap.1 hp
    exact hc.1 r (hc.2 k hk r hr) p hp

/-- contributions of a satisfied constraint vanish -/
theorem RealCons.contribs_zero {h : Heap XR} {c : Constraint XR} (hc : RealCons h c) (hl : lossValue h c = fin 0)
    (hd : ¬DegenerateEqLen h c) : ∀ e ∈ contribs h c, e.2 = 0 := by
  have sq : ∀ r : ℝ, fin (r ^ 2 / 2) = fin 0 → r = 0 := by intro r hr; simpa using hr
  have sm : ∀ r q : ℝ, fin ((r ^ 2 + q ^ 2) / 2) = fin 0 → r = 0 ∧ q = 0 := by
    intro r q hr
    rw [fin.injEq] at hr
    constructor <;> nlinarith [sq_nonneg r, sq_nonneg q]
  unfold contribs
  cases hc with
  | angle e1 e2 e =>
    rw [loss_angle e1 e2 e] at hl
    have hl := sq _ hl
    rw [chunks_angle e1 e2 e]; dsimp only
    split
    · simp
    · rename_i hn
      rw [not_or] at hn
      rw [angleOf, if_neg hn.1] at hl
      have hl' := hl
      rw [mul_comm (hyp _ _), show ∀ a b c d : ℝ, a * c + b * d = c * a + d * b by intros; ring] at hl'
      simp [Chunk.contrib, angleForce, hl, hl']
  | arcEnd e ec ea =>
    rw [loss_arcEnd e (endPoint_fin ec ea)] at hl
    obtain ⟨a, b⟩ := sm _ _ hl
    rw [chunks_arcEnd e ec ea]; simp [Chunk.contrib, a, b]
  | arcStart e ec ea =>
    rw [loss_arcStart e (startPoint_fin ec ea)] at hl
    obtain ⟨a, b⟩ := sm _ _ hl
    rw [chunks_arcStart e ec ea]; simp [Chunk.contrib, a, b]
  | euclid e1 e2 =>
    rw [loss_euclid e1 e2] at hl
    have hl := sq _ hl
    rw [chunks_euclid e1 e2]; dsimp only
    split <;> simp [Chunk.contrib, hl]
  | horizDist e1 e2 =>
    rw [loss_horiz e1 e2] at hl
    have hl := sq _ hl
    rw [chunks_horiz e1 e2]; simp [Chunk.contrib, hl]
  | vertDist e1 e2 =>
    rw [loss_vert e1 e2] at hl
    have hl := sq _ hl
    rw [chunks_vert e1 e2]; simp [Chunk.contrib, hl]
  | fix e =>
    rw [loss_fix e] at hl
    obtain ⟨a, b⟩ := sm _ _ hl
    rw [chunks_fix e]; simp [Chunk.contrib, a, b]
  | @eqLen l m x1 y1 x2 y2 u1 v1 u2 v2 e1 e2 f1 f2 =>
    have k1 : lineStart h l = lineEnd h l ↔ hyp (x2 - x1) (y2 - y1) = 0 := by
      rw [e1, e2, hyp_eq_zero, sub_eq_zero, sub_eq_zero]; simp [eq_comm]
    have k2 : lineStart h m = lineEnd h m ↔ hyp (u2 - u1) (v2 - v1) = 0 := by
      rw [f1, f2, hyp_eq_zero, sub_eq_zero, sub_eq_zero]; simp [eq_comm]
    simp only [DegenerateEqLen, k1, k2, not_or] at hd
    rw [loss_eqLen e1 e2 f1 f2] at hl
    have hl := sq _ hl
    rw [chunks_eqLen e1 e2 f1 f2 hd.1 hd.2]; simp [Chunk.contrib, hl]
  | horizLine e1 e2 =>
    rw [loss_horizLine e1 e2] at hl
    have hl := sq _ hl
    rw [chunks_horizLine e1 e2]; simp [Chunk.contrib, hl]
  | vertLine e1 e2 =>
    rw [loss_vertLine e1 e2] at hl
    have hl := sq _ hl
    rw [chunks_vertLine e1 e2]; simp [Chunk.contrib, hl]
  | @parallel l m x1 y1 x2 y2 u1 v1 u2 v2 e1 e2 f1 f2 =>
    rw [loss_parallel e1 e2 f1 f2] at hl
    have hl := sq _ hl
    rw [chunks_parallel e1 e2 f1 f2]; dsimp only
    split
    · simp
    · rename_i hn
      rw [crossOf, if_neg hn] at hl
      rw [not_or] at hn
      have c1 : (x2 - x1) / hyp (x2 - x1) (y2 - y1) * ((v2 - v1) / hyp (u2 - u1) (v2 - v1)) -
        (y2 - y1) / hyp (x2 - x1) (y2 - y1) * ((u2 - u1) / hyp (u2 - u1) (v2 - v1)) = 0 := by
        rw [← hl]; field_simp
      have c2 : (u2 - u1) / hyp (u2 - u1) (v2 - v1) * ((y2 - y1) / hyp (x2 - x1) (y2 - y1)) -
        (v2 - v1) / hyp (u2 - u1) (v2 - v1) * ((x2 - x1) / hyp (x2 - x1) (y2 - y1)) = 0 := by
        rw [← neg_eq_zero, ← hl]; field_simp; ring
      simp [Chunk.contrib, crossForce, c1, c2]
  | @perp l m x1 y1 x2 y2 u1 v1 u2 v2 e1 e2 f1 f2 =>
    rw [loss_perp e1 e2 f1 f2] at hl
    have hl := sq _ hl
    rw [chunks_perp e1 e2 f1 f2]; dsimp only
    split
    · simp
    · rename_i hn
      rw [dotOf, if_neg hn] at hl
      rw [not_or] at hn
      have c1 : (x2 - x1) / hyp (x2 - x1) (y2 - y1) * ((u2 - u1) / hyp (u2 - u1) (v2 - v1)) +
        (y2 - y1) / hyp (x2 - x1) (y2 - y1) * ((v2 - v1) / hyp (u2 - u1) (v2 - v1)) = 0 := by
        rw [← hl]; field_simp
      have c2 : (u2 - u1) / hyp (u2 - u1) (v2 - v1) * ((x2 - x1) / hyp (x2 - x1) (y2 - y1)) +
        (v2 - v1) / hyp (u2 - u1) (v2 - v1) * ((y2 - y1) / hyp (x2 - x1) (y2 - y1)) = 0 := by
        rw [← hl]; field_simp
      simp [Chunk.contrib, dotForce, c1, c2]

theorem total_zero {l : List (Dof × ℝ)} (hz : ∀ e ∈ l, e.2 = 0) (d : Dof) : total l d = 0 := by
  induction l with
  | nil => rfl
  | cons e l ih =>
    rw [total_cons, ih fun x hx => hz x (by simp [hx]), hz e (by simp)]
    simp

/-! ## Sums of forces -/

/-- sum of all contributions to `x` coordinates -/
def sumX (l : List (Dof × ℝ)) : ℝ := (l.map (fun e => match e.1 with | .px _ => e.2 | _ => 0)).sum
/-- sum of all contributions to `y` coordinates -/
def sumY (l : List (Dof × ℝ)) : ℝ := (l.map (fun e => match e.1 with | .py _ => e.2 | _ => 0)).sum

@[simp] theorem sumX_nil : sumX [] = 0 := rfl
@[simp] theorem sumY_nil : sumY [] = 0 := rfl
@[simp] theorem sumX_cons (e : Dof × ℝ) (l : List (Dof × ℝ)) :
    sumX (e :: l) = (match e.1 with | .px _ => e.2 | _ => 0) + sumX l := by simp [sumX]
@[simp] theorem sumY_cons (e : Dof × ℝ) (l : List (Dof × ℝ)) :
    sumY (e :: l) = (match e.1 with | .py _ => e.2 | _ => 0) + sumY l := by simp [sumY]
@[simp] theorem sumX_append (l l' : List (Dof × ℝ)) : sumX (l ++ l') = sumX l + sumX l' := by simp [sumX]
@[simp] theorem sumY_append (l l' : List (Dof × ℝ)) : sumY (l ++ l') = sumY l + sumY l' := by simp [sumY]

theorem sum_ite_mem (P : List Nat) (hP : P.Nodup) (a : Nat) (r : ℝ) (ha : a ∈ P) :
    (P.map (fun b => if a = b then r else 0)).sum = r := by
  induction P with
  | nil => simp at ha
  | cons b P ih =>
    rw [List.nodup_cons] at hP
    rw [List.map_cons, List.sum_cons]
    by_cases e : a = b
    · subst e
      have : P.map (fun b => if a = b then r else 0) = P.map (fun _ => (0 : ℝ)) :=
        List.map_congr_left fun x hx => by rw [if_neg]; rintro rfl; exact hP.1 hx
      rw [this]; simp
    · rw [if_neg e, zero_add]
      exact ih hP.2 (by simpa [e] using ha)

theorem sum_total_px (P : List Nat) (hP : P.Nodup) (l : List (Dof × ℝ)) (hl : ∀ e ∈ l, ∀ a, e.1 = .px a → a ∈ P) :
    (P.map (fun a => total l (.px a))).sum = sumX l := by
  induction l with
  | nil => simp
  | cons e l ih =>
    simp only [total_cons, sumX_cons, List.sum_map_add, ih fun x hx => hl x (by simp [hx])]
    congr 1
    rcases e with ⟨d, r⟩
    cases d with
    | px a => simpa using sum_ite_mem P hP a r (hl (_, r) (List.mem_cons_self ..) a rfl)
    | _ => simp

theorem sum_total_py (P : List Nat) (hP : P.Nodup) (l : List (Dof × ℝ)) (hl : ∀ e ∈ l, ∀ a, e.1 = .py a → a ∈ P) :
    (P.map (fun a => total l (.py a))).sum = sumY l := by
  induction l with
  | nil => simp
  | cons e l ih =>
    simp only [total_cons, sumY_cons, List.sum_map_add, ih fun x hx => hl x (by simp [hx])]
    congr 1
    rcases e with ⟨d, r⟩
    cases d with
    | py a => simpa using sum_ite_mem P hP a r (hl (_, r) (List.mem_cons_self ..) a rfl)
    | _ => simp

/-- the constraint pins a point to the plane -/
def IsFix : Constraint XR → Prop
  | .fix .. => True
  | _ => False

/-- inner forces balance -/
theorem RealCons.sum_zero {h : Heap XR} {c : Constraint XR} (hc : RealCons h c) (hk : ¬IsFix c)
    (hd : ¬DegenerateEqLen h c) : sumX (contribs h c) = 0 ∧ sumY (contribs h c) = 0 := by
  unfold contribs
  cases hc with
  | angle e1 e2 e =>
    rw [chunks_angle e1 e2 e]; dsimp only
    split
    · simp
    · simp [Chunk.contrib]
  | arcEnd e ec ea => rw [chunks_arcEnd e ec ea]; simp [Chunk.contrib]
  | arcStart e ec ea => rw [chunks_arcStart e ec ea]; simp [Chunk.contrib]
  | euclid e1 e2 => rw [chunks_euclid e1 e2]; dsimp only; split <;> simp [Chunk.contrib]
  | horizDist e1 e2 => rw [chunks_horiz e1 e2]; simp [Chunk.contrib]
  | vertDist e1 e2 => rw [chunks_vert e1 e2]; simp [Chunk.contrib]
  | fix e => exact absurd trivial hk
  | @eqLen l m x1 y1 x2 y2 u1 v1 u2 v2 e1 e2 f1 f2 =>
    have k1 : lineStart h l = lineEnd h l ↔ hyp (x2 - x1) (y2 - y1) = 0 := by
      rw [e1, e2, hyp_eq_zero, sub_eq_zero, sub_eq_zero]; simp [eq_comm]
    have k2 : lineStart h m = lineEnd h m ↔ hyp (u2 - u1) (v2 - v1) = 0 := by
      rw [f1, f2, hyp_eq_zero, sub_eq_zero, sub_eq_zero]; simp [eq_comm]
    simp only [DegenerateEqLen, k1, k2, not_or] at hd
    rw [chunks_eqLen e1 e2 f1 f2 hd.1 hd.2]; simp [Chunk.contrib]
  | horizLine e1 e2 => rw [chunks_horizLine e1 e2]; simp [Chunk.contrib]
  | vertLine e1 e2 => rw [chunks_vertLine e1 e2]; simp [Chunk.contrib]
  | parallel e1 e2 f1 f2 => rw [chunks_parallel e1 e2 f1 f2]; dsimp only; split <;> simp [Chunk.contrib]
  | perp e1 e2 f1 f2 => rw [chunks_perp e1 e2 f1 f2]; dsimp only; split <;> simp [Chunk.contrib]

/-- contributions only go to degrees of freedom of the primitives the constraint looks at -/
theorem contribs_owner {h : Heap XR} {c : Constraint XR} : ∀ e ∈ contribs h c, e.1.owner ∈ consDeps h c := by
  unfold contribs
  intro e he
  obtain ⟨k, hk, he⟩ := List.mem_flatMap.1 he
  cases c with
  | angle p1 p2 mid D =>
    simp only [chunks] at hk
    split at hk
    · simp at hk
    · split at hk
      · simp at hk
      · split at hk
        · simp at hk
        · simp only [List.mem_cons, List.not_mem_nil, or_false] at hk
          rcases hk with rfl | rfl | rfl <;> simp only [Chunk.contrib, List.mem_cons, List.not_mem_nil, or_false] at he <;>
            rcases he with rfl | rfl <;> simp [consDeps, consFields, primFields, Dof.owner]
  | euclid p1 p2 D =>
    simp only [chunks] at hk
    split at hk
    · simp at hk
    · simp only [List.mem_cons, List.not_mem_nil, or_false] at hk
      rcases hk with rfl | rfl <;> simp only [Chunk.contrib, List.mem_cons, List.not_mem_nil, or_false] at he <;>
        rcases he with rfl | rfl <;> simp [consDeps, consFields, primFields, Dof.owner]
  | horizDist p1 p2 D =>
    simp only [chunks, List.mem_cons, List.not_mem_nil, or_false] at hk
    rcases hk with rfl | rfl <;> simp only [Chunk.contrib, List.mem_cons, List.not_mem_nil, or_false] at he <;>
      rcases he with rfl | rfl <;> simp [consDeps, consFields, primFields, Dof.owner]
  | vertDist p1 p2 D =>
    simp only [chunks, List.mem_cons, List.not_mem_nil, or_false] at hk
    rcases hk with rfl | rfl <;> simp only [Chunk.contrib, List.mem_cons, List.not_mem_nil, or_false] at he <;>
      rcases he with rfl | rfl <;> simp [consDeps, consFields, primFields, Dof.owner]
  | fix p D =>
    simp only [chunks, List.mem_cons, List.not_mem_nil, or_false] at hk
    subst hk
    simp only [Chunk.contrib, List.mem_cons, List.not_mem_nil, or_false] at he
    rcases he with rfl | rfl <;> simp [consDeps, consFields, primFields, Dof.owner]
  | arcEnd a p =>
    simp only [chunks, List.mem_cons, List.not_mem_nil, or_false] at hk
    rcases hk with rfl | rfl <;> simp only [Chunk.contrib, List.mem_cons, List.not_mem_nil, or_false] at he
    · rcases he with rfl | rfl | rfl | rfl | rfl <;> simp [consDeps, consFields, primFields, Dof.owner]
    · rcases he with rfl | rfl <;> simp [consDeps, consFields, primFields, Dof.owner]
  | arcStart a p =>
    simp only [chunks, List.mem_cons, List.not_mem_nil, or_false] at hk
    rcases hk with rfl | rfl <;> simp only [Chunk.contrib, List.mem_cons, List.not_mem_nil, or_false] at he
    · rcases he with rfl | rfl | rfl | rfl | rfl <;> simp [consDeps, consFields, primFields, Dof.owner]
    · rcases he with rfl | rfl <;> simp [consDeps, consFields, primFields, Dof.owner]
  | eqLen l m =>
    simp only [chunks, List.mem_cons, List.not_mem_nil, or_false] at hk
    rcases hk with rfl | rfl <;> simp only [Chunk.contrib, List.mem_cons, List.not_mem_nil, or_false] at he <;>
      rcases he with rfl | rfl | rfl | rfl <;> simp [consDeps, consFields, primFields, Dof.owner]
  | horizLine l =>
    simp only [chunks, List.mem_cons, List.not_mem_nil, or_false] at hk
    rcases hk with rfl | rfl <;> simp only [Chunk.contrib, List.mem_cons, List.not_mem_nil, or_false] at he <;>
      rcases he with rfl | rfl | rfl | rfl <;> simp [consDeps, consFields, primFields, Dof.owner]
  | vertLine l =>
    simp only [chunks, List.mem_cons, List.not_mem_nil, or_false] at hk
    rcases hk with rfl | rfl <;> simp only [Chunk.contrib, List.mem_cons, List.not_mem_nil, or_false] at he <;>
      rcases he with rfl | rfl | rfl | rfl <;> simp [consDeps, consFields, primFields, Dof.owner]
  | parallel l m =>
    simp only [chunks] at hk
    split at hk
    · simp at hk
    · simp only [List.mem_cons, List.not_mem_nil, or_false] at hk
      rcases hk with rfl | rfl <;> simp only [Chunk.contrib, List.mem_cons, List.not_mem_nil, or_false] at he <;>
        rcases he with rfl | rfl | rfl | rfl <;> simp [consDeps, consFields, primFields, Dof.owner]
  | perp l m =>
    simp only [chunks] at hk
    split at hk
    · simp at hk
    · simp only [List.mem_cons, List.not_mem_nil, or_false] at hk
      rcases hk with rfl | rfl <;> simp only [Chunk.contrib, List.mem_cons, List.not_mem_nil, or_false] at he <;>
        rcases he with rfl | rfl | rfl | rfl <;> simp [consDeps, consFields, primFields, Dof.owner]

end Isotope
