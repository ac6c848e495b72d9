import Verif.Lemmas.AnyOrder

/-!
# Primitives in any order
-/

namespace Isotope
open XR

/-! ## Vectors and matrices in another order -/

/-- the vector `f` in the order `L` and in the order `L'` -/
def ReorderedV (L L' : List Dof) (v v' : List XR) : Prop := ∃ f : Dof → XR, v = L.map f ∧ v' = L'.map f

variable {L L' : List Dof}

theorem zip_maps {α β γ δ : Type} (l : List α) (f : α → β) (g : α → γ) (k : β → γ → δ) :
    List.zipWith k (l.map f) (l.map g) = l.map (fun x => k (f x) (g x)) := by
  induction l with
  | nil => rfl
  | cons a l ih => simp [ih]

theorem table_getD {α : Type} (l : List α) (f : α → XR) : (List.range l.length).map (fun i => (l.map f).getD i 0.0) = l.map f := by
  refine List.ext_getElem (by simp) fun j h1 h2 => ?_
  simp only [List.length_map] at h2
  simp [h2]

theorem identity_table (hn : L.Nodup) : (identity L.length : List (List XR)) = L.map (fun i => L.map (fun j => if i = j then (1.0 : XR) else 0.0)) := by
  unfold identity
  refine List.ext_getElem (by simp) fun i h1 h2 => ?_
  simp only [List.getElem_map, List.getElem_range]
  refine List.ext_getElem (by simp) fun j h3 h4 => ?_
  simp only [List.getElem_map, List.getElem_range, hn.getElem_inj_iff]

theorem reordered_one (hn : L.Nodup) (p : L.Perm L') : Reordered L L' (identity L.length) (identity L.length) :=
  ⟨fun i j => if i = j then 1.0 else 0.0, identity_table hn, by rw [p.length_eq]; exact identity_table (p.nodup_iff.1 hn)⟩

theorem matVec_table {α β : Type} (l : List α) (k : List β) (m : α → β → XR) (f : β → XR) :
    matVec (l.map (fun i => k.map (m i))) (k.map f) = l.map (fun i => dotL (k.map (m i)) (k.map f)) := by
  unfold matVec
  rw [List.map_map]
  rfl

theorem reordered_dir (p : L.Perm L') {A A' : List (List XR)} {g g' : List XR} (hA : Reordered L L' A A') (hg : ReorderedV L L' g g') :
    ReorderedV L L' (matVec A g) (matVec A' g') := by
  obtain ⟨m, rfl, rfl⟩ := hA
  obtain ⟨f, rfl, rfl⟩ := hg
  refine ⟨fun i => dotL (L.map (m i)) (L.map f), matVec_table .., ?_⟩
  rw [matVec_table]
  exact List.map_congr_left fun i _ => (dotL_perm p _ _).symm

theorem reordered_neg {A A' : List (List XR)} (hA : Reordered L L' A A') : Reordered L L' (matNeg A) (matNeg A') := by
  obtain ⟨m, rfl, rfl⟩ := hA
  refine ⟨fun i j => - m i j, ?_, ?_⟩ <;> simp [matNeg, vneg]

theorem reordered_ger {A A' : List (List XR)} {x x' y y' : List XR} (k : XR) (hA : Reordered L L' A A') (hx : ReorderedV L L' x x')
    (hy : ReorderedV L L' y y') : Reordered L L' (ger A k x y) (ger A' k x' y') := by
  obtain ⟨m, rfl, rfl⟩ := hA
  obtain ⟨f, rfl, rfl⟩ := hx
  obtain ⟨g, rfl, rfl⟩ := hy
  refine ⟨fun i j => (k * g j) * f i + 1.0 * m i j, ?_, ?_⟩ <;> simp only [ger, zip_maps]

theorem reordered_dot (p : L.Perm L') {x x' y y' : List XR} (hx : ReorderedV L L' x x') (hy : ReorderedV L L' y y') : dotV x y = dotV x' y' := by
  obtain ⟨f, rfl, rfl⟩ := hx
  obtain ⟨g, rfl, rfl⟩ := hy
  rw [dotV_eq, dotV_eq]
  exact dotL_perm p _ _

theorem reordered_upd (p : L.Perm L') {A A' : List (List XR)} {st st' y y' : List XR} (hA : Reordered L L' A A')
    (hs : ReorderedV L L' st st') (hy : ReorderedV L L' y y') : Reordered L L' (bfgsUpdate A st y) (bfgsUpdate A' st' y') := by
  have hh := reordered_dir p hA hy
  have e : guardedSy st y = guardedSy st' y' := by unfold guardedSy; rw [reordered_dot p hs hy]
  unfold bfgsUpdate
  dsimp only
  rw [e, reordered_dot p hy hh]
  exact reordered_ger _ (reordered_ger _ (reordered_ger _ hA hs hs) hh hs) hs hh

theorem fmax_fin_right (a : XR) (b : ℝ) : fmax a (fin b) = match a with | .fin a => fin (max a b) | .pinf => .pinf | _ => fin b := by
  unfold fmax
  cases a with
  | fin a =>
    by_cases h : a < b
    · have : (fin a <. fin b) = true := by rw [lt_fin]; simpa using h
      simp [this, max_eq_right h.le]
    · have : (fin a <. fin b) = false := by rw [lt_fin]; simpa using h
      have e : (fin a ==. fin a) = true := by rw [eq_fin]; simp
      simp [this, e, max_eq_left (not_lt.1 h)]
  | pinf => rfl
  | ninf => rfl
  | nan => rfl

theorem fmax_comm3 (z : XR) (a b : ℝ) : fmax (fmax z (fin a)) (fin b) = fmax (fmax z (fin b)) (fin a) := by
  cases z with
  | fin z => simp only [fmax_fin_right]; rw [max_assoc, max_comm a, ← max_assoc]
  | pinf => simp only [fmax_fin_right]
  | ninf => simp only [fmax_fin_right]; rw [max_comm]
  | nan => simp only [fmax_fin_right]; rw [max_comm]

theorem uniformNorm_perm {l l' : List XR} (p : l.Perm l') (hf : l.all Num.isFinite = true) : uniformNorm l = uniformNorm l' := by
  unfold uniformNorm
  refine p.foldl_eq' (fun x hx y hy z => ?_) _
  obtain ⟨a, rfl⟩ := (isFinite_iff x).1 (List.all_eq_true.1 hf x hx)
  obtain ⟨b, rfl⟩ := (isFinite_iff y).1 (List.all_eq_true.1 hf y hy)
  exact fmax_comm3 _ _ _

theorem reordered_perm (p : L.Perm L') {v v' : List XR} (h : ReorderedV L L' v v') : v.Perm v' := by
  obtain ⟨f, rfl, rfl⟩ := h
  exact p.map f

theorem reorderedV_map (k : XR → XR) {v v' : List XR} (h : ReorderedV L L' v v') : ReorderedV L L' (v.map k) (v'.map k) := by
  obtain ⟨f, rfl, rfl⟩ := h
  exact ⟨fun i => k (f i), by rw [List.map_map]; rfl, by rw [List.map_map]; rfl⟩

theorem reorderedV_zip (k : XR → XR → XR) {v v' w w' : List XR} (h : ReorderedV L L' v v') (hw : ReorderedV L L' w w') :
    ReorderedV L L' (List.zipWith k v w) (List.zipWith k v' w') := by
  obtain ⟨f, rfl, rfl⟩ := h
  obtain ⟨g, rfl, rfl⟩ := hw
  exact ⟨fun i => k (f i) (g i), zip_maps .., zip_maps ..⟩

/-! ## Sketches -/

variable {s s' : Sketch} (hc : s.cells.Perm s'.cells)
include hc

theorem dofs_perm : s.dofs.Perm s'.dofs := hc.flatMap_right _

omit hc in
theorem reorder_data {h h' : Heap XR} (g : GradOnly h h') : ReorderedV s.dofs s'.dofs (getData h s) (getData h' s') :=
  ⟨val h, getData_dofs .., by rw [getData_dofs]; exact List.map_congr_left fun d _ => g.val d⟩

theorem reorder_set (hn : s.cells.Nodup) {h h' : Heap XR} (g : GradOnly h h') {d d' : List XR} (hd : ReorderedV s.dofs s'.dofs d d') :
    BothE GradOnly (MovesOnly s) (setData h s d) (setData h' s' d') := by
  have moved : ∀ {h1 h1' : Heap XR}, MovesOnly s h h1 → MovesOnly s' h' h1' → MovesOnly s h1 h1' := by
    intro h1 h1' m m'
    refine ⟨m.1.symm.trans (g.1.trans m'.1), fun c k => ?_⟩
    rw [m.2 c k, m'.2 c (fun k' => k (hc.mem_iff.2 k')), g.2 c]
  have hp := (reordered_perm (dofs_perm hc) hd).all_eq (f := Num.isFinite)
  obtain ⟨f, rfl, rfl⟩ := hd
  have l1 : (s.dofs.map f).length = getNDofs h s := by rw [← getData_length, getData_dofs, List.length_map, List.length_map]
  have l2 : (s'.dofs.map f).length = getNDofs h' s' := by rw [← getData_length, getData_dofs, List.length_map, List.length_map]
  have P := setData_dataOnly h s (s.dofs.map f)
  have P' := setData_dataOnly h' s' (s'.dofs.map f)
  unfold setData at P P' ⊢
  rw [if_pos l1] at P ⊢
  rw [if_pos l2] at P' ⊢
  cases hf : (s.dofs.map f).all Num.isFinite with
  | true =>
    obtain ⟨h1, e1, a1, b1⟩ := setDataLoop_ok (s.dofs.map f) s.prims 0 h hn (by rw [List.drop_zero, l1, getNDofs_eq]; rfl) hf
    obtain ⟨h2, e2, a2, b2⟩ := setDataLoop_ok (s'.dofs.map f) s'.prims 0 h' (hc.nodup_iff.1 hn) (by rw [List.drop_zero, l2, getNDofs_eq]; rfl)
      (by rw [List.drop_zero, ← hp]; exact hf)
    rw [e1] at P ⊢
    rw [e2] at P' ⊢
    refine .ok (gradOnly_of_val (P.1.symm.trans (g.1.trans P'.1)) fun d => ?_)
    have v1 : s.dofs.map (val h1) = s.dofs.map f := by rw [← getData_dofs, getData_eq]; exact a1
    have v2 : s'.dofs.map (val h2) = s'.dofs.map f := by rw [← getData_dofs, getData_eq]; exact a2
    by_cases m : d ∈ s.dofs
    · rw [List.map_inj_left.1 v1 d m, List.map_inj_left.1 v2 d ((dofs_perm hc).mem_iff.1 m)]
    · have o : d.owner ∉ s.cells := fun k => m (mem_sketch_dofs.2 k)
      have q1 := b1 d.owner o
      have q2 := b2 d.owner (fun k => o (hc.mem_iff.2 k))
      rw [primData_dofs, primData_dofs] at q1 q2
      rw [List.map_inj_left.1 q1 d (mem_dofs_owner d), List.map_inj_left.1 q2 d (mem_dofs_owner d), g.val]
  | false =>
    obtain ⟨-, -, -, h1, -, e1, -⟩ := setDataLoop_panic (s.dofs.map f) s.prims 0 h hn (by rw [List.drop_zero, l1, getNDofs_eq]; rfl) hf
    obtain ⟨-, -, -, h2, -, e2, -⟩ := setDataLoop_panic (s'.dofs.map f) s'.prims 0 h' (hc.nodup_iff.1 hn)
      (by rw [List.drop_zero, l2, getNDofs_eq]; rfl) (by rw [List.drop_zero, ← hp]; exact hf)
    rw [e1] at P ⊢
    rw [e2] at P' ⊢
    exact .error (moved P.moves P'.moves)

theorem zero_reorder {h h' : Heap XR} (g : GradOnly h h') : Agree (fun c => c ∈ s.cells) (zeroGrads h s) (zeroGrads h' s') := by
  refine ⟨(zeroGrads_gradOnly h s).symm.trans (g.trans (zeroGrads_gradOnly h' s')), fun c k => ?_⟩
  rw [zeroGrads_grad, zeroGrads_grad, if_pos k, if_pos (hc.mem_iff.1 k), primData_length h h']

theorem collect_reorder {h h' : Heap XR} (a : Agree (fun c => c ∈ s.cells) h h') :
    (collectGradient h s = none ∧ collectGradient h' s' = none) ∨
    ∃ v v', collectGradient h s = some v ∧ collectGradient h' s' = some v' ∧ ReorderedV s.dofs s'.dofs v v' := by
  have r : ReorderedV s.dofs s'.dofs (s.cells.flatMap (primGrad h)) (s'.cells.flatMap (primGrad h')) := by
    refine ⟨gr h, ?_, ?_⟩
    · rw [Sketch.dofs, List.map_flatMap]; exact flatMap_congr_mem fun c _ => primGrad_dofs h c
    · rw [Sketch.dofs, List.map_flatMap]
      exact flatMap_congr_mem fun c k => by rw [a.2 c (hc.mem_iff.2 k), primGrad_dofs]
  rw [collectGradient_eq, collectGradient_eq, (reordered_perm (dofs_perm hc) r).all_eq]
  by_cases w : (s'.cells.flatMap (primGrad h')).all Num.isFinite = true
  · rw [if_pos w, if_pos w]; exact .inr ⟨_, _, rfl, rfl, r⟩
  · rw [if_neg w, if_neg w]; exact .inl ⟨rfl, rfl⟩

theorem gradient_reorder (hk : s.cons.Perm s'.cons) {h h' : Heap XR} (g : GradOnly h h') :
    BothG GradOnly (MovesOnly s) (ReorderedV s.dofs s'.dofs) (getGradient h s) (getGradient h' s') := by
  have a := (zero_reorder hc g).1
  have u := updateAll_eq (zeroGrads h s) (zeroGrads h s) s.cons (.refl _)
  have u' := updateAll_eq (zeroGrads h s) (zeroGrads h' s') s'.cons a
  unfold getGradient
  rw [u, u']
  have pc : (s.cons.flatMap (fun c => chunks (zeroGrads h s) ((zeroGrads h s).cons c))).Perm
      (s'.cons.flatMap (fun c => chunks (zeroGrads h s) ((zeroGrads h s).cons c))) := hk.flatMap_right _
  generalize s.cons.flatMap (fun c => chunks (zeroGrads h s) ((zeroGrads h s).cons c)) = K at *
  generalize s'.cons.flatMap (fun c => chunks (zeroGrads h s) ((zeroGrads h s).cons c)) = K' at *
  obtain ⟨A, B⟩ := foldChunks_exact (zeroGrads h s) (zeroGrads h s) K (.refl _)
  obtain ⟨A', B'⟩ := foldChunks_exact (zeroGrads h s) (zeroGrads h' s') K' a
  have P := foldChunks_gradOnly (zeroGrads h s) (zeroGrads h s) K (.refl _)
  have P' := foldChunks_gradOnly (zeroGrads h s) (zeroGrads h' s') K' a
  by_cases hf : ∀ k ∈ K, k.finite = true
  · obtain ⟨h1, e1, g1, d1⟩ := A hf
    obtain ⟨h2, e2, g2, d2⟩ := A' fun k hk => hf k (pc.mem_iff.2 hk)
    rw [e1, e2]
    have ag : Agree (fun c => c ∈ s.cells) h1 h2 := by
      refine ⟨g1.symm.trans g2, fun c k => ?_⟩
      rw [primGrad_dofs, primGrad_dofs]
      refine List.map_congr_left fun d hd => ?_
      rw [d1 d 0 (gr_zero h s k hd), d2 d 0 (gr_zero h' s' (hc.mem_iff.1 k) hd), total_perm (pc.flatMap_right _)]
    dsimp only
    rcases collect_reorder hc ag with ⟨q, q'⟩ | ⟨v, v', q, q', r⟩
    · rw [q, q']; exact .error ag.1.moves
    · rw [q, q']; exact .ok r ag.1
  · have : ∃ k ∈ K, k.finite = false := by
      by_contra w
      exact hf fun k hk => by
        cases e : k.finite with
        | true => rfl
        | false => exact absurd ⟨k, hk, e⟩ w
    obtain ⟨h1, e1⟩ := B this
    obtain ⟨k, hk, e⟩ := this
    obtain ⟨h2, e2⟩ := B' ⟨k, pc.mem_iff.1 hk, e⟩
    rw [e1] at P ⊢
    rw [e2] at P' ⊢
    exact .error (P.symm.trans P').moves

omit hc in
theorem loss_reorder (hk : s.cons.Perm s'.cons) {h h' : Heap XR} (g : GradOnly h h') : getLoss h s = getLoss h' s' := by
  rw [g.getLoss, getLoss_sum, getLoss_sum]
  exact sum_perm (hk.map _) _

theorem alike_reorder (hn : s.cells.Nodup) (hk : s.cons.Perm s'.cons) :
    AlikeM s s' GradOnly (MovesOnly s) (ReorderedV s.dofs s'.dofs) (ReorderedV s.dofs s'.dofs) (Reordered s.dofs s'.dofs)
      (fun _ => True) s.dofs.length s.dofs.length where
  first := trivial
  shorter := fun _ => trivial
  longer := fun _ => trivial
  imp := fun g => g.moves
  data := fun g => reorder_data g
  set := fun g hd => reorder_set hc hn g hd
  loss := fun g => loss_reorder hk g
  grad := fun g => gradient_reorder hc hk g
  dot := fun a b => reordered_dot (dofs_perm hc) a b
  neg := fun a => reorderedV_map _ a
  add := fun _ _ a b => reorderedV_zip _ a (reorderedV_map _ b)
  axpy := fun _ _ a b => reorderedV_zip _ a b
  one := reordered_one (Sketch.dofs_nodup hn) (dofs_perm hc)
  dir := fun a b => reordered_dir (dofs_perm hc) (reordered_neg a) b
  upd := fun a b c => reordered_upd (dofs_perm hc) a b c
  fin := fun a => (reordered_perm (dofs_perm hc) a).all_eq
  norm := fun a b => uniformNorm_perm (reordered_perm (dofs_perm hc) a) b
  scale := fun _ _ a => reorderedV_map _ a
  sub := fun a b => reorderedV_zip _ a b

/-! ## Jacobians -/

omit hc

theorem transpose_table {α β : Type} (cs : List α) (l : List β) (ρ : α → β → XR) :
    transpose l.length (cs.map (fun c => l.map (ρ c))) = l.map (fun d => cs.map (fun c => ρ c d)) := by
  unfold transpose
  refine List.ext_getElem (by simp) fun j h1 h2 => ?_
  simp only [List.length_map] at h2
  simp [h2]

theorem matMul_table {α β : Type} (cs : List α) (l : List β) (ρ : α → β → XR) (A : List (List XR)) :
    matMul l.length A (cs.map (fun c => l.map (ρ c))) = A.map (fun row => l.map (fun d => dotL row (cs.map (fun c => ρ c d)))) := by
  unfold matMul
  refine List.map_congr_left fun row _ => ?_
  refine List.ext_getElem (by simp) fun j h1 h2 => ?_
  simp only [List.length_map] at h2
  simp [h2, Function.comp_def]

theorem gn_table {α : Type} (cs : List α) (l : List Dof) (ρ : α → Dof → XR) :
    gnNormal l.length (cs.map (fun c => l.map (ρ c))) =
      l.map (fun d => l.map (fun e => dotL (cs.map (fun c => ρ c d)) (cs.map (fun c => ρ c e)))) := by
  unfold gnNormal
  rw [transpose_table, matMul_table, List.map_map]
  rfl

theorem gn_reorder {α : Type} (p : L.Perm L') {cs cs' : List α} (q : cs.Perm cs') (ρ : α → Dof → XR) :
    Reordered L L' (gnNormal L.length (cs.map (fun c => L.map (ρ c)))) (gnNormal L.length (cs'.map (fun c => L'.map (ρ c)))) := by
  refine ⟨fun d e => dotL (cs.map (fun c => ρ c d)) (cs.map (fun c => ρ c e)), gn_table .., ?_⟩
  rw [p.length_eq, gn_table]
  exact List.map_congr_left fun d _ => List.map_congr_left fun e _ => (dotL_perm q _ _).symm

theorem lm_reorder {α : Type} (hn : L.Nodup) (p : L.Perm L') {cs cs' : List α} (q : cs.Perm cs') (ρ : α → Dof → XR) (β : XR) :
    Reordered L L' (lmNormal β L.length (cs.map (fun c => L.map (ρ c)))) (lmNormal β L.length (cs'.map (fun c => L'.map (ρ c)))) := by
  obtain ⟨m, e, e'⟩ := gn_reorder p q ρ
  obtain ⟨i, o, o'⟩ := reordered_one hn p
  unfold gnNormal at e e'
  unfold lmNormal
  rw [e, e']
  refine ⟨fun d e => m d e + β * i d e, ?_, ?_⟩
  · rw [o]; simp only [matAdd, matScale, vscale, vadd, List.map_map, zip_maps, Function.comp_def]
  · rw [o']; simp only [matAdd, matScale, vscale, vadd, List.map_map, zip_maps, Function.comp_def]

theorem step_table {α : Type} (cs : List α) (l : List Dof) (ρ : α → Dof → XR) (p : Dof → Dof → XR) (lo : α → XR) :
    matVec (matMul (cs.map (fun c => l.map (ρ c))).length (l.map (fun i => l.map (p i))) (transpose l.length (cs.map (fun c => l.map (ρ c)))))
      (cs.map lo) = l.map (fun i => dotL (cs.map (fun c => dotL (l.map (p i)) (l.map (ρ c)))) (cs.map lo)) := by
  rw [matMul_columns cs (fun c => l.map (ρ c))]
  simp only [table_getD, List.map_map, matVec]
  rfl

/-- the gradient of one constraint -/
noncomputable def rowFn (h : Heap XR) (s : Sketch) (c : Nat) : Dof → XR :=
  match updateGradient (zeroGrads h s) (h.cons c) with
  | .ok h1 => gr h1
  | .error _ => fun _ => fin 0

theorem rowFn_fin {h : Heap XR} {s : Sketch} {c : Nat} (w : rowOk h s c = true) {d : Dof} (hd : d ∈ s.dofs) : ∃ x, rowFn h s c d = fin x := by
  unfold rowOk at w
  unfold rowFn
  have hz : gr (zeroGrads h s) d = fin 0 := gr_zero h s (mem_sketch_dofs.1 hd) (mem_dofs_owner d)
  rw [updateGradient_eq] at *
  obtain ⟨A, B⟩ := foldChunks_exact (zeroGrads h s) (zeroGrads h s) (chunks (zeroGrads h s) (h.cons c)) (.refl _)
  by_cases hf : ∀ k ∈ chunks (zeroGrads h s) (h.cons c), k.finite = true
  · obtain ⟨h1, e1, -, d1⟩ := A hf
    rw [e1]
    exact ⟨_, d1 d 0 hz⟩
  · have : ∃ k ∈ chunks (zeroGrads h s) (h.cons c), k.finite = false := by
      by_contra w
      exact hf fun k hk => by
        cases e : k.finite with
        | true => rfl
        | false => exact absurd ⟨k, hk, e⟩ w
    obtain ⟨h1, e1⟩ := B this
    rw [e1] at w
    exact absurd w (by simp)

include hc

theorem row_reorder {h h' : Heap XR} (g : GradOnly h h') (c : Nat) :
    rowOk h' s' c = rowOk h s c ∧
    (rowOk h s c = true → rowOf h s c = s.dofs.map (rowFn h s c) ∧ rowOf h' s' c = s'.dofs.map (rowFn h s c)) := by
  have a := zero_reorder hc g
  have u : AgreeE (fun c => c ∈ s.cells) (updateGradient (zeroGrads h s) (h.cons c)) (updateGradient (zeroGrads h' s') (h'.cons c)) := by
    rw [updateGradient_eq, updateGradient_eq, g.1.cons, a.1.chunks]
    exact foldChunks_agree _ a
  unfold rowOk rowOf rowFn
  generalize updateGradient (zeroGrads h s) (h.cons c) = e at u
  generalize updateGradient (zeroGrads h' s') (h'.cons c) = e' at u
  cases e with
  | error h1 =>
    cases e' with
    | error h2 => exact ⟨rfl, fun w => absurd w (by simp)⟩
    | ok h2 => exact u.elim
  | ok h1 =>
    cases e' with
    | error h2 => exact u.elim
    | ok h2 =>
      refine ⟨rfl, fun _ => ?_⟩
      dsimp only
      rw [jacobianRow_eq, jacobianRow_eq, Sketch.dofs, Sketch.dofs, List.map_flatMap, List.map_flatMap]
      exact ⟨flatMap_congr_mem fun c _ => primGrad_dofs h1 c,
        flatMap_congr_mem fun c k => by rw [u.2 c (hc.mem_iff.2 k), primGrad_dofs]⟩

theorem newton_reorder (hn : s.cells.Nodup) (hk : s.cons.Perm s'.cons) {pinv : PInv XR}
    (normal : Nat → List (List XR) → List (List XR)) (eps : XR)
    (hp : ∀ ρ : Nat → Dof → XR, (∀ c ∈ s.cons, ∀ d ∈ s.dofs, ∃ x, ρ c d = fin x) →
      SamePInv s.dofs s'.dofs (pinv (normal s.dofs.length (s.cons.map (fun c => s.dofs.map (ρ c)))) eps)
        (pinv (normal s.dofs.length (s'.cons.map (fun c => s'.dofs.map (ρ c)))) eps)) :
    AlikeN s s' GradOnly (MovesOnly s) (ReorderedV s.dofs s'.dofs) (ReorderedV s.dofs s'.dofs) (fun _ => True) pinv eps normal
      s.dofs.length s.dofs.length where
  toAlike := (alike_reorder hc hn hk).toAlike
  length := fun {h h'} _ => by
    rw [getData_dofs, getData_dofs, List.length_map, List.length_map]
    exact ⟨rfl, (dofs_perm hc).length_eq.symm⟩
  sub := fun _ _ a b => reorderedV_zip _ a (reorderedV_map _ b)
  losses := fun {h h'} g => (getLoss_sum h s).symm.trans ((loss_reorder hk g).trans (getLoss_sum ..))
  jac := by
    intro h h' g
    obtain ⟨h1, g1, e1⟩ := jacobianRows_eq s s.cons h h (.refl h)
    obtain ⟨h2, g2, e2⟩ := jacobianRows_eq s' s'.cons h' h' (.refl h')
    unfold getJacobian
    rw [e1, e2]
    have ea : s'.cons.all (rowOk h' s') = s.cons.all (rowOk h s) := by
      rw [hk.all_eq, show rowOk h' s' = rowOk h s from funext fun c => (row_reorder hc g c).1]
    rw [ea]
    by_cases w : s.cons.all (rowOk h s) = true
    · rw [if_pos w, if_pos w]
      refine .ok ?_ (g1.symm.trans (g.trans g2))
      have w' := List.all_eq_true.1 w
      have r1 : s.cons.map (rowOf h s) = s.cons.map (fun c => s.dofs.map (rowFn h s c)) :=
        List.map_congr_left fun c k => ((row_reorder hc g c).2 (w' c k)).1
      have r2 : s'.cons.map (rowOf h' s') = s'.cons.map (fun c => s'.dofs.map (rowFn h s c)) :=
        List.map_congr_left fun c k => ((row_reorder hc g c).2 (w' c (hk.mem_iff.2 k))).2
      rw [r1, r2, g.lossPer s']
      have q := hp (rowFn h s) fun c k d hd => rowFn_fin (w' c k) hd
      generalize pinv (normal s.dofs.length (s.cons.map _)) eps = x at q
      generalize pinv (normal s.dofs.length (s'.cons.map _)) eps = x' at q
      cases x with
      | panic =>
        cases x' with
        | panic => trivial
        | err => exact q.elim
        | ok _ => exact q.elim
      | err =>
        cases x' with
        | panic => exact q.elim
        | err => trivial
        | ok _ => exact q.elim
      | ok P =>
        cases x' with
        | panic => exact q.elim
        | err => exact q.elim
        | ok P' =>
          obtain ⟨p, rfl, rfl⟩ := q
          dsimp only
          refine ⟨_, step_table s.cons s.dofs (rowFn h s) p (fun c => lossValue h (h.cons c)), ?_⟩
          rw [(dofs_perm hc).length_eq]
          refine (step_table s'.cons s'.dofs (rowFn h s) p (fun c => lossValue h (h.cons c))).trans ?_
          refine List.map_congr_left fun i _ => ?_
          rw [← dotL_perm hk]
          congr 1
          exact List.map_congr_left fun c _ => (dotL_perm (dofs_perm hc) _ _).symm
    · rw [if_neg w, if_neg w]
      exact .error (g1.symm.trans (g.trans g2)).moves

end Isotope
