import Verif.Lemmas.TurnMat

/-!
# Turning a sketch: runs of the solvers
-/

namespace Isotope
open XR
open Matrix

variable (t : Turn) {h h1 h' : Heap XR} {s : Sketch}

/-! ## The turned heap -/

theorem turn_sameRefs (r : SameRefs h h1) : SameRefs (h.turn t) (h1.turn t) where
  lines := r.lines
  cons := by show (fun k => (h1.cons k).turn t) = _; rw [r.cons]; rfl
  arcCenter := r.arcCenter
  arcClockwise := fun a => by show ((h1.arcs a).clockwise ^^ t.mirror) = _; rw [r.arcClockwise]; rfl
  circleCenter := r.circleCenter
  nPoints := r.nPoints
  nLines := r.nLines
  nArcs := r.nArcs
  nCircles := r.nCircles
  nCons := r.nCons

/-- what is added to the angles of arcs -/
noncomputable def Turn.shift (t : Turn) : Dof → ℝ
  | .as _ => t.angle
  | .ae _ => t.angle
  | _ => 0

theorem turn_val {f : Dof → ℝ} {d : Dof} (e : ∀ a, a.owner = d.owner → val h a = fin (f a)) :
    val (h.turn t) d = fin (t.lin f d + t.shift d) := by
  cases d with
  | px p =>
    have e1 := e (.px p) rfl
    have e2 := e (.py p) rfl
    simp only [val] at e1 e2
    simp only [val, Heap.turn, Turn.vec, Turn.lin, Turn.shift, e1, e2, mul_fin, sub_fin, add_zero]
  | py p =>
    have e1 := e (.px p) rfl
    have e2 := e (.py p) rfl
    simp only [val] at e1 e2
    simp only [val, Heap.turn, Turn.vec, Turn.lin, Turn.shift, e1, e2, mul_fin, add_fin, add_zero]
  | ar a => have e1 := e (.ar a) rfl; simp only [val] at e1; simp only [val, Heap.turn, Turn.lin, Turn.shift, e1, add_zero]
  | as a => have e1 := e (.as a) rfl; simp only [val] at e1; simp only [val, Heap.turn, Turn.lin, Turn.shift, Turn.dir, e1, mul_fin, add_fin]
  | ae a => have e1 := e (.ae a) rfl; simp only [val] at e1; simp only [val, Heap.turn, Turn.lin, Turn.shift, Turn.dir, e1, mul_fin, add_fin]
  | cr a => have e1 := e (.cr a) rfl; simp only [val] at e1; simp only [val, Heap.turn, Turn.lin, Turn.shift, e1, add_zero]

theorem turn_val_congr {d : Dof} (e : ∀ a, a.owner = d.owner → val h1 a = val h a) : val (h1.turn t) d = val (h.turn t) d := by
  cases d with
  | px p =>
    have e1 := e (.px p) rfl
    have e2 := e (.py p) rfl
    simp only [val] at e1 e2
    simp only [val, Heap.turn, Turn.vec, e1, e2]
  | py p =>
    have e1 := e (.px p) rfl
    have e2 := e (.py p) rfl
    simp only [val] at e1 e2
    simp only [val, Heap.turn, Turn.vec, e1, e2]
  | ar a => have e1 := e (.ar a) rfl; simp only [val] at e1; simp only [val, Heap.turn, e1]
  | as a => have e1 := e (.as a) rfl; simp only [val] at e1; simp only [val, Heap.turn, e1]
  | ae a => have e1 := e (.ae a) rfl; simp only [val] at e1; simp only [val, Heap.turn, e1]
  | cr a => have e1 := e (.cr a) rfl; simp only [val] at e1; simp only [val, Heap.turn, e1]

theorem turn_gradOnly (g : GradOnly h h1) : GradOnly (h.turn t) (h1.turn t) :=
  gradOnly_of_val (turn_sameRefs t g.1) fun _ => turn_val_congr t fun a _ => g.val a

theorem turn_fields (c : Constraint XR) : consFields (c.turn t) = consFields c := by
  by_cases hs : t.s = 0
  · cases c <;> simp [Constraint.turn, consFields, hs]
  · cases c <;> simp [Constraint.turn, consFields, hs]

theorem turn_primFields (c : PrimCell) : primFields (h.turn t) c = primFields h c := by cases c <;> rfl

theorem turn_closed (hc : Closed ⟨h, s⟩) : Closed ⟨h.turn t, s⟩ := by
  refine ⟨fun c k r hr => hc.1 c k r ?_, fun k hk r hr => hc.2 k hk r ?_⟩
  · rwa [turn_primFields] at hr
  · rwa [← turn_fields t]

theorem turn_params {c : Constraint XR} (hp : ∀ x ∈ consParams c, Num.isFinite x = true) :
    ∀ x ∈ consParams (c.turn t), Num.isFinite x = true := by
  have mul : ∀ (r : ℝ) (x : XR), Num.isFinite x = true → Num.isFinite (fin r * x) = true := by
    intro r x hx
    obtain ⟨y, rfl⟩ := (isFinite_iff _).1 hx
    rw [mul_fin]; rfl
  cases c with
  | fix p d =>
    obtain ⟨x, y⟩ := d
    obtain ⟨x, rfl⟩ := (isFinite_iff _).1 (hp x (by simp [consParams]))
    obtain ⟨y, rfl⟩ := (isFinite_iff _).1 (hp y (by simp [consParams]))
    simp only [Constraint.turn, Turn.vec_fin, consParams, List.mem_cons, List.not_mem_nil, or_false]
    rintro _ (rfl | rfl) <;> rfl
  | horizDist p q d =>
    have := hp d (by simp [consParams])
    simp only [Constraint.turn]
    split <;> simp only [consParams, List.mem_singleton] <;> rintro _ rfl <;> exact mul _ _ this
  | vertDist p q d =>
    have := hp d (by simp [consParams])
    simp only [Constraint.turn]
    split <;> simp only [consParams, List.mem_singleton] <;> rintro _ rfl <;> exact mul _ _ this
  | horizLine l => simp only [Constraint.turn]; split <;> simp [consParams]
  | vertLine l => simp only [Constraint.turn]; split <;> simp [consParams]
  | _ => exact hp

/-- the coordinates of a sketch with finite data -/
theorem FiniteSketch.fn (hf : FiniteSketch h s) : ∃ f : Dof → ℝ, ∀ d ∈ s.dofs, val h d = fin (f d) := by
  refine ⟨fun d => (val h d).toReal, fun d hd => ?_⟩
  obtain ⟨x, e⟩ := (isFinite_iff _).1 (hf.1 (val h d) (by rw [getData_dofs]; exact List.mem_map_of_mem hd))
  show val h d = fin (val h d).toReal
  rw [e, toReal_fin]

theorem turn_vals {f : Dof → ℝ} (e : ∀ d ∈ s.dofs, val h d = fin (f d)) {d : Dof} (hd : d ∈ s.dofs) :
    val (h.turn t) d = fin (t.lin f d + t.shift d) :=
  turn_val t fun a ha => e a (partner_mem hd ha)

theorem turn_finite (hf : FiniteSketch h s) : FiniteSketch (h.turn t) s := by
  refine ⟨fun x hx => ?_, fun k hk => turn_params t (hf.2 k hk)⟩
  obtain ⟨f, e⟩ := hf.fn
  rw [getData_dofs] at hx
  obtain ⟨d, hd, rfl⟩ := List.mem_map.1 hx
  rw [turn_vals t e hd]; rfl

/-! ## Contributions -/

theorem chunk_total {k : Chunk XR} (hk : k.finite = true) (d : Dof) :
    total ((k.turn t).contrib (h.turn t)) d = t.lin (total (k.contrib h)) d := by
  cases k with
  | point a g =>
    obtain ⟨x, y⟩ := g
    simp only [Chunk.finite, Vec2.allFinite, Bool.and_eq_true] at hk
    obtain ⟨x, rfl⟩ := (isFinite_iff _).1 hk.1
    obtain ⟨y, rfl⟩ := (isFinite_iff _).1 hk.2
    rw [chunk_point]
    cases d <;> simp [Chunk.contrib, Turn.lin, Turn.u, Turn.v] <;> split <;> simp
  | line a g =>
    obtain ⟨x, y, z, w⟩ := g
    simp only [Chunk.finite, Row4.allFinite, Bool.and_eq_true] at hk
    obtain ⟨x, rfl⟩ := (isFinite_iff _).1 hk.1.1.1
    obtain ⟨y, rfl⟩ := (isFinite_iff _).1 hk.1.1.2
    obtain ⟨z, rfl⟩ := (isFinite_iff _).1 hk.1.2
    obtain ⟨w, rfl⟩ := (isFinite_iff _).1 hk.2
    rw [chunk_line]
    have e : (h.turn t).lines = h.lines := rfl
    cases d <;> simp [Chunk.contrib, Turn.lin, Turn.u, Turn.v, e] <;> split <;> split <;> (try simp) <;> ring
  | arc a g =>
    obtain ⟨x, y, z, w, v⟩ := g
    simp only [Chunk.finite, Row5.allFinite, Bool.and_eq_true] at hk
    obtain ⟨x, rfl⟩ := (isFinite_iff _).1 hk.1.1.1.1
    obtain ⟨y, rfl⟩ := (isFinite_iff _).1 hk.1.1.1.2
    obtain ⟨z, rfl⟩ := (isFinite_iff _).1 hk.1.1.2
    obtain ⟨w, rfl⟩ := (isFinite_iff _).1 hk.1.2
    obtain ⟨v, rfl⟩ := (isFinite_iff _).1 hk.2
    rw [chunk_arc]
    have e : ((h.turn t).arcs a).center = (h.arcs a).center := rfl
    cases d <;> simp [Chunk.contrib, Turn.lin, Turn.u, Turn.v, e] <;> split <;> simp

theorem chunks_total {ks : List (Chunk XR)} (hk : ∀ k ∈ ks, k.finite = true) (d : Dof) :
    total ((ks.map (Chunk.turn t)).flatMap (Chunk.contrib (h.turn t))) d = t.lin (total (ks.flatMap (Chunk.contrib h))) d := by
  induction ks with
  | nil => exact (t.lin_zero d).symm
  | cons k ks ih =>
    have : total ((k :: ks).flatMap (Chunk.contrib h)) = fun a => total (k.contrib h) a + total (ks.flatMap (Chunk.contrib h)) a := by
      funext a; rw [List.flatMap_cons, total_append]
    rw [this, t.lin_add, List.map_cons, List.flatMap_cons, total_append, chunk_total t (hk k (by simp)), ih fun k m => hk k (by simp [m])]

theorem turn_contribs {c : Constraint XR} (hc : RealCons h c) (ht : Turnable t c) (hd : ¬DegenerateEqLen h c) (d : Dof) :
    total (contribs (h.turn t) (c.turn t)) d = t.lin (total (contribs h c)) d := by
  unfold contribs
  rw [turn_chunks t hc ht hd]
  exact chunks_total t (hc.chunks_finite.1 hd) d

/-- the sketch `h'` is the sketch `h` turned, up to gradients, and is one the turn makes sense for -/
structure Turns (s : Sketch) (h h' : Heap XR) : Prop where
  grad : GradOnly (h.turn t) h'
  closed : Closed ⟨h, s⟩
  finite : FiniteSketch h s
  able : ∀ k ∈ s.cons, Turnable t (h.cons k)

variable {t}

theorem Closed.refs (hc : Closed ⟨h, s⟩) (r : SameRefs h h1) : Closed ⟨h1, s⟩ := by
  refine ⟨fun c k x hx => hc.1 c k x ?_, fun k hk x hx => hc.2 k hk x ?_⟩
  · have : primFields h1 c = primFields h c := by cases c <;> simp [primFields, r.lines, r.arcCenter, r.circleCenter]
    rwa [this] at hx
  · have : h1.cons k = h.cons k := by rw [r.cons]
    dsimp only at hx
    rwa [this] at hx

theorem Turns.move {h2 : Heap XR} (w : Turns t s h h') (r : SameRefs h h1) (hf : ∀ x ∈ getData h1 s, Num.isFinite x = true)
    (g : GradOnly (h1.turn t) h2) : Turns t s h1 h2 := by
  refine ⟨g, w.closed.refs r, ⟨hf, fun k hk => ?_⟩, fun k hk => ?_⟩
  · rw [r.cons]; exact w.finite.2 k hk
  · rw [r.cons]; exact w.able k hk

theorem Turns.grads {h2 : Heap XR} (w : Turns t s h h') (g1 : GradOnly h h1) (g2 : GradOnly h' h2) : Turns t s h1 h2 := by
  refine w.move g1.1 (by rw [g1.getData]; exact w.finite.1) ?_
  exact (turn_gradOnly t g1).symm.trans (w.grad.trans g2)

theorem Turns.lossPer (w : Turns t s h h') : getLossPerConstraint h' s = getLossPerConstraint h s := by
  rw [w.grad.lossPer]
  exact List.map_congr_left fun k hk => turn_loss t (w.finite.cons w.closed k hk).real (w.able k hk)

theorem Turns.loss (w : Turns t s h h') : getLoss h s = getLoss h' s := by
  rw [getLoss_sum, getLoss_sum]
  exact congrArg (List.foldl _ _) w.lossPer.symm

/-! ## Data -/

variable (t s) in
/-- a vector and the turned vector -/
def TurnV (v v' : List XR) : Prop := ∃ x : Fin s.dofs.length → ℝ, v = vec x ∧ v' = vec (turnMat t s *ᵥ x)

variable (t s) in
/-- the data of a sketch and of the turned sketch -/
def TurnD (v v' : List XR) : Prop := ∃ x : Fin s.dofs.length → ℝ, v = vec x ∧ v' = vec (turnMat t s *ᵥ x + fun i => t.shift s.dofs[i])

variable (t s) in
/-- a matrix and the turned matrix -/
def TurnM (A A' : List (List XR)) : Prop :=
  ∃ B : Matrix (Fin s.dofs.length) (Fin s.dofs.length) ℝ, A = mat B ∧ A' = mat (turnMat t s * B * (turnMat t s)ᵀ)

theorem map_vec {L : List Dof} {v : Dof → XR} {f : Dof → ℝ} (e : ∀ d ∈ L, v d = fin (f d)) : L.map v = vec (fun i : Fin L.length => f L[i]) := by
  unfold vec
  refine List.ext_getElem (by simp) fun i h1 h2 => ?_
  simp only [List.getElem_map, List.getElem_ofFn]
  exact e _ (List.getElem_mem _)

theorem vec_map_iff {L : List Dof} {v : Dof → XR} {x : Fin L.length → ℝ} (e : L.map v = vec x) (i : Fin L.length) : v L[i] = fin (x i) := by
  have := congrArg (fun l => l[i.1]?) e
  simpa [vec] using this

variable (hn : s.cells.Nodup)
include hn

theorem Turns.data (w : Turns t s h h') : TurnD t s (getData h s) (getData h' s) := by
  obtain ⟨f, e⟩ := w.finite.fn
  refine ⟨fun i => f s.dofs[i], by rw [getData_dofs]; exact map_vec e, ?_⟩
  rw [w.grad.getData, getData_dofs, map_vec fun d hd => turn_vals t e hd, turnMat_mulVec t hn]
  rfl

theorem set_vec (h : Heap XR) (x : Fin s.dofs.length → ℝ) : ∃ h1, setData h s (vec x) = .ok h1 ∧ SameRefs h h1 ∧
    (∀ i, val h1 s.dofs[i] = fin (x i)) ∧ ∀ d, d ∉ s.dofs → val h1 d = val h d := by
  have l1 : (vec x).length = getNDofs h s := by rw [← getData_length, getData_dofs, List.length_map]; simp [vec]
  have hf : (vec x).all Num.isFinite = true := by
    rw [List.all_eq_true]; intro y hy
    obtain ⟨i, rfl⟩ := List.mem_ofFn.1 hy
    rfl
  have P := setData_dataOnly h s (vec x)
  unfold setData at P ⊢
  rw [if_pos l1] at P ⊢
  obtain ⟨h1, e1, a1, b1⟩ := setDataLoop_ok (vec x) s.prims 0 h hn (by rw [List.drop_zero, l1, getNDofs_eq]; rfl) hf
  rw [e1] at P ⊢
  refine ⟨h1, rfl, P.1, fun i => ?_, fun d hd => ?_⟩
  · have v1 : s.dofs.map (val h1) = vec x := by rw [← getData_dofs, getData_eq]; exact a1
    exact vec_map_iff v1 i
  · have q1 := b1 d.owner (fun k => hd (mem_sketch_dofs.2 k))
    rw [primData_dofs, primData_dofs] at q1
    exact List.map_inj_left.1 q1 d (mem_dofs_owner d)

theorem Turns.set (w : Turns t s h h') {d d' : List XR} (hd : TurnD t s d d') :
    BothE (Turns t s) (fun h h' => GradOnly (h.turn t) h') (setData h s d) (setData h' s d') := by
  obtain ⟨x, rfl, rfl⟩ := hd
  obtain ⟨f, rfl⟩ := exists_fn hn x
  obtain ⟨h1, e1, r1, v1, o1⟩ := set_vec hn h (fun i => f s.dofs[i])
  obtain ⟨h2, e2, r2, v2, o2⟩ := set_vec hn h' (turnMat t s *ᵥ (fun i => f s.dofs[i]) + fun i => t.shift s.dofs[i])
  rw [e1, e2]
  have v1' : ∀ d ∈ s.dofs, val h1 d = fin (f d) := by
    intro d hd
    obtain ⟨i, hi, rfl⟩ := List.getElem_of_mem hd
    exact v1 ⟨i, hi⟩
  refine .ok (w.move r1 ?_ (gradOnly_of_val ((turn_sameRefs t r1).symm.trans (w.grad.1.trans r2)) fun d => ?_))
  · intro y hy
    rw [getData_dofs] at hy
    obtain ⟨d, hd, rfl⟩ := List.mem_map.1 hy
    rw [v1' d hd]; rfl
  · by_cases hd : d ∈ s.dofs
    · rw [turn_vals t v1' hd]
      obtain ⟨i, hi, rfl⟩ := List.getElem_of_mem hd
      rw [turnMat_mulVec t hn] at v2
      exact v2 ⟨i, hi⟩
    · rw [o2 d hd, w.grad.val]
      refine (turn_val_congr t fun a ha => o1 a fun k => hd (partner_mem k ha.symm)).symm

omit hn in
theorem Turns.finite_cons (w : Turns t s h h') : ∀ k ∈ s.cons, FiniteCons (h.turn t) ((h.turn t).cons k) :=
  (turn_finite t w.finite).cons (turn_closed t w.closed)

omit hn in
theorem Turns.degenerate (w : Turns t s h h') {k : Nat} (hk : k ∈ s.cons) :
    DegenerateEqLen (h.turn t) ((h.turn t).cons k) ↔ DegenerateEqLen h (h.cons k) :=
  turn_degenerate t (w.finite.cons w.closed k hk).real

omit hn in
theorem Turns.contribs (w : Turns t s h h') {k : Nat} (hk : k ∈ s.cons) (hd : ¬DegenerateEqLen h (h.cons k)) (d : Dof) :
    total (Isotope.contribs (h.turn t) ((h.turn t).cons k)) d = t.lin (total (Isotope.contribs h (h.cons k))) d :=
  turn_contribs t (w.finite.cons w.closed k hk).real (w.able k hk) hd d

theorem Turns.gradient (w : Turns t s h h') :
    BothG (Turns t s) (fun h h' => GradOnly (h.turn t) h') (TurnV t s) (getGradient h s) (getGradient h' s) := by
  obtain ⟨A, B⟩ := getGradient_exact h s (w.finite.cons w.closed)
  obtain ⟨A', B'⟩ := getGradient_exact (h.turn t) s w.finite_cons
  have P := getGradient_gradOnly h s
  have P' := getGradient_gradOnly h' s
  have q := gradient_perm w.grad s (List.Perm.refl s.cons)
  change BothG GradOnly GradOnly Eq (getGradient (h.turn t) s) (getGradient h' s) at q
  by_cases hd : ∃ k ∈ s.cons, DegenerateEqLen h (h.cons k)
  · obtain ⟨h1, e1⟩ := B hd
    obtain ⟨k, hk, hd⟩ := hd
    obtain ⟨h2, e2⟩ := B' ⟨k, hk, (w.degenerate hk).2 hd⟩
    rw [e2] at q
    rw [e1] at P ⊢
    generalize getGradient h' s = e3 at q P'
    cases q with
    | error => exact .error (w.grads P P').grad
  · have hd : ∀ k ∈ s.cons, ¬DegenerateEqLen h (h.cons k) := fun k hk hh => hd ⟨k, hk, hh⟩
    obtain ⟨h1, g1, -, e1⟩ := A hd
    obtain ⟨h2, g2, -, e2⟩ := A' fun k hk hh => hd k hk ((w.degenerate hk).1 hh)
    rw [e2] at q
    rw [e1] at P ⊢
    generalize getGradient h' s = e3 at q P'
    cases q with
    | ok eg _ =>
      subst eg
      refine .ok ⟨fun i => total (s.cons.flatMap (fun k => Isotope.contribs h (h.cons k))) s.dofs[i], map_vec fun _ _ => rfl, ?_⟩ (w.grads P P')
      rw [turnMat_mulVec t hn]
      refine map_vec (f := t.lin (total (s.cons.flatMap (fun k => Isotope.contribs h (h.cons k))))) fun d _ => congrArg fin ?_
      have : ∀ cs : List Nat, (∀ k ∈ cs, k ∈ s.cons) → total (cs.flatMap (fun k => Isotope.contribs (h.turn t) ((h.turn t).cons k))) d =
          t.lin (total (cs.flatMap (fun k => Isotope.contribs h (h.cons k)))) d := by
        intro cs hcs
        induction cs with
        | nil => exact (t.lin_zero d).symm
        | cons k cs ih =>
          have e : total ((k :: cs).flatMap (fun k => Isotope.contribs h (h.cons k))) =
              fun a => total (Isotope.contribs h (h.cons k)) a + total (cs.flatMap (fun k => Isotope.contribs h (h.cons k))) a := by
            funext a; rw [List.flatMap_cons, total_append]
          have hk := hcs k (by simp)
          rw [e, t.lin_add, List.flatMap_cons, total_append, w.contribs hk (hd k hk), ih fun k m => hcs k (by simp [m])]
      exact this s.cons fun _ hk => hk

/-! ## Vectors -/

omit hn in
theorem TurnV.neg {a a' : List XR} (w : TurnV t s a a') : TurnV t s (vneg a) (vneg a') := by
  obtain ⟨x, rfl, rfl⟩ := w
  exact ⟨-x, vneg_vec x, by rw [vneg_vec, mulVec_neg]⟩

omit hn in
theorem TurnV.scale {a a' : List XR} {k : XR} (hk : ∃ r, k = fin r) (w : TurnV t s a a') : TurnV t s (vscale k a) (vscale k a') := by
  obtain ⟨x, rfl, rfl⟩ := w
  obtain ⟨r, rfl⟩ := hk
  exact ⟨r • x, vscale_vec r x, by rw [vscale_vec, mulVec_smul]⟩

omit hn in
theorem TurnV.sub {a a' b b' : List XR} (w : TurnV t s a a') (w' : TurnV t s b b') : TurnV t s (vsub a b) (vsub a' b') := by
  obtain ⟨x, rfl, rfl⟩ := w
  obtain ⟨y, rfl, rfl⟩ := w'
  exact ⟨x - y, vsub_vec x y, by rw [vsub_vec, mulVec_sub]⟩

omit hn in
theorem TurnD.add {a a' b b' : List XR} (w : TurnD t s a a') (w' : TurnV t s b b') : TurnD t s (vadd a b) (vadd a' b') := by
  obtain ⟨x, rfl, rfl⟩ := w
  obtain ⟨y, rfl, rfl⟩ := w'
  exact ⟨x + y, vadd_vec x y, by rw [vadd_vec, mulVec_add]; congr 1; abel⟩

omit hn in
theorem TurnD.sub {a a' b b' : List XR} (w : TurnD t s a a') (w' : TurnV t s b b') : TurnD t s (vsub a b) (vsub a' b') := by
  obtain ⟨x, rfl, rfl⟩ := w
  obtain ⟨y, rfl, rfl⟩ := w'
  exact ⟨x - y, vsub_vec x y, by rw [vsub_vec, mulVec_sub]; congr 1; abel⟩

omit hn in
theorem axpy_eq {n : Nat} (x y : Fin n → ℝ) (r : ℝ) : axpy (vec x) (fin r) (vec y) = vadd (vec x) (vscale (fin r) (vec y)) := by
  rw [vscale_vec, vadd_vec]
  unfold axpy vec
  refine List.ext_getElem (by simp) fun i h1 h2 => ?_
  simp only [List.getElem_zipWith, List.getElem_ofFn, one_lit, mul_fin, add_fin, Pi.add_apply, Pi.smul_apply, smul_eq_mul, one_mul]
  congr 1; ring

theorem TurnV.dot {a a' b b' : List XR} (w : TurnV t s a a') (w' : TurnV t s b b') : dotV a b = dotV a' b' := by
  obtain ⟨x, rfl, rfl⟩ := w
  obtain ⟨y, rfl, rfl⟩ := w'
  rw [dotV_vec, dotV_vec, turnMat_dot t hn]

theorem alike_turn : Alike s s (Turns t s) (fun h h' => GradOnly (h.turn t) h') (TurnD t s) (TurnV t s) (fun k => ∃ r, k = fin r) where
  first := ⟨1, one_lit⟩
  shorter := by rintro k ⟨r, rfl⟩; exact ⟨r * 0.5, by rw [sci, mul_fin]⟩
  longer := by rintro k ⟨r, rfl⟩; exact ⟨r * 1.5, by rw [sci, mul_fin]⟩
  imp := fun w => w.grad
  data := fun w => w.data hn
  set := fun w hd => w.set hn hd
  loss := fun w => w.loss
  grad := fun w => w.gradient hn
  dot := fun a b => a.dot hn b
  neg := fun a => a.neg
  add := fun _ hk a b => a.add (b.scale hk)
  axpy := by
    rintro _ _ _ _ k ⟨r, rfl⟩ ⟨x, rfl, rfl⟩ ⟨y, rfl, rfl⟩
    rw [axpy_eq, axpy_eq]
    exact TurnD.add ⟨x, rfl, rfl⟩ (TurnV.scale ⟨r, rfl⟩ ⟨y, rfl, rfl⟩)

end Isotope
