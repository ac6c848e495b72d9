import Verif.SpecSwap
import Verif.Lemmas.AnyOrder

/-!
# Other words for the same sketch
-/

namespace Isotope
open XR

/-! ## Arithmetic -/

theorem XR.neg_neg' (a : XR) : - -a = a := by
  cases a <;> first | rfl | (simp only [neg_fin, neg_neg])

theorem XR.neg_add' (a b : XR) : -(a + b) = -a + -b := by
  cases a <;> cases b <;> first | rfl | (simp only [neg_fin, add_fin, fin.injEq]; ring)

theorem XR.neg_infOf (a : ℝ) : -infOf a = infOf (-a) := by
  unfold infOf
  rcases lt_trichotomy a 0 with h | h | h
  · rw [if_neg (not_lt.2 h.le), if_pos h, if_pos (neg_pos.2 h)]; rfl
  · subst h; simp; rfl
  · rw [if_pos h, if_neg (not_lt.2 (neg_nonpos.2 h.le)), if_pos (neg_lt_zero.2 h)]; rfl

theorem XR.mul_comm' (a b : XR) : a * b = b * a := by
  cases a <;> cases b <;> first | rfl | (simp only [mul_fin, fin.injEq]; ring)

theorem XR.neg_mul' (a b : XR) : -a * b = -(a * b) := by
  cases a <;> cases b <;> first
    | rfl
    | (simp only [mul_fin, neg_fin, neg_mul]; done)
    | exact (neg_infOf _).symm
    | (rw [show ∀ r, -(ninf * fin r) = -infOf (-r) from fun _ => rfl, neg_infOf, neg_neg]; rfl)

theorem XR.mul_neg' (a b : XR) : a * -b = -(a * b) := by rw [mul_comm', neg_mul', mul_comm']

theorem XR.neg_div' (a b : XR) : -a / b = -(a / b) := by
  cases a with
  | fin a =>
    cases b with
    | fin b =>
      rw [neg_fin, div_fin, div_fin]
      split
      · exact (neg_infOf a).symm
      · rw [neg_fin, neg_div]
    | pinf => show fin 0 = fin (-0); rw [neg_zero]
    | ninf => show fin 0 = fin (-0); rw [neg_zero]
    | nan => rfl
  | pinf =>
    cases b with
    | fin b => show (if b < 0 then pinf else ninf) = -(if b < 0 then ninf else pinf); split <;> rfl
    | _ => rfl
  | ninf =>
    cases b with
    | fin b => show (if b < 0 then ninf else pinf) = -(if b < 0 then pinf else ninf); split <;> rfl
    | _ => rfl
  | nan => cases b <;> rfl

theorem XR.neg_sub' (a b : XR) : -(a - b) = b - a := by
  rw [sub_def, sub_def, neg_add', neg_neg', add_comm']

theorem XR.isFinite_neg (a : XR) : Num.isFinite (-a) = Num.isFinite a := by cases a <;> rfl

theorem XR.infOf_mul (a b : ℝ) : infOf a * fin b = infOf (a * b) := by
  have key : ∀ c : ℝ, 0 < c → ∀ b, infOf (c * b) = infOf b := by
    intro c hc b
    unfold infOf
    simp only [mul_pos_iff_of_pos_left hc, mul_neg_iff, hc, not_lt.2 hc.le, true_and, false_and, or_false]
  rcases lt_trichotomy a 0 with h | h | h
  · have e : infOf a = ninf := by unfold infOf; rw [if_neg (not_lt.2 h.le), if_pos h]
    rw [e]
    show infOf (-b) = _
    rw [← key (-a) (neg_pos.2 h) (-b), neg_mul_neg]
  · subst h
    have e : infOf 0 = nan := by unfold infOf; simp
    rw [zero_mul, e]; rfl
  · have e : infOf a = pinf := by unfold infOf; rw [if_pos h]
    rw [e]
    show infOf b = _
    rw [key a h]

theorem XR.infOf_mul_pinf (a : ℝ) : infOf a * pinf = infOf a := by
  unfold infOf; split
  · rfl
  · split <;> rfl

theorem XR.infOf_mul_ninf (a : ℝ) : infOf a * ninf = infOf (-a) := by
  rw [← neg_infOf]
  unfold infOf; split
  · rfl
  · split <;> rfl

theorem XR.mul_pinf (a : ℝ) : fin a * pinf = infOf a := rfl
theorem XR.mul_ninf (a : ℝ) : fin a * ninf = infOf (-a) := rfl
theorem XR.pinf_mul (a : ℝ) : pinf * fin a = infOf a := rfl
theorem XR.ninf_mul (a : ℝ) : ninf * fin a = infOf (-a) := rfl

theorem XR.mul_assoc' (a b c : XR) : a * b * c = a * (b * c) := by
  have e : ∀ x : XR, x * nan = nan := fun x => by cases x <;> rfl
  have e' : ∀ x : XR, nan * x = nan := fun x => rfl
  have pp : pinf * pinf = pinf := rfl
  have pn : pinf * ninf = ninf := rfl
  have np : ninf * pinf = ninf := rfl
  have nn : ninf * ninf = pinf := rfl
  cases a <;> cases b <;> cases c <;>
    simp only [mul_fin, e, e', pp, pn, np, nn, mul_pinf, mul_ninf, pinf_mul, ninf_mul, infOf_mul, infOf_mul_pinf, infOf_mul_ninf,
      mul_comm' pinf (infOf _), mul_comm' ninf (infOf _), mul_comm' (fin _) (infOf _), mul_neg, neg_neg, mul_comm,
      mul_left_comm]

/-! ## Vectors -/

theorem Vec2.neg_neg' (v : Vec2 XR) : - -v = v := by
  show Vec2.mk (- -v.x) (- -v.y) = v
  rw [XR.neg_neg', XR.neg_neg']

theorem Vec2.neg_sub' (v w : Vec2 XR) : -(v - w) = w - v := by
  show Vec2.mk (-(v.x - w.x)) (-(v.y - w.y)) = Vec2.mk _ _
  rw [XR.neg_sub', XR.neg_sub']

theorem Vec2.neg_normSq (v : Vec2 XR) : (-v).normSq = v.normSq := by
  simp only [normSq, neg_x, neg_y, neg_mul', mul_neg', XR.neg_neg']

theorem Vec2.neg_norm (v : Vec2 XR) : (-v).norm = v.norm := by
  simp only [norm, neg_normSq]

theorem Vec2.neg_sdiv (v : Vec2 XR) (a : XR) : (-v).sdiv a = -(v.sdiv a) := by
  show Vec2.mk _ _ = Vec2.mk _ _
  simp only [neg_x, neg_y, neg_div', sdiv]

theorem Vec2.neg_smul (v : Vec2 XR) (a : XR) : Vec2.smul a (-v) = -(Vec2.smul a v) := by
  show Vec2.mk _ _ = Vec2.mk _ _
  simp only [neg_x, neg_y, mul_neg', smul]

theorem Vec2.smul_neg (v : Vec2 XR) (a : XR) : Vec2.smul (-a) v = -(Vec2.smul a v) := by
  show Vec2.mk _ _ = Vec2.mk _ _
  simp only [neg_mul', smul]

theorem Vec2.neg_mul22 (v : Vec2 XR) (m : Mat2 (Vec2 XR)) : (-v).mul22 m = -(v.mul22 m) := by
  show Vec2.mk _ _ = Vec2.mk _ _
  simp only [neg_x, neg_y, neg_mul', mul22, XR.neg_add']

theorem Vec2.neg_normalize (v : Vec2 XR) : (-v).normalize = -v.normalize := by
  simp only [normalize, neg_norm, neg_sdiv]

theorem Vec2.neg_jacobian (v : Vec2 XR) : normalizeJacobian (-v) = normalizeJacobian v := by
  simp only [normalizeJacobian, neg_norm, neg_normSq, neg_x, neg_y, neg_mul', mul_neg', XR.neg_neg']

theorem Vec2.dot_comm' (v w : Vec2 XR) : v.dot w = w.dot v := by
  simp only [dot, mul_comm' v.x, mul_comm' v.y]

theorem Vec2.neg_dot (v w : Vec2 XR) : (-v).dot w = -(v.dot w) := by
  simp only [dot, neg_x, neg_y, neg_mul', XR.neg_add']

theorem Vec2.dot_neg (v w : Vec2 XR) : v.dot (-w) = -(v.dot w) := by rw [dot_comm', neg_dot, dot_comm']

/-! ## Contributions that amount to the same -/

/-- both lists of contributions contain a contribution that is not finite, or they add the same to each degree of freedom -/
def SameChunks (h h' : Heap XR) (ks ks' : List (Chunk XR)) : Prop :=
  ((∀ k ∈ ks, k.finite = true) ↔ (∀ k ∈ ks', k.finite = true)) ∧
  ((∀ k ∈ ks, k.finite = true) → ∀ d, total (ks'.flatMap (Chunk.contrib h')) d = total (ks.flatMap (Chunk.contrib h)) d)

theorem SameChunks.trans {h h' h'' : Heap XR} {a b c : List (Chunk XR)} (u : SameChunks h h' a b) (v : SameChunks h' h'' b c) :
    SameChunks h h'' a c :=
  ⟨u.1.trans v.1, fun w d => (v.2 (u.1.1 w) d).trans (u.2 w d)⟩

theorem SameChunks.nil (h h' : Heap XR) : SameChunks h h' [] [] := ⟨Iff.rfl, fun _ _ => rfl⟩

theorem SameChunks.append {h h' : Heap XR} {a a' b b' : List (Chunk XR)} (u : SameChunks h h' a a') (v : SameChunks h h' b b') :
    SameChunks h h' (a ++ b) (a' ++ b') := by
  refine ⟨?_, fun w d => ?_⟩
  · simp only [List.mem_append, or_imp, forall_and]
    exact and_congr u.1 v.1
  · simp only [List.mem_append, or_imp, forall_and] at w
    rw [List.flatMap_append, List.flatMap_append, total_append, total_append, u.2 w.1, v.2 w.2]

theorem SameChunks.flatMap {h h' : Heap XR} {f f' : Nat → List (Chunk XR)} (l : List Nat) (u : ∀ c, SameChunks h h' (f c) (f' c)) :
    SameChunks h h' (l.flatMap f) (l.flatMap f') := by
  induction l with
  | nil => exact .nil _ _
  | cons c l ih =>
    rw [List.flatMap_cons, List.flatMap_cons]
    exact (u c).append ih

theorem SameChunks.perm {h : Heap XR} {a b : List (Chunk XR)} (p : a.Perm b) : SameChunks h h a b :=
  ⟨⟨fun w k hk => w k (p.mem_iff.2 hk), fun w k hk => w k (p.mem_iff.1 hk)⟩, fun _ d => (total_perm (p.flatMap_right _) d).symm⟩

theorem Vec2.neg_sub_comm (v w : Vec2 XR) : -v - w = -w - v := by
  show Vec2.mk _ _ = Vec2.mk _ _
  simp only [neg_x, neg_y, sub_def]
  rw [add_comm' (-v.x), add_comm' (-v.y)]

theorem swap_chunks (h : Heap XR) {c c' : Constraint XR} (m : SameMeaning c c') : SameChunks h h (chunks h c) (chunks h c') := by
  cases m with
  | same => exact .perm (.refl _)
  | angle p q mid d =>
    simp only [chunks]
    generalize ptData h p - ptData h mid = v
    generalize ptData h q - ptData h mid = w
    rw [Bool.or_comm, Vec2.dot_comm' w v, mul_comm' w.norm v.norm]
    split
    · exact .nil _ _
    split
    · exact .nil _ _
    split
    · exact .nil _ _
    have e1 : w.norm * w.norm * v.norm = v.norm * w.norm * w.norm := by
      rw [mul_comm', ← mul_assoc']
    have e2 : v.norm * w.norm * v.norm = v.norm * v.norm * w.norm := by
      rw [mul_assoc', mul_comm' w.norm, ← mul_assoc']
    rw [e1, e2]
    generalize Vec2.smul _ w + _ = a
    generalize Vec2.smul _ v + _ = b
    rw [Vec2.neg_mul22, Vec2.neg_mul22, Vec2.neg_sub_comm (b.mul22 _)]
    exact .perm (.swap ..)
  | euclid p q d =>
    simp only [chunks]
    rw [← Vec2.neg_sub' (ptData h p) (ptData h q)]
    generalize ptData h p - ptData h q = v
    rw [Vec2.neg_norm]
    split
    · exact .nil _ _
    rw [Vec2.neg_sdiv, Vec2.neg_smul, Vec2.neg_neg']
    exact .perm (.swap ..)
  | horizDist p q d =>
    simp only [chunks]
    rw [← Vec2.neg_sub' (ptData h p) (ptData h q), Vec2.neg_x]
    generalize (ptData h p - ptData h q).x = v
    rw [sub_def v, XR.neg_neg', show -v - d = -(v + d) by rw [sub_def, XR.neg_add'], neg_mul', Vec2.smul_neg, Vec2.neg_neg']
    exact .perm (.swap ..)
  | vertDist p q d =>
    simp only [chunks]
    rw [← Vec2.neg_sub' (ptData h p) (ptData h q), Vec2.neg_y]
    generalize (ptData h p - ptData h q).y = v
    rw [sub_def v, XR.neg_neg', show -v - d = -(v + d) by rw [sub_def, XR.neg_add'], neg_mul', Vec2.smul_neg, Vec2.neg_neg']
    exact .perm (.swap ..)
  | eqLen l m =>
    simp only [chunks]
    generalize lineEnd h l - lineStart h l = v
    generalize lineEnd h m - lineStart h m = w
    rw [← XR.neg_sub' v.norm, Vec2.neg_sdiv, Vec2.neg_sdiv, Vec2.smul_neg, Vec2.smul_neg, Vec2.neg_smul, Vec2.neg_smul, Vec2.neg_neg']
    exact .perm (.swap ..)
  | parallel l m =>
    simp only [chunks]
    generalize lineEnd h l - lineStart h l = v
    generalize lineEnd h m - lineStart h m = w
    have hb : (!Num.isFinite w.normalize.x || !Num.isFinite w.normalize.y || !Num.isFinite v.normalize.x || !Num.isFinite v.normalize.y) =
        (!Num.isFinite v.normalize.x || !Num.isFinite v.normalize.y || !Num.isFinite w.normalize.x || !Num.isFinite w.normalize.y) := by
      generalize Num.isFinite w.normalize.x = a
      generalize Num.isFinite w.normalize.y = b
      generalize Num.isFinite v.normalize.x = c
      generalize Num.isFinite v.normalize.y = d
      cases a <;> cases b <;> cases c <;> cases d <;> rfl
    rw [hb]
    split
    · exact .nil _ _
    generalize v.normalize = a
    generalize w.normalize = b
    have ec : b.x * a.y - b.y * a.x = -(a.x * b.y - a.y * b.x) := by
      rw [XR.neg_sub', mul_comm' a.y, mul_comm' a.x]
    have e1 : (⟨a.y, -a.x⟩ : Vec2 XR) = -⟨-a.y, a.x⟩ := by
      show _ = Vec2.mk _ _
      rw [XR.neg_neg']
    have e2 : (⟨-b.y, b.x⟩ : Vec2 XR) = -⟨b.y, -b.x⟩ := by
      show _ = Vec2.mk _ _
      rw [XR.neg_neg']
    rw [ec, e1, e2, Vec2.smul_neg, Vec2.smul_neg, Vec2.neg_smul, Vec2.neg_smul, Vec2.neg_neg', Vec2.neg_neg']
    exact .perm (.swap ..)
  | perp l m =>
    simp only [chunks]
    generalize lineEnd h l - lineStart h l = v
    generalize lineEnd h m - lineStart h m = w
    have hb : (!Num.isFinite w.normalize.x || !Num.isFinite w.normalize.y || !Num.isFinite v.normalize.x || !Num.isFinite v.normalize.y) =
        (!Num.isFinite v.normalize.x || !Num.isFinite v.normalize.y || !Num.isFinite w.normalize.x || !Num.isFinite w.normalize.y) := by
      generalize Num.isFinite w.normalize.x = a
      generalize Num.isFinite w.normalize.y = b
      generalize Num.isFinite v.normalize.x = c
      generalize Num.isFinite v.normalize.y = d
      cases a <;> cases b <;> cases c <;> cases d <;> rfl
    rw [hb]
    split
    · exact .nil _ _
    rw [Vec2.dot_comm' w.normalize]
    exact .perm (.swap ..)

theorem swap_loss (h : Heap XR) {c c' : Constraint XR} (m : SameMeaning c c') : lossValue h c' = lossValue h c := by
  have sq : ∀ a : XR, (0.5 : XR) * -a * -a = 0.5 * a * a := fun a => by simp only [mul_neg', neg_mul', XR.neg_neg']
  cases m with
  | same => rfl
  | angle p q mid d =>
    have e : currentAngle h q p mid = currentAngle h p q mid := by
      simp only [currentAngle]
      generalize ptData h p - ptData h mid = v
      generalize ptData h q - ptData h mid = w
      rw [Bool.or_comm, Vec2.dot_comm' w v, mul_comm' w.norm v.norm]
    simp only [lossValue, e]
  | euclid p q d =>
    have e : euclidCurrent h q p = euclidCurrent h p q := by
      simp only [euclidCurrent]
      rw [← Vec2.neg_sub' (ptData h p) (ptData h q), Vec2.neg_norm]
    simp only [lossValue, e]
  | horizDist p q d =>
    have e : horizCurrent h q p - -d = -(horizCurrent h p q - d) := by
      simp only [horizCurrent]
      rw [← XR.neg_sub' (ptData h q).x, sub_def _ d, sub_def _ (-d), XR.neg_add']
    simp only [lossValue, e, sq]
  | vertDist p q d =>
    have e : vertCurrent h q p - -d = -(vertCurrent h p q - d) := by
      simp only [vertCurrent]
      rw [← XR.neg_sub' (ptData h q).y, sub_def _ d, sub_def _ (-d), XR.neg_add']
    simp only [lossValue, e, sq]
  | eqLen l m =>
    simp only [lossValue]
    rw [← XR.neg_sub' (lineEnd h l - lineStart h l).norm, sq]
  | parallel l m =>
    simp only [lossValue]
    generalize (lineEnd h l - lineStart h l).normalize = a
    generalize (lineEnd h m - lineStart h m).normalize = b
    have hb : (!Num.isFinite b.x || !Num.isFinite b.y || !Num.isFinite a.x || !Num.isFinite a.y) =
        (!Num.isFinite a.x || !Num.isFinite a.y || !Num.isFinite b.x || !Num.isFinite b.y) := by
      cases Num.isFinite a.x <;> cases Num.isFinite a.y <;> cases Num.isFinite b.x <;> cases Num.isFinite b.y <;> rfl
    have ec : b.x * a.y - b.y * a.x = -(a.x * b.y - a.y * b.x) := by
      rw [XR.neg_sub', mul_comm' a.y, mul_comm' a.x]
    rw [hb, ec, sq]
  | perp l m =>
    simp only [lossValue]
    generalize (lineEnd h l - lineStart h l).normalize = a
    generalize (lineEnd h m - lineStart h m).normalize = b
    have hb : (!Num.isFinite b.x || !Num.isFinite b.y || !Num.isFinite a.x || !Num.isFinite a.y) =
        (!Num.isFinite a.x || !Num.isFinite a.y || !Num.isFinite b.x || !Num.isFinite b.y) := by
      cases Num.isFinite a.x <;> cases Num.isFinite a.y <;> cases Num.isFinite b.x <;> cases Num.isFinite b.y <;> rfl
    rw [hb, Vec2.dot_comm' b]

/-! ## Lines from end to start -/

theorem Restated.pt {h h' : Heap XR} (r : Restated h h') (a : Nat) : ptData h' a = ptData h a := by
  have := r.data (.point a)
  simp only [primData, List.cons.injEq, and_true] at this
  unfold ptData
  rcases hp : (h'.points a).data with ⟨x, y⟩
  rcases hq : (h.points a).data with ⟨x', y'⟩
  simp_all

theorem Restated.arcData {h h' : Heap XR} (r : Restated h h') (a : Nat) : (h'.arcs a).data = (h.arcs a).data := by
  have := r.data (.arc a)
  simp only [primData, List.cons.injEq, and_true] at this
  rcases hp : (h'.arcs a).data with ⟨x, y, z⟩
  rcases hq : (h.arcs a).data with ⟨x', y', z'⟩
  simp_all

theorem Restated.startPoint {h h' : Heap XR} (r : Restated h h') (a : Nat) : (h'.arcs a).startPoint h' = (h.arcs a).startPoint h := by
  have e : ∀ b, (h'.points b).data = (h.points b).data := r.pt
  unfold Arc.startPoint Arc.radius Arc.startAngle; rw [r.arcCenter, e, r.arcData]

theorem Restated.endPoint {h h' : Heap XR} (r : Restated h h') (a : Nat) : (h'.arcs a).endPoint h' = (h.arcs a).endPoint h := by
  have e : ∀ b, (h'.points b).data = (h.points b).data := r.pt
  unfold Arc.endPoint Arc.radius Arc.endAngle; rw [r.arcCenter, e, r.arcData]

theorem Restated.startPointGradient {h h' : Heap XR} (r : Restated h h') (a : Nat) :
    (h'.arcs a).startPointGradient = (h.arcs a).startPointGradient := by
  unfold Arc.startPointGradient Arc.radius Arc.startAngle; rw [r.arcData]

theorem Restated.endPointGradient {h h' : Heap XR} (r : Restated h h') (a : Nat) :
    (h'.arcs a).endPointGradient = (h.arcs a).endPointGradient := by
  unfold Arc.endPointGradient Arc.radius Arc.endAngle; rw [r.arcData]

/-- the line runs the same way in both heaps, or the opposite way -/
theorem Restated.way {h h' : Heap XR} (r : Restated h h') (l : Nat) :
    (h'.lines l = h.lines l ∧ lineStart h' l = lineStart h l ∧ lineEnd h' l = lineEnd h l) ∨
    (h'.lines l = ⟨(h.lines l).stop, (h.lines l).start⟩ ∧ lineStart h' l = lineEnd h l ∧ lineEnd h' l = lineStart h l) := by
  unfold lineStart lineEnd
  rcases r.lines l with e | e
  · exact .inl ⟨e, by rw [e, r.pt], by rw [e, r.pt]⟩
  · exact .inr ⟨e, by rw [e, r.pt], by rw [e, r.pt]⟩

/-- the vector belongs to the direction of the line -/
def FollowsLine (h h' : Heap XR) (l : Nat) (v v' : Vec2 XR) : Prop :=
  (h'.lines l = h.lines l ∧ v' = v) ∨ (h'.lines l = ⟨(h.lines l).stop, (h.lines l).start⟩ ∧ v' = -v)

theorem Restated.dir {h h' : Heap XR} (r : Restated h h') (l : Nat) :
    FollowsLine h h' l (lineEnd h l - lineStart h l) (lineEnd h' l - lineStart h' l) := by
  rcases r.way l with ⟨e, a, b⟩ | ⟨e, a, b⟩
  · exact .inl ⟨e, by rw [a, b]⟩
  · exact .inr ⟨e, by rw [a, b, Vec2.neg_sub']⟩

theorem FollowsLine.norm {h h' : Heap XR} {l : Nat} {v v' : Vec2 XR} (a : FollowsLine h h' l v v') : v'.norm = v.norm := by
  rcases a with ⟨-, rfl⟩ | ⟨-, rfl⟩
  · rfl
  · exact Vec2.neg_norm v

theorem FollowsLine.map {h h' : Heap XR} {l : Nat} {v v' : Vec2 XR} (a : FollowsLine h h' l v v') {f : Vec2 XR → Vec2 XR} (hf : ∀ v, f (-v) = -f v) :
    FollowsLine h h' l (f v) (f v') := by
  rcases a with ⟨e, rfl⟩ | ⟨e, rfl⟩
  · exact .inl ⟨e, rfl⟩
  · exact .inr ⟨e, hf v⟩

theorem FollowsLine.map₂ {h h' : Heap XR} {l m : Nat} {v v' w w' : Vec2 XR} (a : FollowsLine h h' l v v') (b : FollowsLine h h' m w w')
    {f : Vec2 XR → Vec2 XR → Vec2 XR} (hf : ∀ v w, f (-v) w = -f v w) (hf' : ∀ v w, f v (-w) = f v w) :
    FollowsLine h h' l (f v w) (f v' w') := by
  have e : f v' w' = f v' w := by
    rcases b with ⟨-, rfl⟩ | ⟨-, rfl⟩
    · rfl
    · exact hf' _ _
  rw [e]
  exact a.map (f := fun v => f v w) fun v => hf v w

theorem FollowsLine.finite {h h' : Heap XR} {l : Nat} {v v' : Vec2 XR} (a : FollowsLine h h' l v v') :
    Num.isFinite v'.normalize.x = Num.isFinite v.normalize.x ∧ Num.isFinite v'.normalize.y = Num.isFinite v.normalize.y := by
  rcases a with ⟨-, rfl⟩ | ⟨-, rfl⟩
  · exact ⟨rfl, rfl⟩
  · rw [Vec2.neg_normalize]
    exact ⟨isFinite_neg _, isFinite_neg _⟩

theorem fin_sum {a b : XR} (w : Num.isFinite (a + b) = true) : Num.isFinite a = true ∧ Num.isFinite b = true := by
  cases a <;> cases b <;> first | exact ⟨rfl, rfl⟩ | exact absurd w nofun

theorem fin_left {a : XR} {r : ℝ} (w : Num.isFinite (a * fin r) = true) : ∃ x, a = fin x := by
  have n : ∀ r, Num.isFinite (infOf r) ≠ true := fun r => by
    unfold infOf
    split
    · nofun
    · split <;> nofun
  cases a with
  | fin x => exact ⟨x, rfl⟩
  | pinf => exact absurd w (n r)
  | ninf => exact absurd w (n (-r))
  | nan => exact absurd w nofun

theorem FollowsLine.chunk {h h' : Heap XR} {l : Nat} {v v' : Vec2 XR} (a : FollowsLine h h' l v v') :
    SameChunks h h' [.line l (v.mul24 (lineEndGradient - lineStartGradient))] [.line l (v'.mul24 (lineEndGradient - lineStartGradient))] := by
  have z : (0.0 : XR) = fin 0 := by rw [sci]; norm_num
  have o : (1.0 : XR) = fin 1 := by rw [sci]; norm_num
  have m : (lineEndGradient - lineStartGradient : Mat2 (Row4 XR)) =
      ⟨⟨fin (-1), fin 0, fin 1, fin 0⟩, ⟨fin 0, fin (-1), fin 0, fin 1⟩⟩ := by
    show Mat2.mk (Row4.mk _ _ _ _) (Row4.mk _ _ _ _) = _
    simp only [lineEndGradient, lineStartGradient, z, o, sub_fin]
    norm_num
  rcases a with ⟨e, rfl⟩ | ⟨e, rfl⟩
  · refine ⟨Iff.rfl, fun _ d => ?_⟩
    simp only [List.flatMap_cons, List.flatMap_nil, Chunk.contrib, e]
  · obtain ⟨x, y⟩ := v
    have key : ((-(⟨x, y⟩ : Vec2 XR)).mul24 (lineEndGradient - lineStartGradient)).allFinite =
        ((⟨x, y⟩ : Vec2 XR).mul24 (lineEndGradient - lineStartGradient)).allFinite := by
      simp only [Vec2.mul24, Vec2.neg_x, Vec2.neg_y, neg_mul', ← XR.neg_add', Row4.allFinite, isFinite_neg]
    refine ⟨?_, fun w d => ?_⟩
    · simp only [List.mem_singleton, forall_eq, Chunk.finite, key]
    · simp only [List.mem_singleton, forall_eq, Chunk.finite, m, Row4.allFinite, Vec2.mul24, Bool.and_eq_true] at w
      obtain ⟨x, rfl⟩ := fin_left (fin_sum w.1.2).1
      obtain ⟨y, rfl⟩ := fin_left (fin_sum w.1.2).2
      simp only [List.flatMap_cons, List.flatMap_nil, Chunk.contrib, e, m, Vec2.mul24, Vec2.neg_x, Vec2.neg_y, neg_fin, mul_fin, add_fin,
        toReal_fin, List.append_nil, total_cons, total_nil]
      simp only [mul_zero, mul_one, mul_neg, neg_neg, add_zero, zero_add]
      ring

/-- a line that is to be horizontal or vertical -/
theorem FollowsLine.ends {h h' : Heap XR} {l : Nat} {v v' : Vec2 XR} (a : FollowsLine h h' l v v') :
    SameChunks h h' [.line l ((-v).mul24 lineStartGradient), .line l (v.mul24 lineEndGradient)]
      [.line l ((-v').mul24 lineStartGradient), .line l (v'.mul24 lineEndGradient)] := by
  have z : (0.0 : XR) = fin 0 := by rw [sci]; norm_num
  have o : (1.0 : XR) = fin 1 := by rw [sci]; norm_num
  have ms : (lineStartGradient : Mat2 (Row4 XR)) = ⟨⟨fin 1, fin 0, fin 0, fin 0⟩, ⟨fin 0, fin 1, fin 0, fin 0⟩⟩ := by
    simp only [lineStartGradient, z, o]
  have me : (lineEndGradient : Mat2 (Row4 XR)) = ⟨⟨fin 0, fin 0, fin 1, fin 0⟩, ⟨fin 0, fin 0, fin 0, fin 1⟩⟩ := by
    simp only [lineEndGradient, z, o]
  rcases a with ⟨e, rfl⟩ | ⟨e, rfl⟩
  · refine ⟨Iff.rfl, fun _ d => ?_⟩
    simp only [List.flatMap_cons, List.flatMap_nil, Chunk.contrib, e]
  · obtain ⟨x, y⟩ := v
    have key : ∀ m : Mat2 (Row4 XR), ((-(⟨x, y⟩ : Vec2 XR)).mul24 m).allFinite = ((⟨x, y⟩ : Vec2 XR).mul24 m).allFinite := by
      intro m
      simp only [Vec2.mul24, Vec2.neg_x, Vec2.neg_y, neg_mul', ← XR.neg_add', Row4.allFinite, isFinite_neg]
    refine ⟨?_, fun w d => ?_⟩
    · simp only [List.mem_cons, List.not_mem_nil, or_false, forall_eq_or_imp, forall_eq, Chunk.finite, key, Vec2.neg_neg']
    · have w := w _ (by simp : Chunk.line l (Vec2.mul24 ⟨x, y⟩ lineEndGradient) ∈ _)
      simp only [Chunk.finite, me, Row4.allFinite, Vec2.mul24, Bool.and_eq_true] at w
      obtain ⟨x, rfl⟩ := fin_left (fin_sum w.1.2).1
      obtain ⟨y, rfl⟩ := fin_left (fin_sum w.1.2).2
      simp only [List.flatMap_cons, List.flatMap_nil, Chunk.contrib, e, me, ms, Vec2.mul24, Vec2.neg_x, Vec2.neg_y, neg_fin, mul_fin, add_fin,
        toReal_fin, List.append_nil, List.cons_append, List.nil_append, total_cons, total_nil]
      simp only [mul_zero, mul_one, neg_neg, add_zero, zero_add, ite_self]
      ring

theorem flip_chunks {h h' : Heap XR} (r : Restated h h') (c : Constraint XR) : SameChunks h h' (chunks h c) (chunks h' c) := by
  have same : ∀ {k : Chunk XR}, k.contrib h' = k.contrib h → SameChunks h h' [k] [k] := fun e =>
    ⟨Iff.rfl, fun _ d => by simp only [List.flatMap_cons, List.flatMap_nil, e]⟩
  have pt : ∀ a g, SameChunks h h' [.point a g] [.point a g] := fun a g => same rfl
  have ar : ∀ a g, SameChunks h h' [.arc a g] [.arc a g] := fun a g => same (by simp only [Chunk.contrib, r.arcCenter])
  cases c with
  | angle p q mid d =>
    simp only [chunks, r.pt]
    split
    · exact .nil _ _
    split
    · exact .nil _ _
    split
    · exact .nil _ _
    exact (pt _ _).append ((pt _ _).append (pt _ _))
  | arcEnd a p =>
    simp only [chunks, r.pt, r.endPoint, r.endPointGradient]
    exact (ar _ _).append (pt _ _)
  | arcStart a p =>
    simp only [chunks, r.pt, r.startPoint, r.startPointGradient]
    exact (ar _ _).append (pt _ _)
  | euclid p q d =>
    simp only [chunks, r.pt]
    split
    · exact .nil _ _
    exact (pt _ _).append (pt _ _)
  | horizDist p q d =>
    simp only [chunks, r.pt]
    exact (pt _ _).append (pt _ _)
  | vertDist p q d =>
    simp only [chunks, r.pt]
    exact (pt _ _).append (pt _ _)
  | fix p d =>
    simp only [chunks, r.pt]
    exact pt _ _
  | eqLen l m =>
    have a := r.dir l
    have b := r.dir m
    simp only [chunks]
    generalize lineEnd h l - lineStart h l = v at a
    generalize lineEnd h' l - lineStart h' l = v' at a
    generalize lineEnd h m - lineStart h m = w at b
    generalize lineEnd h' m - lineStart h' m = w' at b
    rw [a.norm, b.norm]
    exact (a.map (f := fun v' => Vec2.smul _ (v'.sdiv _)) fun v => by rw [Vec2.neg_sdiv, Vec2.neg_smul]).chunk.append
      (b.map (f := fun v' => Vec2.smul _ ((-v').sdiv _)) fun v => by rw [Vec2.neg_sdiv, Vec2.neg_smul]).chunk
  | horizLine l =>
    have a := r.dir l
    have e : ∀ v : Vec2 XR, (⟨0.0, (-v).y⟩ : Vec2 XR) = -⟨0.0, v.y⟩ := fun v => by
      show _ = Vec2.mk (-(0.0 : XR)) _
      have z : (0.0 : XR) = fin 0 := by rw [sci]; norm_num
      rw [z, neg_fin, neg_zero]; rfl
    exact (a.map (f := fun v => ⟨0.0, v.y⟩) e).ends
  | vertLine l =>
    have a := r.dir l
    have e : ∀ v : Vec2 XR, (⟨(-v).x, 0.0⟩ : Vec2 XR) = -⟨v.x, 0.0⟩ := fun v => by
      show _ = Vec2.mk _ (-(0.0 : XR))
      have z : (0.0 : XR) = fin 0 := by rw [sci]; norm_num
      rw [z, neg_fin, neg_zero]; rfl
    exact (a.map (f := fun v => ⟨v.x, 0.0⟩) e).ends
  | parallel l m =>
    have a := r.dir l
    have b := r.dir m
    simp only [chunks]
    generalize lineEnd h l - lineStart h l = v at a
    generalize lineEnd h' l - lineStart h' l = v' at a
    generalize lineEnd h m - lineStart h m = w at b
    generalize lineEnd h' m - lineStart h' m = w' at b
    rw [a.finite.1, a.finite.2, b.finite.1, b.finite.2]
    split
    · exact .nil _ _
    have c1 : ∀ v w : Vec2 XR, (-v).x * w.y - (-v).y * w.x = -(v.x * w.y - v.y * w.x) := fun v w => by
      simp only [Vec2.neg_x, Vec2.neg_y, neg_mul', sub_def, XR.neg_add']
    have c2 : ∀ v w : Vec2 XR, v.x * (-w).y - v.y * (-w).x = -(v.x * w.y - v.y * w.x) := fun v w => by
      simp only [Vec2.neg_x, Vec2.neg_y, mul_neg', sub_def, XR.neg_add']
    have q : ∀ w : Vec2 XR, (⟨(-w).y, -(-w).x⟩ : Vec2 XR) = -⟨w.y, -w.x⟩ := fun w => rfl
    have q' : ∀ w : Vec2 XR, (⟨-(-w).y, (-w).x⟩ : Vec2 XR) = -⟨-w.y, w.x⟩ := fun w => rfl
    refine (FollowsLine.chunk ?_).append (FollowsLine.chunk ?_)
    · refine a.map₂ b (f := fun v w => ((⟨w.normalize.y, -w.normalize.x⟩ : Vec2 XR).smul
        (v.normalize.x * w.normalize.y - v.normalize.y * w.normalize.x)).mul22 (normalizeJacobian v)) (fun v w => ?_) (fun v w => ?_)
      · simp only [Vec2.neg_normalize, c1, Vec2.smul_neg, Vec2.neg_mul22, Vec2.neg_jacobian]
      · simp only [Vec2.neg_normalize, c2, q, Vec2.smul_neg, Vec2.neg_smul, Vec2.neg_neg']
    · refine b.map₂ a (f := fun w v => ((⟨-v.normalize.y, v.normalize.x⟩ : Vec2 XR).smul
        (v.normalize.x * w.normalize.y - v.normalize.y * w.normalize.x)).mul22 (normalizeJacobian w)) (fun w v => ?_) (fun w v => ?_)
      · simp only [Vec2.neg_normalize, c2, Vec2.smul_neg, Vec2.neg_mul22, Vec2.neg_jacobian]
      · simp only [Vec2.neg_normalize, c1, q', Vec2.smul_neg, Vec2.neg_smul, Vec2.neg_neg']
  | perp l m =>
    have a := r.dir l
    have b := r.dir m
    simp only [chunks]
    generalize lineEnd h l - lineStart h l = v at a
    generalize lineEnd h' l - lineStart h' l = v' at a
    generalize lineEnd h m - lineStart h m = w at b
    generalize lineEnd h' m - lineStart h' m = w' at b
    rw [a.finite.1, a.finite.2, b.finite.1, b.finite.2]
    split
    · exact .nil _ _
    refine (FollowsLine.chunk ?_).append (FollowsLine.chunk ?_)
    · refine a.map₂ b (f := fun v w => (w.normalize.smul (v.normalize.dot w.normalize)).mul22 (normalizeJacobian v)) (fun v w => ?_)
        (fun v w => ?_)
      · simp only [Vec2.neg_normalize, Vec2.neg_dot, Vec2.smul_neg, Vec2.neg_mul22, Vec2.neg_jacobian]
      · simp only [Vec2.neg_normalize, Vec2.dot_neg, Vec2.smul_neg, Vec2.neg_smul, Vec2.neg_neg']
    · refine b.map₂ a (f := fun w v => (v.normalize.smul (v.normalize.dot w.normalize)).mul22 (normalizeJacobian w)) (fun w v => ?_)
        (fun w v => ?_)
      · simp only [Vec2.neg_normalize, Vec2.dot_neg, Vec2.smul_neg, Vec2.neg_mul22, Vec2.neg_jacobian]
      · simp only [Vec2.neg_normalize, Vec2.neg_dot, Vec2.smul_neg, Vec2.neg_smul, Vec2.neg_neg']

theorem flip_loss {h h' : Heap XR} (r : Restated h h') (c : Constraint XR) : lossValue h' c = lossValue h c := by
  have sq : ∀ a : XR, (0.5 : XR) * -a * -a = 0.5 * a * a := fun a => by simp only [mul_neg', neg_mul', XR.neg_neg']
  cases c with
  | angle p q mid d => simp only [lossValue, currentAngle, r.pt]
  | arcEnd a p => simp only [lossValue, r.pt, r.endPoint]
  | arcStart a p => simp only [lossValue, r.pt, r.startPoint]
  | euclid p q d => simp only [lossValue, euclidCurrent, r.pt]
  | horizDist p q d => simp only [lossValue, horizCurrent, r.pt]
  | vertDist p q d => simp only [lossValue, vertCurrent, r.pt]
  | fix p d => simp only [lossValue, r.pt]
  | eqLen l m => simp only [lossValue, (r.dir l).norm, (r.dir m).norm]
  | horizLine l =>
    simp only [lossValue]
    rcases r.way l with ⟨-, e, e'⟩ | ⟨-, e, e'⟩
    · rw [e, e']
    · rw [e, e', ← XR.neg_sub', sq]
  | vertLine l =>
    simp only [lossValue]
    rcases r.way l with ⟨-, e, e'⟩ | ⟨-, e, e'⟩
    · rw [e, e']
    · rw [e, e', ← XR.neg_sub', sq]
  | parallel l m =>
    have a := r.dir l
    have b := r.dir m
    simp only [lossValue]
    generalize lineEnd h l - lineStart h l = v at a
    generalize lineEnd h' l - lineStart h' l = v' at a
    generalize lineEnd h m - lineStart h m = w at b
    generalize lineEnd h' m - lineStart h' m = w' at b
    rw [a.finite.1, a.finite.2, b.finite.1, b.finite.2]
    have c1 : ∀ v w : Vec2 XR, (-v).x * w.y - (-v).y * w.x = -(v.x * w.y - v.y * w.x) := fun v w => by
      simp only [Vec2.neg_x, Vec2.neg_y, neg_mul', sub_def, XR.neg_add']
    have c2 : ∀ v w : Vec2 XR, v.x * (-w).y - v.y * (-w).x = -(v.x * w.y - v.y * w.x) := fun v w => by
      simp only [Vec2.neg_x, Vec2.neg_y, mul_neg', sub_def, XR.neg_add']
    rcases a with ⟨-, rfl⟩ | ⟨-, rfl⟩ <;> rcases b with ⟨-, rfl⟩ | ⟨-, rfl⟩ <;> simp only [Vec2.neg_normalize, c1, c2, sq]
  | perp l m =>
    have a := r.dir l
    have b := r.dir m
    simp only [lossValue]
    generalize lineEnd h l - lineStart h l = v at a
    generalize lineEnd h' l - lineStart h' l = v' at a
    generalize lineEnd h m - lineStart h m = w at b
    generalize lineEnd h' m - lineStart h' m = w' at b
    rw [a.finite.1, a.finite.2, b.finite.1, b.finite.2]
    rcases a with ⟨-, rfl⟩ | ⟨-, rfl⟩ <;> rcases b with ⟨-, rfl⟩ | ⟨-, rfl⟩ <;>
      simp only [Vec2.neg_normalize, Vec2.neg_dot, Vec2.dot_neg, sq]

theorem Restated.chunks {h h' : Heap XR} (r : Restated h h') (k : Nat) :
    SameChunks h h' (Isotope.chunks h (h.cons k)) (Isotope.chunks h' (h'.cons k)) :=
  (swap_chunks h (r.cons k)).trans (flip_chunks r _)

theorem Restated.loss {h h' : Heap XR} (r : Restated h h') (k : Nat) : lossValue h' (h'.cons k) = lossValue h (h.cons k) :=
  (flip_loss r _).trans (swap_loss h (r.cons k))

theorem Restated.left {h1 h h' : Heap XR} (g : GradOnly h1 h) (r : Restated h h') : Restated h1 h' :=
  ⟨fun c => (r.data c).trans (g.2 c), fun l => by rw [← g.1.lines]; exact r.lines l, fun a => (r.arcCenter a).trans (g.1.arcCenter a),
    fun a => (r.arcClockwise a).trans (g.1.arcClockwise a), fun a => (r.circleCenter a).trans (g.1.circleCenter a),
    fun k => by rw [← g.1.cons]; exact r.cons k⟩

theorem Restated.right {h h' h1 : Heap XR} (r : Restated h h') (g : GradOnly h' h1) : Restated h h1 :=
  ⟨fun c => (g.2 c).trans (r.data c), fun l => by rw [g.1.lines]; exact r.lines l, fun a => (g.1.arcCenter a).trans (r.arcCenter a),
    fun a => (g.1.arcClockwise a).trans (r.arcClockwise a), fun a => (g.1.circleCenter a).trans (r.circleCenter a),
    fun k => by rw [g.1.cons]; exact r.cons k⟩

theorem Restated.both {h h' h1 h2 : Heap XR} (r : Restated h h') (g : GradOnly h h1) (g' : GradOnly h' h2) : Restated h1 h2 :=
  (r.right g').left g.symm

/-! ## Sketches -/

/-- a list of contributions, performed in both heaps -/
theorem fold_restated {h h' : Heap XR} (r : Restated h h') (s : Sketch) {ks ks' : List (Chunk XR)} (q : SameChunks h h' ks ks') :
    (∃ h1 h2, ks.foldlM applyChunk (zeroGrads h s) = .ok h1 ∧ ks'.foldlM applyChunk (zeroGrads h' s) = .ok h2 ∧ Restated h1 h2 ∧
      ∀ c ∈ s.cells, primGrad h2 c = primGrad h1 c) ∨
    (∃ h1 h2, ks.foldlM applyChunk (zeroGrads h s) = .error h1 ∧ ks'.foldlM applyChunk (zeroGrads h' s) = .error h2 ∧ Restated h1 h2) := by
  have z := zeroGrads_gradOnly h s
  have z' := zeroGrads_gradOnly h' s
  obtain ⟨A, B⟩ := foldChunks_exact h (zeroGrads h s) ks z
  obtain ⟨A', B'⟩ := foldChunks_exact h' (zeroGrads h' s) ks' z'
  have P := foldChunks_gradOnly h (zeroGrads h s) ks z
  have P' := foldChunks_gradOnly h' (zeroGrads h' s) ks' z'
  by_cases hf : ∀ k ∈ ks, k.finite = true
  · obtain ⟨h1, e1, g1, d1⟩ := A hf
    obtain ⟨h2, e2, g2, d2⟩ := A' (q.1.1 hf)
    refine .inl ⟨h1, h2, e1, e2, r.both g1 g2, fun c hc => ?_⟩
    rw [primGrad_dofs, primGrad_dofs]
    refine List.map_congr_left fun d hd => ?_
    rw [d1 d 0 (gr_zero h s hc hd), d2 d 0 (gr_zero h' s hc hd), q.2 hf]
  · have bad : ∀ {l : List (Chunk XR)}, (¬∀ k ∈ l, k.finite = true) → ∃ k ∈ l, k.finite = false := by
      intro l hf
      by_contra w
      exact hf fun k hk => by
        cases e : k.finite with
        | true => rfl
        | false => exact absurd ⟨k, hk, e⟩ w
    obtain ⟨h1, e1⟩ := B (bad hf)
    obtain ⟨h2, e2⟩ := B' (bad fun w => hf (q.1.2 w))
    rw [e1] at P
    rw [e2] at P'
    exact .inr ⟨h1, h2, e1, e2, r.both P P'⟩

theorem gradient_restated {h h' : Heap XR} (r : Restated h h') (s : Sketch) :
    BothG Restated Restated Eq (getGradient h s) (getGradient h' s) := by
  have u := updateAll_eq h (zeroGrads h s) s.cons (zeroGrads_gradOnly h s)
  have u' := updateAll_eq h' (zeroGrads h' s) s.cons (zeroGrads_gradOnly h' s)
  unfold getGradient
  rw [u, u']
  rcases fold_restated r s (SameChunks.flatMap s.cons r.chunks) with ⟨h1, h2, e1, e2, r1, w⟩ | ⟨h1, h2, e1, e2, r1⟩
  · rw [e1, e2]
    dsimp only
    have e : collectGradient h2 s = collectGradient h1 s := by
      rw [collectGradient_eq, collectGradient_eq, flatMap_congr_mem w]
    rw [e]
    cases collectGradient h1 s with
    | none => exact .error r1
    | some v => exact .ok rfl r1
  · rw [e1, e2]
    exact .error r1

theorem losses_restated {h h' : Heap XR} (r : Restated h h') (s : Sketch) :
    getLossPerConstraint h' s = getLossPerConstraint h s := by
  unfold getLossPerConstraint
  exact List.map_congr_left fun c _ => r.loss c

theorem loss_restated {h h' : Heap XR} (r : Restated h h') (s : Sketch) : getLoss h s = getLoss h' s := by
  rw [getLoss_sum, getLoss_sum]
  congr 1
  exact List.map_congr_left fun c _ => (r.loss c).symm

theorem rows_restated {h h' : Heap XR} (r : Restated h h') (s : Sketch) (c : Nat) :
    rowOk h' s c = rowOk h s c ∧ rowOf h' s c = rowOf h s c := by
  unfold rowOk rowOf
  rw [updateGradient_eq, updateGradient_eq, (zeroGrads_gradOnly h s).chunks, (zeroGrads_gradOnly h' s).chunks]
  rcases fold_restated r s (r.chunks c) with ⟨h1, h2, e1, e2, r1, w⟩ | ⟨h1, h2, e1, e2, r1⟩
  · rw [e1, e2]
    refine ⟨rfl, ?_⟩
    dsimp only
    rw [jacobianRow_eq, jacobianRow_eq]
    exact flatMap_congr_mem w
  · rw [e1, e2]
    exact ⟨rfl, rfl⟩

theorem jacobian_restated {h h' : Heap XR} (r : Restated h h') (s : Sketch) :
    BothG Restated Restated Eq (getJacobian h s) (getJacobian h' s) := by
  obtain ⟨h1, g1, e1⟩ := jacobianRows_eq s s.cons h h (.refl h)
  obtain ⟨h2, g2, e2⟩ := jacobianRows_eq s s.cons h' h' (.refl h')
  have k1 : rowOk h' s = rowOk h s := funext fun c => (rows_restated r s c).1
  have k2 : rowOf h' s = rowOf h s := funext fun c => (rows_restated r s c).2
  unfold getJacobian
  rw [e1, e2, k1, k2]
  split
  · exact .ok rfl (r.both g1 g2)
  · exact .error (r.both g1 g2)

theorem data_restated {h h' : Heap XR} (r : Restated h h') (s : Sketch) : getData h' s = getData h s := by
  rw [getData_eq, getData_eq]
  congr 1
  funext c
  exact r.data c

/-! ## Setting data -/

theorem restated_primSet {h h' : Heap XR} (r : Restated h h') (c : PrimCell) (d : List XR) :
    BothE Restated Restated (primSetData h c d) (primSetData h' c d) := by
  have step : ∀ {h1 h1' : Heap XR}, primSetData h c d = .ok h1 → primSetData h' c d = .ok h1' → primData h1' c = primData h1 c →
      BothE Restated Restated (primSetData h c d) (primSetData h' c d) := by
    intro h1 h1' e e' q
    obtain ⟨f, -, k⟩ := primSetData_ok_frame e
    obtain ⟨f', -, k'⟩ := primSetData_ok_frame e'
    rw [e, e']
    refine .ok ⟨fun x => ?_, fun l => ?_, fun a => ?_, fun a => ?_, fun a => ?_, fun k => ?_⟩
    · by_cases w : x = c
      · rw [w, q]
      · rw [k x w, k' x w, r.data x]
    · rw [f.lines, f'.lines]; exact r.lines l
    · rw [f.arcCenter, f'.arcCenter, r.arcCenter]
    · rw [f.arcClockwise, f'.arcClockwise, r.arcClockwise]
    · rw [f.circleCenter, f'.circleCenter, r.circleCenter]
    · rw [f.cons, f'.cons]; exact r.cons k
  cases c with
  | line a => exact .ok r
  | point a =>
    by_cases hf : d.all Num.isFinite = true
    · match d with
      | [x, y] =>
        exact step (by simp only [primSetData]; rw [if_pos hf]) (by simp only [primSetData]; rw [if_pos hf]) (by simp [primData, Heap.setPoint])
      | [] => simpa [primSetData] using BothE.error r
      | [x] => simpa [primSetData] using BothE.error r
      | _ :: _ :: _ :: _ => simpa [primSetData] using BothE.error r
    · simp only [primSetData, hf]
      exact .error r
  | arc a =>
    by_cases hf : d.all Num.isFinite = true
    · match d with
      | [x, y, z] =>
        exact step (by simp only [primSetData]; rw [if_pos hf]) (by simp only [primSetData]; rw [if_pos hf]) (by simp [primData, Heap.setArc])
      | [] => simpa [primSetData] using BothE.error r
      | [x] => simpa [primSetData] using BothE.error r
      | [x, y] => simpa [primSetData] using BothE.error r
      | _ :: _ :: _ :: _ :: _ => simpa [primSetData] using BothE.error r
    · simp only [primSetData, hf]
      exact .error r
  | circle a =>
    by_cases hf : d.all Num.isFinite = true
    · match d with
      | [x] =>
        exact step (by simp only [primSetData]; rw [if_pos hf]) (by simp only [primSetData]; rw [if_pos hf]) (by simp [primData, Heap.setCircle])
      | [] => simpa [primSetData] using BothE.error r
      | _ :: _ :: _ => simpa [primSetData] using BothE.error r
    · simp only [primSetData, hf]
      exact .error r

theorem restated_setLoop (d : List XR) (l : List (Nat × PrimCell)) (i : Nat) {h h' : Heap XR} (r : Restated h h') :
    BothE Restated Restated (setDataLoop d l i h) (setDataLoop d l i h') := by
  induction l generalizing i h h' with
  | nil => exact .ok r
  | cons kp l ih =>
    unfold setDataLoop
    dsimp only
    rw [primData_length h h']
    have q := restated_primSet r kp.2 ((d.drop i).take (primData h kp.2).length)
    generalize primSetData h kp.2 _ = e at q
    generalize primSetData h' kp.2 _ = e' at q
    cases q with
    | error r => exact .error r
    | ok r => exact ih _ r

theorem restated_set (s : Sketch) (d : List XR) {h h' : Heap XR} (r : Restated h h') :
    BothE Restated Restated (setData h s d) (setData h' s d) := by
  unfold setData
  rw [getNDofs_congr h h' s]
  split
  · exact restated_setLoop _ _ _ r
  · exact .error r

theorem alike_restated (s : Sketch) : Alike s s Restated Restated (Eq (α := List XR)) Eq (fun _ => True) where
  first := trivial
  shorter := fun _ => trivial
  longer := fun _ => trivial
  imp := fun h => h
  data := fun r => (data_restated r s).symm
  set := by
    rintro h h' d _ r rfl
    exact restated_set s d r
  loss := fun r => loss_restated r s
  grad := fun r => gradient_restated r s
  dot := by rintro a _ b _ rfl rfl; rfl
  neg := by rintro a _ rfl; rfl
  add := by rintro x _ d _ k - rfl rfl; rfl
  axpy := by rintro x _ d _ k - rfl rfl; rfl

theorem newton_restated (s : Sketch) (normal : Nat → List (List XR) → List (List XR)) (pinv : PInv XR) (ml σ eps : XR) (n : Nat) (ls : XR)
    {h h' : Heap XR} (r : Restated h h') :
    SameRun Restated Restated Eq (newtonLoop pinv ml σ eps normal s n ls h) (newtonLoop pinv ml σ eps normal s n ls h') := by
  refine (alike_restated s).newton (fun e => by rw [e]) (by rintro x _ u rfl; rfl) normal ?_ ?_ pinv ml trivial eps n ls r
  · intro h h' r
    rw [losses_restated r]
  · intro h h' r
    have j := jacobian_restated r s
    rw [losses_restated r]
    generalize getJacobian h s = e at j
    generalize getJacobian h' s = e' at j
    cases j with
    | error r1 => exact .error r1
    | ok e r1 => subst e; exact .ok ⟨rfl, fun _ => rfl⟩ r1

end Isotope
