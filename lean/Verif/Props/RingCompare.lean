import Verif.Props.Arcs

/-!
# Comparing rings (C70)
-/

namespace Isotope
variable {F : Type} [Num F]

/-- laws of `==`: symmetric and transitive (it is on `f64`; NaN equals nothing) -/
class EqLaws (F : Type) [Num F] : Prop where
  symm : ∀ a b : F, (a ==. b) = true → (b ==. a) = true
  trans : ∀ a b c : F, (a ==. b) = true → (b ==. c) = true → (a ==. c) = true

instance : EqLaws XR where
  symm a b h := by have e := XR.of_eq h; subst e; exact h
  trans a b c h k := by rw [XR.of_eq h]; exact k

instance {lm : Libm} : EqLaws (B64 lm) where
  symm a b h := by
    rw [B64.eq_iff] at h ⊢
    exact ⟨h.2.1, h.1, h.2.2.symm⟩
  trans a b c h k := by
    rw [B64.eq_iff] at h k ⊢
    exact ⟨h.1, k.2.1, h.2.2.trans k.2.2⟩

/-! ## `adjacent_edges` -/

theorem zip_fst_snd {α β : Type} (l : List (α × β)) : (l.map (·.1)).zip (l.map (·.2)) = l := by
  induction l with
  | nil => rfl
  | cons a l ih => simp [ih]

theorem enumFrom_pairwise {α : Type} (l : List α) (k : Nat) : (enumFrom k l).Pairwise (fun x y => x.1 < y.1) := by
  have : ((enumFrom k l).map (·.1)).Pairwise (· < ·) := by rw [enumFrom_map_fst]; exact List.pairwise_lt_range'
  exact List.pairwise_map.1 this

/-- **C70.** `adjacent_edges` of two lists of segments returns the pairs of positions `(i, j)` at which the segment of the
first list equals (by value) the reversed segment of the second: all of them, each once, in lexicographic order; and `None`
if there is none. -/
theorem C70_adjacent_edges (h : Heap F) (as bs : List (Segment F)) :
    ((Ring.segments as).adjacentEdges h (.segments bs) = none ↔
      ∀ (i j : Nat) (a b : Segment F), as[i]? = some a → bs[j]? = some b → a.beq h b.reverse = false) ∧
    ∀ I J, (Ring.segments as).adjacentEdges h (.segments bs) = some (I, J) →
      I.length = J.length ∧ (I.zip J).Pairwise (fun p q => p.1 < q.1 ∨ p.1 = q.1 ∧ p.2 < q.2) ∧
      ∀ i j, (i, j) ∈ I.zip J ↔ ∃ a b, as[i]? = some a ∧ bs[j]? = some b ∧ a.beq h b.reverse = true := by
  obtain ⟨pairs, hp⟩ : ∃ pairs, pairs = (enumFrom 0 as).flatMap (fun ia =>
    (enumFrom 0 bs).filterMap (fun ib => if ia.2.reverseEquals h ib.2 then some (ia.1, ib.1) else none)) := ⟨_, rfl⟩
  have e : (Ring.segments as).adjacentEdges h (.segments bs) =
      if pairs.isEmpty then none else some (pairs.map (·.1), pairs.map (·.2)) := by rw [hp]; rfl
  have mem : ∀ i j, (i, j) ∈ pairs ↔ ∃ a b, as[i]? = some a ∧ bs[j]? = some b ∧ a.beq h b.reverse = true := by
    intro i j
    rw [hp, List.mem_flatMap]
    constructor
    · rintro ⟨⟨i', a⟩, ha, hm⟩
      obtain ⟨⟨j', b⟩, hb, hm⟩ := List.mem_filterMap.1 hm
      dsimp only at hm
      split at hm
      next hr =>
        simp only [Option.some.injEq, Prod.mk.injEq] at hm
        obtain ⟨rfl, rfl⟩ := hm
        exact ⟨a, b, mem_enum.1 ha, mem_enum.1 hb, hr⟩
      · cases hm
    · rintro ⟨a, b, ha, hb, hr⟩
      refine ⟨(i, a), mem_enum.2 ha, List.mem_filterMap.2 ⟨(j, b), mem_enum.2 hb, ?_⟩⟩
      dsimp only
      rw [Segment.reverseEquals, if_pos hr]
  constructor
  · rw [e]
    constructor
    · intro hn i j a b ha hb
      by_contra hc
      have := (mem i j).2 ⟨a, b, ha, hb, by simpa using hc⟩
      split at hn
      next he => rw [List.isEmpty_iff] at he; rw [he] at this; cases this
      · cases hn
    · intro hall
      rw [if_pos]
      rw [List.isEmpty_iff, List.eq_nil_iff_forall_not_mem]
      rintro ⟨i, j⟩ hm
      obtain ⟨a, b, ha, hb, hr⟩ := (mem i j).1 hm
      rw [hall i j a b ha hb] at hr
      cases hr
  · intro I J hs
    rw [e] at hs
    split at hs
    · cases hs
    · simp only [Option.some.injEq, Prod.mk.injEq] at hs
      obtain ⟨rfl, rfl⟩ := hs
      refine ⟨by simp, ?_, fun i j => by rw [zip_fst_snd]; exact mem i j⟩
      rw [zip_fst_snd, hp, List.pairwise_flatMap]
      constructor
      · rintro ⟨i, a⟩ _
        rw [List.pairwise_filterMap]
        refine (enumFrom_pairwise bs 0).imp ?_
        rintro ⟨j, b⟩ ⟨j', b'⟩ hlt p hp q hq
        dsimp only at hp hq hlt
        split at hp <;> split at hq <;> simp at hp hq
        subst hp; subst hq
        exact .inr ⟨rfl, hlt⟩
      · refine (enumFrom_pairwise as 0).imp ?_
        rintro ⟨i, a⟩ ⟨i', a'⟩ hlt p hp q hq
        obtain ⟨⟨j, b⟩, -, hm⟩ := List.mem_filterMap.1 hp
        obtain ⟨⟨j', b'⟩, -, hm'⟩ := List.mem_filterMap.1 hq
        dsimp only at hm hm' hlt
        split at hm <;> split at hm' <;> simp at hm hm'
        subst hm; subst hm'
        exact .inl hlt

/-- **C70.** A circle is adjacent to nothing. -/
theorem C70_circle_adjacent (h : Heap F) (c : Circle F) (r : Ring F) :
    (Ring.circle c).adjacentEdges h r = none ∧ r.adjacentEdges h (.circle c) = none := by
  constructor
  · rfl
  · cases r <;> rfl

theorem Vec2.beq_symm [EqLaws F] {a b : Vec2 F} (h : a.beq b = true) : b.beq a = true := by
  simp only [Vec2.beq, Bool.and_eq_true] at h ⊢
  exact ⟨EqLaws.symm _ _ h.1, EqLaws.symm _ _ h.2⟩

theorem Vec2.beq_trans [EqLaws F] {a b c : Vec2 F} (h : a.beq b = true) (k : b.beq c = true) : a.beq c = true := by
  simp only [Vec2.beq, Bool.and_eq_true] at h k ⊢
  exact ⟨EqLaws.trans _ _ _ h.1 k.1, EqLaws.trans _ _ _ h.2 k.2⟩

theorem Point2.beq_symm [EqLaws F] {a b : Point2 F} (h : a.beq b = true) : b.beq a = true := by
  simp only [Point2.beq, Bool.and_eq_true] at h ⊢
  exact ⟨Vec2.beq_symm h.1, Vec2.beq_symm h.2⟩

theorem Point2.beq_trans [EqLaws F] {a b c : Point2 F} (h : a.beq b = true) (k : b.beq c = true) : a.beq c = true := by
  simp only [Point2.beq, Bool.and_eq_true] at h k ⊢
  exact ⟨Vec2.beq_trans h.1 k.1, Vec2.beq_trans h.2 k.2⟩

theorem Row3.beq_symm [EqLaws F] {a b : Row3 F} (h : a.beq b = true) : b.beq a = true := by
  simp only [Row3.beq, Bool.and_eq_true] at h ⊢
  exact ⟨⟨EqLaws.symm _ _ h.1.1, EqLaws.symm _ _ h.1.2⟩, EqLaws.symm _ _ h.2⟩

theorem Row3.beq_trans [EqLaws F] {a b c : Row3 F} (h : a.beq b = true) (k : b.beq c = true) : a.beq c = true := by
  simp only [Row3.beq, Bool.and_eq_true] at h k ⊢
  exact ⟨⟨EqLaws.trans _ _ _ h.1.1 k.1.1, EqLaws.trans _ _ _ h.1.2 k.1.2⟩, EqLaws.trans _ _ _ h.2 k.2⟩

theorem Segment.beq_symm [EqLaws F] {h : Heap F} {a b : Segment F} (e : a.beq h b = true) : b.beq h a = true := by
  cases a with
  | line => cases b with
    | line => simp only [Segment.beq, Bool.and_eq_true] at e ⊢; exact ⟨Point2.beq_symm e.1, Point2.beq_symm e.2⟩
    | arc => cases e
  | arc => cases b with
    | line => cases e
    | arc =>
      simp only [Segment.beq, Arc.beq, Bool.and_eq_true, beq_iff_eq] at e ⊢
      exact ⟨⟨⟨Point2.beq_symm e.1.1.1, Row3.beq_symm e.1.1.2⟩, Row3.beq_symm e.1.2⟩, e.2.symm⟩

theorem Segment.beq_trans [EqLaws F] {h : Heap F} {a b c : Segment F} (e : a.beq h b = true) (k : b.beq h c = true) :
    a.beq h c = true := by
  cases a with
  | line => cases b with
    | line => cases c with
      | line =>
        simp only [Segment.beq, Bool.and_eq_true] at e k ⊢
        exact ⟨Point2.beq_trans e.1 k.1, Point2.beq_trans e.2 k.2⟩
      | arc => cases k
    | arc => cases e
  | arc => cases b with
    | line => cases e
    | arc => cases c with
      | line => cases k
      | arc =>
        simp only [Segment.beq, Arc.beq, Bool.and_eq_true, beq_iff_eq] at e k ⊢
        exact ⟨⟨⟨Point2.beq_trans e.1.1.1 k.1.1.1, Row3.beq_trans e.1.1.2 k.1.1.2⟩, Row3.beq_trans e.1.2 k.1.2⟩,
          e.2.trans k.2⟩

/-- a line, or an arc with no gradient stored -/
def Segment.Still : Segment F → Prop
  | .line _ _ => True
  | .arc a => a.grad.beq Row3.zeros = true

theorem Segment.reverse_symm [EqLaws F] {h : Heap F} {a b : Segment F} (hb : b.Still)
    (e : a.beq h b.reverse = true) : b.beq h a.reverse = true := by
  cases a with
  | line => cases b with
    | line =>
      simp only [Segment.reverse, Segment.beq, Bool.and_eq_true] at e ⊢
      exact ⟨Point2.beq_symm e.2, Point2.beq_symm e.1⟩
    | arc => cases e
  | arc a => cases b with
    | line => cases e
    | arc b =>
      simp only [Segment.reverse, Segment.beq, Arc.beq, Arc.reverse, Arc.new, Bool.and_eq_true, beq_iff_eq] at e ⊢
      obtain ⟨⟨⟨e1, e2⟩, e3⟩, e4⟩ := e
      refine ⟨⟨⟨Point2.beq_symm e1, ?_⟩, hb⟩, by rw [e4]; simp⟩
      simp only [Row3.beq, Arc.radius, Arc.startAngle, Arc.endAngle, Bool.and_eq_true] at e2 ⊢
      exact ⟨⟨EqLaws.symm _ _ e2.1.1, EqLaws.symm _ _ e2.2⟩, EqLaws.symm _ _ e2.1.2⟩

/-- **C70.** Between rings of lines and of arcs with no gradient stored, adjacency is mutual, edge by edge. -/
theorem C70_mutual [EqLaws F] (h : Heap F) (as bs : List (Segment F)) (ha : ∀ a ∈ as, a.Still) (hb : ∀ b ∈ bs, b.Still) :
    ((Ring.segments as).adjacentEdges h (.segments bs) = none ↔ (Ring.segments bs).adjacentEdges h (.segments as) = none) ∧
    ∀ I J K L, (Ring.segments as).adjacentEdges h (.segments bs) = some (I, J) →
      (Ring.segments bs).adjacentEdges h (.segments as) = some (K, L) → ∀ i j, (i, j) ∈ I.zip J ↔ (j, i) ∈ K.zip L := by
  obtain ⟨n1, s1⟩ := C70_adjacent_edges h as bs
  obtain ⟨n2, s2⟩ := C70_adjacent_edges h bs as
  have key : ∀ a ∈ as, ∀ b ∈ bs, (a.beq h b.reverse = true ↔ b.beq h a.reverse = true) := fun a h1 b h2 =>
    ⟨Segment.reverse_symm (hb b h2), Segment.reverse_symm (ha a h1)⟩
  constructor
  · rw [n1, n2]
    constructor
    · intro hall i j b a h1 h2
      rw [Bool.eq_false_iff, Ne, ← key a (List.mem_of_getElem? h2) b (List.mem_of_getElem? h1), hall j i a b h2 h1]
      simp
    · intro hall i j a b h1 h2
      rw [Bool.eq_false_iff, Ne, key a (List.mem_of_getElem? h1) b (List.mem_of_getElem? h2), hall j i b a h2 h1]
      simp
  · intro I J K L e1 e2 i j
    rw [(s1 I J e1).2.2, (s2 K L e2).2.2]
    constructor
    · rintro ⟨a, b, h1, h2, h3⟩
      exact ⟨b, a, h2, h1, (key a (List.mem_of_getElem? h1) b (List.mem_of_getElem? h2)).1 h3⟩
    · rintro ⟨b, a, h1, h2, h3⟩
      exact ⟨a, b, h2, h1, (key a (List.mem_of_getElem? h2) b (List.mem_of_getElem? h1)).2 h3⟩

/-! ## Equality of rings -/

/-- **C70.** `==` on rings is symmetric and transitive, and a ring equals itself unless a number in it is NaN. -/
theorem C70_ring_eq [EqLaws F] (h : Heap F) :
    (∀ a b : Ring F, a.beq h b = true → b.beq h a = true) ∧
    (∀ a b c : Ring F, a.beq h b = true → b.beq h c = true → a.beq h c = true) ∧
    (∀ l : List (Segment F), (Ring.segments l).beq h (.segments l) = true ↔ ∀ sg ∈ l, sg.beq h sg = true) := by
  have all : ∀ as bs : List (Segment F), (as.length == bs.length && (as.zip bs).all (fun p => p.1.beq h p.2)) = true ↔
      List.Forall₂ (fun a b => a.beq h b = true) as bs := by
    intro as bs
    rw [List.forall₂_iff_zip, Bool.and_eq_true, beq_iff_eq, List.all_eq_true]
    constructor
    · rintro ⟨h1, h2⟩; exact ⟨h1, fun hm => h2 _ hm⟩
    · rintro ⟨h1, h2⟩; exact ⟨h1, fun p hp => h2 hp⟩
  refine ⟨?_, ?_, ?_⟩
  · intro a b e
    cases a with
    | circle a => cases b with
      | circle b =>
        simp only [Ring.beq, Circle.beq, Bool.and_eq_true] at e ⊢
        exact ⟨⟨Point2.beq_symm e.1.1, EqLaws.symm _ _ e.1.2⟩, EqLaws.symm _ _ e.2⟩
      | segments => cases e
    | segments as => cases b with
      | circle => cases e
      | segments bs =>
        rw [Ring.beq, all] at e ⊢
        exact List.Forall₂.flip (e.imp (fun _ _ => Segment.beq_symm))
  · intro a b c e k
    cases a with
    | circle a => cases b with
      | circle b => cases c with
        | circle c =>
          simp only [Ring.beq, Circle.beq, Bool.and_eq_true] at e k ⊢
          exact ⟨⟨Point2.beq_trans e.1.1 k.1.1, EqLaws.trans _ _ _ e.1.2 k.1.2⟩, EqLaws.trans _ _ _ e.2 k.2⟩
        | segments => cases k
      | segments => cases e
    | segments as => cases b with
      | circle => cases e
      | segments bs => cases c with
        | circle => cases k
        | segments cs =>
          rw [Ring.beq, all] at e k ⊢
          clear all
          induction e generalizing cs with
          | nil => cases k; exact .nil
          | cons h1 _ ih => cases k with
            | cons h2 t => exact .cons (Segment.beq_trans h1 h2) (ih _ t)
  · intro l
    rw [Ring.beq, all]
    induction l with
    | nil => simp
    | cons a l ih => simp

/-- **C70.** Where a ring starts matters: a ring is not equal to the same ring started at its second segment, unless all its
segments are equal. -/
theorem C70_start_matters [EqLaws F] (h : Heap F) (l : List (Segment F))
    (e : (Ring.segments l).beq h (.segments (l.rotate 1)) = true) : ∀ a ∈ l, ∀ b ∈ l, a.beq h b = true := by
  cases l with
  | nil => simp
  | cons a l =>
    rw [List.rotate_cons_succ, List.rotate_zero, Ring.beq, Bool.and_eq_true] at e
    have e2 := e.2
    have key : ∀ (l : List (Segment F)) (x a : Segment F),
        ((x :: l).zip (l ++ [a])).all (fun p => p.1.beq h p.2) = true →
        ∀ b ∈ l ++ [a], x.beq h b = true := by
      intro l
      induction l with
      | nil => intro x a hh b hb; simp at hh hb; rw [hb]; exact hh
      | cons y l ih =>
        intro x a hh b hb
        simp only [List.cons_append, List.zip_cons_cons, List.all_cons, Bool.and_eq_true] at hh
        simp only [List.cons_append, List.mem_cons] at hb
        rcases hb with rfl | hb
        · exact hh.1
        · exact Segment.beq_trans hh.1 (ih y a hh.2 b hb)
    have h1 := key l a a e2
    have hm : ∀ b ∈ a :: l, a.beq h b = true := fun b hb => h1 b (by simp at hb ⊢; tauto)
    exact fun x hx y hy => Segment.beq_trans (Segment.beq_symm (hm x hx)) (hm y hy)

/-! ## One-way adjacency -/

section
open XR

/-- a centre and the corners of two boxes, one above the other -/
def twoBoxPts : List (Int × Int) := [(0, 0), (-1, 0), (-1, -1), (1, -1), (1, 0), (1, 2), (-1, 2)]

/-- the boundary between the boxes is a half circle, in which a gradient has been stored -/
noncomputable def twoBoxArc : Segment XR := .arc ⟨0, ⟨fin 1, fin 0, fin Real.pi⟩, ⟨fin 1, fin 0, fin 0⟩, false⟩

/-- the half circle and the other three sides of both boxes -/
noncomputable def twoBoxHeap : Heap XR := drawing (realPts twoBoxPts) [(1, 2), (2, 3), (3, 4), (4, 5), (5, 6), (6, 1)]
  [⟨0, ⟨fin 1, fin 0, fin Real.pi⟩, ⟨fin 1, fin 0, fin 0⟩, false⟩]

/-- the sketch of all of it -/
def twoBoxSketch : Sketch := ⟨[(0, .point 0), (1, .point 1), (2, .point 2), (3, .point 3), (4, .point 4), (5, .point 5),
  (6, .point 6), (7, .arc 0), (8, .line 0), (9, .line 1), (10, .line 2), (11, .line 3), (12, .line 4), (13, .line 5)], 14, []⟩

/-- the lower box -/
noncomputable def lowerBox : Ring XR := .segments [twoBoxArc, .line 1 2, .line 2 3, .line 3 4]
/-- the upper box -/
noncomputable def upperBox : Ring XR := .segments [.line 4 5, .line 5 6, .line 6 1, twoBoxArc.reverse]

theorem twoBoxArc_eq : twoBoxArc = (GSeg.arc 0 1 0 2 false 1).xr := by
  simp [twoBoxArc, GSeg.xr]

theorem twoBox_traced : (tracedRings twoBoxHeap twoBoxSketch).2.map (fun r => r.map (·.2)) =
      [[twoBoxArc, .line 1 2, .line 2 3, .line 3 4], [.line 4 5, .line 5 6, .line 6 1, twoBoxArc.reverse],
       [.line 2 1, .line 1 6, .line 6 5, .line 5 4, .line 4 3, .line 3 2]] := by
  have := GSeg.traced twoBoxPts [(1, 2), (2, 3), (3, 4), (4, 5), (5, 6), (6, 1)]
    [⟨0, ⟨fin 1, fin 0, fin Real.pi⟩, ⟨fin 1, fin 0, fin 0⟩, false⟩] twoBoxSketch
    [.arc 0 1 0 2 false 1, .line 1 2, .line 2 3, .line 3 4, .line 4 5, .line 5 6, .line 6 1, .arc 0 1 2 0 true 0, .line 2 1,
      .line 3 2, .line 4 3, .line 5 4, .line 6 5, .line 1 6] (by
      show [twoBoxArc, .line 1 2, .line 2 3, .line 3 4, .line 4 5, .line 5 6, .line 6 1, twoBoxArc.reverse, .line 2 1,
        .line 3 2, .line 4 3, .line 5 4, .line 6 5, .line 1 6] = _
      rw [twoBoxArc_eq, ← GSeg.xr_reverse]
      rfl) (by decide) [0, 1, 2, 3, 4, 5, 6, 7, 8, 13, 12, 11, 10, 9] [[0, 1, 2, 3], [4, 5, 6, 7], [8, 13, 12, 11, 10, 9]]
      (by decide)
  rw [twoBoxArc_eq, ← GSeg.xr_reverse]
  exact this.2

theorem enumFrom_map {α β : Type} (f : α → β) (l : List α) (k : Nat) :
    enumFrom k (l.map f) = (enumFrom k l).map (fun x => (x.1, f x.2)) := by
  induction l generalizing k with
  | nil => rfl
  | cons a l ih => simp [enumFrom, ih]

theorem twoBox_adjacent (A B : List GSeg) :
    (Ring.segments (A.map GSeg.xr)).adjacentEdges twoBoxHeap (.segments (B.map GSeg.xr)) =
      (Ring.segments (A.map GSeg.grid)).adjacentEdges (gridHeap twoBoxPts []) (.segments (B.map GSeg.grid)) := by
  have seg : ∀ g k : GSeg, g.xr.reverseEquals twoBoxHeap k.xr = g.grid.reverseEquals (gridHeap twoBoxPts []) k.grid := by
    intro g k
    unfold Segment.reverseEquals
    rw [← GSeg.xr_reverse, ← GSeg.grid_reverse]
    exact GSeg.beq _ _ _ _ _ _
  simp only [Ring.adjacentEdges, enumFrom_map, List.flatMap_map, List.filterMap_map, Function.comp_def, seg]

/-- **C70 (refutation).** With a gradient stored in an arc, as after every gradient computation, adjacency is one-way: two
neighbouring rings share the arc, yet only the second knows it. -/
theorem C70_one_way :
    lowerBox ∈ (findRings twoBoxHeap twoBoxSketch).1 ∧ upperBox ∈ (findRings twoBoxHeap twoBoxSketch).1 ∧
    lowerBox.adjacentEdges twoBoxHeap upperBox = none ∧ upperBox.adjacentEdges twoBoxHeap lowerBox = some ([3], [0]) := by
  have ends : twoBoxArc.getStart twoBoxHeap = ⟨fin 1, fin 0⟩ ∧ twoBoxArc.getEnd twoBoxHeap = ⟨fin (-1), fin 0⟩ ∧
      twoBoxArc.reverse.getStart twoBoxHeap = ⟨fin (-1), fin 0⟩ ∧ twoBoxArc.reverse.getEnd twoBoxHeap = ⟨fin 1, fin 0⟩ := by
    simp [twoBoxArc, twoBoxHeap, drawing, Segment.getStart, Segment.getEnd, Segment.reverse, Arc.reverse, Arc.new,
      Arc.startPoint, Arc.endPoint, Arc.radius, Arc.startAngle, Arc.endAngle, toVec, realPts, twoBoxPts]
  have lend : ∀ a b, (Segment.line a b : Segment XR).getStart twoBoxHeap = toVec ((realPts twoBoxPts).getD a (0, 0)) ∧
      (Segment.line a b : Segment XR).getEnd twoBoxHeap = toVec ((realPts twoBoxPts).getD b (0, 0)) := fun a b => ⟨rfl, rfl⟩
  have ring : ∀ l, l ∈ (tracedRings twoBoxHeap twoBoxSketch).2.map (fun r => r.map (·.2)) →
      ∃ t ∈ (tracedRings twoBoxHeap twoBoxSketch).2, Ring.segments l = .segments (t.map (·.2)) := by
    intro l hl
    obtain ⟨t, ht, e⟩ := List.mem_map.1 hl
    exact ⟨t, ht, by rw [← e]⟩
  rw [twoBox_traced] at ring
  refine ⟨mem_findRings.2 ⟨.inr (ring _ (by simp)), ?_⟩, mem_findRings.2 ⟨.inr (ring _ (by simp)), ?_⟩, ?_, ?_⟩
  · have a1 : lowerBox.signedArea twoBoxHeap = fin 2 := by
      simp only [lowerBox, Ring.signedArea, List.foldl_cons, List.foldl_nil, ends, lend, realPts_getD, toVec, twoBoxPts]
      simp
      norm_num [div_fin]
    show gt (lowerBox.signedArea twoBoxHeap) _ = true
    rw [a1, lit0]; simp [gt]
  · have a1 : upperBox.signedArea twoBoxHeap = fin 4 := by
      simp only [upperBox, Ring.signedArea, List.foldl_cons, List.foldl_nil, ends, lend, realPts_getD, toVec, twoBoxPts]
      simp
      norm_num [div_fin]
    show gt (upperBox.signedArea twoBoxHeap) _ = true
    rw [a1, lit0]; simp [gt]
  · rw [lowerBox, upperBox, twoBoxArc_eq, ← GSeg.xr_reverse]
    exact (twoBox_adjacent [.arc 0 1 0 2 false 1, .line 1 2, .line 2 3, .line 3 4]
      [.line 4 5, .line 5 6, .line 6 1, .arc 0 1 2 0 true 0]).trans (by decide)
  · rw [lowerBox, upperBox, twoBoxArc_eq, ← GSeg.xr_reverse]
    exact (twoBox_adjacent [.line 4 5, .line 5 6, .line 6 1, .arc 0 1 2 0 true 0]
      [.arc 0 1 0 2 false 1, .line 1 2, .line 2 3, .line 3 4]).trans (by decide)

/-- the hypotheses of `C70_mutual` can be met -/
example : ∀ a ∈ ([.line 4 5, .line 5 6, .line 6 1, twoBoxArc.reverse] : List (Segment XR)), a.Still := by
  intro a ha
  simp only [List.mem_cons, List.not_mem_nil, or_false] at ha
  rcases ha with rfl | rfl | rfl | rfl
  · trivial
  · trivial
  · trivial
  · simp [twoBoxArc, Segment.reverse, Segment.Still, Arc.reverse, Arc.new, Row3.zeros, Row3.beq]

/-- the hypothesis of `C70_start_matters` can be met: a line that starts and ends at one point, twice -/
example : (Ring.segments [.line 1 1, .line 1 1]).beq twoBoxHeap (.segments (([.line 1 1, .line 1 1] : List (Segment XR)).rotate 1)) =
    true := by
  simp [Ring.beq, Segment.beq, Point2.beq, Vec2.beq, twoBoxHeap, drawing, toVec, twoBoxPts, realPts]

end

end Isotope
