import Verif.Lemmas.Chord

/-!
# Putting a point on a line of a drawing
-/

namespace Isotope

variable {L L' : List ((ℝ × ℝ) × (ℝ × ℝ))} {a b m x y z d : ℝ × ℝ}

/-- in `L'` the line between `a` and `b` is replaced by two, which meet in the new point `m` -/
structure Splits (L L' : List ((ℝ × ℝ) × (ℝ × ℝ))) (a b m : ℝ × ℝ) : Prop where
  joined : Joined L a b
  free : ∀ x, ¬Joined L m x
  iff : ∀ x y, Joined L' x y ↔ (Joined L x y ∧ ¬((x, y) = (a, b) ∨ (x, y) = (b, a))) ∨ (y = m ∧ (x = a ∨ x = b)) ∨ (x = m ∧ (y = a ∨ y = b))
  dir : direction a m = direction a b
  dir' : direction b m = direction b a
  turn : leftTurn a m b ≠ 0
  turn' : leftTurn b m a ≠ 0
  ne : a ≠ b

open Classical in
/-- what is seen from `y` in the direction of `z` -/
noncomputable def seen (a b m y z : ℝ × ℝ) : ℝ × ℝ := if (y, z) = (a, b) ∨ (y, z) = (b, a) then m else z

theorem joined_symm (h : Joined L x y) : Joined L y x := h.symm

variable (k : Splits L L' a b m)
include k

theorem Splits.ne_left (h : Joined L x y) : x ≠ m := fun e => k.free y (e ▸ h)

theorem Splits.ne_right (h : Joined L x y) : y ≠ m := fun e => k.free x (e ▸ h.symm)

theorem Splits.dir_seen (y z : ℝ × ℝ) : direction y (seen a b m y z) = direction y z := by
  unfold seen
  split
  · rename_i h
    rcases h with h | h
    · obtain ⟨rfl, rfl⟩ := Prod.mk.inj h; exact k.dir
    · obtain ⟨rfl, rfl⟩ := Prod.mk.inj h; exact k.dir'
  · rfl

theorem Splits.turn_seen (x y z : ℝ × ℝ) : leftTurn (seen a b m y x) y (seen a b m y z) = leftTurn x y z := by
  unfold leftTurn
  rw [k.dir_seen, k.dir_seen]

theorem Splits.joined_seen (h : Joined L y z) : Joined L' y (seen a b m y z) := by
  unfold seen
  rw [k.iff]
  split
  · rename_i h
    refine .inr (.inl ⟨rfl, ?_⟩)
    rcases h with h | h
    · exact .inl (Prod.mk.inj h).1
    · exact .inr (Prod.mk.inj h).1
  · rename_i h'
    exact .inl ⟨h, h'⟩

theorem Splits.seen_surj (hy : y ≠ m) (h : Joined L' y d) : ∃ z, Joined L y z ∧ seen a b m y z = d := by
  rcases (k.iff _ _).1 h with ⟨h1, h2⟩ | ⟨rfl, rfl | rfl⟩ | ⟨h1, -⟩
  · exact ⟨d, h1, by unfold seen; rw [if_neg h2]⟩
  · exact ⟨b, k.joined, by unfold seen; rw [if_pos (.inl rfl)]⟩
  · exact ⟨a, k.joined.symm, by unfold seen; rw [if_pos (.inr rfl)]⟩
  · exact absurd h1 hy

theorem Splits.seen_inj (h : Joined L y z) (h' : Joined L y x) (e : seen a b m y z = seen a b m y x) : z = x := by
  have n1 := k.ne_right h
  have n2 := k.ne_right h'
  have hab := k.ne
  unfold seen at e
  split at e
  · split at e
    · rename_i e1 e2
      rcases e1 with e1 | e1 <;> rcases e2 with e2 | e2 <;> cases e1 <;> cases e2
      · rfl
      · exact absurd rfl hab
      · exact absurd rfl hab
      · rfl
    · exact absurd e.symm n2
  · split at e
    · exact absurd e n1
    · exact e

theorem Splits.hardest (hx : Joined L y x) (h : HardestLeft L x y z) : HardestLeft L' (seen a b m y x) y (seen a b m y z) := by
  refine ⟨k.joined_seen h.1, fun e => h.2.1 (k.seen_inj h.1 hx e), fun d hd hda => ?_⟩
  obtain ⟨z', h1, rfl⟩ := k.seen_surj (k.ne_left hx) hd
  rw [k.turn_seen, k.turn_seen]
  exact h.2.2 z' h1 fun e => hda (e ▸ rfl)

theorem Splits.hardest_back (hx : Joined L y x) (h : HardestLeft L' (seen a b m y x) y d) : ∃ z, seen a b m y z = d ∧ HardestLeft L x y z := by
  obtain ⟨z, h1, rfl⟩ := k.seen_surj (k.ne_left hx) h.1
  refine ⟨z, rfl, h1, fun e => h.2.1 (e ▸ rfl), fun d hd hda => ?_⟩
  have := h.2.2 _ (k.joined_seen hd) fun e => hda (k.seen_inj hd hx e)
  rwa [k.turn_seen, k.turn_seen] at this

theorem Splits.at_new (h : Joined L' m x) : x = a ∨ x = b := by
  rcases (k.iff _ _).1 h with ⟨h1, -⟩ | ⟨-, h2⟩ | ⟨-, h2⟩
  · exact absurd h1 (k.free _)
  · rcases h2 with e | e
    · exact absurd e.symm (k.ne_left k.joined)
    · exact absurd e.symm (k.ne_right k.joined)
  · exact h2

theorem Splits.new_joined (h : x = a ∨ x = b) : Joined L' m x := (k.iff _ _).2 (.inr (.inr ⟨rfl, h⟩))

theorem Splits.through (h : (x, y) = (a, b) ∨ (x, y) = (b, a)) : HardestLeft L' x m y := by
  have hab := k.ne
  have e : (x = a ∧ y = b) ∨ (x = b ∧ y = a) := h.imp Prod.mk.inj Prod.mk.inj
  refine ⟨k.new_joined (by tauto), ?_, fun d hd hdx => le_of_eq ?_⟩
  · rintro rfl
    rcases e with ⟨rfl, e⟩ | ⟨rfl, e⟩
    · exact hab e
    · exact hab e.symm
  · have := k.at_new hd
    congr 1
    rcases e with ⟨rfl, rfl⟩ | ⟨rfl, rfl⟩
    · exact this.resolve_left hdx
    · exact this.resolve_right hdx

theorem Splits.through_back (hx : Joined L' m x) (h : HardestLeft L' x m y) : (x, y) = (a, b) ∨ (x, y) = (b, a) := by
  rcases k.at_new hx with rfl | rfl <;> rcases k.at_new h.1 with rfl | rfl
  · exact absurd rfl h.2.1
  · exact .inl rfl
  · exact .inr rfl
  · exact absurd rfl h.2.1

theorem Splits.plain (hp : PlainLines L) (hn : (L' ++ L'.map Prod.swap).Nodup) : PlainLines L' := by
  refine ⟨hn, fun u v w h1 h2 h3 => ?_⟩
  by_cases e : v = m
  · subst e
    rcases k.at_new h1 with rfl | rfl <;> rcases k.at_new h2 with rfl | rfl
    · rfl
    · exact absurd h3 k.turn
    · exact absurd h3 k.turn'
    · rfl
  · obtain ⟨x, g1, rfl⟩ := k.seen_surj e h1
    obtain ⟨z, g2, rfl⟩ := k.seen_surj e h2
    rw [k.turn_seen] at h3
    rw [hp.2 _ _ _ g1 g2 h3]

/-! ## Closing up -/

omit k in
/-- one hardest left turn -/
def Next (L : List ((ℝ × ℝ) × (ℝ × ℝ))) (e f : (ℝ × ℝ) × (ℝ × ℝ)) : Prop := e.2 = f.1 ∧ HardestLeft L e.1 e.2 f.2

omit k in
theorem next_of_walk {w : Nat → ℝ × ℝ} {n : Nat} (h : ∀ i, i < n → HardestLeft L (w i) (w (i + 1)) (w (i + 2))) :
    Relation.ReflTransGen (Next L) (w 0, w 1) (w n, w (n + 1)) := by
  induction n with
  | zero => exact .refl
  | succ n ih => exact (ih fun i hi => h i (by omega)).tail ⟨rfl, h n (by omega)⟩

omit k in
theorem walk_of_next {e f : (ℝ × ℝ) × (ℝ × ℝ)} (h : Relation.ReflTransGen (Next L) e f) :
    ∃ (w : Nat → ℝ × ℝ) (n : Nat), (w 0, w 1) = e ∧ (w n, w (n + 1)) = f ∧
      ∀ i, i < n → HardestLeft L (w i) (w (i + 1)) (w (i + 2)) := by
  induction h using Relation.ReflTransGen.head_induction_on with
  | refl => exact ⟨fun i => if i = 0 then f.1 else f.2, 0, by simp, by simp, fun i hi => by omega⟩
  | @head e g h1 _ ih =>
    obtain ⟨w, n, e1, e2, e3⟩ := ih
    obtain ⟨r1, r2⟩ := h1
    refine ⟨fun i => if i = 0 then e.1 else w (i - 1), n + 1, ?_, by simpa using e2, fun i hi => ?_⟩
    · have : w 0 = g.1 := by rw [← e1]
      simp [this, ← r1]
    · cases i with
      | zero =>
        have q1 : w 0 = g.1 := by rw [← e1]
        have q2 : w 1 = g.2 := by rw [← e1]
        simp only [if_true]
        simpa [q1, q2, ← r1] using r2
      | succ i => simpa using e3 i (by omega)

omit k in
theorem closes_iff : ClosesUp L ↔ ∀ u v x, Joined L u v → Relation.ReflTransGen (Next L) (u, v) (x, u) → HardestLeft L x u v := by
  constructor
  · intro h u v x hj hr
    obtain ⟨w, n, e1, e2, e3⟩ := walk_of_next hr
    obtain ⟨rfl, rfl⟩ := Prod.mk.inj e1
    obtain ⟨rfl, e⟩ := Prod.mk.inj e2
    exact h w n hj e3 e
  · intro h w n hj hw hn
    have := next_of_walk hw
    rw [hn] at this
    exact h _ _ _ hj this

omit k in
/-- the line of the old drawing that a line of the new one lies on -/
noncomputable def whole (a b m : ℝ × ℝ) (e : (ℝ × ℝ) × (ℝ × ℝ)) : (ℝ × ℝ) × (ℝ × ℝ) :=
  open Classical in
  if e = (a, m) ∨ e = (m, b) then (a, b) else if e = (b, m) ∨ e = (m, a) then (b, a) else e

theorem Splits.whole_to (h : Joined L y z) : whole a b m (y, seen a b m y z) = (y, z) := by
  have n1 := k.ne_left h
  have n2 := k.ne_right h
  have hab := k.ne
  unfold whole seen
  by_cases e : (y, z) = (a, b) ∨ (y, z) = (b, a)
  · rw [if_pos e]
    rcases e with e | e
    · cases e; rw [if_pos (.inl rfl)]
    · cases e
      rw [if_neg, if_pos (.inl rfl)]
      rintro (e | e)
      · exact hab (Prod.mk.inj e).1.symm
      · exact n1 (Prod.mk.inj e).1
  · rw [if_neg e, if_neg, if_neg]
    · rintro (e | e)
      · exact n2 (Prod.mk.inj e).2
      · exact n1 (Prod.mk.inj e).1
    · rintro (e | e)
      · exact n2 (Prod.mk.inj e).2
      · exact n1 (Prod.mk.inj e).1

theorem Splits.whole_from (h : Joined L y x) : whole a b m (seen a b m y x, y) = (x, y) := by
  have n1 := k.ne_left h
  have n2 := k.ne_right h
  have hab := k.ne
  unfold whole seen
  by_cases e : (y, x) = (a, b) ∨ (y, x) = (b, a)
  · rw [if_pos e]
    rcases e with e | e
    · cases e
      rw [if_neg, if_pos (.inr rfl)]
      rintro (e | e)
      · exact n1 (Prod.mk.inj e).2
      · exact hab (Prod.mk.inj e).2
    · cases e
      rw [if_pos (.inr rfl)]
  · rw [if_neg e, if_neg, if_neg]
    · rintro (e | e)
      · exact n1 (Prod.mk.inj e).2
      · exact n2 (Prod.mk.inj e).1
    · rintro (e | e)
      · exact n1 (Prod.mk.inj e).2
      · exact n2 (Prod.mk.inj e).1

theorem Splits.whole_next {e f : (ℝ × ℝ) × (ℝ × ℝ)} (hj : Joined L' e.1 e.2) (h : Next L' e f) :
    whole a b m e = whole a b m f ∨ Next L (whole a b m e) (whole a b m f) := by
  obtain ⟨u, v⟩ := e
  obtain ⟨v', w⟩ := f
  obtain ⟨e1, h⟩ := h
  dsimp only at e1 h hj
  subst e1
  by_cases e : v = m
  · subst e
    left
    have hab := k.ne
    have n1 := k.ne_left k.joined
    have n2 := k.ne_right k.joined
    rcases k.through_back hj.symm h with e | e
    · cases e
      unfold whole
      rw [if_pos (.inl rfl), if_pos (.inr rfl)]
    · cases e
      unfold whole
      rw [if_neg, if_pos (.inl rfl), if_neg, if_pos (.inr rfl)]
      · rintro (e | e)
        · exact n1 (Prod.mk.inj e).1.symm
        · exact hab (Prod.mk.inj e).2
      · rintro (e | e)
        · exact hab (Prod.mk.inj e).1.symm
        · exact n2 (Prod.mk.inj e).1
  · right
    obtain ⟨x, g1, rfl⟩ := k.seen_surj e hj.symm
    obtain ⟨z, rfl, g2⟩ := k.hardest_back g1 h
    rw [k.whole_from g1, k.whole_to g2.1]
    exact ⟨rfl, g2⟩

theorem Splits.reach {e f : (ℝ × ℝ) × (ℝ × ℝ)} (hj : Joined L' e.1 e.2) (h : Relation.ReflTransGen (Next L') e f) :
    Relation.ReflTransGen (Next L) (whole a b m e) (whole a b m f) ∧ Joined L' f.1 f.2 := by
  induction h with
  | refl => exact ⟨.refl, hj⟩
  | @tail f g _ h2 ih =>
    refine ⟨?_, h2.1 ▸ h2.2.1⟩
    rcases k.whole_next ih.2 h2 with e | e
    · rw [← e]; exact ih.1
    · exact ih.1.tail e

theorem Splits.closes (hc : ClosesUp L) : ClosesUp L' := by
  rw [closes_iff] at hc ⊢
  intro u v x hj hr
  obtain ⟨hr, hx⟩ := k.reach hj hr
  dsimp only at hx
  by_cases e : u = m
  · subst e
    have hab := k.ne
    have n1 := k.ne_left k.joined
    have n2 := k.ne_right k.joined
    have w1 : whole a b u (a, u) = (a, b) := by unfold whole; rw [if_pos (.inl rfl)]
    have w2 : whole a b u (u, b) = (a, b) := by unfold whole; rw [if_pos (.inr rfl)]
    have w3 : whole a b u (b, u) = (b, a) := by
      unfold whole
      rw [if_neg, if_pos (.inl rfl)]
      rintro (e | e)
      · exact hab (Prod.mk.inj e).1.symm
      · exact n2 (Prod.mk.inj e).1
    have w4 : whole a b u (u, a) = (b, a) := by
      unfold whole
      rw [if_neg, if_pos (.inr rfl)]
      rintro (e | e)
      · exact n1 (Prod.mk.inj e).1.symm
      · exact hab (Prod.mk.inj e).2
    rcases k.at_new hj with rfl | rfl <;> rcases k.at_new hx.symm with rfl | rfl
    · rw [w1, w4] at hr
      exact absurd rfl (hc _ _ _ k.joined.symm hr).2.1
    · exact k.through (.inr rfl)
    · exact k.through (.inl rfl)
    · rw [w3, w2] at hr
      exact absurd rfl (hc _ _ _ k.joined hr).2.1
  · obtain ⟨v, g1, rfl⟩ := k.seen_surj e hj
    obtain ⟨x, g2, rfl⟩ := k.seen_surj e hx.symm
    rw [k.whole_to g1, k.whole_from g2] at hr
    exact k.hardest g2 (hc _ _ _ g1 hr)

/-! ## The circuits -/

omit k in
open Classical in
theorem links_withPoint (l : List (ℝ × ℝ)) (z : ℝ × ℝ) (x : ℝ × ℝ) : ∃ r,
    (links (x :: l ++ [z])).flatMap (fun e => if e = (a, b) ∨ e = (b, a) then [e.1, m] else [e.1]) = x :: r ∧
    links (x :: r ++ [z]) = (links (x :: l ++ [z])).flatMap (fun e => if e = (a, b) ∨ e = (b, a) then [(e.1, m), (m, e.2)] else [e]) := by
  induction l generalizing x with
  | nil =>
    simp only [List.cons_append, List.nil_append, links_cons]
    by_cases h : (x, z) = (a, b) ∨ (x, z) = (b, a)
    · exact ⟨[m], by simp [links, h, -Prod.mk.injEq], by simp [links, h, -Prod.mk.injEq]⟩
    · exact ⟨[], by simp [links, h, -Prod.mk.injEq], by simp [links, h, -Prod.mk.injEq]⟩
  | cons y l ih =>
    obtain ⟨r, e1, e2⟩ := ih y
    simp only [List.cons_append, links_cons, List.flatMap_cons] at e1 e2 ⊢
    rw [e1, ← e2]
    by_cases h : (x, y) = (a, b) ∨ (x, y) = (b, a)
    · exact ⟨m :: y :: r, by simp [h, -Prod.mk.injEq], by simp [h, links_cons, -Prod.mk.injEq]⟩
    · exact ⟨y :: r, by simp [h, -Prod.mk.injEq], by simp [h, links_cons, -Prod.mk.injEq]⟩

omit k in
open Classical in
theorem edges_withPoint (vs : List (ℝ × ℝ)) : edges (withPoint a b m vs) =
    (edges vs).flatMap (fun e => if e = (a, b) ∨ e = (b, a) then [(e.1, m), (m, e.2)] else [e]) := by
  cases vs with
  | nil => rfl
  | cons x l =>
    unfold withPoint
    rw [edges_links]
    obtain ⟨r, e1, e2⟩ := links_withPoint (a := a) (b := b) (m := m) l x x
    rw [e1, edges_links, e2]

omit k in
theorem withPoint_ne {vs : List (ℝ × ℝ)} (h : vs ≠ []) : withPoint a b m vs ≠ [] := by
  cases vs with
  | nil => exact absurd rfl h
  | cons x l =>
    classical
    unfold withPoint
    rw [edges_links]
    obtain ⟨r, e1, -⟩ := links_withPoint (a := a) (b := b) (m := m) l x x
    rw [e1]
    simp

omit k in
theorem withPoint_shoelace (hb : Between a b m) (vs : List (ℝ × ℝ)) : shoelace (withPoint a b m vs) = shoelace vs := by
  classical
  obtain ⟨t, -, -, rfl⟩ := hb
  unfold shoelace
  rw [edges_withPoint]
  congr 1
  generalize edges vs = es
  induction es with
  | nil => rfl
  | cons e es ih =>
    rw [List.flatMap_cons, List.map_append, List.sum_append, ih, List.map_cons, List.sum_cons]
    congr 1
    split
    · rename_i h
      rcases h with rfl | rfl <;> simp only [List.map_cons, List.map_nil, List.sum_cons, List.sum_nil, cross] <;> ring
    · simp

omit k in
theorem withPoint_rotated {vs ws : List (ℝ × ℝ)} (h : vs ~r ws) : withPoint a b m vs ~r withPoint a b m ws := by
  obtain ⟨n, rfl⟩ := h
  unfold withPoint
  rw [edges_rotate]
  generalize edges vs = es
  rw [List.rotate_eq_drop_append_take_mod, List.flatMap_append]
  conv_lhs => rw [← List.take_append_drop (n % es.length) es, List.flatMap_append]
  exact List.isRotated_append

omit k in
theorem filter_rotated {vs ws : List (ℝ × ℝ)} (q : ℝ × ℝ → Bool) (h : vs ~r ws) : vs.filter q ~r ws.filter q := by
  obtain ⟨n, rfl⟩ := h
  rw [List.rotate_eq_drop_append_take_mod, List.filter_append]
  conv_lhs => rw [← List.take_append_drop (n % vs.length) vs, List.filter_append]
  exact List.isRotated_append

omit k in
open Classical in
theorem withPoint_filter {vs : List (ℝ × ℝ)} (h : m ∉ vs) : (withPoint a b m vs).filter (fun x => decide (x ≠ m)) = vs := by
  have key : ∀ es : List ((ℝ × ℝ) × (ℝ × ℝ)), m ∉ es.map Prod.fst →
      (es.flatMap (fun e => if e = (a, b) ∨ e = (b, a) then [e.1, m] else [e.1])).filter (fun x => decide (x ≠ m)) = es.map Prod.fst := by
    intro es
    induction es with
    | nil => intro _; rfl
    | cons e es ih =>
      intro hm
      rw [List.map_cons, List.mem_cons, not_or] at hm
      rw [List.flatMap_cons, List.filter_append, ih hm.2, List.map_cons]
      have := Ne.symm hm.1
      split <;> simp [this]
  have e1 : (edges vs).map Prod.fst = vs := by
    unfold edges
    rw [List.map_fst_zip]
    simp
  unfold withPoint
  rw [key _ (by rwa [e1]), e1]

omit k in
open Classical in
theorem withPoint_perm (vs : List (ℝ × ℝ)) : (withPoint a b m vs).Perm
    (vs ++ List.replicate ((edges vs).countP (fun e => decide (e = (a, b) ∨ e = (b, a)))) m) := by
  have key : ∀ es : List ((ℝ × ℝ) × (ℝ × ℝ)),
      (es.flatMap (fun e => if e = (a, b) ∨ e = (b, a) then [e.1, m] else [e.1])).Perm
        (es.map Prod.fst ++ List.replicate (es.countP (fun e => decide (e = (a, b) ∨ e = (b, a)))) m) := by
    intro es
    induction es with
    | nil => rfl
    | cons e es ih =>
      rw [List.flatMap_cons, List.map_cons, List.countP_cons]
      split
      · rename_i h
        simp only [h, decide_true, if_true, List.replicate_succ]
        refine (List.Perm.append_left _ ih).trans ?_
        simp only [List.cons_append, List.nil_append]
        exact (List.perm_middle.symm).cons _
      · rename_i h
        simp only [h, decide_false, Bool.false_eq_true, if_false, Nat.add_zero]
        exact (List.Perm.append_left _ ih)
  have e1 : (edges vs).map Prod.fst = vs := by
    unfold edges
    rw [List.map_fst_zip]
    simp
  have := key (edges vs)
  rw [e1] at this
  exact this

omit k in
theorem edges_fst {vs : List (ℝ × ℝ)} {e : (ℝ × ℝ) × (ℝ × ℝ)} (h : e ∈ edges vs) : e.1 ∈ vs := (List.of_mem_zip h).1

theorem Splits.free_around {vs : List (ℝ × ℝ)} (hv : Around L vs) : m ∉ vs := by
  intro hm
  obtain ⟨i, hi⟩ := List.mem_iff_getElem?.1 hm
  have h1 := hv.1
  have hl : i < vs.length := by
    by_contra hc
    rw [List.getElem?_eq_none (by omega)] at hi; cases hi
  have e : cyc vs i = m := by
    have := cyc_get h1 i
    rw [Nat.mod_eq_of_lt hl, hi] at this
    exact (Option.some.inj this).symm
  exact k.free _ (e ▸ hv.joined_of (cyc_edge h1 i))

theorem Splits.nodup {vs : List (ℝ × ℝ)} (hv : Around L vs) : (withPoint a b m vs).Nodup := by
  classical
  rw [(withPoint_perm vs).nodup_iff, List.nodup_append]
  have hab := k.ne
  obtain ⟨-, h2, h3⟩ := around_edges.1 hv
  have hm := k.free_around hv
  refine ⟨h2, ?_, ?_⟩
  · rw [List.nodup_replicate, List.countP_eq_length_filter]
    by_contra hc
    have hn := (edges_nodup h2).filter (fun e => decide (e = (a, b) ∨ e = (b, a)))
    have hm : ∀ e ∈ (edges vs).filter (fun e => decide (e = (a, b) ∨ e = (b, a))), e ∈ edges vs ∧ (e = (a, b) ∨ e = (b, a)) := by
      intro e he
      have := List.mem_filter.1 he
      exact ⟨this.1, of_decide_eq_true this.2⟩
    revert hc hn hm
    generalize (edges vs).filter (fun e => decide (e = (a, b) ∨ e = (b, a))) = es
    intro hc hn hm
    match es, hc, hn, hm with
    | [], hc, _, _ => simp at hc
    | [_], hc, _, _ => simp at hc
    | e :: f :: es, _, hn, hm =>
      obtain ⟨e1, e2⟩ := hm e (by simp)
      obtain ⟨f1, f2⟩ := hm f (by simp)
      have hne : e ≠ f := by
        rw [List.nodup_cons] at hn
        exact fun e => hn.1 (by simp [e])
      have both : (a, b) ∈ edges vs ∧ (b, a) ∈ edges vs := by
        rcases e2 with rfl | rfl <;> rcases f2 with rfl | rfl
        · exact absurd rfl hne
        · exact ⟨e1, f1⟩
        · exact ⟨f1, e1⟩
        · exact absurd rfl hne
      exact (h3 _ _ _ both.1 both.2).2.1 rfl
  · intro x hx y hy
    rw [List.eq_of_mem_replicate hy]
    exact fun e => hm (e ▸ hx)

omit k in
theorem mem_edges_withPoint {vs : List (ℝ × ℝ)} {e : (ℝ × ℝ) × (ℝ × ℝ)} : e ∈ edges (withPoint a b m vs) ↔
    ∃ f ∈ edges vs, (¬(f = (a, b) ∨ f = (b, a)) ∧ e = f) ∨ ((f = (a, b) ∨ f = (b, a)) ∧ (e = (f.1, m) ∨ e = (m, f.2))) := by
  classical
  rw [edges_withPoint, List.mem_flatMap]
  constructor
  · rintro ⟨f, hf, he⟩
    refine ⟨f, hf, ?_⟩
    split at he
    · rename_i h; exact .inr ⟨h, by simpa using he⟩
    · rename_i h; exact .inl ⟨h, by simpa using he⟩
  · rintro ⟨f, hf, ⟨h, he⟩ | ⟨h, he⟩⟩
    · exact ⟨f, hf, by rw [if_neg h]; simpa using he⟩
    · exact ⟨f, hf, by rw [if_pos h]; simpa using he⟩

omit k in
/-- every side of the new polygon ends like a side of the old one, and begins like one -/
theorem edge_to {vs : List (ℝ × ℝ)} (h : (x, y) ∈ edges vs) : (seen a b m y x, y) ∈ edges (withPoint a b m vs) := by
  rw [mem_edges_withPoint]
  refine ⟨(x, y), h, ?_⟩
  unfold seen
  by_cases e : (x, y) = (a, b) ∨ (x, y) = (b, a)
  · right
    refine ⟨e, .inr ?_⟩
    rw [if_pos]
    rcases e with e | e <;> cases e
    · exact .inr rfl
    · exact .inl rfl
  · left
    refine ⟨e, ?_⟩
    rw [if_neg]
    rintro (e' | e') <;> cases e'
    · exact e (.inr rfl)
    · exact e (.inl rfl)

omit k in
theorem edge_from {vs : List (ℝ × ℝ)} (h : (y, z) ∈ edges vs) : (y, seen a b m y z) ∈ edges (withPoint a b m vs) := by
  rw [mem_edges_withPoint]
  refine ⟨(y, z), h, ?_⟩
  unfold seen
  by_cases e : (y, z) = (a, b) ∨ (y, z) = (b, a)
  · exact .inr ⟨e, .inl (by rw [if_pos e])⟩
  · exact .inl ⟨e, by rw [if_neg e]⟩

omit k in
theorem edges_inj_fst {vs : List (ℝ × ℝ)} (hn : vs.Nodup) (h : (x, y) ∈ edges vs) (h' : (x, z) ∈ edges vs) : y = z := by
  have hv : vs ≠ [] := by rintro rfl; simp [edges] at h
  obtain ⟨i, -, e⟩ := mem_edges_cyc.1 h
  obtain ⟨j, -, e'⟩ := mem_edges_cyc.1 h'
  obtain ⟨rfl, rfl⟩ := Prod.mk.inj e
  obtain ⟨e1, rfl⟩ := Prod.mk.inj e'
  have := cyc_inj hn hv e1
  unfold cyc
  rw [Nat.add_mod i, this, ← Nat.add_mod]

theorem Splits.around {vs : List (ℝ × ℝ)} (hv : Around L vs) : Around L' (withPoint a b m vs) := by
  have hn := k.nodup hv
  have hm := k.free_around hv
  obtain ⟨h1, h2, h3⟩ := around_edges.1 hv
  refine around_edges.2 ⟨withPoint_ne h1, hn, fun x y z e1 e2 => ?_⟩
  by_cases ey : y = m
  · subst ey
    have nf : ∀ f ∈ edges vs, f.1 ≠ y := fun f hf e => hm (e ▸ edges_fst hf)
    have ns : ∀ f ∈ edges vs, f.2 ≠ y := fun f hf e => by
      obtain ⟨z, hz⟩ := edges_next (x := f.1) (y := f.2) hf
      exact hm (e ▸ edges_fst hz)
    obtain ⟨f, hf, ⟨-, e⟩ | ⟨hf', e | e⟩⟩ := mem_edges_withPoint.1 e1
    · subst e; exact absurd rfl (ns _ hf)
    · have hz : (y, f.2) ∈ edges (withPoint a b y vs) := mem_edges_withPoint.2 ⟨f, hf, .inr ⟨hf', .inr rfl⟩⟩
      have e3 := edges_inj_fst hn e2 hz
      obtain ⟨rfl, -⟩ := Prod.mk.inj e
      rw [e3]
      exact k.through hf'
    · obtain ⟨-, e⟩ := Prod.mk.inj e
      exact absurd e.symm (ns _ hf)
  · have g1 : ∃ x₀, (x₀, y) ∈ edges vs ∧ seen a b m y x₀ = x := by
      obtain ⟨f, hf, ⟨h, e⟩ | ⟨hf', e | e⟩⟩ := mem_edges_withPoint.1 e1
      · subst e
        refine ⟨x, hf, ?_⟩
        unfold seen
        rw [if_neg]
        rintro (e' | e') <;> cases e'
        · exact h (.inr rfl)
        · exact h (.inl rfl)
      · exact absurd (Prod.mk.inj e).2 ey
      · obtain ⟨rfl, rfl⟩ := Prod.mk.inj e
        refine ⟨f.1, hf, ?_⟩
        unfold seen
        rw [if_pos]
        rcases hf' with rfl | rfl
        · exact .inr rfl
        · exact .inl rfl
    have g2 : ∃ z₀, (y, z₀) ∈ edges vs ∧ seen a b m y z₀ = z := by
      obtain ⟨f, hf, ⟨h, e⟩ | ⟨hf', e | e⟩⟩ := mem_edges_withPoint.1 e2
      · subst e
        refine ⟨z, hf, ?_⟩
        unfold seen
        rw [if_neg h]
      · obtain ⟨rfl, rfl⟩ := Prod.mk.inj e
        refine ⟨f.2, hf, ?_⟩
        unfold seen
        rw [if_pos hf']
      · exact absurd (Prod.mk.inj e).1 ey
    obtain ⟨x₀, x1, rfl⟩ := g1
    obtain ⟨z₀, z1, rfl⟩ := g2
    exact k.hardest (hv.joined_of x1).symm (h3 _ _ _ x1 z1)

/-- leaving the new point out and putting it back in -/
theorem Splits.put_back (l : List (ℝ × ℝ)) (x z : ℝ × ℝ) (hx : x ≠ m) (hz : z ≠ m)
    (h : ∀ e ∈ links (x :: l ++ [z]), Joined L' e.1 e.2)
    (h2 : ∀ u w, (u, m) ∈ links (x :: l ++ [z]) → (m, w) ∈ links (x :: l ++ [z]) → HardestLeft L' u m w)
    (hn : (x :: l).Nodup) :
    open Classical in
    (links (x :: l.filter (fun y => decide (y ≠ m)) ++ [z])).flatMap (fun e => if e = (a, b) ∨ e = (b, a) then [e.1, m] else [e.1]) = x :: l := by
  classical
  have old : ∀ u w, u ≠ m → w ≠ m → Joined L' u w → ¬((u, w) = (a, b) ∨ (u, w) = (b, a)) := by
    intro u w hu hw hj
    rcases (k.iff _ _).1 hj with ⟨-, h⟩ | ⟨h, -⟩ | ⟨h, -⟩
    · exact h
    · exact absurd h hw
    · exact absurd h hu
  induction hl : l.length using Nat.strong_induction_on generalizing l x with
  | _ n ih =>
  match l, hl with
  | [], _ =>
    have := old x z hx hz (h (x, z) (by simp [links]))
    simp [links, this, -Prod.mk.injEq]
  | y :: l, hl =>
    by_cases ey : y = m
    · subst ey
      match l with
      | [] =>
        have := k.through_back (h (x, y) (by simp [links])).symm (h2 x z (by simp [links]) (by simp [links]))
        simp [links, this, -Prod.mk.injEq]
      | w :: l =>
        have hw : w ≠ y := by
          rw [List.nodup_cons, List.nodup_cons] at hn
          exact fun e => hn.2.1 (by simp [e])
        have q := k.through_back (h (x, y) (by simp [links])).symm (h2 x w (by simp [links]) (by simp [links]))
        have r := ih l.length (by simp at hl; omega) l w hw (fun e he => h e ?_) (fun u v hu hv => h2 u v ?_ ?_) ?_ rfl
        · simp only [List.filter_cons, hw, ne_eq, not_true_eq_false, decide_false, Bool.false_eq_true, if_false, not_false_eq_true,
            decide_true, if_true, List.cons_append, links_cons, List.flatMap_cons, q] at r ⊢
          rw [r]
          rfl
        · simp only [List.cons_append, links_cons, List.mem_cons] at he ⊢
          exact .inr (.inr he)
        · simp only [List.cons_append, links_cons, List.mem_cons] at hu ⊢
          exact .inr (.inr hu)
        · simp only [List.cons_append, links_cons, List.mem_cons] at hv ⊢
          exact .inr (.inr hv)
        · rw [List.nodup_cons, List.nodup_cons] at hn
          exact hn.2.2
    · have q := old x y hx ey (h (x, y) (by simp [links]))
      have r := ih l.length (by simp at hl; omega) l y ey (fun e he => h e ?_) (fun u v hu hv => h2 u v ?_ ?_) ?_ rfl
      · simp only [List.filter_cons, ey, ne_eq, not_false_eq_true, decide_true, if_true, List.cons_append, links_cons, List.flatMap_cons,
          q, if_false] at r ⊢
        rw [r]
        rfl
      · simp only [List.cons_append, links_cons, List.mem_cons] at he ⊢
        exact .inr he
      · simp only [List.cons_append, links_cons, List.mem_cons] at hu ⊢
        exact .inr hu
      · simp only [List.cons_append, links_cons, List.mem_cons] at hv ⊢
        exact .inr hv
      · rw [List.nodup_cons] at hn
        exact hn.2

theorem Splits.around_back {ws : List (ℝ × ℝ)} (hw : Around L' ws) : ∃ vs, Around L vs ∧ withPoint a b m vs ~r ws := by
  classical
  -- begin at another point than `m`
  obtain ⟨x, l, hr, hx⟩ : ∃ x l, (x :: l) ~r ws ∧ x ≠ m := by
    match ws, hw with
    | [], hw => exact absurd rfl hw.1
    | x :: l, hw =>
      by_cases e : x = m
      · match l, hw with
        | [], hw =>
          have := hw.joined_of (x := x) (y := x) (by simp [edges])
          subst e
          rcases k.at_new this with e | e
          · exact absurd e.symm (k.ne_left k.joined)
          · exact absurd e.symm (k.ne_right k.joined)
        | y :: l, hw =>
          refine ⟨y, l ++ [x], ?_, ?_⟩
          · exact List.IsRotated.symm ⟨1, by simp⟩
          · rintro rfl
            have := hw.2.1
            rw [e] at this
            simp at this
      · exact ⟨x, l, .refl _, e⟩
  obtain ⟨-, n1, n2⟩ := around_edges.1 (hw.isRotated hr.symm)
  have hj : ∀ e ∈ edges (x :: l), Joined L' e.1 e.2 := fun e he => (hw.isRotated hr.symm).joined_of he
  have e1 : withPoint a b m (x :: l.filter (fun y => decide (y ≠ m))) = x :: l := by
    unfold withPoint
    rw [edges_links]
    exact k.put_back l x x hx hx (by rw [← edges_links]; exact hj) (by rw [← edges_links]; exact fun u w hu hv => n2 _ _ _ hu hv) n1
  refine ⟨x :: l.filter (fun y => decide (y ≠ m)), around_edges.2 ⟨by simp, ?_, fun u v w hu hv => ?_⟩, e1 ▸ hr⟩
  · rw [List.nodup_cons] at n1 ⊢
    exact ⟨fun h => n1.1 (List.mem_filter.1 h).1, n1.2.filter _⟩
  · have g1 := edge_to (a := a) (b := b) (m := m) hu
    have g2 := edge_from (a := a) (b := b) (m := m) hv
    rw [e1] at g1 g2
    have hvm : v ≠ m := by
      have := edges_fst hv
      rcases List.mem_cons.1 this with e | e
      · dsimp only at e; rw [e]; exact hx
      · have := (List.mem_filter.1 e).2
        exact of_decide_eq_true this
    have hum : u ≠ m := by
      have := edges_fst hu
      rcases List.mem_cons.1 this with e | e
      · dsimp only at e; rw [e]; exact hx
      · have := (List.mem_filter.1 e).2
        exact of_decide_eq_true this
    have hwm : w ≠ m := by
      obtain ⟨z, hz⟩ := edges_next hv
      have := edges_fst hz
      rcases List.mem_cons.1 this with e | e
      · dsimp only at e; rw [e]; exact hx
      · have := (List.mem_filter.1 e).2
        exact of_decide_eq_true this
    -- a line of the new drawing that is seen from `v` is seen in the old one
    have old : ∀ q, q ≠ m → Joined L' v (seen a b m v q) → Joined L v q := by
      intro q hq hjq
      obtain ⟨q', j1, j2⟩ := k.seen_surj hvm hjq
      have : q = q' := by
        have nq' := k.ne_right j1
        unfold seen at j2
        have hab := k.ne
        split at j2
        · split at j2
          · rename_i s1 s2
            rcases s1 with s1 | s1 <;> rcases s2 with s2 | s2 <;> cases s1 <;> cases s2
            · rfl
            · exact absurd rfl hab
            · exact absurd rfl hab
            · rfl
          · exact absurd j2.symm hq
        · split at j2
          · exact absurd j2 nq'
          · exact j2.symm
      exact this ▸ j1
    have ju := old u hum (hj _ g1).symm
    have jw := old w hwm (hj _ g2)
    obtain ⟨z, z1, z2⟩ := k.hardest_back ju (n2 _ _ _ g1 g2)
    rw [← k.seen_inj z2.1 jw z1]
    exact z2

end Isotope
