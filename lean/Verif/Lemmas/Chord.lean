import Verif.SpecChord
import Verif.Props.LeftMove

/-!
# A new line between two corners of a way around
-/

namespace Isotope

variable {L L' : List ((ℝ × ℝ) × (ℝ × ℝ))} {a b c p q x y z : ℝ × ℝ}

/-! ## Pairs of neighbours -/

/-- the pairs of neighbours -/
def links {α : Type} (l : List α) : List (α × α) := l.zip l.tail

theorem links_cons {α : Type} (x y : α) (l : List α) : links (x :: y :: l) = (x, y) :: links (y :: l) := rfl

theorem links_append {α : Type} (l : List α) (m : α) (r : List α) : links (l ++ m :: r) = links (l ++ [m]) ++ links (m :: r) := by
  induction l with
  | nil => simp [links]
  | cons x l ih =>
    cases l with
    | nil => simp [links]
    | cons y l =>
      simp only [List.cons_append] at ih ⊢
      rw [links_cons, links_cons, ih, List.cons_append]

theorem edges_links {α : Type} (x : α) (l : List α) : edges (x :: l) = links (x :: l ++ [x]) := by
  unfold edges links
  rw [List.rotate_cons_succ, List.rotate_zero, List.cons_append, List.tail_cons]
  rw [show x :: (l ++ [x]) = (x :: l) ++ [x] by simp]
  conv_rhs => rw [show (l ++ [x] : List α) = (l ++ [x]) ++ [] by simp]
  rw [List.zip_append (by simp)]
  simp

theorem links_last {α : Type} (l : List α) (x y : α) : links (l ++ [x, y]) = links (l ++ [x]) ++ [(x, y)] := by
  rw [links_append l x [y]]
  rfl

/-- cutting a cycle in two -/
theorem edges_cut {α : Type} (p q : α) (A B : List α) : edges (p :: A ++ q :: B) = links (p :: A ++ [q]) ++ links (q :: B ++ [p]) := by
  rw [List.cons_append, edges_links, show p :: (A ++ q :: B) ++ [p] = (p :: A) ++ q :: (B ++ [p]) by simp, links_append]
  rfl

theorem edges_closed {α : Type} (p q : α) (A : List α) : edges (p :: A ++ [q]) = links (p :: A ++ [q]) ++ [(q, p)] := by
  rw [List.cons_append, edges_links, show p :: (A ++ [q]) ++ [p] = (p :: A) ++ [q, p] by simp, links_last]
  rfl

theorem links_ends {α : Type} {l : List α} {e : α × α} (h : e ∈ links l) : e.1 ∈ l ∧ e.2 ∈ l := by
  have := List.of_mem_zip h
  exact ⟨this.1, List.mem_of_mem_tail this.2⟩

theorem around_edges {vs : List (ℝ × ℝ)} : Around L vs ↔ vs ≠ [] ∧ vs.Nodup ∧
    ∀ a b c, (a, b) ∈ edges vs → (b, c) ∈ edges vs → HardestLeft L a b c := by
  rw [around_iff]
  constructor
  · rintro ⟨h1, h2, h3⟩
    refine ⟨h1, h2, fun a b c ha hb => ?_⟩
    obtain ⟨m, hm, e⟩ := mem_edges_cyc.1 ha
    obtain ⟨n, hn, e'⟩ := mem_edges_cyc.1 hb
    obtain ⟨rfl, rfl⟩ := Prod.mk.inj e
    obtain ⟨e1, rfl⟩ := Prod.mk.inj e'
    have := cyc_inj h2 h1 e1
    have e2 : cyc vs (n + 1) = cyc vs (m + 2) := by
      rw [← cyc_mod vs n 1, ← this, cyc_mod]
    rw [e2]
    exact h3 m
  · rintro ⟨h1, h2, h3⟩
    exact ⟨h1, h2, fun i => h3 _ _ _ (cyc_edge h1 i) (cyc_edge h1 (i + 1))⟩

theorem mem_edges_rotated {vs ws : List (ℝ × ℝ)} (h : vs ~r ws) {e : (ℝ × ℝ) × (ℝ × ℝ)} (he : e ∈ edges vs) : e ∈ edges ws := by
  obtain ⟨k, rfl⟩ := h
  have hn : vs ≠ [] := by rintro rfl; simp [edges] at he
  have hl : 0 < vs.length := List.length_pos_iff.2 hn
  obtain ⟨m, hm, rfl⟩ := mem_edges_cyc.1 he
  have h1 : ∀ i, cyc (vs.rotate k) (m + k * (vs.length - 1) + i) = cyc vs (m + i) := by
    intro i
    rw [cyc_rotate vs hn, show m + k * (vs.length - 1) + i + k = m + i + k * vs.length by
      obtain ⟨n, hn⟩ : ∃ n, vs.length = n + 1 := ⟨vs.length - 1, by omega⟩
      rw [hn]; simp; ring]
    unfold cyc
    rw [Nat.add_mul_mod_self_right]
  have := cyc_edge (vs := vs.rotate k) (by simpa using hn) (m + k * (vs.length - 1))
  have h0 := h1 0
  rw [Nat.add_zero, Nat.add_zero] at h0
  rw [h0, h1 1] at this
  exact this

theorem Around.joined_of {vs : List (ℝ × ℝ)} (h : Around L vs) (he : (x, y) ∈ edges vs) : Joined L x y := by
  obtain ⟨m, -, e⟩ := mem_edges_cyc.1 he
  obtain ⟨rfl, rfl⟩ := Prod.mk.inj e
  exact h.joined m

theorem edges_next {vs : List (ℝ × ℝ)} (he : (x, y) ∈ edges vs) : ∃ z, (y, z) ∈ edges vs := by
  have hn : vs ≠ [] := by rintro rfl; simp [edges] at he
  obtain ⟨m, -, e⟩ := mem_edges_cyc.1 he
  obtain ⟨rfl, rfl⟩ := Prod.mk.inj e
  exact ⟨_, cyc_edge hn (m + 1)⟩

theorem edges_prev {vs : List (ℝ × ℝ)} (he : (y, z) ∈ edges vs) : ∃ x, (x, y) ∈ edges vs := by
  have hn : vs ≠ [] := by rintro rfl; simp [edges] at he
  have hl : 0 < vs.length := List.length_pos_iff.2 hn
  obtain ⟨m, -, e⟩ := mem_edges_cyc.1 he
  obtain ⟨rfl, rfl⟩ := Prod.mk.inj e
  refine ⟨cyc vs (m + (vs.length - 1)), ?_⟩
  have := cyc_edge hn (m + (vs.length - 1))
  rwa [show m + (vs.length - 1) + 1 = m + vs.length by omega, cyc_add] at this

/-! ## The hardest left turns after adding a line -/

/-- `L'` has one more line, from `p` to `q`. -/
def Adds (L L' : List ((ℝ × ℝ) × (ℝ × ℝ))) (p q : ℝ × ℝ) : Prop :=
  ∀ x y, Joined L' x y ↔ Joined L x y ∨ (x = p ∧ y = q) ∨ (x = q ∧ y = p)

theorem Adds.symm (h : Adds L L' p q) : Adds L L' q p := fun x y => by rw [h x y]; tauto

/-- the corner at `p` where the new line is put in -/
structure Corner (L : List ((ℝ × ℝ) × (ℝ × ℝ))) (a p c q : ℝ × ℝ) : Prop where
  joined : Joined L a p
  hard : HardestLeft L a p c
  into : leftTurn a p c < leftTurn a p q
  apart : ¬Joined L p q
  ne : p ≠ q

variable (k : Corner L a p c q)
include k

theorem Corner.ne' : q ≠ a := by
  rintro rfl
  have := k.into
  rw [leftTurn_self] at this
  exact absurd this (not_lt.2 (leftTurn_nonneg _ _ _))

/-- every other line at `p` is passed before the new one -/
theorem Corner.before (hx : Joined L p x) : leftTurn a p x < leftTurn a p q := by
  by_cases e : x = a
  · rw [e, leftTurn_self]
    exact lt_of_le_of_lt (leftTurn_nonneg _ _ _) k.into
  · exact lt_of_le_of_lt (k.hard.2.2 x hx e) k.into

theorem Corner.turn_from (hx : Joined L p x) : leftTurn x p q = leftTurn a p q - leftTurn a p x := leftTurn_add (k.before hx).le

theorem Corner.turn_to (hx : Joined L p x) : leftTurn q p x = 2 * Real.pi - leftTurn a p q + leftTurn a p x := by
  have h1 := k.turn_from hx
  have h2 := k.before hx
  rw [leftTurn_back (by rw [h1]; linarith), h1]
  ring

theorem Corner.arrive (hA : Adds L L' p q) : HardestLeft L' a p q := by
  refine ⟨(hA _ _).2 (.inr (.inl ⟨rfl, rfl⟩)), k.ne', fun d hd hda => ?_⟩
  rcases (hA _ _).1 hd with h | ⟨-, rfl⟩ | ⟨h, -⟩
  · exact (k.before h).le
  · exact le_rfl
  · exact absurd h k.ne

theorem Corner.depart (hA : Adds L L' p q) : HardestLeft L' q p c := by
  refine ⟨(hA _ _).2 (.inl k.hard.1), fun e => k.apart (e ▸ k.hard.1), fun d hd hdq => ?_⟩
  rcases (hA _ _).1 hd with h | ⟨-, rfl⟩ | ⟨h, -⟩
  · rw [k.turn_to h, k.turn_to k.hard.1]
    by_cases e : d = a
    · rw [e, leftTurn_self]
      linarith [leftTurn_nonneg a p c]
    · linarith [k.hard.2.2 d h e]
  · exact absurd rfl hdq
  · exact absurd h k.ne

theorem Corner.others (hp : PlainLines L) (hA : Adds L L' p q) (hx : Joined L x p) (hxa : x ≠ a) (h : HardestLeft L x p z) :
    HardestLeft L' x p z := by
  refine ⟨(hA _ _).2 (.inl h.1), h.2.1, fun d hd hdx => ?_⟩
  rcases (hA _ _).1 hd with h' | ⟨-, rfl⟩ | ⟨h', -⟩
  · exact h.2.2 d h' hdx
  · have h1 := h.2.2 a k.joined.symm (Ne.symm hxa)
    have h2 := k.turn_from hx.symm
    have e : leftTurn a p x ≠ 0 := fun e => hxa (hp.2 _ _ _ k.joined.symm hx.symm e).symm
    rw [leftTurn_back e] at h1
    have h3 := leftTurn_lt a p d
    linarith
  · exact absurd h' k.ne

omit k

theorem adds_plain (hp : PlainLines L) (hA : Adds L L' p q) (hn : (L' ++ L'.map Prod.swap).Nodup) {a' c' : ℝ × ℝ}
    (k : Corner L a p c q) (k' : Corner L a' q c' p) : PlainLines L' := by
  refine ⟨hn, fun x y z h1 h2 h3 => ?_⟩
  have zero : ∀ {u v w : ℝ × ℝ}, leftTurn u v w = 0 → leftTurn w v u = 0 := by
    intro u v w e
    obtain ⟨m, hm⟩ := leftTurn_spec u v w
    obtain ⟨n, hn⟩ := leftTurn_spec w v u
    exact turn_unique (k := m + n) (leftTurn_nonneg _ _ _) (leftTurn_lt _ _ _) le_rfl Real.two_pi_pos (by
      rw [hn]; push_cast; rw [e] at hm; linarith)
  have key : ∀ {a p c q y : ℝ × ℝ}, Corner L a p c q → Joined L p y → leftTurn y p q ≠ 0 := by
    intro a p c q y k h
    rw [k.turn_from h]
    have := k.before h
    linarith
  rcases (hA _ _).1 h1 with h1 | ⟨rfl, rfl⟩ | ⟨rfl, rfl⟩
  · rcases (hA _ _).1 h2 with h2 | ⟨rfl, rfl⟩ | ⟨rfl, rfl⟩
    · exact hp.2 _ _ _ h1 h2 h3
    · exact absurd h3 (key k h1)
    · exact absurd h3 (key k' h1)
  · rcases (hA _ _).1 h2 with h2 | ⟨-, rfl⟩ | ⟨h, -⟩
    · exact absurd (zero h3) (key k h2)
    · rfl
    · exact absurd h k.ne
  · rcases (hA _ _).1 h2 with h2 | ⟨h, -⟩ | ⟨-, rfl⟩
    · exact absurd (zero h3) (key k' h2)
    · exact absurd h k'.ne
    · rfl

/-- The turns that are not into the two corners stay as they are. -/
theorem adds_turn (hp : PlainLines L) (hA : Adds L L' p q) {a' c' : ℝ × ℝ}
    (k : Corner L a p c q) (k' : Corner L a' q c' p) (hj : Joined L x y) (h1 : (x, y) ≠ (a, p)) (h2 : (x, y) ≠ (a', q))
    (h : HardestLeft L x y z) : HardestLeft L' x y z := by
  by_cases e1 : y = p
  · subst e1
    exact k.others hp hA hj (fun e => h1 (by rw [e])) h
  by_cases e2 : y = q
  · subst e2
    exact k'.others hp hA.symm hj (fun e => h2 (by rw [e])) h
  have : ∀ z, Joined L' y z ↔ Joined L y z := by
    intro z
    rw [hA]
    constructor
    · rintro (h | ⟨h, -⟩ | ⟨h, -⟩)
      · exact h
      · exact absurd h e1
      · exact absurd h e2
    · exact .inl
  exact ⟨(this z).2 h.1, h.2.1, fun d hd => h.2.2 d ((this d).1 hd)⟩

theorem adds_turn_back (hp : PlainLines L) (hp' : PlainLines L') (hA : Adds L L' p q) {a' c' : ℝ × ℝ}
    (k : Corner L a p c q) (k' : Corner L a' q c' p) (hj : Joined L x y) (h1 : (x, y) ≠ (a, p)) (h2 : (x, y) ≠ (a', q))
    (h : HardestLeft L' x y z) : HardestLeft L x y z := by
  obtain ⟨w, hw⟩ : ∃ w, HardestLeft L x y w := by
    by_cases e1 : y = p
    · subst e1
      exact exists_hardest k.joined.symm (fun e => h1 (by rw [e]))
    by_cases e2 : y = q
    · subst e2
      exact exists_hardest k'.joined.symm (fun e => h2 (by rw [e]))
    rcases (hA _ _).1 h.1 with h' | ⟨h', -⟩ | ⟨h', -⟩
    · exact exists_hardest h' h.2.1
    · exact absurd h' e1
    · exact absurd h' e2
  have := adds_turn hp hA k k' hj h1 h2 hw
  rw [h.unique hp' this]
  exact hw

/-! ## The ways around -/

/-- A walk of hardest left turns that starts on a way around stays on it, and closes up. -/
theorem closes_on {vs : List (ℝ × ℝ)} (hp : PlainLines L) (hv : Around L vs) {w : Nat → ℝ × ℝ} {n : Nat} (h0 : (w 0, w 1) ∈ edges vs)
    (hw : ∀ i, i < n → HardestLeft L (w i) (w (i + 1)) (w (i + 2))) (hn : w (n + 1) = w 0) : HardestLeft L (w n) (w 0) (w 1) := by
  obtain ⟨v1, v2, v3⟩ := around_iff.1 hv
  obtain ⟨m, hm, e⟩ := mem_edges_cyc.1 h0
  have key : ∀ k, k ≤ n → w k = cyc vs (m + k) ∧ w (k + 1) = cyc vs (m + k + 1) := by
    intro k
    induction k with
    | zero => intro _; exact Prod.mk.inj e
    | succ k ih =>
      intro hk
      obtain ⟨a, b⟩ := ih (by omega)
      refine ⟨b, ?_⟩
      have h1 := hw k (by omega)
      have h2 := v3 (m + k)
      rw [a, b] at h1
      exact h1.unique hp h2
  obtain ⟨a, b⟩ := key n le_rfl
  have e0 := (key 0 (by omega)).1
  have e1 := (key 0 (by omega)).2
  rw [hn, e0] at b
  have hmod := cyc_inj v2 v1 b
  have h1 := v3 (m + n)
  rw [← b] at h1
  have e2 : cyc vs (m + n + 2) = cyc vs (m + 0 + 1) := by
    rw [show m + n + 2 = (m + n + 1) + 1 by omega, ← cyc_mod vs (m + n + 1) 1, ← hmod, cyc_mod]
  rw [e2] at h1
  rw [a, e0, e1]
  exact h1

/-- A walk of hardest left turns that ends on a way around was on it all the time. -/
theorem comes_from {vs : List (ℝ × ℝ)} (hp : PlainLines L) (hv : Around L vs) {w : Nat → ℝ × ℝ} {n : Nat} (hj : Joined L (w 0) (w 1))
    (hw : ∀ i, i < n → HardestLeft L (w i) (w (i + 1)) (w (i + 2))) (i : Nat) (hi : i ≤ n) (he : (w i, w (i + 1)) ∈ edges vs) :
    (w 0, w 1) ∈ edges vs := by
  induction i with
  | zero => exact he
  | succ i ih =>
    refine ih (by omega) ?_
    obtain ⟨x, hx⟩ := edges_prev he
    have h1 := (around_edges.1 hv).2.2 _ _ _ hx he
    have h2 := hw i (by omega)
    have hj' : Joined L (w i) (w (i + 1)) := by
      cases i with
      | zero => exact hj
      | succ i => exact (hw i (by omega)).1
    rw [← h1.inj hp (hv.joined_of hx) hj' h2]
    exact hx

section cut

variable {A B : List (ℝ × ℝ)} (hp : PlainLines L) (hA : Adds L L' p q) (hv : Around L (p :: A ++ q :: B)) (hnj : ¬Joined L p q)
  (i1 : PointsInto (p :: A ++ q :: B) p q) (i2 : PointsInto (p :: A ++ q :: B) q p)
include hv hnj i1 i2

/-- the corners where the line is put in -/
theorem cut_corners : ∃ a c a' c', Corner L a p c q ∧ Corner L a' q c' p ∧ (p, c) ∈ links (p :: A ++ [q]) ∧
    (a', q) ∈ links (p :: A ++ [q]) ∧ (q, c') ∈ links (q :: B ++ [p]) ∧ (a, p) ∈ links (q :: B ++ [p]) := by
  have hne : p ≠ q := by
    have := hv.2.1
    rintro rfl
    simp at this
  have hh := (around_edges.1 hv).2.2
  have ec := edges_cut p q A B
  have end_ : ∀ (x : ℝ × ℝ) (C : List (ℝ × ℝ)) (y : ℝ × ℝ), ∃ c a, (x, c) ∈ links (x :: C ++ [y]) ∧ (a, y) ∈ links (x :: C ++ [y]) := by
    intro x C y
    refine ⟨(C ++ [y]).head (by simp), (x :: C).getLast (by simp), ?_, ?_⟩
    · cases C <;> simp [links]
    · obtain ⟨D, d, e⟩ : ∃ D d, x :: C = D ++ [d] := ⟨(x :: C).dropLast, (x :: C).getLast (by simp), (List.dropLast_append_getLast _).symm⟩
      rw [show x :: C ++ [y] = D ++ [d, y] by rw [e]; simp, links_last]
      have : (x :: C).getLast (by simp) = d := by simp [e]
      rw [this]
      simp
  obtain ⟨c, a', h1, h2⟩ := end_ p A q
  obtain ⟨c', a, h3, h4⟩ := end_ q B p
  have m1 : (p, c) ∈ edges (p :: A ++ q :: B) := by rw [ec]; exact List.mem_append_left _ h1
  have m2 : (a', q) ∈ edges (p :: A ++ q :: B) := by rw [ec]; exact List.mem_append_left _ h2
  have m3 : (q, c') ∈ edges (p :: A ++ q :: B) := by rw [ec]; exact List.mem_append_right _ h3
  have m4 : (a, p) ∈ edges (p :: A ++ q :: B) := by rw [ec]; exact List.mem_append_right _ h4
  exact ⟨a, c, a', c', ⟨hv.joined_of m4, hh _ _ _ m4 m1, i1 _ _ m4 m1, hnj, hne⟩,
    ⟨hv.joined_of m2, hh _ _ _ m2 m3, i2 _ _ m2 m3, fun h => hnj h.symm, hne.symm⟩, h1, h2, h3, h4⟩

include hp hA in
/-- The part of the way around from `p` to `q`, and back along the new line. -/
theorem cut_around : Around L' (p :: A ++ [q]) := by
  obtain ⟨a, c, a', c', k, k', h1, h2, h3, h4⟩ := cut_corners hv hnj i1 i2
  obtain ⟨v1, v2, v3⟩ := around_edges.1 hv
  have ec := edges_cut p q A B
  have hnd : (p :: A ++ [q]).Nodup := by
    have : (p :: A ++ [q]).Sublist (p :: A ++ q :: B) := by
      refine List.Sublist.append_left ?_ _
      simp
    exact v2.sublist this
  have uniq : ∀ {x y z : ℝ × ℝ}, (x, y) ∈ edges (p :: A ++ q :: B) → (x, z) ∈ edges (p :: A ++ q :: B) → y = z := by
    intro x y z e1 e2
    obtain ⟨u, hu⟩ := edges_prev e1
    exact (v3 _ _ _ hu e1).unique hp (v3 _ _ _ hu e2)
  have uniq' : ∀ {x y z : ℝ × ℝ}, (x, z) ∈ edges (p :: A ++ q :: B) → (y, z) ∈ edges (p :: A ++ q :: B) → x = y := by
    intro x y z e1 e2
    obtain ⟨u, hu⟩ := edges_next e1
    exact (v3 _ _ _ e1 hu).inj hp (hv.joined_of e1) (hv.joined_of e2) (v3 _ _ _ e2 hu)
  have left : ∀ {e}, e ∈ links (p :: A ++ [q]) → e ∈ edges (p :: A ++ q :: B) := fun h => by rw [ec]; exact List.mem_append_left _ h
  have right : ∀ {e}, e ∈ links (q :: B ++ [p]) → e ∈ edges (p :: A ++ q :: B) := fun h => by rw [ec]; exact List.mem_append_right _ h
  have hdis : ∀ e, e ∈ links (p :: A ++ [q]) → e ∉ links (q :: B ++ [p]) := by
    intro e h h'
    have := edges_nodup v2
    rw [ec, List.nodup_append] at this
    exact this.2.2 e h e h' rfl
  refine around_edges.2 ⟨by simp, hnd, fun x y z hx hy => ?_⟩
  rw [edges_closed, List.mem_append, List.mem_singleton] at hx hy
  rcases hx with hx | hx
  · rcases hy with hy | hy
    · refine adds_turn hp hA k k' (hv.joined_of (left hx)) ?_ ?_ (v3 _ _ _ (left hx) (left hy))
      · intro e; rw [e] at hx; exact hdis _ hx h4
      · intro e
        obtain ⟨rfl, rfl⟩ := Prod.mk.inj e
        have := uniq (left hy) (right h3)
        rw [this] at hy
        exact hdis _ hy h3
    · obtain ⟨rfl, rfl⟩ := Prod.mk.inj hy
      rw [uniq' (left hx) (left h2)]
      exact k'.arrive hA.symm
  · obtain ⟨rfl, rfl⟩ := Prod.mk.inj hx
    rcases hy with hy | hy
    · rw [uniq (left hy) (left h1)]
      exact k.depart hA
    · exact absurd (Prod.mk.inj hy).1 k.ne

omit hv hnj i1 i2 in
theorem cut_swap (p q : ℝ × ℝ) (A B : List (ℝ × ℝ)) : (p :: A ++ q :: B) ~r (q :: B ++ p :: A) := List.isRotated_append

omit hv hnj i1 i2 in
theorem PointsInto.rotated {vs ws : List (ℝ × ℝ)} (h : vs ~r ws) (hv : PointsInto vs p q) : PointsInto ws p q :=
  fun a c ha hc => hv a c (mem_edges_rotated h.symm ha) (mem_edges_rotated h.symm hc)

omit hv hnj i1 i2 in
theorem Around.rotated {vs ws : List (ℝ × ℝ)} (h : vs ~r ws) (hv : Around L vs) : Around L ws := by
  obtain ⟨k, rfl⟩ := h
  exact hv.rotate k

include hp hA in
theorem cut_around' : Around L' (q :: B ++ [p]) :=
  cut_around hp hA.symm (Around.rotated (cut_swap p q A B) hv) (fun h => hnj h.symm) (i2.rotated (cut_swap p q A B))
    (i1.rotated (cut_swap p q A B))

include hp hA in
/-- The new line cuts one way around in two and leaves the others as they are. -/
theorem cut_iff (hp' : PlainLines L') (ws : List (ℝ × ℝ)) :
    Around L' ws ↔ (Around L ws ∧ ¬ws ~r (p :: A ++ q :: B)) ∨ ws ~r (p :: A ++ [q]) ∨ ws ~r (q :: B ++ [p]) := by
  obtain ⟨a, c, a', c', k, k', h1, h2, h3, h4⟩ := cut_corners hv hnj i1 i2
  have u1 := cut_around hp hA hv hnj i1 i2
  have u2 := cut_around' hp hA hv hnj i1 i2
  have ec := edges_cut p q A B
  constructor
  · intro hw
    by_cases m1 : (q, p) ∈ edges ws
    · exact .inr (.inl (hw.same hp' u1 m1 (by rw [edges_closed]; simp)))
    by_cases m2 : (p, q) ∈ edges ws
    · exact .inr (.inr (hw.same hp' u2 m2 (by rw [edges_closed]; simp)))
    left
    obtain ⟨w1, w2, w3⟩ := around_edges.1 hw
    have n1 : ∀ x, (x, p) ∈ edges ws → x ≠ a := by
      rintro x hx rfl
      obtain ⟨z, hz⟩ := edges_next hx
      rw [(w3 _ _ _ hx hz).unique hp' (k.arrive hA)] at hz
      exact m2 hz
    have n2 : ∀ x, (x, q) ∈ edges ws → x ≠ a' := by
      rintro x hx rfl
      obtain ⟨z, hz⟩ := edges_next hx
      rw [(w3 _ _ _ hx hz).unique hp' (k'.arrive hA.symm)] at hz
      exact m1 hz
    have hj : ∀ x y, (x, y) ∈ edges ws → Joined L x y := by
      intro x y h
      rcases (hA _ _).1 (hw.joined_of h) with h' | ⟨rfl, rfl⟩ | ⟨rfl, rfl⟩
      · exact h'
      · exact absurd h m2
      · exact absurd h m1
    refine ⟨around_edges.2 ⟨w1, w2, fun x y z hx hy => adds_turn_back hp hp' hA k k' (hj _ _ hx) ?_ ?_ (w3 _ _ _ hx hy)⟩, fun hr => ?_⟩
    · intro e
      obtain ⟨rfl, rfl⟩ := Prod.mk.inj e
      exact n1 _ hx rfl
    · intro e
      obtain ⟨rfl, rfl⟩ := Prod.mk.inj e
      exact n2 _ hx rfl
    · exact n1 a (mem_edges_rotated hr.symm (by rw [ec]; exact List.mem_append_right _ h4)) rfl
  · rintro (⟨hw, hr⟩ | hr | hr)
    · obtain ⟨w1, w2, w3⟩ := around_edges.1 hw
      refine around_edges.2 ⟨w1, w2, fun x y z hx hy => adds_turn hp hA k k' (hw.joined_of hx) ?_ ?_ (w3 _ _ _ hx hy)⟩
      · intro e
        rw [e] at hx
        exact hr (hw.same hp hv hx (by rw [ec]; exact List.mem_append_right _ h4))
      · intro e
        rw [e] at hx
        exact hr (hw.same hp hv hx (by rw [ec]; exact List.mem_append_left _ h2))
    · exact Around.rotated hr.symm u1
    · exact Around.rotated hr.symm u2

include hp hA in
theorem cut_closes (hp' : PlainLines L') (hc : ClosesUp L) : ClosesUp L' := by
  obtain ⟨a, c, a', c', k, k', h1, h2, h3, h4⟩ := cut_corners hv hnj i1 i2
  have u1 := cut_around hp hA hv hnj i1 i2
  have u2 := cut_around' hp hA hv hnj i1 i2
  intro w n hj hw hn
  by_cases m1 : (w 0, w 1) ∈ edges (p :: A ++ [q])
  · exact closes_on hp' u1 m1 hw hn
  by_cases m2 : (w 0, w 1) ∈ edges (q :: B ++ [p])
  · exact closes_on hp' u2 m2 hw hn
  have n1 : ∀ i, i ≤ n → (w i, w (i + 1)) ∉ edges (p :: A ++ [q]) := fun i hi h => m1 (comes_from hp' u1 hj hw i hi h)
  have n2 : ∀ i, i ≤ n → (w i, w (i + 1)) ∉ edges (q :: B ++ [p]) := fun i hi h => m2 (comes_from hp' u2 hj hw i hi h)
  have o1 : ∀ i, i ≤ n → (w i, w (i + 1)) ≠ (a, p) := fun i hi e => n2 i hi (by rw [e, edges_closed]; exact List.mem_append_left _ h4)
  have o2 : ∀ i, i ≤ n → (w i, w (i + 1)) ≠ (a', q) := fun i hi e => n1 i hi (by rw [e, edges_closed]; exact List.mem_append_left _ h2)
  have hj' : ∀ i, i ≤ n → Joined L (w i) (w (i + 1)) := by
    intro i hi
    have : Joined L' (w i) (w (i + 1)) := by
      cases i with
      | zero => exact hj
      | succ i => exact (hw i (by omega)).1
    rcases (hA _ _).1 this with h | ⟨e1, e2⟩ | ⟨e1, e2⟩
    · exact h
    · exact absurd (by rw [e1, e2, edges_closed]; simp) (n2 i hi)
    · exact absurd (by rw [e1, e2, edges_closed]; simp) (n1 i hi)
  have := hc w n (hj' 0 (by omega)) (fun i hi => adds_turn_back hp hp' hA k k' (hj' i (by omega)) (o1 i (by omega)) (o2 i (by omega))
    (hw i hi)) hn
  have j := hj' n le_rfl
  have e1 := o1 n le_rfl
  have e2 := o2 n le_rfl
  rw [hn] at j e1 e2
  exact adds_turn hp hA k k' j e1 e2 this

end cut

/-! ## Areas -/

theorem shoelace_cut (p q : ℝ × ℝ) (A B : List (ℝ × ℝ)) :
    shoelace (p :: A ++ q :: B) = shoelace (p :: A ++ [q]) + shoelace (q :: B ++ [p]) := by
  unfold shoelace
  rw [edges_cut, edges_closed, edges_closed]
  simp only [List.map_append, List.sum_append, List.map_cons, List.map_nil, List.sum_cons, List.sum_nil]
  simp only [cross]
  ring

theorem shoelace_triangle (x y z : ℝ × ℝ) : shoelace [x, y, z] = ((y.1 - x.1) * (z.2 - x.2) - (z.1 - x.1) * (y.2 - x.2)) / 2 := by
  simp [shoelace, edges, cross]
  ring

theorem ConvexAround.pos {vs : List (ℝ × ℝ)} (h : ConvexAround vs) : 0 < shoelace vs := by
  obtain ⟨h1, h2⟩ := h
  obtain ⟨x, y, z, l, rfl⟩ : ∃ x y z l, vs = x :: y :: z :: l := by
    match vs, h1 with
    | x :: y :: z :: l, _ => exact ⟨x, y, z, l, rfl⟩
  clear h1
  induction l generalizing y z with
  | nil =>
    rw [shoelace_triangle]
    have := h2 x y z (List.Sublist.refl _)
    linarith
  | cons u l ih =>
    have e := shoelace_cut x z [y] (u :: l)
    have e2 : shoelace (z :: (u :: l) ++ [x]) = shoelace (x :: z :: u :: l) := by
      have : (x :: z :: u :: l).rotate 1 = z :: (u :: l) ++ [x] := by simp
      rw [← this]
      unfold shoelace
      rw [edges_rotate, ((List.rotate_perm _ 1).map _).sum_eq]
    have e' : shoelace (x :: y :: z :: u :: l) = shoelace [x, y, z] + shoelace (x :: z :: u :: l) := by
      rw [← e2]
      exact e
    rw [e', shoelace_triangle]
    have p1 := h2 x y z (by simp)
    have p2 := ih z u (fun a b c hs => h2 a b c (hs.trans (by simp)))
    linarith

/-- Seen from one corner of a convex polygon, another one lies inside the corner. -/
theorem sector {a p c q : ℝ × ℝ} (h1 : 0 < crossAt c p q) (h2 : 0 < crossAt q p a) (h3 : 0 < crossAt c p a) :
    leftTurn a p c < leftTurn a p q := by
  have hp := Real.pi_pos
  have nz : ∀ {u v w : ℝ × ℝ}, crossAt u v w ≠ 0 → 0 < far v u * far v w := by
    intro u v w h
    refine mul_pos (far_pos ?_) (far_pos ?_)
    · rintro rfl; simp [crossAt] at h
    · rintro rfl; simp [crossAt] at h
  have flip : ∀ u v w : ℝ × ℝ, crossAt u v w = -crossAt w v u := by intro u v w; unfold crossAt; ring
  have gt : ∀ {u}, 0 < crossAt u p a → Real.pi < leftTurn a p u := by
    intro u hu
    have s := sin_leftTurn a p u
    rw [flip a p u] at s
    have f := nz (u := a) (v := p) (w := u) (by rw [flip]; linarith)
    have neg : Real.sin (leftTurn a p u) < 0 := by
      by_contra hn
      push Not at hn
      have := mul_nonneg f.le hn
      linarith
    rcases turn_cases (leftTurn_nonneg a p u) (leftTurn_lt _ _ _) with ⟨-, e⟩ | ⟨-, -, e⟩ | ⟨-, e⟩ | ⟨e, -⟩
    · linarith
    · linarith
    · linarith
    · exact e
  have g1 := gt h2
  have g2 := gt h3
  have l1 := leftTurn_lt a p q
  have l2 := leftTurn_lt a p c
  by_contra hle
  push Not at hle
  have s := sin_between (a := a) (b := p) (c := c) (d := q)
  have f := nz h1.ne'
  have : Real.sin (leftTurn a p q - leftTurn a p c) ≤ 0 := by
    rw [← neg_sub, Real.sin_neg, neg_nonpos]
    exact Real.sin_nonneg_of_nonneg_of_le_pi (by linarith) (by linarith)
  have := mul_nonpos_of_nonneg_of_nonpos f.le this
  linarith

end Isotope
