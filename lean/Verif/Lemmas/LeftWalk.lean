import Verif.Lemmas.Left
import Verif.Lemmas.Polygon
import Verif.Props.HardLeft

/-!
# Walks of hardest left turns
-/

namespace Isotope
open XR

/-! ## Going around -/

/-- the points of `vs` in turn, again and again -/
noncomputable def cyc (vs : List (ℝ × ℝ)) (i : Nat) : ℝ × ℝ := vs.getD (i % vs.length) (0, 0)

theorem cyc_get {vs : List (ℝ × ℝ)} (hn : vs ≠ []) (i : Nat) : vs[i % vs.length]? = some (cyc vs i) := by
  have hl : i % vs.length < vs.length := Nat.mod_lt _ (List.length_pos_iff.2 hn)
  unfold cyc
  rw [List.getD_eq_getElem?_getD, List.getElem?_eq_getElem hl]; rfl

theorem cyc_lt {vs : List (ℝ × ℝ)} {i : Nat} (hi : i < vs.length) : cyc vs i = vs[i] := by
  unfold cyc
  rw [Nat.mod_eq_of_lt hi, List.getD_eq_getElem?_getD, List.getElem?_eq_getElem hi]; rfl

theorem cyc_mod (vs : List (ℝ × ℝ)) (i k : Nat) : cyc vs (i % vs.length + k) = cyc vs (i + k) := by
  unfold cyc; rw [Nat.mod_add_mod]

theorem cyc_add (vs : List (ℝ × ℝ)) (i : Nat) : cyc vs (i + vs.length) = cyc vs i := by
  unfold cyc; rw [Nat.add_mod_right]

theorem cyc_inj {vs : List (ℝ × ℝ)} (hd : vs.Nodup) (hn : vs ≠ []) {i j : Nat} (e : cyc vs i = cyc vs j) :
    i % vs.length = j % vs.length := by
  have h1 := cyc_get hn i
  have h2 := cyc_get hn j
  have hl : i % vs.length < vs.length := Nat.mod_lt _ (List.length_pos_iff.2 hn)
  exact (List.getElem?_inj hl hd).1 (by rw [h1, h2, e])

theorem edges_length {α : Type} (vs : List α) : (edges vs).length = vs.length := by simp [edges]

theorem edges_get {vs : List (ℝ × ℝ)} {m : Nat} (hm : m < vs.length) : (edges vs)[m]? = some (cyc vs m, cyc vs (m + 1)) := by
  have hn : vs ≠ [] := by rintro rfl; simp at hm
  have hl : (m + 1) % vs.length < vs.length := Nat.mod_lt _ (by omega)
  unfold edges
  rw [List.getElem?_eq_getElem (by simpa using hm), List.getElem_zip, List.getElem_rotate]
  congr 1
  apply Prod.ext
  · exact (cyc_lt hm).symm
  · have := cyc_get hn (m + 1)
    rw [List.getElem?_eq_getElem hl] at this
    exact Option.some.inj this

theorem mem_edges_cyc {vs : List (ℝ × ℝ)} {e : (ℝ × ℝ) × (ℝ × ℝ)} :
    e ∈ edges vs ↔ ∃ m, m < vs.length ∧ e = (cyc vs m, cyc vs (m + 1)) := by
  constructor
  · intro h
    obtain ⟨m, hm⟩ := List.mem_iff_getElem?.1 h
    have hl : m < vs.length := by
      by_contra hl
      rw [List.getElem?_eq_none (by rw [edges_length]; omega)] at hm; cases hm
    rw [edges_get hl] at hm
    exact ⟨m, hl, (Option.some.inj hm).symm⟩
  · rintro ⟨m, hm, rfl⟩
    exact List.mem_of_getElem? (edges_get hm)

theorem cyc_edge {vs : List (ℝ × ℝ)} (hn : vs ≠ []) (m : Nat) : (cyc vs m, cyc vs (m + 1)) ∈ edges vs := by
  rw [mem_edges_cyc]
  refine ⟨m % vs.length, Nat.mod_lt _ (List.length_pos_iff.2 hn), ?_⟩
  have := cyc_mod vs m 0
  rw [cyc_mod]
  simp only [Nat.add_zero] at this
  rw [this]

theorem edges_nodup {vs : List (ℝ × ℝ)} (hd : vs.Nodup) : (edges vs).Nodup := by
  have : (edges vs).map Prod.fst = vs := by
    unfold edges; rw [List.map_fst_zip]; simp
  exact List.Nodup.of_map _ (this ▸ hd)

theorem around_iff {L : List ((ℝ × ℝ) × (ℝ × ℝ))} {vs : List (ℝ × ℝ)} : Around L vs ↔ vs ≠ [] ∧ vs.Nodup ∧
    ∀ i, HardestLeft L (cyc vs i) (cyc vs (i + 1)) (cyc vs (i + 2)) := by
  unfold Around
  constructor
  · rintro ⟨h1, h2, h3⟩
    refine ⟨h1, h2, fun i => ?_⟩
    have := h3 (i % vs.length) _ _ _ (cyc_get h1 i) (by rw [Nat.mod_add_mod]; exact cyc_get h1 (i + 1))
      (by rw [Nat.mod_add_mod]; exact cyc_get h1 (i + 2))
    exact this
  · rintro ⟨h1, h2, h3⟩
    refine ⟨h1, h2, fun i a b c ha hb hc => ?_⟩
    have hl : i < vs.length := by
      by_contra hl
      rw [List.getElem?_eq_none (by omega)] at ha; cases ha
    rw [cyc_get h1] at hb hc
    rw [List.getElem?_eq_getElem hl] at ha
    cases ha; cases hb; cases hc
    rw [← cyc_lt hl]
    exact h3 i

theorem Around.joined {L : List ((ℝ × ℝ) × (ℝ × ℝ))} {vs : List (ℝ × ℝ)} (h : Around L vs) (i : Nat) :
    Joined L (cyc vs i) (cyc vs (i + 1)) := by
  obtain ⟨h1, h2, h3⟩ := around_iff.1 h
  have hl : 0 < vs.length := List.length_pos_iff.2 h1
  have := (h3 (i + (vs.length - 1))).1
  rw [show i + (vs.length - 1) + 1 = i + vs.length by omega, show i + (vs.length - 1) + 2 = i + 1 + vs.length by omega,
    cyc_add, cyc_add] at this
  exact this

/-- two ways around with a common line are the same way around -/
theorem Around.same {L : List ((ℝ × ℝ) × (ℝ × ℝ))} (hL : PlainLines L) {vs ws : List (ℝ × ℝ)} (hv : Around L vs)
    (hw : Around L ws) {e : (ℝ × ℝ) × (ℝ × ℝ)} (h1 : e ∈ edges vs) (h2 : e ∈ edges ws) : vs ~r ws := by
  obtain ⟨v1, v2, v3⟩ := around_iff.1 hv
  obtain ⟨w1, w2, w3⟩ := around_iff.1 hw
  obtain ⟨i, hi, ei⟩ := mem_edges_cyc.1 h1
  obtain ⟨j, hj, ej⟩ := mem_edges_cyc.1 h2
  have e12 : cyc vs i = cyc ws j ∧ cyc vs (i + 1) = cyc ws (j + 1) := by
    rw [ei] at ej; exact Prod.mk.inj ej
  have key : ∀ k, cyc vs (i + k) = cyc ws (j + k) ∧ cyc vs (i + k + 1) = cyc ws (j + k + 1) := by
    intro k
    induction k with
    | zero => exact e12
    | succ k ih =>
      refine ⟨ih.2, ?_⟩
      have a := v3 (i + k)
      have b := w3 (j + k)
      rw [ih.1, ih.2] at a
      exact a.unique hL b
  have hlv : 0 < vs.length := List.length_pos_iff.2 v1
  have hlw : 0 < ws.length := List.length_pos_iff.2 w1
  have d1 : ws.length ∣ vs.length := by
    have := (key vs.length).1
    rw [cyc_add, e12.1] at this
    have := cyc_inj w2 w1 this
    have h3 : (j + vs.length) % ws.length = (j + 0) % ws.length := this.symm
    have h4 : (j + vs.length) ≡ (j + 0) [MOD ws.length] := h3
    exact (Nat.modEq_zero_iff_dvd).1 (Nat.ModEq.add_left_cancel' j h4)
  have d2 : vs.length ∣ ws.length := by
    have := (key ws.length).1
    rw [cyc_add, ← e12.1] at this
    have := cyc_inj v2 v1 this
    have h4 : (i + ws.length) ≡ (i + 0) [MOD vs.length] := this
    exact (Nat.modEq_zero_iff_dvd).1 (Nat.ModEq.add_left_cancel' i h4)
  have hl : vs.length = ws.length := Nat.dvd_antisymm d2 d1
  have hr : vs.rotate i = ws.rotate j := by
    apply List.ext_getElem?
    intro k
    by_cases hk : k < vs.length
    · rw [List.getElem?_rotate hk, List.getElem?_rotate (by omega), cyc_get v1, cyc_get w1, Nat.add_comm k i,
        Nat.add_comm k j, (key k).1]
    · rw [List.getElem?_eq_none (by simp; omega), List.getElem?_eq_none (by simp; omega)]
  have r1 : vs ~r vs.rotate i := ⟨i, rfl⟩
  have r2 : ws ~r ws.rotate j := ⟨j, rfl⟩
  rw [hr] at r1
  exact r1.trans r2.symm

theorem cyc_rotate (vs : List (ℝ × ℝ)) (hn : vs ≠ []) (k i : Nat) : cyc (vs.rotate k) i = cyc vs (i + k) := by
  have hl : i % vs.length < vs.length := Nat.mod_lt _ (List.length_pos_iff.2 hn)
  have h1 := cyc_get (vs := vs.rotate k) (by simpa using hn) i
  rw [List.length_rotate, List.getElem?_rotate hl, Nat.mod_add_mod, cyc_get hn] at h1
  exact (Option.some.inj h1).symm

theorem Around.rotate {L : List ((ℝ × ℝ) × (ℝ × ℝ))} {vs : List (ℝ × ℝ)} (h : Around L vs) (k : Nat) :
    Around L (vs.rotate k) := by
  obtain ⟨v1, v2, v3⟩ := around_iff.1 h
  refine around_iff.2 ⟨by simpa using v1, by simpa using v2, fun i => ?_⟩
  rw [cyc_rotate _ v1, cyc_rotate _ v1, cyc_rotate _ v1]
  have := v3 (i + k)
  rw [show i + 1 + k = i + k + 1 by omega, show i + 2 + k = i + k + 2 by omega]
  exact this

/-! ## The directed lines of a drawing -/

/-- `segs` are lines with the ends `M`, which are the pairs of joined points -/
structure Net (h : Heap XR) (segs : List (Segment XR)) (M L : List ((ℝ × ℝ) × (ℝ × ℝ))) : Prop where
  plain : PlainLines L
  mem : ∀ p q, (p, q) ∈ M ↔ Joined L p q
  nodup : M.Nodup
  ends : List.Forall₂ (fun sg e => (∃ a b, sg = Segment.line a b) ∧ EndsAt h sg e) segs M
  back : ∀ (i j : Nat) sg sg' p q, segs[i]? = some sg → segs[j]? = some sg' → M[i]? = some (p, q) → M[j]? = some (q, p) →
    sg'.beq h sg.reverse = true

section
variable {h : Heap XR} {segs : List (Segment XR)} {M L : List ((ℝ × ℝ) × (ℝ × ℝ))}

theorem Net.len (net : Net h segs M L) : segs.length = M.length := net.ends.length_eq

theorem Net.at (net : Net h segs M L) {i : Nat} {sg : Segment XR} (hi : segs[i]? = some sg) :
    ∃ e, M[i]? = some e ∧ (∃ a b, sg = .line a b) ∧ EndsAt h sg e := by
  have hl : i < segs.length := by
    by_contra hl
    rw [List.getElem?_eq_none (by omega)] at hi; cases hi
  have hl' : i < M.length := by rw [← net.len]; exact hl
  have := (List.forall₂_iff_get.1 net.ends).2 i hl hl'
  rw [List.getElem?_eq_getElem hl] at hi
  cases hi
  exact ⟨M[i], List.getElem?_eq_getElem hl', this⟩

theorem Net.seg (net : Net h segs M L) {i : Nat} {e : (ℝ × ℝ) × (ℝ × ℝ)} (hi : M[i]? = some e) :
    ∃ sg, segs[i]? = some sg ∧ (∃ a b, sg = .line a b) ∧ EndsAt h sg e := by
  have hl : i < M.length := by
    by_contra hl
    rw [List.getElem?_eq_none (by omega)] at hi; cases hi
  have hl' : i < segs.length := by rw [net.len]; exact hl
  obtain ⟨e', h1, h2⟩ := net.at (List.getElem?_eq_getElem hl')
  rw [hi] at h1; cases h1
  exact ⟨_, List.getElem?_eq_getElem hl', h2⟩

theorem Net.inj (net : Net h segs M L) {i j : Nat} {e : (ℝ × ℝ) × (ℝ × ℝ)} (hi : M[i]? = some e) (hj : M[j]? = some e) :
    i = j := by
  have hl : i < M.length := by
    by_contra hl
    rw [List.getElem?_eq_none (by omega)] at hi; cases hi
  exact (List.getElem?_inj hl net.nodup).1 (by rw [hi, hj])

theorem vec_beq {p q : ℝ × ℝ} : (Vec2.beq (⟨fin p.1, fin p.2⟩ : Vec2 XR) ⟨fin q.1, fin q.2⟩ = true) ↔ p = q := by
  simp [Vec2.beq, Prod.ext_iff]

/-- the ends of segments that are equal by value -/
theorem beq_ends {a b : Segment XR} (la : ∃ i j, a = .line i j) {e f : (ℝ × ℝ) × (ℝ × ℝ)}
    (ha : EndsAt h a e) (hb : EndsAt h b f) (hh : a.beq h b = true) : e = f := by
  obtain ⟨i, j, rfl⟩ := la
  cases b with
  | arc _ => cases hh
  | line k l =>
    obtain ⟨a1, a2⟩ := ha
    obtain ⟨b1, b2⟩ := hb
    simp only [Segment.getStart, Segment.getEnd] at a1 a2 b1 b2
    simp only [Segment.beq, Point2.beq, Bool.and_eq_true] at hh
    obtain ⟨⟨h1, -⟩, h2, -⟩ := hh
    rw [a1, b1, vec_beq] at h1
    rw [a2, b2, vec_beq] at h2
    exact Prod.ext h1 h2

theorem Net.mayFollow (net : Net h segs M L) {i j : Nat} {sg sg' : Segment XR} {a b : ℝ × ℝ} (hi : segs[i]? = some sg)
    (hm : M[i]? = some (a, b)) (used : List Nat) :
    MayFollow h segs sg used j sg' ↔ segs[j]? = some sg' ∧ j ∉ used ∧ ∃ c, M[j]? = some (b, c) ∧ c ≠ a := by
  obtain ⟨e, h1, l1, e1⟩ := net.at hi
  rw [hm] at h1; cases h1
  have hab : a ≠ b := Joined.ne net.plain ((net.mem a b).1 (List.mem_of_getElem? hm))
  unfold MayFollow
  constructor
  · rintro ⟨f1, f2, f3, f4, f5⟩
    refine ⟨f1, f2, ?_⟩
    obtain ⟨⟨p, q⟩, h2, l2, e2⟩ := net.at f1
    rw [e1.2, e2.1, vec_beq] at f3
    dsimp only at f3
    subst f3
    refine ⟨q, h2, ?_⟩
    rintro rfl
    rw [net.back i j sg sg' _ _ hi f1 hm h2] at f5
    cases f5
  · rintro ⟨f1, f2, c, h2, hc⟩
    obtain ⟨e', h2', l2, e2⟩ := net.at f1
    rw [h2] at h2'; cases h2'
    refine ⟨f1, f2, ?_, ?_, ?_⟩
    · rw [e1.2, e2.1, vec_beq]
    · rw [Bool.eq_false_iff]
      intro hb
      have := beq_ends l2 e2 e1 hb
      exact hab (Prod.mk.inj this).1.symm
    · rw [Bool.eq_false_iff]
      intro hb
      have := beq_ends l2 e2 e1.reverse hb
      exact hc (Prod.mk.inj this).2

theorem Net.turn (net : Net h segs M L) {i j : Nat} {sg sg' : Segment XR} {a b c : ℝ × ℝ} (hi : segs[i]? = some sg)
    (hm : M[i]? = some (a, b)) (hj : segs[j]? = some sg') (hm' : M[j]? = some (b, c)) (hc : c ≠ a) :
    Isotope.turn h sg sg' = fin (leftTurn a b c) := by
  obtain ⟨e, h1, ⟨i1, i2, rfl⟩, e1⟩ := net.at hi
  rw [hm] at h1; cases h1
  obtain ⟨e', h2, ⟨j1, j2, rfl⟩, e2⟩ := net.at hj
  rw [hm'] at h2; cases h2
  have j1 := (net.mem a b).1 (List.mem_of_getElem? hm)
  have j2 := (net.mem b c).1 (List.mem_of_getElem? hm')
  exact turn_eq e1 e2 (Joined.ne net.plain j1) (fun e => hc (net.plain.2 a b c j1.symm j2 e).symm)

theorem Net.next (net : Net h segs M L) {i j : Nat} {sg : Segment XR} {a b c : ℝ × ℝ} (hi : segs[i]? = some sg)
    (hm : M[i]? = some (a, b)) (hh : HardestLeft L a b c) (hj : M[j]? = some (b, c)) {used : List Nat} (hu : j ∉ used) :
    ∃ sg', segs[j]? = some sg' ∧ findNextSegment h segs sg used = some (j, sg') := by
  obtain ⟨sg', hs, -⟩ := net.seg hj
  refine ⟨sg', hs, ?_⟩
  have mf : MayFollow h segs sg used j sg' := (net.mayFollow hi hm used).2 ⟨hs, hu, c, hj, hh.2.1⟩
  cases e : findNextSegment h segs sg used with
  | none => exact absurd ⟨_, _, mf⟩ (findNext_none.1 e)
  | some x =>
    obtain ⟨x1, x2, d, x3, x4⟩ := (net.mayFollow hi hm used).1 (findNext_some e)
    have hle := C41_hardest_left_float h segs sg used x (fun k sg'' hk => by
      obtain ⟨y1, y2, d', y3, y4⟩ := (net.mayFollow hi hm used).1 hk
      rw [net.turn hi hm y1 y3 y4]; simp) e j sg' mf
    rw [net.turn hi hm hs hj hh.2.1, net.turn hi hm x1 x3 x4] at hle
    simp only [le_fin, decide_eq_true_eq] at hle
    have hd : HardestLeft L a b d := ⟨(net.mem b d).1 (List.mem_of_getElem? x3), x4,
      fun y y1 y2 => (hh.2.2 y y1 y2).trans hle⟩
    have : d = c := hd.unique net.plain hh
    subst this
    have : x.1 = j := net.inj x3 hj
    rw [this, hs] at x1
    congr 1
    exact Prod.ext this (Option.some.inj x1).symm

theorem Net.exists_hardest (net : Net h segs M L) {i : Nat} {sg : Segment XR} {a b : ℝ × ℝ} (hi : segs[i]? = some sg)
    (hm : M[i]? = some (a, b)) {used : List Nat} {x : Nat × Segment XR} (e : findNextSegment h segs sg used = some x) :
    ∃ c, HardestLeft L a b c := by
  obtain ⟨x1, x2, d, x3, x4⟩ := (net.mayFollow hi hm used).1 (findNext_some e)
  exact Isotope.exists_hardest ((net.mem b d).1 (List.mem_of_getElem? x3)) x4

/-- nothing unused leads to something used -/
def Net.Closed (M L : List ((ℝ × ℝ) × (ℝ × ℝ))) (used : List Nat) : Prop :=
  ∀ i j a b c, M[i]? = some (a, b) → HardestLeft L a b c → M[j]? = some (b, c) → j ∈ used → i ∈ used

theorem Net.next_iff (net : Net h segs M L) {used : List Nat} (hc : Net.Closed M L used) {x y : Nat × Segment XR} {a b : ℝ × ℝ}
    (hx : segs[x.1]? = some x.2) (hm : M[x.1]? = some (a, b)) (hu : x.1 ∉ used)
    (e : nxt h segs used x = some y) : ∃ c, HardestLeft L a b c ∧ M[y.1]? = some (b, c) := by
  obtain ⟨c, hh⟩ := net.exists_hardest hx hm e
  obtain ⟨j, hj⟩ := List.mem_iff_getElem?.1 ((net.mem b c).2 hh.1)
  obtain ⟨sg', -, e'⟩ := net.next hx hm hh hj (used := used) (fun hju => hu (hc _ _ _ _ _ hm hh hj hju))
  unfold nxt at e
  rw [e'] at e
  cases e
  exact ⟨c, hh, hj⟩

/-- what a traced ring looks like -/
def RingAt (segs : List (Segment XR)) (M : List ((ℝ × ℝ) × (ℝ × ℝ))) (ring : List (Nat × Segment XR)) (vs : List (ℝ × ℝ)) : Prop :=
  List.Forall₂ (fun x e => segs[x.1]? = some x.2 ∧ M[x.1]? = some e) ring (edges vs)

theorem RingAt.get {ring : List (Nat × Segment XR)} {vs : List (ℝ × ℝ)} (hr : RingAt segs M ring vs) {m : Nat}
    (hm : m < vs.length) : ∃ x, ring[m]? = some x ∧ segs[x.1]? = some x.2 ∧ M[x.1]? = some (cyc vs m, cyc vs (m + 1)) := by
  have hl : m < ring.length := by rw [hr.length_eq, edges_length]; exact hm
  have hl' : m < (edges vs).length := by rw [edges_length]; exact hm
  have := (List.forall₂_iff_get.1 hr).2 m hl hl'
  simp only [List.get_eq_getElem] at this
  have e := edges_get hm
  rw [List.getElem?_eq_getElem hl'] at e
  rw [Option.some.inj e] at this
  exact ⟨_, List.getElem?_eq_getElem hl, this⟩

theorem RingAt.mem {ring : List (Nat × Segment XR)} {vs : List (ℝ × ℝ)} (hr : RingAt segs M ring vs) (net : Net h segs M L)
    (i : Nat) : i ∈ ring.map (·.1) ↔ ∃ e ∈ edges vs, M[i]? = some e := by
  constructor
  · intro hi
    obtain ⟨x, hx, rfl⟩ := List.mem_map.1 hi
    obtain ⟨m, hm⟩ := List.mem_iff_getElem?.1 hx
    have hl : m < vs.length := by
      by_contra hl
      rw [List.getElem?_eq_none (by rw [hr.length_eq, edges_length]; omega)] at hm; cases hm
    obtain ⟨y, h1, h2, h3⟩ := hr.get hl
    rw [hm] at h1; cases h1
    exact ⟨_, List.mem_of_getElem? (edges_get hl), h3⟩
  · rintro ⟨e, he, hi⟩
    obtain ⟨m, hm, rfl⟩ := mem_edges_cyc.1 he
    obtain ⟨y, h1, h2, h3⟩ := hr.get hm
    rw [net.inj hi h3]
    exact List.mem_map.2 ⟨y, List.mem_of_getElem? h1, rfl⟩

theorem RingAt.runs {ring : List (Nat × Segment XR)} {vs : List (ℝ × ℝ)} (hr : RingAt segs M ring vs) (net : Net h segs M L) :
    RunsAround h (ring.map (·.2)) vs := by
  unfold RunsAround
  rw [List.forall₂_map_left_iff]
  refine hr.imp fun x e hx => ?_
  obtain ⟨e', h1, -, h3⟩ := net.at hx.1
  rw [hx.2] at h1; cases h1
  exact h3

/-- a ring that is traced goes around by hardest left turns -/
theorem Net.traced (net : Net h segs M L) (cl : ClosesUp L) {used : List Nat} (hc : Net.Closed M L used) {n : Nat}
    {cur : Nat × Segment XR} {ring : List (Nat × Segment XR)} (hx : segs[cur.1]? = some cur.2) (hu : cur.1 ∉ used)
    (e : ringWalk h segs used (cur.2.getStart h) n cur [] = some ring) :
    ∃ vs, Around L vs ∧ RingAt segs M ring vs ∧ cur ∈ ring := by
  obtain ⟨ok, hun, l, hl⟩ := ringWalk_ok hx hu e
  obtain ⟨l', h1, -, t⟩ := ringWalk_traj n cur [] ring e
  rw [List.nil_append] at h1
  have ht : Traj (nxt h segs used) (fun x => (x.2.getEnd h).beq (cur.2.getStart h) = true) ring := h1 ▸ t
  obtain ⟨vs, hvs⟩ := C49_closed_polygon h (ring.map (·.2)) ok.closedChain (by
    intro sg hsg
    obtain ⟨x, hx, rfl⟩ := List.mem_map.1 hsg
    obtain ⟨e, -, -, he⟩ := net.at (ok.mem x hx)
    exact ⟨e, he⟩)
  have hra : RingAt segs M ring vs := by
    rw [List.forall₂_map_left_iff] at hvs
    rw [List.forall₂_iff_get] at hvs
    refine List.forall₂_iff_get.2 ⟨hvs.1, fun i p q => ?_⟩
    have := hvs.2 i p q
    simp only [List.get_eq_getElem] at this ⊢
    have hs := ok.mem ring[i] (List.getElem_mem p)
    obtain ⟨e, h1, h2, h3⟩ := net.at hs
    refine ⟨hs, ?_⟩
    rw [h1]
    congr 1
    obtain ⟨a1, a2⟩ := this
    obtain ⟨b1, b2⟩ := h3
    rw [a1] at b1; rw [a2] at b2
    simp only [Vec2.mk.injEq, fin.injEq] at b1 b2
    exact Prod.ext (Prod.ext b1.1.symm b1.2.symm) (Prod.ext b2.1.symm b2.2.symm)
  have hlen : ring.length = vs.length := by rw [hra.length_eq, edges_length]
  have hne : vs ≠ [] := by
    rintro rfl
    exact ok.ne (List.length_eq_zero_iff.1 (by simpa using hlen))
  have hpos : 0 < vs.length := List.length_pos_iff.2 hne
  -- hardest left turns up to the last segment
  have hstep : ∀ m, m + 1 < vs.length → HardestLeft L (cyc vs m) (cyc vs (m + 1)) (cyc vs (m + 2)) := by
    intro m hm
    obtain ⟨x, x1, x2, x3⟩ := hra.get (m := m) (by omega)
    obtain ⟨y, y1, y2, y3⟩ := hra.get (m := m + 1) hm
    have hch := List.isChain_iff_getElem.1 ht.isChain m (by omega)
    rw [List.getElem?_eq_getElem (by omega)] at x1 y1
    rw [Option.some.inj x1, Option.some.inj y1] at hch
    obtain ⟨c, hh, hc'⟩ := net.next_iff hc x2 x3 (hun x (Option.some.inj x1 ▸ List.getElem_mem _)) hch
    rw [y3] at hc'
    have := (Prod.mk.inj (Option.some.inj hc')).2
    rw [show m + 2 = m + 1 + 1 from rfl, this]
    exact hh
  have j0 : ∀ m, m < vs.length → Joined L (cyc vs m) (cyc vs (m + 1)) := by
    intro m hm
    obtain ⟨x, x1, x2, x3⟩ := hra.get hm
    exact (net.mem _ _).1 (List.mem_of_getElem? x3)
  -- and at the point where it closes
  have hlast : HardestLeft L (cyc vs (vs.length - 1)) (cyc vs 0) (cyc vs 1) := by
    apply cl (cyc vs) (vs.length - 1) (j0 0 hpos)
    · intro i hi; exact hstep i (by omega)
    · have := cyc_add vs 0
      rw [show vs.length - 1 + 1 = 0 + vs.length by omega, this]
  have hall' : ∀ m, m < vs.length → HardestLeft L (cyc vs m) (cyc vs (m + 1)) (cyc vs (m + 2)) := by
    intro m hm
    by_cases hm' : m + 1 < vs.length
    · exact hstep m hm'
    · have e : m = vs.length - 1 := by omega
      have e1 := cyc_add vs 0
      have e2 := cyc_add vs 1
      rw [show m + 1 = 0 + vs.length by omega, show m + 2 = 1 + vs.length by omega, e1, e2, e]
      exact hlast
  have hall : ∀ m, HardestLeft L (cyc vs m) (cyc vs (m + 1)) (cyc vs (m + 2)) := by
    intro m
    have := hall' (m % vs.length) (Nat.mod_lt _ hpos)
    have e0 := cyc_mod vs m 0
    simp only [Nat.add_zero] at e0
    rw [cyc_mod, cyc_mod, e0] at this
    exact this
  refine ⟨vs, around_iff.2 ⟨hne, ?_, hall⟩, hra, by rw [hl]; simp⟩
  -- no point twice
  rw [List.nodup_iff_injective_get]
  have main : ∀ p q, p < q → q < vs.length → cyc vs p ≠ cyc vs q := by
    intro p q hpq hq epq
    have h1 := cl (fun k => cyc vs (p + k)) (q - p - 1) (j0 p (by omega)) (fun i hi => hall (p + i)) (by
      show cyc vs (p + (q - p - 1 + 1)) = cyc vs (p + 0)
      rw [show p + (q - p - 1 + 1) = q by omega, Nat.add_zero, epq])
    have h2 := hall (q - 1)
    simp only [Nat.add_zero] at h1
    rw [show p + (q - p - 1) = q - 1 by omega, epq] at h1
    rw [show q - 1 + 1 = q by omega, show q - 1 + 2 = q + 1 by omega] at h2
    have e1 := h1.unique net.plain h2
    obtain ⟨x, x1, x2, x3⟩ := hra.get (m := p) (by omega)
    obtain ⟨y, y1, y2, y3⟩ := hra.get hq
    rw [epq, e1] at x3
    have exy := net.inj x3 y3
    have hp' : p < (ring.map (·.1)).length := by simp; omega
    have := (List.getElem?_inj hp' ok.nodup).1 (show (ring.map (·.1))[p]? = (ring.map (·.1))[q]? by
      rw [List.getElem?_map, List.getElem?_map, x1, y1]; simp [exy])
    omega
  intro ⟨p, hp⟩ ⟨q, hq⟩ epq
  simp only [List.get_eq_getElem] at epq
  rw [← cyc_lt hp, ← cyc_lt hq] at epq
  rcases Nat.lt_trichotomy p q with hlt | heq | hgt
  · exact absurd epq (main p q hlt hq)
  · exact Fin.ext heq
  · exact absurd epq.symm (main q p hgt hp)

/-- if one gets around, fewer lines than there are in both directions are needed -/
theorem Net.short (net : Net h segs M L) {vs : List (ℝ × ℝ)} (hv : Around L vs) : vs.length < segs.length := by
  obtain ⟨v1, v2, v3⟩ := around_iff.1 hv
  have j := hv.joined 0
  have hsw : (cyc vs 1, cyc vs 0) ∉ edges vs := by
    intro hm
    obtain ⟨m, hm, e⟩ := mem_edges_cyc.1 hm
    have h1 := (Prod.mk.inj e).1
    have h2 := (Prod.mk.inj e).2
    have e1 := cyc_inj v2 v1 h1
    have := v3 0
    rw [show (0 + 2) = 1 + 1 from rfl] at this
    have e2 : cyc vs (1 + 1) = cyc vs (m + 1) := by
      have a1 := cyc_mod vs 1 1
      have a2 := cyc_mod vs m 1
      rw [← a1, ← a2, e1]
    exact this.2.1 (e2.trans h2.symm)
  have hnd : ((cyc vs 1, cyc vs 0) :: edges vs).Nodup := List.nodup_cons.2 ⟨hsw, edges_nodup v2⟩
  have hsub : ((cyc vs 1, cyc vs 0) :: edges vs) ⊆ M := by
    intro e he
    rcases List.mem_cons.1 he with rfl | he
    · exact (net.mem _ _).2 j.symm
    · obtain ⟨m, hm, rfl⟩ := mem_edges_cyc.1 he
      exact (net.mem _ _).2 (hv.joined m)
  have := (hnd.subperm hsub).length_le
  rw [List.length_cons, edges_length] at this
  rw [net.len]; omega

/-- if one can get around and no line is used, the walk finds the way around -/
theorem Net.walk (net : Net h segs M L) {used : List Nat} {vs : List (ℝ × ℝ)} (hv : Around L vs)
    (hf : ∀ i e, M[i]? = some e → e ∈ edges vs → i ∉ used) {cur : Nat × Segment XR} (hx : segs[cur.1]? = some cur.2)
    {e : (ℝ × ℝ) × (ℝ × ℝ)} (hm : M[cur.1]? = some e) (he : e ∈ edges vs) :
    ∃ ring, ringWalk h segs used (cur.2.getStart h) (segs.length - 1) cur [] = some ring := by
  obtain ⟨v1, v2, v3⟩ := around_iff.1 hv
  have hpos : 0 < vs.length := List.length_pos_iff.2 v1
  obtain ⟨j, hj, rfl⟩ := mem_edges_cyc.1 he
  have hst : cur.2.getStart h = ⟨fin (cyc vs j).1, fin (cyc vs j).2⟩ := by
    obtain ⟨e, h1, -, h3⟩ := net.at hx
    rw [hm] at h1; cases h1
    exact h3.1
  have key : ∀ d k, k + d + 1 = vs.length → ∀ x : Nat × Segment XR, segs[x.1]? = some x.2 →
      M[x.1]? = some (cyc vs (j + k), cyc vs (j + k + 1)) →
      ∃ l, l.length = d ∧ Traj (nxt h segs used) (fun x => (x.2.getEnd h).beq (cur.2.getStart h) = true) (x :: l) := by
    intro d
    induction d with
    | zero =>
      intro k hk x x1 x2
      refine ⟨[], rfl, .last ?_⟩
      obtain ⟨e, h1, -, h3⟩ := net.at x1
      rw [x2] at h1; cases h1
      show (x.2.getEnd h).beq _ = true
      rw [h3.2, hst, vec_beq, show j + k + 1 = j + vs.length by omega, cyc_add]
    | succ d ih =>
      intro k hk x x1 x2
      obtain ⟨i, hi⟩ := List.mem_iff_getElem?.1 ((net.mem _ _).2 (hv.joined (j + k + 1)))
      obtain ⟨sg', s1, s2⟩ := net.next x1 x2 (v3 (j + k)) hi (used := used) (hf i _ hi (cyc_edge v1 _))
      obtain ⟨l, l1, l2⟩ := ih (k + 1) (by omega) (i, sg') s1 hi
      refine ⟨(i, sg') :: l, by simp [l1], .step ?_ s2 l2⟩
      obtain ⟨e, h1, -, h3⟩ := net.at x1
      rw [x2] at h1; cases h1
      show ¬(x.2.getEnd h).beq _ = true
      rw [h3.2, hst, vec_beq]
      intro ee
      have := cyc_inj v2 v1 ee
      rw [Nat.mod_eq_of_lt hj, show j + k + 1 = j + (k + 1) by omega, add_mod' hj (by omega)] at this
      split at this <;> omega
  obtain ⟨l, l1, l2⟩ := key (vs.length - 1) 0 (by omega) cur hx hm
  exact ⟨_, traj_ringWalk (segs.length - 1) cur [] l (by have := net.short hv; omega) l2⟩

/-- the loop over all segments -/
theorem Net.loop (net : Net h segs M L) (cl : ClosesUp L) (todo : List (Nat × Segment XR))
    (ht : ∀ x ∈ todo, segs[x.1]? = some x.2) (used : List Nat) (rings : List (List (Nat × Segment XR)))
    (vss : List (List (ℝ × ℝ))) (hr : List.Forall₂ (RingAt segs M) rings vss) (ha : ∀ vs ∈ vss, Around L vs)
    (hp : vss.Pairwise (fun vs ws => ¬vs ~r ws))
    (hu : ∀ i, i ∈ used ↔ ∃ vs ∈ vss, ∃ e ∈ edges vs, M[i]? = some e) :
    ∃ vss', List.Forall₂ (RingAt segs M) (ringLoop h segs todo used rings).2 vss' ∧ (∀ vs ∈ vss', Around L vs) ∧
      vss'.Pairwise (fun vs ws => ¬vs ~r ws) ∧
      (∀ i, i ∈ (ringLoop h segs todo used rings).1 ↔ ∃ vs ∈ vss', ∃ e ∈ edges vs, M[i]? = some e) ∧
      (∀ vs ∈ vss, vs ∈ vss') ∧
      ∀ x ∈ todo, ∀ vs e, Around L vs → e ∈ edges vs → M[x.1]? = some e → x.1 ∈ (ringLoop h segs todo used rings).1 := by
  induction todo generalizing used rings vss with
  | nil => exact ⟨vss, hr, ha, hp, hu, fun _ h => h, by simp⟩
  | cons is rest ih =>
    have ht' : ∀ x ∈ rest, segs[x.1]? = some x.2 := fun x hx => ht x (List.mem_cons_of_mem _ hx)
    unfold ringLoop
    by_cases hc : is.1 ∈ used
    · rw [if_pos (by simpa using hc)]
      obtain ⟨vss', i1, i2, i3, i4, i5, i6⟩ := ih ht' used rings vss hr ha hp hu
      refine ⟨vss', i1, i2, i3, i4, i5, fun x hx => ?_⟩
      rcases List.mem_cons.1 hx with rfl | hx
      · intro _ _ _ _ _
        rw [i4]
        obtain ⟨vs, h1, h2⟩ := (hu _).1 hc
        exact ⟨vs, i5 vs h1, h2⟩
      · exact i6 x hx
    · rw [if_neg (by simpa using hc)]
      have hs := ht is (by simp)
      obtain ⟨e0, hm0, -, -⟩ := net.at hs
      -- lines on a way around with a used line are used
      have hshare : ∀ vs, Around L vs → ∀ e ∈ edges vs, ∀ i, M[i]? = some e → i ∈ used →
          ∀ e' ∈ edges vs, ∀ i', M[i']? = some e' → i' ∈ used := by
        intro vs hv e he i hi hiu e' he' i' hi'
        obtain ⟨ws, w1, f, w2, w3⟩ := (hu i).1 hiu
        rw [hi] at w3; cases w3
        obtain ⟨k, rfl⟩ := Around.same net.plain hv (ha ws w1) he w2
        refine (hu i').2 ⟨_, w1, e', ?_, hi'⟩
        obtain ⟨m, hm, rfl⟩ := mem_edges_cyc.1 he'
        have hpos : 0 < vs.length := by omega
        have hn : vs ≠ [] := List.length_pos_iff.1 hpos
        have := cyc_edge (vs := vs.rotate k) (by simpa using hn) (m + (vs.length - k % vs.length))
        rw [cyc_rotate _ hn, cyc_rotate _ hn] at this
        have hk := Nat.mod_lt k hpos
        have e1 : ∀ t, cyc vs (m + (vs.length - k % vs.length) + t + k) = cyc vs (m + t) := by
          intro t
          have : m + (vs.length - k % vs.length) + t + k = m + t + vs.length * (k / vs.length + 1) := by
            have := Nat.div_add_mod k vs.length
            rw [Nat.mul_add]; omega
          rw [this]
          unfold cyc; rw [Nat.add_mul_mod_self_left]
        rw [e1 1] at this
        have e10 := e1 0
        simp only [Nat.add_zero] at e10
        rw [e10] at this
        exact this
      have hcl : Net.Closed M L used := by
        intro i j a b c hi hh hj hju
        obtain ⟨ws, w1, f, w2, w3⟩ := (hu j).1 hju
        rw [hj] at w3; cases w3
        obtain ⟨q1, q2, q3⟩ := around_iff.1 (ha ws w1)
        obtain ⟨m, hm, e⟩ := mem_edges_cyc.1 w2
        have hp' : 0 < ws.length := by omega
        have h3 := q3 (m + (ws.length - 1))
        rw [show m + (ws.length - 1) + 1 = m + ws.length by omega, show m + (ws.length - 1) + 2 = m + 1 + ws.length by omega,
          cyc_add, cyc_add, ← (Prod.mk.inj e).1, ← (Prod.mk.inj e).2] at h3
        have hj' := (ha ws w1).joined (m + (ws.length - 1))
        rw [show m + (ws.length - 1) + 1 = m + ws.length by omega, cyc_add, ← (Prod.mk.inj e).1] at hj'
        have ea := hh.inj net.plain ((net.mem a b).1 (List.mem_of_getElem? hi)) hj' h3
        refine (hu i).2 ⟨ws, w1, _, cyc_edge q1 (m + (ws.length - 1)), ?_⟩
        rw [hi, show m + (ws.length - 1) + 1 = m + ws.length by omega, cyc_add, ← (Prod.mk.inj e).1, ea]
      cases ew : ringWalk h segs used (is.2.getStart h) (segs.length - 1) is [] with
      | none =>
        dsimp only
        obtain ⟨vss', i1, i2, i3, i4, i5, i6⟩ := ih ht' used rings vss hr ha hp hu
        refine ⟨vss', i1, i2, i3, i4, i5, fun x hx => ?_⟩
        rcases List.mem_cons.1 hx with rfl | hx
        · intro vs e hv he hm
          exfalso
          obtain ⟨ring, hring⟩ := net.walk hv (used := used) (fun i e' hi he' hiu =>
            hc (hshare vs hv e' he' i hi hiu e he _ hm)) hs hm he
          rw [ew] at hring; cases hring
        · exact i6 x hx
      | some ring =>
        dsimp only
        obtain ⟨vs, hv, hra, hcur⟩ := net.traced cl hcl hs hc ew
        have hin : ∀ i, i ∈ ring.map (·.1) ↔ ∃ e ∈ edges vs, M[i]? = some e := hra.mem net
        have hnew : ∀ ws ∈ vss, ¬ws ~r vs := by
          intro ws hws hrot
          obtain ⟨e, he, hm⟩ := (hin is.1).1 (List.mem_map.2 ⟨is, hcur, rfl⟩)
          obtain ⟨k, rfl⟩ := hrot
          have hn : ws ≠ [] := (ha ws hws).1
          obtain ⟨m, hm', rfl⟩ := mem_edges_cyc.1 he
          rw [cyc_rotate _ hn, cyc_rotate _ hn, show m + 1 + k = m + k + 1 by omega] at hm
          exact hc ((hu is.1).2 ⟨ws, hws, _, cyc_edge hn _, hm⟩)
        obtain ⟨vss', i1, i2, i3, i4, i5, i6⟩ := ih ht' (used ++ ring.map (·.1)) (rings ++ [ring]) (vss ++ [vs])
          (List.rel_append hr (.cons hra .nil))
          (by
            intro ws hws
            rcases List.mem_append.1 hws with h' | h'
            · exact ha ws h'
            · rw [List.mem_singleton.1 h']; exact hv)
          (by
            rw [List.pairwise_append]
            refine ⟨hp, by simp, ?_⟩
            intro ws hws b hb
            rw [List.mem_singleton.1 hb]
            exact hnew ws hws)
          (by
            intro i
            rw [List.mem_append, hu, hin]
            constructor
            · rintro (⟨ws, hws, h'⟩ | h')
              · exact ⟨ws, by simp [hws], h'⟩
              · exact ⟨vs, by simp, h'⟩
            · rintro ⟨ws, hws, h'⟩
              rcases List.mem_append.1 hws with hw | hw
              · exact .inl ⟨ws, hw, h'⟩
              · rw [List.mem_singleton.1 hw] at h'; exact .inr h')
        refine ⟨vss', i1, i2, i3, i4, fun ws hws => i5 ws (by simp [hws]), fun x hx => ?_⟩
        rcases List.mem_cons.1 hx with rfl | hx
        · intro _ _ _ _ _
          rw [i4]
          exact ⟨vs, i5 vs (by simp), (hin _).1 (List.mem_map.2 ⟨x, hcur, rfl⟩)⟩
        · exact i6 x hx

end

end Isotope
