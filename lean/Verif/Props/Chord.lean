import Verif.Lemmas.Chord

/-!
# A new line across a ring (C83)
-/

namespace Isotope
open XR

variable {L L' : List ((ℝ × ℝ) × (ℝ × ℝ))} {p q : ℝ × ℝ}

theorem adds_of_perm {e : (ℝ × ℝ) × (ℝ × ℝ)} (he : e = (p, q) ∨ e = (q, p)) (hL : L'.Perm (e :: L)) : Adds L L' p q := by
  intro x y
  unfold Joined
  rw [hL.mem_iff, hL.mem_iff]
  simp only [List.mem_cons]
  rcases he with rfl | rfl <;> simp only [Prod.mk.injEq] <;> tauto

theorem nodup_of_perm (hp : PlainLines L) {e : (ℝ × ℝ) × (ℝ × ℝ)} (he : e = (p, q) ∨ e = (q, p)) (hne : p ≠ q) (hnj : ¬Joined L p q)
    (hL : L'.Perm (e :: L)) : (L' ++ L'.map Prod.swap).Nodup := by
  have h1 : (L' ++ L'.map Prod.swap).Perm ((e :: L) ++ (e :: L).map Prod.swap) := hL.append (hL.map _)
  rw [h1.nodup_iff]
  have h2 : ((e :: L) ++ (e :: L).map Prod.swap).Perm (e :: e.swap :: (L ++ L.map Prod.swap)) := by
    rw [List.cons_append, List.map_cons]
    exact List.Perm.cons _ List.perm_middle
  rw [h2.nodup_iff, List.nodup_cons, List.nodup_cons]
  have m1 : ∀ {x y : ℝ × ℝ}, ¬Joined L x y → (x, y) ∉ L ++ L.map Prod.swap := fun h m => h (joined_mem.2 m)
  have hnj' : ¬Joined L q p := fun h => hnj h.symm
  rcases he with rfl | rfl
  · refine ⟨?_, m1 hnj', hp.1⟩
    simp only [List.mem_cons, not_or]
    exact ⟨fun e => hne (Prod.mk.inj e).1, m1 hnj⟩
  · refine ⟨?_, m1 hnj, hp.1⟩
    simp only [List.mem_cons, not_or]
    exact ⟨fun e => hne (Prod.mk.inj e).2, m1 hnj'⟩

variable {A B : List (ℝ × ℝ)}

/-- what is used of the hypotheses -/
theorem cut_plain (hp : PlainLines L) {e : (ℝ × ℝ) × (ℝ × ℝ)} (he : e = (p, q) ∨ e = (q, p)) (hL : L'.Perm (e :: L))
    (hv : Around L (p :: A ++ q :: B)) (hnj : ¬Joined L p q) (i1 : PointsInto (p :: A ++ q :: B) p q)
    (i2 : PointsInto (p :: A ++ q :: B) q p) : PlainLines L' := by
  obtain ⟨a, c, a', c', k, k', -⟩ := cut_corners hv hnj i1 i2
  exact adds_plain hp (adds_of_perm he hL) (nodup_of_perm hp he k.ne hnj hL) k k'

/-- **C83.** Let `p` and `q` be two corners of a way around by hardest left turns that are not joined yet.  A new line between them
that lies, at both ends, inside the corner, cuts this way around in two: the rings of the new drawing are those of the old one,
except that in place of the way around there are its two parts (each of them only if its area is positive, as always).  The
two areas add up to the old one. -/
theorem C83_cut (h h' : Heap XR) (s s' : Sketch) (hd : DrawnLines h s L) (hd' : DrawnLines h' s' L') (hp : PlainLines L) (hc : ClosesUp L)
    {e : (ℝ × ℝ) × (ℝ × ℝ)} (he : e = (p, q) ∨ e = (q, p)) (hL : L'.Perm (e :: L)) (hv : Around L (p :: A ++ q :: B))
    (hnj : ¬Joined L p q) (i1 : PointsInto (p :: A ++ q :: B) p q) (i2 : PointsInto (p :: A ++ q :: B) q p) :
    (∃ vss vss' rest : List (List (ℝ × ℝ)), List.Forall₂ (fun r vs => RunsAround h r.segs vs) (lineRings h s) vss ∧
      List.Forall₂ (fun r vs => RunsAround h' r.segs vs) (lineRings h' s') vss' ∧
      (vss.map (fun vs : List (ℝ × ℝ) => (vs : Cycle (ℝ × ℝ)))).Perm
        (([p :: A ++ q :: B].filter (fun vs => decide (0 < shoelace vs)) ++ rest).map (fun vs : List (ℝ × ℝ) => (vs : Cycle (ℝ × ℝ)))) ∧
      (vss'.map (fun vs : List (ℝ × ℝ) => (vs : Cycle (ℝ × ℝ)))).Perm
        (([p :: A ++ [q], q :: B ++ [p]].filter (fun vs => decide (0 < shoelace vs)) ++ rest).map
          (fun vs : List (ℝ × ℝ) => (vs : Cycle (ℝ × ℝ))))) ∧
    shoelace (p :: A ++ q :: B) = shoelace (p :: A ++ [q]) + shoelace (q :: B ++ [p]) := by
  refine ⟨?_, shoelace_cut p q A B⟩
  have hA := adds_of_perm he hL
  have hp' := cut_plain hp he hL hv hnj i1 i2
  have hc' := cut_closes hp hA hv hnj i1 i2 hp' hc
  have iff := cut_iff hp hA hv hnj i1 i2 hp'
  obtain ⟨vss, a1, a2, a3⟩ := C77_rings h s L hd hp hc
  obtain ⟨vss', b1, b2, b3⟩ := C77_rings h' s' L' hd' hp' hc'
  classical
  -- the two parts are different, and different from the other ways around
  have u1 := cut_around hp hA hv hnj i1 i2
  have u2 := cut_around' hp hA hv hnj i1 i2
  have d12 : ¬(p :: A ++ [q]) ~r (q :: B ++ [p]) := by
    intro hr
    have hm : (q, p) ∈ edges (q :: B ++ [p]) := mem_edges_rotated hr (by rw [edges_closed]; simp)
    rw [edges_closed, List.mem_append, List.mem_singleton] at hm
    rcases hm with hm | hm
    · have := hv.joined_of (x := q) (y := p) (by rw [edges_cut]; exact List.mem_append_right _ hm)
      exact hnj this.symm
    · obtain ⟨a, c, a', c', k, -⟩ := cut_corners hv hnj i1 i2
      exact k.ne (Prod.mk.inj hm).2
  have no : ∀ ws, Around L ws → ¬ws ~r (p :: A ++ [q]) ∧ ¬ws ~r (q :: B ++ [p]) := by
    intro ws hw
    refine ⟨fun hr => ?_, fun hr => ?_⟩
    · exact hnj (hw.joined_of (mem_edges_rotated hr.symm (by rw [edges_closed]; simp : (q, p) ∈ edges (p :: A ++ [q])))).symm
    · exact hnj (hw.joined_of (mem_edges_rotated hr.symm (by rw [edges_closed]; simp : (p, q) ∈ edges (q :: B ++ [p]))))
  let rest := vss.filter (fun vs => decide (¬vs ~r (p :: A ++ q :: B)))
  have mrest : ∀ vs, (∃ ws ∈ rest, ws ~r vs) ↔ (Around L vs ∧ 0 < shoelace vs) ∧ ¬vs ~r (p :: A ++ q :: B) := by
    intro vs
    rw [← a3]
    constructor
    · rintro ⟨ws, hw, hr⟩
      obtain ⟨w1, w2⟩ := List.mem_filter.1 hw
      exact ⟨⟨ws, w1, hr⟩, fun hh => of_decide_eq_true w2 (hr.trans hh)⟩
    · rintro ⟨⟨ws, w1, hr⟩, hh⟩
      exact ⟨ws, List.mem_filter.2 ⟨w1, decide_eq_true fun h2 => hh (hr.symm.trans h2)⟩, hr⟩
  have prest : rest.Pairwise (fun vs ws => ¬vs ~r ws) := a2.filter _
  have arest : ∀ ws ∈ rest, Around L ws ∧ ¬ws ~r (p :: A ++ q :: B) := fun ws hw =>
    ⟨((mrest ws).1 ⟨ws, hw, .refl _⟩).1.1, ((mrest ws).1 ⟨ws, hw, .refl _⟩).2⟩
  refine ⟨vss, vss', rest, a1, b1, ?_, ?_⟩
  · rw [List.perm_ext_iff_of_nodup (cyc_nodup a2)]
    · intro cy
      induction cy using Quotient.inductionOn with
      | h vs =>
        rw [show (Quotient.mk _ vs : Cycle (ℝ × ℝ)) = (vs : Cycle (ℝ × ℝ)) from rfl, cyc_mem, cyc_mem, a3]
        constructor
        · rintro ⟨w1, w2⟩
          by_cases hr : vs ~r (p :: A ++ q :: B)
          · refine ⟨_, List.mem_append_left _ (List.mem_filter.2 ⟨List.mem_singleton.2 rfl, ?_⟩), hr.symm⟩
            rw [← shoelace_isRotated hr] at w2
            simpa using w2
          · obtain ⟨ws, x1, x2⟩ := (mrest vs).2 ⟨⟨w1, w2⟩, hr⟩
            exact ⟨ws, List.mem_append_right _ x1, x2⟩
        · rintro ⟨ws, hw, hr⟩
          rcases List.mem_append.1 hw with hw | hw
          · obtain ⟨w1, w2⟩ := List.mem_filter.1 hw
            rw [List.mem_singleton] at w1
            subst w1
            refine ⟨Around.rotated hr hv, ?_⟩
            rw [shoelace_isRotated hr]
            simpa using w2
          · exact ((mrest vs).1 ⟨ws, hw, hr⟩).1
    · refine cyc_nodup ?_
      rw [List.pairwise_append]
      refine ⟨?_, prest, fun x hx y hy => ?_⟩
      · exact List.Pairwise.filter _ (by simp)
      · have := List.mem_singleton.1 (List.mem_filter.1 hx).1
        subst this
        exact fun hr => (arest y hy).2 hr.symm
  · rw [List.perm_ext_iff_of_nodup (cyc_nodup b2)]
    · intro cy
      induction cy using Quotient.inductionOn with
      | h vs =>
        rw [show (Quotient.mk _ vs : Cycle (ℝ × ℝ)) = (vs : Cycle (ℝ × ℝ)) from rfl, cyc_mem, cyc_mem, b3, iff]
        constructor
        · rintro ⟨⟨w1, hr⟩ | hr | hr, w2⟩
          · obtain ⟨ws, x1, x2⟩ := (mrest vs).2 ⟨⟨w1, w2⟩, hr⟩
            exact ⟨ws, List.mem_append_right _ x1, x2⟩
          · refine ⟨_, List.mem_append_left _ (List.mem_filter.2 ⟨by simp, ?_⟩), hr.symm⟩
            rw [← shoelace_isRotated hr] at w2
            simpa using w2
          · refine ⟨_, List.mem_append_left _ (List.mem_filter.2 ⟨List.mem_cons_of_mem _ (List.mem_singleton.2 rfl), ?_⟩), hr.symm⟩
            rw [← shoelace_isRotated hr] at w2
            simpa using w2
        · rintro ⟨ws, hw, hr⟩
          rcases List.mem_append.1 hw with hw | hw
          · obtain ⟨w1, w2⟩ := List.mem_filter.1 hw
            simp only [List.mem_cons, List.not_mem_nil, or_false] at w1
            rcases w1 with rfl | rfl
            · refine ⟨.inr (.inl hr.symm), ?_⟩
              rw [shoelace_isRotated hr]
              simpa using w2
            · refine ⟨.inr (.inr hr.symm), ?_⟩
              rw [shoelace_isRotated hr]
              simpa using w2
          · obtain ⟨⟨x1, x2⟩, x3⟩ := (mrest vs).1 ⟨ws, hw, hr⟩
            exact ⟨.inl ⟨x1, x3⟩, x2⟩
    · refine cyc_nodup ?_
      rw [List.pairwise_append]
      refine ⟨?_, prest, fun x hx y hy => ?_⟩
      · refine List.Pairwise.filter _ ?_
        simpa using d12
      · have := (List.mem_filter.1 hx).1
        simp only [List.mem_cons, List.not_mem_nil, or_false] at this
        have ⟨n1, n2⟩ := no y (arest y hy).1
        rcases this with rfl | rfl
        · exact fun hr => n1 hr.symm
        · exact fun hr => n2 hr.symm

/-- **C83.** The new line is not reported unused, and the other lines are reported unused as before. -/
theorem C83_unused (h h' : Heap XR) (s s' : Sketch) (hd : DrawnLines h s L) (hd' : DrawnLines h' s' L') (hp : PlainLines L)
    (hc : ClosesUp L) {e : (ℝ × ℝ) × (ℝ × ℝ)} (he : e = (p, q) ∨ e = (q, p)) (hL : L'.Perm (e :: L)) (hv : Around L (p :: A ++ q :: B))
    (hnj : ¬Joined L p q) (i1 : PointsInto (p :: A ++ q :: B) p q) (i2 : PointsInto (p :: A ++ q :: B) q p)
    (sg' : Segment XR) (hs' : sg' ∈ drawn h' s') (f : (ℝ × ℝ) × (ℝ × ℝ)) (hf' : EndsAt h' sg' f) :
    (f = e → sg' ∉ (findRings h' s').2) ∧
    ∀ sg, sg ∈ drawn h s → EndsAt h sg f → (sg ∈ (findRings h s).2 ↔ sg' ∈ (findRings h' s').2) := by
  have hA := adds_of_perm he hL
  have hp' := cut_plain hp he hL hv hnj i1 i2
  have hc' := cut_closes hp hA hv hnj i1 i2 hp' hc
  have iff := cut_iff hp hA hv hnj i1 i2 hp'
  have u1 := cut_around hp hA hv hnj i1 i2
  have u2 := cut_around' hp hA hv hnj i1 i2
  refine ⟨?_, fun sg hs hf => ?_⟩
  · rintro rfl
    rw [C77_unused h' s' L' hd' hp' hc' sg' hs' f hf', not_not]
    rcases he with rfl | rfl
    · exact ⟨_, u2, by rw [edges_closed]; simp⟩
    · exact ⟨_, u1, by rw [edges_closed]; simp⟩
  · rw [C77_unused h s L hd hp hc sg hs f hf, C77_unused h' s' L' hd' hp' hc' sg' hs' f hf', not_iff_not]
    have hjf : Joined L f.1 f.2 := by
      obtain ⟨i, hi⟩ := List.mem_iff_getElem?.1 hs
      have l1 : i < (drawn h s).length := by
        by_contra hl
        rw [List.getElem?_eq_none (by omega)] at hi; cases hi
      have l3 : i < L.length := by rw [← hd.length_eq]; exact l1
      have q := ((List.forall₂_iff_get.1 hd).2 i l1 l3).2.2
      rw [List.getElem?_eq_getElem l1] at hi
      simp only [List.get_eq_getElem] at q
      rw [Option.some.inj hi] at q
      obtain ⟨x1, x2⟩ := q
      obtain ⟨y1, y2⟩ := hf
      rw [x1] at y1; rw [x2] at y2
      simp only [Vec2.mk.injEq, fin.injEq] at y1 y2
      rw [← Prod.ext (x := L[i].1) (y := f.1) y1.1 y1.2, ← Prod.ext (x := L[i].2) (y := f.2) y2.1 y2.2]
      exact .inl (List.getElem_mem _)
    constructor
    · rintro ⟨vs, hv', hm⟩
      by_cases hr : vs ~r (p :: A ++ q :: B)
      · have := mem_edges_rotated hr hm
        rw [edges_cut, List.mem_append] at this
        rcases this with m | m
        · exact ⟨_, u1, by rw [edges_closed]; exact List.mem_append_left _ m⟩
        · exact ⟨_, u2, by rw [edges_closed]; exact List.mem_append_left _ m⟩
      · exact ⟨vs, (iff vs).2 (.inl ⟨hv', hr⟩), hm⟩
    · rintro ⟨vs, hv', hm⟩
      rcases (iff vs).1 hv' with ⟨h1, -⟩ | hr | hr
      · exact ⟨vs, h1, hm⟩
      · have := mem_edges_rotated hr hm
        rw [edges_closed, List.mem_append, List.mem_singleton] at this
        rcases this with m | rfl
        · exact ⟨_, hv, by rw [edges_cut]; exact List.mem_append_left _ m⟩
        · exact absurd hjf.symm hnj
      · have := mem_edges_rotated hr hm
        rw [edges_closed, List.mem_append, List.mem_singleton] at this
        rcases this with m | rfl
        · exact ⟨_, hv, by rw [edges_cut]; exact List.mem_append_right _ m⟩
        · exact absurd hjf hnj

theorem links_head {α : Type} {x y : α} {A : List α} (hA : A ≠ []) : (x, A.head hA) ∈ links (x :: A ++ [y]) := by
  cases A with
  | nil => exact absurd rfl hA
  | cons a A => simp [links]

theorem links_getLast {α : Type} {x y : α} {A : List α} (hA : A ≠ []) : (A.getLast hA, y) ∈ links (x :: A ++ [y]) := by
  obtain ⟨D, d, rfl⟩ : ∃ D d, A = D ++ [d] := ⟨A.dropLast, A.getLast hA, (List.dropLast_append_getLast hA).symm⟩
  rw [show x :: (D ++ [d]) ++ [y] = (x :: D) ++ [d, y] by simp, links_last]
  simp

/-- the corners of a convex way around -/
theorem convex_points (hp : PlainLines L) (hv : Around L (p :: A ++ q :: B)) (hnj : ¬Joined L p q) (hx : ConvexAround (p :: A ++ q :: B)) :
    PointsInto (p :: A ++ q :: B) p q ∧ PointsInto (p :: A ++ q :: B) q p ∧ 0 < shoelace (p :: A ++ [q]) ∧
      0 < shoelace (q :: B ++ [p]) := by
  obtain ⟨v1, v2, v3⟩ := around_edges.1 hv
  have uniq : ∀ {x y z : ℝ × ℝ}, (x, y) ∈ edges (p :: A ++ q :: B) → (x, z) ∈ edges (p :: A ++ q :: B) → y = z := by
    intro x y z e1 e2
    obtain ⟨u, hu⟩ := edges_prev e1
    exact (v3 _ _ _ hu e1).unique hp (v3 _ _ _ hu e2)
  have uniq' : ∀ {x y z : ℝ × ℝ}, (x, z) ∈ edges (p :: A ++ q :: B) → (y, z) ∈ edges (p :: A ++ q :: B) → x = y := by
    intro x y z e1 e2
    obtain ⟨u, hu⟩ := edges_next e1
    exact (v3 _ _ _ e1 hu).inj hp (hv.joined_of e1) (hv.joined_of e2) (v3 _ _ _ e2 hu)
  have hA : A ≠ [] := by
    rintro rfl
    exact hnj (hv.joined_of (x := p) (y := q) (by rw [edges_cut]; simp [links]))
  have hB : B ≠ [] := by
    rintro rfl
    exact hnj (hv.joined_of (x := q) (y := p) (by rw [edges_cut]; simp [links])).symm
  have orient : ∀ {u v w : ℝ × ℝ}, [u, v, w].Sublist (p :: A ++ q :: B) → 0 < crossAt v u w ∧ 0 < crossAt w v u ∧ 0 < crossAt u w v := by
    intro u v w hs
    have := hx.2 u v w hs
    refine ⟨?_, ?_, ?_⟩ <;> (unfold crossAt; linarith)
  have hd1 : (p :: A ++ [q]).Sublist (p :: A ++ q :: B) := List.Sublist.append_left (by simp) _
  have hd2 : (p :: q :: B).Sublist (p :: A ++ q :: B) := by
    rw [List.cons_append]
    exact List.Sublist.cons_cons _ (List.sublist_append_right _ _)
  have sA : ∀ {x}, x ∈ A → [x].Sublist A := fun h => List.singleton_sublist.2 h
  have sB : ∀ {x}, x ∈ B → [x].Sublist B := fun h => List.singleton_sublist.2 h
  have s1 : ∀ {x}, x ∈ A → [p, x, q].Sublist (p :: A ++ q :: B) := fun h =>
    (List.Sublist.append (List.Sublist.cons_cons p (sA h)) (List.Sublist.refl [q])).trans hd1
  have s2 : ∀ {x}, x ∈ B → [p, q, x].Sublist (p :: A ++ q :: B) := fun h =>
    (List.Sublist.cons_cons p (List.Sublist.cons_cons q (sB h))).trans hd2
  have s3 : ∀ {x y}, x ∈ A → y ∈ B → [p, x, y].Sublist (p :: A ++ q :: B) := fun h h' =>
    List.Sublist.append (List.Sublist.cons_cons p (sA h)) ((sB h').trans (List.sublist_cons_self _ _))
  have s4 : ∀ {x y}, x ∈ A → y ∈ B → [x, q, y].Sublist (p :: A ++ q :: B) := fun h h' =>
    List.Sublist.append ((sA h).trans (List.sublist_cons_self _ _)) (List.Sublist.cons_cons q (sB h'))
  have e1 : (p, A.head hA) ∈ edges (p :: A ++ q :: B) := by
    rw [edges_cut]; exact List.mem_append_left _ (links_head hA)
  have e2 : (A.getLast hA, q) ∈ edges (p :: A ++ q :: B) := by
    rw [edges_cut]; exact List.mem_append_left _ (links_getLast hA)
  have e3 : (q, B.head hB) ∈ edges (p :: A ++ q :: B) := by
    rw [edges_cut]; exact List.mem_append_right _ (links_head hB)
  have e4 : (B.getLast hB, p) ∈ edges (p :: A ++ q :: B) := by
    rw [edges_cut]; exact List.mem_append_right _ (links_getLast hB)
  have mhA := List.head_mem hA
  have mlA := List.getLast_mem hA
  have mhB := List.head_mem hB
  have mlB := List.getLast_mem hB
  refine ⟨fun a c h1 h2 => ?_, fun a c h1 h2 => ?_, ?_, ?_⟩
  · rw [uniq' h1 e4, uniq h2 e1]
    exact sector (orient (s1 mhA)).1 (orient (s2 mlB)).1 (orient (s3 mhA mlB)).1
  · rw [uniq' h1 e2, uniq h2 e3]
    exact sector (orient (s2 mhB)).2.1 (orient (s1 mlA)).2.2 (orient (s4 mlA mhB)).2.1
  · refine ConvexAround.pos ⟨?_, fun x y z hs => hx.2 x y z (hs.trans hd1)⟩
    have := List.length_pos_iff.2 hA
    simp; omega
  · have e : shoelace (q :: B ++ [p]) = shoelace (p :: q :: B) := by
      have : (p :: q :: B).rotate 1 = q :: B ++ [p] := by simp
      rw [← this, shoelace_rotate]
    rw [e]
    refine ConvexAround.pos ⟨?_, fun x y z hs => hx.2 x y z (hs.trans hd2)⟩
    have := List.length_pos_iff.2 hB
    simp; omega

/-- **C83.** In particular, any diagonal of a strictly convex ring cuts it into two rings, and leaves the other rings as they are. -/
theorem C83_convex (h h' : Heap XR) (s s' : Sketch) (hd : DrawnLines h s L) (hd' : DrawnLines h' s' L') (hp : PlainLines L) (hc : ClosesUp L)
    {e : (ℝ × ℝ) × (ℝ × ℝ)} (he : e = (p, q) ∨ e = (q, p)) (hL : L'.Perm (e :: L)) (hv : Around L (p :: A ++ q :: B))
    (hnj : ¬Joined L p q) (hx : ConvexAround (p :: A ++ q :: B)) :
    ∃ vss vss' rest : List (List (ℝ × ℝ)), List.Forall₂ (fun r vs => RunsAround h r.segs vs) (lineRings h s) vss ∧
      List.Forall₂ (fun r vs => RunsAround h' r.segs vs) (lineRings h' s') vss' ∧
      (vss.map (fun vs : List (ℝ × ℝ) => (vs : Cycle (ℝ × ℝ)))).Perm
        (((p :: A ++ q :: B) :: rest).map (fun vs : List (ℝ × ℝ) => (vs : Cycle (ℝ × ℝ)))) ∧
      (vss'.map (fun vs : List (ℝ × ℝ) => (vs : Cycle (ℝ × ℝ)))).Perm
        (((p :: A ++ [q]) :: (q :: B ++ [p]) :: rest).map (fun vs : List (ℝ × ℝ) => (vs : Cycle (ℝ × ℝ)))) := by
  obtain ⟨i1, i2, p1, p2⟩ := convex_points hp hv hnj hx
  obtain ⟨⟨vss, vss', rest, c1, c2, c3, c4⟩, -⟩ := C83_cut h h' s s' hd hd' hp hc he hL hv hnj i1 i2
  refine ⟨vss, vss', rest, c1, c2, ?_, ?_⟩
  · rwa [List.filter_cons_of_pos (by simpa using hx.pos), List.filter_nil] at c3
  · rwa [List.filter_cons_of_pos (by simpa using p1), List.filter_cons_of_pos (by simpa using p2), List.filter_nil] at c4

/-! ## Examples -/

/-- the corners of a square -/
def kitePts : List (Int × Int) := [(0, 0), (2, 0), (2, 2), (0, 2)]

/-- its sides -/
def kiteLines : List (Nat × Nat) := [(0, 1), (1, 2), (2, 3), (3, 0)]

/-- four points and four lines -/
def kiteSketch : Sketch := ⟨[(0, .point 0), (1, .point 1), (2, .point 2), (3, .point 3), (4, .line 0), (5, .line 1), (6, .line 2),
  (7, .line 3)], 8, []⟩

/-- four points and five lines -/
def kiteSketch' : Sketch := ⟨[(0, .point 0), (1, .point 1), (2, .point 2), (3, .point 3), (4, .line 0), (5, .line 1), (6, .line 2),
  (7, .line 3), (8, .line 4)], 9, []⟩

/-- the end points of the lines -/
def kiteEnds (ls : List (Nat × Nat)) : List ((Int × Int) × (Int × Int)) :=
  ls.map (fun e => (kitePts.getD e.1 (0, 0), kitePts.getD e.2 (0, 0)))

/-- A square and one of its diagonals, drawn last and downwards, meet the hypotheses of C83. -/
example : DrawnLines (drawing (realPts kitePts) kiteLines []) kiteSketch (gls (kiteEnds kiteLines)) ∧
    DrawnLines (drawing (realPts kitePts) (kiteLines ++ [(2, 0)]) []) kiteSketch' (gls (kiteEnds (kiteLines ++ [(2, 0)]))) ∧
    PlainLines (gls (kiteEnds kiteLines)) ∧ ClosesUp (gls (kiteEnds kiteLines)) ∧
    (gls (kiteEnds (kiteLines ++ [(2, 0)]))).Perm (((2, 2), (0, 0)) :: gls (kiteEnds kiteLines)) ∧
    Around (gls (kiteEnds kiteLines)) ((0, 0) :: [(2, 0)] ++ (2, 2) :: [(0, 2)]) ∧
    ¬Joined (gls (kiteEnds kiteLines)) (0, 0) (2, 2) ∧ ConvexAround ((0, 0) :: [(2, 0)] ++ (2, 2) :: [(0, 2)]) := by
  have hp : PlainLines (gls (kiteEnds kiteLines)) := GPlain.plain (by decide)
  refine ⟨drawing_lines _ _ kiteLines _ rfl, drawing_lines _ _ (kiteLines ++ [(2, 0)]) _ rfl, hp, ?_, ?_, ?_, ?_, ?_⟩
  · exact (C77_covered _ hp (covered_grid (vss := [[(0, 0), (2, 0), (2, 2), (0, 2)], [(0, 0), (0, 2), (2, 2), (2, 0)]])
      (by decide) (by decide) (by decide))).1
  · have : gls (kiteEnds (kiteLines ++ [(2, 0)])) = gls (kiteEnds kiteLines) ++ [((2, 2), (0, 0))] := by
      simp [gls, kiteEnds, kiteLines, kitePts, gpt]
    rw [this]
    exact List.perm_append_singleton _ _
  · have : GAround (kiteEnds kiteLines) [(0, 0), (2, 0), (2, 2), (0, 2)] := by decide
    simpa [gpt] using this.around (by decide)
  · have h0 : ¬GJoined (kiteEnds kiteLines) (0, 0) (2, 2) := by decide
    rw [← joined_gpt] at h0
    simpa [gpt] using h0
  · refine ⟨by simp, fun x y z hs => ?_⟩
    have : [x, y, z] ∈ List.sublists [((0 : ℝ), (0 : ℝ)), (2, 0), (2, 2), (0, 2)] := List.mem_sublists.2 hs
    simp [List.sublists, List.foldr] at this
    rcases this with ⟨rfl, rfl, rfl⟩ | ⟨rfl, rfl, rfl⟩ | ⟨rfl, rfl, rfl⟩ | ⟨rfl, rfl, rfl⟩ <;> norm_num

end Isotope
