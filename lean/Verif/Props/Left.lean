import Verif.Lemmas.LeftWalk
import Verif.Lemmas.LeftGrid
import Verif.Props.Unused

/-!
# The rings are the ways around by hardest left turns (C77), in whatever order the lines were drawn (C78)
-/

namespace Isotope
open XR

theorem edges_rotate (vs : List (ℝ × ℝ)) (k : Nat) : edges (vs.rotate k) = (edges vs).rotate k := by
  unfold edges
  rw [List.rotate_rotate, Nat.add_comm k 1, ← List.rotate_rotate]
  exact (List.zipWith_rotate_distrib Prod.mk vs (vs.rotate 1) k (by simp)).symm

theorem shoelace_isRotated {vs ws : List (ℝ × ℝ)} (h : vs ~r ws) : shoelace ws = shoelace vs := by
  obtain ⟨k, rfl⟩ := h
  unfold shoelace
  rw [edges_rotate, ((List.rotate_perm (edges vs) k).map _).sum_eq]

theorem Around.isRotated {L : List ((ℝ × ℝ) × (ℝ × ℝ))} {vs ws : List (ℝ × ℝ)} (h : vs ~r ws) (hv : Around L vs) :
    Around L ws := by
  obtain ⟨k, rfl⟩ := h
  exact hv.rotate k

theorem DrawnLines.net {h : Heap XR} {s : Sketch} {L : List ((ℝ × ℝ) × (ℝ × ℝ))} (hd : DrawnLines h s L)
    (hp : PlainLines L) : Net h (allSegments h s) (L ++ L.map Prod.swap) L := by
  have hlen : (drawn h s).length = L.length := hd.length_eq
  refine ⟨hp, fun p q => joined_mem.symm, hp.1, ?_, ?_⟩
  · rw [allSegments_eq]
    refine List.rel_append (hd.imp fun sg e x => ⟨x.1, x.2.2⟩) ?_
    rw [List.forall₂_map_left_iff, List.forall₂_map_right_iff]
    refine hd.imp fun sg e x => ?_
    obtain ⟨⟨a, b, rfl⟩, -, he⟩ := x
    exact ⟨⟨b, a, rfl⟩, he.reverse⟩
  · intro i j sg sg' p q hi hj mi mj
    have hdrawn : ∀ (m : Nat) d e, (drawn h s)[m]? = some d → L[m]? = some e → WayBack h d := by
      intro m d e h1 h2
      have l1 : m < (drawn h s).length := by
        by_contra hl
        rw [List.getElem?_eq_none (by omega)] at h1; cases h1
      have := (List.forall₂_iff_get.1 hd).2 m l1 (by omega)
      rw [List.getElem?_eq_getElem l1] at h1
      cases h1
      exact this.2.1
    rw [allSegments_eq] at hi hj
    have inj : ∀ (a b : Nat) e, (L ++ L.map Prod.swap)[a]? = some e → (L ++ L.map Prod.swap)[b]? = some e → a = b := by
      intro a b e ha hb
      have hl : a < (L ++ L.map Prod.swap).length := by
        by_contra hl
        rw [List.getElem?_eq_none (by omega)] at ha; cases ha
      exact (List.getElem?_inj hl hp.1).1 (by rw [ha, hb])
    by_cases hn : i < L.length
    · rw [List.getElem?_append_left (by omega)] at hi mi
      have hj' : j = i + L.length := by
        apply inj _ _ _ mj
        rw [List.getElem?_append_right (by omega), Nat.add_sub_cancel, List.getElem?_map, mi]; rfl
      rw [hj', List.getElem?_append_right (by omega), hlen, Nat.add_sub_cancel, List.getElem?_map, hi] at hj
      cases hj
      exact (hdrawn i sg _ hi mi).1
    · rw [List.getElem?_append_right (by omega), List.getElem?_map, Option.map_eq_some_iff] at hi mi
      obtain ⟨d, hi, rfl⟩ := hi
      obtain ⟨⟨q', p'⟩, mi, e⟩ := mi
      cases e
      rw [hlen] at hi
      have hn2 : i - L.length < L.length := by
        by_contra hl
        rw [List.getElem?_eq_none (by omega)] at mi; cases mi
      have hj' : j = i - L.length := by
        apply inj _ _ _ mj
        rw [List.getElem?_append_left hn2, mi]
      rw [hj', List.getElem?_append_left (by omega), hi] at hj
      cases hj
      exact (hdrawn _ _ _ hi mi).2

/-- everything that is found by the walk -/
theorem DrawnLines.found {h : Heap XR} {s : Sketch} {L : List ((ℝ × ℝ) × (ℝ × ℝ))} (hd : DrawnLines h s L)
    (hp : PlainLines L) (hc : ClosesUp L) :
    ∃ vss, List.Forall₂ (RingAt (allSegments h s) (L ++ L.map Prod.swap)) (tracedRings h s).2 vss ∧
      (∀ vs ∈ vss, Around L vs) ∧ vss.Pairwise (fun vs ws => ¬vs ~r ws) ∧
      (∀ i, i ∈ (tracedRings h s).1 ↔ ∃ vs, Around L vs ∧ ∃ e ∈ edges vs, (L ++ L.map Prod.swap)[i]? = some e) ∧
      ∀ vs, Around L vs → ∃ ws ∈ vss, ws ~r vs := by
  have net := hd.net hp
  obtain ⟨vss, i1, i2, i3, i4, -, i6⟩ := net.loop hc (enumFrom 0 (allSegments h s)) (fun x hx => mem_enum.1 hx) [] [] []
    .nil (by simp) (by simp) (by simp)
  have hused : ∀ vs e i, Around L vs → e ∈ edges vs → (L ++ L.map Prod.swap)[i]? = some e → i ∈ (tracedRings h s).1 := by
    intro vs e i hv he hi
    obtain ⟨sg, hs, -⟩ := net.seg hi
    exact i6 (i, sg) (mem_enum.2 hs) vs e hv he hi
  refine ⟨vss, i1, i2, i3, fun i => ⟨fun hi => ?_, ?_⟩, fun vs hv => ?_⟩
  · obtain ⟨vs, h1, h2⟩ := (i4 i).1 hi
    exact ⟨vs, i2 vs h1, h2⟩
  · rintro ⟨vs, hv, e, he, hi⟩
    exact hused vs e i hv he hi
  · have he := cyc_edge hv.1 0
    obtain ⟨i, hi⟩ := List.mem_iff_getElem?.1 ((net.mem _ _).2 (hv.joined 0))
    obtain ⟨ws, w1, f, w2, w3⟩ := (i4 i).1 (hused vs _ i hv he hi)
    rw [hi] at w3; cases w3
    exact ⟨ws, w1, Around.same hp (i2 ws w1) hv w2 he⟩

theorem forall₂_filter {α β : Type} {R : α → β → Prop} {p : α → Bool} {q : β → Bool} {l : List α} {m : List β}
    (h : List.Forall₂ R l m) (hpq : ∀ a b, R a b → p a = q b) : List.Forall₂ R (l.filter p) (m.filter q) := by
  induction h with
  | nil => exact .nil
  | @cons a b l m hab _ ih =>
    rw [List.filter_cons, List.filter_cons, hpq a b hab]
    split
    · exact .cons hab ih
    · exact ih

theorem lineRings_perm (h : Heap XR) (s : Sketch) (hne : ∀ t ∈ (tracedRings h s).2, t ≠ []) :
    (lineRings h s).Perm (((tracedRings h s).2.map (fun r => Ring.segments (r.map (·.2)))).filter
      (fun r => gt (r.signedArea h) (0.0 : XR))) := by
  unfold lineRings findRings
  dsimp only
  have h1 : ((unsortedRings h s).mergeSort (fun a b => Num.totalLe (a.signedArea h) (b.signedArea h))).Perm
      (unsortedRings h s) := List.mergeSort_perm _ _
  refine ((h1.filter _).filter _).trans ?_
  unfold unsortedRings
  rw [List.filter_append, List.filter_append]
  have e1 : ((circleRings h s).filter (fun r => gt (r.signedArea h) (0.0 : XR))).filter (fun r => !r.segs.isEmpty) = [] := by
    rw [List.filter_eq_nil_iff]
    intro r hr
    obtain ⟨c, -, rfl⟩ := mem_circleRings.1 (List.mem_filter.1 hr).1
    simp [Ring.segs]
  rw [e1, List.append_nil, List.filter_eq_self.2]
  intro r hr
  obtain ⟨t, ht, rfl⟩ := List.mem_map.1 (List.mem_filter.1 hr).1
  have := hne t ht
  simp [Ring.segs, this]

theorem DrawnLines.rings {h : Heap XR} {s : Sketch} {L : List ((ℝ × ℝ) × (ℝ × ℝ))} (hd : DrawnLines h s L)
    (hp : PlainLines L) {vss : List (List (ℝ × ℝ))}
    (i1 : List.Forall₂ (RingAt (allSegments h s) (L ++ L.map Prod.swap)) (tracedRings h s).2 vss) :
    ∃ vss', List.Forall₂ (fun (r : Ring XR) vs => (∃ l, r = .segments l) ∧ RunsAround h r.segs vs) (lineRings h s) vss' ∧
      vss'.Perm (vss.filter (fun vs => decide (0 < shoelace vs))) := by
  have net := hd.net hp
  have hruns : List.Forall₂ (fun (r : Ring XR) vs => (∃ l, r = .segments l) ∧ RunsAround h r.segs vs)
      ((tracedRings h s).2.map (fun r => Ring.segments (r.map (·.2)))) vss := by
    rw [List.forall₂_map_left_iff]
    exact i1.imp fun ring vs hr => ⟨⟨_, rfl⟩, hr.runs net⟩
  have hf := forall₂_filter (p := fun r => gt (r.signedArea h) (0.0 : XR)) (q := fun vs => decide (0 < shoelace vs)) hruns (by
    rintro r vs ⟨⟨l, rfl⟩, hr⟩
    rw [C49_shoelace h l vs hr]
    unfold gt
    rw [lit0, lt_fin])
  have hperm := lineRings_perm h s (fun t ht => ((tracedRings_ok h s).2.2 t ht).ne)
  have : Relation.Comp (List.Forall₂ _) List.Perm _ _ := List.perm_comp_forall₂ hperm hf
  obtain ⟨vss', j1, j2⟩ := this
  exact ⟨vss', j1, j2⟩

/-- **C77.** In a drawing of lines where walks of hardest left turns close up, the rings that are not circles are exactly
the ways around by hardest left turns with positive area, each once. -/
theorem C77_rings (h : Heap XR) (s : Sketch) (L : List ((ℝ × ℝ) × (ℝ × ℝ))) (hd : DrawnLines h s L) (hp : PlainLines L)
    (hc : ClosesUp L) :
    ∃ vss : List (List (ℝ × ℝ)), List.Forall₂ (fun r vs => RunsAround h r.segs vs) (lineRings h s) vss ∧
      vss.Pairwise (fun vs ws => ¬vs ~r ws) ∧ ∀ vs, (∃ ws ∈ vss, ws ~r vs) ↔ Around L vs ∧ 0 < shoelace vs := by
  obtain ⟨vss, i1, i2, i3, -, i5⟩ := hd.found hp hc
  obtain ⟨vss', j1, j2⟩ := hd.rings hp i1
  refine ⟨vss', j1.imp fun r vs hr => hr.2, ?_, fun vs => ⟨?_, ?_⟩⟩
  · have : (vss.filter (fun vs => decide (0 < shoelace vs))).Pairwise (fun vs ws => ¬vs ~r ws) := i3.filter _
    exact this.perm j2.symm (fun h1 h2 => h1 h2.symm)
  · rintro ⟨ws, hws, hrot⟩
    obtain ⟨h1, h2⟩ := List.mem_filter.1 (j2.mem_iff.1 hws)
    rw [shoelace_isRotated hrot]
    exact ⟨Around.isRotated hrot (i2 ws h1), by simpa using h2⟩
  · rintro ⟨hv, hpos⟩
    obtain ⟨ws, hws, hrot⟩ := i5 vs hv
    refine ⟨ws, j2.mem_iff.2 (List.mem_filter.2 ⟨hws, ?_⟩), hrot⟩
    rw [shoelace_isRotated hrot] at hpos
    simpa using hpos

/-- **C77.** The lines reported unused are those that, in the direction drawn, lie on no way around by hardest left turns. -/
theorem C77_unused (h : Heap XR) (s : Sketch) (L : List ((ℝ × ℝ) × (ℝ × ℝ))) (hd : DrawnLines h s L) (hp : PlainLines L)
    (hc : ClosesUp L) (sg : Segment XR) (hs : sg ∈ drawn h s) (e : (ℝ × ℝ) × (ℝ × ℝ)) (he : EndsAt h sg e) :
    sg ∈ (findRings h s).2 ↔ ¬∃ vs, Around L vs ∧ e ∈ edges vs := by
  obtain ⟨vss, -, -, -, i4, -⟩ := hd.found hp hc
  have net := hd.net hp
  have hat : ∀ i : Nat, (drawn h s)[i]? = some sg → (L ++ L.map Prod.swap)[i]? = some e := by
    intro i hi
    have hl : i < (drawn h s).length := by
      by_contra hl
      rw [List.getElem?_eq_none (by omega)] at hi; cases hi
    obtain ⟨f, h1, -, h3⟩ := net.at (i := i) (sg := sg) (by rw [allSegments_eq, List.getElem?_append_left hl, hi])
    rw [h1]
    obtain ⟨a1, a2⟩ := he
    obtain ⟨b1, b2⟩ := h3
    rw [a1] at b1; rw [a2] at b2
    simp only [Vec2.mk.injEq, fin.injEq] at b1 b2
    rw [Prod.ext (Prod.ext b1.1 b1.2) (Prod.ext b2.1 b2.2)]
  rw [mem_unused]
  constructor
  · rintro ⟨i, hi, hu⟩ ⟨vs, hv, hm⟩
    exact hu ((i4 i).2 ⟨vs, hv, e, hm, hat i hi⟩)
  · intro hn
    obtain ⟨i, hi⟩ := List.mem_iff_getElem?.1 hs
    refine ⟨i, hi, fun hu => hn ?_⟩
    obtain ⟨vs, hv, f, hm, hf⟩ := (i4 i).1 hu
    rw [hat i hi] at hf; cases hf
    exact ⟨vs, hv, hm⟩

/-- **C77.** If every line lies, in both directions, on a way around by hardest left turns, then walks of hardest left turns
close up, so that `C77_rings` applies; and no line is reported unused. -/
theorem C77_covered (L : List ((ℝ × ℝ) × (ℝ × ℝ))) (hp : PlainLines L)
    (hcov : ∀ p q, Joined L p q → ∃ vs, Around L vs ∧ (p, q) ∈ edges vs) :
    ClosesUp L ∧ ∀ (h : Heap XR) (s : Sketch), DrawnLines h s L → (findRings h s).2 = [] := by
  have cl : ClosesUp L := by
    intro w n hj hw hn
    obtain ⟨vs, hv, he⟩ := hcov _ _ hj
    obtain ⟨v1, v2, v3⟩ := around_iff.1 hv
    obtain ⟨m, hm, e⟩ := mem_edges_cyc.1 he
    have key : ∀ k, k ≤ n → w k = cyc vs (m + k) ∧ w (k + 1) = cyc vs (m + k + 1) := by
      intro k
      induction k with
      | zero => intro _; exact Prod.mk.inj e
      | succ k ih =>
        intro hk
        obtain ⟨a, b⟩ := ih (by omega)
        refine ⟨b, ?_⟩
        have := hw k (by omega)
        rw [a, b] at this
        exact this.unique hp (v3 (m + k))
    obtain ⟨a, b⟩ := key n le_rfl
    have h0 := (key 0 (by omega)).1
    have h1 := (key 0 (by omega)).2
    simp only [Nat.add_zero] at h0 h1
    have e1 : cyc vs (m + n + 1) = cyc vs m := by rw [← b, ← h0]; exact hn
    have e2 := cyc_inj v2 v1 e1
    have := v3 (m + n)
    rw [e1] at this
    have e3 : cyc vs (m + n + 2) = cyc vs (m + 1) := by
      have q1 := cyc_mod vs (m + n + 1) 1
      have q2 := cyc_mod vs m 1
      rw [← q2, ← e2, q1]
    rw [e3] at this
    rw [a, h0, h1]
    exact this
  refine ⟨cl, fun h s hd => ?_⟩
  rw [List.eq_nil_iff_forall_not_mem]
  intro sg hsg
  have hs : sg ∈ drawn h s := (C44_drawn h s).subset hsg
  obtain ⟨i, hi⟩ := List.mem_iff_getElem?.1 hs
  obtain ⟨e, h1, -, h3⟩ := (hd.net hp).at (i := i) (sg := sg) (by
    rw [allSegments_eq, List.getElem?_append_left (by
      by_contra hl
      rw [List.getElem?_eq_none (by omega)] at hi; cases hi), hi])
  refine (C77_unused h s L hd hp cl sg hs e h3).1 hsg ?_
  exact hcov e.1 e.2 (joined_mem.2 (List.mem_of_getElem? h1))

/-- **C77.** If every line lies, in both directions, on a way around by hardest left turns, the areas of the rings add up to
the areas enclosed by the other ways around, which go clockwise. -/
theorem C77_area (h : Heap XR) (s : Sketch) (L : List ((ℝ × ℝ) × (ℝ × ℝ))) (hd : DrawnLines h s L) (hp : PlainLines L)
    (hcov : ∀ p q, Joined L p q → ∃ vs, Around L vs ∧ (p, q) ∈ edges vs) :
    ∃ (areas : List ℝ) (outer : List (List (ℝ × ℝ))),
      List.Forall₂ (fun (r : Ring XR) a => r.signedArea h = fin a) (lineRings h s) areas ∧
      outer.Pairwise (fun vs ws => ¬vs ~r ws) ∧ (∀ vs, (∃ ws ∈ outer, ws ~r vs) ↔ Around L vs ∧ shoelace vs ≤ 0) ∧
      areas.sum = (outer.map (fun vs => -shoelace vs)).sum := by
  obtain ⟨vss, i1, i2, i3, -, i5⟩ := hd.found hp (C77_covered L hp hcov).1
  obtain ⟨vss', j1, j2⟩ := hd.rings hp i1
  refine ⟨vss'.map shoelace, vss.filter (fun vs => !decide (0 < shoelace vs)), ?_, i3.filter _, fun vs => ⟨?_, ?_⟩, ?_⟩
  · rw [List.forall₂_map_right_iff]
    refine j1.imp ?_
    rintro r vs ⟨⟨l, rfl⟩, hr⟩
    exact C49_shoelace h l vs hr
  · rintro ⟨ws, hws, hrot⟩
    obtain ⟨h1, h2⟩ := List.mem_filter.1 hws
    rw [shoelace_isRotated hrot]
    exact ⟨Around.isRotated hrot (i2 ws h1), by simpa using h2⟩
  · rintro ⟨hv, hle⟩
    obtain ⟨ws, hws, hrot⟩ := i5 vs hv
    refine ⟨ws, List.mem_filter.2 ⟨hws, ?_⟩, hrot⟩
    rw [shoelace_isRotated hrot] at hle
    simpa using hle
  · have hperm : (vss.flatMap edges).Perm (L ++ L.map Prod.swap) := by
      rw [List.perm_ext_iff_of_nodup _ hp.1]
      · rintro ⟨p, q⟩
        rw [List.mem_flatMap, ← joined_mem]
        constructor
        · rintro ⟨vs, hv, he⟩
          obtain ⟨m, hm, e⟩ := mem_edges_cyc.1 he
          cases e
          exact (i2 vs hv).joined m
        · intro hj
          obtain ⟨vs, hv, he⟩ := hcov p q hj
          obtain ⟨ws, hws, k, rfl⟩ := i5 vs hv
          refine ⟨ws, hws, ?_⟩
          rw [edges_rotate, List.mem_rotate] at he
          exact he
      · rw [List.nodup_flatMap]
        refine ⟨fun vs hv => edges_nodup (i2 vs hv).2.1, ?_⟩
        refine (List.pairwise_iff_getElem.2 fun i j hi hj hij => ?_ : vss.Pairwise _)
        intro e h1 h2
        exact List.pairwise_iff_getElem.1 i3 i j hi hj hij
          (Around.same hp (i2 _ (List.getElem_mem hi)) (i2 _ (List.getElem_mem hj)) h1 h2)
    have hsum : (vss.map shoelace).sum = 0 := by
      have e1 : ((vss.flatMap edges).map (fun e => cross e.1 e.2)).sum = 2 * (vss.map shoelace).sum := by
        clear hperm j2 j1 i1 i2 i3 i5
        induction vss with
        | nil => simp
        | cons vs vss ih =>
          rw [List.flatMap_cons, List.map_append, List.sum_append, ih, List.map_cons, List.sum_cons]
          unfold shoelace; ring
      have e2 : ((L ++ L.map Prod.swap).map (fun e => cross e.1 e.2)).sum = 0 := by
        clear hperm j2 j1 i1 i2 i3 i5 e1 hd hp hcov
        induction L with
        | nil => simp
        | cons e L ih =>
          simp only [List.map_append, List.sum_append, List.map_cons, List.sum_cons, List.map_map] at ih ⊢
          have : cross e.1 e.2 + cross (Prod.swap e).1 (Prod.swap e).2 = 0 := by unfold cross; simp only [Prod.swap]; ring
          simp only [Function.comp_def] at ih ⊢
          linarith
      rw [(hperm.map _).sum_eq, e2] at e1
      linarith
    have hsplit : (vss.map shoelace).sum = ((vss.filter (fun vs => decide (0 < shoelace vs))).map shoelace).sum -
        ((vss.filter (fun vs => !decide (0 < shoelace vs))).map (fun vs => -shoelace vs)).sum := by
      clear hsum hperm j2 j1 i1 i2 i3 i5
      induction vss with
      | nil => simp
      | cons vs vss ih =>
        rw [List.filter_cons, List.filter_cons, List.map_cons, List.sum_cons, ih]
        by_cases hpos : 0 < shoelace vs
        · simp only [hpos, decide_true, if_true, Bool.not_true, Bool.false_eq_true, if_false, List.map_cons, List.sum_cons]
          ring
        · simp only [hpos, decide_false, if_false, Bool.not_false, if_true, Bool.false_eq_true, List.map_cons, List.sum_cons]
          ring
    rw [(j2.map shoelace).sum_eq]
    linarith

/-- **C78.** Two sketches whose lines join the same points have the same rings, up to the segment where each ring starts:
neither the order in which the lines were added nor the direction in which they were drawn matters. -/
theorem C78_order (h h' : Heap XR) (s s' : Sketch) (L L' : List ((ℝ × ℝ) × (ℝ × ℝ))) (hd : DrawnLines h s L)
    (hd' : DrawnLines h' s' L') (hp : PlainLines L) (hp' : PlainLines L') (hj : ∀ p q, Joined L p q ↔ Joined L' p q)
    (hc : ClosesUp L) :
    ∃ vss vss' : List (List (ℝ × ℝ)), List.Forall₂ (fun r vs => RunsAround h r.segs vs) (lineRings h s) vss ∧
      List.Forall₂ (fun r vs => RunsAround h' r.segs vs) (lineRings h' s') vss' ∧
      (vss.map (fun vs : List (ℝ × ℝ) => (vs : Cycle (ℝ × ℝ)))).Perm (vss'.map (fun vs : List (ℝ × ℝ) => (vs : Cycle (ℝ × ℝ)))) := by
  have hj' : Joined L = Joined L' := by funext p q; exact propext (hj p q)
  have hl : HardestLeft L = HardestLeft L' := by unfold HardestLeft; rw [hj']
  have ha : Around L = Around L' := by unfold Around; rw [hl]
  have hc' : ClosesUp L' := by unfold ClosesUp at hc ⊢; rw [← hj', ← hl]; exact hc
  obtain ⟨vss, a1, a2, a3⟩ := C77_rings h s L hd hp hc
  obtain ⟨vss', b1, b2, b3⟩ := C77_rings h' s' L' hd' hp' hc'
  refine ⟨vss, vss', a1, b1, ?_⟩
  have nd : ∀ l : List (List (ℝ × ℝ)), l.Pairwise (fun vs ws => ¬vs ~r ws) → (l.map (fun vs : List (ℝ × ℝ) => (vs : Cycle (ℝ × ℝ)))).Nodup := by
    intro l hl
    rw [List.Nodup, List.pairwise_map]
    exact hl.imp fun h e => h (Cycle.coe_eq_coe.1 e)
  rw [List.perm_ext_iff_of_nodup (nd _ a2) (nd _ b2)]
  intro c
  have q : ∀ l : List (List (ℝ × ℝ)), ∀ vs : List (ℝ × ℝ), (vs : Cycle (ℝ × ℝ)) ∈ l.map (fun vs : List (ℝ × ℝ) => (vs : Cycle (ℝ × ℝ))) ↔
      ∃ ws ∈ l, ws ~r vs := by
    intro l vs
    rw [List.mem_map]
    constructor
    · rintro ⟨ws, h1, h2⟩; exact ⟨ws, h1, Cycle.coe_eq_coe.1 h2⟩
    · rintro ⟨ws, h1, h2⟩; exact ⟨ws, h1, Cycle.coe_eq_coe.2 h2⟩
  induction c using Quotient.inductionOn with
  | h vs =>
    rw [show (Quotient.mk _ vs : Cycle (ℝ × ℝ)) = (vs : Cycle (ℝ × ℝ)) from rfl, q, q, a3, b3, ha]

/-! ## Examples -/

/-- six grid points -/
def boxPts : List (Int × Int) := [(0, 0), (1, 0), (2, 0), (2, 1), (1, 1), (0, 1)]

/-- two boxes with a common side -/
def boxLines : List (Nat × Nat) := [(0, 1), (1, 2), (2, 3), (3, 4), (4, 5), (5, 0), (1, 4)]

/-- the same lines in another order and with other directions -/
def boxLines' : List (Nat × Nat) := [(4, 1), (2, 1), (1, 0), (4, 3), (0, 5), (3, 2), (4, 5)]

/-- six points and seven lines -/
def boxSketch : Sketch := ⟨[(0, .point 0), (1, .point 1), (2, .point 2), (3, .point 3), (4, .point 4), (5, .point 5),
  (6, .line 0), (7, .line 1), (8, .line 2), (9, .line 3), (10, .line 4), (11, .line 5), (12, .line 6)], 13, []⟩

/-- the end points of the lines -/
def boxEnds (ls : List (Nat × Nat)) : List ((Int × Int) × (Int × Int)) :=
  ls.map (fun e => (boxPts.getD e.1 (0, 0), boxPts.getD e.2 (0, 0)))

theorem box_drawn (ls : List (Nat × Nat)) (hl : ls.length = 7) :
    DrawnLines (drawing (realPts boxPts) ls []) boxSketch (gls (boxEnds ls)) := by
  apply drawing_lines
  match ls, hl with
  | [a, b, c, d, e, f, g], _ => rfl

theorem box_covered (p q : ℝ × ℝ) (hj : Joined (gls (boxEnds boxLines)) p q) :
    ∃ vs, Around (gls (boxEnds boxLines)) vs ∧ (p, q) ∈ edges vs :=
  covered_grid (vss := [[(0, 0), (1, 0), (1, 1), (0, 1)], [(1, 0), (2, 0), (2, 1), (1, 1)],
    [(0, 0), (0, 1), (1, 1), (2, 1), (2, 0), (1, 0)]]) (by decide) (by decide) (by decide) p q hj

/-- Two boxes with a common side meet the hypotheses of C77; the left box is one of the two rings. -/
example : DrawnLines (drawing (realPts boxPts) boxLines []) boxSketch (gls (boxEnds boxLines)) ∧
    PlainLines (gls (boxEnds boxLines)) ∧ ClosesUp (gls (boxEnds boxLines)) ∧
    (∀ p q, Joined (gls (boxEnds boxLines)) p q → ∃ vs, Around (gls (boxEnds boxLines)) vs ∧ (p, q) ∈ edges vs) ∧
    Around (gls (boxEnds boxLines)) [(0, 0), (1, 0), (1, 1), (0, 1)] ∧ 0 < shoelace [(0, 0), (1, 0), (1, 1), (0, 1)] := by
  have hp : PlainLines (gls (boxEnds boxLines)) := GPlain.plain (by decide)
  refine ⟨box_drawn _ rfl, hp, (C77_covered _ hp box_covered).1, box_covered, ?_, ?_⟩
  · have : GAround (boxEnds boxLines) [(0, 0), (1, 0), (1, 1), (0, 1)] := by decide
    simpa [gpt] using this.around (by decide)
  · norm_num [shoelace, edges, cross]

/-- and those of C78, with the lines in another order and drawn in other directions -/
example : DrawnLines (drawing (realPts boxPts) boxLines' []) boxSketch (gls (boxEnds boxLines')) ∧
    PlainLines (gls (boxEnds boxLines')) ∧
    ∀ p q, Joined (gls (boxEnds boxLines)) p q ↔ Joined (gls (boxEnds boxLines')) p q := by
  refine ⟨box_drawn _ rfl, GPlain.plain (by decide), ?_⟩
  have h1 : ∀ e ∈ boxEnds boxLines, GJoined (boxEnds boxLines') e.1 e.2 := by decide
  have h2 : ∀ e ∈ boxEnds boxLines', GJoined (boxEnds boxLines) e.1 e.2 := by decide
  intro p q
  constructor
  · intro h
    obtain ⟨p, q, rfl, rfl, hj⟩ := joined_grid h
    refine joined_gpt.2 ?_
    rcases hj with hj | hj
    · exact h1 _ hj
    · exact (h1 _ hj).symm
  · intro h
    obtain ⟨p, q, rfl, rfl, hj⟩ := joined_grid h
    refine joined_gpt.2 ?_
    rcases hj with hj | hj
    · exact h2 _ hj
    · exact (h2 _ hj).symm

/-! ## Where a part hangs at a single point, the order matters -/

/-- the corners of a polygon and of a square inside that touches it at its first corner -/
def hangPts : List (Int × Int) := [(0, 0), (2, 0), (2, 2), (-2, 2), (-2, -2), (0, -2), (0, 1), (-1, 1), (-1, 0)]

/-- its lines, starting where the square touches the polygon -/
def hangLines : List (Nat × Nat) := [(0, 1), (1, 2), (2, 3), (3, 4), (4, 5), (5, 0), (0, 6), (6, 7), (7, 8), (8, 0)]

/-- the same lines, starting elsewhere -/
def hangLines' : List (Nat × Nat) := [(1, 2), (2, 3), (3, 4), (4, 5), (5, 0), (0, 1), (0, 6), (6, 7), (7, 8), (8, 0)]

/-- nine points and ten lines -/
def hangSketch : Sketch := ⟨[(0, .point 0), (1, .point 1), (2, .point 2), (3, .point 3), (4, .point 4), (5, .point 5),
  (6, .point 6), (7, .point 7), (8, .point 8), (9, .line 0), (10, .line 1), (11, .line 2), (12, .line 3), (13, .line 4),
  (14, .line 5), (15, .line 6), (16, .line 7), (17, .line 8), (18, .line 9)], 19, []⟩

/-- the end points of the lines -/
def hangEnds (ls : List (Nat × Nat)) : List ((Int × Int) × (Int × Int)) :=
  ls.map (fun e => (hangPts.getD e.1 (0, 0), hangPts.getD e.2 (0, 0)))

theorem hang_traced : (tracedRings (drawing (realPts hangPts) hangLines []) hangSketch).2.map (fun r => r.map (·.2)) =
    [[.line 0 1, .line 1 2, .line 2 3, .line 3 4, .line 4 5, .line 5 0], [.line 0 6, .line 6 7, .line 7 8, .line 8 0],
      [.line 1 0, .line 0 5, .line 5 4, .line 4 3, .line 3 2, .line 2 1], [.line 6 0, .line 0 8, .line 8 7, .line 7 6]] :=
  (grid_traced hangPts hangLines hangSketch (hangLines ++ hangLines.map Prod.swap) rfl (by decide) _
    [[0, 1, 2, 3, 4, 5], [6, 7, 8, 9], [10, 15, 14, 13, 12, 11], [16, 19, 18, 17]] ⟨rfl, by decide⟩).2

theorem hang_traced' : (tracedRings (drawing (realPts hangPts) hangLines' []) hangSketch).2.map (fun r => r.map (·.2)) =
    [[.line 1 2, .line 2 3, .line 3 4, .line 4 5, .line 5 0, .line 0 8, .line 8 7, .line 7 6, .line 6 0, .line 0 1],
      [.line 0 6, .line 6 7, .line 7 8, .line 8 0], [.line 2 1, .line 1 0, .line 0 5, .line 5 4, .line 4 3, .line 3 2]] :=
  (grid_traced hangPts hangLines' hangSketch (hangLines' ++ hangLines'.map Prod.swap) rfl (by decide) _
    [[0, 1, 2, 3, 4, 19, 18, 17, 16, 5], [6, 7, 8, 9], [10, 15, 14, 13, 12, 11]] ⟨rfl, by decide⟩).2

/-- **C78.** The hypothesis that walks of hardest left turns close up cannot be dropped: for a polygon with a square inside
that touches it at a corner, whether the polygon or what is left of it without the square is a ring depends on the order
in which the lines were added. -/
theorem C78_closing_needed : ∃ (h h' : Heap XR) (s s' : Sketch) (L L' : List ((ℝ × ℝ) × (ℝ × ℝ))),
    DrawnLines h s L ∧ DrawnLines h' s' L' ∧ PlainLines L ∧ PlainLines L' ∧ L'.Perm L ∧
    (∃ r ∈ lineRings h s, r.signedArea h = fin 12) ∧ ∀ r ∈ lineRings h' s', r.signedArea h' ≠ fin 12 := by
  refine ⟨drawing (realPts hangPts) hangLines [], drawing (realPts hangPts) hangLines' [], hangSketch, hangSketch,
    gls (hangEnds hangLines), gls (hangEnds hangLines'), drawing_lines _ _ hangLines _ rfl, drawing_lines _ _ hangLines' _ rfl,
    GPlain.plain (by decide), GPlain.plain (by decide), ?_, ?_, ?_⟩
  · have : (hangEnds hangLines').Perm (hangEnds hangLines) := by decide
    exact this.map _
  · have hm : [.line 0 1, .line 1 2, .line 2 3, .line 3 4, .line 4 5, .line 5 0] ∈
        (tracedRings (drawing (realPts hangPts) hangLines []) hangSketch).2.map (fun r => r.map (·.2)) := by
      rw [hang_traced]; simp
    obtain ⟨t, ht, e⟩ := List.mem_map.1 hm
    have ea : (Ring.segments (t.map (·.2))).signedArea (drawing (realPts hangPts) hangLines []) = fin 12 := by
      rw [e]
      simp only [Ring.signedArea, List.foldl, Segment.getStart, Segment.getEnd, drawing, realPts_getD, toVec, hangPts,
        lit0, lit2, mul_fin, sub_fin, add_fin, List.getD_cons_zero, List.getD_cons_succ]
      rw [div_fin, if_neg (by norm_num)]
      norm_num
    refine ⟨.segments (t.map (·.2)), ?_, ea⟩
    unfold lineRings
    rw [List.mem_filter, mem_findRings, ea, e]
    refine ⟨⟨.inr ⟨t, ht, by rw [e]⟩, ?_⟩, rfl⟩
    unfold gt
    rw [lit0]; simp
  · intro r hr
    unfold lineRings at hr
    rw [List.mem_filter, mem_findRings] at hr
    obtain ⟨⟨hc | ⟨t, ht, rfl⟩, -⟩, hne⟩ := hr
    · obtain ⟨c, -, rfl⟩ := mem_circleRings.1 hc
      simp [Ring.segs] at hne
    · have hm : t.map (·.2) ∈ (tracedRings (drawing (realPts hangPts) hangLines' []) hangSketch).2.map (fun r => r.map (·.2)) :=
        List.mem_map.2 ⟨t, ht, rfl⟩
      rw [hang_traced'] at hm
      simp only [List.mem_cons, List.not_mem_nil, or_false] at hm
      rcases hm with e | e | e
      all_goals
        rw [e]
        simp only [Ring.signedArea, List.foldl, Segment.getStart, Segment.getEnd, drawing, realPts_getD, toVec, hangPts,
          lit0, lit2, mul_fin, sub_fin, add_fin, List.getD_cons_zero, List.getD_cons_succ]
        rw [div_fin, if_neg (by norm_num)]
        intro h
        have := XR.fin.inj h
        norm_num at this

end Isotope
