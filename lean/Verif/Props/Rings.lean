import Verif.Lemmas.Ring
import Verif.XRLaws

/-!
# Rings (C38-C41, C47)
-/

namespace Isotope
variable {F : Type} [Num F]

theorem allSegments_eq (h : Heap F) (s : Sketch) : allSegments h s = drawn h s ++ (drawn h s).map Segment.reverse := by
  unfold allSegments; rw [initSegments_eq]

omit [Num F] in
theorem mem_circleRings {h : Heap F} {s : Sketch} {r : Ring F} :
    r ∈ circleRings h s ↔ ∃ c, PrimCell.circle c ∈ s.cells ∧ r = .circle (h.circles c) := by
  unfold circleRings Sketch.cells
  rw [List.mem_filterMap]
  constructor
  · rintro ⟨⟨k, c⟩, hm, e⟩
    cases c <;> simp at e
    exact ⟨_, List.mem_map.2 ⟨_, hm, rfl⟩, e.symm⟩
  · rintro ⟨c, hm, rfl⟩
    obtain ⟨⟨k, c'⟩, hm, e⟩ := List.mem_map.1 hm
    exact ⟨_, hm, by simp at e; simp [e]⟩

/-! ## C38 -/

theorem RingOk.closedChain {h : Heap F} {segs : List (Segment F)} {ring : List (Nat × Segment F)} (ok : RingOk h segs ring) :
    ClosedChain h (ring.map (·.2)) := by
  refine ⟨by simpa using ok.ne, fun i a b ha hb => ?_⟩
  rw [List.length_map] at hb
  rw [List.getElem?_map, Option.map_eq_some_iff] at ha hb
  obtain ⟨x, hx, rfl⟩ := ha
  obtain ⟨y, hy, rfl⟩ := hb
  have hi : i < ring.length := by
    by_contra hi
    rw [List.getElem?_eq_none (by omega)] at hx; cases hx
  by_cases hl : i + 1 < ring.length
  · rw [Nat.mod_eq_of_lt hl] at hy
    have := List.isChain_iff_getElem.1 ok.chain i hl
    rw [List.getElem?_eq_getElem hi] at hx
    rw [List.getElem?_eq_getElem hl] at hy
    cases hx; cases hy
    exact this
  · have hl : i + 1 = ring.length := by omega
    rw [hl, Nat.mod_self] at hy
    obtain ⟨c, d, h1, h2, h3⟩ := ok.closed
    rw [List.head?_eq_getElem?, hy] at h1
    rw [List.getLast?_eq_getElem?, show ring.length - 1 = i by omega, hx] at h2
    cases h1; cases h2
    exact h3

theorem mem_findRings {h : Heap F} {s : Sketch} {r : Ring F} :
    r ∈ (findRings h s).1 ↔ (r ∈ circleRings h s ∨ ∃ t ∈ (tracedRings h s).2, r = .segments (t.map (·.2))) ∧
      gt (r.signedArea h) (0.0 : F) = true := by
  unfold findRings unsortedRings
  dsimp only
  rw [List.mem_filter, List.mem_mergeSort, List.mem_append, List.mem_map]
  constructor
  · rintro ⟨⟨t, ht, rfl⟩ | hc, ha⟩
    · exact ⟨.inr ⟨t, ht, rfl⟩, ha⟩
    · exact ⟨.inl hc, ha⟩
  · rintro ⟨hc | ⟨t, ht, rfl⟩, ha⟩
    · exact ⟨.inr hc, ha⟩
    · exact ⟨.inl ⟨t, ht, rfl⟩, ha⟩

/-- **C38.** Every ring is a circle of the sketch, or a closed chain of lines and arcs of the sketch, each as drawn or
reversed. -/
theorem C38_closed_chain (h : Heap F) (s : Sketch) (r : Ring F) (hr : r ∈ (findRings h s).1) :
    (∃ c, PrimCell.circle c ∈ s.cells ∧ r = .circle (h.circles c)) ∨
    ∃ segs, r = .segments segs ∧ ClosedChain h segs ∧
      ∀ sg ∈ segs, sg ∈ drawn h s ∨ ∃ d ∈ drawn h s, sg = d.reverse := by
  obtain ⟨hr, -⟩ := mem_findRings.1 hr
  rcases hr with hc | ⟨t, ht, rfl⟩
  · exact .inl (mem_circleRings.1 hc)
  · right
    have ok := (tracedRings_ok h s).2.2 t ht
    refine ⟨_, rfl, ok.closedChain, fun sg hsg => ?_⟩
    obtain ⟨x, hx, rfl⟩ := List.mem_map.1 hsg
    have := List.mem_of_getElem? (ok.mem x hx)
    rw [allSegments_eq, List.mem_append, List.mem_map] at this
    rcases this with h1 | ⟨d, hd, e⟩
    · exact .inl h1
    · exact .inr ⟨d, hd, e.symm⟩

/-! ## C39 -/

theorem rings_subperm (h : Heap F) (s : Sketch) :
    ((findRings h s).1.flatMap Ring.segs).Subperm ((tracedRings h s).2.flatten.map (·.2)) := by
  have h1 : (findRings h s).1.Subperm (unsortedRings h s) :=
    List.filter_sublist.subperm.trans (List.mergeSort_perm _ _).subperm
  obtain ⟨l, hp, hs⟩ := h1
  have h2 : ((findRings h s).1.flatMap Ring.segs).Subperm ((unsortedRings h s).flatMap Ring.segs) :=
    ⟨l.flatMap Ring.segs, hp.flatMap_right _, hs.flatMap _⟩
  refine h2.trans (List.Perm.subperm (List.Perm.of_eq ?_))
  unfold unsortedRings
  rw [List.flatMap_append]
  have h3 : (circleRings h s).flatMap Ring.segs = [] := by
    rw [List.flatMap_eq_nil_iff]
    intro r hr
    obtain ⟨c, -, rfl⟩ := mem_circleRings.1 hr
    rfl
  rw [h3, List.append_nil, List.flatMap_map]
  induction (tracedRings h s).2 with
  | nil => rfl
  | cons r l ih => rw [List.flatMap_cons, List.flatten_cons, List.map_append, ih]; rfl

/-- **C39.** All rings together use every directed segment at most once: the segments of all rings, with repetitions, are
part of the list that has every line and arc once as drawn and once reversed. -/
theorem C39_used_once (h : Heap F) (s : Sketch) :
    ((findRings h s).1.flatMap Ring.segs).Subperm (drawn h s ++ (drawn h s).map Segment.reverse) := by
  rw [← allSegments_eq]
  exact (rings_subperm h s).trans (traced_subperm h s)

/-- **C39.** In particular the number of ring segments is at most twice the number of lines and arcs. -/
theorem C39_count (h : Heap F) (s : Sketch) :
    ((findRings h s).1.map (fun r => r.segs.length)).sum ≤ 2 * (drawn h s).length := by
  have := (C39_used_once h s).length_le
  rw [List.length_flatMap] at this
  simpa [two_mul] using this

/-! ## C40 -/

instance : TotalCmpLaws XR where
  total a b := by
    cases a <;> cases b <;> simp [Num.totalLe, XR.totalLe, XR.le]
    exact le_total _ _
  trans a b c := by
    cases a <;> cases b <;> cases c <;> simp [Num.totalLe, XR.totalLe, XR.le]
    exact fun h1 h2 => _root_.le_trans h1 h2

/-- **C40.** Rings are returned in ascending order of signed area. -/
theorem C40_sorted [TotalCmpLaws F] (h : Heap F) (s : Sketch) :
    (findRings h s).1.Pairwise (fun a b => Num.totalLe (a.signedArea h) (b.signedArea h) = true) := by
  unfold findRings
  dsimp only
  exact List.Pairwise.filter _ (List.pairwise_mergeSort
    (le := fun a b : Ring F => Num.totalLe (a.signedArea h) (b.signedArea h))
    (fun a b c => TotalCmpLaws.trans _ _ _) (fun a b => TotalCmpLaws.total _ _) (unsortedRings h s))

/-- **C40.** Every ring has positive signed area. -/
theorem C40_positive (h : Heap F) (s : Sketch) (r : Ring F) (hr : r ∈ (findRings h s).1) :
    ((0.0 : F) <. r.signedArea h) = true := (mem_findRings.1 hr).2

/-- **C40.** Every circle of the sketch with positive computed area is a ring, as often as it occurs. -/
theorem C40_circles (h : Heap F) (s : Sketch) (c : Nat) (hc : PrimCell.circle c ∈ s.cells)
    (ha : ((0.0 : F) <. (h.circles c).radius * (h.circles c).radius * Num.pi) = true) :
    Ring.circle (h.circles c) ∈ (findRings h s).1 :=
  mem_findRings.2 ⟨.inl (mem_circleRings.2 ⟨c, hc, rfl⟩), ha⟩

/-- **C40.** Nothing of positive area is lost: the rings are, up to order, the traced chains and the circles whose signed
area is positive. -/
theorem C40_nothing_lost (h : Heap F) (s : Sketch) :
    (findRings h s).1.Perm (((tracedRings h s).2.map (fun t => Ring.segments (t.map (·.2))) ++ circleRings h s).filter
      (fun r => (0.0 : F) <. r.signedArea h)) := by
  unfold findRings
  exact (List.mergeSort_perm _ _).filter _

/-! ## C41 -/

/-- **C41.** `find_next_segment` returns `None` exactly if no segment may follow. -/
theorem C41_none (h : Heap F) (segs : List (Segment F)) (cur : Segment F) (used : List Nat) :
    findNextSegment h segs cur used = none ↔ ¬∃ i sg, MayFollow h segs cur used i sg := findNext_none

/-- **C41.** What it returns may follow. -/
theorem C41_some (h : Heap F) (segs : List (Segment F)) (cur : Segment F) (used : List Nat) (x : Nat × Segment F)
    (e : findNextSegment h segs cur used = some x) : MayFollow h segs cur used x.1 x.2 := findNext_some e

theorem foldl_max {α : Type} (key : α → ℝ) (f : α → XR) (m : α) (ms : List α) (hf : ∀ x ∈ m :: ms, f x = .fin (key x)) :
    ∀ y ∈ m :: ms, key y ≤ key (ms.foldl (fun a b => if gt (f a) (f b) then a else b) m) := by
  induction ms generalizing m with
  | nil => intro y hy; rw [List.mem_singleton.1 hy]; exact le_refl _
  | cons b ms ih =>
    rw [List.foldl_cons]
    have hm := hf m (by simp)
    have hb := hf b (by simp)
    intro y hy
    split
    next hg =>
      rw [gt, hm, hb] at hg
      simp only [XR.lt_fin, decide_eq_true_eq] at hg
      have key' := ih m (fun x hx => hf x (by simp at hx ⊢; tauto))
      rcases List.mem_cons.1 hy with rfl | hy
      · exact key' _ (by simp)
      · rcases List.mem_cons.1 hy with rfl | hy
        · exact le_trans hg.le (key' m (by simp))
        · exact key' _ (by simp [hy])
    next hg =>
      rw [gt, hm, hb] at hg
      simp only [XR.lt_fin, decide_eq_true_eq, not_lt] at hg
      have key' := ih b (fun x hx => hf x (by simp at hx ⊢; tauto))
      rcases List.mem_cons.1 hy with rfl | hy
      · exact le_trans hg (key' b (by simp))
      · exact key' _ hy

/-- **C41.** In exact arithmetic, if all turning angles are finite, the segment returned is one into which one turns hardest
to the left. -/
theorem C41_hardest_left (h : Heap XR) (segs : List (Segment XR)) (cur : Segment XR) (used : List Nat) (x : Nat × Segment XR)
    (hf : ∀ i sg, MayFollow h segs cur used i sg → Num.isFinite (turn h cur sg) = true)
    (e : findNextSegment h segs cur used = some x) :
    ∀ i sg, MayFollow h segs cur used i sg → (turn h cur sg <=. turn h cur x.2) = true := by
  intro i sg hm
  unfold findNextSegment at e
  split at e
  · cases e
  next m ms hc =>
    have hmem : ∀ y ∈ m :: ms, y.2 = .fin y.2.toReal := by
      intro y hy
      rw [← hc, mem_nextCandidates] at hy
      rw [hy.2]
      exact XR.eq_fin_of_isFinite (hf _ _ hy.1)
    have hin : ((i, sg), turn h cur sg) ∈ m :: ms := by
      rw [← hc, mem_nextCandidates]; exact ⟨hm, rfl⟩
    have hmax := foldl_max (fun y : (Nat × Segment XR) × XR => y.2.toReal) (fun y => y.2) m ms hmem _ hin
    have hpick := foldl_pick_mem (fun a b : (Nat × Segment XR) × XR => gt a.2 b.2) m ms
    generalize hg : ms.foldl (fun a b => if gt a.2 b.2 then a else b) m = z at *
    have hz := hpick
    rw [← hc, mem_nextCandidates] at hz
    cases e
    have e1 : turn h cur sg = .fin (turn h cur sg).toReal := hmem _ hin
    rw [← hz.2, hmem _ hpick, e1]
    simpa using hmax

end Isotope
