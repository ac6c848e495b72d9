import Verif.Props.GradFree

/-!
# Faces (C45, C46)
-/

namespace Isotope
variable {F : Type} [Num F]

/-! ## Specification -/

/-- the first polygon after position `i` that contains polygon `i` -/
def container (g : Geo F) (P : List (Polygon F)) (i : Nat) : Option Nat :=
  (List.range P.length).find? (fun k => decide (i < k) &&
    match P[k]?, P[i]? with
    | some big, some small => g.containsPoly big small
    | _, _ => false)

/-! ## C45 -/

omit [Num F] in
theorem firstContainer_eq (g : Geo F) (small : Polygon F) (j : Nat) (l : List (Polygon F)) :
    firstContainer g small j l = (l.findIdx? (fun big => g.containsPoly big small)).map (· + j) := by
  induction l generalizing j with
  | nil => rfl
  | cons b l ih =>
    rw [firstContainer, List.findIdx?_cons]
    split
    next h => simp
    next h =>
      rw [ih, Option.map_map]
      congr 1
      funext k
      simp only [Function.comp]
      omega

omit [Num F] in
theorem firstContainer_container (g : Geo F) (P : List (Polygon F)) (i j : Nat) (small : Polygon F) (hs : P[i]? = some small) :
    firstContainer g small 0 (P.drop (i + 1)) = some j ↔ container g P i = some (i + 1 + j) := by
  rw [firstContainer_eq]
  simp only [Nat.add_zero, Option.map_id']
  unfold container
  rw [hs]
  rw [List.findIdx?_eq_some_iff_getElem, List.find?_range_eq_some]
  constructor
  · rintro ⟨hj, h1, h2⟩
    rw [List.length_drop] at hj
    rw [List.getElem_drop] at h1
    refine ⟨?_, ?_, ?_⟩
    · rw [List.getElem?_eq_getElem (by omega)]
      simp [h1]
      omega
    · rw [List.mem_range]; omega
    · intro m hm
      by_cases hi : i < m
      · have := h2 (m - (i + 1)) (by omega)
        rw [List.getElem_drop] at this
        rw [List.getElem?_eq_getElem (by omega)]
        simp only [show i + 1 + (m - (i + 1)) = m by omega] at this
        simp only [Bool.not_eq_true] at this
        simp [this]
      · simp [hi]
  · rintro ⟨h1, h2, h3⟩
    rw [List.mem_range] at h2
    rw [List.getElem?_eq_getElem h2] at h1
    refine ⟨by rw [List.length_drop]; omega, ?_, ?_⟩
    · rw [List.getElem_drop]
      simp at h1
      exact h1.2
    · intro m hm
      have := h3 (i + 1 + m) (by omega)
      rw [List.getElem?_eq_getElem (by omega)] at this
      rw [List.getElem_drop]
      simp at this ⊢
      exact this.resolve_left (by omega)

omit [Num F] in
theorem whatContainsWhat_eq (g : Geo F) (P : List (Polygon F)) :
    whatContainsWhat g P = (List.range P.length).filterMap (fun i =>
      match container g P i with
      | some k => some (k - (i + 1), i)
      | none => none) := by
  unfold whatContainsWhat
  have key : ∀ i small, P[i]? = some small →
      (match firstContainer g small 0 (P.drop (i + 1)) with
        | some j => some (j, i)
        | none => none) = (match container g P i with
        | some k => some (k - (i + 1), i)
        | none => none) := by
    intro i small hs
    cases e : firstContainer g small 0 (P.drop (i + 1)) with
    | some j =>
      rw [(firstContainer_container g P i j small hs).1 e]
      simp
    | none =>
      cases e' : container g P i with
      | none => rfl
      | some k =>
        exfalso
        have hk : i < k := by
          unfold container at e'
          have := List.find?_some e'
          simp at this
          exact this.1
        obtain ⟨j, rfl⟩ : ∃ j, k = i + 1 + j := ⟨k - (i + 1), by omega⟩
        rw [(firstContainer_container g P i j small hs).2 e'] at e
        cases e
  have last : ∀ i, P.length - 1 ≤ i → container g P i = none := by
    intro i hi
    cases e : container g P i with
    | none => rfl
    | some k =>
      exfalso
      unfold container at e
      have h1 := List.find?_some e
      have h2 := List.mem_range.1 (List.mem_of_find?_eq_some e)
      simp at h1
      omega
  have e1 : (enumFrom 0 (P.take (P.length - 1))).filterMap (fun ip =>
      match firstContainer g ip.2 0 (P.drop (ip.1 + 1)) with
      | some j => some (j, ip.1)
      | none => none) = (enumFrom 0 (P.take (P.length - 1))).filterMap ((fun i =>
      match container g P i with
      | some k => some (k - (i + 1), i)
      | none => none) ∘ (·.1)) := by
    apply List.filterMap_congr
    intro ip hip
    have hm := mem_enum.1 hip
    rw [List.getElem?_take] at hm
    split at hm
    · exact key ip.1 ip.2 hm
    · cases hm
  refine Eq.trans e1 ?_
  rw [← List.filterMap_map, enumFrom_map_fst]
  by_cases h0 : P.length = 0
  · simp [h0]
  · have : List.range P.length = List.range (P.length - 1) ++ [P.length - 1] := by
      rw [← List.range_succ]; congr 1; omega
    rw [this, List.filterMap_append, List.length_take, Nat.min_eq_left (by omega), List.range_eq_range']
    simp [last]

omit [Num F] in
theorem holes_added (R : List (Ring F)) (W : List (Nat × Nat)) (fs : List (Face F)) (he : fs.map Face.exterior = R)
    (hW : ∀ p ∈ W, p.1 < R.length ∧ p.2 < R.length) :
    (W.foldl addHoleAt fs).map Face.exterior = R ∧
    ∀ j f f', fs[j]? = some f → (W.foldl addHoleAt fs)[j]? = some f' →
      f'.holes.map Face.exterior = f.holes.map Face.exterior ++ W.filterMap (fun p => if p.1 = j then R[p.2]? else none) := by
  induction W generalizing fs with
  | nil =>
    refine ⟨he, fun j f f' h1 h2 => ?_⟩
    rw [List.foldl_nil, h1] at h2
    cases h2
    simp
  | cons p W ih =>
    obtain ⟨hp1, hp2⟩ := hW p (by simp)
    have hlen : fs.length = R.length := by rw [← he, List.length_map]
    obtain ⟨a, g1⟩ : ∃ a, fs[p.1]? = some a := ⟨_, List.getElem?_eq_getElem (by omega)⟩
    obtain ⟨b, g2⟩ : ∃ b, fs[p.2]? = some b := ⟨_, List.getElem?_eq_getElem (by omega)⟩
    have e : addHoleAt fs p = fs.set p.1 (a.addHole b) := by
      unfold addHoleAt; rw [g1, g2]
    rw [List.foldl_cons, e]
    have he' : (fs.set p.1 (a.addHole b)).map Face.exterior = R := by
      rw [List.map_set, ← he]
      show (fs.map Face.exterior).set p.1 a.exterior = _
      apply List.ext_getElem?
      intro k
      rw [List.getElem?_set]
      split
      next hk =>
        subst hk
        rw [if_pos (by simp; omega), List.getElem?_map, g1]; rfl
      next => rfl
    obtain ⟨i1, i2⟩ := ih _ he' (fun q hq => hW q (by simp [hq]))
    refine ⟨i1, fun j f f' h1 h2 => ?_⟩
    by_cases hj : p.1 = j
    · subst hj
      rw [g1] at h1
      cases h1
      have := i2 p.1 (a.addHole b) f' (by rw [List.getElem?_set_self (by omega)]) h2
      rw [this]
      have hx : R[p.2]? = some b.exterior := by rw [← he, List.getElem?_map, g2]; rfl
      rw [List.filterMap_cons]
      simp only [if_true, hx]
      simp [Face.addHole, Face.holes]
    · have := i2 j f f' (by rw [List.getElem?_set_ne hj]; exact h1) h2
      rw [this, List.filterMap_cons]
      simp [hj]

omit [Num F] in
theorem pairs_in_range (g : Geo F) (P : List (Polygon F)) : ∀ p ∈ whatContainsWhat g P, p.1 < P.length ∧ p.2 < P.length := by
  intro p hp
  rw [whatContainsWhat_eq, List.mem_filterMap] at hp
  obtain ⟨i, hi, e⟩ := hp
  rw [List.mem_range] at hi
  split at e
  next k hk =>
    cases e
    unfold container at hk
    have := List.mem_range.1 (List.mem_of_find?_eq_some hk)
    exact ⟨by dsimp only; omega, hi⟩
  · cases e

/-- **C45.** The indices used to add holes are in range, so the lookups never panic. -/
theorem C45_no_panic (g : Geo F) (h : Heap F) (s : Sketch) :
    ∀ p ∈ whatContainsWhat g ((findRings h s).1.map (Ring.asPolygon h)),
      p.1 < ((findRings h s).1.map Face.fromRing).length ∧ p.2 < ((findRings h s).1.map Face.fromRing).length := by
  intro p hp
  simpa using pairs_in_range g _ p hp

theorem findFaces_eq (g : Geo F) (h : Heap F) (s : Sketch) :
    getFaces g h s = (whatContainsWhat g ((findRings h s).1.map (Ring.asPolygon h))).foldl addHoleAt
      ((findRings h s).1.map Face.fromRing) := by
  unfold getFaces findFaces
  dsimp only
  split
  next e =>
    rw [List.isEmpty_iff] at e
    rw [e]; rfl
  · rfl

/-- **C45.** There is one face per ring, in the same order, with the ring as exterior. -/
theorem C45_exteriors (g : Geo F) (h : Heap F) (s : Sketch) :
    (getFaces g h s).map Face.exterior = (findRings h s).1 := by
  rw [findFaces_eq]
  refine (holes_added (findRings h s).1 _ _ ?_ (fun p hp => by simpa using pairs_in_range g _ p hp)).1
  rw [List.map_map]
  conv => rhs; rw [← List.map_id (findRings h s).1]
  rfl

/-- **C45.** The holes of face `j` are, in order, the rings `i` whose container (the next larger ring that contains them) is
ring `i + 1 + j` (the code forgets that it counted from `i + 1`). -/
theorem C45_holes (g : Geo F) (h : Heap F) (s : Sketch) (j : Nat) (f : Face F) (hf : (getFaces g h s)[j]? = some f) :
    f.holes.map Face.exterior = (List.range (findRings h s).1.length).filterMap (fun i =>
      if container g ((findRings h s).1.map (Ring.asPolygon h)) i = some (i + 1 + j) then (findRings h s).1[i]? else none) := by
  rw [findFaces_eq] at hf
  have hj : j < (findRings h s).1.length := by
    have := (List.getElem?_eq_some_iff.1 hf).1
    have e := congrArg List.length (C45_exteriors g h s)
    rw [findFaces_eq, List.length_map] at e
    omega
  have := (holes_added (findRings h s).1 (whatContainsWhat g ((findRings h s).1.map (Ring.asPolygon h)))
    ((findRings h s).1.map Face.fromRing) (by
      rw [List.map_map]
      conv => rhs; rw [← List.map_id (findRings h s).1]
      rfl) (fun p hp => by simpa using pairs_in_range g _ p hp)).2 j (.mk (findRings h s).1[j] []) f
    (by rw [List.getElem?_map, List.getElem?_eq_getElem hj]; rfl) hf
  rw [this, whatContainsWhat_eq, List.filterMap_filterMap]
  simp only [Face.holes, List.map_nil, List.nil_append, List.length_map]
  apply List.filterMap_congr
  intro i _
  cases e : container g ((findRings h s).1.map (Ring.asPolygon h)) i with
  | none => simp
  | some k =>
    have hk : i < k := by
      unfold container at e
      have := List.find?_some e
      simp at this
      exact this.1
    simp only [Option.bind_some, Option.some.injEq]
    by_cases c : k = i + 1 + j
    · rw [if_pos c, if_pos (by omega)]
    · rw [if_neg c, if_neg (by omega)]

/-- **C45.** The last face, the one with the largest ring, never has a hole. -/
theorem C45_largest (g : Geo F) (h : Heap F) (s : Sketch) (f : Face F)
    (hf : (getFaces g h s).getLast? = some f) : f.holes = [] := by
  have hlen : (getFaces g h s).length = (findRings h s).1.length := by
    rw [← C45_exteriors g h s, List.length_map]
  rw [List.getLast?_eq_getElem?] at hf
  have hn : 0 < (getFaces g h s).length := by
    have := (List.getElem?_eq_some_iff.1 hf).1; omega
  have := C45_holes g h s _ f hf
  rw [← List.map_eq_nil_iff (f := Face.exterior), this, List.filterMap_eq_nil_iff]
  intro i _
  rw [if_neg]
  intro e
  unfold container at e
  have := List.mem_range.1 (List.mem_of_find?_eq_some e)
  rw [List.length_map] at this
  omega

open XR in
/-- two circles around the origin, with radius 1 and 2 -/
noncomputable def discHeap : Heap XR :=
  { drawing [(0, 0)] [] [] with
    circles := fun i => ⟨0, fin (i + 1), fin 0⟩
    nCircles := 2 }

/-- the centre and both circles -/
def discSketch : Sketch := ⟨[(0, .point 0), (1, .circle 0), (2, .circle 1)], 3, []⟩

open XR in
theorem disc_rings : findRings discHeap discSketch =
    ([.circle ⟨0, fin 1, fin 0⟩, .circle ⟨0, fin 2, fin 0⟩], []) := by
  have hp := Real.pi_pos
  have hu : unsortedRings discHeap discSketch = [.circle ⟨0, fin 1, fin 0⟩, .circle ⟨0, fin 2, fin 0⟩] := by
    have ha : allSegments discHeap discSketch = [] := rfl
    unfold unsortedRings tracedRings
    rw [ha]
    simp [ringLoop, enumFrom, circleRings, discSketch, discHeap]
    norm_num
  refine Prod.ext ?_ ?_
  · unfold findRings
    rw [hu]
    dsimp only
    rw [List.mergeSort_of_pairwise]
    · have a1 : (Ring.circle ⟨0, fin 1, fin 0⟩ : Ring XR).signedArea discHeap = fin (1 * 1 * Real.pi) := rfl
      have a2 : (Ring.circle ⟨0, fin 2, fin 0⟩ : Ring XR).signedArea discHeap = fin (2 * 2 * Real.pi) := rfl
      rw [List.filter_cons, a1, lit0, gt, lt_fin, if_pos (by simp; positivity), List.filter_cons, a2, gt, lt_fin,
        if_pos (by simp; positivity)]
      rfl
    · simp [Ring.signedArea, Num.totalLe, XR.totalLe, XR.le]
      nlinarith
  · rfl

open XR in
/-- **C45 (refutation of the intended behaviour).** Two circles, one inside the other: the small disc gets itself as a hole,
the ring-shaped face around it has none. -/
theorem C45_nested_circles (g : Geo XR)
    (hg : g.containsPoly ((Ring.circle ⟨0, fin 2, fin 0⟩).asPolygon discHeap)
      ((Ring.circle ⟨0, fin 1, fin 0⟩).asPolygon discHeap) = true) :
    getFaces g discHeap discSketch =
      [.mk (.circle ⟨0, fin 1, fin 0⟩) [.mk (.circle ⟨0, fin 1, fin 0⟩) []], .mk (.circle ⟨0, fin 2, fin 0⟩) []] := by
  rw [findFaces_eq, disc_rings]
  simp only [List.map_cons, List.map_nil, whatContainsWhat, List.length_cons, List.length_nil, Nat.zero_add,
    Nat.reduceAdd, Nat.add_one_sub_one, List.take_succ_cons, List.take_zero, enumFrom, List.filterMap_cons,
    List.filterMap_nil, List.drop_succ_cons, List.drop_zero, firstContainer, hg, if_true, List.foldl_cons, List.foldl_nil,
    addHoleAt, List.getElem?_cons_zero, List.set_cons_zero]
  rfl

/-- its hypothesis can be met -/
example : ∃ g : Geo XR, g.containsPoly ((Ring.circle ⟨0, .fin 2, .fin 0⟩).asPolygon discHeap)
      ((Ring.circle ⟨0, .fin 1, .fin 0⟩).asPolygon discHeap) = true :=
  ⟨⟨fun _ _ => true, fun _ _ => true, fun _ => none⟩, rfl⟩

/-! ## C46 -/

theorem facesToRemove_none (g : Geo F) (h : Heap F) (olds : List (Polygon F)) (l : List (Nat × Face F)) :
    facesToRemove g h olds l = none ↔ ∃ p ∈ l, g.interiorPoint (p.2.asPolygon h) = none := by
  induction l with
  | nil => simp [facesToRemove]
  | cons p l ih =>
    obtain ⟨i, f⟩ := p
    unfold facesToRemove
    cases e : g.interiorPoint (f.asPolygon h) with
    | none => simp [e]
    | some pt =>
      cases e' : facesToRemove g h olds l with
      | none => simp [e, ih.1 e']
      | some r =>
        have : ¬∃ p ∈ l, g.interiorPoint (p.2.asPolygon h) = none := fun hc => by rw [ih.2 hc] at e'; cases e'
        simpa [e] using this

/-- the interior point of the face lies in one of the polygons -/
def located (g : Geo F) (h : Heap F) (olds : List (Polygon F)) (f : Face F) : Bool :=
  match g.interiorPoint (f.asPolygon h) with
  | none => false
  | some pt => olds.any (fun o => g.containsPoint o pt)

theorem facesToRemove_some (g : Geo F) (h : Heap F) (olds : List (Polygon F)) (l : List (Nat × Face F)) (r : List Nat)
    (e : facesToRemove g h olds l = some r) :
    r = (l.filter (fun p => !located g h olds p.2)).map (·.1) := by
  induction l generalizing r with
  | nil => cases e; rfl
  | cons p l ih =>
    obtain ⟨i, f⟩ := p
    unfold facesToRemove at e
    rw [List.filter_cons]
    unfold located
    split at e
    · cases e
    next pt hpt =>
      split at e
      · cases e
      next r' hr' =>
        cases e
        have := ih r' hr'
        dsimp only
        rw [hpt]
        dsimp only
        by_cases c : (olds.any fun o => g.containsPoint o pt) = true
        · rw [if_pos c, if_neg (by simpa using c)]; exact this
        · rw [if_neg c, if_pos (by simpa using c), List.map_cons, this]
          rfl

theorem erase_filter {α : Type} (q : α → Bool) (pre l : List α) :
    (((enumFrom pre.length l).filter (fun p => q p.2)).map (·.1)).reverse.foldl (fun fs i => fs.eraseIdx i) (pre ++ l) =
      pre ++ l.filter (fun x => !q x) := by
  induction l generalizing pre with
  | nil => simp [enumFrom]
  | cons x l ih =>
    have := ih (pre ++ [x])
    simp only [List.length_append, List.length_singleton, List.append_assoc, List.singleton_append] at this
    unfold enumFrom
    rw [List.filter_cons, List.filter_cons]
    by_cases c : q x = true
    · rw [if_pos c, if_neg (by simpa using c), List.map_cons, List.reverse_cons, List.foldl_append, this]
      simp [List.eraseIdx_append_of_length_le]
    · rw [if_neg c, if_pos (by simpa using c), this]

/-- **C46.** If every face has an interior point, `merge_faces` returns, in order, exactly the faces whose interior point lies
in the polygon of some face. -/
theorem C46_located (g : Geo F) (h : Heap F) (faces : List (Face F))
    (hi : ∀ f ∈ faces, g.interiorPoint (f.asPolygon h) ≠ none) :
    mergeFaces g h faces = some (faces.filter (fun f =>
      match g.interiorPoint (f.asPolygon h) with
      | none => false
      | some pt => faces.any (fun f' => g.containsPoint (f'.asPolygon h) pt))) := by
  unfold mergeFaces
  cases e : facesToRemove g h (faces.map (Face.asPolygon h)) (enumFrom 0 faces) with
  | none =>
    obtain ⟨p, hp, hn⟩ := (facesToRemove_none g h _ _).1 e
    have := List.mem_of_getElem? (mem_enum.1 hp)
    exact absurd hn (hi _ this)
  | some r =>
    dsimp only
    have hr := facesToRemove_some g h _ _ r e
    have hs : r.Pairwise (fun a b => decide (a ≤ b) = true) := by
      rw [hr]
      have : ((enumFrom 0 faces).map (·.1)).Pairwise (fun a b => decide (a ≤ b) = true) := by
        rw [enumFrom_map_fst]
        exact (List.pairwise_lt_range' ..).imp (fun hlt => by simp; omega)
      exact this.sublist (List.filter_sublist.map _)
    rw [List.mergeSort_of_pairwise hs, hr]
    have := erase_filter (fun f => !located g h (faces.map (Face.asPolygon h)) f) [] faces
    simp only [List.length_nil, List.nil_append, Bool.not_not] at this
    rw [this]
    congr 1
    apply List.filter_congr
    intro f _
    unfold located
    cases g.interiorPoint (f.asPolygon h) with
    | none => rfl
    | some pt => simp only [List.any_map]; rfl

/-- **C46.** If the interior point of every face lies in its own polygon, `merge_faces` changes nothing. -/
theorem C46_identity (g : Geo F) (h : Heap F) (faces : List (Face F))
    (hi : ∀ f ∈ faces, ∃ pt, g.interiorPoint (f.asPolygon h) = some pt ∧ g.containsPoint (f.asPolygon h) pt = true) :
    mergeFaces g h faces = some faces := by
  rw [C46_located g h faces (fun f hf => by obtain ⟨pt, e, -⟩ := hi f hf; rw [e]; simp)]
  congr 1
  rw [List.filter_eq_self]
  intro f hf
  obtain ⟨pt, e, hc⟩ := hi f hf
  rw [e]
  exact List.any_eq_true.2 ⟨f, hf, hc⟩

/-- **C46.** `merge_faces` panics exactly if some face has no interior point. -/
theorem C46_panic (g : Geo F) (h : Heap F) (faces : List (Face F)) :
    mergeFaces g h faces = none ↔ ∃ f ∈ faces, g.interiorPoint (f.asPolygon h) = none := by
  constructor
  · intro e
    by_contra hc
    rw [C46_located g h faces (fun f hf hn => hc ⟨f, hf, hn⟩)] at e
    cases e
  · rintro ⟨f, hf, hn⟩
    unfold mergeFaces
    obtain ⟨i, hi⟩ := List.mem_iff_getElem?.1 hf
    rw [(facesToRemove_none g h _ _).2 ⟨(i, f), mem_enum.2 hi, hn⟩]

/-- the hypotheses of C46 can be met so that a face is removed: the point found for the second face is not located -/
example : mergeFaces (F := XR) ⟨fun _ _ => true, fun _ pt => pt.1 ==. pt.1,
      fun P => if P.interiors.isEmpty then some (.fin 0, .fin 0) else some (.nan, .nan)⟩
    discHeap [.mk (.segments []) [], .mk (.segments []) [.mk (.segments []) []]] = some [.mk (.segments []) []] := by
  rw [C46_located]
  · simp [Face.asPolygon, Face.exterior, Face.holes, Ring.asPolygon, Polygon.new]
    rfl
  · intro f _
    dsimp only
    split <;> simp

end Isotope
