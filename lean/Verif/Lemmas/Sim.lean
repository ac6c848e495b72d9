import Verif.Lemmas.Ring

/-!
# Two drawings with the same combinatorics have the same rings
-/

namespace Isotope
variable {F G : Type} [Num F] [Num G]

/-- The two lists of segments agree, index by index, in everything the walk looks at. -/
structure Sim (h : Heap F) (segs : List (Segment F)) (h' : Heap G) (segs' : List (Segment G)) : Prop where
  len : segs.length = segs'.length
  cont : ∀ {i j : Nat} {a b : Segment F} {a' b' : Segment G}, segs[i]? = some a → segs'[i]? = some a' → segs[j]? = some b → segs'[j]? = some b' →
    b.continues h a = b'.continues h' a'
  eqr : ∀ {i j : Nat} {a b : Segment F} {a' b' : Segment G}, segs[i]? = some a → segs'[i]? = some a' → segs[j]? = some b → segs'[j]? = some b' →
    b.continues h a = true → b.equalsOrReverseEquals h a = b'.equalsOrReverseEquals h' a'
  ang : ∀ {i j k : Nat} {a b c : Segment F} {a' b' c' : Segment G}, segs[i]? = some a → segs'[i]? = some a' → segs[j]? = some b → segs'[j]? = some b' →
    segs[k]? = some c → segs'[k]? = some c' → b.continues h a = true → c.continues h a = true →
    gt (turn h a b) (turn h a c) = gt (turn h' a' b') (turn h' a' c')

section
variable {h : Heap F} {segs : List (Segment F)} {h' : Heap G} {segs' : List (Segment G)}

/-- the same index in both lists -/
def Same (segs : List (Segment F)) (segs' : List (Segment G)) (x : Nat × Segment F) (x' : Nat × Segment G) : Prop :=
  x.1 = x'.1 ∧ segs[x.1]? = some x.2 ∧ segs'[x'.1]? = some x'.2

/-- the same candidate in both lists -/
def SameCand (h : Heap F) (segs : List (Segment F)) (h' : Heap G) (segs' : List (Segment G)) (a : Segment F) (a' : Segment G)
    (x : (Nat × Segment F) × F) (x' : (Nat × Segment G) × G) : Prop :=
  Same segs segs' x.1 x'.1 ∧ x.2 = turn h a x.1.2 ∧ x'.2 = turn h' a' x'.1.2 ∧ x.1.2.continues h a = true

theorem Sim.cands (s : Sim h segs h' segs') {i : Nat} {a : Segment F} {a' : Segment G} (ha : segs[i]? = some a)
    (ha' : segs'[i]? = some a') (used : List Nat) (l : List (Nat × Segment F)) (l' : List (Nat × Segment G))
    (hl : List.Forall₂ (Same segs segs') l l') :
    List.Forall₂ (SameCand h segs h' segs' a a')
      (l.filterMap (fun is => if used.contains is.1 then none
        else if is.2.continues h a && !is.2.equalsOrReverseEquals h a then some (is, turn h a is.2) else none))
      (l'.filterMap (fun is => if used.contains is.1 then none
        else if is.2.continues h' a' && !is.2.equalsOrReverseEquals h' a' then some (is, turn h' a' is.2) else none)) := by
  induction hl with
  | nil => exact .nil
  | @cons x x' l l' hx _ ih =>
    obtain ⟨e, h1, h2⟩ := id hx
    obtain ⟨n, x⟩ := x
    obtain ⟨n', x'⟩ := x'
    dsimp only at e h1 h2
    subst e
    have hc := s.cont ha ha' h1 h2
    rw [List.filterMap_cons, List.filterMap_cons]
    dsimp only
    cases hu : used.contains n with
    | true => simpa only [if_true] using ih
    | false =>
      cases hb : x.continues h a with
      | false =>
        rw [← hc, hb]
        simpa only [Bool.false_and, Bool.false_eq_true, if_false] using ih
      | true =>
        rw [← hc, ← s.eqr ha ha' h1 h2 hb, hb]
        cases x.equalsOrReverseEquals h a with
        | true => simpa only [Bool.not_true, Bool.and_false, Bool.false_eq_true, if_false] using ih
        | false =>
          simp only [Bool.not_false, Bool.and_true, Bool.false_eq_true, if_false, if_true]
          exact .cons ⟨hx, rfl, rfl, hb⟩ ih

omit [Num F] [Num G] in
theorem enum_same (segs : List (Segment F)) (segs' : List (Segment G)) (hl : segs.length = segs'.length) :
    List.Forall₂ (Same segs segs') (enumFrom 0 segs) (enumFrom 0 segs') := by
  rw [List.forall₂_iff_get]
  refine ⟨by rw [enumFrom_length, enumFrom_length, hl], ?_⟩
  have idx : ∀ {α : Type} (l : List α) (i : Nat) (hi : i < (enumFrom 0 l).length), ((enumFrom 0 l).get ⟨i, hi⟩).1 = i := by
    intro α l i hi
    have := enumFrom_map_fst l 0
    have h2 : ((enumFrom 0 l).map (·.1))[i]? = some ((enumFrom 0 l).get ⟨i, hi⟩).1 := by
      rw [List.getElem?_map, List.getElem?_eq_getElem hi]; rfl
    rw [this, List.getElem?_range' (by rw [enumFrom_length] at hi; exact hi)] at h2
    simpa using h2.symm
  intro i hi hi'
  refine ⟨by rw [idx, idx], mem_enum.1 (List.get_mem _ _), mem_enum.1 (List.get_mem _ _)⟩

theorem Sim.next (s : Sim h segs h' segs') {i : Nat} {a : Segment F} {a' : Segment G} (ha : segs[i]? = some a)
    (ha' : segs'[i]? = some a') (used : List Nat) :
    (findNextSegment h segs a used = none ∧ findNextSegment h' segs' a' used = none) ∨
    ∃ x x', findNextSegment h segs a used = some x ∧ findNextSegment h' segs' a' used = some x' ∧ Same segs segs' x x' := by
  have hc := s.cands ha ha' used _ _ (enum_same segs segs' s.len)
  have e1 : nextCandidates h segs a used = _ := rfl
  have e2 : nextCandidates h' segs' a' used = _ := rfl
  unfold nextCandidates at e1 e2
  dsimp only at e1 e2
  unfold findNextSegment
  change List.Forall₂ _ (nextCandidates h segs a used) (nextCandidates h' segs' a' used) at hc
  generalize nextCandidates h segs a used = c at hc
  generalize nextCandidates h' segs' a' used = c' at hc
  cases hc with
  | nil => exact .inl ⟨rfl, rfl⟩
  | @cons m m' ms ms' hm hms =>
    right
    refine ⟨_, _, rfl, rfl, ?_⟩
    suffices SameCand h segs h' segs' a a' (ms.foldl (fun a b => if gt a.2 b.2 then a else b) m)
        (ms'.foldl (fun a b => if gt a.2 b.2 then a else b) m') from this.1
    clear e1 e2
    induction hms generalizing m m' with
    | nil => exact hm
    | @cons b b' ms ms' hb _ ih =>
      rw [List.foldl_cons, List.foldl_cons]
      have : gt m.2 b.2 = gt m'.2 b'.2 := by
        rw [hm.2.1, hm.2.2.1, hb.2.1, hb.2.2.1]
        exact s.ang ha ha' hm.1.2.1 (hm.1.1 ▸ hm.1.2.2) hb.1.2.1 (hb.1.1 ▸ hb.1.2.2) hm.2.2.2 hb.2.2.2
      rw [this]
      split
      · exact ih hm
      · exact ih hb

theorem Sim.walk (s : Sim h segs h' segs') (used : List Nat) {i0 : Nat} {a0 : Segment F} {a0' : Segment G}
    (h0 : segs[i0]? = some a0) (h0' : segs'[i0]? = some a0') (n : Nat) (x : Nat × Segment F) (x' : Nat × Segment G)
    (hx : Same segs segs' x x') (acc : List (Nat × Segment F)) (acc' : List (Nat × Segment G))
    (hacc : acc.map (·.1) = acc'.map (·.1)) :
    (ringWalk h segs used (a0.getStart h) n x acc).map (fun l => l.map (·.1)) =
      (ringWalk h' segs' used (a0'.getStart h') n x' acc').map (fun l => l.map (·.1)) := by
  induction n generalizing x x' acc acc' with
  | zero => rfl
  | succ n ih =>
    unfold ringWalk
    dsimp only
    have hc := s.cont hx.2.1 (hx.1 ▸ hx.2.2) h0 h0'
    simp only [Segment.continues] at hc
    have hacc' : (acc ++ [x]).map (·.1) = (acc' ++ [x']).map (·.1) := by simp [hacc, hx.1]
    rw [hc]
    split
    · simpa using hacc'
    · rcases s.next hx.2.1 (hx.1 ▸ hx.2.2) used with ⟨e, e'⟩ | ⟨y, y', e, e', hy⟩
      · rw [e, e']; rfl
      · rw [e, e']
        exact ih y y' hy _ _ hacc'

theorem Sim.loop (s : Sim h segs h' segs') (todo : List (Nat × Segment F)) (todo' : List (Nat × Segment G))
    (ht : List.Forall₂ (Same segs segs') todo todo') (used : List Nat) (rings : List (List (Nat × Segment F)))
    (rings' : List (List (Nat × Segment G))) (hr : rings.map (fun l => l.map (·.1)) = rings'.map (fun l => l.map (·.1))) :
    (ringLoop h segs todo used rings).1 = (ringLoop h' segs' todo' used rings').1 ∧
    (ringLoop h segs todo used rings).2.map (fun l => l.map (·.1)) =
      (ringLoop h' segs' todo' used rings').2.map (fun l => l.map (·.1)) := by
  induction ht generalizing used rings rings' with
  | nil => exact ⟨rfl, hr⟩
  | @cons x x' l l' hx _ ih =>
    unfold ringLoop
    rw [hx.1]
    split
    · exact ih used rings rings' hr
    · have hw := s.walk used hx.2.1 (hx.1 ▸ hx.2.2) (segs.length - 1) x x' hx [] [] rfl
      rw [← s.len]
      cases e : ringWalk h segs used (x.2.getStart h) (segs.length - 1) x [] with
      | none =>
        rw [e] at hw
        cases e' : ringWalk h' segs' used (x'.2.getStart h') (segs.length - 1) x' [] with
        | none => exact ih used rings rings' hr
        | some r => rw [e'] at hw; cases hw
      | some r =>
        rw [e] at hw
        cases e' : ringWalk h' segs' used (x'.2.getStart h') (segs.length - 1) x' [] with
        | none => rw [e'] at hw; cases hw
        | some r' =>
          rw [e'] at hw
          have hw : r.map (·.1) = r'.map (·.1) := by simpa using hw
          dsimp only
          rw [hw]
          exact ih _ _ _ (by simp [hr, hw])

/-- Both lists give the same rings, as lists of indices, and the same used indices. -/
theorem Sim.rings (s : Sim h segs h' segs') :
    (ringLoop h segs (enumFrom 0 segs) [] []).1 = (ringLoop h' segs' (enumFrom 0 segs') [] []).1 ∧
    (ringLoop h segs (enumFrom 0 segs) [] []).2.map (fun l => l.map (·.1)) =
      (ringLoop h' segs' (enumFrom 0 segs') [] []).2.map (fun l => l.map (·.1)) :=
  s.loop _ _ (enum_same segs segs' s.len) [] [] [] rfl

end

/-- traced rings, recovered from the indices -/
theorem traced_of_indices {h : Heap F} {s : Sketch} {is : List (List Nat)}
    (e : (tracedRings h s).2.map (fun l => l.map (·.1)) = is) :
    (tracedRings h s).2.map (fun r => r.map (·.2)) = is.map (fun l => l.filterMap (fun i => (allSegments h s)[i]?)) := by
  rw [← e, List.map_map]
  apply List.map_congr_left
  intro r hr
  have ok := (tracedRings_ok h s).2.2 r hr
  have := ok.mem
  simp only [Function.comp]
  rw [List.filterMap_map]
  clear ok hr
  induction r with
  | nil => rfl
  | cons x r ih =>
    rw [List.map_cons, List.filterMap_cons]
    simp only [Function.comp]
    rw [this x (by simp)]
    simp only
    rw [ih (fun y hy => this y (by simp [hy]))]
    rfl

end Isotope
