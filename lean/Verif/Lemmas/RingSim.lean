import Verif.Lemmas.Ring
import Verif.SpecRing

/-!
# The walk in two arithmetics

When all comparisons come out the same, `find_rings` traces the same rings.
-/

namespace Isotope

variable {F G : Type} [Num F] [Num G]

/-- the comparisons made by the walk come out the same -/
structure SameWalk (h : Heap F) (H : Heap G) (φ : Segment F → Segment G) (segs : List (Segment F)) : Prop where
  meets : ∀ a ∈ segs, ∀ b ∈ segs, ((φ a).getEnd H).beq ((φ b).getStart H) = (a.getEnd h).beq (b.getStart h)
  equals : ∀ a ∈ segs, ∀ b ∈ segs, (φ a).equalsOrReverseEquals H (φ b) = a.equalsOrReverseEquals h b
  turns : ∀ cur ∈ segs, ∀ i j a b, i ≠ j → MayFollow h segs cur [] i a → MayFollow h segs cur [] j b →
    gt (turn H (φ cur) (φ a)) (turn H (φ cur) (φ b)) = gt (turn h cur a) (turn h cur b)

theorem enumFrom_mapped {α β : Type} (f : α → β) (l : List α) : ∀ n, enumFrom n (l.map f) = (enumFrom n l).map (fun x => (x.1, f x.2)) := by
  induction l with
  | nil => intro n; rfl
  | cons a l ih => intro n; simp only [List.map_cons, enumFrom, ih]

theorem enumFrom_mem {α : Type} {l : List α} {x : Nat × α} (h : x ∈ enumFrom 0 l) : l[x.1]? = some x.2 := mem_enum.1 h

theorem enumFrom_keys {α : Type} (l : List α) : ∀ n, (enumFrom n l).map (·.1) = List.range' n l.length := by
  induction l with
  | nil => intro n; rfl
  | cons a l ih => intro n; simp only [enumFrom, List.map_cons, ih, List.length_cons, List.range'_succ]

namespace SameWalk
variable {h : Heap F} {H : Heap G} {φ : Segment F → Segment G} {segs : List (Segment F)}

theorem candidates (w : SameWalk h H φ segs) {cur : Segment F} (hc : cur ∈ segs) (used : List Nat) :
    nextCandidates H (segs.map φ) (φ cur) used =
      (nextCandidates h segs cur used).map (fun m => ((m.1.1, φ m.1.2), turn H (φ cur) (φ m.1.2))) := by
  unfold nextCandidates
  dsimp only
  rw [enumFrom_mapped, List.filterMap_map, List.map_filterMap]
  refine List.filterMap_congr fun x hx => ?_
  have hs : x.2 ∈ segs := List.mem_of_getElem? (enumFrom_mem hx)
  simp only [Function.comp_apply]
  have e1 : (φ x.2).continues H (φ cur) = x.2.continues h cur := w.meets cur hc x.2 hs
  rw [e1, w.equals x.2 hs cur hc]
  split_ifs <;> simp [turn]

theorem next (w : SameWalk h H φ segs) {cur : Segment F} (hc : cur ∈ segs) (used : List Nat) :
    findNextSegment H (segs.map φ) (φ cur) used = (findNextSegment h segs cur used).map (fun x => (x.1, φ x.2)) := by
  unfold findNextSegment
  rw [w.candidates hc used]
  have hall : ∀ y ∈ nextCandidates h segs cur used, MayFollow h segs cur [] y.1.1 y.1.2 ∧ y.2 = turn h cur y.1.2 := by
    intro y hy
    obtain ⟨⟨i, sg⟩, t⟩ := y
    obtain ⟨⟨a1, -, a3⟩, e⟩ := mem_nextCandidates.1 hy
    exact ⟨⟨a1, by simp, a3⟩, e⟩
  have hnd : ((nextCandidates h segs cur used).map (·.1.1)).Nodup := by
    unfold nextCandidates
    dsimp only
    have : ((enumFrom 0 segs).map (·.1)).Nodup := by
      rw [enumFrom_keys]; exact List.nodup_range'
    generalize enumFrom 0 segs = l at this
    induction l with
    | nil => simp
    | cons x l ih =>
      rw [List.map_cons, List.nodup_cons] at this
      rw [List.filterMap_cons]
      split
      · exact ih this.2
      · rename_i y hy
        rw [List.map_cons, List.nodup_cons]
        refine ⟨?_, ih this.2⟩
        have ey : y.1 = x := by
          split_ifs at hy
          · cases hy; rfl
        rw [ey]
        intro hm
        rw [List.mem_map] at hm
        obtain ⟨z, hz, e⟩ := hm
        rw [List.mem_filterMap] at hz
        obtain ⟨x', hx', hz⟩ := hz
        have ez : z.1 = x' := by
          split_ifs at hz
          · cases hz; rfl
        apply this.1
        rw [← e, ez]
        exact List.mem_map.2 ⟨x', hx', rfl⟩
  generalize nextCandidates h segs cur used = l at hall hnd
  cases l with
  | nil => rfl
  | cons m ms =>
    rw [List.map_cons]
    dsimp only
    rw [Option.map_some]
    congr 1
    have key : ∀ (ms : List ((Nat × Segment F) × F)) (m : (Nat × Segment F) × F),
        (∀ y ∈ m :: ms, MayFollow h segs cur [] y.1.1 y.1.2 ∧ y.2 = turn h cur y.1.2) → ((m :: ms).map (·.1.1)).Nodup →
        (List.foldl (fun a b => if gt a.2 b.2 = true then a else b) ((m.1.1, φ m.1.2), turn H (φ cur) (φ m.1.2))
          (ms.map (fun m => ((m.1.1, φ m.1.2), turn H (φ cur) (φ m.1.2))))).1 =
        ((List.foldl (fun a b => if gt a.2 b.2 = true then a else b) m ms).1.1,
          φ (List.foldl (fun a b => if gt a.2 b.2 = true then a else b) m ms).1.2) := by
      intro ms
      induction ms with
      | nil => intro m _ _; rfl
      | cons b ms ih =>
        intro m hall hnd
        rw [List.map_cons, List.foldl_cons, List.foldl_cons]
        have hne : m.1.1 ≠ b.1.1 := by
          intro e
          simp [e] at hnd
        have h1 := hall m (by simp)
        have h2 := hall b (by simp)
        have key := w.turns cur hc m.1.1 b.1.1 m.1.2 b.1.2 hne h1.1 h2.1
        dsimp only
        rw [key, ← h1.2, ← h2.2]
        simp only [List.map_cons, List.nodup_cons, List.mem_cons, not_or] at hnd
        by_cases hgt : gt m.2 b.2 = true
        · rw [if_pos hgt, if_pos hgt]
          exact ih m (fun y hy => hall y (by simp at hy ⊢; tauto)) (by simp only [List.map_cons, List.nodup_cons]; exact ⟨hnd.1.2, hnd.2.2⟩)
        · rw [if_neg hgt, if_neg hgt]
          exact ih b (fun y hy => hall y (by simp at hy ⊢; tauto)) (by simp only [List.map_cons, List.nodup_cons]; exact ⟨hnd.2.1, hnd.2.2⟩)
    exact key ms m hall hnd

theorem walk (w : SameWalk h H φ segs) (used : List Nat) {st : Segment F} (hst : st ∈ segs) :
    ∀ (n : Nat) (cur : Nat × Segment F) (acc : List (Nat × Segment F)), cur.2 ∈ segs →
      ringWalk H (segs.map φ) used ((φ st).getStart H) n (cur.1, φ cur.2) (acc.map (fun x => (x.1, φ x.2))) =
        (ringWalk h segs used (st.getStart h) n cur acc).map (fun l => l.map (fun x => (x.1, φ x.2))) := by
  intro n
  induction n with
  | zero => intro cur acc _; rfl
  | succ n ih =>
    intro cur acc hc
    unfold ringWalk
    dsimp only
    rw [w.meets cur.2 hc st hst, w.next hc used]
    split
    · simp
    · cases e : findNextSegment h segs cur.2 used with
      | none => rfl
      | some nxt =>
        have := ih nxt (acc ++ [cur]) (List.mem_of_getElem? (findNext_some e).1)
        rw [List.map_append] at this
        exact this

theorem loop (w : SameWalk h H φ segs) : ∀ (es : List (Nat × Segment F)) (used : List Nat) (rings : List (List (Nat × Segment F))),
    (∀ x ∈ es, x.2 ∈ segs) →
      ringLoop H (segs.map φ) (es.map (fun x => (x.1, φ x.2))) used (rings.map (fun l => l.map (fun x => (x.1, φ x.2)))) =
        ((ringLoop h segs es used rings).1, (ringLoop h segs es used rings).2.map (fun l => l.map (fun x => (x.1, φ x.2)))) := by
  intro es
  induction es with
  | nil => intro used rings _; rfl
  | cons x es ih =>
    intro used rings hm
    have hx := hm x (by simp)
    have hes : ∀ y ∈ es, y.2 ∈ segs := fun y hy => hm y (by simp [hy])
    rw [List.map_cons]
    unfold ringLoop
    dsimp only
    have hw := w.walk used hx (segs.length - 1) x [] hx
    rw [List.map_nil] at hw
    rw [List.length_map, hw]
    split
    · exact ih used rings hes
    · cases e : ringWalk h segs used (x.2.getStart h) (segs.length - 1) x [] with
      | none => exact ih used rings hes
      | some ring =>
        have := ih (used ++ ring.map (·.1)) (rings ++ [ring]) hes
        rw [List.map_append] at this
        simp only [Option.map_some]
        rw [← this]
        simp only [List.map_cons, List.map_nil, List.map_map]
        rfl

end SameWalk
end Isotope
