import Verif.SpecRing
import Mathlib.Data.List.Nodup
import Mathlib.Data.List.Perm.Subperm

/-!
# The walk that finds rings
-/

namespace Isotope
variable {F : Type} [Num F]

/-! ## `enumFrom` -/

theorem mem_enumFrom {α : Type} {l : List α} {k : Nat} {x : Nat × α} :
    x ∈ enumFrom k l ↔ ∃ i, x.1 = k + i ∧ l[i]? = some x.2 := by
  induction l generalizing k with
  | nil => simp [enumFrom]
  | cons a l ih =>
    rw [enumFrom, List.mem_cons, ih]
    constructor
    · rintro (rfl | ⟨i, h1, h2⟩)
      · exact ⟨0, by simp, by simp⟩
      · exact ⟨i + 1, by omega, by simpa using h2⟩
    · rintro ⟨i, h1, h2⟩
      cases i with
      | zero => left; simp at h1 h2; rw [← h1] at *; exact Prod.ext h1 h2.symm
      | succ i => right; exact ⟨i, by omega, by simpa using h2⟩

theorem mem_enum {α : Type} {l : List α} {x : Nat × α} : x ∈ enumFrom 0 l ↔ l[x.1]? = some x.2 := by
  rw [mem_enumFrom]
  constructor
  · rintro ⟨i, h1, h2⟩; rw [h1, Nat.zero_add]; exact h2
  · intro h; exact ⟨x.1, by simp, h⟩

theorem enumFrom_map_snd {α : Type} (l : List α) (k : Nat) : (enumFrom k l).map (·.2) = l := by
  induction l generalizing k with
  | nil => rfl
  | cons a l ih => rw [enumFrom, List.map_cons, ih]

theorem enumFrom_map_fst {α : Type} (l : List α) (k : Nat) : (enumFrom k l).map (·.1) = List.range' k l.length := by
  induction l generalizing k with
  | nil => rfl
  | cons a l ih => rw [enumFrom, List.map_cons, ih, List.length_cons, List.range'_succ]

theorem enumFrom_nodup_fst {α : Type} (l : List α) (k : Nat) : ((enumFrom k l).map (·.1)).Nodup := by
  rw [enumFrom_map_fst]; exact List.nodup_range'

theorem enumFrom_length {α : Type} (l : List α) (k : Nat) : (enumFrom k l).length = l.length := by
  rw [← List.length_map (f := (·.2)), enumFrom_map_snd]

theorem enumFrom_append {α : Type} (l l' : List α) (k : Nat) : enumFrom k (l ++ l') = enumFrom k l ++ enumFrom (k + l.length) l' := by
  induction l generalizing k with
  | nil => simp [enumFrom]
  | cons a l ih => simp [enumFrom, ih]; congr 1; omega

omit [Num F] in
theorem initSegments_eq (h : Heap F) (s : Sketch) : initSegments h s = drawn h s := by
  unfold initSegments drawn Sketch.cells
  induction s.prims with
  | nil => rfl
  | cons kp l ih =>
    obtain ⟨k, c⟩ := kp
    cases c <;> simp [segmentOf, ih]

/-! ## Deterministic walks -/

/-- a walk that follows `f` and stops at the first element with `P` -/
inductive Traj {α : Type} (f : α → Option α) (P : α → Prop) : List α → Prop
  | last {a : α} : P a → Traj f P [a]
  | step {a b : α} {l : List α} : ¬P a → f a = some b → Traj f P (b :: l) → Traj f P (a :: b :: l)

theorem Traj.unique {α : Type} {f : α → Option α} {P : α → Prop} {a : α} {l l' : List α} (h : Traj f P (a :: l))
    (h' : Traj f P (a :: l')) : l = l' := by
  induction l generalizing a l' with
  | nil =>
    cases h with
    | last hp => cases h' with
      | last _ => rfl
      | step hn _ _ => exact absurd hp hn
  | cons b l ih =>
    cases h with
    | step hn e t => cases h' with
      | last hp => exact absurd hp hn
      | step _ e' t' =>
        rw [e] at e'; cases e'
        rw [ih t t']

theorem Traj.suffix {α : Type} {f : α → Option α} {P : α → Prop} (u : List α) {a : α} {v : List α}
    (h : Traj f P (u ++ a :: v)) : Traj f P (a :: v) := by
  induction u with
  | nil => exact h
  | cons x u ih =>
    apply ih
    cases u with
    | nil => cases h with | step _ _ t => exact t
    | cons y u => cases h with | step _ _ t => exact t

theorem Traj.nodup {α : Type} {f : α → Option α} {P : α → Prop} {l : List α} (h : Traj f P l) : l.Nodup := by
  induction h with
  | last _ => simp
  | @step a b l hn e t ih =>
    refine List.nodup_cons.2 ⟨fun hm => ?_, ih⟩
    obtain ⟨u, v, huv⟩ := List.append_of_mem hm
    have t' := Traj.suffix u (huv ▸ t)
    have := Traj.unique (Traj.step hn e t) t'
    have hl := congrArg List.length this
    have hl' := congrArg List.length huv
    simp at hl hl'
    omega

theorem Traj.ne_nil {α : Type} {f : α → Option α} {P : α → Prop} {l : List α} (h : Traj f P l) : l ≠ [] := by
  cases h <;> simp

theorem Traj.isChain {α : Type} {f : α → Option α} {P : α → Prop} {l : List α} (h : Traj f P l) :
    l.IsChain (fun a b => f a = some b) := by
  induction h with
  | last _ => simp
  | step hn e t ih => exact List.IsChain.cons_cons e ih

theorem Traj.getLast {α : Type} {f : α → Option α} {P : α → Prop} {l : List α} (h : Traj f P l) :
    ∃ a, l.getLast? = some a ∧ P a := by
  induction h with
  | last hp => exact ⟨_, rfl, hp⟩
  | step hn e t ih => simpa using ih

theorem Traj.mem {α : Type} {f : α → Option α} {P Q : α → Prop} {a : α} {l : List α} (h : Traj f P (a :: l)) (ha : Q a)
    (hf : ∀ x y, f x = some y → Q y) : ∀ x ∈ a :: l, Q x := by
  induction l generalizing a with
  | nil => simpa using ha
  | cons b l ih =>
    cases h with
    | step hn e t =>
      intro x hx
      rcases List.mem_cons.1 hx with rfl | hx
      · exact ha
      · exact ih t (hf _ _ e) x hx

/-! ## `findNextSegment` -/

theorem foldl_pick_mem {α : Type} (p : α → α → Bool) (m : α) (ms : List α) :
    ms.foldl (fun a b => if p a b then a else b) m ∈ m :: ms := by
  induction ms generalizing m with
  | nil => simp
  | cons b ms ih =>
    rw [List.foldl_cons]
    split
    · rcases List.mem_cons.1 (ih m) with h | h
      · rw [h]; simp
      · exact List.mem_cons_of_mem _ (List.mem_cons_of_mem _ h)
    · exact List.mem_cons_of_mem _ (ih b)

theorem mem_nextCandidates {h : Heap F} {segs : List (Segment F)} {cur : Segment F} {used : List Nat}
    {x : (Nat × Segment F) × F} : x ∈ nextCandidates h segs cur used ↔ MayFollow h segs cur used x.1.1 x.1.2 ∧
      x.2 = turn h cur x.1.2 := by
  unfold nextCandidates MayFollow turn
  dsimp only
  rw [List.mem_filterMap]
  constructor
  · rintro ⟨is, hm, he⟩
    split at he
    · cases he
    next hu =>
      split at he
      next hc =>
        cases he
        simp only [Segment.continues, Segment.equalsOrReverseEquals, Segment.reverseEquals, Bool.and_eq_true,
          Bool.not_eq_true', Bool.or_eq_false_iff] at hc
        exact ⟨⟨mem_enum.1 hm, by simpa using hu, hc.1, hc.2.1, hc.2.2⟩, rfl⟩
      · cases he
  · rintro ⟨⟨h1, h2, h3, h4, h5⟩, h6⟩
    refine ⟨x.1, mem_enum.2 h1, ?_⟩
    rw [if_neg (by simpa using h2), if_pos (by
      simp only [Segment.continues, Segment.equalsOrReverseEquals, Segment.reverseEquals, Bool.and_eq_true,
          Bool.not_eq_true', Bool.or_eq_false_iff]
      exact ⟨h3, h4, h5⟩)]
    rw [← h6]

theorem findNext_some {h : Heap F} {segs : List (Segment F)} {cur : Segment F} {used : List Nat} {x : Nat × Segment F}
    (e : findNextSegment h segs cur used = some x) : MayFollow h segs cur used x.1 x.2 := by
  unfold findNextSegment at e
  split at e
  · cases e
  next m ms hm =>
    cases e
    have := foldl_pick_mem (fun a b : (Nat × Segment F) × F => gt a.2 b.2) m ms
    rw [← hm] at this
    exact (mem_nextCandidates.1 this).1

theorem findNext_none {h : Heap F} {segs : List (Segment F)} {cur : Segment F} {used : List Nat} :
    findNextSegment h segs cur used = none ↔ ¬∃ i sg, MayFollow h segs cur used i sg := by
  unfold findNextSegment
  constructor
  · intro e ⟨i, sg, hf⟩
    split at e
    next hm =>
      have := (mem_nextCandidates (x := ((i, sg), turn h cur sg))).2 ⟨hf, rfl⟩
      rw [hm] at this
      cases this
    · cases e
  · intro hn
    split
    · rfl
    next m ms hm =>
      exfalso
      have : m ∈ nextCandidates h segs cur used := by rw [hm]; simp
      exact hn ⟨_, _, (mem_nextCandidates.1 this).1⟩

/-! ## `ringWalk` -/

/-- `find_next_segment` as a function of the current segment -/
def nxt (h : Heap F) (segs : List (Segment F)) (used : List Nat) (x : Nat × Segment F) : Option (Nat × Segment F) :=
  findNextSegment h segs x.2 used

theorem ringWalk_traj {h : Heap F} {segs : List (Segment F)} {used : List Nat} {p : Vec2 F} (n : Nat) (cur : Nat × Segment F)
    (acc ring : List (Nat × Segment F)) (e : ringWalk h segs used p n cur acc = some ring) :
    ∃ l, ring = acc ++ cur :: l ∧ l.length < n ∧
      Traj (nxt h segs used) (fun x => (x.2.getEnd h).beq p = true) (cur :: l) := by
  induction n generalizing cur acc with
  | zero => cases e
  | succ n ih =>
    unfold ringWalk at e
    dsimp only at e
    split at e
    next hb => cases e; exact ⟨[], rfl, by simp, .last hb⟩
    next hb =>
      split at e
      · cases e
      next nx en =>
        obtain ⟨l, h1, h2, h3⟩ := ih nx _ e
        exact ⟨nx :: l, by rw [h1]; simp, by simpa using h2, .step (by simpa using hb) en h3⟩

theorem traj_ringWalk {h : Heap F} {segs : List (Segment F)} {used : List Nat} {p : Vec2 F} (n : Nat) (cur : Nat × Segment F)
    (acc l : List (Nat × Segment F)) (hl : l.length < n)
    (t : Traj (nxt h segs used) (fun x => (x.2.getEnd h).beq p = true) (cur :: l)) :
    ringWalk h segs used p n cur acc = some (acc ++ cur :: l) := by
  induction n generalizing cur acc l with
  | zero => simp at hl
  | succ n ih =>
    unfold ringWalk
    dsimp only
    cases t with
    | last hb => rw [if_pos hb]
    | @step _ b l hn e t =>
      rw [if_neg (by simpa using hn)]
      have e' : findNextSegment h segs cur.2 used = some b := e
      rw [e']
      dsimp only
      rw [ih b _ l (by simpa using hl) t]
      simp

/-- what is known of one traced ring -/
structure RingOk (h : Heap F) (segs : List (Segment F)) (ring : List (Nat × Segment F)) : Prop where
  ne : ring ≠ []
  mem : ∀ x ∈ ring, segs[x.1]? = some x.2
  nodup : (ring.map (·.1)).Nodup
  chain : ring.IsChain (fun a b => (a.2.getEnd h).beq (b.2.getStart h) = true)
  closed : ∃ a b, ring.head? = some a ∧ ring.getLast? = some b ∧ (b.2.getEnd h).beq (a.2.getStart h) = true
  noback : ring.IsChain (fun a b => b.2.beq h a.2 = false ∧ b.2.beq h a.2.reverse = false)

omit [Num F] in
theorem nodup_fst_of {segs : List (Segment F)} {l : List (Nat × Segment F)} (hn : l.Nodup)
    (hm : ∀ x ∈ l, segs[x.1]? = some x.2) : (l.map (·.1)).Nodup := by
  rw [List.nodup_map_iff_inj_on hn]
  intro x hx y hy e
  have h1 := hm x hx
  have h2 := hm y hy
  rw [e, h2] at h1
  exact Prod.ext e (Option.some.inj h1).symm

theorem ringWalk_ok {h : Heap F} {segs : List (Segment F)} {used : List Nat} {n : Nat} {cur : Nat × Segment F}
    {ring : List (Nat × Segment F)} (hc : segs[cur.1]? = some cur.2) (hu : cur.1 ∉ used)
    (e : ringWalk h segs used (cur.2.getStart h) n cur [] = some ring) :
    RingOk h segs ring ∧ (∀ x ∈ ring, x.1 ∉ used) ∧ ∃ l, ring = cur :: l := by
  obtain ⟨l, h1, -, t⟩ := ringWalk_traj n cur [] ring e
  rw [List.nil_append] at h1
  subst h1
  have hm : ∀ x ∈ cur :: l, segs[x.1]? = some x.2 ∧ x.1 ∉ used :=
    t.mem ⟨hc, hu⟩ fun x y exy => ⟨(findNext_some exy).1, (findNext_some exy).2.1⟩
  refine ⟨⟨t.ne_nil, fun x hx => (hm x hx).1, nodup_fst_of t.nodup fun x hx => (hm x hx).1, ?_, ?_, ?_⟩, fun x hx => (hm x hx).2,
    l, rfl⟩
  · exact t.isChain.imp fun a b hab => (findNext_some hab).2.2.1
  · obtain ⟨b, hb, hp⟩ := t.getLast
    exact ⟨cur, b, rfl, hb, hp⟩
  · exact t.isChain.imp fun a b hab => (findNext_some hab).2.2.2

/-! ## `ringLoop` -/

theorem ringLoop_ok {h : Heap F} {segs : List (Segment F)} (todo : List (Nat × Segment F)) (used : List Nat)
    (rings : List (List (Nat × Segment F))) (ht : ∀ x ∈ todo, segs[x.1]? = some x.2)
    (hu : used = rings.flatten.map (·.1)) (hn : used.Nodup) (hr : ∀ r ∈ rings, RingOk h segs r) :
    (ringLoop h segs todo used rings).1 = (ringLoop h segs todo used rings).2.flatten.map (·.1) ∧
    (ringLoop h segs todo used rings).1.Nodup ∧ (∀ r ∈ (ringLoop h segs todo used rings).2, RingOk h segs r) ∧
    ∃ more, (ringLoop h segs todo used rings).2 = rings ++ more := by
  induction todo generalizing used rings with
  | nil => exact ⟨hu, hn, hr, [], by simp [ringLoop]⟩
  | cons is rest ih =>
    unfold ringLoop
    split
    · exact ih _ _ (fun x hx => ht x (List.mem_cons_of_mem _ hx)) hu hn hr
    next hc =>
      split
      · exact ih _ _ (fun x hx => ht x (List.mem_cons_of_mem _ hx)) hu hn hr
      next ring e =>
        obtain ⟨h1, h2, -⟩ := ringWalk_ok (ht is (by simp)) (by simpa using hc) e
        obtain ⟨i1, i2, i3, more, i4⟩ := ih (used ++ ring.map (·.1)) (rings ++ [ring])
          (fun x hx => ht x (List.mem_cons_of_mem _ hx)) (by rw [hu]; simp) (by
            rw [List.nodup_append]
            refine ⟨hn, h1.nodup, ?_⟩
            intro a ha b hb
            obtain ⟨x, hx, rfl⟩ := List.mem_map.1 hb
            exact fun hh => h2 x hx (hh ▸ ha)) (by
            intro r hr'
            rcases List.mem_append.1 hr' with h' | h'
            · exact hr r h'
            · rw [List.mem_singleton.1 h']; exact h1)
        exact ⟨i1, i2, i3, ring :: more, by rw [i4]; simp⟩

theorem tracedRings_ok (h : Heap F) (s : Sketch) :
    (tracedRings h s).1 = (tracedRings h s).2.flatten.map (·.1) ∧ (tracedRings h s).1.Nodup ∧
    ∀ r ∈ (tracedRings h s).2, RingOk h (allSegments h s) r := by
  obtain ⟨h1, h2, h3, -⟩ := ringLoop_ok (h := h) (segs := allSegments h s) (enumFrom 0 (allSegments h s)) [] []
    (fun x hx => mem_enum.1 hx) rfl (by simp) (by simp)
  exact ⟨h1, h2, h3⟩

/-- the directed segments used by the traced rings, as a part of all directed segments -/
theorem traced_subperm (h : Heap F) (s : Sketch) :
    ((tracedRings h s).2.flatten.map (·.2)).Subperm (allSegments h s) := by
  obtain ⟨h1, h2, h3⟩ := tracedRings_ok h s
  have hn : (tracedRings h s).2.flatten.Nodup := by rw [h1] at h2; exact h2.of_map
  have hm : (tracedRings h s).2.flatten ⊆ enumFrom 0 (allSegments h s) := by
    intro x hx
    obtain ⟨r, hr, hxr⟩ := List.mem_flatten.1 hx
    exact mem_enum.2 ((h3 r hr).mem x hxr)
  obtain ⟨l, hp, hs⟩ := List.subperm_of_subset hn hm
  have hs' := hs.map (·.2)
  rw [enumFrom_map_snd] at hs'
  exact ⟨l.map (·.2), hp.map _, hs'⟩

end Isotope
