import Verif.Lemmas.Hist

/-!
# Ids, membership, references, counts: C01 – C11 and C56

All theorems of this file hold for any arithmetic (`Num F` without laws), so also for IEEE doubles.  Histories are lists of
calls from program start; `stateAt pinv ops t` is the state after `t` calls, `Ran pinv ops t op out` says that the `t`-th
call was `op` and returned `out`.
-/

set_option linter.unusedSectionVars false

namespace Isotope
variable {F : Type} [Num F]

/-! ## C01 -/

/-- **C01.** Ids returned by `add_primitive` are strictly increasing, whatever happens in between. -/
theorem C01_ids_increase (pinv : PInv F) (ops : List (Op F)) (hlen : ops.length < 2 ^ 64)
    (i j : Nat) (hij : i < j) (opi opj : Op F) (m n : Nat)
    (hi : Ran pinv ops i opi (.id m)) (hj : Ran pinv ops j opj (.id n)) : m < n := by
  have hi' := ran_id pinv ops hlen i opi m hi
  have hj' := ran_id pinv ops hlen j opj n hj
  have hadd := addedList_take_succ pinv ops i opi _ hi
  obtain ⟨l, hl⟩ := addedList_prefix (logOf pinv ops) (i := i + 1) (j := j) hij
  have hsome : ∃ p, added opi (.id m : Out F) = some p := by
    have K := (step_kind pinv (stateAt pinv ops i) opi).1
    rw [ran_step pinv ops i opi _ hi] at K
    cases K with
    | same _ _ ho => exact absurd rfl (ho m)
    | add p ha => exact ⟨p, ha⟩
    | delete _ _ _ ho => exact absurd rfl (ho m)
  obtain ⟨p, hp⟩ := hsome
  rw [hp] at hadd
  rw [hi', hj', hl, hadd]
  simp only [Option.toList_some, List.length_append, List.length_singleton]
  omega

/-- **C01.** An id that enters the sketch at some call (by `add_primitive`, `add_point2`, `add_line` or `add_arc`) was never
in the sketch before, for any primitive. -/
theorem C01_new_id_never_used (pinv : PInv F) (ops : List (Op F)) (hlen : ops.length < 2 ^ 64)
    (t i : Nat) (hi : i ≤ t) (n : Nat) (p q : PrimCell)
    (hnew : (n, p) ∈ (stateAt pinv ops (t + 1)).sketch.prims) (hold : (n, p) ∉ (stateAt pinv ops t).sketch.prims) :
    (n, q) ∉ (stateAt pinv ops i).sketch.prims := by
  have I1 := ((Inv.at pinv ops hlen (t + 1)).mem n p).1 hnew
  have I0 := (Inv.at pinv ops hlen t).mem n p
  have hdel : n ∉ deletedList ((logOf pinv ops).take t) := by
    intro h
    apply I1.2
    unfold deletedList at *
    rw [List.take_add_one, List.filterMap_append]
    exact List.mem_append_left _ h
  have hno : ¬ (addedList ((logOf pinv ops).take t))[n]? = some p := fun h => hold (I0.2 ⟨h, hdel⟩)
  obtain ⟨l, hl⟩ := addedList_prefix (logOf pinv ops) (i := t) (j := t + 1) (by omega)
  have hge : (addedList ((logOf pinv ops).take t)).length ≤ n := by
    by_contra hc
    apply hno
    have := I1.1
    rwa [hl, List.getElem?_append_left (by omega)] at this
  obtain ⟨l', hl'⟩ := addedList_prefix (logOf pinv ops) hi
  intro hq
  have := ((Inv.at pinv ops hlen i).mem n q).1 hq
  have := (List.getElem?_eq_some_iff.1 this.1).1
  rw [hl', List.length_append] at hge
  omega

/-- **C01.** The id returned by `add_primitive` was never in the sketch before and now holds the primitive. -/
theorem C01_returned_id (pinv : PInv F) (ops : List (Op F)) (hlen : ops.length < 2 ^ 64)
    (t : Nat) (p : PrimCell) (n : Nat) (h : Ran pinv ops t (.addPrimitive p) (.id n)) :
    (n, p) ∈ (stateAt pinv ops (t + 1)).sketch.prims ∧
    ∀ i, i ≤ t → ∀ q, (n, q) ∉ (stateAt pinv ops i).sketch.prims := by
  have hid := ran_id pinv ops hlen t _ n h
  have I := Inv.at pinv ops hlen t
  have K := (step_kind pinv (stateAt pinv ops t) (.addPrimitive p)).1
  rw [ran_step pinv ops t _ _ h] at K
  have hmem : (n, p) ∈ (stateAt pinv ops (t + 1)).sketch.prims := by
    cases K with
    | same _ _ ho => exact absurd rfl (ho n)
    | add q ha hd ho hl hf hr hs =>
      simp only [added, Option.some.injEq] at ha
      subst ha
      simp only at hs
      rw [hs]
      simp only
      rw [mapInsert_last fun x hx => I.key_lt hx, I.next, ← hid]
      simp
    | delete _ _ _ ho => exact absurd rfl (ho n)
  refine ⟨hmem, fun i hi q => C01_new_id_never_used pinv ops hlen t i hi n p q hmem ?_⟩
  intro h'
  have := (I.mem n p).1 h'
  have := (List.getElem?_eq_some_iff.1 this.1).1
  omega

/-- a history in which an id is freed and the next id is nevertheless new -/
def c01Ops : List (Op F) :=
  [.newPoint 1.0 2.0, .addPrimitive (.point 0), .addPrimitive (.point 0), .deletePrimitive 0, .addPrimitive (.point 0)]

example (pinv : PInv F) : Ran pinv c01Ops 1 (.addPrimitive (.point 0)) (.id 0) ∧
    Ran pinv c01Ops 2 (.addPrimitive (.point 0)) (.err .primitiveAlreadyInSketch) ∧
    Ran pinv c01Ops 4 (.addPrimitive (.point 0)) (.id 1) := by unfold c01Ops; eval_run

/-! ## C02 -/

/-- **C02.** `add_primitive` returns Ok iff every referenced primitive is in the sketch and the primitive is not. -/
theorem C02_ok_iff (h : Heap F) (s : Sketch) (p : PrimCell) :
    (∃ id, (s.addPrimitive h p).1 = .ok id) ↔ (∀ r ∈ primFields h p, r ∈ s.cells) ∧ p ∉ s.cells := by
  rcases addPrimitive_cases h s p with ⟨⟨r, h1, h2⟩, e⟩ | ⟨h1, h2, e⟩ | ⟨h1, h2, e⟩ <;> rw [e]
  · simp only [reduceCtorEq, exists_false, false_iff, not_and]
    exact fun h' => absurd (h' r h1) h2
  · simp only [reduceCtorEq, exists_false, false_iff, not_and, not_not]
    exact fun _ => h2
  · exact ⟨fun _ => ⟨h1, h2⟩, fun _ => ⟨_, rfl⟩⟩

/-- **C02.** Missing references are reported first; otherwise a duplicate is reported; on error nothing changes. -/
theorem C02_errors (h : Heap F) (s : Sketch) (p : PrimCell) :
    ((∃ r ∈ primFields h p, r ∉ s.cells) → s.addPrimitive h p = (.error .missingSketchReferences, s)) ∧
    ((∀ r ∈ primFields h p, r ∈ s.cells) → p ∈ s.cells → s.addPrimitive h p = (.error .primitiveAlreadyInSketch, s)) := by
  rcases addPrimitive_cases h s p with ⟨⟨r, h1, h2⟩, e⟩ | ⟨h1, h2, e⟩ | ⟨h1, h2, e⟩
  · exact ⟨fun _ => e, fun h' => absurd (h' r h1) h2⟩
  · exact ⟨fun ⟨r, h3, h4⟩ => absurd (h1 r h3) h4, fun _ _ => e⟩
  · exact ⟨fun ⟨r, h3, h4⟩ => absurd (h1 r h3) h4, fun _ h' => absurd h' h2⟩

/-- **C02.** On Ok exactly one entry, the returned id with the primitive, is added (at any state reached by a history);
constraints stay. -/
theorem C02_ok_effect (pinv : PInv F) (ops : List (Op F)) (hlen : ops.length + 1 < 2 ^ 64) (h : Heap F) (p : PrimCell) (id : Nat)
    (s' : Sketch) (hok : (run pinv World.init ops).2.sketch.addPrimitive h p = (.ok id, s')) :
    s'.prims = (run pinv World.init ops).2.sketch.prims ++ [(id, p)] ∧
    s'.cons = (run pinv World.init ops).2.sketch.cons := by
  have I := Inv.run pinv ops (by unfold u64Size; omega)
  have hn := addedList_length_le (logOf pinv ops)
  rw [logOf_length] at hn
  rcases addPrimitive_cases h (run pinv World.init ops).2.sketch p with ⟨_, e⟩ | ⟨_, _, e⟩ | ⟨_, _, e⟩
  · rw [e] at hok; cases hok
  · rw [e] at hok; cases hok
  · rw [e, mapInsert_last fun x hx => I.key_lt hx] at hok
    simp only [Prod.mk.injEq, Except.ok.injEq] at hok
    rw [I.next, id_of_next (by unfold u64Size; omega), ← I.next] at hok
    obtain ⟨rfl, rfl⟩ := hok
    exact ⟨rfl, rfl⟩

/-- add a point, then a line on it: Ok, and a line on a missing point: not Ok -/
example (pinv : PInv F) :
    (run pinv (World.init : World F) [.addPoint2 0.0 0.0, .newPoint 1.0 1.0, .newLine 0 0, .newLine 0 1,
      .addPrimitive (.line 0), .addPrimitive (.line 1)]).1 =
    [.addr 0, .addr 1, .addr 0, .addr 1, .id 1, .err .missingSketchReferences] := by eval_run

/-! ## C03 -/

theorem addedList_get (pinv : PInv F) (ops : List (Op F)) (t id : Nat) (p : PrimCell) :
    (addedList ((logOf pinv ops).take t))[id]? = some p ↔
      ∃ j, j < t ∧ ∃ op out, Ran pinv ops j op out ∧ added op out = some p ∧
        (addedList ((logOf pinv ops).take j)).length = id := by
  induction t with
  | zero => simp [addedList]
  | succ t ih =>
    rw [List.take_add_one]
    cases hl : (logOf pinv ops)[t]? with
    | none =>
      simp only [Option.toList_none, List.append_nil, ih]
      constructor
      · rintro ⟨j, hj, x⟩; exact ⟨j, by omega, x⟩
      · rintro ⟨j, hj, op, out, hr, x⟩
        have h1 := (ran_iff_log pinv ops j op out).1 hr
        have h2 := (List.getElem?_eq_some_iff.1 h1).1
        have h3 := List.getElem?_eq_none_iff.1 hl
        exact ⟨j, by omega, op, out, hr, x⟩
    | some x =>
      obtain ⟨op, out⟩ := x
      have hr := (ran_iff_log pinv ops t op out).2 hl
      simp only [Option.toList_some, addedList_snoc]
      rw [List.getElem?_append]
      constructor
      · intro h
        split at h
        · obtain ⟨j, hj, x⟩ := ih.1 h; exact ⟨j, by omega, x⟩
        · cases ha : added op out with
          | none => simp [ha] at h
          | some q =>
            rw [ha] at h
            obtain ⟨h3, h4⟩ := List.getElem?_eq_some_iff.1 h
            simp only [Option.toList_some, List.length_singleton] at h3
            refine ⟨t, by omega, op, out, hr, ?_, by omega⟩
            rw [ha, ← h4]; simp
      · rintro ⟨j, hj, op', out', hr', ha, hlen⟩
        by_cases hjt : j = t
        · subst hjt
          have := (ran_iff_log pinv ops j op' out').1 hr'
          rw [hl] at this
          simp only [Option.some.injEq, Prod.mk.injEq] at this
          obtain ⟨rfl, rfl⟩ := this
          rw [if_neg (by omega), ha, hlen]; simp
        · have := ih.2 ⟨j, by omega, op', out', hr', ha, hlen⟩
          rw [if_pos (List.getElem?_eq_some_iff.1 this).1]; exact this

theorem mem_deletedList (pinv : PInv F) (ops : List (Op F)) (t id : Nat) :
    id ∈ deletedList ((logOf pinv ops).take t) ↔ ∃ k, k < t ∧ Ran pinv ops k (.deletePrimitive id) .unit := by
  unfold deletedList
  rw [List.mem_filterMap]
  constructor
  · rintro ⟨⟨op, out⟩, hm, hd⟩
    obtain ⟨k, hk⟩ := List.mem_iff_getElem?.1 hm
    have hkt : k < t := by
      have := (List.getElem?_eq_some_iff.1 hk).1
      rw [List.length_take] at this; omega
    rw [List.getElem?_take_of_lt hkt] at hk
    have hdel : op = .deletePrimitive id ∧ out = .unit := by
      cases op <;> cases out <;> simp_all [deleted]
    refine ⟨k, hkt, ?_⟩
    rw [hdel.1, hdel.2] at hk
    exact (ran_iff_log pinv ops k _ _).2 hk
  · rintro ⟨k, hk, hr⟩
    refine ⟨(.deletePrimitive id, .unit), ?_, rfl⟩
    have := (ran_iff_log pinv ops k _ _).1 hr
    exact List.mem_iff_getElem?.2 ⟨k, by rw [List.getElem?_take_of_lt hk]; exact this⟩

/-- **C03.** At every moment `get_primitive_by_id(id)` is the primitive of the call that added it (the call before which
`id` primitives had been added), provided no `delete_primitive(id)` has succeeded since; and nothing else. -/
theorem C03_lookup_iff (pinv : PInv F) (ops : List (Op F)) (hlen : ops.length < 2 ^ 64) (t id : Nat) (p : PrimCell) :
    (stateAt pinv ops t).sketch.getPrimitiveById id = some p ↔
      ∃ j, j < t ∧ ∃ op out, Ran pinv ops j op out ∧ added op out = some p ∧
        (addedList ((logOf pinv ops).take j)).length = id ∧
        ∀ k, j < k → k < t → ¬ Ran pinv ops k (.deletePrimitive id) .unit := by
  have I := Inv.at pinv ops hlen t
  unfold Sketch.getPrimitiveById
  rw [mapGet_eq_some I.sorted, I.mem, addedList_get, mem_deletedList]
  constructor
  · rintro ⟨⟨j, hj, op, out, h1, h2, h3⟩, h4⟩
    exact ⟨j, hj, op, out, h1, h2, h3, fun k _ hk hr => h4 ⟨k, hk, hr⟩⟩
  · rintro ⟨j, hj, op, out, h1, h2, h3, h4⟩
    refine ⟨⟨j, hj, op, out, h1, h2, h3⟩, ?_⟩
    rintro ⟨k, hk, hr⟩
    by_cases hjk : j < k
    · exact h4 k hjk hk hr
    · -- a delete at or before the add: the id was not yet there
      have hd : id ∈ deletedList ((logOf pinv ops).take (j + 1)) := (mem_deletedList pinv ops (j + 1) id).2 ⟨k, by omega, hr⟩
      by_cases hkj : k = j
      · subst hkj
        have e1 := (ran_iff_log pinv ops k _ _).1 hr
        rw [(ran_iff_log pinv ops k _ _).1 h1] at e1
        simp only [Option.some.injEq, Prod.mk.injEq] at e1
        rw [e1.1, e1.2] at h2; cases h2
      · have hd : id ∈ deletedList ((logOf pinv ops).take j) := (mem_deletedList pinv ops j id).2 ⟨k, by omega, hr⟩
        have := (Inv.at pinv ops hlen j).delLt id hd
        omega

/-- **C03.** The primitive whose `add_primitive` call returned `id` is found under `id` until `delete_primitive(id)`
succeeds. -/
theorem C03_found (pinv : PInv F) (ops : List (Op F)) (hlen : ops.length < 2 ^ 64) (j t id : Nat) (p : PrimCell)
    (hadd : Ran pinv ops j (.addPrimitive p) (.id id)) (ht : j < t)
    (hdel : ∀ k, j < k → k < t → ¬ Ran pinv ops k (.deletePrimitive id) .unit) :
    (stateAt pinv ops t).sketch.getPrimitiveById id = some p :=
  (C03_lookup_iff pinv ops hlen t id p).2 ⟨j, ht, _, _, hadd, rfl, (ran_id pinv ops hlen j _ id hadd).symm, hdel⟩

/-- **C03.** Before the call that returned `id`, `id` finds nothing. -/
theorem C03_not_before (pinv : PInv F) (ops : List (Op F)) (hlen : ops.length < 2 ^ 64) (j t id : Nat) (p : PrimCell)
    (hadd : Ran pinv ops j (.addPrimitive p) (.id id)) (ht : t ≤ j) :
    (stateAt pinv ops t).sketch.getPrimitiveById id = none :=
  mapGet_eq_none.2 fun q => (C01_returned_id pinv ops hlen j p id hadd).2 t ht q

/-- **C03.** Once `delete_primitive(id)` has succeeded, `id` finds nothing for ever. -/
theorem C03_deleted (pinv : PInv F) (ops : List (Op F)) (hlen : ops.length < 2 ^ 64) (k t id : Nat)
    (hdel : Ran pinv ops k (.deletePrimitive id) .unit) (ht : k < t) :
    (stateAt pinv ops t).sketch.getPrimitiveById id = none := by
  have I := Inv.at pinv ops hlen t
  refine mapGet_eq_none.2 fun q hq => ?_
  exact ((I.mem id q).1 hq).2 ((mem_deletedList pinv ops t id).2 ⟨k, ht, hdel⟩)

example (pinv : PInv F) : Ran pinv c01Ops 1 (.addPrimitive (.point 0)) (.id 0) ∧
    (stateAt pinv (c01Ops : List (Op F)) 3).sketch.getPrimitiveById 0 = some (.point 0) ∧
    Ran pinv c01Ops 3 (.deletePrimitive 0) .unit ∧
    (stateAt pinv (c01Ops : List (Op F)) 5).sketch.getPrimitiveById 0 = none ∧
    (stateAt pinv (c01Ops : List (Op F)) 5).sketch.getPrimitiveById 1 = some (.point 0) := by unfold c01Ops; eval_run

/-! ## C04, C05 -/

/-- **C04.** `get_primitive_id` and `get_primitive_by_id` are inverse to each other in every reachable state. -/
theorem C04_inverse (pinv : PInv F) (ops : List (Op F)) (hlen : ops.length < 2 ^ 64) (t : Nat) (p : PrimCell) (i : Nat) :
    (stateAt pinv ops t).sketch.getPrimitiveId p = some i ↔ (stateAt pinv ops t).sketch.getPrimitiveById i = some p := by
  have I := Inv.at pinv ops hlen t
  unfold Sketch.getPrimitiveById Sketch.getPrimitiveId
  rw [mapGet_eq_some I.sorted]
  have hn : ((stateAt pinv ops t).sketch.prims.map (·.2)).Nodup := I.cellsNodup
  clear I
  generalize (stateAt pinv ops t).sketch.prims = l at hn
  induction l with
  | nil => simp
  | cons x l ih =>
    obtain ⟨k, q⟩ := x
    simp only [List.map_cons, List.nodup_cons, List.mem_map, not_exists, not_and] at hn
    rw [List.find?_cons]
    by_cases e : p = q
    · subst e
      simp only [decide_true, Option.map_some, Option.some.injEq, List.mem_cons, Prod.mk.injEq]
      exact ⟨fun h => .inl ⟨h.symm, trivial⟩, fun h => h.elim (fun h => h.1.symm) fun h => absurd rfl (hn.1 _ h)⟩
    · simp only [e, decide_false, ih hn.2, List.mem_cons, Prod.mk.injEq]
      exact ⟨.inr, fun h => h.elim (fun h => h.2.elim) id⟩

/-- **C04.** Hence one id per primitive and one primitive per id. -/
theorem C04_unique (pinv : PInv F) (ops : List (Op F)) (hlen : ops.length < 2 ^ 64) (t : Nat) (p q : PrimCell) (i j : Nat)
    (hp : (i, p) ∈ (stateAt pinv ops t).sketch.prims) (hq : (j, q) ∈ (stateAt pinv ops t).sketch.prims) :
    i = j ↔ p = q := by
  have I := Inv.at pinv ops hlen t
  have e1 := (mapGet_eq_some I.sorted).2 hp
  have e2 := (mapGet_eq_some I.sorted).2 hq
  have f1 := (C04_inverse pinv ops hlen t p i).2 e1
  have f2 := (C04_inverse pinv ops hlen t q j).2 e2
  constructor
  · rintro rfl; rw [e1] at e2; exact Option.some.inj e2
  · rintro rfl; rw [f1] at f2; exact Option.some.inj f2

/-- **C05.** No primitive is in the sketch under two ids and no constraint twice. -/
theorem C05_no_duplicates (pinv : PInv F) (ops : List (Op F)) (hlen : ops.length < 2 ^ 64) (t : Nat) :
    (stateAt pinv ops t).sketch.cells.Nodup ∧ (stateAt pinv ops t).sketch.cons.Nodup :=
  ⟨(Inv.at pinv ops hlen t).cellsNodup, (Inv.at pinv ops hlen t).consNodup⟩

/-- two points, a line, and an attempt to add everything again -/
example (pinv : PInv F) :
    let w := (run pinv (World.init : World F) [.addPoint2 0.0 0.0, .addPoint2 1.0 0.0, .addLine 0 1, .newCons (.horizLine 0),
      .addConstraint 0, .addConstraint 0, .addPrimitive (.line 0), .addPrimitive (.point 1)]).2
    w.sketch.prims = [(0, .point 0), (1, .point 1), (2, .line 0)] ∧ w.sketch.cons = [0] ∧
      w.sketch.getPrimitiveId (.point 1) = some 1 := by eval_run

/-! ## C06 -/

/-- A call that cannot break closure: an assignment that leaves the object's references inside the sketch (or concerns an
object outside it), or the deletion of a primitive nothing in the sketch refers to.  All other calls qualify. -/
def KeepsClosed (w : World F) : Op F → Prop
  | .writeLine a l => .line a ∈ w.sketch.cells → .point l.start ∈ w.sketch.cells ∧ .point l.stop ∈ w.sketch.cells
  | .writeArc a x => .arc a ∈ w.sketch.cells → .point x.center ∈ w.sketch.cells
  | .writeCircle a x => .circle a ∈ w.sketch.cells → .point x.center ∈ w.sketch.cells
  | .writeCons a c => a ∈ w.sketch.cons → ∀ r ∈ consFields c, r ∈ w.sketch.cells
  | .deletePrimitive id => ∀ p, w.sketch.getPrimitiveById id = some p →
      (∀ c ∈ w.sketch.cells, p ∉ primFields w.heap c) ∧ ∀ k ∈ w.sketch.cons, p ∉ consFields (w.heap.cons k)
  | _ => True

theorem closed_keep {w w' : World F} {log : List (Op F × Out F)} (I : Inv log w) (hc : Closed w)
    (hk : KeepRefs w.heap w'.heap) (hs : w'.sketch.prims = w.sketch.prims)
    (hcons : ∀ k ∈ w'.sketch.cons, k ∈ w.sketch.cons ∨ ∀ r ∈ consFields (w'.heap.cons k), r ∈ w.sketch.cells) : Closed w' := by
  have hcells : w'.sketch.cells = w.sketch.cells := by unfold Sketch.cells; rw [hs]
  refine ⟨fun c hc' r hr => ?_, fun k hk' r hr => ?_⟩
  · rw [hcells] at hc' ⊢
    rw [hk.1 c (I.cellsLive c hc')] at hr
    exact hc.1 c hc' r hr
  · rw [hcells]
    rcases hcons k hk' with h | h
    · rw [hk.2 k (I.consLive k h)] at hr; exact hc.2 k h r hr
    · exact h r hr

theorem Closed.step {w : World F} {log : List (Op F × Out F)} (I : Inv log w) (hc : Closed w) (pinv : PInv F) (op : Op F)
    (hop : KeepsClosed w op) : Closed (step pinv w op).2 := by
  by_cases hw : op.isRefWrite = true
  · -- assignments
    cases hl : op.live w with
    | false => unfold Isotope.step; simp only [hl, Bool.not_false, if_true]; exact hc
    | true =>
      cases op with
      | writeLine a l =>
        have e : (Isotope.step pinv w (.writeLine a l)).2 = ⟨w.heap.setLine a l, w.sketch⟩ := by
          unfold Isotope.step; simp [hl]
        rw [e]
        refine ⟨fun c hc' r hr => ?_, hc.2⟩
        by_cases hca : c = .line a
        · subst hca
          have := hop hc'
          simp only [primFields, Heap.setLine, upd, if_true, List.mem_cons, List.not_mem_nil, or_false] at hr
          rcases hr with rfl | rfl
          · exact this.1
          · exact this.2
        · refine hc.1 c hc' r ?_
          cases c with
          | line b =>
            have hb : b ≠ a := fun h => hca (by rw [h])
            simpa [primFields, Heap.setLine, upd, hb] using hr
          | _ => exact hr
      | writeArc a x =>
        have e : (Isotope.step pinv w (.writeArc a x)).2 = ⟨w.heap.setArc a x, w.sketch⟩ := by
          unfold Isotope.step; simp [hl]
        rw [e]
        refine ⟨fun c hc' r hr => ?_, hc.2⟩
        by_cases hca : c = .arc a
        · subst hca
          have := hop hc'
          simp only [primFields, Heap.setArc, upd, if_true, List.mem_cons, List.not_mem_nil, or_false] at hr
          rw [hr]; exact this
        · refine hc.1 c hc' r ?_
          cases c with
          | arc b =>
            have hb : b ≠ a := fun h => hca (by rw [h])
            simpa [primFields, Heap.setArc, upd, hb] using hr
          | _ => exact hr
      | writeCircle a x =>
        have e : (Isotope.step pinv w (.writeCircle a x)).2 = ⟨w.heap.setCircle a x, w.sketch⟩ := by
          unfold Isotope.step; simp [hl]
        rw [e]
        refine ⟨fun c hc' r hr => ?_, hc.2⟩
        by_cases hca : c = .circle a
        · subst hca
          have := hop hc'
          simp only [primFields, Heap.setCircle, upd, if_true, List.mem_cons, List.not_mem_nil, or_false] at hr
          rw [hr]; exact this
        · refine hc.1 c hc' r ?_
          cases c with
          | circle b =>
            have hb : b ≠ a := fun h => hca (by rw [h])
            simpa [primFields, Heap.setCircle, upd, hb] using hr
          | _ => exact hr
      | writeCons a x =>
        have e : (Isotope.step pinv w (.writeCons a x)).2 = ⟨w.heap.setCons a x, w.sketch⟩ := by
          unfold Isotope.step; simp [hl]
        rw [e]
        refine ⟨fun c hc' r hr => hc.1 c hc' r (by cases c <;> exact hr), fun k hk r hr => ?_⟩
        by_cases hka : k = a
        · subst hka
          have := hop hk
          simp only [Heap.setCons, upd, if_true] at hr
          exact this r hr
        · refine hc.2 k hk r ?_
          simpa [Heap.setCons, upd, hka] using hr
      | _ => cases hw
  · obtain ⟨K, G, R⟩ := step_kind pinv w op
    have R := R (by simpa using hw)
    generalize (Isotope.step pinv w op).1 = out at *
    generalize (Isotope.step pinv w op).2 = w' at *
    cases K with
    | same ha hd ho hp hn hcc =>
      refine closed_keep I hc R hp fun k hk => ?_
      rcases hcc with h | ⟨j, _, _, h3, h4⟩ | ⟨j, _, h⟩
      · rw [h] at hk; exact .inl hk
      · rw [h3] at hk
        rcases List.mem_append.1 hk with hk | hk
        · exact .inl hk
        · rw [List.mem_singleton] at hk; subst hk; exact .inr h4
      · rw [h] at hk; exact .inl (List.mem_filter.1 hk).1
    | add p ha hd ho hl hf hr hs =>
      have hcells : w'.sketch.cells = w.sketch.cells ++ [p] := by
        unfold Sketch.cells; rw [hs]
        simp only [mapInsert_last fun x hx => I.key_lt hx, List.map_append, List.map_cons, List.map_nil]
      refine ⟨fun c hc' r hr' => ?_, fun k hk r hr' => ?_⟩
      · rw [hcells] at hc' ⊢
        rcases List.mem_append.1 hc' with h | h
        · rw [R.1 c (I.cellsLive c h)] at hr'
          exact List.mem_append_left _ (hc.1 c h r hr')
        · rw [List.mem_singleton] at h; subst h
          exact List.mem_append_left _ (hr r hr')
      · rw [hcells]
        rw [hs] at hk
        rw [R.2 k (I.consLive k hk)] at hr'
        exact List.mem_append_left _ (hc.2 k hk r hr')
    | delete id ha hd ho v hop' hg hh hs =>
      subst hop'
      have hop := hop v hg
      obtain ⟨a, b, e1, e2, _⟩ := mapRemove_split hg
      have hcells : w.sketch.cells = a.map (·.2) ++ v :: b.map (·.2) := by
        unfold Sketch.cells; rw [e1]; simp
      have hcells' : w'.sketch.cells = a.map (·.2) ++ b.map (·.2) := by
        unfold Sketch.cells; rw [hs]; simp only [e2]; simp
      have hsub : ∀ r, r ∈ w'.sketch.cells ↔ r ∈ w.sketch.cells ∧ r ≠ v := by
        intro r
        have hnd := I.cellsNodup
        rw [hcells] at hnd
        rw [hcells, hcells']
        simp only [List.mem_append, List.mem_cons]
        rw [List.nodup_append, List.nodup_cons] at hnd
        constructor
        · intro h
          refine ⟨h.elim .inl fun h => .inr (.inr h), ?_⟩
          rintro rfl
          rcases h with h | h
          · exact hnd.2.2 _ h _ (List.mem_cons_self) rfl
          · exact hnd.2.1.1 h
        · rintro ⟨h1 | h1 | h1, h2⟩
          · exact .inl h1
          · exact absurd h1 h2
          · exact .inr h1
      refine ⟨fun c hc' r hr => ?_, fun k hk r hr => ?_⟩
      · rw [hsub] at hc' ⊢
        rw [hh] at hr
        exact ⟨hc.1 c hc'.1 r hr, fun h => hop.1 c hc'.1 (h ▸ hr)⟩
      · rw [hsub]
        rw [hh] at hr
        rw [hs] at hk
        exact ⟨hc.2 k hk r hr, fun h => hop.2 k hk (h ▸ hr)⟩

/-- **C06.** References are closed in every state of a history whose calls each keep references inside the sketch. -/
theorem C06_closed (pinv : PInv F) (ops : List (Op F)) (hlen : ops.length < 2 ^ 64)
    (hsafe : ∀ t op, ops[t]? = some op → KeepsClosed (stateAt pinv ops t) op) (t : Nat) :
    Closed (stateAt pinv ops t) := by
  induction t with
  | zero => exact ⟨by simp [stateAt, run, World.init, Sketch.new, Sketch.cells], by simp [stateAt, run, World.init, Sketch.new]⟩
  | succ t ih =>
    cases ho : ops[t]? with
    | none =>
      have := List.getElem?_eq_none_iff.1 ho
      have e : stateAt pinv ops (t + 1) = stateAt pinv ops t := by
        unfold stateAt; rw [List.take_of_length_le (by omega), List.take_of_length_le (by omega)]
      rw [e]; exact ih
    | some op =>
      rw [stateAt_succ pinv ops t op ho]
      exact Closed.step (Inv.at pinv ops hlen t) ih pinv op (hsafe t op ho)

/-- **C06.** In particular for every history without `delete_primitive` and without assignments to lines, arcs, circles and
constraints; add, constrain, move, solve and `delete_constraint` calls are unrestricted. -/
theorem C06_closed_without_delete (pinv : PInv F) (ops : List (Op F)) (hlen : ops.length < 2 ^ 64)
    (hdel : ∀ id, Op.deletePrimitive id ∉ ops) (hw : ∀ op ∈ ops, op.isRefWrite = false) (t : Nat) :
    Closed (stateAt pinv ops t) := by
  refine C06_closed pinv ops hlen (fun t op ho => ?_) t
  have hm := List.mem_of_getElem? ho
  have := hw op hm
  cases op <;> first | trivial | (cases this; done) | exact absurd hm (hdel _)

/-- **C06.** In general closure fails: `delete_primitive` removes a point that a line of the sketch still uses. -/
theorem C06_refuted_by_delete (pinv : PInv F) :
    ∃ ops : List (Op F), ops.length = 4 ∧ (∀ op ∈ ops, op.isRefWrite = false) ∧ ¬ Closed (run pinv World.init ops).2 := by
  refine ⟨[.addPoint2 0.0 0.0, .addPoint2 1.0 0.0, .addLine 0 1, .deletePrimitive 0], rfl, by simp [Op.isRefWrite], ?_⟩
  intro h
  have := h.1 (.line 0) (by eval_run) (.point 0) (by eval_run)
  revert this; eval_run

/-- **C06.** It also fails by `Line::set_start` to a point outside the sketch. -/
theorem C06_refuted_by_set_start (pinv : PInv F) :
    ∃ ops : List (Op F), (∀ id, Op.deletePrimitive id ∉ ops) ∧ ¬ Closed (run pinv World.init ops).2 := by
  refine ⟨[.addPoint2 0.0 0.0, .addPoint2 1.0 0.0, .addLine 0 1, .newPoint 2.0 2.0, .writeLine 0 ⟨2, 1⟩], by simp, ?_⟩
  intro h
  have := h.1 (.line 0) (by eval_run) (.point 2) (by eval_run)
  revert this; eval_run

/-- a history to which `C06_closed` applies although it deletes and re-points -/
example (pinv : PInv F) :
    let ops : List (Op F) := [.addPoint2 0.0 0.0, .addPoint2 1.0 0.0, .addPoint2 2.0 0.0, .addLine 0 1, .writeLine 0 ⟨2, 1⟩,
      .deletePrimitive 0]
    (∀ t op, ops[t]? = some op → KeepsClosed (stateAt pinv ops t) op) ∧
    (run pinv World.init ops).2.sketch.cells = [.point 1, .point 2, .line 0] := by
  refine ⟨?_, by eval_run⟩
  intro t op ho
  match t with
  | 0 | 1 | 2 | 3 => injection ho with ho; subst ho; trivial
  | 4 => injection ho with ho; subst ho; unfold KeepsClosed; eval_run
  | 5 =>
    injection ho with ho; subst ho
    intro p hp
    have : p = .point 0 := by revert hp; eval_run; exact Eq.symm
    subst this
    eval_run
  | t + 6 => simp at ho

/-! ## C07, C08 -/

/-- **C07.** `delete_primitive` on an absent id: error, no change. -/
theorem C07_absent (s : Sketch) (id : Nat) (h : ∀ p, (id, p) ∉ s.prims) :
    s.deletePrimitive id = (.error (.primitiveNotFound id), s) := by
  unfold Sketch.deletePrimitive
  rw [mapGet_eq_none.2 h]

/-- **C07.** `delete_primitive` on a present id removes exactly that entry, in place; next id and constraints stay.  (The
heap, that is all coordinates, is not even an argument.) -/
theorem C07_present (s : Sketch) (hs : SortedKeys s.prims) (id : Nat) (p : PrimCell) (h : (id, p) ∈ s.prims) :
    ∃ a b s', s.deletePrimitive id = (.ok (), s') ∧ s.prims = a ++ (id, p) :: b ∧ s'.prims = a ++ b ∧
      s'.cons = s.cons ∧ s'.nextId = s.nextId ∧
      s'.getPrimitiveById id = none ∧ ∀ j, j ≠ id → s'.getPrimitiveById j = s.getPrimitiveById j := by
  have hg := (mapGet_eq_some hs).2 h
  obtain ⟨a, b, e1, e2, _⟩ := mapRemove_split hg
  have hs' : SortedKeys (mapRemove id s.prims) := by
    rw [mapRemove_eq hs]; exact hs.sublist List.filter_sublist
  refine ⟨a, b, { s with prims := mapRemove id s.prims }, by unfold Sketch.deletePrimitive; rw [hg], e1, e2, rfl, rfl, ?_,
    fun j hj => ?_⟩
  · refine mapGet_eq_none.2 fun v hv => ?_
    simp only [mapRemove_eq hs, List.mem_filter] at hv
    simp at hv
  · unfold Sketch.getPrimitiveById
    rw [Option.ext_iff]
    intro v
    rw [mapGet_eq_some hs, mapGet_eq_some hs', mapRemove_eq hs, List.mem_filter]
    simp [hj]

/-- keys of a reachable sketch are sorted, so `C07_present` applies to every state of every history -/
theorem C07_reachable (pinv : PInv F) (ops : List (Op F)) (hlen : ops.length < 2 ^ 64) (t : Nat) :
    SortedKeys (stateAt pinv ops t).sketch.prims := (Inv.at pinv ops hlen t).sorted

example : (⟨[(0, .point 0), (1, .point 1), (4, .line 0)], 5, [2]⟩ : Sketch).deletePrimitive 1 =
    (.ok (), ⟨[(0, .point 0), (4, .line 0)], 5, [2]⟩) := rfl
example : (⟨[(0, .point 0), (4, .line 0)], 5, [2]⟩ : Sketch).deletePrimitive 1 =
    (.error (.primitiveNotFound 1), ⟨[(0, .point 0), (4, .line 0)], 5, [2]⟩) := rfl

/-- What `delete_constraint` is meant to do. -/
def DeleteConstraintSpec (s : Sketch) (c : Nat) (r : Except Err Unit × Sketch) : Prop :=
  (c ∈ s.cons → r = (.ok (), { s with cons := s.cons.filter (fun k => decide (k ≠ c)) })) ∧
  (c ∉ s.cons → r = (.error .constraintNotFound, s))

theorem filter_eq_singleton {l : List Nat} (hn : l.Nodup) (c : Nat) :
    l.filter (fun k => decide (k = c)) = if c ∈ l then [c] else [] := by
  induction l with
  | nil => rfl
  | cons x l ih =>
    rw [List.nodup_cons] at hn
    rw [List.filter_cons, ih hn.2]
    by_cases e : x = c
    · subst e; simp [hn.1]
    · have e' : c ≠ x := fun h => e h.symm
      simp [e, e']

/-- **C08.** What `delete_constraint(c)` really does: it keeps `c` and deletes every *other* constraint; it reports
`ConstraintNotFound` exactly when there was no other constraint (even though `c` may be there). -/
theorem C08_actual_effect (s : Sketch) (hn : s.cons.Nodup) (c : Nat) :
    (s.deleteConstraint c).2 = { s with cons := if c ∈ s.cons then [c] else [] } ∧
    ((s.deleteConstraint c).1 = .error .constraintNotFound ↔ ∀ k ∈ s.cons, k = c) ∧
    ((s.deleteConstraint c).1 = .ok () ↔ ∃ k ∈ s.cons, k ≠ c) := by
  have hf := filter_eq_singleton hn c
  have hlen : s.cons.length = (s.cons.filter (fun k => decide (k = c))).length ↔ ∀ k ∈ s.cons, k = c := by
    rw [eq_comm, List.length_filter_eq_length_iff]
    simp
  unfold Sketch.deleteConstraint
  simp only
  by_cases h : ∀ k ∈ s.cons, k = c
  · rw [if_pos (hlen.2 h), hf]
    refine ⟨rfl, by simpa using h, ?_⟩
    simp only [reduceCtorEq, false_iff, not_exists, not_and, not_not]
    exact h
  · rw [if_neg (fun h' => h (hlen.1 h')), hf]
    refine ⟨rfl, by simp [h], ?_⟩
    simp only [true_iff]
    by_contra hc
    exact h fun k hk => by by_contra hkc; exact hc ⟨k, hk, hkc⟩

/-- **C08.** So `delete_constraint` meets its contract only on a sketch without constraints. -/
theorem C08_spec_iff_empty (s : Sketch) (hn : s.cons.Nodup) (c : Nat) :
    DeleteConstraintSpec s c (s.deleteConstraint c) ↔ s.cons = [] := by
  obtain ⟨h1, h2, h3⟩ := C08_actual_effect s hn c
  constructor
  · rintro ⟨g1, g2⟩
    by_cases hc : c ∈ s.cons
    · have g := g1 hc
      have e := congrArg (fun r => r.2.cons) g
      simp only [h1, if_pos hc] at e
      have : c ∈ s.cons.filter (fun k => decide (k ≠ c)) := by rw [← e]; simp
      simp [List.mem_filter] at this
    · have g := g2 hc
      have e := congrArg (fun r => r.2.cons) g
      simp only [h1, if_neg hc] at e
      exact e.symm
  · intro h
    obtain ⟨a, b, d⟩ := s
    simp only at h
    subst h
    exact ⟨by simp, fun _ => rfl⟩

/-- deleting constraint 1 of three keeps it and deletes the others; deleting the only constraint fails -/
example : ((⟨[], 0, [0, 1, 2]⟩ : Sketch).deleteConstraint 1) = (.ok (), ⟨[], 0, [1]⟩) := rfl
example : ((⟨[], 0, [1]⟩ : Sketch).deleteConstraint 1) = (.error .constraintNotFound, ⟨[], 0, [1]⟩) := rfl

/-! ## C09 -/

/-- **C09.** `add_point2` in any reachable state: succeeds, the returned handle is new, the point has the given coordinates
and zero gradient, it is in the sketch, all other points keep their value. -/
theorem C09_add_point2 (pinv : PInv F) (ops : List (Op F)) (hlen : ops.length < 2 ^ 64) (x y : F) :
    let w := (run pinv World.init ops).2
    ∃ a w', addPoint2 w x y = (.addr a, w') ∧ w.heap.nPoints ≤ a ∧ .point a ∉ w.sketch.cells ∧
      w'.heap.points a = ⟨⟨x, y⟩, ⟨0.0, 0.0⟩⟩ ∧ (∀ b, b ≠ a → w'.heap.points b = w.heap.points b) ∧
      (∀ c, c ∈ w'.sketch.cells ↔ c = .point a ∨ c ∈ w.sketch.cells) := by
  intro w
  have I : Inv (logOf pinv ops) w := Inv.run pinv ops hlen
  have hnew : PrimCell.point w.heap.nPoints ∉ w.sketch.cells := by
    intro h; have := I.cellsLive _ h; simp [PrimCell.live] at this
  refine ⟨w.heap.nPoints, (addPoint2 w x y).2, ?_, Nat.le_refl _, hnew, ?_, ?_, ?_⟩
  · unfold addPoint2
    rcases addPrimitive_cases (w.heap.allocPoint (Point2.new x y)).2 w.sketch (.point w.heap.nPoints) with ⟨⟨r, h1, _⟩, _⟩ | ⟨_, h2, _⟩ | ⟨_, _, e⟩
    · simp [primFields] at h1
    · exact absurd h2 hnew
    · simp only [Heap.allocPoint] at e ⊢; simp only [e]
  · rw [addPoint2_heap]; simp [Heap.allocPoint, Heap.setPoint, upd, Point2.new, Vec2.zeros]
  · intro b hb; rw [addPoint2_heap]; simp [Heap.allocPoint, Heap.setPoint, upd, hb]
  · intro c
    unfold addPoint2
    rcases addPrimitive_cases (w.heap.allocPoint (Point2.new x y)).2 w.sketch (.point w.heap.nPoints) with ⟨⟨r, h1, _⟩, _⟩ | ⟨_, h2, _⟩ | ⟨_, _, e⟩
    · simp [primFields] at h1
    · exact absurd h2 hnew
    · simp only [Heap.allocPoint] at e ⊢; simp only [e, Sketch.cells]
      rw [mapInsert_last fun x hx => I.key_lt hx]
      simp [or_comm]

/-- **C09.** `add_line` in any reachable state: Ok iff both end points are in the sketch (else `MissingSketchReferences` and
the sketch is unchanged); then the new line has exactly the given end points and is in the sketch. -/
theorem C09_add_line (pinv : PInv F) (ops : List (Op F)) (hlen : ops.length < 2 ^ 64) (s e : Nat) :
    let w := (run pinv World.init ops).2
    ((.point s ∈ w.sketch.cells ∧ .point e ∈ w.sketch.cells) → ∃ a w', addLine w s e = (.addr a, w') ∧
      .line a ∉ w.sketch.cells ∧ w'.heap.lines a = ⟨s, e⟩ ∧ ∀ c, c ∈ w'.sketch.cells ↔ c = .line a ∨ c ∈ w.sketch.cells) ∧
    (¬ (.point s ∈ w.sketch.cells ∧ .point e ∈ w.sketch.cells) →
      (addLine w s e).1 = .err .missingSketchReferences ∧ (addLine w s e).2.sketch = w.sketch) := by
  intro w
  have I : Inv (logOf pinv ops) w := Inv.run pinv ops hlen
  have hnew : PrimCell.line w.heap.nLines ∉ w.sketch.cells := by
    intro h; have := I.cellsLive _ h; simp [PrimCell.live] at this
  have hrefs : primFields (w.heap.allocLine ⟨s, e⟩).2 (.line w.heap.nLines) = [.point s, .point e] := by
    simp [primFields, Heap.allocLine, Heap.setLine, upd]
  have C := addPrimitive_cases (w.heap.allocLine ⟨s, e⟩).2 w.sketch (.line w.heap.nLines)
  rw [hrefs] at C
  simp only [List.mem_cons, List.not_mem_nil, or_false, forall_eq_or_imp, forall_eq] at C
  constructor
  · intro hin
    rcases C with ⟨⟨r, h1 | h1, h2⟩, _⟩ | ⟨_, h2, _⟩ | ⟨_, _, ee⟩
    · exact absurd (h1 ▸ hin.1) h2
    · exact absurd (h1 ▸ hin.2) h2
    · exact absurd h2 hnew
    · refine ⟨w.heap.nLines, (addLine w s e).2, ?_, hnew, ?_, ?_⟩
      · unfold addLine; simp only [Heap.allocLine] at ee ⊢; simp only [ee]
      · rw [addLine_heap]; simp [Heap.allocLine, Heap.setLine, upd]
      · intro c
        unfold addLine; simp only [Heap.allocLine] at ee ⊢; simp only [ee, Sketch.cells]
        rw [mapInsert_last fun x hx => I.key_lt hx]
        simp [or_comm]
  · intro hin
    rcases C with ⟨_, ee⟩ | ⟨h1, _, _⟩ | ⟨h1, _, _⟩
    · unfold addLine; simp only [Heap.allocLine] at ee ⊢; simp [ee]
    · exact absurd h1 hin
    · exact absurd h1 hin

/-- **C09.** `add_arc` likewise: Ok iff the centre is in the sketch; then the arc has exactly the given fields. -/
theorem C09_add_arc (pinv : PInv F) (ops : List (Op F)) (hlen : ops.length < 2 ^ 64) (c : Nat) (r : F) (cw : Bool) (sa ea : F) :
    let w := (run pinv World.init ops).2
    (.point c ∈ w.sketch.cells → ∃ a w', addArc w c r cw sa ea = (.addr a, w') ∧
      .arc a ∉ w.sketch.cells ∧ w'.heap.arcs a = ⟨c, ⟨r, sa, ea⟩, ⟨0.0, 0.0, 0.0⟩, cw⟩ ∧
      ∀ x, x ∈ w'.sketch.cells ↔ x = .arc a ∨ x ∈ w.sketch.cells) ∧
    (.point c ∉ w.sketch.cells →
      (addArc w c r cw sa ea).1 = .err .missingSketchReferences ∧ (addArc w c r cw sa ea).2.sketch = w.sketch) := by
  intro w
  have I : Inv (logOf pinv ops) w := Inv.run pinv ops hlen
  have hnew : PrimCell.arc w.heap.nArcs ∉ w.sketch.cells := by
    intro h; have := I.cellsLive _ h; simp [PrimCell.live] at this
  have hrefs : primFields (w.heap.allocArc (Arc.new c r cw sa ea)).2 (.arc w.heap.nArcs) = [.point c] := by
    simp [primFields, Heap.allocArc, Heap.setArc, upd, Arc.new]
  have C := addPrimitive_cases (w.heap.allocArc (Arc.new c r cw sa ea)).2 w.sketch (.arc w.heap.nArcs)
  rw [hrefs] at C
  simp only [List.mem_cons, List.not_mem_nil, or_false, forall_eq] at C
  constructor
  · intro hin
    rcases C with ⟨⟨r, h1, h2⟩, _⟩ | ⟨_, h2, _⟩ | ⟨_, _, ee⟩
    · exact absurd (h1 ▸ hin) h2
    · exact absurd h2 hnew
    · refine ⟨w.heap.nArcs, (addArc w c r cw sa ea).2, ?_, hnew, ?_, ?_⟩
      · unfold addArc; simp only [Heap.allocArc] at ee ⊢; simp only [ee]
      · rw [addArc_heap]; simp [Heap.allocArc, Heap.setArc, upd, Arc.new, Row3.zeros]
      · intro c
        unfold addArc; simp only [Heap.allocArc] at ee ⊢; simp only [ee, Sketch.cells]
        rw [mapInsert_last fun x hx => I.key_lt hx]
        simp [or_comm]
  · intro hin
    rcases C with ⟨_, ee⟩ | ⟨h1, _, _⟩ | ⟨h1, _, _⟩
    · unfold addArc; simp only [Heap.allocArc] at ee ⊢; simp [ee]
    · exact absurd h1 hin
    · exact absurd h1 hin

example (pinv : PInv F) : (run pinv (World.init : World F) [.addPoint2 0.0 0.0, .newPoint 1.0 0.0, .addLine 0 1, .addArc 0 1.0 true 0.0 1.0]).1 =
    [.addr 0, .addr 1, .err .missingSketchReferences, .addr 0] := by eval_run

/-! ## C10 -/

/-- **C10.** `add_constraint`: Ok iff all referenced primitives are in the sketch and the constraint is not; appended last;
on error nothing changes, missing references take precedence. -/
theorem C10_add_constraint (h : Heap F) (s : Sketch) (c : Nat) :
    ((∀ r ∈ consFields (h.cons c), r ∈ s.cells) → c ∉ s.cons →
      s.addConstraint h c = (.ok (), { s with cons := s.cons ++ [c] })) ∧
    ((∀ r ∈ consFields (h.cons c), r ∈ s.cells) → c ∈ s.cons → s.addConstraint h c = (.error .constraintAlreadyInSketch, s)) ∧
    ((∃ r ∈ consFields (h.cons c), r ∉ s.cells) → s.addConstraint h c = (.error .missingSketchReferences, s)) := by
  rcases addConstraint_cases h s c with ⟨⟨r, h1, h2⟩, e⟩ | ⟨h1, h2, e⟩ | ⟨h1, h2, e⟩
  · exact ⟨fun h' => absurd (h' r h1) h2, fun h' => absurd (h' r h1) h2, fun _ => e⟩
  · exact ⟨fun _ h' => absurd h2 h', fun _ _ => e, fun ⟨r, h3, h4⟩ => absurd (h1 r h3) h4⟩
  · exact ⟨fun _ _ => e, fun _ h' => absurd h' h2, fun ⟨r, h3, h4⟩ => absurd (h1 r h3) h4⟩

/-- **C10.** The `constrain_*` helpers in any reachable state: they panic iff the constructor's assertion fails; otherwise
they succeed iff the references are in the sketch, and then append a new object holding exactly the given constraint. -/
theorem C10_constrain (pinv : PInv F) (ops : List (Op F)) (hlen : ops.length < 2 ^ 64) (c : Constraint F) :
    let w := (run pinv World.init ops).2
    (consNewOk c = false → constrain w c = (.panic, w)) ∧
    (consNewOk c = true → (∀ r ∈ consFields c, r ∈ w.sketch.cells) → ∃ k w', constrain w c = (.addr k, w') ∧
      k ∉ w.sketch.cons ∧ w'.heap.cons k = c ∧ w'.sketch = { w.sketch with cons := w.sketch.cons ++ [k] }) ∧
    (consNewOk c = true → (∃ r ∈ consFields c, r ∉ w.sketch.cells) →
      (constrain w c).1 = .err .missingSketchReferences ∧ (constrain w c).2.sketch = w.sketch) := by
  intro w
  have I : Inv (logOf pinv ops) w := Inv.run pinv ops hlen
  have hnew : w.heap.nCons ∉ w.sketch.cons := fun h => Nat.lt_irrefl _ (I.consLive _ h)
  have hc : (w.heap.allocCons c).2.cons (w.heap.allocCons c).1 = c := by simp [Heap.allocCons, Heap.setCons, upd]
  have C := addConstraint_cases (w.heap.allocCons c).2 w.sketch (w.heap.allocCons c).1
  rw [hc] at C
  refine ⟨fun h => by simp [constrain, h], fun h hr => ?_, fun h hr => ?_⟩
  · rcases C with ⟨⟨r, h1, h2⟩, _⟩ | ⟨_, h2, _⟩ | ⟨_, _, e⟩
    · exact absurd (hr r h1) h2
    · exact absurd h2 hnew
    · exact ⟨(w.heap.allocCons c).1, ⟨(w.heap.allocCons c).2, _⟩, by unfold constrain; rw [if_pos h]; simp only [e], hnew, hc, rfl⟩
  · obtain ⟨r, h3, h4⟩ := hr
    rcases C with ⟨_, e⟩ | ⟨h1, _, _⟩ | ⟨h1, _, _⟩
    · unfold constrain; rw [if_pos h]; simp [e]
    · exact absurd (h1 r h3) h4
    · exact absurd (h1 r h3) h4

example (pinv : PInv F) : (run pinv (World.init : World F) [.addPoint2 0.0 0.0, .addPoint2 0.0 0.0, .addLine 0 1, .newLine 0 1,
    .constrainParallelLines 0 0, .addConstraint 0, .constrainPerpendicularLines 0 1]).1 =
    [.addr 0, .addr 1, .addr 0, .addr 1, .addr 0, .err .constraintAlreadyInSketch, .err .missingSketchReferences] := by eval_run

/-! ## C11 -/

/-- number of members of a sketch of each kind -/
def PrimCell.isPoint : PrimCell → Bool | .point _ => true | _ => false
def PrimCell.isArc : PrimCell → Bool | .arc _ => true | _ => false
def PrimCell.isCircle : PrimCell → Bool | .circle _ => true | _ => false

/-- **C11.** `get_num_primitives` is successful adds minus successful deletes. -/
theorem C11_count (pinv : PInv F) (ops : List (Op F)) (hlen : ops.length < 2 ^ 64) (t : Nat) :
    (stateAt pinv ops t).sketch.getNumPrimitives + (deletedList ((logOf pinv ops).take t)).length =
      (addedList ((logOf pinv ops).take t)).length := (Inv.at pinv ops hlen t).count

/-- **C11.** `get_n_dofs` = 2·points + 3·arcs + circles. -/
theorem C11_dofs (h : Heap F) (s : Sketch) :
    getNDofs h s = 2 * s.cells.countP PrimCell.isPoint + 3 * s.cells.countP PrimCell.isArc +
      s.cells.countP PrimCell.isCircle := by
  rw [getNDofs_eq]
  induction s.cells with
  | nil => rfl
  | cons c l ih =>
    simp only [List.flatMap_cons, List.length_append, ih, List.countP_cons]
    cases c <;> simp [primData, PrimCell.isPoint, PrimCell.isArc, PrimCell.isCircle] <;> omega

/-- **C11.** Lengths of data, gradient and loss vectors, and the shape of the Jacobian. -/
theorem C11_lengths (h : Heap F) (s : Sketch) :
    (getData h s).length = getNDofs h s ∧
    (∀ g h', getGradient h s = .ok (g, h') → g.length = getNDofs h s) ∧
    (getLossPerConstraint h s).length = s.getNumConstraints ∧
    (∀ m h', getJacobian h s = .ok (m, h') → m.length = s.getNumConstraints ∧ ∀ row ∈ m, row.length = getNDofs h s) := by
  refine ⟨getData_length h s, ?_, by simp [getLossPerConstraint, Sketch.getNumConstraints], ?_⟩
  · intro g h' hg
    unfold getGradient at hg
    cases hu : updateAll (zeroGrads h s) s.cons with
    | error e => rw [hu] at hg; cases hg
    | ok h1 =>
      rw [hu] at hg
      simp only [collectGradient_eq] at hg
      split at hg
      · cases hg
      · rename_i heq
        split at heq
        · injection heq with heq
          injection hg with hg
          injection hg with hg _
          rw [← hg, ← heq, flatMap_primGrad_length h h1, getNDofs_eq]
        · cases heq
  · intro m h' hm
    unfold getJacobian at hm
    unfold Sketch.getNumConstraints
    generalize s.cons = cs at hm
    suffices ∀ (cs : List Nat) (h0 : Heap F) m h', jacobianRows s cs h0 = .ok (m, h') →
        m.length = cs.length ∧ ∀ row ∈ m, row.length = getNDofs h s from this cs h m h' hm
    intro cs
    induction cs with
    | nil => intro h0 m h' hm; cases hm; simp
    | cons c cs ih =>
      intro h0 m h' hm
      unfold jacobianRows at hm
      simp only at hm
      split at hm
      · cases hm
      · split at hm
        · cases hm
        · rename_i heq
          cases hm
          have := ih _ _ _ heq
          refine ⟨by simp [this.1], fun row hrow => ?_⟩
          rcases List.mem_cons.1 hrow with rfl | hrow
          · rw [jacobianRow_eq, flatMap_primGrad_length h, getNDofs_eq]
          · exact this.2 row hrow

example (pinv : PInv F) :
    let w := (run pinv (World.init : World F) [.addPoint2 0.0 0.0, .addPoint2 1.0 0.0, .addLine 0 1, .addArc 0 1.0 true 0.0 1.0,
      .newCircle 0 1.0, .addPrimitive (.circle 0), .deletePrimitive 1]).2
    w.sketch.getNumPrimitives = 4 ∧ getNDofs w.heap w.sketch = 2 + 3 + 1 := by
  simp only [Sketch.getNumPrimitives, C11_dofs]; eval_run; rfl

/-! ## C56 -/

/-- **C56.** `get_all_points` returns exactly the ids of the points of the sketch with their current values, each id once, in
increasing order. -/
theorem C56_all_points (pinv : PInv F) (ops : List (Op F)) (hlen : ops.length < 2 ^ 64) (t : Nat) :
    let w := stateAt pinv ops t
    (∀ id pt, (id, pt) ∈ getAllPoints w.heap w.sketch ↔
      ∃ a, w.sketch.getPrimitiveById id = some (.point a) ∧ pt = w.heap.points a) ∧
    (getAllPoints w.heap w.sketch).Pairwise (fun x y => x.1 < y.1) := by
  intro w
  have I := Inv.at pinv ops hlen t
  constructor
  · intro id pt
    unfold getAllPoints Sketch.getPrimitiveById
    rw [List.mem_filterMap]
    constructor
    · rintro ⟨⟨k, c⟩, hm, hc⟩
      cases c with
      | point a =>
        simp only [Option.some.injEq, Prod.mk.injEq] at hc
        exact ⟨a, (mapGet_eq_some I.sorted).2 (hc.1 ▸ hm), hc.2.symm⟩
      | _ => simp at hc
    · rintro ⟨a, hg, rfl⟩
      exact ⟨(id, .point a), (mapGet_eq_some I.sorted).1 hg, rfl⟩
  · unfold getAllPoints
    rw [List.pairwise_filterMap]
    refine I.sorted.imp fun {x y} hxy a ha b hb => ?_
    obtain ⟨k, c⟩ := x
    obtain ⟨k', c'⟩ := y
    cases c <;> cases c' <;> simp at ha hb
    subst ha; subst hb; exact hxy

example (pinv : PInv F) :
    let w := (run pinv (World.init : World F) [.addPoint2 0.0 0.0, .addPoint2 1.0 0.0, .addLine 0 1, .addPoint2 2.0 0.0, .deletePrimitive 0]).2
    getAllPoints w.heap w.sketch = [(1, ⟨⟨1.0, 0.0⟩, ⟨0.0, 0.0⟩⟩), (3, ⟨⟨2.0, 0.0⟩, ⟨0.0, 0.0⟩⟩)] := by
  unfold getAllPoints; eval_run

end Isotope
