import Verif.Lemmas.Serde
import Verif.Lemmas.Sim
import Verif.Lemmas.Frame

/-!
# Serialisation (C53)
-/

namespace Isotope
variable {F : Type} [Num F]

/-- keys of a `BTreeMap` are strictly increasing in iteration order -/
def KeysIncrease {α : Type} (l : List (Nat × α)) : Prop := l.Pairwise (fun a b => a.1 < b.1)

omit [Num F] in
theorem save_sorted (h : Heap F) {s : Sketch} (hs : KeysIncrease s.prims) : SortedKeys (saveSketch h s).prims := by
  unfold saveSketch SortedKeys
  exact List.pairwise_map.2 hs

/-- what loading any document with increasing keys gives -/
theorem load_spec (h0 : Heap F) (d : Doc F) (hs : KeysIncrease d.prims) :
    LoadedPrims h0 d.prims (loadSketch h0 d).2.prims (loadPrims d.prims [] h0).2 ∧
    LoadedConss (loadPrims d.prims [] h0).2 d.cons (loadSketch h0 d).2.cons (loadSketch h0 d).1 := by
  obtain ⟨new, e, L⟩ := loadPrims_spec d.prims hs [] h0 (by simp)
  have : (loadSketch h0 d).2.prims = new := by simp only [loadSketch]; rw [e]; rfl
  rw [this]
  exact ⟨L, loadConss_spec _ _⟩

theorem mapInsert_keys {α : Type} (k : Nat) (v : α) : ∀ {m : List (Nat × α)}, KeysIncrease m →
    KeysIncrease (mapInsert k v m) ∧ ∀ j, j ∈ (mapInsert k v m).map Prod.fst ↔ j = k ∨ j ∈ m.map Prod.fst
  | [], _ => ⟨List.pairwise_singleton _ _, fun j => by simp [mapInsert]⟩
  | (k', v') :: t, hm => by
    have hm' : KeysIncrease ((k', v') :: t) := hm
    rw [KeysIncrease, List.pairwise_cons] at hm
    obtain ⟨h1, h2⟩ := mapInsert_keys k v (m := t) hm.2
    unfold mapInsert
    split_ifs with a b
    · refine ⟨List.pairwise_cons.2 ⟨fun x hx => ?_, hm'⟩, fun j => by simp⟩
      rcases List.mem_cons.1 hx with rfl | hx
      · exact a
      · exact a.trans (hm.1 x hx)
    · subst b
      exact ⟨List.pairwise_cons.2 ⟨hm.1, hm.2⟩, fun j => by simp⟩
    · refine ⟨List.pairwise_cons.2 ⟨fun x hx => ?_, h1⟩, fun j => ?_⟩
      · rcases (h2 x.1).1 (List.mem_map_of_mem hx) with e | e
        · rw [e]
          show k' < k
          omega
        · obtain ⟨y, hy, ey⟩ := List.mem_map.1 e
          rw [← ey]
          exact hm.1 y hy
      · rw [List.map_cons, List.mem_cons, h2, List.map_cons, List.mem_cons]
        tauto

omit [Num F] in
theorem loadPrims_keys : ∀ (l : List (Nat × DPrim F)) (m : List (Nat × PrimCell)) (h : Heap F), KeysIncrease m →
    KeysIncrease (loadPrims l m h).1 ∧ ∀ j, j ∈ (loadPrims l m h).1.map Prod.fst ↔ j ∈ l.map Prod.fst ∨ j ∈ m.map Prod.fst
  | [], m, h, hm => ⟨hm, fun j => by simp [loadPrims]⟩
  | (k, d) :: rest, m, h, hm => by
    obtain ⟨a, b⟩ := mapInsert_keys k (loadPrim h d).1 hm
    obtain ⟨c, e⟩ := loadPrims_keys rest _ (loadPrim h d).2 a
    refine ⟨c, fun j => ?_⟩
    show j ∈ (loadPrims rest _ _).1.map Prod.fst ↔ _
    rw [e, b, List.map_cons, List.mem_cons]
    tauto

omit [Num F] in
/-- **C53.** Whatever document is loaded, also one in which ids are repeated or not in order: the sketch has exactly the ids of the document,
each once and in increasing order, its id counter, and as many constraints. -/
theorem C53_load_ids (h0 : Heap F) (d : Doc F) :
    KeysIncrease (loadSketch h0 d).2.prims ∧ (∀ j, j ∈ (loadSketch h0 d).2.prims.map Prod.fst ↔ j ∈ d.prims.map Prod.fst) ∧
    (loadSketch h0 d).2.nextId = d.nextId ∧ (loadSketch h0 d).2.cons.length = d.cons.length := by
  obtain ⟨a, b⟩ := loadPrims_keys d.prims [] h0 List.Pairwise.nil
  refine ⟨a, fun j => (b j).trans (by simp), rfl, ?_⟩
  have : ∀ (l : List (DCons F)) (h : Heap F), (loadConss l h).1.length = l.length := by
    intro l
    induction l with
    | nil => intro h; rfl
    | cons x l ih => intro h; simp [loadConss, ih]
  exact this _ _

/-- a document in which an id is repeated and the ids are not in order -/
example (h0 : Heap F) (x y : DPrim F) : (loadSketch h0 ⟨[(5, x), (2, y), (5, y)], 6, []⟩).2.prims.map Prod.fst = [2, 5] := rfl

omit [Num F] in
theorem mapInsert_values {α β : Type} (f : α → β) (k : Nat) (v : α) (m : List (Nat × α)) :
    (mapInsert k v m).map (fun kp => (kp.1, f kp.2)) = mapInsert k (f v) (m.map fun kp => (kp.1, f kp.2)) := by
  induction m with
  | nil => rfl
  | cons x m ih =>
    simp only [mapInsert, List.map_cons]
    split_ifs <;> simp [ih]

omit [Num F] in
theorem lookup_cons_if {α : Type} (k : Nat) (v : α) (m : List (Nat × α)) (j : Nat) :
    ((k, v) :: m).lookup j = if j = k then some v else m.lookup j := by
  rw [List.lookup_cons]
  by_cases e : j = k
  · simp [e]
  · rw [if_neg e, beq_eq_false_iff_ne.2 e]

omit [Num F] in
theorem mapInsert_lookup {α : Type} (k : Nat) (v : α) (m : List (Nat × α)) (j : Nat) :
    (mapInsert k v m).lookup j = if j = k then some v else m.lookup j := by
  induction m with
  | nil => rw [mapInsert, lookup_cons_if]
  | cons x m ih =>
    obtain ⟨k', v'⟩ := x
    unfold mapInsert
    by_cases a : k < k'
    · rw [if_pos a, lookup_cons_if]
    · rw [if_neg a]
      by_cases c : k = k'
      · subst c
        rw [if_pos rfl, lookup_cons_if, lookup_cons_if]
        by_cases e : j = k <;> simp [e]
      · rw [if_neg c, lookup_cons_if, lookup_cons_if, ih]
        by_cases e : j = k
        · subst e; simp [c]
        · simp [e]

omit [Num F] in
theorem mapInsert_mem {α : Type} (k : Nat) (v : α) (m : List (Nat × α)) {x : Nat × α} (hx : x ∈ mapInsert k v m) : x = (k, v) ∨ x ∈ m := by
  induction m with
  | nil => simpa [mapInsert] using hx
  | cons y m ih =>
    unfold mapInsert at hx
    split_ifs at hx
    · simpa using hx
    · rcases List.mem_cons.1 hx with h | h
      · exact .inl h
      · exact .inr (List.mem_cons_of_mem _ h)
    · rcases List.mem_cons.1 hx with h | h
      · exact .inr (h ▸ List.mem_cons_self)
      · exact (ih h).imp id (List.mem_cons_of_mem _)

theorem loadPrims_any : ∀ (l : List (Nat × DPrim F)) (m : List (Nat × PrimCell)) (h : Heap F),
    (∀ kp ∈ m, kp.2.live h = true ∧ ∀ r ∈ primFields h kp.2, r.live h = true) →
    (∀ kp ∈ (loadPrims l m h).1, kp.2.live (loadPrims l m h).2 = true ∧
      ∀ r ∈ primFields (loadPrims l m h).2 kp.2, r.live (loadPrims l m h).2 = true) ∧
    ∀ j, ((loadPrims l m h).1.map fun kp => (kp.1, savePrim (loadPrims l m h).2 kp.2)).lookup j =
      (l.reverse.lookup j).or ((m.map fun kp => (kp.1, savePrim h kp.2)).lookup j)
  | [], m, h, hm => ⟨hm, fun j => by simp [loadPrims]⟩
  | (k, d) :: l, m, h, hm => by
    obtain ⟨e, sv, fr, rf⟩ := loadPrim_spec h d
    obtain ⟨a, b⟩ := loadPrims_any l (mapInsert k (loadPrim h d).1 m) (loadPrim h d).2 (fun kp hkp => by
      rcases mapInsert_mem _ _ _ hkp with rfl | hk
      · exact ⟨fr.2, fun r hr => (rf r hr).2⟩
      · obtain ⟨x, y⟩ := hm kp hk
        refine ⟨e.grows.live x, fun r hr => e.grows.live (y r ?_)⟩
        rwa [← (e.savePrim x y).2])
    refine ⟨a, fun j => ?_⟩
    refine (b j).trans ?_
    rw [mapInsert_values (savePrim (loadPrim h d).2), mapInsert_lookup, sv, List.reverse_cons]
    have keep : (m.map fun kp => (kp.1, savePrim (loadPrim h d).2 kp.2)) = m.map fun kp => (kp.1, savePrim h kp.2) :=
      List.map_congr_left fun kp hkp => by rw [(e.savePrim (hm kp hkp).1 (hm kp hkp).2).1]
    rw [keep]
    have ap : ∀ (l : List (Nat × DPrim F)), (l ++ [(k, d)]).lookup j = (l.lookup j).or (if j = k then some d else none) := fun l => by
      induction l with
      | nil => rw [List.nil_append, lookup_cons_if]; rfl
      | cons x l ih =>
        rw [List.cons_append, lookup_cons_if, lookup_cons_if, ih]
        split_ifs <;> rfl
    rw [ap]
    cases l.reverse.lookup j <;> by_cases q : j = k <;> simp [q]

/-- **C53.** Whatever document is loaded, also one in which ids are repeated or not in order: of several entries with the same id the last one counts,
and it and the constraints are loaded as they are written. -/
theorem C53_load_last (h0 : Heap F) (d : Doc F) :
    (∀ j, (saveSketch (loadSketch h0 d).1 (loadSketch h0 d).2).prims.lookup j = d.prims.reverse.lookup j) ∧
    (saveSketch (loadSketch h0 d).1 (loadSketch h0 d).2).cons = d.cons := by
  obtain ⟨a, b⟩ := loadPrims_any d.prims [] h0 (by simp)
  have C := loadConss_spec d.cons (loadPrims d.prims [] h0).2
  refine ⟨fun j => ?_, C.save⟩
  have := b j
  rw [List.map_nil, List.lookup_nil, Option.or_none] at this
  rw [← this]
  show ((loadPrims d.prims [] h0).1.map fun kp => (kp.1, savePrim (loadConss d.cons (loadPrims d.prims [] h0).2).2 kp.2)).lookup j = _
  congr 1
  exact List.map_congr_left fun kp hkp => by rw [(C.ext.savePrim (a kp hkp).1 (a kp hkp).2).1]

example (h0 : Heap F) (x y z : DPrim F) :
    (saveSketch (loadSketch h0 ⟨[(5, x), (2, y), (5, z)], 6, []⟩).1 (loadSketch h0 ⟨[(5, x), (2, y), (5, z)], 6, []⟩).2).prims.lookup 5 = some z := by
  rw [(C53_load_last h0 _).1]
  rfl

/-- **C53.** Loading a saved sketch, in the same or in another program, and saving it again gives the same document:
ids, id counter, every coordinate, every stored gradient, every constraint with its parameters, in the same order. -/
theorem C53_save_load (h : Heap F) (s : Sketch) (hs : KeysIncrease s.prims) (h0 : Heap F) :
    saveSketch (loadSketch h0 (saveSketch h s)).1 (loadSketch h0 (saveSketch h s)).2 = saveSketch h s := by
  obtain ⟨L, C⟩ := load_spec h0 (saveSketch h s) (save_sorted h hs)
  have e1 : ((loadSketch h0 (saveSketch h s)).2.prims.map fun kp =>
      (kp.1, savePrim (loadSketch h0 (saveSketch h s)).1 kp.2)) = (saveSketch h s).prims := by
    rw [← L.save]
    apply List.map_congr_left
    intro kp hkp
    rw [(C.ext.savePrim (L.fresh kp hkp).2 fun r hr => (L.refs kp hkp r hr).1.2).1]
  have e2 := C.save
  generalize saveSketch h s = d at *
  cases d
  unfold saveSketch
  rw [e1, e2]
  rfl

/-- **C53.** All values survive: the loaded sketch has the same ids and id counter, coordinates, losses, gradients stored
in its primitives and list of points. -/
theorem C53_values (h : Heap F) (s : Sketch) (hs : KeysIncrease s.prims) (h0 : Heap F) :
    let h' := (loadSketch h0 (saveSketch h s)).1
    let s' := (loadSketch h0 (saveSketch h s)).2
    s'.prims.map (·.1) = s.prims.map (·.1) ∧ s'.nextId = s.nextId ∧ s'.cons.length = s.cons.length ∧
    getData h' s' = getData h s ∧ getLossPerConstraint h' s' = getLossPerConstraint h s ∧ getLoss h' s' = getLoss h s ∧
    s'.cells.flatMap (primGrad h') = s.cells.flatMap (primGrad h) ∧ getAllPoints h' s' = getAllPoints h s := by
  intro h' s'
  have e := C53_save_load h s hs h0
  have e' := e
  simp only [saveSketch, Doc.mk.injEq] at e'
  refine ⟨?_, e'.2.1, ?_, (save_getData e).1, save_lossPer e, ?_, (save_getData e).2, save_getAllPoints e⟩
  · have := congrArg (List.map Prod.fst) e'.1
    simp only [List.map_map, Function.comp_def] at this
    exact this
  · have := congrArg List.length e'.2.2
    simp only [List.length_map] at this
    exact this
  · rw [getLoss_fold, getLoss_fold, save_lossPer e]

/-- **C53.** Sharing does not survive.  In a loaded sketch the primitives are new objects; no primitive of the sketch is
referred to by another one (a line's end points are not points of the sketch); nothing a constraint looks at is in the
sketch; and no two constraints look at a common object. -/
theorem C53_unshared (h0 : Heap F) (d : Doc F) (hs : KeysIncrease d.prims) :
    let h' := (loadSketch h0 d).1
    let s' := (loadSketch h0 d).2
    (∀ c ∈ s'.cells, c.live h0 = false ∧ c.live h' = true) ∧ s'.cells.Nodup ∧
    (∀ c ∈ s'.cells, ∀ r ∈ primFields h' c, r ∉ s'.cells) ∧
    (∀ k ∈ s'.cons, ∀ r ∈ consDeps h' (h'.cons k), r ∉ s'.cells) ∧
    s'.cons.Pairwise (fun k k' => k ≠ k' ∧ ∀ r ∈ consDeps h' (h'.cons k), r ∉ consDeps h' (h'.cons k')) := by
  intro h' s'
  obtain ⟨L, C⟩ := load_spec h0 d hs
  have mem : ∀ c ∈ s'.cells, ∃ kp ∈ s'.prims, kp.2 = c := fun c hc => List.mem_map.1 hc
  refine ⟨fun c hc => ?_, L.nodup, fun c hc r hr => ?_, fun k hk r hr hin => ?_, C.apart⟩
  · obtain ⟨kp, hkp, rfl⟩ := mem c hc
    exact (L.fresh kp hkp).later C.ext.grows
  · obtain ⟨kp, hkp, rfl⟩ := mem c hc
    rw [(C.ext.savePrim (L.fresh kp hkp).2 fun r hr => (L.refs kp hkp r hr).1.2).2] at hr
    exact (L.refs kp hkp r hr).2
  · obtain ⟨kp, hkp, rfl⟩ := mem r hin
    exact Fresh.ne (L.fresh kp hkp) (C.deps k hk _ hr) (Grows.refl _) rfl

theorem load_detached (h0 : Heap F) (d : Doc F) (hs : KeysIncrease d.prims) :
    Detached (loadSketch h0 d).1 (loadSketch h0 d).2 := (C53_unshared h0 d hs).2.2.2.1

/-- **C53.** So constraints of a loaded sketch exert no force on it: whenever `get_gradient` returns it returns zeros,
and every row of the Jacobian is zero. -/
theorem C53_no_force (h0 : Heap F) (d : Doc F) (hs : KeysIncrease d.prims) :
    let h' := (loadSketch h0 d).1
    let s' := (loadSketch h0 d).2
    (∀ g h'', getGradient h' s' = .ok (g, h'') → g = List.replicate (getNDofs h' s') 0.0) ∧
    ∀ J h'', getJacobian h' s' = .ok (J, h'') → J = List.replicate s'.cons.length (List.replicate (getNDofs h' s') 0.0) :=
  ⟨fun _ _ e => (load_detached h0 d hs).gradient e,
   fun _ _ e => (load_detached h0 d hs).jacobianRows _ (fun _ hk => hk) (.refl _) e⟩

/-- **C53.** And moving a loaded sketch changes none of its losses: not `set_data`, not a run of any of the solvers. -/
theorem C53_loss_frozen (h0 : Heap F) (d : Doc F) (hs : KeysIncrease d.prims) :
    let h' := (loadSketch h0 d).1
    let s' := (loadSketch h0 d).2
    (∀ v h'', setData h' s' v = .ok h'' → getLossPerConstraint h'' s' = getLossPerConstraint h' s') ∧
    ∀ (pinv : PInv F) (k : SolverKind F),
      getLossPerConstraint (runSolver pinv k h' s').heap s' = getLossPerConstraint h' s' := by
  intro h' s'
  refine ⟨fun v h'' e => (load_detached h0 d hs).lossPer ?_, fun pinv k => (load_detached h0 d hs).lossPer (runSolver_moves pinv k _ _)⟩
  have := setData_dataOnly h' s' v
  rw [e] at this
  exact DataOnly.moves this

/-- **C53.** Nor can a constraint of a loaded sketch be added to it, nor a primitive that refers to another: what it
refers to is missing. -/
theorem C53_refused (h0 : Heap F) (d : Doc F) (hs : KeysIncrease d.prims) :
    let h' := (loadSketch h0 d).1
    let s' := (loadSketch h0 d).2
    (∀ k ∈ s'.cons, s'.addConstraint h' k = (.error .missingSketchReferences, s')) ∧
    ∀ c ∈ s'.cells, primFields h' c ≠ [] → s'.addPrimitive h' c = (.error .missingSketchReferences, s') := by
  intro h' s'
  obtain ⟨-, -, hp, hc, -⟩ := C53_unshared h0 d hs
  have no : ∀ r, r ∉ s'.cells → s'.hasPrim r = false := by
    intro r hr
    unfold Sketch.hasPrim
    rw [List.any_eq_false]
    intro x hx e
    exact hr (List.mem_map.2 ⟨x, hx, by simpa using e⟩)
  constructor
  · intro k hk
    unfold Sketch.addConstraint
    rw [consRefs_eq, if_pos]
    obtain ⟨r, hr⟩ : ∃ r, r ∈ consFields (h'.cons k) := by
      cases h'.cons k <;> simp [consFields]
    exact List.any_eq_true.2 ⟨r, hr, by rw [no r (hc k hk r (List.mem_append_left _ hr))]; rfl⟩
  · intro c hcc hne
    unfold Sketch.addPrimitive
    rw [primRefs_eq, if_pos]
    obtain ⟨r, hr⟩ := List.exists_mem_of_ne_nil _ hne
    exact List.any_eq_true.2 ⟨r, hr, by rw [no r (hp c hcc r hr)]; rfl⟩

end Isotope
