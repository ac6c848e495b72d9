import Verif.Model.Multi
import Verif.Props.Bookkeeping
import Verif.Props.Data

/-! # Cloned sketches (C52; any arithmetic) -/

set_option linter.unusedSectionVars false

namespace Isotope
variable {F : Type} [Num F]

/-- a call that may change which primitives or constraints are in the sketch -/
def Op.changesMembers : Op F → Bool
  | .addPrimitive _ | .addPoint2 .. | .addLine .. | .addArc .. | .addConstraint _ | .constrainPerpendicularLines ..
  | .constrainParallelLines .. | .constrainDistanceEuclidean .. | .constrainFixPoint .. | .constrainAngleBetweenPoints ..
  | .deletePrimitive _ | .deleteConstraint _ => true
  | _ => false

theorem step_members (pinv : PInv F) (w : World F) (op : Op F) (h : op.changesMembers = false) :
    (step pinv w op).2.sketch = w.sketch := by
  unfold step
  cases hl : op.live w
  · rfl
  · cases op <;> simp only [Op.changesMembers, Bool.true_eq_false] at h <;>
      simp only [Bool.not_true, Bool.false_eq_true, if_false]
    case newCons c => split <;> rfl
    all_goals split <;> rfl

theorem mstep_on {pinv : PInv F} {m : Multi F} {i : Nat} {s : Sketch} (hs : m.sketches[i]? = some s) (op : Op F) :
    mstep pinv m (.on i op) = ((step pinv ⟨m.heap, s⟩ op).1,
      ⟨(step pinv ⟨m.heap, s⟩ op).2.heap, m.sketches.set i (step pinv ⟨m.heap, s⟩ op).2.sketch⟩) := by
  simp only [mstep, hs]

theorem mstep_on_none {pinv : PInv F} {m : Multi F} {i : Nat} (hs : m.sketches[i]? = none) (op : Op F) :
    mstep pinv m (.on i op) = (.illTyped, m) := by
  simp only [mstep, hs]

theorem mstep_clone {pinv : PInv F} {m : Multi F} {i : Nat} {s : Sketch} (hs : m.sketches[i]? = some s) :
    mstep pinv m (.clone i) = (.unit, ⟨m.heap, m.sketches ++ [s.clone]⟩) := by
  simp only [mstep, hs]

theorem mstep_clone_none {pinv : PInv F} {m : Multi F} {i : Nat} (hs : m.sketches[i]? = none) :
    mstep pinv m (.clone i) = (.illTyped, m) := by
  simp only [mstep, hs]

/-! ## One heap, many sketches -/

/-- **C52.** A clone has exactly the ids, primitives, constraints and id counter of the original at that moment; cloning
changes no object and no other sketch. -/
theorem C52_clone (pinv : PInv F) (m : Multi F) (i : Nat) (s : Sketch) (hs : m.sketches[i]? = some s) :
    (mstep pinv m (.clone i)).2.heap = m.heap ∧
    (mstep pinv m (.clone i)).2.sketches.length = m.sketches.length + 1 ∧
    (∀ j, j < m.sketches.length → (mstep pinv m (.clone i)).2.sketches[j]? = m.sketches[j]?) ∧
    ∃ s', (mstep pinv m (.clone i)).2.sketches[m.sketches.length]? = some s' ∧
      (∀ id, s'.getPrimitiveById id = s.getPrimitiveById id) ∧ (∀ p, s'.getPrimitiveId p = s.getPrimitiveId p) ∧
      s'.prims = s.prims ∧ s'.cons = s.cons ∧ s'.nextId = s.nextId := by
  rw [mstep_clone hs]
  refine ⟨rfl, by simp, fun j hj => ?_, s.clone, by simp, fun _ => rfl, fun _ => rfl, rfl, rfl, rfl⟩
  rw [List.getElem?_append_left hj]

theorem mstep_other (pinv : PInv F) (m : Multi F) (op : MOp F) (i : Nat) (s : Sketch) (hs : m.sketches[i]? = some s)
    (h : ∀ o, op ≠ .on i o) : (mstep pinv m op).2.sketches[i]? = some s := by
  have hi := (List.getElem?_eq_some_iff.1 hs).1
  cases op with
  | on j o =>
    have hj : i ≠ j := fun e => h o (by rw [e])
    cases hsj : m.sketches[j]? with
    | none => rw [mstep_on_none hsj]; exact hs
    | some sj => rw [mstep_on hsj]; simp only; rw [List.getElem?_set_ne (Ne.symm hj)]; exact hs
  | newSketch => simp only [mstep]; rw [List.getElem?_append_left hi]; exact hs
  | clone j =>
    cases hsj : m.sketches[j]? with
    | none => rw [mstep_clone_none hsj]; exact hs
    | some sj => rw [mstep_clone hsj]; simp only; rw [List.getElem?_append_left hi]; exact hs

theorem mstep_kept (pinv : PInv F) (m : Multi F) (op : MOp F) (i : Nat) (s : Sketch) (hs : m.sketches[i]? = some s)
    (h : ∀ o, op = .on i o → o.changesMembers = false) : (mstep pinv m op).2.sketches[i]? = some s := by
  by_cases hi : ∃ o, op = .on i o
  · obtain ⟨o, rfl⟩ := hi
    simp only [mstep, hs]
    have := step_members pinv ⟨m.heap, s⟩ o (h o rfl)
    rw [this]
    have hlt := (List.getElem?_eq_some_iff.1 hs).1
    simp [hlt]
  · exact mstep_other pinv m op i s hs (fun o e => hi ⟨o, e⟩)

theorem mrun_kept (pinv : PInv F) (ops : List (MOp F)) (m : Multi F) (i : Nat) (s : Sketch) (hs : m.sketches[i]? = some s)
    (h : ∀ o, .on i o ∈ ops → o.changesMembers = false) : (mrun pinv m ops).2.sketches[i]? = some s := by
  induction ops generalizing m with
  | nil => exact hs
  | cons op ops ih =>
    simp only [mrun]
    refine ih _ (mstep_kept pinv m op i s hs fun o e => h o (by simp [e])) fun o ho => h o (by simp [ho])

/-- **C52.** Membership is separate: whatever is done to other sketches (its clones included), the ids, primitives,
constraints and id counter of a sketch stay as they are. -/
theorem C52_membership_separate (pinv : PInv F) (ops : List (MOp F)) (m : Multi F) (i : Nat) (s : Sketch)
    (hs : m.sketches[i]? = some s) (h : ∀ o, .on i o ∉ ops) : (mrun pinv m ops).2.sketches[i]? = some s :=
  mrun_kept pinv ops m i s hs fun o ho => absurd ho (h o)

/-- **C52.** Objects are shared: as long as nothing is added to or deleted from the original `i` and its clone, whatever
else happens (setters, `set_data`, gradients, solver runs on either, anything on other sketches), every query answers the
same for both. -/
theorem C52_same_view (pinv : PInv F) (ops : List (MOp F)) (m : Multi F) (i : Nat) (s : Sketch)
    (hs : m.sketches[i]? = some s)
    (h1 : ∀ o, .on i o ∈ ops → o.changesMembers = false)
    (h2 : ∀ o, .on m.sketches.length o ∈ ops → o.changesMembers = false) :
    let m' := (mrun pinv m (.clone i :: ops)).2
    ∃ a b, m'.sketches[i]? = some a ∧ m'.sketches[m.sketches.length]? = some b ∧
      getData m'.heap a = getData m'.heap b ∧ getLoss m'.heap a = getLoss m'.heap b ∧
      getLossPerConstraint m'.heap a = getLossPerConstraint m'.heap b ∧
      getAllPoints m'.heap a = getAllPoints m'.heap b ∧ (∀ g, getFaces g m'.heap a = getFaces g m'.heap b) ∧
      ∀ id, a.getPrimitiveById id = b.getPrimitiveById id := by
  obtain ⟨e0, e1, e2, s', e3, -, -, e4, e5, e6⟩ := C52_clone pinv m i s hs
  have hi := (List.getElem?_eq_some_iff.1 hs).1
  have hss : s' = s := by cases s; cases s'; simp_all
  subst hss
  simp only [mrun]
  exact ⟨s', s', mrun_kept pinv ops _ i s' ((e2 i hi).trans hs) h1, mrun_kept pinv ops _ _ s' e3 h2,
    rfl, rfl, rfl, rfl, fun _ => rfl, fun _ => rfl⟩

/-- **C52.** In particular: if `set_data(d)` on a clone returns, `get_data()` of the original is `d`. -/
theorem C52_set_data_visible (pinv : PInv F) (m : Multi F) (i : Nat) (s : Sketch) (hs : m.sketches[i]? = some s)
    (hn : s.cells.Nodup) (d : List F) (m' : Multi F)
    (hr : mstep pinv (mstep pinv m (.clone i)).2 (.on m.sketches.length (.setData d)) = (.unit, m')) :
    ∃ a, m'.sketches[i]? = some a ∧ getData m'.heap a = d := by
  obtain ⟨e0, e1, e2, s', e3, -, -, e4, e5, e6⟩ := C52_clone pinv m i s hs
  have hi := (List.getElem?_eq_some_iff.1 hs).1
  have hss : s' = s := by cases s; cases s'; simp_all
  subst hss
  have hk := mstep_kept pinv (mstep pinv m (.clone i)).2 (.on m.sketches.length (.setData d)) i s' ((e2 i hi).trans hs)
    (fun o e => by cases e; rfl)
  rw [hr] at hk
  refine ⟨s', hk, ?_⟩
  rw [mstep_on e3] at hr
  simp only [step, Op.live, Bool.not_true, Bool.false_eq_true, if_false] at hr
  cases e : setData (mstep pinv m (.clone i)).2.heap s' d with
  | error h' => rw [e] at hr; cases hr
  | ok h' =>
    rw [e] at hr
    cases hr
    exact C12_roundtrip _ _ _ _ hn e

/-! ## Every sketch of such a program is well formed -/

/-- every sketch has a log -/
def MInv (k : Nat) (m : Multi F) : Prop :=
  ∀ s ∈ m.sketches, ∃ log : List (Op F × Out F), log.length ≤ k ∧ Inv log ⟨m.heap, s⟩

theorem Inv.grow {log : List (Op F × Out F)} {w : World F} (I : Inv log w) {h' : Heap F} (g : Grows w.heap h') :
    Inv log ⟨h', w.sketch⟩ :=
  ⟨I.sorted, I.mem, I.next, I.delNodup, I.delLt, I.count, I.cellsNodup, I.consNodup,
    fun c hc => g.live (I.cellsLive c hc), fun k hk => Nat.lt_of_lt_of_le (I.consLive k hk) g.nCons⟩

theorem MInv.step (pinv : PInv F) {k : Nat} {m : Multi F} (I : MInv k m) (hk : k + 1 < u64Size) (op : MOp F) :
    MInv (k + 1) (mstep pinv m op).2 := by
  have weak : ∀ {m' : Multi F}, MInv k m' → MInv (k + 1) m' := fun I s hs =>
    let ⟨l, h1, h2⟩ := I s hs; ⟨l, by omega, h2⟩
  cases op with
  | newSketch =>
    simp only [mstep]
    intro s hs
    rcases List.mem_append.1 hs with hs | hs
    · obtain ⟨l, h1, h2⟩ := I s hs; exact ⟨l, by omega, h2⟩
    · rw [List.mem_singleton] at hs; subst hs
      refine ⟨[], by simp, ?_⟩
      constructor <;> simp [Sketch.new, SortedKeys, addedList, deletedList, Sketch.cells]
  | clone i =>
    cases hsi : m.sketches[i]? with
    | none => rw [mstep_clone_none hsi]; exact weak I
    | some s0 =>
      rw [mstep_clone hsi]
      intro s hs
      have : s ∈ m.sketches := by
        rcases List.mem_append.1 hs with hs | hs
        · exact hs
        · rw [List.mem_singleton] at hs; subst hs; exact List.mem_of_getElem? hsi
      obtain ⟨l, h1, h2⟩ := I s this; exact ⟨l, by omega, h2⟩
  | on i op =>
    cases hsi : m.sketches[i]? with
    | none => rw [mstep_on_none hsi]; exact weak I
    | some s0 =>
      rw [mstep_on hsi]
      obtain ⟨l, h1, h2⟩ := I s0 (List.mem_of_getElem? hsi)
      have hst := (h2.step pinv op (by omega)).1
      have hg := (step_kind pinv ⟨m.heap, s0⟩ op).2.1
      intro s hs
      rcases List.mem_or_eq_of_mem_set hs with hs | hs
      · obtain ⟨l', h1', h2'⟩ := I s hs
        exact ⟨l', by omega, h2'.grow hg⟩
      · subst hs
        exact ⟨_, by simp; omega, hst⟩

theorem MInv.run (pinv : PInv F) (ops : List (MOp F)) {k : Nat} {m : Multi F} (I : MInv k m)
    (hk : k + ops.length < u64Size) : MInv (k + ops.length) (mrun pinv m ops).2 := by
  induction ops generalizing k m with
  | nil => exact I
  | cons op ops ih =>
    simp only [List.length_cons] at hk ⊢
    have := ih (I.step pinv (by omega) op) (by omega)
    rw [show k + 1 + ops.length = k + (ops.length + 1) by omega] at this
    exact this

theorem Inv.inverse {log : List (Op F × Out F)} {w : World F} (I : Inv log w) (p : PrimCell) (i : Nat) :
    w.sketch.getPrimitiveId p = some i ↔ w.sketch.getPrimitiveById i = some p := by
  unfold Sketch.getPrimitiveById Sketch.getPrimitiveId
  rw [mapGet_eq_some I.sorted]
  have hn : (w.sketch.prims.map (·.2)).Nodup := I.cellsNodup
  clear I
  generalize w.sketch.prims = l at hn
  induction l with
  | nil => simp
  | cons x l ih =>
    obtain ⟨k, q⟩ := x
    simp only [List.map_cons, List.nodup_cons, List.mem_map, not_exists, not_and] at hn
    rw [List.find?_cons]
    by_cases e : p = q
    · subst e
      simp only [decide_true, Option.map_some, Option.some.injEq, List.mem_cons, Prod.mk.injEq]
      exact ⟨fun h => .inl ⟨h.symm, trivial⟩, fun h => h.elim (fun h => h.1.symm) fun h => absurd rfl (hn.1 _ h)⟩
    · simp only [e, decide_false, ih hn.2, List.mem_cons, Prod.mk.injEq]
      exact ⟨.inr, fun h => h.elim (fun h => h.2.elim) id⟩

/-- **C52.** In every program with any number of sketches and clones, every sketch stays well formed: ids and primitives
correspond one to one, nothing is in it twice, and its next id has never been used in it. -/
theorem C52_all_well_formed (pinv : PInv F) (ops : List (MOp F)) (hlen : ops.length < 2 ^ 64) (i : Nat) (s : Sketch)
    (hs : (mrun pinv Multi.init ops).2.sketches[i]? = some s) :
    (∀ p id, s.getPrimitiveId p = some id ↔ s.getPrimitiveById id = some p) ∧ s.cells.Nodup ∧ s.cons.Nodup ∧
    ∀ id p, (id, p) ∈ s.prims → id < s.nextId := by
  have I0 : MInv 0 (Multi.init : Multi F) := fun s hs => by simp [Multi.init] at hs
  obtain ⟨l, -, I⟩ := MInv.run pinv ops I0 (by unfold u64Size; omega) s (List.mem_of_getElem? hs)
  exact ⟨fun p id => I.inverse p id, I.cellsNodup, I.consNodup, fun id p h => I.key_lt h⟩

/-- **C52.** Ids are unique in one sketch only: after cloning, adding a new point to the original and a new point to the
clone gives the same id to two different objects. -/
theorem C52_ids_collide (pinv : PInv F) (m : Multi F) (i : Nat) (s : Sketch) (hs : m.sketches[i]? = some s)
    (hp : ∀ a, .point a ∈ s.cells → a < m.heap.nPoints) (x y u v : F) :
    let m' := (mrun pinv m [.clone i, .on i (.addPoint2 x y), .on m.sketches.length (.addPoint2 u v)]).2
    ∃ a b id p q, m'.sketches[i]? = some a ∧ m'.sketches[m.sketches.length]? = some b ∧ p ≠ q ∧
      (id, p) ∈ a.prims ∧ (id, q) ∈ b.prims := by
  have hi := (List.getElem?_eq_some_iff.1 hs).1
  have fresh : ∀ n, m.heap.nPoints ≤ n → s.hasPrim (.point n) = false := fun n hn => by
    cases h : s.hasPrim (.point n)
    · rfl
    · have := hp n ((hasPrim_iff s _).1 h); omega
  have mem : ∀ (k : Nat) (v : PrimCell) (l : List (Nat × PrimCell)), (k, v) ∈ mapInsert k v l := by
    intro k v l
    induction l with
    | nil => simp [mapInsert]
    | cons z l ih => unfold mapInsert; split <;> [simp; split <;> simp [ih]]
  simp only [mrun, mstep, hs]
  rw [List.getElem?_append_left hi, hs]
  simp only [step, Op.live, Bool.not_true, Bool.false_eq_true, if_false, addPoint2, Sketch.addPrimitive, primRefs, List.any_nil,
    Heap.allocPoint, fresh _ (Nat.le_refl _)]
  rw [List.getElem?_set_ne (by omega), List.getElem?_append_right (Nat.le_refl _)]
  simp only [Nat.sub_self, List.getElem?_cons_zero, Sketch.clone]
  have f1 := fresh (m.heap.nPoints + 1) (by omega)
  simp only [Sketch.hasPrim] at f1 ⊢
  simp only [f1, Bool.false_eq_true, if_false]
  exact ⟨_, _, s.nextId, .point m.heap.nPoints, .point (m.heap.nPoints + 1),
    (by rw [List.getElem?_set_ne (by omega), List.getElem?_set_self (by simp; omega)]),
    (by rw [List.getElem?_set_self (by simp)]), by simp, mem _ _ _, mem _ _ _⟩

/-- a program: a sketch with a point, its clone, the clone moved, then a point deleted from the clone -/
example (pinv : PInv F) (h : Num.isFinite (1.0 : F) = true) :
    let ops : List (MOp F) := [.newSketch, .on 0 (.addPoint2 0.0 0.0), .clone 0, .on 1 (.setData [1.0, 1.0]),
      .on 1 (.deletePrimitive 0)]
    (mrun pinv Multi.init ops).2.sketches.map (·.prims) = [[(0, .point 0)], []] ∧
    ((mrun pinv Multi.init ops).2.heap.points 0).data = ⟨1.0, 1.0⟩ := by
  simp [mrun, mstep, step, Op.live, addPoint2, Sketch.addPrimitive, Sketch.deletePrimitive, primFields, Heap.allocPoint,
    Multi.init, Sketch.new, Sketch.hasPrim, Sketch.clone, mapInsert, mapRemove, mapGet, setData, setDataLoop, primSetData,
    getNDofs, primData, h, Heap.empty, Heap.setPoint, upd]

end Isotope
