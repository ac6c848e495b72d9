import Verif.Model.Serde
import Verif.Lemmas.Hist
import Verif.Lemmas.Chunk
import Mathlib.Data.List.Forall2

/-!
# Facts about saving and loading
-/

set_option linter.unusedSimpArgs false
set_option linter.unusedSectionVars false
set_option linter.unusedTactic false
set_option linter.unreachableTactic false
set_option linter.unnecessarySeqFocus false

namespace Isotope
variable {F : Type}

/-- every object of `h` is in `h'`, unchanged -/
structure Ext (h h' : Heap F) : Prop where
  points : ∀ a, a < h.nPoints → h'.points a = h.points a
  lines : ∀ a, a < h.nLines → h'.lines a = h.lines a
  arcs : ∀ a, a < h.nArcs → h'.arcs a = h.arcs a
  circles : ∀ a, a < h.nCircles → h'.circles a = h.circles a
  cons : ∀ a, a < h.nCons → h'.cons a = h.cons a
  grows : Grows h h'

theorem Ext.refl (h : Heap F) : Ext h h := ⟨fun _ _ => rfl, fun _ _ => rfl, fun _ _ => rfl, fun _ _ => rfl, fun _ _ => rfl, .refl h⟩

theorem Ext.trans {h1 h2 h3 : Heap F} (a : Ext h1 h2) (b : Ext h2 h3) : Ext h1 h3 :=
  ⟨fun x hx => (b.points x (Nat.lt_of_lt_of_le hx a.grows.nPoints)).trans (a.points x hx),
   fun x hx => (b.lines x (Nat.lt_of_lt_of_le hx a.grows.nLines)).trans (a.lines x hx),
   fun x hx => (b.arcs x (Nat.lt_of_lt_of_le hx a.grows.nArcs)).trans (a.arcs x hx),
   fun x hx => (b.circles x (Nat.lt_of_lt_of_le hx a.grows.nCircles)).trans (a.circles x hx),
   fun x hx => (b.cons x (Nat.lt_of_lt_of_le hx a.grows.nCons)).trans (a.cons x hx),
   ⟨Nat.le_trans a.grows.nPoints b.grows.nPoints, Nat.le_trans a.grows.nLines b.grows.nLines, Nat.le_trans a.grows.nArcs b.grows.nArcs,
    Nat.le_trans a.grows.nCircles b.grows.nCircles, Nat.le_trans a.grows.nCons b.grows.nCons⟩⟩

theorem upd_ne_of_lt {α : Type} (f : Nat → α) (v : α) {a n : Nat} (h : a < n) : upd f n v a = f a := by
  simp [upd, Nat.ne_of_lt h]

theorem allocPoint_ext (h : Heap F) (p : Point2 F) : Ext h (h.allocPoint p).2 :=
  ⟨fun _ ha => upd_ne_of_lt _ _ ha, fun _ _ => rfl, fun _ _ => rfl, fun _ _ => rfl, fun _ _ => rfl,
    ⟨Nat.le_succ _, Nat.le_refl _, Nat.le_refl _, Nat.le_refl _, Nat.le_refl _⟩⟩
theorem allocLine_ext (h : Heap F) (p : Line) : Ext h (h.allocLine p).2 :=
  ⟨fun _ _ => rfl, fun _ ha => upd_ne_of_lt _ _ ha, fun _ _ => rfl, fun _ _ => rfl, fun _ _ => rfl,
    ⟨Nat.le_refl _, Nat.le_succ _, Nat.le_refl _, Nat.le_refl _, Nat.le_refl _⟩⟩
theorem allocArc_ext (h : Heap F) (p : Arc F) : Ext h (h.allocArc p).2 :=
  ⟨fun _ _ => rfl, fun _ _ => rfl, fun _ ha => upd_ne_of_lt _ _ ha, fun _ _ => rfl, fun _ _ => rfl,
    ⟨Nat.le_refl _, Nat.le_refl _, Nat.le_succ _, Nat.le_refl _, Nat.le_refl _⟩⟩
theorem allocCircle_ext (h : Heap F) (p : Circle F) : Ext h (h.allocCircle p).2 :=
  ⟨fun _ _ => rfl, fun _ _ => rfl, fun _ _ => rfl, fun _ ha => upd_ne_of_lt _ _ ha, fun _ _ => rfl,
    ⟨Nat.le_refl _, Nat.le_refl _, Nat.le_refl _, Nat.le_succ _, Nat.le_refl _⟩⟩
theorem allocCons_ext (h : Heap F) (p : Constraint F) : Ext h (h.allocCons p).2 :=
  ⟨fun _ _ => rfl, fun _ _ => rfl, fun _ _ => rfl, fun _ _ => rfl, fun _ ha => upd_ne_of_lt _ _ ha,
    ⟨Nat.le_refl _, Nat.le_refl _, Nat.le_refl _, Nat.le_refl _, Nat.le_succ _⟩⟩

theorem loadLine_ext (h : Heap F) (l : DLine F) : Ext h (loadLine h l).2 :=
  ((allocPoint_ext h _).trans (allocPoint_ext _ _)).trans (allocLine_ext _ _)
theorem loadArc_ext (h : Heap F) (l : DArc F) : Ext h (loadArc h l).2 := (allocPoint_ext h _).trans (allocArc_ext _ _)
theorem loadCircle_ext (h : Heap F) (l : DCircle F) : Ext h (loadCircle h l).2 :=
  (allocPoint_ext h _).trans (allocCircle_ext _ _)

/-- the address is new: live in `h'`, not in `h` -/
def Fresh (h h' : Heap F) (c : PrimCell) : Prop := c.live h = false ∧ c.live h' = true

theorem Fresh.later {h h' h'' : Heap F} {c : PrimCell} (f : Fresh h h' c) (g : Grows h' h'') : Fresh h h'' c :=
  ⟨f.1, g.live f.2⟩

theorem Fresh.earlier {h0 h h' : Heap F} {c : PrimCell} (g : Grows h0 h) (f : Fresh h h' c) : Fresh h0 h' c := by
  refine ⟨?_, f.2⟩
  cases e : c.live h0 with
  | false => rfl
  | true => rw [← f.1]; exact (g.live e).symm

variable [Num F]

theorem Ext.savePrim {h h' : Heap F} (e : Ext h h') {c : PrimCell} (hc : c.live h = true)
    (hr : ∀ r ∈ primFields h c, r.live h = true) : savePrim h' c = savePrim h c ∧ primFields h' c = primFields h c := by
  cases c <;> simp only [PrimCell.live, decide_eq_true_eq, primFields, List.mem_cons, List.not_mem_nil, or_false,
    forall_eq_or_imp, forall_eq] at hc hr
  · simp [Isotope.savePrim, primFields, e.points _ hc]
  · simp [Isotope.savePrim, saveLine, primFields, e.lines _ hc, e.points _ hr.1, e.points _ hr.2]
  · simp [Isotope.savePrim, saveArc, primFields, e.arcs _ hc, e.points _ hr]
  · simp [Isotope.savePrim, saveCircle, primFields, e.circles _ hc, e.points _ hr]

theorem Ext.consDeps {h h' : Heap F} (e : Ext h h') {c : Constraint F} (hr : ∀ r ∈ consDeps h c, r.live h = true) :
    consDeps h' c = consDeps h c := by
  unfold Isotope.consDeps at hr ⊢
  congr 1
  refine flatMap_congr_mem fun x hx => ?_
  exact (e.savePrim (hr x (by simp [hx])) fun r hr' => hr r (List.mem_append_right _ (List.mem_flatMap.2 ⟨x, hx, hr'⟩))).2

theorem Ext.saveCons {h h' : Heap F} (e : Ext h h') {c : Constraint F} (hr : ∀ r ∈ Isotope.consDeps h c, r.live h = true) :
    saveCons h' c = saveCons h c := by
  cases c <;> simp only [Isotope.consDeps, consFields, PrimCell.live, decide_eq_true_eq, primFields, List.mem_cons,
    List.not_mem_nil, or_false, forall_eq_or_imp, forall_eq, List.mem_append, List.flatMap_cons, List.flatMap_nil,
    List.append_nil, List.nil_append, List.cons_append] at hr
  · simp [Isotope.saveCons, e.points _ hr.1, e.points _ hr.2.1, e.points _ hr.2.2]
  · simp [Isotope.saveCons, saveArc, e.arcs _ hr.1, e.points _ hr.2.1, e.points _ hr.2.2]
  · simp [Isotope.saveCons, saveArc, e.arcs _ hr.1, e.points _ hr.2.1, e.points _ hr.2.2]
  · simp [Isotope.saveCons, e.points _ hr.1, e.points _ hr.2]
  · simp [Isotope.saveCons, e.points _ hr.1, e.points _ hr.2]
  · simp [Isotope.saveCons, e.points _ hr.1, e.points _ hr.2]
  · simp [Isotope.saveCons, e.points _ hr]
  · simp [Isotope.saveCons, saveLine, e.lines _ hr.1, e.lines _ hr.2.1, e.points _ hr.2.2.1, e.points _ hr.2.2.2.1,
      e.points _ hr.2.2.2.2.1, e.points _ hr.2.2.2.2.2]
  · simp [Isotope.saveCons, saveLine, e.lines _ hr.1, e.points _ hr.2.1, e.points _ hr.2.2]
  · simp [Isotope.saveCons, saveLine, e.lines _ hr.1, e.points _ hr.2.1, e.points _ hr.2.2]
  · simp [Isotope.saveCons, saveLine, e.lines _ hr.1, e.lines _ hr.2.1, e.points _ hr.2.2.1, e.points _ hr.2.2.2.1,
      e.points _ hr.2.2.2.2.1, e.points _ hr.2.2.2.2.2]
  · simp [Isotope.saveCons, saveLine, e.lines _ hr.1, e.lines _ hr.2.1, e.points _ hr.2.2.1, e.points _ hr.2.2.2.1,
      e.points _ hr.2.2.2.2.1, e.points _ hr.2.2.2.2.2]

theorem loadPrim_spec (h : Heap F) (d : DPrim F) :
    Ext h (loadPrim h d).2 ∧ savePrim (loadPrim h d).2 (loadPrim h d).1 = d ∧ Fresh h (loadPrim h d).2 (loadPrim h d).1 ∧
    ∀ r ∈ primFields (loadPrim h d).2 (loadPrim h d).1, Fresh h (loadPrim h d).2 r := by
  cases d with
  | point p =>
    refine ⟨allocPoint_ext h p, ?_, ?_, ?_⟩ <;>
      simp [loadPrim, Isotope.savePrim, Heap.allocPoint, Heap.setPoint, Fresh, PrimCell.live, primFields, upd]
  | line l =>
    refine ⟨loadLine_ext h l, ?_, ?_, ?_⟩ <;>
      simp [loadPrim, loadLine, Isotope.savePrim, saveLine, Heap.allocPoint, Heap.setPoint, Heap.allocLine, Heap.setLine,
        Fresh, PrimCell.live, primFields, upd] <;> (try simp [Nat.add_assoc]) <;> try omega
  | arc l =>
    refine ⟨loadArc_ext h l, ?_, ?_, ?_⟩ <;>
      simp [loadPrim, loadArc, Isotope.savePrim, saveArc, Heap.allocPoint, Heap.setPoint, Heap.allocArc, Heap.setArc,
        Fresh, PrimCell.live, primFields, upd]
  | circle l =>
    refine ⟨loadCircle_ext h l, ?_, ?_, ?_⟩ <;>
      simp [loadPrim, loadCircle, Isotope.savePrim, saveCircle, Heap.allocPoint, Heap.setPoint, Heap.allocCircle,
        Heap.setCircle, Fresh, PrimCell.live, primFields, upd]

theorem loadConsBody_spec (h : Heap F) (d : DCons F) :
    Ext h (loadConsBody h d).2 ∧ saveCons (loadConsBody h d).2 (loadConsBody h d).1 = d ∧
    (loadConsBody h d).2.nCons = h.nCons ∧
    ∀ r ∈ consDeps (loadConsBody h d).2 (loadConsBody h d).1, Fresh h (loadConsBody h d).2 r := by
  cases d with
  | angle p1 p2 mid d =>
    refine ⟨((allocPoint_ext h _).trans (allocPoint_ext _ _)).trans (allocPoint_ext _ _), ?_, rfl, ?_⟩ <;>
      simp [loadConsBody, Isotope.saveCons, Heap.allocPoint, Heap.setPoint, Fresh, PrimCell.live, Isotope.consDeps, consFields, primFields, upd] <;> (try simp [Nat.add_assoc]) <;> try omega
  | arcEnd x p =>
    refine ⟨(loadArc_ext h _).trans (allocPoint_ext _ _), ?_, rfl, ?_⟩ <;>
      simp [loadConsBody, loadArc, saveArc, Isotope.saveCons, Heap.allocPoint, Heap.setPoint, Heap.allocArc, Heap.setArc, Fresh, PrimCell.live, Isotope.consDeps, consFields, primFields, upd] <;> (try simp [Nat.add_assoc]) <;> try omega
  | arcStart x p =>
    refine ⟨(loadArc_ext h _).trans (allocPoint_ext _ _), ?_, rfl, ?_⟩ <;>
      simp [loadConsBody, loadArc, saveArc, Isotope.saveCons, Heap.allocPoint, Heap.setPoint, Heap.allocArc, Heap.setArc, Fresh, PrimCell.live, Isotope.consDeps, consFields, primFields, upd] <;> (try simp [Nat.add_assoc]) <;> try omega
  | euclid p1 p2 d =>
    refine ⟨(allocPoint_ext h _).trans (allocPoint_ext _ _), ?_, rfl, ?_⟩ <;>
      simp [loadConsBody, Isotope.saveCons, Heap.allocPoint, Heap.setPoint, Fresh, PrimCell.live, Isotope.consDeps, consFields, primFields, upd] <;> (try simp [Nat.add_assoc]) <;> try omega
  | horizDist p1 p2 d =>
    refine ⟨(allocPoint_ext h _).trans (allocPoint_ext _ _), ?_, rfl, ?_⟩ <;>
      simp [loadConsBody, Isotope.saveCons, Heap.allocPoint, Heap.setPoint, Fresh, PrimCell.live, Isotope.consDeps, consFields, primFields, upd] <;> (try simp [Nat.add_assoc]) <;> try omega
  | vertDist p1 p2 d =>
    refine ⟨(allocPoint_ext h _).trans (allocPoint_ext _ _), ?_, rfl, ?_⟩ <;>
      simp [loadConsBody, Isotope.saveCons, Heap.allocPoint, Heap.setPoint, Fresh, PrimCell.live, Isotope.consDeps, consFields, primFields, upd] <;> (try simp [Nat.add_assoc]) <;> try omega
  | fix p d =>
    refine ⟨allocPoint_ext h _, ?_, rfl, ?_⟩ <;>
      simp [loadConsBody, Isotope.saveCons, Heap.allocPoint, Heap.setPoint, Fresh, PrimCell.live, Isotope.consDeps, consFields, primFields, upd]
  | horizLine l =>
    refine ⟨loadLine_ext h _, ?_, rfl, ?_⟩ <;>
      simp [loadConsBody, loadLine, saveLine, Isotope.saveCons, Heap.allocPoint, Heap.setPoint, Heap.allocLine, Heap.setLine, Fresh, PrimCell.live, Isotope.consDeps, consFields, primFields, upd] <;> (try simp [Nat.add_assoc]) <;> try omega
  | vertLine l =>
    refine ⟨loadLine_ext h _, ?_, rfl, ?_⟩ <;>
      simp [loadConsBody, loadLine, saveLine, Isotope.saveCons, Heap.allocPoint, Heap.setPoint, Heap.allocLine, Heap.setLine, Fresh, PrimCell.live, Isotope.consDeps, consFields, primFields, upd] <;> (try simp [Nat.add_assoc]) <;> try omega
  | eqLen l m =>
    refine ⟨(loadLine_ext h _).trans (loadLine_ext _ _), ?_, rfl, ?_⟩ <;>
      simp [loadConsBody, loadLine, saveLine, Isotope.saveCons, Heap.allocPoint, Heap.setPoint, Heap.allocLine, Heap.setLine, Fresh, PrimCell.live, Isotope.consDeps, consFields, primFields, upd] <;> (try simp [Nat.add_assoc]) <;> try omega
  | parallel l m =>
    refine ⟨(loadLine_ext h _).trans (loadLine_ext _ _), ?_, rfl, ?_⟩ <;>
      simp [loadConsBody, loadLine, saveLine, Isotope.saveCons, Heap.allocPoint, Heap.setPoint, Heap.allocLine, Heap.setLine, Fresh, PrimCell.live, Isotope.consDeps, consFields, primFields, upd] <;> (try simp [Nat.add_assoc]) <;> try omega
  | perp l m =>
    refine ⟨(loadLine_ext h _).trans (loadLine_ext _ _), ?_, rfl, ?_⟩ <;>
      simp [loadConsBody, loadLine, saveLine, Isotope.saveCons, Heap.allocPoint, Heap.setPoint, Heap.allocLine, Heap.setLine, Fresh, PrimCell.live, Isotope.consDeps, consFields, primFields, upd] <;> (try simp [Nat.add_assoc]) <;> try omega

theorem loadCons_spec (h : Heap F) (d : DCons F) :
    Ext h (loadCons h d).2 ∧ saveCons (loadCons h d).2 ((loadCons h d).2.cons (loadCons h d).1) = d ∧
    (loadCons h d).1 = h.nCons ∧ (loadCons h d).2.nCons = h.nCons + 1 ∧
    ∀ r ∈ consDeps (loadCons h d).2 ((loadCons h d).2.cons (loadCons h d).1), Fresh h (loadCons h d).2 r := by
  obtain ⟨e, sv, n, fr⟩ := loadConsBody_spec h d
  have e2 := allocCons_ext (loadConsBody h d).2 (loadConsBody h d).1
  have hc : (loadCons h d).2.cons (loadCons h d).1 = (loadConsBody h d).1 := by
    simp [loadCons, Heap.allocCons, Heap.setCons, upd]
  have hl : ∀ r ∈ consDeps (loadConsBody h d).2 (loadConsBody h d).1, r.live (loadConsBody h d).2 = true :=
    fun r hr => (fr r hr).2
  rw [hc]
  refine ⟨e.trans e2, (e2.saveCons hl).trans sv, n, congrArg (· + 1) n, fun r hr => ?_⟩
  have hd : consDeps (loadCons h d).2 (loadConsBody h d).1 = _ := e2.consDeps hl
  rw [hd] at hr
  exact (fr r hr).later e2.grows

omit [Num F] in
theorem mapInsert_append {α : Type} (k : Nat) (v : α) (m : List (Nat × α)) (h : ∀ x ∈ m, x.1 < k) :
    mapInsert k v m = m ++ [(k, v)] := by
  induction m with
  | nil => rfl
  | cons x m ih =>
    have hx := h x (by simp)
    simp only [mapInsert, List.cons_append]
    rw [if_neg (by omega), if_neg (by omega), ih fun y hy => h y (by simp [hy])]

/-- what loading the map gives -/
structure LoadedPrims (h : Heap F) (l : List (Nat × DPrim F)) (new : List (Nat × PrimCell)) (h' : Heap F) : Prop where
  ext : Ext h h'
  save : new.map (fun kp => (kp.1, savePrim h' kp.2)) = l
  fresh : ∀ kp ∈ new, Fresh h h' kp.2
  refs : ∀ kp ∈ new, ∀ r ∈ primFields h' kp.2, Fresh h h' r ∧ r ∉ new.map (·.2)
  nodup : (new.map (·.2)).Nodup

theorem Fresh.ne {h0 h h' h'' : Heap F} {c r : PrimCell} (f : Fresh h0 h c) (g : Fresh h' h'' r) (e : Grows h h') : r ≠ c := by
  rintro rfl
  have := e.live f.2
  rw [g.1] at this
  exact absurd this (by simp)

theorem loadPrims_spec (l : List (Nat × DPrim F)) (hs : SortedKeys l) (m : List (Nat × PrimCell)) (h : Heap F)
    (hm : ∀ x ∈ m, ∀ y ∈ l, x.1 < y.1) :
    ∃ new, (loadPrims l m h).1 = m ++ new ∧ LoadedPrims h l new (loadPrims l m h).2 := by
  induction l generalizing m h with
  | nil => exact ⟨[], by simp [loadPrims], .refl h, rfl, by simp, by simp, by simp⟩
  | cons x l ih =>
    obtain ⟨k, d⟩ := x
    obtain ⟨e, sv, fr, rf⟩ := loadPrim_spec h d
    rw [SortedKeys, List.pairwise_cons] at hs
    have hk : ∀ x ∈ m, x.1 < k := fun x hx => hm x hx (k, d) (by simp)
    obtain ⟨new, e1, L⟩ := ih hs.2 (m ++ [(k, (loadPrim h d).1)]) (loadPrim h d).2 (by
      intro x hx y hy
      rcases List.mem_append.1 hx with hx | hx
      · exact hm x hx y (by simp [hy])
      · simp only [List.mem_singleton] at hx; subst hx; exact hs.1 y hy)
    have eq : loadPrims ((k, d) :: l) m h = loadPrims l (m ++ [(k, (loadPrim h d).1)]) (loadPrim h d).2 := by
      simp only [loadPrims]; rw [mapInsert_append k _ m hk]
    rw [eq]
    have keep := L.ext.savePrim fr.2 fun r hr => (rf r hr).2
    refine ⟨(k, (loadPrim h d).1) :: new, by rw [e1]; simp, e.trans L.ext, ?_, ?_, ?_, ?_⟩
    · rw [List.map_cons, L.save, keep.1, sv]
    · intro kp hkp
      rcases List.mem_cons.1 hkp with rfl | hkp
      · exact fr.later L.ext.grows
      · exact (L.fresh kp hkp).earlier e.grows
    · intro kp hkp r hr
      rcases List.mem_cons.1 hkp with rfl | hkp
      · simp only at hr
        rw [keep.2] at hr
        refine ⟨(rf r hr).later L.ext.grows, fun hin => ?_⟩
        rcases List.mem_cons.1 hin with hin | hin
        · have : r ≠ (loadPrim h d).1 := by
            clear hin hkp
            revert hr
            generalize (loadPrim h d).2 = h'
            cases (loadPrim h d).1 <;> simp only [primFields, List.mem_cons, List.not_mem_nil, or_false] <;> intro hr <;>
              [skip; (rcases hr with rfl | rfl); subst hr; subst hr] <;> first | exact absurd hr (by simp) | simp
          exact this hin
        · obtain ⟨kp', hkp', rfl⟩ := List.mem_map.1 hin
          exact (Fresh.ne (rf _ hr) (L.fresh kp' hkp') (Grows.refl _)) rfl
      · obtain ⟨f1, f2⟩ := L.refs kp hkp r hr
        refine ⟨f1.earlier e.grows, fun hin => ?_⟩
        rcases List.mem_cons.1 hin with hin | hin
        · exact Fresh.ne fr f1 (Grows.refl _) hin
        · exact f2 hin
    · rw [List.map_cons, List.nodup_cons]
      refine ⟨fun hin => ?_, L.nodup⟩
      obtain ⟨kp', hkp', e'⟩ := List.mem_map.1 hin
      exact Fresh.ne fr (L.fresh kp' hkp') (Grows.refl _) e'

/-- what loading the queue gives -/
structure LoadedConss (h : Heap F) (l : List (DCons F)) (ks : List Nat) (h' : Heap F) : Prop where
  ext : Ext h h'
  save : ks.map (fun k => saveCons h' (h'.cons k)) = l
  ge : ∀ k ∈ ks, h.nCons ≤ k
  lt : ∀ k ∈ ks, k < h'.nCons
  deps : ∀ k ∈ ks, ∀ r ∈ consDeps h' (h'.cons k), Fresh h h' r
  apart : ks.Pairwise (fun k k' => k ≠ k' ∧ ∀ r ∈ consDeps h' (h'.cons k), r ∉ consDeps h' (h'.cons k'))

theorem loadConss_spec (l : List (DCons F)) (h : Heap F) : LoadedConss h l (loadConss l h).1 (loadConss l h).2 := by
  induction l generalizing h with
  | nil => exact ⟨.refl h, rfl, by simp [loadConss], by simp [loadConss], by simp [loadConss], by simp [loadConss]⟩
  | cons d l ih =>
    obtain ⟨e, sv, n, n', fr⟩ := loadCons_spec h d
    have L := ih (loadCons h d).2
    simp only [loadConss]
    have hlt : (loadCons h d).1 < (loadCons h d).2.nCons := by omega
    have hcc : (loadConss l (loadCons h d).2).2.cons (loadCons h d).1 = (loadCons h d).2.cons (loadCons h d).1 :=
      L.ext.cons _ hlt
    have hlive := fun r hr => (fr r hr).2
    have hdeps : consDeps (loadConss l (loadCons h d).2).2 ((loadConss l (loadCons h d).2).2.cons (loadCons h d).1) =
        consDeps (loadCons h d).2 ((loadCons h d).2.cons (loadCons h d).1) := by
      rw [hcc]; exact L.ext.consDeps hlive
    refine ⟨e.trans L.ext, ?_, ?_, ?_, ?_, ?_⟩
    · rw [List.map_cons, L.save, hcc, L.ext.saveCons hlive, sv]
    · intro k hk
      rcases List.mem_cons.1 hk with rfl | hk
      · omega
      · exact Nat.le_trans e.grows.nCons (L.ge k hk)
    · intro k hk
      rcases List.mem_cons.1 hk with rfl | hk
      · exact Nat.lt_of_lt_of_le hlt L.ext.grows.nCons
      · exact L.lt k hk
    · intro k hk r hr
      rcases List.mem_cons.1 hk with rfl | hk
      · rw [hdeps] at hr; exact (fr r hr).later L.ext.grows
      · exact (L.deps k hk r hr).earlier e.grows
    · rw [List.pairwise_cons]
      refine ⟨fun k' hk' => ⟨fun e' => ?_, fun r hr hr' => ?_⟩, L.apart⟩
      · have := L.ge k' hk'; omega
      · rw [hdeps] at hr
        exact Fresh.ne (fr r hr) (L.deps k' hk' r hr') (Grows.refl _) rfl

/-! ## Everything that can be read is in the document -/

theorem saveLine_eq {h h' : Heap F} {l m : Nat} (e : saveLine h (h.lines l) = saveLine h' (h'.lines m)) :
    lineStart h l = lineStart h' m ∧ lineEnd h l = lineEnd h' m := by
  simp only [saveLine, DLine.mk.injEq] at e
  simp [lineStart, lineEnd, ptData, e.1, e.2]

theorem saveArc_eq {h h' : Heap F} {a b : Arc F} (e : saveArc h a = saveArc h' b) :
    a.startPoint h = b.startPoint h' ∧ a.endPoint h = b.endPoint h' := by
  simp only [saveArc, DArc.mk.injEq] at e
  simp [Arc.startPoint, Arc.endPoint, Arc.radius, Arc.startAngle, Arc.endAngle, e.1, e.2.1]

theorem currentAngle_congr {h h' : Heap F} {p1 p2 mid q1 q2 m : Nat} (e1 : ptData h p1 = ptData h' q1)
    (e2 : ptData h p2 = ptData h' q2) (e3 : ptData h mid = ptData h' m) :
    currentAngle h p1 p2 mid = currentAngle h' q1 q2 m := by
  unfold currentAngle
  rw [e1, e2, e3]

theorem lossValue_of_save {h h' : Heap F} {c c' : Constraint F} (e : saveCons h c = saveCons h' c') :
    lossValue h c = lossValue h' c' := by
  cases c <;> cases c' <;> simp only [saveCons, reduceCtorEq] at e <;>
    simp only [DCons.angle.injEq, DCons.arcEnd.injEq, DCons.arcStart.injEq, DCons.euclid.injEq, DCons.horizDist.injEq,
      DCons.vertDist.injEq, DCons.fix.injEq, DCons.eqLen.injEq, DCons.horizLine.injEq, DCons.vertLine.injEq,
      DCons.parallel.injEq, DCons.perp.injEq] at e
  · rename_i p1 p2 mid _ _ _ _ _
    obtain ⟨e1, e2, e3, rfl⟩ := e
    have f1 := congrArg Point2.data e1
    have f2 := congrArg Point2.data e2
    have f3 := congrArg Point2.data e3
    have : currentAngle h p1 p2 mid = currentAngle h' _ _ _ := currentAngle_congr f1 f2 f3
    simp only [lossValue, this]
  · simp only [lossValue, ptData, (saveArc_eq e.1).2, e.2]
  · simp only [lossValue, ptData, (saveArc_eq e.1).1, e.2]
  · simp only [lossValue, euclidCurrent, ptData, e.1, e.2.1, e.2.2]
  · simp only [lossValue, horizCurrent, ptData, e.1, e.2.1, e.2.2]
  · simp only [lossValue, vertCurrent, ptData, e.1, e.2.1, e.2.2]
  · simp only [lossValue, ptData, e.1, e.2]
  · simp only [lossValue, (saveLine_eq e.1).1, (saveLine_eq e.1).2, (saveLine_eq e.2).1, (saveLine_eq e.2).2]
  · simp only [lossValue, (saveLine_eq e).1, (saveLine_eq e).2]
  · simp only [lossValue, (saveLine_eq e).1, (saveLine_eq e).2]
  · simp only [lossValue, (saveLine_eq e.1).1, (saveLine_eq e.1).2, (saveLine_eq e.2).1, (saveLine_eq e.2).2]
  · simp only [lossValue, (saveLine_eq e.1).1, (saveLine_eq e.1).2, (saveLine_eq e.2).1, (saveLine_eq e.2).2]

theorem primData_of_save {h h' : Heap F} {c c' : PrimCell} (e : savePrim h c = savePrim h' c') :
    primData h c = primData h' c' ∧ primGrad h c = primGrad h' c' := by
  cases c <;> cases c' <;> simp only [savePrim, reduceCtorEq] at e <;>
    simp only [DPrim.point.injEq, DPrim.line.injEq, DPrim.arc.injEq, DPrim.circle.injEq, saveArc, saveCircle,
      DArc.mk.injEq, DCircle.mk.injEq] at e <;> simp [primData, primGrad, e]

omit [Num F] in
/-- equal images, position by position -/
theorem forall₂_of_map {α β γ : Type} {f : α → γ} {g : β → γ} {l : List α} {m : List β} (e : l.map f = m.map g) :
    List.Forall₂ (fun a b => f a = g b) l m := by
  induction l generalizing m with
  | nil => cases m <;> simp at e; exact .nil
  | cons a l ih =>
    cases m with
    | nil => simp at e
    | cons b m =>
      simp only [List.map_cons, List.cons.injEq] at e
      exact .cons e.1 (ih e.2)

theorem save_prims {h h' : Heap F} {s s' : Sketch} (e : saveSketch h s = saveSketch h' s') :
    List.Forall₂ (fun a b : Nat × PrimCell => a.1 = b.1 ∧ savePrim h a.2 = savePrim h' b.2) s.prims s'.prims := by
  simp only [saveSketch, Doc.mk.injEq] at e
  refine (forall₂_of_map e.1).imp fun a b hab => ?_
  simpa using hab

theorem save_getData {h h' : Heap F} {s s' : Sketch} (e : saveSketch h s = saveSketch h' s') :
    getData h s = getData h' s' ∧ s.cells.flatMap (primGrad h) = s'.cells.flatMap (primGrad h') := by
  have := save_prims e
  rw [getData_eq, getData_eq]
  unfold Sketch.cells
  clear e
  revert this
  generalize s.prims = l
  generalize s'.prims = m
  intro H
  induction H with
  | nil => exact ⟨rfl, rfl⟩
  | cons hab _ ih =>
    obtain ⟨e1, e2⟩ := primData_of_save hab.2
    simp only [List.map_cons, List.flatMap_cons, e1, e2, ih.1, ih.2, true_and]

theorem save_lossPer {h h' : Heap F} {s s' : Sketch} (e : saveSketch h s = saveSketch h' s') :
    getLossPerConstraint h s = getLossPerConstraint h' s' := by
  simp only [saveSketch, Doc.mk.injEq] at e
  unfold getLossPerConstraint
  have := forall₂_of_map e.2.2
  revert this
  generalize s.cons = l
  generalize s'.cons = m
  intro H
  induction H with
  | nil => rfl
  | cons hab _ ih => rw [List.map_cons, List.map_cons, ih, lossValue_of_save hab]

theorem getLoss_fold (h : Heap F) (s : Sketch) : getLoss h s = (getLossPerConstraint h s).foldl (· + ·) (0.0 : F) := by
  unfold getLoss getLossPerConstraint
  rw [List.foldl_map]

theorem save_getAllPoints {h h' : Heap F} {s s' : Sketch} (e : saveSketch h s = saveSketch h' s') :
    getAllPoints h s = getAllPoints h' s' := by
  have := save_prims e
  unfold getAllPoints
  clear e
  revert this
  generalize s.prims = l
  generalize s'.prims = m
  intro H
  induction H with
  | nil => rfl
  | @cons a b l m hab _ ih =>
    obtain ⟨k, c⟩ := a
    obtain ⟨k', c'⟩ := b
    obtain ⟨rfl, e⟩ := hab
    simp only at e
    rw [List.filterMap_cons, List.filterMap_cons, ih]
    cases c <;> cases c' <;> simp only [savePrim, reduceCtorEq] at e <;>
      (try simp only [DPrim.point.injEq] at e) <;> simp [e]

/-! ## Constraints act on what they refer to, and on nothing else -/

/-- the objects whose gradient a contribution changes -/
def Chunk.cells (h : Heap F) : Chunk F → List PrimCell
  | .point a _ => [.point a]
  | .line l _ => [.point (h.lines l).start, .point (h.lines l).stop]
  | .arc a _ => [.arc a, .point (h.arcs a).center]

theorem chunks_cells (h : Heap F) (c : Constraint F) : ∀ k ∈ chunks h c, ∀ x ∈ k.cells h, x ∈ consDeps h c := by
  intro k hk x hx
  cases c <;> simp only [chunks] at hk <;> (try (repeat' split at hk)) <;>
    simp only [List.mem_cons, List.not_mem_nil, or_false] at hk <;>
    (try (rcases hk with rfl | rfl | rfl)) <;> (try (rcases hk with rfl | rfl)) <;> (try subst hk) <;>
    (try exact absurd hk (by simp)) <;>
    simp only [Chunk.cells, List.mem_cons, List.not_mem_nil, or_false] at hx <;>
    (try (rcases hx with rfl | rfl)) <;> (try subst hx) <;> simp [consDeps, consFields, primFields]

theorem pointAddGrad_other (h0 h : Heap F) (a : Nat) (g : Vec2 F) {x : PrimCell} (hx : x ≠ .point a)
    (e : SameRefs h0 h ∧ primGrad h x = primGrad h0 x) :
    Post (pointAddGrad h a g) (fun h' => SameRefs h0 h' ∧ primGrad h' x = primGrad h0 x) := by
  unfold pointAddGrad
  split
  · refine ⟨e.1.trans (setPointGrad_gradOnly h a _).1, ?_⟩
    rw [← e.2]
    cases x with
    | point b =>
      have : b ≠ a := fun e => hx (by rw [e])
      simp [endHeap', primGrad, Heap.setPoint, upd, this]
    | line b => rfl
    | arc b => rfl
    | circle b => rfl
  · exact e

theorem applyChunk_other (h0 h : Heap F) (k : Chunk F) {x : PrimCell} (hx : x ∉ k.cells h0)
    (e : SameRefs h0 h ∧ primGrad h x = primGrad h0 x) :
    Post (applyChunk h k) (fun h' => SameRefs h0 h' ∧ primGrad h' x = primGrad h0 x) := by
  cases k with
  | point a g =>
    simp only [Chunk.cells, List.mem_cons, List.not_mem_nil, or_false] at hx
    exact pointAddGrad_other h0 h a g hx e
  | line l g =>
    simp only [Chunk.cells, List.mem_cons, List.not_mem_nil, or_false, not_or] at hx
    simp only [applyChunk, lineAddGrad]
    split
    · refine post_bind (pointAddGrad_other h0 h _ _ (by rw [e.1.lines]; exact hx.1) e) fun h1 e1 => ?_
      exact pointAddGrad_other h0 h1 _ _ (by rw [e1.1.lines]; exact hx.2) e1
    · exact e
  | arc a g =>
    simp only [Chunk.cells, List.mem_cons, List.not_mem_nil, or_false, not_or] at hx
    simp only [applyChunk, arcAddGrad]
    split
    · refine post_bind (pointAddGrad_other h0 h _ _ (by rw [e.1.arcCenter]; exact hx.2) e) fun h1 e1 => ?_
      refine ⟨e1.1.trans (setArcGrad_gradOnly h1 a _).1, ?_⟩
      rw [← e1.2]
      cases x with
      | arc b =>
        have : b ≠ a := fun e => hx.1 (by rw [e])
        simp [endHeap', primGrad, Heap.setArc, upd, this]
      | line b => rfl
      | point b => rfl
      | circle b => rfl
    · exact e

theorem foldChunks_other (h0 h : Heap F) (ks : List (Chunk F)) {x : PrimCell} (hx : ∀ k ∈ ks, x ∉ k.cells h0)
    (e : SameRefs h0 h ∧ primGrad h x = primGrad h0 x) :
    Post (ks.foldlM applyChunk h) (fun h' => SameRefs h0 h' ∧ primGrad h' x = primGrad h0 x) := by
  induction ks generalizing h with
  | nil => exact e
  | cons k ks ih =>
    rw [List.foldlM_cons]
    exact post_bind (applyChunk_other h0 h k (hx k (by simp)) e) fun h1 e1 => ih h1 (fun k' hk' => hx k' (by simp [hk'])) e1

/-- `update_gradient` leaves alone the gradient of everything the constraint does not look at. -/
theorem updateGradient_other (h : Heap F) (c : Constraint F) {x : PrimCell} (hx : x ∉ consDeps h c) :
    Post (updateGradient h c) (fun h' => SameRefs h h' ∧ primGrad h' x = primGrad h x) := by
  rw [updateGradient_eq]
  exact foldChunks_other h h _ (fun k hk hin => hx (chunks_cells h c k hk x hin)) ⟨.refl h, rfl⟩

theorem consDeps_sameRefs {h h' : Heap F} (r : SameRefs h h') (c : Constraint F) : consDeps h' c = consDeps h c := by
  unfold consDeps
  congr 1
  refine flatMap_congr_mem fun x _ => ?_
  cases x <;> simp [primFields, r.lines, r.arcCenter, r.circleCenter]

/-- no constraint of the sketch looks at a primitive of the sketch -/
def Detached (h : Heap F) (s : Sketch) : Prop := ∀ k ∈ s.cons, ∀ r ∈ consDeps h (h.cons k), r ∉ s.cells

theorem updateAll_other (h0 h : Heap F) (cs : List Nat) {x : PrimCell} (hx : ∀ k ∈ cs, x ∉ consDeps h0 (h0.cons k))
    (e : SameRefs h0 h ∧ primGrad h x = primGrad h0 x) :
    Post (updateAll h cs) (fun h' => SameRefs h0 h' ∧ primGrad h' x = primGrad h0 x) := by
  unfold updateAll
  induction cs generalizing h with
  | nil => exact e
  | cons k ks ih =>
    rw [List.foldlM_cons]
    refine post_bind ?_ fun h1 e1 => ih h1 (fun k' hk' => hx k' (by simp [hk'])) e1
    have := updateGradient_other h (h.cons k) (x := x) (by
      rw [consDeps_sameRefs e.1, e.1.cons]; exact hx k (by simp))
    exact ⟨e.1.trans this.1, this.2.trans e.2⟩

theorem Detached.zero_grads {h : Heap F} {s : Sketch} :
    s.cells.flatMap (primGrad (zeroGrads h s)) = zerosVec (getNDofs h s) := by
  rw [getNDofs_eq]
  have : ∀ l : List PrimCell, (∀ c ∈ l, c ∈ s.cells) →
      l.flatMap (primGrad (zeroGrads h s)) = zerosVec (l.flatMap (primData h)).length := by
    intro l hl
    induction l with
    | nil => rfl
    | cons c l ih =>
      rw [List.flatMap_cons, List.flatMap_cons, List.length_append, ih fun c hc => hl c (by simp [hc]), zeroGrads_grad,
        if_pos (hl c (by simp))]
      simp [zerosVec, List.replicate_append_replicate]
  exact this _ fun _ h => h

theorem Detached.congr {h h' : Heap F} {s : Sketch} (r : SameRefs h h') (d : Detached h s) : Detached h' s := by
  intro k hk x hx
  rw [consDeps_sameRefs r, r.cons] at hx
  exact d k hk x hx

theorem Detached.gradient {h h' : Heap F} {s : Sketch} (d : Detached h s) {g : List F}
    (e : getGradient h s = .ok (g, h')) : g = zerosVec (getNDofs h s) := by
  unfold getGradient at e
  have key : ∀ x ∈ s.cells, Post (updateAll (zeroGrads h s) s.cons)
      (fun h' => SameRefs (zeroGrads h s) h' ∧ primGrad h' x = primGrad (zeroGrads h s) x) := fun x hx =>
    updateAll_other _ _ _ (fun k hk hin => d.congr (zeroGrads_gradOnly h s).1 k hk x hin hx) ⟨.refl _, rfl⟩
  cases hu : updateAll (zeroGrads h s) s.cons with
  | error h1 => rw [hu] at e; simp at e
  | ok h1 =>
    rw [hu] at e key
    simp only at e
    rw [collectGradient_eq] at e
    have he : s.cells.flatMap (primGrad h1) = zerosVec (getNDofs h s) := by
      rw [← Detached.zero_grads]
      exact flatMap_congr_mem fun x hx => (key x hx).2
    rw [he] at e
    split at e
    · rename_i heq
      split at heq <;> simp at heq e
    · rename_i g' heq
      split at heq
      · simp only [Option.some.injEq] at heq
        simp only [Except.ok.injEq, Prod.mk.injEq] at e
        rw [← e.1, ← heq]
      · simp at heq

theorem Detached.jacobianRows {h : Heap F} {s : Sketch} (d : Detached h s) (cs : List Nat) (hcs : ∀ k ∈ cs, k ∈ s.cons)
    {h1 h' : Heap F} (r : SameRefs h h1) {J : List (List F)} (e : jacobianRows s cs h1 = .ok (J, h')) :
    J = List.replicate cs.length (zerosVec (getNDofs h s)) := by
  induction cs generalizing h1 J with
  | nil => simp only [Isotope.jacobianRows, Except.ok.injEq, Prod.mk.injEq] at e; rw [← e.1]; rfl
  | cons k ks ih =>
    simp only [Isotope.jacobianRows] at e
    have rz := r.trans (zeroGrads_gradOnly h1 s).1
    have key : ∀ x ∈ s.cells, Post (updateGradient (zeroGrads h1 s) ((zeroGrads h1 s).cons k))
      (fun h' => SameRefs (zeroGrads h1 s) h' ∧ primGrad h' x = primGrad (zeroGrads h1 s) x) := fun x hx =>
      updateGradient_other _ _ (fun hin => d.congr rz k (hcs k (by simp)) x hin hx)
    have fr := updateGradient_gradOnly (zeroGrads h1 s) (zeroGrads h1 s) ((zeroGrads h1 s).cons k) (.refl _)
    cases hu : updateGradient (zeroGrads h1 s) ((zeroGrads h1 s).cons k) with
    | error h2 => rw [hu] at e; simp at e
    | ok h2 =>
      rw [hu] at e key fr
      simp only at e
      cases hj : Isotope.jacobianRows s ks h2 with
      | error h3 => rw [hj] at e; simp at e
      | ok rest =>
        rw [hj] at e
        obtain ⟨J', h3⟩ := rest
        simp only [Except.ok.injEq, Prod.mk.injEq] at e
        have fr2 : SameRefs (zeroGrads h1 s) h2 := fr.1
        rw [e.2] at hj
        have := ih (fun k hk => hcs k (by simp [hk])) (rz.trans fr2) hj
        rw [← e.1, this, List.length_cons, List.replicate_succ, jacobianRow_eq]
        congr 1
        rw [← getNDofs_congr h h1 s, ← Detached.zero_grads]
        exact flatMap_congr_mem fun x hx => (key x hx).2

/-- the same objects, and the same coordinates for everything the constraint looks at -/
theorem lossValue_deps {h h' : Heap F} (r : SameRefs h h') (c : Constraint F)
    (hd : ∀ p ∈ consDeps h c, primData h' p = primData h p) : lossValue h' c = lossValue h c := by
  have P : ∀ p, PrimCell.point p ∈ consDeps h c → ptData h' p = ptData h p := fun p hp => by
    have e := hd _ hp
    simp only [primData, List.cons.injEq, and_true] at e
    unfold ptData
    rcases hp : (h'.points p).data with ⟨x, y⟩
    rcases hq : (h.points p).data with ⟨x', y'⟩
    simp_all
  have S : ∀ l, PrimCell.point (h.lines l).start ∈ consDeps h c → lineStart h' l = lineStart h l := fun l hp => by
    unfold lineStart; rw [r.lines]; exact P _ hp
  have E : ∀ l, PrimCell.point (h.lines l).stop ∈ consDeps h c → lineEnd h' l = lineEnd h l := fun l hp => by
    unfold lineEnd; rw [r.lines]; exact P _ hp
  have A : ∀ p, PrimCell.arc p ∈ consDeps h c → PrimCell.point (h.arcs p).center ∈ consDeps h c →
      (h'.arcs p).startPoint h' = (h.arcs p).startPoint h ∧ (h'.arcs p).endPoint h' = (h.arcs p).endPoint h := fun p hp hq => by
    have e := hd _ hp
    simp only [primData, List.cons.injEq, and_true] at e
    have := P _ hq
    unfold ptData at this
    unfold Arc.startPoint Arc.endPoint Arc.radius Arc.startAngle Arc.endAngle
    rw [e.1, e.2.1, e.2.2, r.arcCenter, this]
    exact ⟨rfl, rfl⟩
  cases c with
  | angle p1 p2 mid D =>
    have := currentAngle_congr (P p1 (by simp [consDeps, consFields])) (P p2 (by simp [consDeps, consFields]))
      (P mid (by simp [consDeps, consFields]))
    simp only [lossValue, this]
  | arcEnd a p =>
    simp only [lossValue, P p (by simp [consDeps, consFields]),
      (A a (by simp [consDeps, consFields]) (by simp [consDeps, consFields, primFields])).2]
  | arcStart a p =>
    simp only [lossValue, P p (by simp [consDeps, consFields]),
      (A a (by simp [consDeps, consFields]) (by simp [consDeps, consFields, primFields])).1]
  | euclid p1 p2 D =>
    simp only [lossValue, euclidCurrent, P p1 (by simp [consDeps, consFields]), P p2 (by simp [consDeps, consFields])]
  | horizDist p1 p2 D =>
    simp only [lossValue, horizCurrent, P p1 (by simp [consDeps, consFields]), P p2 (by simp [consDeps, consFields])]
  | vertDist p1 p2 D =>
    simp only [lossValue, vertCurrent, P p1 (by simp [consDeps, consFields]), P p2 (by simp [consDeps, consFields])]
  | fix p D => simp only [lossValue, P p (by simp [consDeps, consFields])]
  | horizLine l =>
    simp only [lossValue, S l (by simp [consDeps, consFields, primFields]), E l (by simp [consDeps, consFields, primFields])]
  | vertLine l =>
    simp only [lossValue, S l (by simp [consDeps, consFields, primFields]), E l (by simp [consDeps, consFields, primFields])]
  | eqLen l m =>
    simp only [lossValue, S l (by simp [consDeps, consFields, primFields]), E l (by simp [consDeps, consFields, primFields]),
      S m (by simp [consDeps, consFields, primFields]), E m (by simp [consDeps, consFields, primFields])]
  | parallel l m =>
    simp only [lossValue, S l (by simp [consDeps, consFields, primFields]), E l (by simp [consDeps, consFields, primFields]),
      S m (by simp [consDeps, consFields, primFields]), E m (by simp [consDeps, consFields, primFields])]
  | perp l m =>
    simp only [lossValue, S l (by simp [consDeps, consFields, primFields]), E l (by simp [consDeps, consFields, primFields]),
      S m (by simp [consDeps, consFields, primFields]), E m (by simp [consDeps, consFields, primFields])]

theorem Detached.lossPer {h h' : Heap F} {s : Sketch} (d : Detached h s) (m : MovesOnly s h h') :
    getLossPerConstraint h' s = getLossPerConstraint h s := by
  unfold getLossPerConstraint
  apply List.map_congr_left
  intro k hk
  rw [m.1.cons]
  exact lossValue_deps m.1 _ fun p hp => m.2 p (d k hk p hp)

end Isotope
