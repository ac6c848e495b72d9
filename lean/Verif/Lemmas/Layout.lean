import Verif.Model.Examples
import Verif.Spec
import Verif.Lemmas.Hist

/-!
# Closed form of the example sketches

Points first, then lines interleaved with constraints; objects are numbered in the order of their creation.
-/

namespace Isotope
variable {F : Type} [Num F]

/-- `n` points, `m` lines and `k` constraints, all in the sketch -/
def layout (P : Nat → Point2 F) (L : Nat → Line) (C : Nat → Constraint F) (n m k : Nat) : World F :=
  ⟨{ (Heap.empty : Heap F) with
      points := fun a => if a < n then P a else Heap.empty.points a
      lines := fun a => if a < m then L a else (Heap.empty : Heap F).lines a
      cons := fun a => if a < k then C a else Heap.empty.cons a
      nPoints := n
      nLines := m
      nCons := k },
   ⟨(List.range n).map (fun a => (a, .point a)) ++ (List.range m).map (fun a => (n + a, .line a)), n + m, List.range k⟩⟩

theorem upd_below {α : Type} (f g : Nat → α) (n : Nat) (v : α) (h : f n = v) :
    upd (fun a => if a < n then f a else g a) n v = fun a => if a < n + 1 then f a else g a := by
  funext a
  unfold upd
  by_cases e : a = n
  · subst e; simp [h]
  · rw [if_neg e]
    show (if a < n then f a else g a) = _
    by_cases l : a < n
    · rw [if_pos l, if_pos (by omega)]
    · rw [if_neg l, if_neg (by omega)]

variable (P : Nat → Point2 F) (L : Nat → Line) (C : Nat → Constraint F) (n m k : Nat)

theorem layout_mem_point (a : Nat) : PrimCell.point a ∈ (layout P L C n m k).sketch.cells ↔ a < n := by
  simp [layout, Sketch.cells]
theorem layout_mem_line (a : Nat) : PrimCell.line a ∈ (layout P L C n m k).sketch.cells ↔ a < m := by
  simp [layout, Sketch.cells]
theorem layout_init : layout P L C 0 0 0 = World.init := by
  simp [layout, World.init, Sketch.new, Heap.empty]

theorem layout_addPoint {x y : F} (hP : P n = Point2.new x y) (hn : n + 1 < u64Size) :
    addPoint2 (layout P L C n 0 k) x y = (.addr n, layout P L C (n + 1) 0 k) := by
  have h1 : (layout P L C n 0 k).sketch.hasPrim (.point n) = false := by
    rw [← Bool.not_eq_true, hasPrim_iff, layout_mem_point]; omega
  have h2 : (layout P L C n 0 k).sketch.addPrimitive ((layout P L C n 0 k).heap.allocPoint (Point2.new x y)).2 (.point n) =
      (.ok n, (layout P L C (n + 1) 0 k).sketch) := by
    unfold Sketch.addPrimitive
    rw [if_neg (by simp [primRefs]), h1, if_neg (by simp)]
    have e : (layout P L C n 0 k).sketch.nextId = n := by simp [layout]
    have i : mapInsert n (.point n) (layout P L C n 0 k).sketch.prims = (layout P L C (n + 1) 0 k).sketch.prims := by
      rw [mapInsert_last]
      · simp [layout, List.range_succ]
      · simp [layout]
    simp only [e, i]
    have : (n + 1) % u64Size = n + 1 := Nat.mod_eq_of_lt hn
    rw [this]
    refine Prod.ext ?_ ?_
    · show Except.ok ((n + 1 + (u64Size - 1)) % u64Size) = _
      rw [show n + 1 + (u64Size - 1) = n + u64Size by unfold u64Size; omega, Nat.add_mod_right, Nat.mod_eq_of_lt (by omega)]
    · simp [layout]
  unfold addPoint2
  dsimp only
  rw [show ((layout P L C n 0 k).heap.allocPoint (Point2.new x y)).1 = n from rfl, h2]
  dsimp only
  congr 2
  simp only [layout, Heap.allocPoint, Heap.setPoint]
  rw [upd_below P _ n _ hP]

theorem layout_addLine {s e : Nat} (hL : L m = ⟨s, e⟩) (hs : s < n) (he : e < n) (hn : n + m + 1 < u64Size) :
    addLine (layout P L C n m k) s e = (.addr m, layout P L C n (m + 1) k) := by
  have h1 : (layout P L C n m k).sketch.hasPrim (.line m) = false := by
    rw [← Bool.not_eq_true, hasPrim_iff, layout_mem_line]; omega
  have h2 : (layout P L C n m k).sketch.addPrimitive ((layout P L C n m k).heap.allocLine ⟨s, e⟩).2 (.line m) =
      (.ok (n + m), (layout P L C n (m + 1) k).sketch) := by
    unfold Sketch.addPrimitive
    have r : (primRefs ((layout P L C n m k).heap.allocLine ⟨s, e⟩).2 (.line m)).any
        (fun r => !(layout P L C n m k).sketch.hasPrim r) = false := by
      have a1 : (layout P L C n m k).sketch.hasPrim (.point s) = true := by rw [hasPrim_iff, layout_mem_point]; exact hs
      have a2 : (layout P L C n m k).sketch.hasPrim (.point e) = true := by rw [hasPrim_iff, layout_mem_point]; exact he
      simp [primFields, Heap.allocLine, Heap.setLine, upd, layout] at a1 a2 ⊢
      exact ⟨a1, a2⟩
    rw [if_neg (by rw [r]; simp), h1, if_neg (by simp)]
    have e : (layout P L C n m k).sketch.nextId = n + m := by simp [layout]
    have i : mapInsert (n + m) (.line m) (layout P L C n m k).sketch.prims = (layout P L C n (m + 1) k).sketch.prims := by
      rw [mapInsert_last]
      · simp [layout, List.range_succ]
      · rintro ⟨a, b⟩ h
        simp only [layout, List.mem_append, List.mem_map, List.mem_range, Prod.mk.injEq] at h
        rcases h with ⟨a', h, rfl, -⟩ | ⟨a', h, rfl, -⟩ <;> omega
    simp only [e, i]
    have : (n + m + 1) % u64Size = n + m + 1 := Nat.mod_eq_of_lt hn
    rw [this]
    refine Prod.ext ?_ ?_
    · show Except.ok ((n + m + 1 + (u64Size - 1)) % u64Size) = _
      rw [show n + m + 1 + (u64Size - 1) = n + m + u64Size by unfold u64Size; omega, Nat.add_mod_right,
        Nat.mod_eq_of_lt (by omega)]
    · simp [layout, Nat.add_assoc]
  unfold addLine
  dsimp only
  rw [show ((layout P L C n m k).heap.allocLine ⟨s, e⟩).1 = m from rfl, h2]
  dsimp only
  congr 2
  simp only [layout, Heap.allocLine, Heap.setLine]
  rw [upd_below L _ m _ hL]

theorem layout_constrain {c : Constraint F} (hC : C k = c) (hok : consNewOk c = true)
    (hr : ∀ r ∈ consFields c, r ∈ (layout P L C n m k).sketch.cells) :
    constrain (layout P L C n m k) c = (.addr k, layout P L C n m (k + 1)) := by
  have h2 : (layout P L C n m k).sketch.addConstraint ((layout P L C n m k).heap.allocCons c).2 k =
      (.ok (), (layout P L C n m (k + 1)).sketch) := by
    unfold Sketch.addConstraint
    have e : ((layout P L C n m k).heap.allocCons c).2.cons k = c := by simp [Heap.allocCons, Heap.setCons, upd, layout]
    rw [e, if_neg, if_neg]
    · simp [layout, List.range_succ]
    · simp [layout]
    · rw [consRefs_eq, List.any_eq_true]
      rintro ⟨r, h, h'⟩
      have := (hasPrim_iff _ _).2 (hr r h)
      rw [this] at h'
      simp at h'
  unfold constrain
  rw [if_pos hok]
  dsimp only
  rw [show ((layout P L C n m k).heap.allocCons c).1 = k from rfl, h2]
  dsimp only
  congr 2
  simp only [layout, Heap.allocCons, Heap.setCons]
  rw [upd_below C _ k _ hC]

end Isotope
