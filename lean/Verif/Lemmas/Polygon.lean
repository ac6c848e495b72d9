import Verif.Lemmas.Ring
import Mathlib.Data.List.Rotate
import Mathlib.Data.List.Forall2

/-!
# The walk around a polygon
-/

namespace Isotope
variable {F : Type} [Num F]

theorem succ_mod {m n : Nat} (hm : m < n) : (m + 1) % n = if m + 1 = n then 0 else m + 1 := by
  split
  next h => rw [h, Nat.mod_self]
  next h => rw [Nat.mod_eq_of_lt (by omega)]

theorem add_mod' {j k n : Nat} (hj : j < n) (hk : k ≤ n) : (j + k) % n = if j + k < n then j + k else j + k - n := by
  split
  next h => rw [Nat.mod_eq_of_lt h]
  next h =>
    have e : j + k = (j + k - n) + n := by omega
    rw [e, Nat.add_mod_right, Nat.mod_eq_of_lt (by omega)]
    omega

/-- `segs` consists of the `n` edges of a polygon with distinct vertices in both directions: `idx o m` is the index of edge
`m` in orientation `o`, from vertex `V o m` to the next one. -/
structure Cyc (h : Heap F) (segs : List (Segment F)) (n : Nat) (V : Bool → Nat → Vec2 F) (idx : Bool → Nat → Nat) : Prop where
  three : 3 ≤ n
  rev : ∀ o m, m < n → V (!o) m = V o (n - 1 - m)
  beq : ∀ i j, i < n → j < n → ((V true i).beq (V true j) = true ↔ i = j)
  len : segs.length = 2 * n
  seg : ∀ o m, m < n → ∃ sg, segs[idx o m]? = some sg ∧ sg.getStart h = V o m ∧ sg.getEnd h = V o ((m + 1) % n)
  surj : ∀ i, i < 2 * n → ∃ o m, m < n ∧ i = idx o m
  inj : ∀ o m o' m', m < n → m' < n → idx o m = idx o' m' → o = o' ∧ m = m'
  back : ∀ o m a b, m < n → segs[idx o m]? = some a → segs[idx (!o) (n - 1 - (m + 1) % n)]? = some b →
    b.beq h a.reverse = true
  sep : ∀ a b, a ∈ segs → b ∈ segs → a.beq h b = true → (a.getStart h).beq (b.getStart h) = true
  sepr : ∀ a b, a ∈ segs → b ∈ segs → a.beq h b.reverse = true → (a.getEnd h).beq (b.getStart h) = true

section
variable {h : Heap F} {segs : List (Segment F)} {n : Nat} {V : Bool → Nat → Vec2 F} {idx : Bool → Nat → Nat}

theorem Cyc.beqo (c : Cyc h segs n V idx) (o : Bool) (i j : Nat) (hi : i < n) (hj : j < n) :
    (V o i).beq (V o j) = true ↔ i = j := by
  cases o with
  | true => exact c.beq i j hi hj
  | false =>
    have h1 := c.rev true i hi
    have h2 := c.rev true j hj
    simp only [Bool.not_true] at h1 h2
    rw [h1, h2, c.beq _ _ (by omega) (by omega)]
    omega

theorem Cyc.beqno (c : Cyc h segs n V idx) (o : Bool) (i j : Nat) (hi : i < n) (hj : j < n) :
    (V o i).beq (V (!o) j) = true ↔ i = n - 1 - j := by
  rw [c.rev o j hj, c.beqo o _ _ hi (by omega)]

/-- the edge itself -/
def Cyc.sg (segs : List (Segment F)) (idx : Bool → Nat → Nat) (o : Bool) (m : Nat) : Segment F :=
  (segs[idx o m]?).getD (.line 0 0)

theorem Cyc.sg_spec (c : Cyc h segs n V idx) (o : Bool) {m : Nat} (hm : m < n) :
    segs[idx o m]? = some (Cyc.sg segs idx o m) ∧ (Cyc.sg segs idx o m).getStart h = V o m ∧
      (Cyc.sg segs idx o m).getEnd h = V o ((m + 1) % n) := by
  obtain ⟨s, e, h1, h2⟩ := c.seg o m hm
  have : Cyc.sg segs idx o m = s := by unfold Cyc.sg; rw [e]; rfl
  rw [this]; exact ⟨e, h1, h2⟩

/-- at every vertex the walk has exactly one way to go on -/
theorem Cyc.next (c : Cyc h segs n V idx) (o : Bool) {m : Nat} (hm : m < n) (used : List Nat)
    (hu : idx o ((m + 1) % n) ∉ used) :
    findNextSegment h segs (Cyc.sg segs idx o m) used = some (idx o ((m + 1) % n), Cyc.sg segs idx o ((m + 1) % n)) := by
  have h3 := c.three
  have hm' : (m + 1) % n < n := Nat.mod_lt _ (by omega)
  have hm'' : ((m + 1) % n + 1) % n < n := Nat.mod_lt _ (by omega)
  obtain ⟨a1, a2, a3⟩ := c.sg_spec o hm
  obtain ⟨b1, b2, b3⟩ := c.sg_spec o hm'
  have hsm := succ_mod hm
  have hsm' := succ_mod hm'
  have hfol : MayFollow h segs (Cyc.sg segs idx o m) used (idx o ((m + 1) % n)) (Cyc.sg segs idx o ((m + 1) % n)) := by
    refine ⟨b1, hu, ?_, ?_, ?_⟩
    · rw [a3, b2, c.beqo o _ _ hm' hm']
    · rw [Bool.eq_false_iff]
      intro hb
      have := c.sep _ _ (List.mem_of_getElem? b1) (List.mem_of_getElem? a1) hb
      rw [a2, b2, c.beqo o _ _ hm' hm] at this
      split at hsm <;> omega
    · rw [Bool.eq_false_iff]
      intro hb
      have := c.sepr _ _ (List.mem_of_getElem? b1) (List.mem_of_getElem? a1) hb
      rw [a2, b3, c.beqo o _ _ hm'' hm] at this
      split at hsm <;> split at hsm' <;> omega
  cases e : findNextSegment h segs (Cyc.sg segs idx o m) used with
  | none => exact absurd ⟨_, _, hfol⟩ (findNext_none.1 e)
  | some x =>
    obtain ⟨f1, f2, f3, f4, f5⟩ := findNext_some e
    have hi : x.1 < 2 * n := by
      rw [← c.len]
      by_contra hi
      rw [List.getElem?_eq_none (by omega)] at f1; cases f1
    obtain ⟨o', m', hm1, e1⟩ := c.surj x.1 hi
    obtain ⟨d1, d2, d3⟩ := c.sg_spec o' hm1
    rw [e1, d1] at f1
    have f1 := Option.some.inj f1
    rw [← f1, a3, d2] at f3
    by_cases ho : o' = o
    · subst ho
      rw [c.beqo o' _ _ hm' hm1] at f3
      rw [f3]
      congr 1
      exact Prod.ext e1 f1.symm
    · exfalso
      have ho : o' = !o := by cases o <;> cases o' <;> simp_all
      subst ho
      rw [c.beqno o _ _ hm' hm1] at f3
      have hmm : m' = n - 1 - (m + 1) % n := by omega
      have := c.back o m _ _ hm a1 (hmm ▸ d1)
      rw [← hmm, f1, f5] at this
      cases this

/-- item `k` of the walk that starts with edge `j` -/
def Cyc.item (segs : List (Segment F)) (n : Nat) (idx : Bool → Nat → Nat) (o : Bool) (j k : Nat) : Nat × Segment F :=
  (idx o ((j + k) % n), Cyc.sg segs idx o ((j + k) % n))

theorem Cyc.traj (c : Cyc h segs n V idx) (o : Bool) {j : Nat} (hj : j < n) (used : List Nat)
    (hu : ∀ m, m < n → idx o m ∉ used) (d k : Nat) (hk : k + d + 1 = n) :
    Traj (nxt h segs used) (fun x => (x.2.getEnd h).beq (V o j) = true) ((List.range' k (d + 1)).map (Cyc.item segs n idx o j)) := by
  have h3 := c.three
  induction d generalizing k with
  | zero =>
    simp only [Nat.zero_add, List.range'_one, List.map_cons, List.map_nil]
    apply Traj.last
    have hm : (j + k) % n < n := Nat.mod_lt _ (by omega)
    have hm' : ((j + k) % n + 1) % n < n := Nat.mod_lt _ (by omega)
    obtain ⟨a1, a2, a3⟩ := c.sg_spec o hm
    show ((Cyc.sg segs idx o ((j + k) % n)).getEnd h).beq (V o j) = true
    rw [a3, c.beqo o _ _ hm' hj, Nat.mod_add_mod, show j + k + 1 = j + n by omega, Nat.add_mod_right, Nat.mod_eq_of_lt hj]
  | succ d ih =>
    rw [List.range'_succ, List.map_cons]
    have hm : (j + k) % n < n := Nat.mod_lt _ (by omega)
    have hm' : ((j + k) % n + 1) % n < n := Nat.mod_lt _ (by omega)
    obtain ⟨a1, a2, a3⟩ := c.sg_spec o hm
    have := ih (k + 1) (by omega)
    rw [List.range'_succ, List.map_cons] at this ⊢
    refine Traj.step ?_ ?_ this
    · show ¬((Cyc.sg segs idx o ((j + k) % n)).getEnd h).beq (V o j) = true
      rw [a3, c.beqo o _ _ hm' hj, Nat.mod_add_mod, show j + k + 1 = j + (k + 1) by omega, add_mod' hj (by omega)]
      split <;> omega
    · show findNextSegment h segs (Cyc.sg segs idx o ((j + k) % n)) used = _
      rw [c.next o hm used (hu _ hm'), Nat.mod_add_mod]
      rfl

/-- the ring in orientation `o` that starts with edge `j` -/
def Cyc.ring (segs : List (Segment F)) (n : Nat) (idx : Bool → Nat → Nat) (o : Bool) (j : Nat) : List (Nat × Segment F) :=
  (List.range' 0 n).map (Cyc.item segs n idx o j)

theorem Cyc.walk (c : Cyc h segs n V idx) (o : Bool) {j : Nat} (hj : j < n) (used : List Nat)
    (hu : ∀ m, m < n → idx o m ∉ used) :
    ringWalk h segs used ((Cyc.sg segs idx o j).getStart h) (segs.length - 1) (idx o j, Cyc.sg segs idx o j) [] =
      some (Cyc.ring segs n idx o j) := by
  have h3 := c.three
  have t := c.traj o hj used hu (n - 1) 0 (by omega)
  rw [List.range'_succ, List.map_cons] at t
  have e0 : Cyc.item segs n idx o j 0 = (idx o j, Cyc.sg segs idx o j) := by
    unfold Cyc.item; rw [Nat.add_zero, Nat.mod_eq_of_lt hj]
  rw [e0] at t
  rw [(c.sg_spec o hj).2.1]
  rw [traj_ringWalk (segs.length - 1) _ [] _ (by rw [c.len]; simp; omega) t]
  unfold Cyc.ring
  rw [List.nil_append, show List.range' 0 n = List.range' 0 (n - 1 + 1) by congr 1; omega, List.range'_succ, List.map_cons, e0]

theorem Cyc.mem_ring (c : Cyc h segs n V idx) (o : Bool) {j : Nat} (hj : j < n) (i : Nat) :
    i ∈ (Cyc.ring segs n idx o j).map (·.1) ↔ ∃ m, m < n ∧ i = idx o m := by
  have h3 := c.three
  unfold Cyc.ring
  rw [List.map_map, List.mem_map]
  constructor
  · rintro ⟨k, hk, rfl⟩
    exact ⟨(j + k) % n, Nat.mod_lt _ (by omega), rfl⟩
  · rintro ⟨m, hm, rfl⟩
    by_cases hjm : j ≤ m
    · refine ⟨m - j, by rw [List.mem_range']; exact ⟨m - j, by omega, by omega⟩, ?_⟩
      show idx o ((j + (m - j)) % n) = _
      rw [show j + (m - j) = m by omega, Nat.mod_eq_of_lt hm]
    · refine ⟨m + n - j, by rw [List.mem_range']; exact ⟨m + n - j, by omega, by omega⟩, ?_⟩
      show idx o ((j + (m + n - j)) % n) = _
      rw [show j + (m + n - j) = m + n by omega, Nat.add_mod_right, Nat.mod_eq_of_lt hm]

/-- the rings of the orientations `os`, started at the edges given -/
def Cyc.rings (segs : List (Segment F)) (n : Nat) (idx : Bool → Nat → Nat) (os : List (Bool × Nat)) :
    List (List (Nat × Segment F)) := os.map (fun x => Cyc.ring segs n idx x.1 x.2)

theorem Cyc.loop (c : Cyc h segs n V idx) (todo : List (Nat × Segment F)) (ht : ∀ x ∈ todo, segs[x.1]? = some x.2)
    (os : List (Bool × Nat)) (used : List Nat) (hos : ∀ x ∈ os, x.2 < n) (hnd : (os.map (·.1)).Nodup)
    (hu : ∀ i, i ∈ used ↔ ∃ x ∈ os, ∃ m, m < n ∧ i = idx x.1 m) :
    ∃ os', (ringLoop h segs todo used (Cyc.rings segs n idx os)).2 = Cyc.rings segs n idx os' ∧
      (∀ i, i ∈ (ringLoop h segs todo used (Cyc.rings segs n idx os)).1 ↔ ∃ x ∈ os', ∃ m, m < n ∧ i = idx x.1 m) ∧
      (∀ x ∈ os', x.2 < n) ∧ (os'.map (·.1)).Nodup ∧ (∀ x ∈ os, x ∈ os') ∧
      ∀ x ∈ todo, x.1 ∈ (ringLoop h segs todo used (Cyc.rings segs n idx os)).1 := by
  induction todo generalizing os used with
  | nil => exact ⟨os, rfl, hu, hos, hnd, fun x hx => hx, by simp⟩
  | cons is rest ih =>
    have ht' : ∀ x ∈ rest, segs[x.1]? = some x.2 := fun x hx => ht x (List.mem_cons_of_mem _ hx)
    unfold ringLoop
    by_cases hc : is.1 ∈ used
    · rw [if_pos (by simpa using hc)]
      obtain ⟨os', i1, i2, i3, i4, i5, i6⟩ := ih ht' os used hos hnd hu
      refine ⟨os', i1, i2, i3, i4, i5, fun x hx => ?_⟩
      rcases List.mem_cons.1 hx with rfl | hx
      · rw [i2]
        obtain ⟨y, hy, m, hm, e⟩ := (hu _).1 hc
        exact ⟨y, i5 y hy, m, hm, e⟩
      · exact i6 x hx
    · rw [if_neg (by simpa using hc)]
      have hs := ht is (by simp)
      have hi : is.1 < 2 * n := by
        rw [← c.len]
        by_contra hi
        rw [List.getElem?_eq_none (by omega)] at hs; cases hs
      obtain ⟨o, j, hj, e⟩ := c.surj is.1 hi
      have hs2 : is = (idx o j, Cyc.sg segs idx o j) := by
        have := (c.sg_spec o hj).1
        rw [e, this] at hs
        exact Prod.ext e (Option.some.inj hs).symm
      have hno : o ∉ os.map (·.1) := by
        intro hm
        obtain ⟨x, hx, rfl⟩ := List.mem_map.1 hm
        exact hc ((hu _).2 ⟨x, hx, j, hj, e⟩)
      have hfree : ∀ m, m < n → idx o m ∉ used := by
        intro m hm hmu
        obtain ⟨x, hx, m', hm', e'⟩ := (hu _).1 hmu
        obtain ⟨rfl, -⟩ := c.inj _ _ _ _ hm hm' e'
        exact hno (List.mem_map.2 ⟨x, hx, rfl⟩)
      have hw := c.walk o hj used hfree
      rw [hs2] 
      dsimp only
      rw [hw]
      dsimp only
      have er : Cyc.rings segs n idx os ++ [Cyc.ring segs n idx o j] = Cyc.rings segs n idx (os ++ [(o, j)]) := by
        simp [Cyc.rings]
      rw [er]
      obtain ⟨os', i1, i2, i3, i4, i5, i6⟩ := ih ht' (os ++ [(o, j)]) (used ++ (Cyc.ring segs n idx o j).map (·.1))
        (by
          intro x hx
          rcases List.mem_append.1 hx with hx | hx
          · exact hos x hx
          · rw [List.mem_singleton.1 hx]; exact hj)
        (by
          rw [List.map_append, List.nodup_append]
          refine ⟨hnd, by simp, ?_⟩
          rintro a ha b hb rfl
          simp at hb; exact hno (hb ▸ ha))
        (by
          intro i
          rw [List.mem_append, hu, c.mem_ring o hj]
          constructor
          · rintro (⟨x, hx, m, hm, e⟩ | ⟨m, hm, e⟩)
            · exact ⟨x, by simp [hx], m, hm, e⟩
            · exact ⟨(o, j), by simp, m, hm, e⟩
          · rintro ⟨x, hx, m, hm, e⟩
            rcases List.mem_append.1 hx with hx | hx
            · exact .inl ⟨x, hx, m, hm, e⟩
            · rw [List.mem_singleton.1 hx] at e; exact .inr ⟨m, hm, e⟩)
      refine ⟨os', i1, i2, i3, i4, fun x hx => i5 x (by simp [hx]), fun x hx => ?_⟩
      rcases List.mem_cons.1 hx with rfl | hx
      · rw [i2]
        exact ⟨(o, j), i5 _ (by simp), j, hj, rfl⟩
      · exact i6 x hx

/-- both orientations are found, each once, and everything is used -/
theorem Cyc.found (c : Cyc h segs n V idx) : ∃ o j j', j < n ∧ j' < n ∧
    (ringLoop h segs (enumFrom 0 segs) [] []).2 = [Cyc.ring segs n idx o j, Cyc.ring segs n idx (!o) j'] ∧
    ∀ i, i < segs.length → i ∈ (ringLoop h segs (enumFrom 0 segs) [] []).1 := by
  have h3 := c.three
  obtain ⟨os, i1, i2, i3, i4, -, i6⟩ := c.loop (enumFrom 0 segs) (fun x hx => mem_enum.1 hx) [] [] (by simp) (by simp) (by simp)
  have hall : ∀ i, i < segs.length → i ∈ (ringLoop h segs (enumFrom 0 segs) [] []).1 := by
    intro i hi
    exact i6 (i, segs[i]) (mem_enum.2 (List.getElem?_eq_getElem hi))
  have ho : ∀ o, o ∈ os.map (·.1) := by
    intro o
    obtain ⟨sg, e, -, -⟩ := c.seg o 0 (by omega)
    have hi : idx o 0 < segs.length := by
      by_contra hi
      rw [List.getElem?_eq_none (by omega)] at e; cases e
    obtain ⟨x, hx, m, hm, e⟩ := (i2 _).1 (hall _ hi)
    obtain ⟨rfl, -⟩ := c.inj _ _ _ _ (by omega) hm e
    exact List.mem_map.2 ⟨x, hx, rfl⟩
  have hshape : ∃ o j j', os = [(o, j), (!o, j')] := by
    match os, i4, ho with
    | [], _, ho => simpa using ho true
    | [x], _, ho =>
      have h1 := ho true; have h2 := ho false
      simp at h1 h2; rw [h1] at h2; cases h2
    | [x, y], hn, _ =>
      refine ⟨x.1, x.2, y.2, ?_⟩
      simp at hn
      have : y.1 = !x.1 := by cases hx : x.1 <;> cases hy : y.1 <;> simp_all
      rw [← this]
    | x :: y :: z :: l, hn, _ =>
      exfalso
      simp at hn
      obtain ⟨⟨h1, h2, -⟩, ⟨h3, -⟩, -⟩ := hn
      cases hx : x.1 <;> cases hy : y.1 <;> cases hz : z.1 <;> simp_all
  obtain ⟨o, j, j', rfl⟩ := hshape
  exact ⟨o, j, j', i3 (o, j) (by simp), i3 (!o, j') (by simp), i1, hall⟩

end

theorem mem_edges {α : Type} {vs : List α} {e : α × α} : e ∈ edges vs ↔
    ∃ m, ∃ hm : m < vs.length, e = (vs[m], vs[(m + 1) % vs.length]'(Nat.mod_lt _ (by omega))) := by
  unfold edges
  rw [List.mem_iff_getElem]
  constructor
  · rintro ⟨m, hm, rfl⟩
    have hm' : m < vs.length := by simpa using hm
    refine ⟨m, hm', ?_⟩
    rw [List.getElem_zip, List.getElem_rotate]
  · rintro ⟨m, hm, rfl⟩
    refine ⟨m, by simpa using hm, ?_⟩
    rw [List.getElem_zip, List.getElem_rotate]

theorem flip_lt {m n : Nat} (hm : m < n) : n - 1 - (m + 1) % n < n := by omega

theorem flip_flip {m n : Nat} (hm : m < n) : n - 1 - ((n - 1 - (m + 1) % n) + 1) % n = m := by
  rw [succ_mod (flip_lt hm), succ_mod hm]
  split <;> split at * <;> omega

theorem flip_succ {m n : Nat} (hm : m < n) : n - 1 - m = ((n - 1 - (m + 1) % n) + 1) % n := by
  rw [succ_mod (flip_lt hm), succ_mod hm]
  split <;> split at * <;> omega

/-- vertex `m` of a polygon in orientation `o` -/
def vert (vs : List (Vec2 F)) (o : Bool) (m : Nat) : Vec2 F := (if o then vs else vs.reverse).getD m ⟨0.0, 0.0⟩

theorem vert_true (vs : List (Vec2 F)) {m : Nat} (hm : m < vs.length) : vert vs true m = vs[m] := by
  unfold vert
  rw [if_pos rfl, List.getD_eq_getElem?_getD, List.getElem?_eq_getElem hm]; rfl

theorem vert_false (vs : List (Vec2 F)) {m : Nat} (hm : m < vs.length) :
    vert vs false m = vs[vs.length - 1 - m]'(by omega) := by
  unfold vert
  rw [if_neg (by simp), List.getD_eq_getElem?_getD, List.getElem?_reverse hm, List.getElem?_eq_getElem (by omega)]; rfl

set_option maxHeartbeats 1000000 in
/-- an outlined sketch has the edges of a polygon, in both directions -/
theorem cyc_of_outline (h : Heap F) (s : Sketch) (vs : List (Vec2 F)) (h3 : 3 ≤ vs.length)
    (hv : ∀ i j (hi : i < vs.length) (hj : j < vs.length), vs[i].beq vs[j] = true ↔ i = j) (ho : Outline h s vs)
    (hw : ∀ d ∈ drawn h s, WayBack h d)
    (sep : ∀ a b, a ∈ allSegments h s → b ∈ allSegments h s → a.beq h b = true → (a.getStart h).beq (b.getStart h) = true)
    (sepr : ∀ a b, a ∈ allSegments h s → b ∈ allSegments h s → a.beq h b.reverse = true →
      (a.getEnd h).beq (b.getStart h) = true) :
    ∃ idx, Cyc h (allSegments h s) vs.length
      (vert vs) idx := by
  classical
  obtain ⟨ds, hds, hp⟩ := ho
  have hall : allSegments h s = drawn h s ++ (drawn h s).map Segment.reverse := by
    unfold allSegments; rw [initSegments_eq]
  generalize allSegments h s = segs at *
  generalize drawn h s = D at *
  have hlen : ds.length = vs.length := by
    have := hp.length_eq
    simpa [edges] using this
  have hlenD : D.length = vs.length := by rw [← hds.length_eq, hlen]
  set n := vs.length with hn
  -- the edge `m` is entry `τ m` of `ds`
  have hτ : ∀ m : Fin n, ∃ i : Fin n, ∃ hi : i.1 < ds.length,
      (ds[i.1].getStart h, ds[i.1].getEnd h) = (vs[m.1], vs[(m.1 + 1) % n]'(Nat.mod_lt _ (by omega))) := by
    intro m
    have : (vs[m.1], vs[(m.1 + 1) % n]'(Nat.mod_lt _ (by omega))) ∈ edges vs := mem_edges.2 ⟨m.1, m.2, rfl⟩
    rw [← hp.mem_iff, List.mem_map] at this
    obtain ⟨d, hd, e⟩ := this
    obtain ⟨i, hi, rfl⟩ := List.mem_iff_getElem.1 hd
    exact ⟨⟨i, by omega⟩, hi, e⟩
  choose τ hτlt hτe using hτ
  have hinj : Function.Injective τ := by
    intro m m' e
    have h1 := hτe m
    have h2 := hτe m'
    have : ds[(τ m).1] = ds[(τ m').1] := by congr 1; rw [e]
    rw [this, h2] at h1
    have h1 := congrArg Prod.fst h1
    simp only at h1
    have := (hv m.1 m.1 m.2 m.2).2 rfl
    rw [← h1] at this
    exact Fin.ext ((hv m'.1 m.1 m'.2 m.2).1 (by rw [h1] at this ⊢; exact this)).symm
  have hsurj : Function.Surjective τ := Finite.injective_iff_surjective.1 hinj
  -- drawn in the direction of the polygon?
  let fwd : Fin n → Prop := fun i => ∃ hi : i.1 < ds.length, ∃ hi' : i.1 < D.length, ds[i.1] = D[i.1]
  let pos : Bool → Fin n → Nat := fun o m => if (fwd (τ m) ↔ o = true) then (τ m).1 else n + (τ m).1
  let idx : Bool → Nat → Nat := fun o m =>
    if hm : m < n then
      if o then pos true ⟨m, hm⟩ else pos false ⟨n - 1 - (m + 1) % n, flip_lt hm⟩
    else 0
  have hsegs : ∀ i (hi : i < n), segs[i]? = some (D[i]'(by omega)) ∧ segs[n + i]? = some (D[i]'(by omega)).reverse := by
    intro i hi
    rw [hall]
    constructor
    · rw [List.getElem?_append_left (by omega), List.getElem?_eq_getElem (by omega)]
    · rw [List.getElem?_append_right (by omega), show n + i - D.length = i by omega, List.getElem?_map,
        List.getElem?_eq_getElem (by omega)]
      rfl
  have hrel : ∀ i (hi : i < n), ds[i]'(by omega) = D[i]'(by omega) ∨ ds[i]'(by omega) = (D[i]'(by omega)).reverse := by
    intro i hi
    exact (List.forall₂_iff_get.1 hds).2 i (by omega) (by omega)
  have hrev : ∀ sg : Segment F, sg.reverse.getStart h = sg.getEnd h ∧ sg.reverse.getEnd h = sg.getStart h := by
    intro sg; cases sg <;> exact ⟨rfl, rfl⟩
  -- what is at `pos o m`
  have hpos : ∀ (m : Fin n), (∃ sg, segs[pos true m]? = some sg ∧ sg.getStart h = vs[m.1] ∧
        sg.getEnd h = vs[(m.1 + 1) % n]'(Nat.mod_lt _ (by omega))) ∧
      (∃ sg, segs[pos false m]? = some sg ∧ sg.getEnd h = vs[m.1] ∧
        sg.getStart h = vs[(m.1 + 1) % n]'(Nat.mod_lt _ (by omega))) := by
    intro m
    have hs := hsegs (τ m).1 (τ m).2
    have he := Prod.ext_iff.1 (hτe m)
    simp only at he
    by_cases hf : fwd (τ m)
    · have e : pos true m = (τ m).1 := by simp [pos, hf]
      have e' : pos false m = n + (τ m).1 := by simp [pos, hf]
      obtain ⟨hi, hi', hd⟩ := hf
      rw [hd] at he
      rw [e, e']
      exact ⟨⟨_, hs.1, he.1, he.2⟩, ⟨_, hs.2, by rw [(hrev _).2]; exact he.1, by rw [(hrev _).1]; exact he.2⟩⟩
    · have e : pos true m = n + (τ m).1 := by simp [pos, hf]
      have e' : pos false m = (τ m).1 := by simp [pos, hf]
      have hd : ds[(τ m).1] = (D[(τ m).1]'(by omega)).reverse := by
        rcases hrel (τ m).1 (τ m).2 with h' | h'
        · exact absurd ⟨by omega, by omega, h'⟩ hf
        · exact h'
      rw [hd, (hrev _).1, (hrev _).2] at he
      rw [e, e']
      exact ⟨⟨_, hs.2, by rw [(hrev _).1]; exact he.1, by rw [(hrev _).2]; exact he.2⟩, ⟨_, hs.1, he.1, he.2⟩⟩
  have hposinj : ∀ o m o' m', pos o m = pos o' m' → o = o' ∧ m = m' := by
    intro o m o' m' e
    have l1 := (τ m).2
    have l2 := (τ m').2
    simp only [pos] at e
    split at e <;> split at e
    next c1 c2 =>
      have e := hinj (Fin.ext e)
      subst e
      refine ⟨?_, rfl⟩
      cases o <;> cases o' <;> simp_all
    next c1 c2 => omega
    next c1 c2 => omega
    next c1 c2 =>
      have e := hinj (Fin.ext (Nat.add_left_cancel e))
      subst e
      refine ⟨?_, rfl⟩
      cases o <;> cases o' <;> simp_all
  have hidx : ∀ o m, m < n → ∃ m' : Fin n, idx o m = pos o m' ∧ m'.1 = if o then m else n - 1 - (m + 1) % n := by
    intro o m hm
    cases o
    · exact ⟨⟨n - 1 - (m + 1) % n, flip_lt hm⟩, by simp [idx, hm], by simp⟩
    · exact ⟨⟨m, hm⟩, by simp [idx, hm], by simp⟩
  have hVt : ∀ m (hm : m < n), vert vs true m = vs[m] := fun m hm => vert_true vs hm
  have hVf : ∀ m (hm : m < n), vert vs false m = vs[n - 1 - m]'(by omega) := fun m hm => vert_false vs hm
  refine ⟨idx, ⟨h3, ?_, ?_, ?_, ?_, ?_, ?_, ?_, sep, sepr⟩⟩
  · intro o m hm
    cases o
    · simp only [Bool.not_false]
      rw [hVt m hm, hVf _ (by omega)]
      congr 1; omega
    · simp only [Bool.not_true]
      rw [hVf m hm, hVt _ (by omega)]
  · intro i j hi hj
    rw [hVt i hi, hVt j hj]
    exact hv i j hi hj
  · rw [hall]; simp; omega
  · intro o m hm
    have hml : (m + 1) % n < n := Nat.mod_lt _ (by omega)
    obtain ⟨m', e, e'⟩ := hidx o m hm
    rw [e]
    cases o
    · obtain ⟨sg, h1, h2, h4⟩ := (hpos m').2
      simp only [Bool.false_eq_true, if_false] at e'
      refine ⟨sg, h1, ?_, ?_⟩
      · rw [h4]
        rw [hVf m hm]
        congr 1
        rw [e', ← flip_succ hm]
      · rw [h2]
        rw [hVf _ hml]
        congr 1
    · obtain ⟨sg, h1, h2, h4⟩ := (hpos m').1
      simp only [if_true] at e'
      refine ⟨sg, h1, ?_, ?_⟩
      · rw [h2]
        rw [hVt m hm]
        congr 1
      · rw [h4]
        rw [hVt _ hml]
        congr 1; rw [e']
  · intro i hi
    have hex : ∃ m : Fin n, ∃ o, i = pos o m := by
      by_cases hin : i < n
      · obtain ⟨m, hm⟩ := hsurj ⟨i, hin⟩
        by_cases hf : fwd (τ m)
        · exact ⟨m, true, by simp [pos, hf]; rw [hm]⟩
        · exact ⟨m, false, by simp [pos, hf]; rw [hm]⟩
      · obtain ⟨m, hm⟩ := hsurj ⟨i - n, by omega⟩
        by_cases hf : fwd (τ m)
        · exact ⟨m, false, by simp [pos, hf]; rw [hm]; simp; omega⟩
        · exact ⟨m, true, by simp [pos, hf]; rw [hm]; simp; omega⟩
    obtain ⟨m, o, e⟩ := hex
    cases o
    · refine ⟨false, n - 1 - (m.1 + 1) % n, flip_lt m.2, ?_⟩
      obtain ⟨m', e1, e2⟩ := hidx false _ (flip_lt m.2)
      rw [e1, e]
      congr 1
      apply Fin.ext
      rw [e2]; simp only [Bool.false_eq_true, if_false]
      rw [flip_flip m.2]
    · refine ⟨true, m.1, m.2, ?_⟩
      obtain ⟨m', e1, e2⟩ := hidx true _ m.2
      rw [e1, e]
      congr 1
      apply Fin.ext
      rw [e2]; simp
  · intro o m o' m' hm hm' e
    obtain ⟨k, e1, e2⟩ := hidx o m hm
    obtain ⟨k', e1', e2'⟩ := hidx o' m' hm'
    rw [e1, e1'] at e
    obtain ⟨rfl, rfl⟩ := hposinj _ _ _ _ e
    refine ⟨rfl, ?_⟩
    rw [e2] at e2'
    cases o
    · simp only [Bool.false_eq_true, if_false] at e2'
      rw [← flip_flip hm, e2', flip_flip hm']
    · simpa using e2'
  · intro o m a b hm ha hb
    have hpair : ∀ (o : Bool) (k : Fin n) (a b : Segment F), segs[pos o k]? = some a → segs[pos (!o) k]? = some b →
        b.beq h a.reverse = true := by
      intro o k a b ha hb
      have hs := hsegs (τ k).1 (τ k).2
      have hwk := hw (D[(τ k).1]'(by omega)) (List.getElem_mem _)
      by_cases hc : (fwd (τ k) ↔ o = true)
      · have c1 : pos o k = (τ k).1 := by simp only [pos]; rw [if_pos hc]
        have c2 : pos (!o) k = n + (τ k).1 := by
          simp only [pos]; rw [if_neg]; cases o <;> simp_all
        rw [c1, hs.1] at ha
        rw [c2, hs.2] at hb
        cases ha; cases hb
        exact hwk.1
      · have c1 : pos o k = n + (τ k).1 := by simp only [pos]; rw [if_neg hc]
        have c2 : pos (!o) k = (τ k).1 := by
          simp only [pos]; rw [if_pos]; cases o <;> simp_all
        rw [c1, hs.2] at ha
        rw [c2, hs.1] at hb
        cases ha; cases hb
        exact hwk.2
    obtain ⟨k, e1, e2⟩ := hidx o m hm
    obtain ⟨k', e1', e2'⟩ := hidx (!o) _ (flip_lt hm)
    have : k = k' := by
      apply Fin.ext
      rw [e2, e2']
      cases o
      · rfl
      · exact (flip_flip hm).symm
    subst this
    rw [e1] at ha
    rw [e1'] at hb
    exact hpair o k a b ha hb

/-- the ring runs around the polygon, from edge `j` on -/
theorem Cyc.ring_runs {h : Heap F} {segs : List (Segment F)} {vs : List (Vec2 F)} {idx : Bool → Nat → Nat}
    (c : Cyc h segs vs.length (vert vs) idx) (o : Bool) (j : Nat) :
    List.Forall₂ (Runs h) ((Cyc.ring segs vs.length idx o j).map (·.2)) (edges ((if o then vs else vs.reverse).rotate j)) := by
  have h3 := c.three
  set ws := if o then vs else vs.reverse with hws
  have hl : ws.length = vs.length := by rw [hws]; split <;> simp
  rw [List.forall₂_iff_get]
  refine ⟨by simp [Cyc.ring, edges, hl], ?_⟩
  intro k hk hk'
  have hk : k < vs.length := by simpa [Cyc.ring] using hk
  have hm : (j + k) % vs.length < vs.length := Nat.mod_lt _ (by omega)
  obtain ⟨-, a2, a3⟩ := c.sg_spec o hm
  have hget : ∀ m (hm : m < vs.length), ws.getD m (⟨0.0, 0.0⟩ : Vec2 F) = ws[m]'(by omega) := by
    intro m hm
    rw [List.getD_eq_getElem?_getD, List.getElem?_eq_getElem (by omega)]; rfl
  have e1 : (((Cyc.ring segs vs.length idx o j).map (·.2)).get ⟨k, by simpa [Cyc.ring] using hk⟩) =
      Cyc.sg segs idx o ((j + k) % vs.length) := by
    simp [Cyc.ring, Cyc.item]
  have e2 : ((edges (ws.rotate j)).get ⟨k, hk'⟩) = (ws[(j + k) % vs.length]'(by omega),
      ws[((j + k) % vs.length + 1) % vs.length]'(by rw [hl]; exact Nat.mod_lt _ (by omega))) := by
    simp only [edges, List.get_eq_getElem]
    rw [List.getElem_zip, List.getElem_rotate, List.getElem_rotate, List.getElem_rotate]
    apply Prod.ext
    · simp only [hl]; congr 1; congr 1; omega
    · simp only [hl, List.length_rotate, Nat.mod_add_mod]; congr 1; congr 1; omega
  rw [e1, e2]
  refine ⟨?_, ?_⟩
  · rw [a2]; exact hget _ hm
  · rw [a3]; exact hget _ (Nat.mod_lt _ (by omega))

end Isotope
