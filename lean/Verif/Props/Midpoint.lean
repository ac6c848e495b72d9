import Verif.Lemmas.Midpoint
import Verif.Props.Chord

/-!
# A new point on a line (C84)
-/

namespace Isotope
open XR

variable {L L' R : List ((ℝ × ℝ) × (ℝ × ℝ))} {a b m : ℝ × ℝ}

theorem direction_scaled {p q p' q' : ℝ × ℝ} {t : ℝ} (ht : 0 < t) (h1 : q'.1 - p'.1 = t * (q.1 - p.1)) (h2 : q'.2 - p'.2 = t * (q.2 - p.2)) :
    direction p' q' = direction p q := by
  unfold direction
  rw [h1, h2]
  have : (⟨t * (q.1 - p.1), t * (q.2 - p.2)⟩ : ℂ) = (t : ℂ) * ⟨q.1 - p.1, q.2 - p.2⟩ := by
    apply Complex.ext <;> simp
  rw [this, Complex.arg_real_mul _ ht]

theorem joined_cons {e : (ℝ × ℝ) × (ℝ × ℝ)} {p q : ℝ × ℝ} (he : e = (p, q) ∨ e = (q, p)) (x y : ℝ × ℝ) :
    Joined (e :: R) x y ↔ Joined R x y ∨ (x = p ∧ y = q) ∨ (x = q ∧ y = p) :=
  adds_of_perm he (List.Perm.refl _) x y

theorem splits_of_perm (hp : PlainLines L) {e₁ e₂ : (ℝ × ℝ) × (ℝ × ℝ)} (hL : L.Perm ((a, b) :: R)) (hL' : L'.Perm (e₁ :: e₂ :: R))
    (he₁ : e₁ = (a, m) ∨ e₁ = (m, a)) (he₂ : e₂ = (m, b) ∨ e₂ = (b, m)) (hm : Between a b m) (hf : ∀ x, ¬Joined L m x) :
    Splits L L' a b m := by
  have hj : Joined L a b := .inl (hL.mem_iff.2 (by simp))
  have nd : ((a, b) :: (b, a) :: (R ++ R.map Prod.swap)).Nodup := by
    have h1 : (L ++ L.map Prod.swap).Perm (((a, b) :: R) ++ ((a, b) :: R).map Prod.swap) := hL.append (hL.map _)
    have h2 : (((a, b) :: R) ++ ((a, b) :: R).map Prod.swap).Perm ((a, b) :: (b, a) :: (R ++ R.map Prod.swap)) := by
      rw [List.cons_append, List.map_cons]
      exact List.Perm.cons _ List.perm_middle
    exact (h1.trans h2).nodup_iff.1 hp.1
  rw [List.nodup_cons, List.nodup_cons] at nd
  have hne : a ≠ b := by
    rintro rfl
    exact nd.1 (by simp)
  have n1 : ¬Joined R a b := fun h => nd.1 (List.mem_cons_of_mem _ (joined_mem.1 h))
  obtain ⟨t, t0, t1, hm⟩ := hm
  have d1 : direction a m = direction a b := direction_scaled t0 (by rw [hm]; ring) (by rw [hm]; ring)
  have d2 : direction b m = direction b a :=
    direction_scaled (t := 1 - t) (by linarith) (by rw [hm]; ring) (by rw [hm]; ring)
  have d3 : direction m b = direction a b :=
    direction_scaled (t := 1 - t) (by linarith) (by rw [hm]; ring) (by rw [hm]; ring)
  have d4 : direction m a = direction b a := direction_scaled t0 (by rw [hm]; ring) (by rw [hm]; ring)
  have opp : ∀ u v : ℝ × ℝ, u ≠ v → ∀ j : ℤ, direction u v - direction v u + j * (2 * Real.pi) ≠ 0 := by
    intro u v huv j e0
    obtain ⟨i, hi⟩ := direction_back huv
    have hpi := Real.pi_pos
    have e2 : (2 * ((i : ℝ) + j) - 1) * Real.pi = 0 := by linarith
    rcases mul_eq_zero.1 e2 with e3 | e3
    · have : 2 * (i + j) - 1 = 0 := by exact_mod_cast e3
      omega
    · exact hpi.ne' e3
  refine ⟨hj, hf, fun x y => ?_, d1, d2, ?_, ?_, hne⟩
  · have n2 : ¬Joined R b a := fun h => n1 h.symm
    have jL : Joined L x y ↔ Joined R x y ∨ (x, y) = (a, b) ∨ (x, y) = (b, a) := by
      unfold Joined
      rw [hL.mem_iff, hL.mem_iff]
      simp only [List.mem_cons, Prod.mk.injEq]
      tauto
    have jL' : Joined L' x y ↔ Joined R x y ∨ (y = m ∧ (x = a ∨ x = b)) ∨ (x = m ∧ (y = a ∨ y = b)) := by
      have q1 := joined_cons (R := e₂ :: R) he₁ x y
      have q2 := joined_cons (R := R) he₂ x y
      have q3 : Joined L' x y ↔ Joined (e₁ :: e₂ :: R) x y := by unfold Joined; rw [hL'.mem_iff, hL'.mem_iff]
      rw [q3, q1, q2]
      constructor
      · rintro ((h | ⟨h1, h2⟩ | ⟨h1, h2⟩) | ⟨h1, h2⟩ | ⟨h1, h2⟩)
        · exact .inl h
        · exact .inr (.inr ⟨h1, .inr h2⟩)
        · exact .inr (.inl ⟨h2, .inr h1⟩)
        · exact .inr (.inl ⟨h2, .inl h1⟩)
        · exact .inr (.inr ⟨h1, .inl h2⟩)
      · rintro (h | ⟨h1, h2 | h2⟩ | ⟨h1, h2 | h2⟩)
        · exact .inl (.inl h)
        · exact .inr (.inl ⟨h2, h1⟩)
        · exact .inl (.inr (.inr ⟨h2, h1⟩))
        · exact .inr (.inr ⟨h1, h2⟩)
        · exact .inl (.inr (.inl ⟨h1, h2⟩))
    rw [jL', jL]
    constructor
    · rintro (h | h)
      · refine .inl ⟨.inl h, ?_⟩
        rintro (e | e) <;> cases e
        · exact n1 h
        · exact n2 h
      · exact .inr h
    · rintro (⟨h | h, h'⟩ | h)
      · exact .inl h
      · exact absurd h h'
      · exact .inr h
  · obtain ⟨j, hj⟩ := leftTurn_spec a m b
    rw [hj, d3, d4]
    exact opp a b hne j
  · obtain ⟨j, hj⟩ := leftTurn_spec b m a
    rw [hj, d3, d4]
    exact opp b a hne.symm j

theorem splits_nodup (hp : PlainLines L) (k : Splits L L' a b m) {e₁ e₂ : (ℝ × ℝ) × (ℝ × ℝ)} (hL : L.Perm ((a, b) :: R))
    (hL' : L'.Perm (e₁ :: e₂ :: R)) (he₁ : e₁ = (a, m) ∨ e₁ = (m, a)) (he₂ : e₂ = (m, b) ∨ e₂ = (b, m)) :
    (L' ++ L'.map Prod.swap).Nodup := by
  have hne := k.ne
  have na : a ≠ m := k.ne_left k.joined
  have nb : b ≠ m := k.ne_right k.joined
  have sub : ∀ x y, (x, y) ∈ R ++ R.map Prod.swap → Joined L x y := by
    intro x y h
    rw [joined_mem]
    have h1 : (L ++ L.map Prod.swap).Perm (((a, b) :: R) ++ ((a, b) :: R).map Prod.swap) := hL.append (hL.map _)
    rw [h1.mem_iff]
    simp only [List.mem_append, List.mem_cons, List.map_cons] at h ⊢
    tauto
  have hR : (R ++ R.map Prod.swap).Nodup := by
    have h1 : (L ++ L.map Prod.swap).Perm (((a, b) :: R) ++ ((a, b) :: R).map Prod.swap) := hL.append (hL.map _)
    refine List.Nodup.sublist ?_ (h1.nodup_iff.1 hp.1)
    exact (List.sublist_cons_self _ _).append ((List.sublist_cons_self _ _).map _)
  have h1 : (L' ++ L'.map Prod.swap).Perm ((e₁ :: e₂ :: R) ++ (e₁ :: e₂ :: R).map Prod.swap) := hL'.append (hL'.map _)
  have h2 : ((e₁ :: e₂ :: R) ++ (e₁ :: e₂ :: R).map Prod.swap).Perm (e₁ :: e₂ :: e₁.swap :: e₂.swap :: (R ++ R.map Prod.swap)) := by
    simp only [List.cons_append, List.map_cons]
    refine List.Perm.cons _ (List.Perm.cons _ ?_)
    refine List.perm_middle.trans (List.Perm.cons _ ?_)
    exact List.perm_middle
  rw [(h1.trans h2).nodup_iff]
  have out1 : ∀ x, (m, x) ∉ R ++ R.map Prod.swap := fun x h => k.free x (sub _ _ h)
  have out2 : ∀ x, (x, m) ∉ R ++ R.map Prod.swap := fun x h => k.free x (sub _ _ h).symm
  simp only [List.nodup_cons, List.mem_cons, not_or]
  rcases he₁ with rfl | rfl <;> rcases he₂ with rfl | rfl <;>
    simp only [Prod.swap_prod_mk, Prod.mk.injEq, out1, out2, hR, hne, hne.symm, na, nb, na.symm, nb.symm, not_false_eq_true, and_true, and_false,
      and_self]

/-- **C84.** Put a new point `m` on the line between `a` and `b`, not where another line ends, and draw the line in two parts, in any
directions.  The rings are the old ones with `m` put in between `a` and `b`, and have the same areas, one by one. -/
theorem C84_rings (h h' : Heap XR) (s s' : Sketch) (hd : DrawnLines h s L) (hd' : DrawnLines h' s' L') (hp : PlainLines L) (hc : ClosesUp L)
    {e₁ e₂ : (ℝ × ℝ) × (ℝ × ℝ)} (hL : L.Perm ((a, b) :: R)) (hL' : L'.Perm (e₁ :: e₂ :: R)) (he₁ : e₁ = (a, m) ∨ e₁ = (m, a))
    (he₂ : e₂ = (m, b) ∨ e₂ = (b, m)) (hm : Between a b m) (hf : ∀ x, ¬Joined L m x) :
    (∃ vss vss' : List (List (ℝ × ℝ)), List.Forall₂ (fun r vs => RunsAround h r.segs vs) (lineRings h s) vss ∧
      List.Forall₂ (fun r vs => RunsAround h' r.segs vs) (lineRings h' s') vss' ∧
      (vss.map (fun vs : List (ℝ × ℝ) => (withPoint a b m vs : Cycle (ℝ × ℝ)))).Perm
        (vss'.map (fun vs : List (ℝ × ℝ) => (vs : Cycle (ℝ × ℝ))))) ∧
    List.Forall₂ (fun (r r' : Ring XR) => ∃ A : ℝ, r.signedArea h = fin A ∧ r'.signedArea h' = fin A) (lineRings h s) (lineRings h' s') := by
  have k := splits_of_perm hp hL hL' he₁ he₂ hm hf
  have hp' := k.plain hp (splits_nodup hp k hL hL' he₁ he₂)
  have := rings_transport hd hd' hp hp' hc (k.closes hc) (withPoint a b m) 1 one_pos (fun vs hv => k.around hv)
    (fun ws hw => k.around_back hw) (fun vs ws h => withPoint_rotated h) (fun vs ws hv hw h => ?_)
    (fun vs => by rw [withPoint_shoelace hm, one_mul])
  · simp only [one_mul] at this
    exact this
  · classical
    have := filter_rotated (fun x => decide (x ≠ m)) h
    rwa [withPoint_filter (k.free_around hv), withPoint_filter (k.free_around hw)] at this

/-- **C84.** The parts of a line that was reported unused are reported unused, and those of a line that was not are not, if they are drawn
in the direction of the line.  For the other lines nothing changes. -/
theorem C84_unused (h h' : Heap XR) (s s' : Sketch) (hd : DrawnLines h s L) (hd' : DrawnLines h' s' L') (hp : PlainLines L) (hc : ClosesUp L)
    {e₁ e₂ : (ℝ × ℝ) × (ℝ × ℝ)} (hL : L.Perm ((a, b) :: R)) (hL' : L'.Perm (e₁ :: e₂ :: R)) (he₁ : e₁ = (a, m) ∨ e₁ = (m, a))
    (he₂ : e₂ = (m, b) ∨ e₂ = (b, m)) (hm : Between a b m) (hf : ∀ x, ¬Joined L m x)
    (sg sg' : Segment XR) (hs : sg ∈ drawn h s) (hs' : sg' ∈ drawn h' s') (f f' : (ℝ × ℝ) × (ℝ × ℝ)) (hf₁ : EndsAt h sg f) (hf₂ : EndsAt h' sg' f')
    (hff : f' = f ∨ (f = (a, b) ∧ (f' = (a, m) ∨ f' = (m, b)))) :
    sg ∈ (findRings h s).2 ↔ sg' ∈ (findRings h' s').2 := by
  have k := splits_of_perm hp hL hL' he₁ he₂ hm hf
  have hp' := k.plain hp (splits_nodup hp k hL hL' he₁ he₂)
  have drawn_joined : ∀ {h : Heap XR} {s : Sketch} {L : List ((ℝ × ℝ) × (ℝ × ℝ))} {sg : Segment XR} {f : (ℝ × ℝ) × (ℝ × ℝ)},
      DrawnLines h s L → sg ∈ drawn h s → EndsAt h sg f → Joined L f.1 f.2 := by
    intro h s L sg f hd hs hf
    obtain ⟨i, hi⟩ := List.mem_iff_getElem?.1 hs
    have l1 : i < (drawn h s).length := by
      by_contra hl
      rw [List.getElem?_eq_none (by omega)] at hi; cases hi
    have l3 : i < L.length := by rw [← hd.length_eq]; exact l1
    have q := ((List.forall₂_iff_get.1 hd).2 i l1 l3).2.2
    rw [List.getElem?_eq_getElem l1] at hi
    simp only [List.get_eq_getElem] at q
    rw [Option.some.inj hi] at q
    obtain ⟨x1, x2⟩ := q
    obtain ⟨y1, y2⟩ := hf
    rw [x1] at y1; rw [x2] at y2
    simp only [Vec2.mk.injEq, fin.injEq] at y1 y2
    rw [← Prod.ext (x := L[i].1) (y := f.1) y1.1 y1.2, ← Prod.ext (x := L[i].2) (y := f.2) y2.1 y2.2]
    exact .inl (List.getElem_mem _)
  have j1 := drawn_joined hd hs hf₁
  have j2 := drawn_joined hd' hs' hf₂
  have hne := k.ne
  have na : a ≠ m := k.ne_left k.joined
  have nb : b ≠ m := k.ne_right k.joined
  rw [C77_unused h s L hd hp hc sg hs f hf₁, C77_unused h' s' L' hd' hp' (k.closes hc) sg' hs' f' hf₂, not_iff_not]
  -- a line that was not divided
  have undivided : f' = f → ¬(f = (a, b) ∨ f = (b, a)) := by
    rintro rfl h
    have hspec : (f'.1, f'.2) = (a, b) ∨ (f'.1, f'.2) = (b, a) := h
    rcases (k.iff _ _).1 j2 with ⟨-, h3⟩ | ⟨h3, -⟩ | ⟨h3, -⟩
    · exact h3 hspec
    · exact k.ne_right j1 h3
    · exact k.ne_left j1 h3
  constructor
  · rintro ⟨vs, hv, he⟩
    refine ⟨withPoint a b m vs, k.around hv, mem_edges_withPoint.2 ⟨f, he, ?_⟩⟩
    rcases hff with e | ⟨rfl, e⟩
    · exact .inl ⟨undivided e, e⟩
    · exact .inr ⟨.inl rfl, e⟩
  · rintro ⟨ws, hw, he⟩
    obtain ⟨vs, hv, hr⟩ := k.around_back hw
    refine ⟨vs, hv, ?_⟩
    obtain ⟨g, hg, ⟨g1, rfl⟩ | ⟨g1, g2⟩⟩ := mem_edges_withPoint.1 (mem_edges_rotated hr.symm he)
    · have jg := hv.joined_of (x := f'.1) (y := f'.2) hg
      rcases hff with e | ⟨rfl, e⟩
      · exact e ▸ hg
      · rcases e with rfl | rfl
        · exact absurd jg.symm (k.free _)
        · exact absurd jg (k.free _)
    · rcases hff with rfl | ⟨rfl, e⟩
      · rcases g2 with rfl | rfl
        · exact absurd rfl (k.ne_right j1)
        · exact absurd rfl (k.ne_left j1)
      · rcases g1 with rfl | rfl
        · exact hg
        · exfalso
          rcases e with rfl | rfl <;> rcases g2 with g2 | g2 <;> obtain ⟨h1, h2⟩ := Prod.mk.inj g2
          · exact hne h1
          · exact na h1
          · exact nb h2
          · exact hne h2.symm

/-! ## Examples -/

/-- the corners of a square and a point on the bottom side -/
def notchPts : List (Int × Int) := [(0, 0), (2, 0), (2, 2), (0, 2), (1, 0)]

/-- the sides of the square -/
def notchLines : List (Nat × Nat) := [(0, 1), (1, 2), (2, 3), (3, 0)]

/-- the bottom side in two parts, which are drawn away from the new point -/
def notchLines' : List (Nat × Nat) := [(4, 0), (1, 2), (2, 3), (3, 0), (4, 1)]

/-- five points and four lines -/
def notchSketch : Sketch := ⟨[(0, .point 0), (1, .point 1), (2, .point 2), (3, .point 3), (4, .point 4), (5, .line 0), (6, .line 1), (7, .line 2),
  (8, .line 3)], 9, []⟩

/-- five points and five lines -/
def notchSketch' : Sketch := ⟨[(0, .point 0), (1, .point 1), (2, .point 2), (3, .point 3), (4, .point 4), (5, .line 0), (6, .line 1), (7, .line 2),
  (8, .line 3), (9, .line 4)], 10, []⟩

/-- the end points of the lines -/
def notchEnds (ls : List (Nat × Nat)) : List ((Int × Int) × (Int × Int)) :=
  ls.map (fun e => (notchPts.getD e.1 (0, 0), notchPts.getD e.2 (0, 0)))

/-- A square whose bottom side is divided meets the hypotheses of C84. -/
example : DrawnLines (drawing (realPts notchPts) notchLines []) notchSketch (gls (notchEnds notchLines)) ∧
    DrawnLines (drawing (realPts notchPts) notchLines' []) notchSketch' (gls (notchEnds notchLines')) ∧
    PlainLines (gls (notchEnds notchLines)) ∧ ClosesUp (gls (notchEnds notchLines)) ∧
    (∃ R, (gls (notchEnds notchLines)).Perm (((0, 0), (2, 0)) :: R) ∧
      (gls (notchEnds notchLines')).Perm (((1, 0), (0, 0)) :: ((1, 0), (2, 0)) :: R)) ∧
    Between (0, 0) (2, 0) (1, 0) ∧ ∀ x, ¬Joined (gls (notchEnds notchLines)) (1, 0) x := by
  have hp : PlainLines (gls (notchEnds notchLines)) := GPlain.plain (by decide)
  refine ⟨drawing_lines _ _ notchLines _ rfl, drawing_lines _ _ notchLines' _ rfl, hp, ?_, ?_, ?_, ?_⟩
  · exact (C77_covered _ hp (covered_grid (vss := [[(0, 0), (2, 0), (2, 2), (0, 2)], [(0, 0), (0, 2), (2, 2), (2, 0)]])
      (by decide) (by decide) (by decide))).1
  · refine ⟨[((2, 0), (2, 2)), ((2, 2), (0, 2)), ((0, 2), (0, 0))], ?_, ?_⟩
    · simp [gls, notchEnds, notchLines, notchPts, gpt]
    · have : gls (notchEnds notchLines') = ((1, 0), (0, 0)) :: ([((2, 0), (2, 2)), ((2, 2), (0, 2)), ((0, 2), (0, 0))] ++ [((1, 0), (2, 0))]) := by
        simp [gls, notchEnds, notchLines', notchPts, gpt]
      rw [this]
      exact List.Perm.cons _ (List.perm_append_singleton _ _)
  · exact ⟨1 / 2, by norm_num, by norm_num, by norm_num⟩
  · rintro ⟨u, v⟩ (hx | hx) <;> simp [gls, notchEnds, notchLines, notchPts, gpt] at hx

end Isotope
