import Verif.SpecClear
import Verif.Lemmas.FloatArea
import Verif.Props.Left
import Verif.Props.Rings
import Verif.B64Laws
import Verif.Props.FloatOk

/-!
# Rings in binary64 (C98)
-/

namespace Isotope
open Round Val XR

variable {lm : Libm} {h : Heap (B64 lm)} {s : Sketch} {κ ε : ℝ} {L : List ((ℝ × ℝ) × (ℝ × ℝ))}

theorem totalLe_of {x y : B64 lm} {r t : ℝ} (hx : x.Is r) (hy : y.Is t) (hle : Num.totalLe x y = true) : r ≤ t := by
  obtain ⟨a, m, e, rfl⟩ := hx
  obtain ⟨b, n, e', rfl⟩ := hy
  have hle : x.v.totalLe y.v = true := hle
  rw [e, e'] at hle
  simp only [Val.totalLe, Val.ext, Bool.or_eq_true, Bool.and_eq_true] at hle
  rcases hle with h1 | ⟨h1, -⟩
  · exact (EReal.coe_lt_coe_iff.1 (of_decide_eq_true h1)).le
  · exact (EReal.coe_eq_coe_iff.1 (of_decide_eq_true h1)).le

theorem mem_unsorted {F : Type} [Num F] {h : Heap F} {s : Sketch} {r : Ring F} :
    r ∈ (findRings h s).1 ↔ r ∈ unsortedRings h s ∧ gt (r.signedArea h) (0.0 : F) = true := by
  unfold findRings
  dsimp only
  rw [List.mem_filter, List.mem_mergeSort]

/-- **C98.** In a drawing of lines in which any two lines that meet make an angle of at least `4 κ + 2^-42`, the lines that lie on no
ring are those that lie on no ring in exact arithmetic. -/
theorem C98_unused (hl : lm.AtanAccurate κ) (hκ : 0 ≤ κ) (hε : 4 * κ + 2 ^ (-42 : ℤ) ≤ ε) (hε1 : ε ≤ 1)
    (hd : DraftLines h s (2 ^ (100 : ℤ)) L) (hs : SpreadLines ε L) : (findRings h.exact s).2 = (findRings h s).2.map Segment.exact := by
  have w := same_walk hl hκ (by refine le_trans ?_ hε; rw [ulp_eq]; norm_num) hε1 hd hs
  exact exact_unused w hd

section
variable (hl : lm.AtanAccurate κ) (hκ : 0 ≤ κ) (hε : 4 * κ + 2 ^ (-42 : ℤ) ≤ ε) (hε1 : ε ≤ 1)
    (hd : DraftLines h s (2 ^ (100 : ℤ)) L) (hn : L.length ≤ 2 ^ 40) (hc : ModestCircles h s) (hs : SpreadLines ε L)
include hl hκ hε hε1 hd hs

theorem same_unsorted : unsortedRings h.exact s = (unsortedRings h s).map Ring.exact :=
  exact_unsorted (same_walk hl hκ (by refine le_trans ?_ hε; rw [ulp_eq]; norm_num) hε1 hd hs) hd

include hn hc

/-- **C98.** A ring that is found is a ring in exact arithmetic, unless its area is so close to zero that its sign got lost. -/
theorem C98_found (r : Ring (B64 lm)) (hr : r ∈ (findRings h s).1) :
    r.exact ∈ (findRings h.exact s).1 ∨ (-areaError h r ≤ areaOf h r ∧ areaOf h r ≤ 0) := by
  obtain ⟨h1, h2⟩ := mem_unsorted.1 hr
  obtain ⟨A, i, e, ex⟩ := area_near hd hn hc h1
  have hA : 0 < A := (B64.is_zero.lt_iff i).1 h2
  by_cases hp : 0 < areaOf h r
  · left
    rw [mem_unsorted, same_unsorted hl hκ hε hε1 hd hs, ex]
    refine ⟨List.mem_map_of_mem h1, ?_⟩
    unfold gt
    rw [lit0, lt_fin]
    simpa using hp
  · right
    have := abs_le.1 e
    exact ⟨by linarith, not_lt.1 hp⟩

/-- **C98.** A ring of exact arithmetic is found, unless its area is so close to zero that its sign got lost. -/
theorem C98_kept (R : Ring XR) (hr : R ∈ (findRings h.exact s).1) :
    ∃ r, r.exact = R ∧ 0 < areaOf h r ∧ (r ∈ (findRings h s).1 ∨ areaOf h r ≤ areaError h r) := by
  obtain ⟨h1, h2⟩ := mem_unsorted.1 hr
  rw [same_unsorted hl hκ hε hε1 hd hs] at h1
  obtain ⟨r, h3, rfl⟩ := List.mem_map.1 h1
  clear h1
  have h1 := h3
  obtain ⟨A, i, e, ex⟩ := area_near hd hn hc h1
  have hA : 0 < areaOf h r := by
    rw [ex] at h2
    unfold gt at h2
    rw [lit0, lt_fin] at h2
    simpa using h2
  refine ⟨r, rfl, hA, ?_⟩
  by_cases hp : 0 < A
  · exact .inl (mem_unsorted.2 ⟨h1, (B64.is_zero.lt_iff i).2 hp⟩)
  · right
    have := abs_le.1 e
    linarith

omit hs hl hκ hε hε1 in
/-- **C98.** The rings are in ascending order of their areas, up to the errors of these. -/
theorem C98_order : (findRings h s).1.Pairwise (fun a b => areaOf h a ≤ areaOf h b + (areaError h a + areaError h b)) := by
  refine (C40_sorted h s).imp_of_mem fun {a b} ha hb hab => ?_
  obtain ⟨A, i, e, -⟩ := area_near hd hn hc (mem_unsorted.1 ha).1
  obtain ⟨B, j, f, -⟩ := area_near hd hn hc (mem_unsorted.1 hb).1
  have := totalLe_of i j hab
  have e := abs_le.1 e
  have f := abs_le.1 f
  linarith

/-- **C98.** If the areas of the rings found, in either arithmetic, exceed the errors, then the rings found are the same, up to order. -/
theorem C98_rings (h1 : ∀ r ∈ (findRings h s).1, areaError h r < areaOf h r)
    (h2 : ∀ r : Ring (B64 lm), r.exact ∈ (findRings h.exact s).1 → areaError h r < areaOf h r) :
    ((findRings h s).1.map Ring.exact).Perm (findRings h.exact s).1 := by
  have p1 : (findRings h s).1.Perm ((unsortedRings h s).filter (fun r => gt (r.signedArea h) (0.0 : B64 lm))) :=
    (List.mergeSort_perm _ _).filter _
  have p2 : (findRings h.exact s).1.Perm ((unsortedRings h.exact s).filter (fun r => gt (r.signedArea h.exact) (0.0 : XR))) :=
    (List.mergeSort_perm _ _).filter _
  refine (p1.map _).trans (List.Perm.trans (List.Perm.of_eq ?_) p2.symm)
  rw [same_unsorted hl hκ hε hε1 hd hs, List.filter_map]
  congr 1
  apply List.filter_congr
  intro r hr
  obtain ⟨A, i, e, ex⟩ := area_near hd hn hc hr
  have e' := abs_le.1 e
  have er0 : 0 ≤ areaError h r := (abs_nonneg _).trans e
  rw [Bool.eq_iff_iff]
  constructor
  · intro hg
    have := h1 r (mem_unsorted.2 ⟨hr, hg⟩)
    simp only [Function.comp, gt]
    rw [ex, lit0, lt_fin]
    simp only [decide_eq_true_eq]
    linarith
  · intro hg
    have := h2 r (mem_unsorted.2 ⟨by rw [same_unsorted hl hκ hε hε1 hd hs]; exact List.mem_map_of_mem hr, hg⟩)
    exact (B64.is_zero.lt_iff i).2 (by linarith)

/-- **C98.** If moreover the areas of different rings differ by more than their errors, the order is the same, too. -/
theorem C98_list (h1 : ∀ r ∈ (findRings h s).1, areaError h r < areaOf h r)
    (h2 : ∀ r : Ring (B64 lm), r.exact ∈ (findRings h.exact s).1 → areaError h r < areaOf h r)
    (h3 : (findRings h s).1.Pairwise (fun a b => areaError h a + areaError h b < |areaOf h a - areaOf h b|)) :
    (findRings h.exact s).1 = (findRings h s).1.map Ring.exact := by
  have hp := C98_rings hl hκ hε hε1 hd hn hc hs h1 h2
  have hex : ∀ r ∈ (findRings h s).1, r.exact.signedArea h.exact = fin (areaOf h r) := by
    intro r hr
    obtain ⟨A, i, e, ex⟩ := area_near hd hn hc (mem_unsorted.1 hr).1
    exact ex
  have strict : (findRings h s).1.Pairwise (fun a b => areaOf h a < areaOf h b) := by
    refine ((C98_order hd hn hc).and h3).imp_of_mem fun {a b} ha hb hab => ?_
    by_contra hcon
    have h4 := hab.2
    rw [abs_of_nonneg (by linarith)] at h4
    linarith [hab.1]
  have hsort : ((findRings h s).1.map Ring.exact).Pairwise (fun a b => Num.totalLe (a.signedArea h.exact) (b.signedArea h.exact) = true) := by
    rw [List.pairwise_map]
    refine strict.imp_of_mem fun {a b} ha hb hab => ?_
    rw [hex a ha, hex b hb, totalLe_fin]
    simpa using hab.le
  refine (List.Perm.eq_of_pairwise ?_ hsort (C40_sorted h.exact s) hp).symm
  intro a b ha hb hab hba
  have hb' := hp.mem_iff.2 hb
  obtain ⟨x, hx, rfl⟩ := List.mem_map.1 ha
  obtain ⟨y, hy, rfl⟩ := List.mem_map.1 hb'
  rw [hex x hx, hex y hy, totalLe_fin] at hab hba
  have heq : areaOf h x = areaOf h y := le_antisymm (by simpa using hab) (by simpa using hba)
  obtain ⟨i, hi, rfl⟩ := List.mem_iff_getElem.1 hx
  obtain ⟨j, hj, rfl⟩ := List.mem_iff_getElem.1 hy
  rw [List.pairwise_iff_getElem] at strict
  rcases lt_trichotomy i j with h5 | h5 | h5
  · have := strict i j hi hj h5; linarith
  · subst h5; rfl
  · have := strict j i hj hi h5; linarith

end

/-! ## Ways around by hardest left turns -/

theorem SpreadLines.plain (hε : 0 < ε) (hs : SpreadLines ε L) : PlainLines L := by
  have no : ∀ a b : ℝ × ℝ, ¬Spread ε a b a := by
    intro a b hab
    have := hab 0
    simp at this
    linarith
  constructor
  · rw [List.nodup_iff_injective_getElem]
    intro i j hij
    by_contra hne
    have h1 : (L ++ L.map Prod.swap)[i.1]? = some (L ++ L.map Prod.swap)[i.1] := List.getElem?_eq_getElem i.2
    have h2 : (L ++ L.map Prod.swap)[j.1]? = some (L ++ L.map Prod.swap)[j.1] := List.getElem?_eq_getElem j.2
    have hij : (L ++ L.map Prod.swap)[i.1] = (L ++ L.map Prod.swap)[j.1] := hij
    rw [← hij] at h2
    exact no _ _ (hs i.1 j.1 _ _ _ (fun h => hne (Fin.ext h)) h1 h2)
  · intro a b c hba hbc h0
    have mem : ∀ p q, Joined L p q → (p, q) ∈ L ++ L.map Prod.swap := by
      rintro p q (h1 | h1)
      · exact List.mem_append_left _ h1
      · exact List.mem_append_right _ (List.mem_map.2 ⟨_, h1, rfl⟩)
    obtain ⟨i, hi⟩ := List.mem_iff_getElem?.1 (mem _ _ hba)
    obtain ⟨j, hj⟩ := List.mem_iff_getElem?.1 (mem _ _ hbc)
    by_cases hij : i = j
    · subst hij
      rw [hi] at hj
      injection hj with hj
      exact (Prod.mk.inj hj).2
    · exact absurd h0 (spread_ne hε (hs i j b a c hij hi hj))

theorem DraftLines.drawn (hd : DraftLines h s (2 ^ (100 : ℤ)) L) : DrawnLines h.exact s L := by
  have e : Isotope.drawn h.exact s = (Isotope.drawn h s).map Segment.exact := by
    rw [← initSegments_eq, ← initSegments_eq, exact_init]
  unfold DrawnLines
  rw [e, List.forall₂_map_left_iff]
  refine hd.1.imp ?_
  rintro sg ⟨p, q⟩ ⟨⟨a, b, rfl, ha, hb⟩, hw⟩
  refine ⟨⟨a, b, rfl⟩, ?_, ?_, ?_⟩
  · unfold WayBack at hw ⊢
    simp only [Segment.exact, Segment.reverse, Segment.beq, pt_exact] at hw ⊢
    exact hw
  · show (h.points a).data.exact = _
    unfold Vec2.exact
    rw [ha.1.exact, ha.2.exact]
  · show (h.points b).data.exact = _
    unfold Vec2.exact
    rw [hb.1.exact, hb.2.exact]

theorem runs_xy {l : List (Segment (B64 lm))} (hp : ∀ sg ∈ l, PlainSeg h sg) {vs : List (ℝ × ℝ)}
    (hr : RunsAround h.exact (l.map Segment.exact) vs) : l.map (fun sg => sg.xy h) = edges vs := by
  unfold RunsAround at hr
  rw [List.forall₂_map_left_iff] at hr
  generalize edges vs = es at hr
  induction hr with
  | nil => rfl
  | @cons sg e l es h1 _ ih =>
    rw [List.map_cons, ih (fun x hx => hp x (by simp [hx]))]
    congr 1
    obtain ⟨_, _, _, _, _, g1, g2⟩ := (hp sg (by simp)).xy
    have e1 := g1.symm.trans h1.1
    have e2 := g2.symm.trans h1.2
    injection e1 with e1 e1'
    injection e2 with e2 e2'
    injection e1 with e1
    injection e1' with e1'
    injection e2 with e2
    injection e2' with e2'
    exact Prod.ext (Prod.ext e1 e1') (Prod.ext e2 e2')

theorem edges_len {α : Type} (vs : List α) : (edges vs).length = vs.length := by unfold edges; simp

theorem area_runs {l : List (Segment (B64 lm))} (hp : ∀ sg ∈ l, PlainSeg h sg) {vs : List (ℝ × ℝ)}
    (hr : RunsAround h.exact (l.map Segment.exact) vs) :
    areaOf h (.segments l) = shoelace vs ∧ areaError h (.segments l) = polyError vs := by
  have hxy := runs_xy hp hr
  constructor
  · simp only [areaOf, shoelace]
    rw [← hxy, List.map_map]; rfl
  · have e3 : l.length = vs.length := by rw [← edges_len vs, ← hxy, List.length_map]
    simp only [areaError, polyError]
    rw [← hxy, List.map_map, e3]; rfl

/-- **C98.** In a drawing where walks of hardest left turns close up, and every way around by hardest left turns has an area that
exceeds the errors, the rings found in binary64 that are not circles are exactly the ways around by hardest left turns with positive
area, each once. -/
theorem C98_around (hl : lm.AtanAccurate κ) (hκ : 0 ≤ κ) (hε : 4 * κ + 2 ^ (-42 : ℤ) ≤ ε) (hε1 : ε ≤ 1)
    (hd : DraftLines h s (2 ^ (100 : ℤ)) L) (hn : L.length ≤ 2 ^ 40) (hs : SpreadLines ε L) (hcl : ClosesUp L)
    (ha : ∀ vs, Around L vs → polyError vs < |shoelace vs|) :
    ∃ vss : List (List (ℝ × ℝ)),
      List.Forall₂ (fun (r : Ring (B64 lm)) vs => RunsAround h.exact r.exact.segs vs) ((findRings h s).1.filter (fun r => !r.segs.isEmpty)) vss ∧
      vss.Pairwise (fun vs ws => ¬vs ~r ws) ∧ ∀ vs, (∃ ws ∈ vss, ws ~r vs) ↔ Around L vs ∧ 0 < shoelace vs := by
  have hε0 : 0 < ε := lt_of_lt_of_le (by positivity) hε
  have hp := hs.plain hε0
  have hd' := hd.drawn
  have w := same_walk hl hκ (by refine le_trans ?_ hε; rw [ulp_eq]; norm_num) hε1 hd hs
  obtain ⟨vss, i1, i2, i3, -, i5⟩ := hd'.found hp hcl
  have net := hd'.net hp
  have hlen : (allSegments h s).length = 2 * L.length := by
    have := hd.1.length_eq
    rw [← initSegments_eq] at this
    unfold allSegments
    rw [List.length_append, List.length_map, this]; ring
  have hsub := traced_subperm h s
  rw [exact_traced w hd, List.forall₂_map_left_iff] at i1
  have hruns : List.Forall₂ (fun (r : Ring (B64 lm)) vs => ((∃ l, r = .segments l ∧ (∀ sg ∈ l, PlainSeg h sg) ∧ l.length ≤ 2 ^ 44) ∧
      RunsAround h.exact r.exact.segs vs) ∧ Around L vs) ((tracedRings h s).2.map (fun r => Ring.segments (r.map (·.2)))) vss := by
    have k1 : List.Forall₂ (fun (r : Ring (B64 lm)) vs => RunsAround h.exact r.exact.segs vs)
        ((tracedRings h s).2.map (fun r => Ring.segments (r.map (·.2)))) vss := by
      rw [List.forall₂_map_left_iff]
      refine i1.imp fun ring vs hr => ?_
      have := hr.runs net
      simpa [Ring.exact, Ring.segs, Function.comp_def] using this
    have k2 := (List.forall₂_and_left _ _).2 ⟨show ∀ r ∈ (tracedRings h s).2.map (fun r => Ring.segments (r.map (·.2))),
        (∃ l, r = .segments l ∧ (∀ sg ∈ l, PlainSeg h sg) ∧ l.length ≤ 2 ^ 44) from ?_, k1⟩
    · have k3 := (List.forall₂_and_left _ _).2 ⟨i2, k2.flip⟩
      refine k3.flip.imp ?_
      rintro a b ⟨h1, h2⟩
      exact ⟨h2, h1⟩
    · intro r hr
      obtain ⟨l, hl, rfl⟩ := List.mem_map.1 hr
      refine ⟨_, rfl, fun sg hsg => draft_plain hd ?_, ?_⟩
      · apply hsub.subset
        obtain ⟨x, hx, rfl⟩ := List.mem_map.1 hsg
        exact List.mem_map_of_mem (List.mem_flatten.2 ⟨l, hl, hx⟩)
      · have h1 : (tracedRings h s).2.flatten.length ≤ (allSegments h s).length := by
          have := hsub.length_le
          rwa [List.length_map] at this
        have h2 := (List.sublist_flatten_of_mem hl).length_le
        rw [List.length_map]
        omega
  have hf := forall₂_filter (p := fun r => gt (r.signedArea h) (0.0 : B64 lm)) (q := fun vs => decide (0 < shoelace vs)) hruns (by
    rintro r vs ⟨⟨⟨l, rfl, hpl, hll⟩, hr⟩, hv⟩
    obtain ⟨A, i, e, ex⟩ := ring_near hpl hll
    obtain ⟨e1, e2⟩ := area_runs hpl hr
    rw [e1, e2] at e
    have e' := abs_le.1 e
    have hb := ha vs hv
    rw [Bool.eq_iff_iff]
    simp only [decide_eq_true_eq]
    refine (B64.is_zero.lt_iff i).trans ⟨fun h0 => ?_, fun h0 => ?_⟩
    · by_contra hcon
      rw [abs_of_nonpos (not_lt.1 hcon)] at hb
      linarith
    · rw [abs_of_pos h0] at hb
      linarith)
  have hperm : ((findRings h s).1.filter (fun r => !r.segs.isEmpty)).Perm
      (((tracedRings h s).2.map (fun r => Ring.segments (r.map (·.2)))).filter (fun r => gt (r.signedArea h) (0.0 : B64 lm))) := by
    unfold findRings
    dsimp only
    have h1 : ((unsortedRings h s).mergeSort (fun a b => Num.totalLe (a.signedArea h) (b.signedArea h))).Perm
        (unsortedRings h s) := List.mergeSort_perm _ _
    refine ((h1.filter _).filter _).trans ?_
    unfold unsortedRings
    rw [List.filter_append, List.filter_append]
    have e1 : ((circleRings h s).filter (fun r => gt (r.signedArea h) (0.0 : B64 lm))).filter (fun r => !r.segs.isEmpty) = [] := by
      rw [List.filter_eq_nil_iff]
      intro r hr
      obtain ⟨c, -, rfl⟩ := mem_circleRings.1 (List.mem_filter.1 hr).1
      simp [Ring.segs]
    rw [e1, List.append_nil, List.filter_eq_self.2]
    intro r hr
    obtain ⟨t, ht, rfl⟩ := List.mem_map.1 (List.mem_filter.1 hr).1
    have := ((tracedRings_ok h s).2.2 t ht).ne
    simp [Ring.segs, this]
  have hcomp : Relation.Comp (List.Forall₂ _) List.Perm _ _ := List.perm_comp_forall₂ hperm hf
  obtain ⟨vss', j1, j2⟩ := hcomp
  refine ⟨vss', j1.imp fun r vs hr => hr.1.2, ?_, fun vs => ⟨?_, ?_⟩⟩
  · have : (vss.filter (fun vs => decide (0 < shoelace vs))).Pairwise (fun vs ws => ¬vs ~r ws) := i3.filter _
    exact this.perm j2.symm (fun h1 h2 => h1 h2.symm)
  · rintro ⟨ws, hws, hrot⟩
    obtain ⟨h1, h2⟩ := List.mem_filter.1 (j2.mem_iff.1 hws)
    rw [shoelace_isRotated hrot]
    exact ⟨Around.isRotated hrot (i2 ws h1), by simpa using h2⟩
  · rintro ⟨hv, hpos⟩
    obtain ⟨ws, hws, hrot⟩ := i5 vs hv
    refine ⟨ws, j2.mem_iff.2 (List.mem_filter.2 ⟨hws, ?_⟩), hrot⟩
    rw [shoelace_isRotated hrot] at hpos
    simpa using hpos

/-! ## Sufficient conditions -/

theorem arg_cos_sin (z : ℂ) : ‖z‖ * Real.cos z.arg = z.re ∧ ‖z‖ * Real.sin z.arg = z.im :=
  ⟨Complex.norm_mul_cos_arg z, Complex.norm_mul_sin_arg z⟩

/-- **C98.** Two lines make an angle of at least `ε` if they point in opposite half planes, or if their cross product is large enough
compared to their lengths. -/
theorem C98_spread (a b c : ℝ × ℝ) (hε1 : ε ≤ 1) (ha : a ≠ b) (hc : c ≠ b)
    (hx : (a.1 - b.1) * (c.1 - b.1) + (a.2 - b.2) * (c.2 - b.2) ≤ 0 ∨
      ε * (√((a.1 - b.1) ^ 2 + (a.2 - b.2) ^ 2) * √((c.1 - b.1) ^ 2 + (c.2 - b.2) ^ 2)) ≤
        |(a.1 - b.1) * (c.2 - b.2) - (a.2 - b.2) * (c.1 - b.1)|) : Spread ε a b c := by
  have nz : ∀ p : ℝ × ℝ, p ≠ b → (⟨p.1 - b.1, p.2 - b.2⟩ : ℂ) ≠ 0 := by
    intro p hp e
    apply hp
    have h1 := congrArg Complex.re e
    have h2 := congrArg Complex.im e
    simp at h1 h2
    exact Prod.ext (by linarith) (by linarith)
  have nn : ∀ p : ℝ × ℝ, ‖(⟨p.1 - b.1, p.2 - b.2⟩ : ℂ)‖ = √((p.1 - b.1) ^ 2 + (p.2 - b.2) ^ 2) := by
    intro p
    rw [Complex.norm_def, Complex.normSq_mk]; ring_nf
  obtain ⟨c1, s1⟩ := arg_cos_sin ⟨a.1 - b.1, a.2 - b.2⟩
  obtain ⟨c2, s2⟩ := arg_cos_sin ⟨c.1 - b.1, c.2 - b.2⟩
  have p1 := norm_pos_iff.2 (nz a ha)
  have p2 := norm_pos_iff.2 (nz c hc)
  rw [← nn a, ← nn c] at hx
  intro k
  show ε ≤ |Complex.arg ⟨a.1 - b.1, a.2 - b.2⟩ - Complex.arg ⟨c.1 - b.1, c.2 - b.2⟩ - k * (2 * Real.pi)|
  dsimp only at c1 s1 c2 s2
  generalize ‖(⟨a.1 - b.1, a.2 - b.2⟩ : ℂ)‖ = A at *
  generalize ‖(⟨c.1 - b.1, c.2 - b.2⟩ : ℂ)‖ = C at *
  generalize Complex.arg ⟨a.1 - b.1, a.2 - b.2⟩ = α at *
  generalize Complex.arg ⟨c.1 - b.1, c.2 - b.2⟩ = γ at *
  rw [← c1, ← s1, ← c2, ← s2] at hx
  have ecos : Real.cos (α - γ - k * (2 * Real.pi)) = Real.cos (α - γ) := Real.cos_sub_int_mul_two_pi _ k
  have esin : Real.sin (α - γ - k * (2 * Real.pi)) = Real.sin (α - γ) := Real.sin_sub_int_mul_two_pi _ k
  generalize hx' : α - γ - k * (2 * Real.pi) = x at *
  rcases hx with hx | hx
  · have h0 : Real.cos x ≤ 0 := by
      rw [ecos, Real.cos_sub]
      have : A * C * (Real.cos α * Real.cos γ + Real.sin α * Real.sin γ) ≤ 0 := by linarith
      by_contra hcon
      push Not at hcon
      have := mul_pos (mul_pos p1 p2) hcon
      linarith
    by_contra hcon
    push Not at hcon
    have hlt : |x| < Real.pi / 2 := by have := Real.pi_gt_three; linarith
    have := Real.cos_pos_of_mem_Ioo (abs_lt.1 hlt)
    linarith
  · have h0 : ε ≤ |Real.sin x| := by
      rw [esin, Real.sin_sub]
      have e : A * Real.cos α * (C * Real.sin γ) - A * Real.sin α * (C * Real.cos γ) =
          -(A * C * (Real.sin α * Real.cos γ - Real.cos α * Real.sin γ)) := by ring
      rw [e, abs_neg, abs_mul, abs_of_pos (mul_pos p1 p2), mul_comm] at hx
      exact le_of_mul_le_mul_left hx (mul_pos p1 p2)
    exact h0.trans Real.abs_sin_le_abs

/-! ## Whole coordinates -/

theorem rep_int {N : ℤ} (hN : |(N : ℝ)| < 2 ^ 53) : Rep |(N : ℝ)| := by
  refine ⟨N.natAbs, 0, ?_, by norm_num, by norm_num, ?_⟩
  · have : ((N.natAbs : ℕ) : ℝ) < ((2 ^ 53 : ℕ) : ℝ) := by
      rw [Nat.cast_natAbs]; push_cast; norm_num at hN; exact hN
    exact_mod_cast this
  · rw [Nat.cast_natAbs]; push_cast; simp

theorem rep_int_half {N : ℤ} (hN : |(N : ℝ)| < 2 ^ 53) : Rep |(N : ℝ) / 2| := by
  refine ⟨N.natAbs, -1, ?_, by norm_num, by norm_num, ?_⟩
  · have : ((N.natAbs : ℕ) : ℝ) < ((2 ^ 53 : ℕ) : ℝ) := by
      rw [Nat.cast_natAbs]; push_cast; norm_num at hN; exact hN
    exact_mod_cast this
  · rw [Nat.cast_natAbs, abs_div]; push_cast; rw [zpow_neg_one, abs_of_pos (show (0 : ℝ) < 2 by norm_num)]; rfl

theorem Whole.rep {r : ℝ} (hr : Whole r) (hb : |r| < 2 ^ 53) : Rep |r| := by
  obtain ⟨N, rfl⟩ := hr
  exact rep_int hb

theorem Whole.add {r t : ℝ} (hr : Whole r) (ht : Whole t) : Whole (r + t) := by
  obtain ⟨N, rfl⟩ := hr
  obtain ⟨M, rfl⟩ := ht
  exact ⟨N + M, by push_cast; rfl⟩

theorem Whole.sub {r t : ℝ} (hr : Whole r) (ht : Whole t) : Whole (r - t) := by
  obtain ⟨N, rfl⟩ := hr
  obtain ⟨M, rfl⟩ := ht
  exact ⟨N - M, by push_cast; rfl⟩

theorem Whole.mul {r t : ℝ} (hr : Whole r) (ht : Whole t) : Whole (r * t) := by
  obtain ⟨N, rfl⟩ := hr
  obtain ⟨M, rfl⟩ := ht
  exact ⟨N * M, by push_cast; rfl⟩

theorem Whole.one_le {r : ℝ} (hr : Whole r) (h0 : r ≠ 0) : 1 ≤ |r| := by
  obtain ⟨N, rfl⟩ := hr
  have : N ≠ 0 := by rintro rfl; simp at h0
  exact_mod_cast Int.one_le_abs this

/-- not the negative zero -/
def NotNegZero (x : B64 lm) : Prop := x.Is 0 → x.v.isNeg = false

theorem top_of_rep {r : ℝ} (hr : Rep |r|) : |rs r| < top := by rw [rs_rep hr]; exact hr.lt_top

theorem add_exact {x y : B64 lm} {r t : ℝ} (hx : x.Is r) (hy : y.Is t) (hr : Rep |r + t|) (h0 : NotNegZero x) :
    (x + y).Is (r + t) ∧ NotNegZero (x + y) := by
  have hi := hx.add hy (top_of_rep hr)
  rw [rs_rep hr] at hi
  refine ⟨hi, fun hz => ?_⟩
  have hsum := hi.unique hz
  obtain ⟨s, m, e, rfl⟩ := hx
  obtain ⟨s', m', e', rfl⟩ := hy
  rw [B64.add_v, e, e']
  simp only [Val.add]
  rw [if_pos hsum]
  simp only [Val.isNeg]
  by_contra hcon
  have hcon : (s && s') = true := by simpa using hcon
  rw [Bool.and_eq_true] at hcon
  obtain ⟨rfl, rfl⟩ := hcon
  have e1 : sgn true m.1 = -m.1 := rfl
  have e2 : sgn true m'.1 = -m'.1 := rfl
  rw [e1, e2] at hsum
  have := m.2.nonneg
  have := m'.2.nonneg
  have hm : m.1 = 0 := by linarith
  have := h0 ⟨true, m, e, by rw [e1, hm, neg_zero]⟩
  rw [e] at this
  exact Bool.noConfusion this

theorem half_exact {x : B64 lm} {r : ℝ} (hx : x.Is r) (hr : Rep |r / 2|) (h0 : NotNegZero x) :
    (x / (2.0 : B64 lm)).Is (r / 2) ∧ NotNegZero (x / (2.0 : B64 lm)) := by
  have hi := hx.div two_is (by norm_num) (top_of_rep hr)
  rw [rs_rep hr] at hi
  refine ⟨hi, fun hz => ?_⟩
  have hsum := hi.unique hz
  have hr0 : r = 0 := by linarith
  subst hr0
  have hs := h0 hx
  obtain ⟨s, m, e, em⟩ := hx
  obtain ⟨s', m', e', em'⟩ := two_is (lm := lm)
  rw [e] at hs
  have hs : s = false := hs
  subst hs
  have : s' = false := by
    cases s'
    · rfl
    · exfalso
      have e2 : sgn true m'.1 = -m'.1 := rfl
      rw [e2] at em'
      have := m'.2.nonneg
      linarith
  subst this
  have hm : m.1 = 0 := by simpa [sgn] using em
  have hm' : m'.1 ≠ 0 := by
    have : m'.1 = 2 := by simpa [sgn] using em'
    rw [this]; norm_num
  rw [B64.div_v, e, e']
  simp only [Val.div]
  rw [if_neg hm', hm, zero_div]
  unfold Val.pack
  rw [dif_pos (by rw [abs_zero, rnd_zero]; exact Rep.zero.lt_top)]
  rfl

theorem totalLe_exact {x y : B64 lm} {r t : ℝ} (hx : x.Is r) (hy : y.Is t) (h0 : NotNegZero y) : Num.totalLe x y = decide (r ≤ t) := by
  rw [Bool.eq_iff_iff]
  constructor
  · intro hle
    simpa using totalLe_of hx hy hle
  · intro hle
    have hle : r ≤ t := by simpa using hle
    obtain ⟨a, m, e, rfl⟩ := hx
    obtain ⟨b, n, e', rfl⟩ := hy
    show x.v.totalLe y.v = true
    rw [e, e']
    simp only [Val.totalLe, Val.ext, Bool.or_eq_true, Bool.and_eq_true]
    rcases hle.eq_or_lt with h1 | h1
    · right
      refine ⟨decide_eq_true (EReal.coe_eq_coe_iff.2 h1), ?_⟩
      simp only [Val.isNeg]
      cases b
      · right; rfl
      · left
        cases a
        · exfalso
          have e1 : sgn false m.1 = m.1 := rfl
          have e2 : sgn true n.1 = -n.1 := rfl
          rw [e1, e2] at h1
          have := m.2.nonneg
          have := n.2.nonneg
          have := h0 ⟨true, n, e', by rw [e2]; linarith⟩
          rw [e'] at this
          exact Bool.noConfusion this
        · rfl
    · left
      exact decide_eq_true (EReal.coe_lt_coe_iff.2 h1)

/-- whole coordinates of magnitude at most `B` -/
def WholeSeg (h : Heap (B64 lm)) (B : ℝ) (sg : Segment (B64 lm)) : Prop :=
  ((sg.getStart h).x.Is (sg.xy h).1.1 ∧ (sg.getStart h).y.Is (sg.xy h).1.2 ∧ (sg.getEnd h).x.Is (sg.xy h).2.1 ∧ (sg.getEnd h).y.Is (sg.xy h).2.2) ∧
  (|(sg.xy h).1.1| ≤ B ∧ |(sg.xy h).1.2| ≤ B ∧ |(sg.xy h).2.1| ≤ B ∧ |(sg.xy h).2.2| ≤ B) ∧
  (Whole (sg.xy h).1.1 ∧ Whole (sg.xy h).1.2 ∧ Whole (sg.xy h).2.1 ∧ Whole (sg.xy h).2.2)

theorem sum_exact {B : ℝ} : ∀ (l : List (Segment (B64 lm))), (∀ sg ∈ l, WholeSeg h B sg) → l.length * (2 * B ^ 2) < 2 ^ 53 →
    ∃ x, l.foldl (fun area sg => area + ((sg.getStart h).x * (sg.getEnd h).y - (sg.getEnd h).x * (sg.getStart h).y)) (0.0 : B64 lm) = x ∧
      x.Is (l.map (fun sg => cross (sg.xy h).1 (sg.xy h).2)).sum ∧ NotNegZero x ∧ Whole (l.map (fun sg => cross (sg.xy h).1 (sg.xy h).2)).sum ∧
      |(l.map (fun sg => cross (sg.xy h).1 (sg.xy h).2)).sum| ≤ l.length * (2 * B ^ 2) := by
  intro l
  induction l using List.reverseRecOn with
  | nil =>
    intro _ _
    refine ⟨_, rfl, B64.is_zero, ?_, ⟨0, by simp⟩, by simp⟩
    intro _
    show (Val.pack false (OfScientific.ofScientific 0 true 1 : ℝ)).isNeg = false
    rw [show (OfScientific.ofScientific 0 true 1 : ℝ) = 0 by norm_num]
    unfold Val.pack
    rw [dif_pos (by rw [abs_zero, rnd_zero]; exact Rep.zero.lt_top)]
    rfl
  | append_singleton l sg ih =>
    intro hw hlen
    rw [List.length_append] at hlen
    simp only [List.length_cons, List.length_nil, zero_add] at hlen
    push_cast at hlen
    have hB0 : 0 ≤ B ^ 2 := sq_nonneg B
    have hl0 : (0 : ℝ) ≤ l.length := Nat.cast_nonneg _
    have hlB : 0 ≤ (l.length : ℝ) * (2 * B ^ 2) := by positivity
    obtain ⟨x, e, i1, n1, w1, b1⟩ := ih (fun y hy => hw y (by simp [hy])) (by linarith)
    obtain ⟨⟨j1, j2, j3, j4⟩, ⟨c1, c2, c3, c4⟩, w2, w3, w4, w5⟩ := hw sg (by simp)
    have prod : ∀ {u v : B64 lm} {r t : ℝ}, u.Is r → v.Is t → |r| ≤ B → |t| ≤ B → Whole r → Whole t → (u * v).Is (r * t) ∧ |r * t| ≤ B ^ 2 := by
      intro u v r t hu hv br bt wr wt
      have hb : |r * t| ≤ B ^ 2 := by
        rw [abs_mul, sq]
        exact mul_le_mul br bt (abs_nonneg _) ((abs_nonneg _).trans br)
      have hR : Rep |r * t| := (wr.mul wt).rep (by linarith)
      have := hu.mul hv (top_of_rep hR)
      rw [rs_rep hR] at this
      exact ⟨this, hb⟩
    obtain ⟨p1, q1⟩ := prod j1 j4 c1 c4 w2 w5
    obtain ⟨p2, q2⟩ := prod j3 j2 c3 c2 w4 w3
    have wc : Whole (cross (sg.xy h).1 (sg.xy h).2) := (w2.mul w5).sub (w4.mul w3)
    have bc : |cross (sg.xy h).1 (sg.xy h).2| ≤ 2 * B ^ 2 := (abs_sub _ _).trans (by linarith)
    have rc : Rep |cross (sg.xy h).1 (sg.xy h).2| := wc.rep (by linarith)
    have i2 := p1.sub p2 (top_of_rep rc)
    rw [show (sg.xy h).1.1 * (sg.xy h).2.2 - (sg.xy h).2.1 * (sg.xy h).1.2 = cross (sg.xy h).1 (sg.xy h).2 from rfl, rs_rep rc] at i2
    rw [List.foldl_append, List.map_append, List.sum_append, e]
    simp only [List.foldl_cons, List.foldl_nil, List.map_cons, List.map_nil, List.sum_cons, List.sum_nil, add_zero, List.length_append,
      List.length_cons, List.length_nil, zero_add]
    generalize (l.map (fun sg => cross (sg.xy h).1 (sg.xy h).2)).sum = C at *
    generalize cross (sg.xy h).1 (sg.xy h).2 = c at *
    have hb : |C + c| ≤ ((l.length + 1 : ℕ) : ℝ) * (2 * B ^ 2) := (abs_add_le _ _).trans (by push_cast; linarith)
    have hR : Rep |C + c| := (w1.add wc).rep (by push_cast at hb; linarith)
    obtain ⟨k1, k2⟩ := add_exact i1 i2 hR n1
    exact ⟨_, rfl, k1, k2, w1.add wc, hb⟩

theorem grid_spread {B : ℝ} (hB : B ≤ 2 ^ 19) (hL : ∀ e ∈ L, |e.1.1| ≤ B ∧ |e.1.2| ≤ B ∧ |e.2.1| ≤ B ∧ |e.2.2| ≤ B)
    (hw : ∀ e ∈ L, Whole e.1.1 ∧ Whole e.1.2 ∧ Whole e.2.1 ∧ Whole e.2.2) (hp : PlainLines L) : SpreadLines (2 ^ (-41 : ℤ)) L := by
  intro i j b a c hij hi hj
  have mem : ∀ {p q : ℝ × ℝ}, (p, q) ∈ L ++ L.map Prod.swap → Joined L p q ∧ p ≠ q ∧ (|p.1| ≤ B ∧ |p.2| ≤ B ∧ |q.1| ≤ B ∧ |q.2| ≤ B) ∧
      (Whole p.1 ∧ Whole p.2 ∧ Whole q.1 ∧ Whole q.2) := by
    intro p q hm
    have hne : p ≠ q := by
      rintro rfl
      have hnd := List.nodup_append.1 hp.1
      rcases List.mem_append.1 hm with h1 | h1
      · exact hnd.2.2 (p, p) h1 (p, p) (List.mem_map.2 ⟨_, h1, rfl⟩) rfl
      · obtain ⟨⟨x, y⟩, h2, h3⟩ := List.mem_map.1 h1
        have h3 := Prod.mk.inj h3
        dsimp only at h3
        obtain ⟨rfl, rfl⟩ := h3
        exact hnd.2.2 _ h2 _ h1 rfl
    rcases List.mem_append.1 hm with h1 | h1
    · exact ⟨.inl h1, hne, hL _ h1, hw _ h1⟩
    · obtain ⟨⟨x, y⟩, h2, h3⟩ := List.mem_map.1 h1
      have h3 := Prod.mk.inj h3
      dsimp only at h3
      obtain ⟨rfl, rfl⟩ := h3
      obtain ⟨k1, k2, k3, k4⟩ := hL _ h2
      obtain ⟨l1, l2, l3, l4⟩ := hw _ h2
      exact ⟨.inr h2, hne, ⟨k3, k4, k1, k2⟩, l3, l4, l1, l2⟩
  obtain ⟨ja, na, ba, wa⟩ := mem (List.mem_of_getElem? hi)
  obtain ⟨jc, nc, bc, wc⟩ := mem (List.mem_of_getElem? hj)
  have hac : a ≠ c := by
    rintro rfl
    exact hij (List.nodup_iff_getElem?_ne_getElem?.1 hp.1 |> fun hn => by
      by_contra hne
      rcases lt_or_gt_of_ne hne with h1 | h1
      · exact hn i j h1 (List.getElem?_eq_some_iff.1 hj).1 (hi.trans hj.symm)
      · exact hn j i h1 (List.getElem?_eq_some_iff.1 hi).1 (hj.trans hi.symm))
  apply C98_spread a b c (by norm_num) na.symm nc.symm
  by_contra hcon
  push Not at hcon
  obtain ⟨hdot, hcr⟩ := hcon
  -- the cross product is zero
  have hB0 : 0 ≤ B := (abs_nonneg _).trans ba.1
  have hsq : ∀ p : ℝ × ℝ, |p.1| ≤ B → |p.2| ≤ B → √((p.1 - b.1) ^ 2 + (p.2 - b.2) ^ 2) ≤ √(8 * B ^ 2) := by
    intro p h1 h2
    apply Real.sqrt_le_sqrt
    have k : ∀ u v : ℝ, |u| ≤ B → |v| ≤ B → (u - v) ^ 2 ≤ 4 * B ^ 2 := by
      intro u v hu hv
      have : |u - v| ≤ 2 * B := (abs_sub u v).trans (by linarith)
      have := pow_le_pow_left₀ (abs_nonneg _) this 2
      rw [_root_.sq_abs] at this
      linarith
    have := k p.1 b.1 h1 ba.1
    have := k p.2 b.2 h2 ba.2.1
    linarith
  have hcz : (a.1 - b.1) * (c.2 - b.2) - (a.2 - b.2) * (c.1 - b.1) = 0 := by
    by_contra hne
    have h1 := (((wa.2.2.1.sub wa.1).mul (wc.2.2.2.sub wc.2.1)).sub ((wa.2.2.2.sub wa.2.1).mul (wc.2.2.1.sub wc.1))).one_le hne
    have h2 := mul_le_mul (hsq a ba.2.2.1 ba.2.2.2) (hsq c bc.2.2.1 bc.2.2.2) (Real.sqrt_nonneg _) (Real.sqrt_nonneg _)
    rw [Real.mul_self_sqrt (by positivity)] at h2
    have h3 : B ^ 2 ≤ (2 ^ 19) ^ 2 := pow_le_pow_left₀ hB0 hB 2
    have h4 : (2 : ℝ) ^ (-41 : ℤ) * (√((a.1 - b.1) ^ 2 + (a.2 - b.2) ^ 2) * √((c.1 - b.1) ^ 2 + (c.2 - b.2) ^ 2)) ≤ 2 ^ (-41 : ℤ) * (8 * (2 ^ 19) ^ 2) :=
      mul_le_mul_of_nonneg_left (by linarith) (by positivity)
    norm_num at h4 hcr
    linarith
  -- so the lines point in the same direction
  apply hac
  apply hp.2 a b c ja jc
  have hu : 0 < (a.1 - b.1) ^ 2 + (a.2 - b.2) ^ 2 := by
    rcases eq_or_ne (a.1 - b.1) 0 with h1 | h1
    · rcases eq_or_ne (a.2 - b.2) 0 with h2 | h2
      · exact absurd (Prod.ext (by linarith) (by linarith)) na
      · positivity
    · positivity
  set t : ℝ := ((a.1 - b.1) * (c.1 - b.1) + (a.2 - b.2) * (c.2 - b.2)) / ((a.1 - b.1) ^ 2 + (a.2 - b.2) ^ 2) with ht
  have ht0 : 0 < t := div_pos hdot hu
  have e1 : c.1 - b.1 = t * (a.1 - b.1) := by
    rw [ht]; field_simp; linear_combination (-(a.2 - b.2)) * hcz
  have e2 : c.2 - b.2 = t * (a.2 - b.2) := by
    rw [ht]; field_simp; linear_combination (a.1 - b.1) * hcz
  have hdir : direction b c = direction b a := by
    unfold direction
    rw [e1, e2]
    have : (⟨t * (a.1 - b.1), t * (a.2 - b.2)⟩ : ℂ) = (t : ℂ) * ⟨a.1 - b.1, a.2 - b.2⟩ := by
      apply Complex.ext <;> simp
    rw [this, Complex.arg_real_mul _ ht0]
  unfold leftTurn
  rw [hdir, sub_self]
  exact (toIcoMod_eq_self Real.two_pi_pos).2 ⟨le_rfl, by simpa using Real.pi_pos⟩

/-- **C98.** For a drawing of `n` lines with whole coordinates of magnitude at most `B`, where `B ≤ 2^19` and `4 n B² < 2^53`, without
circles, in which no two lines leave a point in the same direction, `find_rings` in binary64 finds exactly what it finds in exact
arithmetic: the same rings, in the same order, and the same unused lines. -/
theorem C98_grid {B : ℝ} (hl : lm.AtanAccurate κ) (hκ : 0 ≤ κ) (hκ1 : κ ≤ 2 ^ (-44 : ℤ)) (hB : B ≤ 2 ^ 19)
    (hd : DraftLines h s B L) (hw : ∀ e ∈ L, Whole e.1.1 ∧ Whole e.1.2 ∧ Whole e.2.1 ∧ Whole e.2.2)
    (hn : 4 * L.length * B ^ 2 < 2 ^ 53) (hp : PlainLines L) (hc : ∀ c, PrimCell.circle c ∉ s.cells) :
    findRings h.exact s = ((findRings h s).1.map Ring.exact, (findRings h s).2.map Segment.exact) := by
  have hs := grid_spread hB hd.2 hw hp
  have hB100 : B ≤ 2 ^ (100 : ℤ) := hB.trans (by norm_num)
  have hd' : DraftLines h s (2 ^ (100 : ℤ)) L :=
    ⟨hd.1, fun e he => ⟨(hd.2 e he).1.trans hB100, (hd.2 e he).2.1.trans hB100, (hd.2 e he).2.2.1.trans hB100, (hd.2 e he).2.2.2.trans hB100⟩⟩
  have hε : 4 * κ + 2 ^ (-42 : ℤ) ≤ (2 : ℝ) ^ (-41 : ℤ) := by
    norm_num at hκ1 ⊢
    linarith
  have hε1 : (2 : ℝ) ^ (-41 : ℤ) ≤ 1 := by norm_num
  have w := same_walk hl hκ (by refine le_trans ?_ hε; rw [ulp_eq]; norm_num) hε1 hd' hs
  have hwhole : ∀ sg ∈ allSegments h s, WholeSeg h B sg := by
    intro sg hsg
    obtain ⟨i, hi⟩ := List.mem_iff_getElem?.1 hsg
    obtain ⟨a, b, e, rfl, he, ha, hb, hM, -⟩ := draft_get hd hi
    have r : ∀ {x : B64 lm} {t : ℝ}, x.Is t → x.real = t := by
      intro x t hx
      unfold B64.real
      rw [hx.exact]; rfl
    have e0 : (Segment.line a b : Segment (B64 lm)).xy h = e := by
      obtain ⟨⟨e1, e2⟩, e3, e4⟩ := e
      simp only [Segment.xy, Segment.getStart, Segment.getEnd]
      rw [r ha.1, r ha.2, r hb.1, r hb.2]
    unfold WholeSeg
    rw [e0]
    refine ⟨⟨ha.1, ha.2, hb.1, hb.2⟩, hM, ?_⟩
    rcases List.mem_append.1 (List.mem_of_getElem? he) with h1 | h1
    · exact hw e h1
    · obtain ⟨f, hf, rfl⟩ := List.mem_map.1 h1
      obtain ⟨k1, k2, k3, k4⟩ := hw f hf
      exact ⟨k3, k4, k1, k2⟩
  have hlen : (allSegments h s).length = 2 * L.length := by
    have := hd.1.length_eq
    rw [← initSegments_eq] at this
    unfold allSegments
    rw [List.length_append, List.length_map, this]; ring
  have hsub := traced_subperm h s
  -- the areas are computed without error
  have area : ∀ r ∈ unsortedRings h s, (r.signedArea h).Is (areaOf h r) ∧ NotNegZero (r.signedArea h) ∧
      r.exact.signedArea h.exact = fin (areaOf h r) := by
    intro r hr
    unfold unsortedRings at hr
    rcases List.mem_append.1 hr with hr | hr
    · obtain ⟨l, hl, rfl⟩ := List.mem_map.1 hr
      have hl2 : l.length ≤ 2 * L.length := by
        have h1 : (tracedRings h s).2.flatten.length ≤ (allSegments h s).length := by
          have := hsub.length_le
          rwa [List.length_map] at this
        have h2 := (List.sublist_flatten_of_mem hl).length_le
        omega
      have hmem : ∀ sg ∈ l.map (·.2), sg ∈ allSegments h s := by
        intro sg hsg
        apply hsub.subset
        obtain ⟨x, hx, rfl⟩ := List.mem_map.1 hsg
        exact List.mem_map_of_mem (List.mem_flatten.2 ⟨l, hl, hx⟩)
      have hB2 := sq_nonneg B
      have hsmall : ((l.map (·.2)).length : ℝ) * (2 * B ^ 2) < 2 ^ 53 := by
        rw [List.length_map]
        have : (l.length : ℝ) ≤ 2 * L.length := by exact_mod_cast hl2
        nlinarith
      obtain ⟨x, e, i1, n1, ⟨N, hN⟩, b1⟩ := sum_exact (l.map (·.2)) (fun sg hsg => hwhole sg (hmem sg hsg)) hsmall
      have hfin : (Ring.segments (l.map (·.2))).exact.signedArea h.exact = fin (areaOf h (.segments (l.map (·.2)))) := by
        show (Ring.segments ((l.map (·.2)).map Segment.exact)).signedArea h.exact = _
        rw [signedArea_fin (es := (l.map (·.2)).map (fun sg => sg.xy h))]
        · simp only [List.map_map, areaOf]; rfl
        · rw [List.forall₂_map_left_iff, List.forall₂_map_right_iff, List.forall₂_same]
          exact fun sg hsg => (draft_plain hd' (hmem sg hsg)).xy.2.2.2.2.2
      have hR : Rep |((l.map (·.2)).map (fun sg => cross (sg.xy h).1 (sg.xy h).2)).sum / 2| := by
        rw [hN]
        rw [hN] at b1
        exact rep_int_half (by linarith)
      obtain ⟨k1, k2⟩ := half_exact i1 hR n1
      rw [← e] at k1 k2
      exact ⟨k1, k2, hfin⟩
    · obtain ⟨c, hc', rfl⟩ := mem_circleRings.1 hr
      exact absurd hc' (hc c)
  apply Prod.ext
  · unfold findRings
    dsimp only
    rw [exact_unsorted w hd', ← List.map_mergeSort (r := fun a b => Num.totalLe (a.signedArea h) (b.signedArea h)), List.filter_map]
    · congr 1
      apply List.filter_congr
      intro r hr
      obtain ⟨k1, -, k3⟩ := area r (List.mem_mergeSort.1 hr)
      rw [Bool.eq_iff_iff]
      simp only [Function.comp, gt]
      rw [k3, lit0, lt_fin, B64.is_zero.lt_iff k1]
      simp
    · intro a ha b hb
      obtain ⟨k1, -, k3⟩ := area a ha
      obtain ⟨l1, l2, l3⟩ := area b hb
      rw [k3, l3, totalLe_fin, totalLe_exact k1 l1 l2]
  · exact exact_unused w hd'

/-! ## The hypotheses can be met -/

/-- the library that rounds the exact functions correctly, with the angle of a vector as `atan2` -/
noncomputable def atanLibm : Libm :=
  { roundedLibm with
    atan2 := fun y x => match y, x with
      | num s m, num s' m' => pack (decide (Complex.arg ⟨sgn s' m'.1, sgn s m.1⟩ < 0)) (Complex.arg ⟨sgn s' m'.1, sgn s m.1⟩)
      | _, _ => nan }

theorem atanLibm_accurate : atanLibm.AtanAccurate (2 ^ (-50 : ℤ)) := by
  rintro y x b a ⟨s, m, e, rfl⟩ ⟨s', m', e', rfl⟩ -
  have h1 := Complex.abs_arg_le_pi ⟨sgn s' m'.1, sgn s m.1⟩
  have h4 := Real.pi_le_four
  have hb : |Complex.arg ⟨sgn s' m'.1, sgn s m.1⟩| ≤ 2 ^ (2 : ℤ) := by
    norm_num
    linarith
  have near : ∀ {z : ℝ}, |z| ≤ 4 → |rs z - z| ≤ 2 ^ (-50 : ℤ) := by
    intro z hz
    have h1 := rs_err' z
    have t1 := two_small (j := -1075) (k := -50) (by norm_num)
    rw [ulp8, ulp_eq] at *
    linarith
  have hn := near (h1.trans h4)
  refine ⟨_, B64.Is.pack (abs_rs_lt_top (by norm_num) (by norm_num) hb) (.inl rfl) ?_, ?_, 0, ?_⟩
  · show atanLibm.atan2 y.v x.v = _
    rw [e, e']; rfl
  · have := abs_sub_abs_le_abs_sub (rs (Complex.arg ⟨sgn s' m'.1, sgn s m.1⟩)) (Complex.arg ⟨sgn s' m'.1, sgn s m.1⟩)
    linarith
  · simpa using hn

/-- a whole number in binary64 -/
noncomputable def wholeB (lm : Libm) (n : Int) : B64 lm := ⟨pack (decide ((n : ℝ) < 0)) n⟩

theorem wholeB_is {n : Int} (hn : |(n : ℝ)| < 2 ^ 53) : (wholeB lm n).Is n := by
  have hr := rep_int hn
  have e : rs (n : ℝ) = n := rs_rep hr
  have := B64.Is.pack (lm := lm) (x := wholeB lm n) (z := (n : ℝ)) (a := decide ((n : ℝ) < 0)) (by rw [e]; exact hr.lt_top) (.inl rfl) rfl
  rwa [e] at this

/-- points at whole coordinates, joined by lines, in binary64 -/
noncomputable def drafting (lm : Libm) (ps : List (Int × Int)) (ls : List (Nat × Nat)) : Heap (B64 lm) :=
  { (Heap.empty : Heap (B64 lm)) with
    points := fun i => ⟨⟨wholeB lm (ps.getD i (0, 0)).1, wholeB lm (ps.getD i (0, 0)).2⟩, ⟨0.0, 0.0⟩⟩
    lines := fun i => ⟨(ls.getD i (0, 0)).1, (ls.getD i (0, 0)).2⟩
    nPoints := ps.length
    nLines := ls.length }

theorem drafting_lines {N : Int} (hN : (N : ℝ) < 2 ^ 53) (ps : List (Int × Int)) (ls ls' : List (Nat × Nat)) (s : Sketch)
    (hs : drawn (drafting lm ps ls) s = linesOf (B64 lm) ls') (hb : ∀ i : Nat, |(ps.getD i (0, 0)).1| ≤ N ∧ |(ps.getD i (0, 0)).2| ≤ N) :
    DraftLines (drafting lm ps ls) s N (gls (ls'.map (fun e => (ps.getD e.1 (0, 0), ps.getD e.2 (0, 0))))) := by
  have hb1 : ∀ i : Nat, |((ps.getD i (0, 0)).1 : ℝ)| ≤ N := fun i => by have := (hb i).1; exact_mod_cast this
  have hb2 : ∀ i : Nat, |((ps.getD i (0, 0)).2 : ℝ)| ≤ N := fun i => by have := (hb i).2; exact_mod_cast this
  have at' : ∀ i, At (drafting lm ps ls) i (ps.getD i (0, 0)).1 (ps.getD i (0, 0)).2 := fun i =>
    ⟨wholeB_is ((hb1 i).trans_lt hN), wholeB_is ((hb2 i).trans_lt hN)⟩
  constructor
  · unfold gls
    rw [hs, linesOf, List.map_map, List.forall₂_map_left_iff, List.forall₂_map_right_iff, List.forall₂_same]
    intro e _
    refine ⟨⟨_, _, rfl, at' _, at' _⟩, ?_⟩
    have r1 : ∀ i, Num.eq ((drafting lm ps ls).points i).data.x ((drafting lm ps ls).points i).data.x = true := fun i =>
      ((at' i).1.eq_iff (at' i).1).2 rfl
    have r2 : ∀ i, Num.eq ((drafting lm ps ls).points i).data.y ((drafting lm ps ls).points i).data.y = true := fun i =>
      ((at' i).2.eq_iff (at' i).2).2 rfl
    have r3 : Num.eq (0.0 : B64 lm) 0.0 = true := (B64.is_zero.eq_iff B64.is_zero).2 rfl
    unfold WayBack
    simp only [Segment.reverse, Segment.beq, Point2.beq, Vec2.beq, r1, r2, Bool.and_true, Bool.true_and]
    have r4 : ∀ i, Num.eq ((drafting lm ps ls).points i).grad.x ((drafting lm ps ls).points i).grad.x = true := fun i => r3
    have r5 : ∀ i, Num.eq ((drafting lm ps ls).points i).grad.y ((drafting lm ps ls).points i).grad.y = true := fun i => r3
    simp only [r4, r5, Bool.and_true, and_self]
  · intro e he
    simp only [gls, List.map_map, List.mem_map, Function.comp] at he
    obtain ⟨t, -, rfl⟩ := he
    exact ⟨hb1 _, hb2 _, hb1 _, hb2 _⟩

theorem gls_whole (E : List ((Int × Int) × (Int × Int))) : ∀ e ∈ gls E, Whole e.1.1 ∧ Whole e.1.2 ∧ Whole e.2.1 ∧ Whole e.2.2 := by
  intro e he
  obtain ⟨t, -, rfl⟩ := List.mem_map.1 he
  exact ⟨⟨_, rfl⟩, ⟨_, rfl⟩, ⟨_, rfl⟩, ⟨_, rfl⟩⟩

/-- the corners of a box of area 1 beside a box of area 2 -/
def shelfPts : List (Int × Int) := [(0, 0), (1, 0), (3, 0), (3, 1), (1, 1), (0, 1)]

/-- the end points of the lines -/
def shelfEnds : List ((Int × Int) × (Int × Int)) := boxLines.map (fun e => (shelfPts.getD e.1 (0, 0), shelfPts.getD e.2 (0, 0)))

/-- the two boxes, in binary64 -/
noncomputable def shelf : Heap (B64 atanLibm) := drafting atanLibm shelfPts boxLines

theorem shelf_draft : DraftLines shelf boxSketch 3 (gls shelfEnds) := by
  have := drafting_lines (lm := atanLibm) (N := 3) (by norm_num) shelfPts boxLines boxLines boxSketch rfl (by
    intro i
    match i with
    | 0 | 1 | 2 | 3 | 4 | 5 => decide
    | n + 6 => simp [shelfPts])
  have e : ((3 : ℤ) : ℝ) = 3 := by norm_num
  rw [e] at this
  exact this

theorem shelf_plain : PlainLines (gls shelfEnds) := GPlain.plain (by decide)

/-- C98_grid -/
example : findRings shelf.exact boxSketch = ((findRings shelf boxSketch).1.map Ring.exact, (findRings shelf boxSketch).2.map Segment.exact) :=
  C98_grid atanLibm_accurate (by positivity) (by norm_num) (by norm_num) shelf_draft (gls_whole _)
    (by norm_num [gls, shelfEnds, boxLines]) shelf_plain (by simp [boxSketch, Sketch.cells])

theorem shelf_spread : SpreadLines (2 ^ (-41 : ℤ)) (gls shelfEnds) :=
  grid_spread (B := 3) (by norm_num) shelf_draft.2 (gls_whole _) shelf_plain

theorem shelf_draft' : DraftLines shelf boxSketch (2 ^ (100 : ℤ)) (gls shelfEnds) := by
  refine ⟨shelf_draft.1, fun e he => ?_⟩
  obtain ⟨h1, h2, h3, h4⟩ := shelf_draft.2 e he
  have : (3 : ℝ) ≤ 2 ^ (100 : ℤ) := by norm_num
  exact ⟨h1.trans this, h2.trans this, h3.trans this, h4.trans this⟩

theorem shelf_circles : ModestCircles shelf boxSketch := by
  intro c hc
  simp [boxSketch, Sketch.cells] at hc

theorem shelf_eps : 4 * (2 : ℝ) ^ (-50 : ℤ) + 2 ^ (-42 : ℤ) ≤ 2 ^ (-41 : ℤ) := by norm_num

/-- C98_unused -/
example : (findRings shelf.exact boxSketch).2 = (findRings shelf boxSketch).2.map Segment.exact :=
  C98_unused atanLibm_accurate (by positivity) shelf_eps (by norm_num) shelf_draft' shelf_spread

/-- the three ways around -/
def shelfWays : List (List (Int × Int)) :=
  [[(0, 0), (1, 0), (1, 1), (0, 1)], [(1, 0), (3, 0), (3, 1), (1, 1)], [(0, 0), (0, 1), (1, 1), (3, 1), (3, 0), (1, 0)]]

theorem shelf_covered (p q : ℝ × ℝ) (hj : Joined (gls shelfEnds) p q) :
    ∃ vs, Around (gls shelfEnds) vs ∧ (p, q) ∈ edges vs :=
  covered_grid (vss := shelfWays) (by decide) (by decide) (by decide) p q hj

theorem polyError_rot {vs ws : List (ℝ × ℝ)} (hr : vs ~r ws) : polyError vs = polyError ws := by
  obtain ⟨k, rfl⟩ := hr
  unfold polyError
  rw [edges_rotate, List.length_rotate]
  congr 2
  exact ((List.rotate_perm (edges vs) k).map _).sum_eq.symm

theorem shelf_way {vs : List (ℝ × ℝ)} (hv : Around (gls shelfEnds) vs) : ∃ ws ∈ shelfWays, vs ~r ws.map gpt := by
  have hne := hv.1
  obtain ⟨p, q, he⟩ : ∃ p q, (p, q) ∈ edges vs := by
    cases hc : edges vs with
    | nil => exact absurd (by rw [← List.length_eq_zero_iff, ← edges_len, hc]; rfl) hne
    | cons x l => exact ⟨x.1, x.2, by simp⟩
  have hj : Joined (gls shelfEnds) p q := by
    obtain ⟨m, -, e⟩ := mem_edges_cyc.1 he
    cases e
    exact hv.joined m
  obtain ⟨p, q, rfl, rfl, hj'⟩ := joined_grid hj
  have h2 : ∀ e ∈ shelfEnds ++ shelfEnds.map Prod.swap, ∃ vs ∈ shelfWays, e ∈ edges vs := by decide
  have h1 : ∀ vs ∈ shelfWays, GAround shelfEnds vs := by decide
  obtain ⟨ws, hw, hm⟩ := h2 (p, q) hj'.mem
  refine ⟨ws, hw, Around.same shelf_plain hv ((h1 ws hw).around (by decide)) he ?_⟩
  rw [edges_gpt, List.mem_map]
  exact ⟨(p, q), hm, rfl⟩

theorem shelf_areas {vs : List (ℝ × ℝ)} (hv : Around (gls shelfEnds) vs) :
    polyError vs < 1 / 8 ∧ ((shoelace vs = 1 ∧ vs ~r [(0, 0), (1, 0), (1, 1), (0, 1)]) ∨ (shoelace vs = 2 ∧ vs ~r [(1, 0), (3, 0), (3, 1), (1, 1)]) ∨
      shoelace vs = -3) := by
  obtain ⟨ws, hw, hr⟩ := shelf_way hv
  rw [polyError_rot hr, shoelace_isRotated hr.symm]
  have small : (2 : ℝ) ^ (-1000 : ℤ) ≤ 1 := zpow_le_one_of_nonpos₀ (by norm_num) (by norm_num)
  simp only [shelfWays, List.mem_cons, List.not_mem_nil, or_false] at hw
  rcases hw with rfl | rfl | rfl
  · refine ⟨?_, .inl ⟨?_, by simpa [gpt] using hr⟩⟩
    · simp only [polyError, gpt, edges, List.map_cons, List.map_nil]
      generalize (2 : ℝ) ^ (-1000 : ℤ) = d at *
      norm_num
      linarith
    · norm_num [gpt, edges, shoelace, cross]
  · refine ⟨?_, .inr (.inl ⟨?_, by simpa [gpt] using hr⟩)⟩
    · simp only [polyError, gpt, edges, List.map_cons, List.map_nil]
      generalize (2 : ℝ) ^ (-1000 : ℤ) = d at *
      norm_num
      linarith
    · norm_num [gpt, edges, shoelace, cross]
  · refine ⟨?_, .inr (.inr ?_)⟩
    · simp only [polyError, gpt, edges, List.map_cons, List.map_nil]
      generalize (2 : ℝ) ^ (-1000 : ℤ) = d at *
      norm_num
      linarith
    · norm_num [gpt, edges, shoelace, cross]

theorem shelf_error {vs : List (ℝ × ℝ)} (hv : Around (gls shelfEnds) vs) : polyError vs < |shoelace vs| := by
  obtain ⟨h1, h2⟩ := shelf_areas hv
  refine h1.trans ?_
  rcases h2 with ⟨h, -⟩ | ⟨h, -⟩ | h <;> rw [h] <;> norm_num

/-- C98_around -/
theorem shelf_around : ∃ vss : List (List (ℝ × ℝ)),
      List.Forall₂ (fun (r : Ring (B64 atanLibm)) vs => RunsAround shelf.exact r.exact.segs vs)
        ((findRings shelf boxSketch).1.filter (fun r => !r.segs.isEmpty)) vss ∧
      vss.Pairwise (fun vs ws => ¬vs ~r ws) ∧ ∀ vs, (∃ ws ∈ vss, ws ~r vs) ↔ Around (gls shelfEnds) vs ∧ 0 < shoelace vs :=
  C98_around atanLibm_accurate (by positivity) shelf_eps (by norm_num) shelf_draft' (by simp [gls, shelfEnds, boxLines]) shelf_spread
    (C77_covered _ shelf_plain shelf_covered).1 (fun _ hv => shelf_error hv)

theorem unsorted_plain (hd : DraftLines h s (2 ^ (100 : ℤ)) L) (hc : ∀ c, PrimCell.circle c ∉ s.cells) {r : Ring (B64 lm)}
    (hr : r ∈ unsortedRings h s) : ∃ l, r = .segments l ∧ l ≠ [] ∧ ∀ sg ∈ l, PlainSeg h sg := by
  unfold unsortedRings at hr
  rcases List.mem_append.1 hr with hr | hr
  · obtain ⟨l, hl, rfl⟩ := List.mem_map.1 hr
    refine ⟨_, rfl, ?_, fun sg hsg => draft_plain hd ((traced_subperm h s).subset ?_)⟩
    · have := ((tracedRings_ok h s).2.2 l hl).ne
      simpa using this
    · obtain ⟨x, hx, rfl⟩ := List.mem_map.1 hsg
      exact List.mem_map_of_mem (List.mem_flatten.2 ⟨l, hl, hx⟩)
  · unfold circleRings at hr
    obtain ⟨kp, hk, e⟩ := List.mem_filterMap.1 hr
    rcases kp with ⟨k, p⟩
    cases p <;> simp only [Option.some.injEq, reduceCtorEq] at e
    exact absurd (List.mem_map.2 ⟨_, hk, rfl⟩) (hc _)

theorem shelf_nocircle : ∀ c, PrimCell.circle c ∉ boxSketch.cells := by simp [boxSketch, Sketch.cells]

theorem shelf_found {r : Ring (B64 atanLibm)} (hr : r ∈ (findRings shelf boxSketch).1) : !r.segs.isEmpty := by
  obtain ⟨l, rfl, h1, -⟩ := unsorted_plain shelf_draft' shelf_nocircle (mem_unsorted.1 hr).1
  simp [Ring.segs, h1]

theorem shelf_rings : ∃ vss : List (List (ℝ × ℝ)),
      List.Forall₂ (fun (r : Ring (B64 atanLibm)) vs => areaOf shelf r = shoelace vs ∧ areaError shelf r = polyError vs)
        (findRings shelf boxSketch).1 vss ∧
      vss.Pairwise (fun vs ws => ¬vs ~r ws) ∧ ∀ vs ∈ vss, Around (gls shelfEnds) vs ∧ 0 < shoelace vs := by
  obtain ⟨vss, h1, h2, h3⟩ := shelf_around
  rw [List.filter_eq_self.2 (fun r hr => shelf_found hr)] at h1
  refine ⟨vss, ?_, h2, fun vs hv => (h3 vs).1 ⟨vs, hv, List.IsRotated.refl _⟩⟩
  have h4 := (List.forall₂_and_left _ _).2 ⟨show ∀ r ∈ (findRings shelf boxSketch).1, ∃ l, r = .segments l ∧ l ≠ [] ∧ ∀ sg ∈ l, PlainSeg shelf sg from
    fun r hr => unsorted_plain shelf_draft' shelf_nocircle (mem_unsorted.1 hr).1, h1⟩
  refine h4.imp ?_
  rintro r vs ⟨⟨l, rfl, -, hl⟩, hr⟩
  exact area_runs hl hr

theorem shelf_clear {r : Ring (B64 atanLibm)} (hr : r ∈ (findRings shelf boxSketch).1) :
    areaError shelf r < 1 / 8 ∧ areaError shelf r < areaOf shelf r := by
  obtain ⟨vss, h1, -, h3⟩ := shelf_rings
  obtain ⟨vs, hv, e1, e2⟩ : ∃ vs ∈ vss, areaOf shelf r = shoelace vs ∧ areaError shelf r = polyError vs := by
    obtain ⟨i, hi, e⟩ := List.mem_iff_getElem.1 hr
    subst e
    exact ⟨vss[i]'(h1.length_eq ▸ hi), List.getElem_mem _, List.Forall₂.get h1 hi (h1.length_eq ▸ hi)⟩
  obtain ⟨h4, h5⟩ := h3 vs hv
  rw [e1, e2]
  refine ⟨(shelf_areas h4).1, ?_⟩
  have := shelf_error h4
  rwa [abs_of_pos h5] at this

/-- the line segments are determined by their exact counterparts -/
theorem exact_lines {l l' : List (Segment (B64 lm))} (hp : ∀ sg ∈ l', PlainSeg h sg) (e : l.map Segment.exact = l'.map Segment.exact) :
    l = l' := by
  induction l' generalizing l with
  | nil => simpa using e
  | cons a l' ih =>
    cases l with
    | nil => simp at e
    | cons b l =>
      rw [List.map_cons, List.map_cons, List.cons.injEq] at e
      rw [ih (fun sg hs => hp sg (by simp [hs])) e.2]
      obtain ⟨p, q, t, rfl, -⟩ := hp a (by simp)
      cases b with
      | line c d => exact congrArg (· :: l') (by have := e.1; simp only [Segment.exact, Segment.line.injEq] at this; rw [this.1, this.2])
      | arc c => simp [Segment.exact] at e

theorem shelf_clear' (r : Ring (B64 atanLibm)) (hr : r.exact ∈ (findRings shelf.exact boxSketch).1) :
    areaError shelf r < areaOf shelf r := by
  have h1 := C98_grid atanLibm_accurate (by positivity) (by norm_num) (by norm_num) shelf_draft (gls_whole _)
    (by norm_num [gls, shelfEnds, boxLines]) shelf_plain (by simp [boxSketch, Sketch.cells])
  rw [h1] at hr
  obtain ⟨r', hr', e⟩ := List.mem_map.1 hr
  obtain ⟨l', rfl, -, hl⟩ := unsorted_plain shelf_draft' shelf_nocircle (mem_unsorted.1 hr').1
  cases r with
  | circle c => simp [Ring.exact] at e
  | segments l =>
    simp only [Ring.exact, Ring.segments.injEq] at e
    rw [exact_lines hl e.symm]
    exact (shelf_clear hr').2

/-- C98_found, C98_kept, C98_order, C98_rings, C98_list -/
example : (findRings shelf.exact boxSketch).1 = (findRings shelf boxSketch).1.map Ring.exact := by
  refine C98_list atanLibm_accurate (by positivity) shelf_eps (by norm_num) shelf_draft' (by simp [gls, shelfEnds, boxLines]) shelf_circles
    shelf_spread (fun r hr => (shelf_clear hr).2) shelf_clear' ?_
  obtain ⟨vss, h1, h2, h3⟩ := shelf_rings
  have small : ∀ r ∈ (findRings shelf boxSketch).1, areaError shelf r < 1 / 8 := fun r hr => (shelf_clear hr).1
  generalize (findRings shelf boxSketch).1 = rs at h1 small
  induction h1 with
  | nil => exact List.Pairwise.nil
  | @cons r vs rs vss h4 h5 ih =>
    rw [List.pairwise_cons] at h2
    refine List.pairwise_cons.2 ⟨fun r' hr' => ?_, ih h2.2 (fun v hv => h3 v (by simp [hv])) (fun r hr => small r (by simp [hr]))⟩
    obtain ⟨ws, hw, e1⟩ : ∃ ws ∈ vss, areaOf shelf r' = shoelace ws := by
      obtain ⟨i, hi, e⟩ := List.mem_iff_getElem.1 hr'
      subst e
      exact ⟨vss[i]'(h5.length_eq ▸ hi), List.getElem_mem _, (List.Forall₂.get h5 hi (h5.length_eq ▸ hi)).1⟩
    have s1 := small r (by simp)
    have s2 := small r' (by simp [hr'])
    obtain ⟨-, a1⟩ := shelf_areas (h3 vs (by simp)).1
    obtain ⟨-, a2⟩ := shelf_areas (h3 ws (by simp [hw])).1
    have p1 := (h3 vs (by simp)).2
    have p2 := (h3 ws (by simp [hw])).2
    have hne := h2.1 ws hw
    rw [h4.1, e1]
    rcases a1 with ⟨a1, b1⟩ | ⟨a1, b1⟩ | a1 <;> rcases a2 with ⟨a2, b2⟩ | ⟨a2, b2⟩ | a2
    · exact absurd (b1.trans b2.symm) hne
    · rw [a1, a2]; norm_num; linarith
    · linarith
    · rw [a1, a2]; norm_num; linarith
    · exact absurd (b1.trans b2.symm) hne
    · linarith
    · linarith
    · linarith
    · linarith

/-- C98_spread: two lines at an angle of about 0.1 -/
example : Spread (1 / 16) ((10 : ℝ), (0 : ℝ)) (0, 0) (10, 1) := by
  refine C98_spread _ _ _ (by norm_num) (by simp) (by simp) (.inr ?_)
  have h1 : √((10 : ℝ) ^ 2 + 1 ^ 2) ≤ 11 := by
    rw [Real.sqrt_le_left (by norm_num)]; norm_num
  have h2 : √((10 : ℝ) ^ 2) = 10 := Real.sqrt_sq (by norm_num)
  norm_num at h1 h2 ⊢
  rw [h2]
  linarith

end Isotope
