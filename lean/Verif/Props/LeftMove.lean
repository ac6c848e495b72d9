import Verif.Props.Left
import Verif.Props.Polygon
import Verif.Lemmas.LeftMap

/-!
# Rings of moved, mirrored and separate drawings
-/

namespace Isotope
open XR

variable {f g : ℝ × ℝ → ℝ × ℝ} {L : List ((ℝ × ℝ) × (ℝ × ℝ))}

theorem cyc_map {vs : List (ℝ × ℝ)} (hn : vs ≠ []) (i : Nat) : cyc (vs.map f) i = f (cyc vs i) := by
  have h1 := cyc_get (vs := vs.map f) (by simpa using hn) i
  rw [List.length_map, List.getElem?_map, cyc_get hn] at h1
  exact (Option.some.inj h1).symm

theorem mod_flip {n i j m : Nat} (hn : 0 < n) (e : i + j + 1 = m * n) : n - 1 - i % n = j % n := by
  have hi := Nat.mod_lt i hn
  have hj := Nat.mod_lt j hn
  have d : n ∣ i % n + j % n + 1 := by
    have : (i % n + j % n + 1) % n = 0 := by
      rw [Nat.add_mod, ← Nat.add_mod i j n, ← Nat.add_mod, e, Nat.mul_mod_left]
    exact Nat.dvd_of_mod_eq_zero this
  obtain ⟨q, hq⟩ := d
  have q1 : q = 1 := by
    rcases Nat.lt_trichotomy q 1 with h | h | h
    · rw [Nat.lt_one_iff] at h; rw [h] at hq; omega
    · exact h
    · have : n * 2 ≤ n * q := Nat.mul_le_mul_left n h
      omega
  rw [q1, mul_one] at hq
  omega

theorem cyc_reverse {vs : List (ℝ × ℝ)} (hn : vs ≠ []) {i j m : Nat} (e : i + j + 1 = m * vs.length) :
    cyc vs.reverse i = cyc vs j := by
  have hl : 0 < vs.length := List.length_pos_iff.2 hn
  have h1 := cyc_get (vs := vs.reverse) (by simpa using hn) i
  rw [List.length_reverse, List.getElem?_reverse (Nat.mod_lt _ hl), mod_flip hl e, cyc_get hn] at h1
  exact (Option.some.inj h1).symm

theorem edges_map (vs : List (ℝ × ℝ)) : edges (vs.map f) = (edges vs).map (fun e => (f e.1, f e.2)) := by
  unfold edges
  rw [← List.map_rotate, List.zip_map]; rfl

theorem shoelace_affine (vs : List (ℝ × ℝ)) (a b c d : ℝ) (t : ℝ × ℝ) :
    shoelace (vs.map (affine a b c d t)) = (a * d - b * c) * shoelace vs := by
  unfold shoelace
  rw [edges_map, List.map_map]
  have hx := sum_edges vs (fun p => t.1 * (c * p.1 + d * p.2) - t.2 * (a * p.1 + b * p.2))
  have key : ∀ es : List ((ℝ × ℝ) × (ℝ × ℝ)), (es.map ((fun e => cross e.1 e.2) ∘
      fun e => (affine a b c d t e.1, affine a b c d t e.2))).sum =
      (a * d - b * c) * (es.map (fun e => cross e.1 e.2)).sum +
      (es.map (fun e => (fun p : ℝ × ℝ => t.1 * (c * p.1 + d * p.2) - t.2 * (a * p.1 + b * p.2)) e.2)).sum -
      (es.map (fun e => (fun p : ℝ × ℝ => t.1 * (c * p.1 + d * p.2) - t.2 * (a * p.1 + b * p.2)) e.1)).sum := by
    intro es
    induction es with
    | nil => simp
    | cons e es ih =>
      simp only [List.map_cons, List.sum_cons]
      rw [ih]
      simp only [Function.comp, cross, affine]
      ring
  rw [key, hx]
  ring

/-! ## Maps that keep the sense of turns -/

theorem Keeps.around (k : Keeps f) (hp : PlainLines L) {vs : List (ℝ × ℝ)} (h : Around L vs) :
    Around (moved f L) (vs.map f) := by
  obtain ⟨v1, v2, v3⟩ := around_iff.1 h
  refine around_iff.2 ⟨by simpa using v1, v2.map k.inj, fun i => ?_⟩
  rw [cyc_map v1, cyc_map v1, cyc_map v1]
  exact k.hardest hp (h.joined i) (v3 i)

theorem moved_moved (hg : ∀ p, g (f p) = p) : moved g (moved f L) = L := by
  unfold moved
  rw [List.map_map]
  conv_rhs => rw [← List.map_id L]
  refine List.map_congr_left fun x _ => ?_
  simp [hg]

theorem Keeps.around_back (k : Keeps f) (kg : Keeps g) (hg : ∀ p, g (f p) = p) (hf : ∀ p, f (g p) = p) (hp : PlainLines L)
    {ws : List (ℝ × ℝ)} (h : Around (moved f L) ws) : ∃ vs, Around L vs ∧ vs.map f = ws := by
  have := kg.around (k.plain kg hg hp) h
  rw [moved_moved hg] at this
  refine ⟨_, this, ?_⟩
  rw [List.map_map]
  conv_rhs => rw [← List.map_id ws]
  exact List.map_congr_left fun x _ => hf x

/-- consecutive points of a walk are joined -/
theorem walk_joined {w : Nat → ℝ × ℝ} {n : Nat} (hj : Joined L (w 0) (w 1))
    (hw : ∀ i, i < n → HardestLeft L (w i) (w (i + 1)) (w (i + 2))) (i : Nat) (hi : i ≤ n) : Joined L (w i) (w (i + 1)) := by
  cases i with
  | zero => exact hj
  | succ i => exact (hw i (by omega)).1

theorem Keeps.closes (k : Keeps f) (kg : Keeps g) (hg : ∀ p, g (f p) = p) (hf : ∀ p, f (g p) = p) (hp : PlainLines L)
    (hc : ClosesUp L) : ClosesUp (moved f L) := by
  intro w n hj hw hn
  have hj' := walk_joined hj hw
  have back : ∀ a b c, Joined (moved f L) a b → HardestLeft (moved f L) a b c → HardestLeft L (g a) (g b) (g c) := by
    intro a b c h1 h2
    have := kg.hardest (k.plain kg hg hp) h1 h2
    rwa [moved_moved hg] at this
  have jb : ∀ a b, Joined (moved f L) a b → Joined L (g a) (g b) := by
    intro a b h
    rw [← hf a, ← hf b] at h
    exact (joined_moved k.inj).1 h
  have := hc (fun i => g (w i)) n (jb _ _ hj) (fun i hi => back _ _ _ (hj' i (by omega)) (hw i hi)) (by rw [hn])
  have hl := k.hardest hp (by have := jb _ _ (hj' n le_rfl); rwa [hn] at this) this
  rwa [hf, hf, hf] at hl

/-! ## The mirror image -/

theorem mirror_around (hp : PlainLines L) {vs : List (ℝ × ℝ)} (h : Around L vs) :
    Around (moved mirror L) (vs.map mirror).reverse := by
  obtain ⟨v1, v2, v3⟩ := around_iff.1 h
  have hl : 0 < vs.length := List.length_pos_iff.2 v1
  have m1 : vs.map mirror ≠ [] := by simpa using v1
  refine around_iff.2 ⟨by simpa using v1, List.nodup_reverse.2 (v2.map mirror_inj), fun i => ?_⟩
  obtain ⟨j, hj⟩ : ∃ j, i + 3 + j = (i + 3) * vs.length := ⟨(i + 3) * vs.length - (i + 3), by
    have := Nat.mul_le_mul_left (i + 3) hl; omega⟩
  rw [cyc_reverse m1 (i := i) (j := j + 2) (m := i + 3) (by rw [List.length_map]; omega),
    cyc_reverse m1 (i := i + 1) (j := j + 1) (m := i + 3) (by rw [List.length_map]; omega),
    cyc_reverse m1 (i := i + 2) (j := j) (m := i + 3) (by rw [List.length_map]; omega), cyc_map v1, cyc_map v1, cyc_map v1]
  exact mirror_hardest hp (h.joined j) (v3 j)

theorem mirror_around_back (hp : PlainLines L) {ws : List (ℝ × ℝ)} (h : Around (moved mirror L) ws) :
    ∃ vs, Around L vs ∧ (vs.map mirror).reverse = ws := by
  have := mirror_around (mirror_plain hp) h
  rw [moved_moved mirror_mirror] at this
  refine ⟨_, this, ?_⟩
  rw [List.map_reverse, List.reverse_reverse, List.map_map]
  conv_rhs => rw [← List.map_id ws]
  exact List.map_congr_left fun x _ => mirror_mirror x

theorem mirror_closes (hp : PlainLines L) (hc : ClosesUp L) : ClosesUp (moved mirror L) := by
  intro w n hj hw hn
  have hj' := walk_joined hj hw
  have back : ∀ a b c, Joined (moved mirror L) a b → HardestLeft (moved mirror L) a b c →
      HardestLeft L (mirror c) (mirror b) (mirror a) := by
    intro a b c h1 h2
    have := mirror_hardest (mirror_plain hp) h1 h2
    rwa [moved_moved mirror_mirror] at this
  have jb : ∀ a b, Joined (moved mirror L) a b → Joined L (mirror a) (mirror b) := by
    intro a b h
    rw [← mirror_mirror a, ← mirror_mirror b] at h
    exact (joined_moved mirror_inj).1 h
  have hl := hc (fun i => mirror (w (n + 1 - i))) n (by
      have := (jb _ _ (hj' n le_rfl)).symm
      simpa using this) (fun i hi => by
      obtain ⟨m, rfl⟩ : ∃ m, n = i + 1 + m := ⟨n - (i + 1), by omega⟩
      have := back _ _ _ (hj' m (by omega)) (hw m (by omega))
      rw [show i + 1 + m + 1 - i = m + 2 by omega, show i + 1 + m + 1 - (i + 1) = m + 1 by omega,
        show i + 1 + m + 1 - (i + 2) = m by omega]
      exact this) (by simp [hn])
  rw [show n + 1 - n = 1 by omega, Nat.sub_zero, Nat.add_sub_cancel, hn] at hl
  have hl' := mirror_hardest hp (by have := jb _ _ hj; exact this.symm) hl
  rwa [mirror_mirror, mirror_mirror, mirror_mirror] at hl'

/-! ## Drawings with corresponding ways around -/

theorem cyc_mem {l : List (List (ℝ × ℝ))} {vs : List (ℝ × ℝ)} :
    (vs : Cycle (ℝ × ℝ)) ∈ l.map (fun vs : List (ℝ × ℝ) => (vs : Cycle (ℝ × ℝ))) ↔ ∃ ws ∈ l, ws ~r vs := by
  rw [List.mem_map]
  constructor
  · rintro ⟨ws, h1, h2⟩; exact ⟨ws, h1, Cycle.coe_eq_coe.1 h2⟩
  · rintro ⟨ws, h1, h2⟩; exact ⟨ws, h1, Cycle.coe_eq_coe.2 h2⟩

theorem cyc_nodup {l : List (List (ℝ × ℝ))} (hl : l.Pairwise (fun vs ws => ¬vs ~r ws)) :
    (l.map (fun vs : List (ℝ × ℝ) => (vs : Cycle (ℝ × ℝ)))).Nodup := by
  rw [List.Nodup, List.pairwise_map]
  exact hl.imp fun h e => h (Cycle.coe_eq_coe.1 e)

/-- the area enclosed by a way around -/
noncomputable def cycleArea : Cycle (ℝ × ℝ) → ℝ := Quotient.lift shoelace fun _ _ h => (shoelace_isRotated h).symm

theorem lineRings_sorted (h : Heap XR) (s : Sketch) {vss : List (List (ℝ × ℝ))}
    (hv : List.Forall₂ (fun (r : Ring XR) vs => RunsAround h r.segs vs) (lineRings h s) vss) :
    List.Forall₂ (fun (r : Ring XR) a => r.signedArea h = fin a) (lineRings h s) (vss.map shoelace) ∧
      (vss.map shoelace).Pairwise (· ≤ ·) := by
  have h1 : List.Forall₂ (fun (r : Ring XR) a => r.signedArea h = fin a) (lineRings h s) (vss.map shoelace) := by
    rw [List.forall₂_map_right_iff, List.forall₂_iff_get]
    obtain ⟨l, q⟩ := List.forall₂_iff_get.1 hv
    refine ⟨l, fun i h1 h2 => ?_⟩
    have hr := q i h1 h2
    have hm : (lineRings h s).get ⟨i, h1⟩ ∈ lineRings h s := List.get_mem _ _
    generalize (lineRings h s).get ⟨i, h1⟩ = r at hr hm
    cases r with
    | circle c => simp [lineRings, Ring.segs] at hm
    | segments segs => exact C49_shoelace h segs _ hr
  refine ⟨h1, ?_⟩
  have hs : (lineRings h s).Pairwise (fun a b => Num.totalLe (a.signedArea h) (b.signedArea h) = true) :=
    (C40_sorted h s).filter _
  revert hs
  generalize lineRings h s = l at h1
  generalize vss.map shoelace = m at h1
  intro hs
  induction h1 with
  | nil => exact .nil
  | @cons a b l m hab hlm ih =>
    rw [List.pairwise_cons] at hs ⊢
    refine ⟨fun x hx => ?_, ih hs.2⟩
    obtain ⟨i, hi⟩ := List.mem_iff_getElem?.1 hx
    have hil : i < m.length := by
      by_contra hc
      rw [List.getElem?_eq_none (by omega)] at hi; cases hi
    have hil' : i < l.length := by rw [hlm.length_eq]; exact hil
    have q := (List.forall₂_iff_get.1 hlm).2 i hil' hil
    simp only [List.get_eq_getElem] at q
    rw [List.getElem?_eq_getElem hil] at hi
    have := hs.1 l[i] (List.getElem_mem _)
    rw [hab, q, Option.some.inj hi] at this
    exact of_decide_eq_true this

theorem rings_transport {h h' : Heap XR} {s s' : Sketch} {L L' : List ((ℝ × ℝ) × (ℝ × ℝ))} (hd : DrawnLines h s L)
    (hd' : DrawnLines h' s' L') (hp : PlainLines L) (hp' : PlainLines L') (hc : ClosesUp L) (hc' : ClosesUp L')
    (φ : List (ℝ × ℝ) → List (ℝ × ℝ)) (κ : ℝ) (hκ : 0 < κ) (f1 : ∀ vs, Around L vs → Around L' (φ vs))
    (f2 : ∀ ws, Around L' ws → ∃ vs, Around L vs ∧ φ vs ~r ws) (f3 : ∀ vs ws, vs ~r ws → φ vs ~r φ ws)
    (f4 : ∀ vs ws, Around L vs → Around L ws → φ vs ~r φ ws → vs ~r ws) (f5 : ∀ vs, shoelace (φ vs) = κ * shoelace vs) :
    (∃ vss vss' : List (List (ℝ × ℝ)), List.Forall₂ (fun r vs => RunsAround h r.segs vs) (lineRings h s) vss ∧
      List.Forall₂ (fun r vs => RunsAround h' r.segs vs) (lineRings h' s') vss' ∧
      (vss.map (fun vs : List (ℝ × ℝ) => (φ vs : Cycle (ℝ × ℝ)))).Perm
        (vss'.map (fun vs : List (ℝ × ℝ) => (vs : Cycle (ℝ × ℝ))))) ∧
    List.Forall₂ (fun (r r' : Ring XR) => ∃ A : ℝ, r.signedArea h = fin A ∧ r'.signedArea h' = fin (κ * A))
      (lineRings h s) (lineRings h' s') := by
  obtain ⟨vss, a1, a2, a3⟩ := C77_rings h s L hd hp hc
  obtain ⟨vss', b1, b2, b3⟩ := C77_rings h' s' L' hd' hp' hc'
  have hperm : (vss.map (fun vs : List (ℝ × ℝ) => (φ vs : Cycle (ℝ × ℝ)))).Perm
        (vss'.map (fun vs : List (ℝ × ℝ) => (vs : Cycle (ℝ × ℝ)))) := by
    have e : vss.map (fun vs : List (ℝ × ℝ) => (φ vs : Cycle (ℝ × ℝ))) =
        (vss.map φ).map (fun vs : List (ℝ × ℝ) => (vs : Cycle (ℝ × ℝ))) := by rw [List.map_map]; rfl
    rw [e]
    have a2' : (vss.map φ).Pairwise (fun vs ws => ¬vs ~r ws) := by
      rw [List.pairwise_map]
      exact a2.imp_of_mem fun {vs ws} m1 m2 h e => h (f4 _ _ ((a3 vs).1 ⟨vs, m1, .refl _⟩).1 ((a3 ws).1 ⟨ws, m2, .refl _⟩).1 e)
    rw [List.perm_ext_iff_of_nodup (cyc_nodup a2') (cyc_nodup b2)]
    intro c
    induction c using Quotient.inductionOn with
    | h vs =>
      rw [show (Quotient.mk _ vs : Cycle (ℝ × ℝ)) = (vs : Cycle (ℝ × ℝ)) from rfl, cyc_mem, cyc_mem, b3]
      constructor
      · rintro ⟨ws, hw, hr⟩
        obtain ⟨us, hu, rfl⟩ := List.mem_map.1 hw
        obtain ⟨c1, c2⟩ := (a3 us).1 ⟨us, hu, List.IsRotated.refl _⟩
        refine ⟨(f1 us c1).isRotated hr, ?_⟩
        rw [shoelace_isRotated hr, f5]
        positivity
      · rintro ⟨c1, c2⟩
        obtain ⟨us, hu, hr'⟩ := f2 vs c1
        rw [shoelace_isRotated hr', f5] at c2
        obtain ⟨ws, hw, hr⟩ := (a3 us).2 ⟨hu, pos_of_mul_pos_right c2 hκ.le⟩
        exact ⟨φ ws, List.mem_map.2 ⟨ws, hw, rfl⟩, (f3 _ _ hr).trans hr'⟩
  refine ⟨⟨vss, vss', a1, b1, hperm⟩, ?_⟩
  obtain ⟨u1, u2⟩ := lineRings_sorted h s a1
  obtain ⟨w1, w2⟩ := lineRings_sorted h' s' b1
  have ep : (vss.map (fun vs => κ * shoelace vs)).Perm (vss'.map shoelace) := by
    have := hperm.map cycleArea
    rw [List.map_map, List.map_map] at this
    have e1 : vss.map (fun vs => κ * shoelace vs) =
        vss.map (cycleArea ∘ fun vs : List (ℝ × ℝ) => (φ vs : Cycle (ℝ × ℝ))) := by
      refine List.map_congr_left fun vs _ => ?_
      exact (f5 vs).symm
    rw [e1]
    exact this
  have es : (vss.map (fun vs => κ * shoelace vs)) = (vss'.map shoelace) := by
    refine ep.eq_of_pairwise' (r := (· ≤ ·)) ?_ w2
    rw [List.pairwise_map] at u2 ⊢
    exact u2.imp fun h => mul_le_mul_of_nonneg_left h hκ.le
  rw [← es, List.forall₂_map_right_iff] at w1
  rw [List.forall₂_map_right_iff] at u1
  clear es ep hperm u2 w2 a1 a2 a3 b1 b2 b3
  revert u1 w1
  generalize lineRings h s = l
  generalize lineRings h' s' = l'
  intro u1 w1
  induction vss generalizing l l' with
  | nil => cases w1; cases u1; exact .nil
  | cons v vss ih =>
    cases w1 with
    | cons x1 y1 =>
      cases u1 with
      | cons x2 y2 => exact .cons ⟨_, x2, x1⟩ (ih _ _ y2 y1)

theorem isRotated_map {vs ws : List (ℝ × ℝ)} (hf : Function.Injective f) (h : vs.map f ~r ws.map f) : vs ~r ws := by
  obtain ⟨k, e⟩ := h
  refine ⟨k, ?_⟩
  rw [← List.map_rotate] at e
  exact hf.list_map e

/-- **C79.** Moving, turning, scaling and skewing: an affine map that keeps the orientation takes the rings of a drawing to
the rings of the image, and multiplies their areas, one by one, by its determinant. -/
theorem C79_affine (h h' : Heap XR) (s s' : Sketch) (L : List ((ℝ × ℝ) × (ℝ × ℝ))) (a b c d : ℝ) (t : ℝ × ℝ)
    (hdet : 0 < a * d - b * c) (hd : DrawnLines h s L)
    (hd' : DrawnLines h' s' (L.map (fun e => (affine a b c d t e.1, affine a b c d t e.2)))) (hp : PlainLines L)
    (hc : ClosesUp L) :
    (∃ vss vss' : List (List (ℝ × ℝ)), List.Forall₂ (fun r vs => RunsAround h r.segs vs) (lineRings h s) vss ∧
      List.Forall₂ (fun r vs => RunsAround h' r.segs vs) (lineRings h' s') vss' ∧
      (vss.map (fun vs : List (ℝ × ℝ) => (vs.map (affine a b c d t) : Cycle (ℝ × ℝ)))).Perm
        (vss'.map (fun vs : List (ℝ × ℝ) => (vs : Cycle (ℝ × ℝ))))) ∧
    List.Forall₂ (fun (r r' : Ring XR) => ∃ A : ℝ, r.signedArea h = fin A ∧ r'.signedArea h' = fin ((a * d - b * c) * A))
      (lineRings h s) (lineRings h' s') := by
  obtain ⟨a', b', c', d', t', e1, e2, e3⟩ := affine_inverse t hdet.ne'
  have k := affine_keeps t hdet
  have kg := affine_keeps (a := a') (b := b') (c := c') (d := d') t' (by rw [e1]; positivity)
  refine rings_transport hd hd' hp (k.plain kg e2 hp) hc (k.closes kg e2 e3 hp hc) (fun vs => vs.map (affine a b c d t))
    (a * d - b * c) hdet (fun vs hv => k.around hp hv) (fun ws hw => ?_)
    (fun vs ws h => h.map _) (fun vs ws _ _ h => isRotated_map k.inj h) (fun vs => shoelace_affine vs a b c d t)
  obtain ⟨vs, hv, rfl⟩ := k.around_back kg e2 e3 hp hw
  exact ⟨vs, hv, .refl _⟩

/-- **C79.** The lines reported unused are those of the original drawing. -/
theorem C79_unused (h h' : Heap XR) (s s' : Sketch) (L : List ((ℝ × ℝ) × (ℝ × ℝ))) (a b c d : ℝ) (t : ℝ × ℝ)
    (hdet : 0 < a * d - b * c) (hd : DrawnLines h s L)
    (hd' : DrawnLines h' s' (L.map (fun e => (affine a b c d t e.1, affine a b c d t e.2)))) (hp : PlainLines L)
    (hc : ClosesUp L) (i : Nat) (sg sg' : Segment XR) (hi : (drawn h s)[i]? = some sg) (hi' : (drawn h' s')[i]? = some sg') :
    sg ∈ (findRings h s).2 ↔ sg' ∈ (findRings h' s').2 := by
  obtain ⟨a', b', c', d', t', e1, e2, e3⟩ := affine_inverse t hdet.ne'
  have k := affine_keeps t hdet
  have kg := affine_keeps (a := a') (b := b') (c := c') (d := d') t' (by rw [e1]; positivity)
  have l1 : i < (drawn h s).length := by
    by_contra hl
    rw [List.getElem?_eq_none (by omega)] at hi; cases hi
  have l2 : i < (drawn h' s').length := by
    by_contra hl
    rw [List.getElem?_eq_none (by omega)] at hi'; cases hi'
  have l3 : i < L.length := by rw [← hd.length_eq]; exact l1
  have q := ((List.forall₂_iff_get.1 hd).2 i l1 l3).2.2
  have q' := ((List.forall₂_iff_get.1 hd').2 i l2 (by rw [List.length_map]; exact l3)).2.2
  rw [List.getElem?_eq_getElem l1] at hi
  rw [List.getElem?_eq_getElem l2] at hi'
  cases hi; cases hi'
  simp only [List.get_eq_getElem, List.getElem_map] at q q'
  rw [C77_unused h s L hd hp hc _ (List.getElem_mem l1) _ q,
    C77_unused h' s' _ hd' (k.plain kg e2 hp) (k.closes kg e2 e3 hp hc) _ (List.getElem_mem l2) _ q', not_iff_not]
  constructor
  · rintro ⟨vs, hv, hm⟩
    refine ⟨vs.map (affine a b c d t), k.around hp hv, ?_⟩
    rw [edges_map]
    exact List.mem_map.2 ⟨_, hm, rfl⟩
  · rintro ⟨ws, hw, hm⟩
    obtain ⟨vs, hv, rfl⟩ := k.around_back kg e2 e3 hp hw
    refine ⟨vs, hv, ?_⟩
    rw [edges_map] at hm
    obtain ⟨e, he, h2⟩ := List.mem_map.1 hm
    obtain ⟨x, y⟩ := Prod.mk.inj h2
    rw [← Prod.ext (k.inj x) (k.inj y)]
    exact he

/-- **C79.** Mirroring: an affine map that reverses the orientation takes the rings to the rings of the image, run through the
other way round. -/
theorem C79_mirrored (h h' : Heap XR) (s s' : Sketch) (L : List ((ℝ × ℝ) × (ℝ × ℝ))) (a b c d : ℝ) (t : ℝ × ℝ)
    (hdet : a * d - b * c < 0) (hd : DrawnLines h s L)
    (hd' : DrawnLines h' s' (L.map (fun e => (affine a b c d t e.1, affine a b c d t e.2)))) (hp : PlainLines L)
    (hc : ClosesUp L) :
    (∃ vss vss' : List (List (ℝ × ℝ)), List.Forall₂ (fun r vs => RunsAround h r.segs vs) (lineRings h s) vss ∧
      List.Forall₂ (fun r vs => RunsAround h' r.segs vs) (lineRings h' s') vss' ∧
      (vss.map (fun vs : List (ℝ × ℝ) => ((vs.map (affine a b c d t)).reverse : Cycle (ℝ × ℝ)))).Perm
        (vss'.map (fun vs : List (ℝ × ℝ) => (vs : Cycle (ℝ × ℝ))))) ∧
    List.Forall₂ (fun (r r' : Ring XR) => ∃ A : ℝ, r.signedArea h = fin A ∧ r'.signedArea h' = fin (-(a * d - b * c) * A))
      (lineRings h s) (lineRings h' s') := by
  have hdet' : 0 < a * -d - -b * c := by linarith
  have em : ∀ p, affine a (-b) c (-d) t (mirror p) = affine a b c d t p := by
    intro p; unfold affine mirror; dsimp only; apply Prod.ext <;> ring
  have eL : L.map (fun e => (affine a b c d t e.1, affine a b c d t e.2)) = moved (affine a (-b) c (-d) t) (moved mirror L) := by
    unfold moved
    rw [List.map_map]
    refine List.map_congr_left fun x _ => ?_
    simp [em]
  have ev : ∀ vs : List (ℝ × ℝ), (vs.map (affine a b c d t)).reverse = ((vs.map mirror).reverse).map (affine a (-b) c (-d) t) := by
    intro vs
    rw [List.map_reverse, List.map_map]
    congr 1
    exact List.map_congr_left fun x _ => (em x).symm
  rw [eL] at hd'
  obtain ⟨a', b', c', d', t', e1, e2, e3⟩ := affine_inverse t hdet'.ne'
  have k := affine_keeps t hdet'
  have kg := affine_keeps (a := a') (b := b') (c := c') (d := d') t' (by rw [e1]; positivity)
  have mp := mirror_plain hp
  have inj := affine_inj (a := a) (b := b) (c := c) (d := d) t hdet.ne
  refine rings_transport hd hd' hp (k.plain kg e2 mp) hc (k.closes kg e2 e3 mp (mirror_closes hp hc))
    (fun vs => (vs.map (affine a b c d t)).reverse) (-(a * d - b * c)) (by linarith) (fun vs hv => ?_) (fun ws hw => ?_)
    (fun vs ws h => (h.map _).reverse) (fun vs ws _ _ h => ?_) (fun vs => ?_)
  · rw [ev]
    exact k.around mp (mirror_around hp hv)
  · obtain ⟨us, hu, rfl⟩ := k.around_back kg e2 e3 mp hw
    obtain ⟨vs, hv, rfl⟩ := mirror_around_back hp hu
    exact ⟨vs, hv, ev vs ▸ .refl _⟩
  · exact isRotated_map inj (List.isRotated_reverse_iff.1 h)
  · rw [shoelace_reverse, shoelace_affine]; ring

/-! ## Separate parts -/

/-- what `p` is joined to in a drawing that has `p` only in its first part -/
structure Apart (L L₁ : List ((ℝ × ℝ) × (ℝ × ℝ))) : Prop where
  sub : ∀ p q, Joined L₁ p q → Joined L p q
  stay : ∀ p q r, Joined L₁ p q → Joined L p r → Joined L₁ p r

theorem Apart.hardest {L L₁ : List ((ℝ × ℝ) × (ℝ × ℝ))} (h : Apart L L₁) {a b c : ℝ × ℝ} (hj : Joined L₁ a b) :
    HardestLeft L a b c ↔ HardestLeft L₁ a b c := by
  unfold HardestLeft
  have e : ∀ d, Joined L b d ↔ Joined L₁ b d := fun d => ⟨h.stay b a d hj.symm, h.sub b d⟩
  simp only [e]

theorem Apart.around {L L₁ : List ((ℝ × ℝ) × (ℝ × ℝ))} (h : Apart L L₁) {vs : List (ℝ × ℝ)} (hv : Around L₁ vs) : Around L vs := by
  obtain ⟨v1, v2, v3⟩ := around_iff.1 hv
  exact around_iff.2 ⟨v1, v2, fun i => (h.hardest (hv.joined i)).2 (v3 i)⟩

/-- a walk that starts in the first part stays there -/
theorem Apart.walk {L L₁ : List ((ℝ × ℝ) × (ℝ × ℝ))} (h : Apart L L₁) {w : Nat → ℝ × ℝ} {n : Nat}
    (hj : Joined L₁ (w 0) (w 1)) (hw : ∀ i, i < n → HardestLeft L (w i) (w (i + 1)) (w (i + 2))) (i : Nat) (hi : i ≤ n) :
    Joined L₁ (w i) (w (i + 1)) := by
  induction i with
  | zero => exact hj
  | succ i ih => exact ((h.hardest (ih (by omega))).1 (hw i (by omega))).1

theorem Apart.around_of {L L₁ : List ((ℝ × ℝ) × (ℝ × ℝ))} (h : Apart L L₁) {vs : List (ℝ × ℝ)} (hv : Around L vs)
    (hj : Joined L₁ (cyc vs 0) (cyc vs 1)) : Around L₁ vs := by
  obtain ⟨v1, v2, v3⟩ := around_iff.1 hv
  exact around_iff.2 ⟨v1, v2, fun i => (h.hardest (h.walk (w := cyc vs) (n := i) hj (fun j _ => v3 j) i le_rfl)).1 (v3 i)⟩

theorem Apart.closes {L L₁ : List ((ℝ × ℝ) × (ℝ × ℝ))} (h : Apart L L₁) (hc : ClosesUp L₁) {w : Nat → ℝ × ℝ} {n : Nat}
    (hj : Joined L₁ (w 0) (w 1)) (hw : ∀ i, i < n → HardestLeft L (w i) (w (i + 1)) (w (i + 2))) (hn : w (n + 1) = w 0) :
    HardestLeft L (w n) (w 0) (w 1) := by
  have hj' := h.walk hj hw
  have := hc w n hj (fun i hi => (h.hardest (hj' i (by omega))).1 (hw i hi)) hn
  have jn := hj' n le_rfl
  rw [hn] at jn
  exact (h.hardest jn).2 this

theorem joined_perm {L L₁ L₂ : List ((ℝ × ℝ) × (ℝ × ℝ))} (hL : L.Perm (L₁ ++ L₂)) (p q : ℝ × ℝ) :
    Joined L p q ↔ Joined L₁ p q ∨ Joined L₂ p q := by
  unfold Joined
  rw [hL.mem_iff, hL.mem_iff, List.mem_append, List.mem_append]
  tauto

theorem apart_of {L L₁ L₂ : List ((ℝ × ℝ) × (ℝ × ℝ))} (hL : L.Perm (L₁ ++ L₂))
    (hsep : ∀ p q r, Joined L₁ p q → ¬Joined L₂ p r) : Apart L L₁ ∧ Apart L L₂ := by
  refine ⟨⟨fun p q h => (joined_perm hL p q).2 (.inl h), fun p q r h1 h2 => ?_⟩,
    ⟨fun p q h => (joined_perm hL p q).2 (.inr h), fun p q r h1 h2 => ?_⟩⟩
  · exact ((joined_perm hL p r).1 h2).resolve_right (hsep p q r h1)
  · exact ((joined_perm hL p r).1 h2).resolve_left fun h => hsep p r q h h1

theorem plain_parts {L L₁ L₂ : List ((ℝ × ℝ) × (ℝ × ℝ))} (hL : L.Perm (L₁ ++ L₂))
    (hsep : ∀ p q r, Joined L₁ p q → ¬Joined L₂ p r) (h1 : PlainLines L₁) (h2 : PlainLines L₂) : PlainLines L := by
  have hp : (L ++ L.map Prod.swap).Perm ((L₁ ++ L₁.map Prod.swap) ++ (L₂ ++ L₂.map Prod.swap)) := by
    refine (hL.append (hL.map _)).trans ?_
    rw [List.map_append, List.append_assoc, List.append_assoc]
    refine List.Perm.append_left _ ?_
    rw [← List.append_assoc, ← List.append_assoc]
    exact List.Perm.append_right _ List.perm_append_comm
  refine ⟨?_, fun a b c ja jc ht => ?_⟩
  · rw [hp.nodup_iff, List.nodup_append]
    refine ⟨h1.1, h2.1, ?_⟩
    rintro ⟨p, q⟩ ha _ hb rfl
    exact hsep p q q (joined_mem.2 ha) (joined_mem.2 hb)
  · obtain ⟨a1, a2⟩ := apart_of hL hsep
    rcases (joined_perm hL b a).1 ja with h | h
    · exact h1.2 a b c h (a1.stay b a c h jc) ht
    · exact h2.2 a b c h (a2.stay b a c h jc) ht

theorem closes_parts {L L₁ L₂ : List ((ℝ × ℝ) × (ℝ × ℝ))} (hL : L.Perm (L₁ ++ L₂))
    (hsep : ∀ p q r, Joined L₁ p q → ¬Joined L₂ p r) (h1 : ClosesUp L₁) (h2 : ClosesUp L₂) : ClosesUp L := by
  obtain ⟨a1, a2⟩ := apart_of hL hsep
  intro w n hj hw hn
  rcases (joined_perm hL _ _).1 hj with h | h
  · exact a1.closes h1 h hw hn
  · exact a2.closes h2 h hw hn

theorem around_parts {L L₁ L₂ : List ((ℝ × ℝ) × (ℝ × ℝ))} (hL : L.Perm (L₁ ++ L₂))
    (hsep : ∀ p q r, Joined L₁ p q → ¬Joined L₂ p r) (vs : List (ℝ × ℝ)) : Around L vs ↔ Around L₁ vs ∨ Around L₂ vs := by
  obtain ⟨a1, a2⟩ := apart_of hL hsep
  constructor
  · intro hv
    rcases (joined_perm hL _ _).1 (hv.joined 0) with h | h
    · exact .inl (a1.around_of hv h)
    · exact .inr (a2.around_of hv h)
  · rintro (h | h)
    · exact a1.around h
    · exact a2.around h

/-- **C80.** If a drawing consists of two parts without a common point, its rings are the rings of the one part and those of
the other, wherever they lie (inside each other or crossing each other, too). -/
theorem C80_rings (h h₁ h₂ : Heap XR) (s s₁ s₂ : Sketch) (L L₁ L₂ : List ((ℝ × ℝ) × (ℝ × ℝ))) (hd : DrawnLines h s L)
    (hd₁ : DrawnLines h₁ s₁ L₁) (hd₂ : DrawnLines h₂ s₂ L₂) (hL : L.Perm (L₁ ++ L₂))
    (hsep : ∀ p q r, Joined L₁ p q → ¬Joined L₂ p r) (hp₁ : PlainLines L₁) (hp₂ : PlainLines L₂) (hc₁ : ClosesUp L₁)
    (hc₂ : ClosesUp L₂) :
    ∃ vss vss₁ vss₂ : List (List (ℝ × ℝ)), List.Forall₂ (fun r vs => RunsAround h r.segs vs) (lineRings h s) vss ∧
      List.Forall₂ (fun r vs => RunsAround h₁ r.segs vs) (lineRings h₁ s₁) vss₁ ∧
      List.Forall₂ (fun r vs => RunsAround h₂ r.segs vs) (lineRings h₂ s₂) vss₂ ∧
      (vss.map (fun vs : List (ℝ × ℝ) => (vs : Cycle (ℝ × ℝ)))).Perm
        ((vss₁ ++ vss₂).map (fun vs : List (ℝ × ℝ) => (vs : Cycle (ℝ × ℝ)))) := by
  obtain ⟨vss, a1, a2, a3⟩ := C77_rings h s L hd (plain_parts hL hsep hp₁ hp₂) (closes_parts hL hsep hc₁ hc₂)
  obtain ⟨vss₁, b1, b2, b3⟩ := C77_rings h₁ s₁ L₁ hd₁ hp₁ hc₁
  obtain ⟨vss₂, c1, c2, c3⟩ := C77_rings h₂ s₂ L₂ hd₂ hp₂ hc₂
  refine ⟨vss, vss₁, vss₂, a1, b1, c1, ?_⟩
  have n2 : (vss₁ ++ vss₂).Pairwise (fun vs ws => ¬vs ~r ws) := by
    rw [List.pairwise_append]
    refine ⟨b2, c2, fun vs hv ws hw hr => ?_⟩
    have r1 := ((b3 vs).1 ⟨vs, hv, List.IsRotated.refl _⟩).1
    have r2 := (((c3 ws).1 ⟨ws, hw, List.IsRotated.refl _⟩).1).isRotated hr.symm
    exact hsep _ _ _ (r1.joined 0) (r2.joined 0)
  rw [List.perm_ext_iff_of_nodup (cyc_nodup a2) (cyc_nodup n2)]
  intro c
  induction c using Quotient.inductionOn with
  | h vs =>
    rw [show (Quotient.mk _ vs : Cycle (ℝ × ℝ)) = (vs : Cycle (ℝ × ℝ)) from rfl, cyc_mem, cyc_mem, a3,
      around_parts hL hsep, or_and_right, ← b3, ← c3]
    simp only [List.mem_append, or_and_right, exists_or]

/-- **C80.** Whether a line is reported unused is decided by its own part. -/
theorem C80_unused (h h₁ : Heap XR) (s s₁ : Sketch) (L L₁ L₂ : List ((ℝ × ℝ) × (ℝ × ℝ))) (hd : DrawnLines h s L)
    (hd₁ : DrawnLines h₁ s₁ L₁) (hL : L.Perm (L₁ ++ L₂)) (hsep : ∀ p q r, Joined L₁ p q → ¬Joined L₂ p r)
    (hp₁ : PlainLines L₁) (hp₂ : PlainLines L₂) (hc₁ : ClosesUp L₁) (hc₂ : ClosesUp L₂) (sg sg₁ : Segment XR)
    (hs : sg ∈ drawn h s) (hs₁ : sg₁ ∈ drawn h₁ s₁) (e : (ℝ × ℝ) × (ℝ × ℝ)) (he : EndsAt h sg e) (he₁ : EndsAt h₁ sg₁ e) :
    sg ∈ (findRings h s).2 ↔ sg₁ ∈ (findRings h₁ s₁).2 := by
  rw [C77_unused h s L hd (plain_parts hL hsep hp₁ hp₂) (closes_parts hL hsep hc₁ hc₂) sg hs e he,
    C77_unused h₁ s₁ L₁ hd₁ hp₁ hc₁ sg₁ hs₁ e he₁, not_iff_not]
  have hje : Joined L₁ e.1 e.2 := by
    obtain ⟨i, hi⟩ := List.mem_iff_getElem?.1 hs₁
    have l1 : i < (drawn h₁ s₁).length := by
      by_contra hl
      rw [List.getElem?_eq_none (by omega)] at hi; cases hi
    have l3 : i < L₁.length := by rw [← hd₁.length_eq]; exact l1
    have q := ((List.forall₂_iff_get.1 hd₁).2 i l1 l3).2.2
    rw [List.getElem?_eq_getElem l1] at hi
    simp only [List.get_eq_getElem] at q
    rw [Option.some.inj hi] at q
    obtain ⟨x1, x2⟩ := q
    obtain ⟨y1, y2⟩ := he₁
    rw [x1] at y1; rw [x2] at y2
    simp only [Vec2.mk.injEq, fin.injEq] at y1 y2
    rw [← Prod.ext (x := L₁[i].1) (y := e.1) y1.1 y1.2, ← Prod.ext (x := L₁[i].2) (y := e.2) y2.1 y2.2]
    exact .inl (List.getElem_mem _)
  constructor
  · rintro ⟨vs, hv, hm⟩
    rcases (around_parts hL hsep vs).1 hv with hv | hv
    · exact ⟨vs, hv, hm⟩
    · exfalso
      obtain ⟨m, -, rfl⟩ := mem_edges_cyc.1 hm
      exact hsep _ _ _ hje (hv.joined m)
  · rintro ⟨vs, hv, hm⟩
    exact ⟨vs, (around_parts hL hsep vs).2 (.inl hv), hm⟩

/-! ## Examples -/

/-- the six points of the two boxes, turned, stretched and moved -/
def turnedPts : List (Int × Int) := [(5, 0), (5, 1), (5, 2), (3, 2), (3, 1), (3, 0)]

/-- the same mirrored -/
def flippedPts : List (Int × Int) := [(0, 0), (-1, 0), (-2, 0), (-2, 1), (-1, 1), (0, 1)]

/-- The two boxes of C77, turned, stretched and moved, meet the hypotheses of `C79_affine`. -/
example : DrawnLines (drawing (realPts turnedPts) boxLines []) boxSketch
      ((gls (boxEnds boxLines)).map (fun e => (affine 0 (-2) 1 0 (5, 0) e.1, affine 0 (-2) 1 0 (5, 0) e.2))) ∧
    (0 : ℝ) < 0 * 0 - (-2) * 1 := by
  refine ⟨?_, by norm_num⟩
  have := drawing_lines turnedPts boxLines boxLines boxSketch rfl
  convert this using 1
  simp [gls, boxEnds, boxLines, boxPts, turnedPts, gpt, affine]
  norm_num

/-- and mirrored, those of `C79_mirrored` -/
example : DrawnLines (drawing (realPts flippedPts) boxLines []) boxSketch
      ((gls (boxEnds boxLines)).map (fun e => (affine (-1) 0 0 1 (0, 0) e.1, affine (-1) 0 0 1 (0, 0) e.2))) ∧
    ((-1) * 1 - 0 * 0 : ℝ) < 0 := by
  refine ⟨?_, by norm_num⟩
  have := drawing_lines flippedPts boxLines boxLines boxSketch rfl
  convert this using 1
  simp [gls, boxEnds, boxLines, boxPts, flippedPts, gpt, affine]

/-- a box with a smaller one inside -/
def nestPts : List (Int × Int) := [(0, 0), (3, 0), (3, 3), (0, 3), (1, 1), (2, 1), (2, 2), (1, 2)]

/-- their lines, mixed -/
def nestLines : List (Nat × Nat) := [(0, 1), (4, 5), (1, 2), (5, 6), (2, 3), (6, 7), (3, 0), (7, 4)]

/-- eight points and eight lines -/
def nestSketch : Sketch := ⟨[(0, .point 0), (1, .point 1), (2, .point 2), (3, .point 3), (4, .point 4), (5, .point 5),
  (6, .point 6), (7, .point 7), (8, .line 0), (9, .line 1), (10, .line 2), (11, .line 3), (12, .line 4), (13, .line 5),
  (14, .line 6), (15, .line 7)], 16, []⟩

/-- eight points and four lines -/
def nestPart : Sketch := ⟨[(0, .point 0), (1, .point 1), (2, .point 2), (3, .point 3), (4, .point 4), (5, .point 5),
  (6, .point 6), (7, .point 7), (8, .line 0), (9, .line 1), (10, .line 2), (11, .line 3)], 12, []⟩

/-- the end points of the lines -/
def nestEnds (ls : List (Nat × Nat)) : List ((Int × Int) × (Int × Int)) :=
  ls.map (fun e => (nestPts.getD e.1 (0, 0), nestPts.getD e.2 (0, 0)))

/-- A box with a smaller one inside meets the hypotheses of C80. -/
example : DrawnLines (drawing (realPts nestPts) nestLines []) nestSketch (gls (nestEnds nestLines)) ∧
    DrawnLines (drawing (realPts nestPts) [(0, 1), (1, 2), (2, 3), (3, 0)] []) nestPart (gls (nestEnds [(0, 1), (1, 2), (2, 3), (3, 0)])) ∧
    DrawnLines (drawing (realPts nestPts) [(4, 5), (5, 6), (6, 7), (7, 4)] []) nestPart (gls (nestEnds [(4, 5), (5, 6), (6, 7), (7, 4)])) ∧
    (gls (nestEnds nestLines)).Perm (gls (nestEnds [(0, 1), (1, 2), (2, 3), (3, 0)]) ++ gls (nestEnds [(4, 5), (5, 6), (6, 7), (7, 4)])) ∧
    (∀ p q r, Joined (gls (nestEnds [(0, 1), (1, 2), (2, 3), (3, 0)])) p q →
      ¬Joined (gls (nestEnds [(4, 5), (5, 6), (6, 7), (7, 4)])) p r) ∧
    PlainLines (gls (nestEnds [(0, 1), (1, 2), (2, 3), (3, 0)])) ∧ PlainLines (gls (nestEnds [(4, 5), (5, 6), (6, 7), (7, 4)])) ∧
    ClosesUp (gls (nestEnds [(0, 1), (1, 2), (2, 3), (3, 0)])) ∧ ClosesUp (gls (nestEnds [(4, 5), (5, 6), (6, 7), (7, 4)])) := by
  have p1 : PlainLines (gls (nestEnds [(0, 1), (1, 2), (2, 3), (3, 0)])) := GPlain.plain (by decide)
  have p2 : PlainLines (gls (nestEnds [(4, 5), (5, 6), (6, 7), (7, 4)])) := GPlain.plain (by decide)
  refine ⟨drawing_lines _ _ nestLines _ rfl, drawing_lines _ _ [(0, 1), (1, 2), (2, 3), (3, 0)] _ rfl,
    drawing_lines _ _ [(4, 5), (5, 6), (6, 7), (7, 4)] _ rfl, ?_, ?_, p1, p2, ?_, ?_⟩
  · have : (nestEnds nestLines).Perm (nestEnds [(0, 1), (1, 2), (2, 3), (3, 0)] ++ nestEnds [(4, 5), (5, 6), (6, 7), (7, 4)]) := by
      decide
    have := this.map (fun e => (gpt e.1, gpt e.2))
    rwa [List.map_append] at this
  · intro p q r h1 h2
    obtain ⟨x, y, rfl, -, hx⟩ := joined_grid h1
    obtain ⟨x', z, e, -, hz⟩ := joined_grid h2
    rw [← gpt_inj.1 e] at hz
    have key : ∀ e ∈ nestEnds [(0, 1), (1, 2), (2, 3), (3, 0)] ++ (nestEnds [(0, 1), (1, 2), (2, 3), (3, 0)]).map Prod.swap,
        ∀ f ∈ nestEnds [(4, 5), (5, 6), (6, 7), (7, 4)] ++ (nestEnds [(4, 5), (5, 6), (6, 7), (7, 4)]).map Prod.swap,
        e.1 ≠ f.1 := by decide
    exact key _ hx.mem _ hz.mem rfl
  · exact (C77_covered _ p1 (covered_grid (vss := [[(0, 0), (3, 0), (3, 3), (0, 3)], [(0, 0), (0, 3), (3, 3), (3, 0)]])
      (by decide) (by decide) (by decide))).1
  · exact (C77_covered _ p2 (covered_grid (vss := [[(1, 1), (2, 1), (2, 2), (1, 2)], [(1, 1), (1, 2), (2, 2), (2, 1)]])
      (by decide) (by decide) (by decide))).1

end Isotope
