import Verif.Lemmas.FloatCons
import Verif.Props.Float

/-!
# When get_gradient panics, in IEEE binary64 (C62)
-/

namespace Isotope
open Round Val

variable {lm : Libm}

/-- all coordinates of the sketch and all parameters of its constraints are finite, with magnitude at most `2^200` (about
`1.6e60`) -/
def Moderate (h : Heap (B64 lm)) (s : Sketch) : Prop :=
  (∀ x ∈ getData h s, ∃ r : ℝ, x.Is r ∧ |r| ≤ 2 ^ (200 : ℤ)) ∧
  ∀ k ∈ s.cons, ∀ x ∈ consParams (h.cons k), ∃ r : ℝ, x.Is r ∧ |r| ≤ 2 ^ (200 : ℤ)

/-- the length of a line as the library computes it -/
def computedLength {F : Type} [Num F] (h : Heap F) (l : Nat) : F :=
  let p := (h.points (h.lines l).start).data
  let q := (h.points (h.lines l).stop).data
  Num.sqrt ((q.x - p.x) * (q.x - p.x) + (q.y - p.y) * (q.y - p.y))

theorem Moderate.cons {h : Heap (B64 lm)} {s : Sketch} (hf : Moderate h s) (hc : Closed ⟨h, s⟩) :
    ∀ k ∈ s.cons, ModerateCons h (h.cons k) := by
  intro k hk
  refine ⟨fun p hp x hx => ?_, hf.2 k hk⟩
  apply hf.1
  rw [getData_eq]
  refine List.mem_flatMap.2 ⟨p, ?_, hx⟩
  unfold consDeps at hp
  rcases List.mem_append.1 hp with hp | hp
  · exact hc.2 k hk p hp
  · obtain ⟨r, hr, hp⟩ := List.mem_flatMap.1 hp
    exact hc.1 r (hc.2 k hk r hr) p hp

theorem flatMap_length_le {α β : Type} (l : List α) (f : α → List β) (n : Nat) (h : ∀ a, (f a).length ≤ n) :
    (l.flatMap f).length ≤ n * l.length := by
  induction l with
  | nil => simp
  | cons a l ih =>
    rw [List.flatMap_cons, List.length_append, List.length_cons]
    have := h a
    nlinarith

theorem getGradient_panics {F : Type} [Num F] (h : Heap F) (s : Sketch) (k : Nat) (hk : k ∈ s.cons)
    (hb : ∃ ch ∈ chunks h (h.cons k), ch.finite = false) : ∃ h', getGradient h s = .error h' := by
  obtain ⟨ch, hch, hf⟩ := hb
  obtain ⟨h', e⟩ := foldChunks_panic (s.cons.flatMap (fun c => chunks h (h.cons c)))
    ⟨ch, List.mem_flatMap.2 ⟨k, hk, hch⟩, hf⟩ (zeroGrads h s)
  refine ⟨h', ?_⟩
  unfold getGradient
  rw [updateAll_eq h (zeroGrads h s) s.cons (zeroGrads_gradOnly h s), e]

/-- **C62.** In binary64, on a closed sketch with fewer than `2^50` constraints, coordinates and parameters of magnitude at
most `2^200` and sane trigonometric functions, `get_gradient` panics iff an equal-length constraint has a line whose computed
length is zero.  Nothing overflows, and no other division by zero gets through. -/
theorem C62_panics_iff (hl : lm.Sane) (h : Heap (B64 lm)) (s : Sketch) (hc : Closed ⟨h, s⟩) (hm : Moderate h s)
    (hn : s.cons.length < 2 ^ 50) :
    (∃ h', getGradient h s = .error h') ↔ ∃ k ∈ s.cons, ∃ l m, h.cons k = .eqLen l m ∧
      ((computedLength h l ==. (0.0 : B64 lm)) = true ∨ (computedLength h m ==. (0.0 : B64 lm)) = true) := by
  have hmc := hm.cons hc
  have g0 : GradOnly h (zeroGrads h s) := zeroGrads_gradOnly h s
  have ue := updateAll_eq h (zeroGrads h s) s.cons g0
  have key : ∀ k ∈ s.cons, ZeroEqLen h (h.cons k) ↔ ∃ l m, h.cons k = .eqLen l m ∧
      ((computedLength h l ==. (0.0 : B64 lm)) = true ∨ (computedLength h m ==. (0.0 : B64 lm)) = true) := by
    intro k _
    generalize h.cons k = c
    cases c with
    | eqLen l m =>
      constructor
      · intro hz; exact ⟨l, m, rfl, hz⟩
      · rintro ⟨l', m', e, hz⟩; cases e; exact hz
    | _ => simp [ZeroEqLen]
  constructor
  · rintro ⟨h', e⟩
    by_contra hcon
    have hz : ∀ k ∈ s.cons, ¬ZeroEqLen h (h.cons k) := fun k hk hd => hcon ⟨k, hk, (key k hk).1 hd⟩
    have hlen : (s.cons.flatMap (fun c => chunks h (h.cons c))).length ≤ 3 * s.cons.length :=
      flatMap_length_le _ _ 3 fun a => chunks_length h _
    obtain ⟨h1, e1, hs⟩ := foldChunks_sum (S := s.cells) (k := 700) (by norm_num) (by norm_num)
      (s.cons.flatMap (fun c => chunks h (h.cons c))) (h := zeroGrads h s) (N := 0) (by
        intro c hc x hx
        rw [zeroGrads_grad, if_pos hc, zerosVec] at hx
        rw [List.eq_of_mem_replicate hx]
        exact ⟨0, B64.is_zero, by simp⟩) (by
        intro c hc
        obtain ⟨k, hk, hc⟩ := List.mem_flatMap.1 hc
        exact (hmc k hk).chunks hl (hz k hk) c hc) (by omega)
    have : getGradient h s = .ok (s.cells.flatMap (primGrad h1), h1) := by
      unfold getGradient
      rw [ue, e1]
      dsimp only
      rw [collectGradient_eq, if_pos]
      rw [List.all_eq_true]
      intro x hx
      obtain ⟨c, hc, hx⟩ := List.mem_flatMap.1 hx
      exact (hs c hc x hx).isFinite
    rw [this] at e
    cases e
  · rintro ⟨k, hk, hd⟩
    exact getGradient_panics h s k hk ((hmc k hk).zero_chunk ((key k hk).2 hd))

/-- **C62.** The computed length of a line whose end points agree to within `2^-538` in both coordinates is zero. -/
theorem C62_short_line (h : Heap (B64 lm)) (l : Nat) (x1 y1 x2 y2 : ℝ)
    (ex1 : (h.points (h.lines l).start).data.x.Is x1) (ey1 : (h.points (h.lines l).start).data.y.Is y1)
    (ex2 : (h.points (h.lines l).stop).data.x.Is x2) (ey2 : (h.points (h.lines l).stop).data.y.Is y2)
    (hx : |x2 - x1| ≤ 2 ^ (-538 : ℤ)) (hy : |y2 - y1| ≤ 2 ^ (-538 : ℤ)) :
    (computedLength h l ==. (0.0 : B64 lm)) = true := by
  have key : ∀ z : ℝ, |z| ≤ 2 ^ (-538 : ℤ) → rs (rs z * rs z) = 0 := fun z hz =>
    rs_sq_small (abs_rs_le (rep_pow _ (by norm_num) (by norm_num)) hz)
  have t0 : |rs 0| < top := by rw [rs_zero, abs_zero]; exact Rep.zero.lt_top
  have dx := ex2.sub ex1 (abs_rs_lt_top (by norm_num) (by norm_num) hx)
  have dy := ey2.sub ey1 (abs_rs_lt_top (by norm_num) (by norm_num) hy)
  have qx := dx.mul dx (by rw [key _ hx]; simpa using Rep.zero.lt_top)
  have qy := dy.mul dy (by rw [key _ hy]; simpa using Rep.zero.lt_top)
  rw [key _ hx] at qx
  rw [key _ hy] at qy
  have q := qx.add qy (by rw [add_zero]; exact t0)
  rw [add_zero, rs_zero] at q
  have n := q.sqrt le_rfl (by rw [Real.sqrt_zero]; exact t0)
  rw [Real.sqrt_zero, rs_zero] at n
  exact (n.eq_iff B64.is_zero).2 rfl

/-- **C62.** A line of computed length zero (with coordinates up to `2^200`) has end points that agree to within `2^-536`. -/
theorem C62_zero_length (h : Heap (B64 lm)) (l : Nat) (x1 y1 x2 y2 : ℝ)
    (ex1 : (h.points (h.lines l).start).data.x.Is x1) (ey1 : (h.points (h.lines l).start).data.y.Is y1)
    (ex2 : (h.points (h.lines l).stop).data.x.Is x2) (ey2 : (h.points (h.lines l).stop).data.y.Is y2)
    (hx1 : |x1| ≤ 2 ^ (200 : ℤ)) (hy1 : |y1| ≤ 2 ^ (200 : ℤ)) (hx2 : |x2| ≤ 2 ^ (200 : ℤ)) (hy2 : |y2| ≤ 2 ^ (200 : ℤ))
    (hz : (computedLength h l ==. (0.0 : B64 lm)) = true) : |x2 - x1| < 2 ^ (-536 : ℤ) ∧ |y2 - y1| < 2 ^ (-536 : ℤ) := by
  have p1 : (lineStart h l).Le 200 := ⟨⟨x1, ex1, hx1⟩, y1, ey1, hy1⟩
  have p2 : (lineEnd h l).Le 200 := ⟨⟨x2, ex2, hx2⟩, y2, ey2, hy2⟩
  have d := p2.sub p1 201 (by norm_num) (by norm_num) (by norm_num) (by norm_num)
  obtain ⟨a, b, q, n, f⟩ := d.norm (by norm_num) (by norm_num)
  have n0 : n = 0 := (f.nm.eq_iff B64.is_zero).1 hz
  have q0 := f.zero.1 n0
  have bd : ∀ {u w : ℝ}, |u| ≤ 2 ^ (200 : ℤ) → |w| ≤ 2 ^ (200 : ℤ) → |rs (u - w)| < top := by
    intro u w hu hw
    refine abs_rs_lt_top (k := 201) (by norm_num) (by norm_num) ?_
    have h1 := abs_sub u w
    have h2 : (2 : ℝ) ^ (201 : ℤ) = 2 * 2 ^ (200 : ℤ) := by
      rw [show (201 : ℤ) = 1 + 200 by norm_num, zpow_add₀ (by norm_num), zpow_one]
    rw [h2]
    clear h2
    generalize (2 : ℝ) ^ (200 : ℤ) = M at *
    linarith
  have ea := f.x.unique (ex2.sub ex1 (bd hx2 hx1))
  have eb := f.y.unique (ey2.sub ey1 (bd hy2 hy1))
  have side : ∀ w : ℝ, |rs (rs w * rs w)| ≤ q → |w| < 2 ^ (-536 : ℤ) := by
    intro w hw
    by_contra hcon
    have h1 := rs_sq_large (le_abs_rs (rep_pow _ (by norm_num) (by norm_num)) (not_lt.1 hcon))
    have := two_pos (-1072)
    rw [q0] at hw
    linarith
  have haa := f.aa
  have hbb := f.bb
  rw [ea] at haa
  rw [eb] at hbb
  exact ⟨side _ haa, side _ hbb⟩

/-- **C62.** Under the same conditions (`2^53` constraints) the total loss is finite. -/
theorem C62_loss_finite (hl : lm.Sane) (h : Heap (B64 lm)) (s : Sketch) (hc : Closed ⟨h, s⟩) (hm : Moderate h s)
    (hn : s.cons.length < 2 ^ 53) : Num.isFinite (getLoss h s) = true := by
  have hmc := hm.cons hc
  unfold getLoss
  have key : ∀ (l : List Nat) (a : B64 lm) (N : ℕ), (∀ k ∈ l, k ∈ s.cons) → a.Sum N 410 → N + l.length < 2 ^ 53 →
      (l.foldl (fun loss c => loss + lossValue h (h.cons c)) a).Sum (N + l.length) 410 := by
    intro l
    induction l with
    | nil => intro a N _ ha _; exact ha
    | cons k l ih =>
      intro a N hk ha hN
      rw [List.length_cons] at hN ⊢
      have := ih (a + lossValue h (h.cons k)) (N + 1) (fun j hj => hk j (by simp [hj]))
        (ha.add ((hmc k (hk k (by simp))).loss hl) (by omega) (by norm_num) (by norm_num)) (by omega)
      rw [show N + (l.length + 1) = N + 1 + l.length by omega]
      exact this
  exact (key s.cons 0.0 0 (fun _ h => h) ⟨0, B64.is_zero, by simp⟩ (by omega)).isFinite

/-! ## Without the bound -/

/-- the largest power of two -/
noncomputable def hugeNum (neg : Bool) : B64 lm := ⟨num neg ⟨2 ^ (1023 : ℤ), rep_pow _ (by norm_num) (by norm_num)⟩⟩

/-- **C62.** Without a bound on the coordinates finite numbers are not enough: a point at `2^1023` fixed to `-2^1023` makes
`get_gradient` panic. -/
theorem C62_overflow (pinv : PInv (B64 lm)) :
    ∃ o1 o2, (run pinv World.init [.addPoint2 (hugeNum false) (0.0 : B64 lm), .constrainFixPoint 0 ⟨hugeNum true, (0.0 : B64 lm)⟩,
      .getGradient]).1 = [o1, o2, .panic] ∧ (∃ a, o1 = .addr a) ∧ ∃ a, o2 = .addr a := by
  have hf : Num.isFinite (hugeNum true : B64 lm) = true := rfl
  have h0 : Num.isFinite (0.0 : B64 lm) = true := B64.is_zero.isFinite
  have hinf : Num.isFinite ((hugeNum false : B64 lm) - hugeNum true) = false := by
    have hc : sgn false (2 ^ (1023 : ℤ)) + sgn false (2 ^ (1023 : ℤ)) = (2 : ℝ) ^ (1024 : ℤ) := by
      rw [show (1024 : ℤ) = 1 + 1023 by norm_num, zpow_add₀ (by norm_num), zpow_one]
      simp only [sgn, Bool.false_eq_true, if_false]
      ring
    have h1 : ¬rnd |(2 : ℝ) ^ (1024 : ℤ)| < top := by
      rw [abs_of_pos (two_pos _), not_lt]
      have hlog : lastBit ((2 : ℝ) ^ (1024 : ℤ)) = 972 := by
        have : Int.log 2 ((2 : ℝ) ^ (1024 : ℤ)) = 1024 := by exact_mod_cast Int.log_zpow (R := ℝ) (b := 2) (by norm_num) 1024
        unfold lastBit
        rw [this]
        norm_num
      have hq : (2 : ℝ) ^ (1024 : ℤ) / 2 ^ (972 : ℤ) = ((2 ^ 52 : ℤ) : ℝ) := by
        rw [← zpow_sub₀ (by norm_num)]
        norm_num
      unfold rnd top
      rw [hlog, hq, rhe_int]
      rw [← hq, div_mul_cancel₀ _ (two_pos _).ne']
    change (Val.add (num false _) (num false _)).isFinite = false
    simp only [Val.add]
    rw [hc, if_neg (two_pos _).ne', Val.pack, dif_neg h1]
    rfl
  refine ⟨_, _, ?_, ⟨0, rfl⟩, ⟨0, rfl⟩⟩
  simp [run, step, Op.live, PrimCell.live, World.init, Heap.empty, Heap.allocPoint, Heap.allocCons, addPoint2, consNewOk, constrain,
    Sketch.addPrimitive, Sketch.addConstraint, primFields, consFields, Sketch.new, Sketch.hasPrim, mapInsert, u64Size, upd,
    Heap.setPoint, Heap.setCons, hf, h0, Vec2.allFinite]
  obtain ⟨h', e⟩ := getGradient_panics (
    { points := upd (fun _ => Point2.new 0.0 0.0) 0 (Point2.new (hugeNum false) 0.0),
      lines := fun _ => { start := 0, stop := 0 }, arcs := fun _ => Arc.new 0 0.0 false 0.0 0.0,
      circles := fun _ => Circle.new 0 0.0,
      cons := upd (fun _ => Constraint.horizLine 0) 0 (Constraint.fix 0 { x := hugeNum true, y := 0.0 }),
      nPoints := 1, nLines := 0, nArcs := 0, nCircles := 0, nCons := 1 } : Heap (B64 lm))
    { prims := [(0, PrimCell.point 0)], nextId := 1, cons := [0] } 0 (by simp)
    ⟨.point 0 _, by simp only [upd, if_true, chunks]; exact List.mem_cons_self, by
      simp only [Chunk.finite, Vec2.allFinite]
      rw [Bool.and_eq_false_iff]
      exact .inl hinf⟩
  rw [e]

/-! ## The hypotheses can be met -/

/-- the library that rounds the exact trigonometric functions correctly -/
noncomputable def roundedLibm : Libm where
  cos v := match v with
    | num s m => pack (decide (Real.cos (sgn s m.1) < 0)) (Real.cos (sgn s m.1))
    | _ => nan
  sin v := match v with
    | num s m => pack (decide (Real.sin (sgn s m.1) < 0)) (Real.sin (sgn s m.1))
    | _ => nan
  acos v := match v with
    | num s m => if |sgn s m.1| ≤ 1 then pack false (Real.arccos (sgn s m.1)) else nan
    | _ => nan
  atan2 _ _ := nan

theorem roundedLibm_sane : roundedLibm.Sane := by
  refine ⟨?_, ?_, ?_⟩
  · intro x hx
    obtain ⟨r, s, m, e, rfl⟩ := B64.is_of_finite hx
    have hb : |Real.cos (sgn s m.1)| ≤ 2 ^ (0 : ℤ) := by simpa using Real.abs_cos_le_one _
    refine ⟨_, B64.Is.pack (abs_rs_lt_top (by norm_num) (by norm_num) hb) (.inl rfl) ?_,
      abs_rs_le (rep_pow 0 (by norm_num) (by norm_num)) hb⟩
    show roundedLibm.cos x.v = _
    rw [e]; rfl
  · intro x hx
    obtain ⟨r, s, m, e, rfl⟩ := B64.is_of_finite hx
    have hb : |Real.sin (sgn s m.1)| ≤ 2 ^ (0 : ℤ) := by simpa using Real.abs_sin_le_one _
    refine ⟨_, B64.Is.pack (abs_rs_lt_top (by norm_num) (by norm_num) hb) (.inl rfl) ?_,
      abs_rs_le (rep_pow 0 (by norm_num) (by norm_num)) hb⟩
    show roundedLibm.sin x.v = _
    rw [e]; rfl
  · rintro x r ⟨s, m, e, rfl⟩ hr
    have h0 := Real.arccos_nonneg (sgn s m.1)
    have hb : |Real.arccos (sgn s m.1)| ≤ 2 ^ (2 : ℤ) := by
      rw [abs_of_nonneg h0]
      have := Real.arccos_le_pi (sgn s m.1)
      have := Real.pi_le_four
      norm_num
      linarith
    refine ⟨_, B64.Is.pack (a := false) (abs_rs_lt_top (by norm_num) (by norm_num) hb) (.inl (by simp [h0])) ?_,
      abs_rs_le (rep_pow 2 (by norm_num) (by norm_num)) hb⟩
    show roundedLibm.acos x.v = _
    rw [e]
    exact if_pos hr

/-- two points, the first at `2^-600`, and an equal-length constraint between the two lines that join them -/
noncomputable def tinyHeap (lm : Libm) : Heap (B64 lm) :=
  { (Heap.empty : Heap (B64 lm)) with
    points := upd Heap.empty.points 0 (Point2.new ⟨num false ⟨2 ^ (-600 : ℤ), rep_pow _ (by norm_num) (by norm_num)⟩⟩ 0.0)
    lines := fun l => if l = 0 then ⟨0, 1⟩ else ⟨1, 0⟩
    cons := fun _ => .eqLen 0 1
    nPoints := 2
    nLines := 2
    nCons := 1 }
def tinySketch : Sketch := ⟨[(0, .point 0), (1, .point 1), (2, .line 0), (3, .line 1)], 4, [0]⟩

/-- `C62_panics_iff` and `C62_short_line` apply to it: end points differ, yet `get_gradient` panics -/
example : ∃ h', getGradient (tinyHeap roundedLibm) tinySketch = .error h' := by
  have e1 : (⟨num false ⟨2 ^ (-600 : ℤ), rep_pow _ (by norm_num) (by norm_num)⟩⟩ : B64 roundedLibm).Is (2 ^ (-600 : ℤ)) :=
    ⟨false, _, rfl, by simp [sgn]⟩
  have b0 : ∃ r : ℝ, (0.0 : B64 roundedLibm).Is r ∧ |r| ≤ 2 ^ (200 : ℤ) := ⟨0, B64.is_zero, by rw [abs_zero]; exact (two_pos _).le⟩
  refine (C62_panics_iff roundedLibm_sane _ _ ?_ ?_ (by simp [tinySketch])).2 ⟨0, by simp [tinySketch], 0, 1, rfl, .inl ?_⟩
  · simp [Closed, tinySketch, tinyHeap, Sketch.cells, primFields, consFields]
  · refine ⟨?_, by simp [tinySketch, tinyHeap, consParams]⟩
    rw [getData_eq]
    simp only [tinySketch, tinyHeap, Sketch.cells, List.map_cons, List.map_nil, List.flatMap_cons, List.flatMap_nil, primData, upd,
      if_true, Heap.empty, Point2.new, List.append_nil, List.mem_cons, List.mem_append, List.not_mem_nil,
      or_false]
    rintro x (( rfl | rfl) | rfl | rfl)
    · exact ⟨_, e1, by rw [abs_of_pos (two_pos _)]; exact two_le (by norm_num)⟩
    all_goals exact b0
  · refine C62_short_line _ 0 (2 ^ (-600 : ℤ)) 0 0 0 e1 B64.is_zero B64.is_zero B64.is_zero ?_ ?_
    · rw [zero_sub, abs_neg, abs_of_pos (two_pos _)]
      exact two_le (by norm_num)
    · rw [sub_zero, abs_zero]; exact (two_pos _).le

end Isotope
