import Verif.SpecDescent
import Verif.Props.FloatOk
import Verif.Lemmas.FloatDescent

/-!
# C99: gradient descent in binary64 on linear sketches
-/

namespace Isotope
open Round Val XR
open Matrix

variable {lm : Libm} {h : Heap (B64 lm)} {s : Sketch} {mu M B X L0 ml mg : ℝ} {K : Nat}

theorem Bounded.finite (b : Bounded h s B) : FiniteSketch h.exact s := by
  refine ⟨fun y hy => ?_, fun k hk y hy => ?_⟩
  · rw [exact_getData, List.mem_map] at hy
    obtain ⟨x, hx, rfl⟩ := hy
    obtain ⟨r, hr, -⟩ := b.1 x hx
    rw [hr.exact]; rfl
  · have hy : y ∈ consParams (h.cons k).exact := hy
    rw [exact_params, List.mem_map] at hy
    obtain ⟨x, hx, rfl⟩ := hy
    obtain ⟨r, hr, -⟩ := b.2 k hk x hx
    rw [hr.exact]; rfl

theorem Bounded.vis (b : Bounded h s B) : ∃ x : Fin (getNDofs h.exact s) → ℝ, VIs (getData h s) x ∧ ∀ i, |x i| ≤ B := by
  have hl : (getData h s).length = getNDofs h.exact s := by rw [exact_nDofs, getData_length]
  have key : ∀ i : Fin (getNDofs h.exact s), ∃ r : ℝ, ((getData h s)[i.1]'(by rw [hl]; exact i.2)).Is r ∧ |r| ≤ B :=
    fun i => b.1 _ (List.getElem_mem _)
  choose x hx hb using key
  exact ⟨x, VIs.of_get hl fun i h1 h2 => hx ⟨i, h2⟩, hb⟩

theorem size_eq : sizeOf64 h s = 1 + (2 * (s.cons.length : ℝ) + (getNDofs h.exact s : ℝ)) := by
  unfold sizeOf64; rw [exact_nDofs]; ring

theorem size_ge : 1 ≤ sizeOf64 h s := by
  unfold sizeOf64
  have := Nat.cast_nonneg (α := ℝ) s.cons.length
  have := Nat.cast_nonneg (α := ℝ) (getNDofs h s)
  linarith

theorem Suited.mu_pos (q : Suited h s mu M B X L0 ml K) : 0 < mu := by
  by_contra hh
  have : mu * 1.5 ^ 14 ≤ 0 := mul_nonpos_of_nonpos_of_nonneg (not_lt.1 hh) (by positivity)
  linarith [q.lo]

theorem Suited.B_le (q : Suited h s mu M B X L0 ml K) : B ≤ X := by
  have h1 := q.reach
  have h2 : 0 ≤ 4 * √(2 * L0) * (√M + 1 / √mu) := by positivity
  have := q.one_le
  linarith

theorem Suited.set (q : Suited h s mu M B X L0 ml K) (hn : s.cells.Nodup) (hc : Closed ⟨h, s⟩)
    (hl : ∀ k ∈ s.cons, IsLinear (h.exact.cons k)) (w : Squeezed h.exact s mu M) : LinSet h s (sizeOf64 h s) X mu M where
  nodup := hn
  closed := hc
  lin := hl
  N_ge := size_ge
  count := by rw [size_eq]; linarith
  X_ge := q.one_le
  X_le := q.le
  par := fun k hk x hx => by
    obtain ⟨r, hr, hb⟩ := q.bounded.2 k hk x hx
    exact ⟨r, hr, hb.trans q.B_le⟩
  wp := w.wellPosed ⟨hn, q.bounded.finite.2, linear_rows hn (exact_closed hc) hl⟩
  mu_pos := q.mu_pos
  mu_le := q.mu_le
  lo := q.lo
  hi := q.hi
  small := q.conditioning

theorem Suited.reaches (q : Suited h s mu M B X L0 ml K) :
    Reach (sizeOf64 h s) X mu M B √(2 * L0) ml (2 * √(sizeOf64 h s) * ulp * X +
      kapOf (sizeOf64 h s) * (1.02 * ((√M + 1 / √mu) / √mu) * √(2 * L0))) K := by
  have N1 := size_ge (h := h) (s := s)
  have mu0 := q.mu_pos
  have M0 : 0 < M := mu0.trans_le q.mu_le
  have smu := Real.sqrt_pos.2 mu0
  have sM := Real.sqrt_nonneg M
  have S0 := Real.sqrt_nonneg (2 * L0)
  have X1 := q.one_le
  have acc := q.accuracy
  have stp := q.steps
  have rch := q.reach
  generalize sizeOf64 h s = N at *
  have sN : √N ≤ N ^ 2 := by
    rw [Real.sqrt_le_left (by positivity)]
    nlinarith [sq_nonneg (N ^ 2 - N)]
  refine ⟨?_, le_rfl, ?_⟩
  · have s2 : 1.414 * √ml ≤ √(2 * ml) := by
      rw [Real.sqrt_mul (by norm_num)]
      refine mul_le_mul_of_nonneg_right ?_ (Real.sqrt_nonneg ml)
      rw [Real.le_sqrt (by norm_num) (by norm_num)]
      norm_num
    have e1 : (8 + 2 * √M) * √N * ulp * X * (4096 * (1 + M)) ≤ mu * √ml := by
      refine le_trans ?_ acc
      rw [ulp_eq]
      have : (0 : ℝ) ≤ √M * √N * X * (1 + M) := by positivity
      norm_num
      linarith
    have t0 : 0 ≤ mu / (4096 * (1 + M)) := by positivity
    unfold tol
    calc (8 + 2 * √M) * √N * ulp * X = (8 + 2 * √M) * √N * ulp * X * (4096 * (1 + M)) / (4096 * (1 + M)) := by
          field_simp
      _ ≤ mu * √ml / (4096 * (1 + M)) := div_le_div_of_nonneg_right e1 (by positivity)
      _ = mu / (4096 * (1 + M)) * √ml := by ring
      _ ≤ mu / (4096 * (1 + M)) * (0.75 * √(2 * ml)) := mul_le_mul_of_nonneg_left (by linarith [Real.sqrt_nonneg ml]) t0
      _ = _ := by ring
  · generalize √(2 * L0) = S at *
    have i0 : 0 < 1 / √mu := by positivity
    have e0 : √M / √mu = √M * (1 / √mu) := by ring
    have e1 : (√M + 1 / √mu) / √mu = (√M + 1 / √mu) * (1 / √mu) := by ring
    have e2 : 2.01 / √mu = 2.01 * (1 / √mu) := by ring
    rw [e0] at stp
    rw [e0, e1, e2]
    generalize 1 / √mu = i at *
    generalize √M = m at *
    have K0 : (0 : ℝ) ≤ K := Nat.cast_nonneg K
    have p0 : 0 ≤ (K : ℝ) * (1 + m * i) := by positivity
    -- the roundings of the coordinates
    have f1 : (K : ℝ) * (1 + m * i) * N ^ 2 ≤ 2 ^ 48 := by
      have : (K : ℝ) * (1 + m * i) * N ^ 2 * 1 ≤ (K : ℝ) * (1 + m * i) * N ^ 2 * (1 + i) :=
        mul_le_mul_of_nonneg_left (by linarith) (by positivity)
      norm_num at stp ⊢
      linarith
    have f2 : (K : ℝ) * (1 + m * i) * N ^ 2 * i ≤ 2 ^ 48 := by
      have : (K : ℝ) * (1 + m * i) * N ^ 2 * i ≤ (K : ℝ) * (1 + m * i) * N ^ 2 * (1 + i) :=
        mul_le_mul_of_nonneg_left (by linarith) (by positivity)
      norm_num at stp ⊢
      linarith
    have g1 : (K : ℝ) * (1 + m * i) * √N * X ≤ 2 ^ 48 * X :=
      mul_le_mul_of_nonneg_right ((mul_le_mul_of_nonneg_left sN p0).trans f1) (by linarith)
    have T0 : 0 ≤ (m + i) * S := by positivity
    have g2 : (K : ℝ) * (1 + m * i) * N ^ 2 * i * ((m + i) * S) ≤ 2 ^ 48 * ((m + i) * S) := mul_le_mul_of_nonneg_right f2 T0
    have iS : i * S ≤ (m + i) * S := mul_le_mul_of_nonneg_right (by linarith) S0
    have e4 : (K : ℝ) * (2 * √N * ulp * X + kapOf N * (1.02 * ((m + i) * i) * S)) * (1 + m * i) =
        2 * ulp * ((K : ℝ) * (1 + m * i) * √N * X) + 16.32 * ulp * ((K : ℝ) * (1 + m * i) * N ^ 2 * i * ((m + i) * S)) := by
      unfold kapOf; ring
    rw [e4, ulp_eq]
    norm_num at g1 g2 ⊢
    nlinarith

theorem gd_below (p : GDParams (B64 lm)) (hml : p.minLoss.Is ml) {H : Heap (B64 lm)} {gs : List (B64 lm)} {L : ℝ} (hL : (getLoss H s).Is L)
    (hlt : L < ml) (n : Nat) (w : B64 lm) : gdLoop p s n H gs w (getLoss H s) = ⟨.ok, H, [], 0, 0⟩ := by
  cases n with
  | zero => rfl
  | succ n =>
    rw [gdLoop]
    split_ifs with c1 c2
    · rfl
    · rfl
    · exact absurd ((hL.lt_iff hml).2 hlt) c2

/-- **C99.** Gradient descent in binary64 on a linear sketch does not fail; the loss (as computed) shrinks with every step at least by the
factor `1 - 1.8e-4 * mu / (1 + M)`; if it stops before the last iteration, then either the loss is below `min_loss` or it is below
`1.01 * min_grad² / (2 mu)`.  The exact loss of the sketch that it leaves is at most 1 % larger than the computed one, or than `min_loss`. -/
theorem C99_converges (hn : s.cells.Nodup) (hc : Closed ⟨h, s⟩) (hl : ∀ k ∈ s.cons, IsLinear (h.exact.cons k))
    (w : Squeezed h.exact s mu M) (hL : (getLoss h s).Is L0) (p : GDParams (B64 lm)) (hml : p.minLoss.Is ml) (hmg : p.minGrad.Is mg)
    (q : Suited h s mu M B X L0 ml p.maxIterations) :
    (gdSolve p h s).res = .ok ∧ (gdSolve p h s).steps.length ≤ p.maxIterations ∧
    ∃ L1 V : ℝ, (getLoss (gdSolve p h s).heap s).Is L1 ∧ 0 ≤ L1 ∧ getLoss (gdSolve p h s).heap.exact s = fin V ∧
      L1 ≤ (1 - 1.8e-4 * (mu / (1 + M))) ^ (gdSolve p h s).steps.length * L0 ∧ V ≤ 1.01 * max L1 ml ∧
      ((gdSolve p h s).steps.length < p.maxIterations → L1 < ml ∨ 2 * mu * L1 < 1.01 * mg ^ 2) := by
  have S := q.set hn hc hl w
  have Q := q.reaches
  have ml0 := q.pos
  obtain ⟨x0, hx0, hB⟩ := q.bounded.vis
  have hX0 : ∀ i, |x0 i| ≤ X := fun i => (hB i).trans q.B_le
  obtain ⟨q0, L, g, gs, H', hL', eg, hg, hny, -, hgb⟩ := S.noisy (SameRefs.refl h) hx0 hX0
  obtain rfl := hL'.unique hL
  have fr := getGradient_frame eg
  have mu0 := S.mu_pos
  have muM := S.mu_le
  -- the run
  have run : let o := gdLoop p s p.maxIterations H' gs (normL gs) (getLoss H' s)
      o.res = .ok ∧ o.steps.length ≤ p.maxIterations ∧ SameRefs h o.heap ∧
        ∃ (x' : Fin (getNDofs h.exact s) → ℝ) (L' : ℝ), VIs (getData o.heap s) x' ∧ (∀ i, |x' i| ≤ X) ∧ (getLoss o.heap s).Is L' ∧ 0 ≤ L' ∧ L' ≤ rateOf mu M ^ o.steps.length * L ∧
        (o.steps.length < p.maxIterations → L' < ml ∨ 2 * mu * L' < 1.01 * mg ^ 2) := by
    have hLH : (getLoss H' s).Is L := by rw [fr.getLoss]; exact hL'
    have hxH : VIs (getData H' s) x0 := by rw [fr.getData]; exact hx0
    by_cases cL : L < ml
    · rw [gd_below p hml hLH cL]
      exact ⟨rfl, by simp, fr.1, x0, L, hxH, hX0, hLH, hny.nonneg, by simp, fun _ => .inl cL⟩
    · obtain ⟨r0, e1, -, -⟩ := Q.small S hny ml0 (not_lt.1 cL)
      have b := hny.base S.wp mu0 muM rfl e1 S.kap_le r0
      have t3 := (tol_facts mu0 muM).2.2
      have h0 : vlen (rowMat h.exact s *ᵥ x0 - rowRhs h.exact s) ≤ 1.001 * √(2 * L) := by
        have k1 := (abs_le.1 b.loss).1
        have k2 : tol mu M * vlen (rowMat h.exact s *ᵥ x0 - rowRhs h.exact s) ≤ 1 / 4096 * vlen (rowMat h.exact s *ᵥ x0 - rowRhs h.exact s) :=
          mul_le_mul_of_nonneg_right t3 r0.le
        linarith
      exact S.gdLoop Q p hmg hml ml0 hB h0 p.maxIterations 0 H' x0 g q0 gs L (by omega) fr.1 hxH hX0 hg hgb hLH hny le_rfl
        ⟨x0, 0, by simp, by rw [sub_self]; unfold vlen; simp⟩
  have eo : gdSolve p h s = gdLoop p s p.maxIterations H' gs (normL gs) (getLoss H' s) := by
    unfold gdSolve; rw [eg]
  rw [← eo] at run
  obtain ⟨i1, i2, j1, x', L', j2, j3, i3, i4, i5, i6⟩ := run
  -- the exact loss at the end
  obtain ⟨qe, Le, ge, gse, He, hLe, -, -, hne, -, -⟩ := S.noisy j1 j2 j3
  obtain rfl := hLe.unique i3
  have l : LinAt h.exact s (rowMat h.exact s) (rowRhs h.exact s) := ⟨hn, q.bounded.finite.2, linear_rows hn (exact_closed hc) hl⟩
  have hV := (l.at j1.exact (x := x') (by rw [exact_getData]; exact j2.exact)).1
  refine ⟨i1, i2, Le, _, i3, i4, hV, i5, ?_, i6⟩
  have eV : 2 * quad (rowMat h.exact s) (rowRhs h.exact s) x' = vlen (rowMat h.exact s *ᵥ x' - rowRhs h.exact s) ^ 2 := by
    rw [vlen_sq]; unfold quad; ring
  have t0 := tol_pos mu0 muM
  have t3 := (tol_facts mu0 muM).2.2
  have kl := S.kap_le
  have h1 := (abs_le.1 hne.loss).1
  have h2 := hne.res
  have h3 := vlen_le_add (rowMat h.exact s *ᵥ x' - rowRhs h.exact s) qe
  rw [vlen_sub_comm _ qe] at h3
  have qq0 := vlen_nonneg qe
  have k0 : kapOf (sizeOf64 h s) * vlen qe ≤ 1 / 4096 * vlen qe := mul_le_mul_of_nonneg_right (kl.trans t3) qq0
  have e1 : epsOf (sizeOf64 h s) X ≤ 0.75 * tol mu M * √(2 * ml) := by
    refine le_trans ?_ Q.acc
    unfold epsOf
    have := S.X_ge
    have := ulp_pos
    have : 0 ≤ 2 * √M * √(sizeOf64 h s) * ulp * X := by positivity
    linarith
  have mx : 0 ≤ max Le ml := le_max_of_le_left i4
  have a1 : √(2 * Le) ≤ √(2 * max Le ml) := Real.sqrt_le_sqrt (by linarith [le_max_left Le ml])
  have a2 : √(2 * ml) ≤ √(2 * max Le ml) := Real.sqrt_le_sqrt (by linarith [le_max_right Le ml])
  have a3 := Real.sq_sqrt (show 0 ≤ 2 * max Le ml by linarith)
  have a4 := Real.sqrt_nonneg (2 * max Le ml)
  have a5 : tol mu M * √(2 * ml) ≤ 1 / 4096 * √(2 * max Le ml) := mul_le_mul t3 a2 (Real.sqrt_nonneg _) (by norm_num)
  generalize √(2 * max Le ml) = T at *
  have r1 : vlen (rowMat h.exact s *ᵥ x' - rowRhs h.exact s) ≤ 1.001 * T := by linarith
  have r2 := pow_le_pow_left₀ (vlen_nonneg _) r1 2
  rw [mul_pow, a3] at r2
  norm_num at r2 ⊢
  linarith

/-- **C99.** With enough iterations the loss gets below `min_loss` or below `1.01 * min_grad² / (2 mu)`. -/
theorem C99_enough (hn : s.cells.Nodup) (hc : Closed ⟨h, s⟩) (hl : ∀ k ∈ s.cons, IsLinear (h.exact.cons k))
    (w : Squeezed h.exact s mu M) (hL : (getLoss h s).Is L0) (p : GDParams (B64 lm)) (hml : p.minLoss.Is ml) (hmg : p.minGrad.Is mg)
    (q : Suited h s mu M B X L0 ml p.maxIterations) (he : (1 - 1.8e-4 * (mu / (1 + M))) ^ p.maxIterations * L0 < ml) :
    (gdSolve p h s).res = .ok ∧ ∃ L1 V : ℝ, (getLoss (gdSolve p h s).heap s).Is L1 ∧ (L1 < ml ∨ 2 * mu * L1 < 1.01 * mg ^ 2) ∧
      getLoss (gdSolve p h s).heap.exact s = fin V ∧ V ≤ 1.01 * max L1 ml := by
  obtain ⟨i1, i2, L1, V, i3, -, i4, i5, i6, i7⟩ := C99_converges hn hc hl w hL p hml hmg q
  refine ⟨i1, L1, V, i3, ?_, i4, i6⟩
  rcases i2.lt_or_eq with k | k
  · exact i7 k
  · left
    rw [k] at i5
    exact lt_of_le_of_lt i5 he


/-! ## A point at the origin that is to be at (3, 4) -/

noncomputable def moveHeap (lm : Libm) : Heap (B64 lm) :=
  { (Heap.empty : Heap (B64 lm)) with
    points := upd Heap.empty.points 0 (Point2.new 0.0 0.0)
    cons := upd Heap.empty.cons 0 (.fix 0 ⟨3.0, 4.0⟩)
    nPoints := 1
    nCons := 1 }

theorem is_small_nat {m e : Nat} {n : Nat} (hn : n < 2 ^ 53) (he : (OfScientific.ofScientific m true e : ℝ) = n) :
    (OfScientific.ofScientific m true e : B64 lm).Is n := by
  have rp : Rep |(n : ℝ)| := by
    rw [abs_of_nonneg (Nat.cast_nonneg n)]
    exact ⟨n, 0, hn, by norm_num, by norm_num, by simp⟩
  have h := B64.Is.lit (lm := lm) m true e (by rw [he, rs_rep rp]; exact rp.lt_top) (by rw [he]; exact Nat.cast_nonneg n)
  rwa [he, rs_rep rp] at h

theorem three_is : (3.0 : B64 lm).Is 3 := by
  have := is_small_nat (lm := lm) (m := 30) (e := 1) (n := 3) (by norm_num) (by norm_num)
  exact_mod_cast this

theorem four_is : (4.0 : B64 lm).Is 4 := by
  have := is_small_nat (lm := lm) (m := 40) (e := 1) (n := 4) (by norm_num) (by norm_num)
  exact_mod_cast this

theorem move_exact : (moveHeap lm).exact = fixHeap 3 4 0 0 0 0 := by
  have x0 : (0.0 : XR) = fin 0 := zero_lit
  have z0 : (0.0 : B64 lm).exact = fin 0 := B64.is_zero.exact
  have e3 : (3.0 : B64 lm).exact = fin 3 := three_is.exact
  have e4 : (4.0 : B64 lm).exact = fin 4 := four_is.exact
  have hp : (fun a => ((⟨(((moveHeap lm).points a).data).exact, (((moveHeap lm).points a).grad).exact⟩ : Point2 XR))) =
      (fixHeap 3 4 0 0 0 0).points := by
    funext a
    by_cases ha : a = 0
    · subst ha
      show (⟨⟨(0.0 : B64 lm).exact, (0.0 : B64 lm).exact⟩, ⟨(0.0 : B64 lm).exact, (0.0 : B64 lm).exact⟩⟩ : Point2 XR) = ⟨⟨fin 0, fin 0⟩, ⟨fin 0, fin 0⟩⟩
      rw [z0]
    · unfold moveHeap fixHeap
      simp only [upd, if_neg ha]
      show (⟨⟨(0.0 : B64 lm).exact, (0.0 : B64 lm).exact⟩, ⟨(0.0 : B64 lm).exact, (0.0 : B64 lm).exact⟩⟩ : Point2 XR) = ⟨⟨0.0, 0.0⟩, ⟨0.0, 0.0⟩⟩
      rw [z0, x0]
  have hc : (fun a => ((moveHeap lm).cons a).exact) = (fixHeap 3 4 0 0 0 0).cons := by
    funext a
    by_cases ha : a = 0
    · subst ha
      show (Constraint.fix 0 ⟨(3.0 : B64 lm).exact, (4.0 : B64 lm).exact⟩ : Constraint XR) = .fix 0 ⟨fin 3, fin 4⟩
      rw [e3, e4]
    · unfold moveHeap fixHeap
      simp only [upd, if_neg ha]
      rfl
  have ha : (fun a => (⟨((moveHeap lm).arcs a).center, ((moveHeap lm).arcs a).data.exact, ((moveHeap lm).arcs a).grad.exact,
      ((moveHeap lm).arcs a).clockwise⟩ : Arc XR)) = (fixHeap 3 4 0 0 0 0).arcs := by
    funext a
    show (⟨0, ⟨(0.0 : B64 lm).exact, (0.0 : B64 lm).exact, (0.0 : B64 lm).exact⟩, ⟨(0.0 : B64 lm).exact, (0.0 : B64 lm).exact, (0.0 : B64 lm).exact⟩,
      false⟩ : Arc XR) = ⟨0, ⟨0.0, 0.0, 0.0⟩, ⟨0.0, 0.0, 0.0⟩, false⟩
    rw [z0, x0]
  have hi : (fun a => (⟨((moveHeap lm).circles a).center, ((moveHeap lm).circles a).radius.exact, ((moveHeap lm).circles a).grad.exact⟩ :
      Circle XR)) = (fixHeap 3 4 0 0 0 0).circles := by
    funext a
    show (⟨0, (0.0 : B64 lm).exact, (0.0 : B64 lm).exact⟩ : Circle XR) = ⟨0, 0.0, 0.0⟩
    rw [z0, x0]
  show (⟨_, _, _, _, _, _, _, _, _, _⟩ : Heap XR) = _
  rw [hp, ha, hi, hc]
  rfl

theorem rep_whole {n : ℤ} (hn : n.natAbs < 2 ^ 53) : Rep |(n : ℝ)| := by
  rw [← Int.cast_abs, Int.abs_eq_natAbs]
  exact ⟨n.natAbs, 0, hn, by norm_num, by norm_num, by simp⟩

theorem move_loss : (getLoss (moveHeap lm) fixSketch).Is 12.5 := by
  have c : ∀ n : ℤ, n.natAbs < 2 ^ 53 → rs (n : ℝ) = n ∧ |rs (n : ℝ)| < top := by
    intro n hn
    have rp := rep_whole hn
    rw [rs_rep rp]
    exact ⟨rfl, rp.lt_top⟩
  have op : ∀ (z : ℝ) (n : ℤ), z = n → n.natAbs < 2 ^ 53 → rs z = z ∧ |rs z| < top := by
    rintro z n rfl hn; exact c n hn
  have z0 := B64.is_zero (lm := lm)
  have k1 := z0.sub three_is (op _ (-3) (by norm_num) (by norm_num)).2
  rw [(op (0 - 3) (-3) (by norm_num) (by norm_num)).1] at k1
  have k2 := z0.sub four_is (op _ (-4) (by norm_num) (by norm_num)).2
  rw [(op (0 - 4) (-4) (by norm_num) (by norm_num)).1] at k2
  have k3 := k1.mul k1 (op _ 9 (by norm_num) (by norm_num)).2
  rw [(op _ 9 (by norm_num) (by norm_num)).1] at k3
  have k4 := k2.mul k2 (op _ 16 (by norm_num) (by norm_num)).2
  rw [(op _ 16 (by norm_num) (by norm_num)).1] at k4
  have k5 := k3.add k4 (op _ 25 (by norm_num) (by norm_num)).2
  rw [(op _ 25 (by norm_num) (by norm_num)).1] at k5
  have rp : Rep |(12.5 : ℝ)| := by
    rw [abs_of_pos (by norm_num)]
    exact ⟨25, -1, by norm_num, by norm_num, by norm_num, by norm_num⟩
  have e6 : (1 / 2 : ℝ) * ((0 - 3) * (0 - 3) + (0 - 4) * (0 - 4)) = 12.5 := by norm_num
  have k6 := B64.is_half.mul k5 (by rw [e6, rs_rep rp]; exact rp.lt_top)
  rw [e6, rs_rep rp] at k6
  have k7 := z0.add k6 (by rw [zero_add, rs_rep rp]; exact rp.lt_top)
  rw [zero_add, rs_rep rp] at k7
  exact k7

theorem move_squeezed : Squeezed (moveHeap lm).exact fixSketch 1 1 := by
  rw [move_exact]
  have en : getNDofs (fixHeap 3 4 0 0 0 0) fixSketch = 2 := by rw [← getData_length, fix_data]; rfl
  have key : ∀ n, n = 2 → ∀ f : (Fin n → ℝ) → ℝ, (∀ v a b, vec v = [fin a, fin b] → f v = ((a - 3) ^ 2 + (b - 4) ^ 2) / 2) →
      (∀ v, ∃ v0, f v0 = 0 ∧ 1 * ((v - v0) ⬝ᵥ (v - v0)) ≤ 2 * f v) ∧ ∀ v v0, f v0 = 0 → 2 * f v ≤ 1 * ((v - v0) ⬝ᵥ (v - v0)) := by
    rintro n rfl f hf
    have hf' : ∀ v, f v = ((v 0 - 3) ^ 2 + (v 1 - 4) ^ 2) / 2 := fun v => hf v _ _ (by simp [vec])
    refine ⟨fun v => ⟨![3, 4], ?_, ?_⟩, fun v v0 h0 => ?_⟩
    · rw [hf']; simp
    · rw [hf']; simp [dotProduct, Fin.sum_univ_two]; nlinarith
    · rw [hf'] at h0 ⊢
      have a1 : v0 0 - 3 = 0 := by nlinarith [sq_nonneg (v0 0 - 3), sq_nonneg (v0 1 - 4)]
      have a2 : v0 1 - 4 = 0 := by nlinarith [sq_nonneg (v0 0 - 3), sq_nonneg (v0 1 - 4)]
      simp [dotProduct, Fin.sum_univ_two, sub_eq_zero.1 a1, sub_eq_zero.1 a2]; nlinarith
  obtain ⟨k1, k2⟩ := key _ en (lossAfter (fixHeap 3 4 0 0 0 0) fixSketch) (by
    intro v a b e
    unfold lossAfter
    change (match setData (fixHeap 3 4 0 0 0 0) fixSketch (vec v) with | .ok h' => (getLoss h' fixSketch).toReal | .error _ => 0) = _
    rw [e, fix_setData]
    dsimp only
    rw [fix_loss, toReal_fin])
  exact ⟨k1, k2⟩

theorem move_size : sizeOf64 (moveHeap lm) fixSketch = 5 := by
  have : getNDofs (moveHeap lm) fixSketch = 2 := rfl
  unfold sizeOf64
  rw [this]
  norm_num [fixSketch]

theorem move_suited {ml : ℝ} (h : 9e-15 ≤ ml) : Suited (moveHeap lm) fixSketch 1 1 4 132 12.5 ml 1000000 := by
  have q5 : √(2 * 12.5 : ℝ) = 5 := by rw [show (2 * 12.5 : ℝ) = 5 ^ 2 by norm_num]; exact Real.sqrt_sq (by norm_num)
  have q3 : √(5 : ℝ) ≤ 3 := by rw [Real.sqrt_le_left (by norm_num)]; norm_num
  have qm : 9e-8 ≤ √ml := Real.le_sqrt_of_sq_le (le_trans (by norm_num) h)
  refine ⟨le_rfl, by norm_num, by norm_num, ?_, ⟨?_, ?_⟩, ?_, by norm_num, by norm_num, by linarith, ?_, ?_⟩
  · rw [move_size]; norm_num
  · have : getData (moveHeap lm) fixSketch = [0.0, 0.0] := rfl
    rw [this]
    simp only [List.mem_cons, List.not_mem_nil, or_false, or_self]
    rintro x rfl
    exact ⟨0, B64.is_zero, by norm_num⟩
  · intro k hk
    obtain rfl : k = 0 := by simpa [fixSketch] using hk
    have : consParams ((moveHeap lm).cons 0) = [3.0, 4.0] := rfl
    rw [this]
    simp only [List.mem_cons, List.not_mem_nil, or_false]
    rintro x (rfl | rfl)
    · exact ⟨3, three_is, by norm_num⟩
    · exact ⟨4, four_is, by norm_num⟩
  · rw [q5, Real.sqrt_one]; norm_num
  · rw [move_size, Real.sqrt_one]
    have : (2 : ℝ) ^ (-38 : ℤ) ≤ 4e-12 := by norm_num
    have k := mul_le_mul this q3 (Real.sqrt_nonneg _) (by norm_num)
    norm_num at k ⊢
    linarith
  · rw [move_size, Real.sqrt_one]; norm_num

theorem move_rate : (1 - 1.8e-4 * ((1 : ℝ) / (1 + 1))) ^ 1000000 * 12.5 < 9e-15 := by
  have k4 : (2 : ℝ) ^ 90 ≤ Real.exp 1 ^ 90 := pow_le_pow_left₀ (by norm_num) (by linarith [Real.add_one_le_exp (1 : ℝ)]) 90
  have k5 : (Real.exp 1 ^ 90)⁻¹ ≤ ((2 : ℝ) ^ 90)⁻¹ := inv_anti₀ (by positivity) k4
  have k7 : ((2 : ℝ) ^ 90)⁻¹ * 12.5 < 9e-15 := by norm_num
  have k1 : (1 - 1.8e-4 * ((1 : ℝ) / (1 + 1))) ≤ Real.exp (-(9e-5)) := by
    have := Real.add_one_le_exp (-(9e-5) : ℝ)
    norm_num at this ⊢
    linarith
  have k0 : (0 : ℝ) ≤ (1 - 1.8e-4 * ((1 : ℝ) / (1 + 1))) := by norm_num
  have k3 : ∀ n : ℕ, n = 1000000 → Real.exp (-(9e-5)) ^ n = (Real.exp 1 ^ 90)⁻¹ := by
    intro n hn
    rw [← Real.exp_nat_mul, ← Real.exp_nat_mul, ← Real.exp_neg]
    congr 1
    rw [hn]
    norm_num
  generalize (1 - 1.8e-4 * ((1 : ℝ) / (1 + 1))) = r at k1 k0 ⊢
  have k2 := pow_le_pow_left₀ k0 k1 1000000
  rw [k3 _ rfl] at k2
  exact lt_of_le_of_lt (mul_le_mul_of_nonneg_right (k2.trans k5) (by norm_num)) k7

/-- a point at the origin that is to be at (3, 4) gets there in at most a million iterations, up to a loss of `1.1e-14` -/
example : fixSketch.cells.Nodup ∧ Closed ⟨moveHeap lm, fixSketch⟩ ∧ (∀ k ∈ fixSketch.cons, IsLinear ((moveHeap lm).exact.cons k)) ∧
    Squeezed (moveHeap lm).exact fixSketch 1 1 ∧ (getLoss (moveHeap lm) fixSketch).Is 12.5 ∧
    ∃ ml mg : ℝ, (1e-14 : B64 lm).Is ml ∧ (1e-10 : B64 lm).Is mg ∧ Suited (moveHeap lm) fixSketch 1 1 4 132 12.5 ml 1000000 ∧
      (1 - 1.8e-4 * ((1 : ℝ) / (1 + 1))) ^ 1000000 * 12.5 < ml ∧
      (gdSolve ⟨1000000, 1e-14, 1e-10⟩ (moveHeap lm) fixSketch).res = .ok ∧
      ∃ L1 : ℝ, (getLoss (gdSolve ⟨1000000, 1e-14, 1e-10⟩ (moveHeap lm) fixSketch).heap fixSketch).Is L1 ∧ L1 < 1.1e-14 := by
  have hc : Closed ⟨moveHeap lm, fixSketch⟩ := by
    simp [Closed, fixSketch, moveHeap, Sketch.cells, primFields, consFields, upd]
  have hl : ∀ k ∈ fixSketch.cons, IsLinear ((moveHeap lm).exact.cons k) := by
    intro k hk
    obtain rfl : k = 0 := by simpa [fixSketch] using hk
    exact .inl trivial
  obtain ⟨ml, hml, b1, -, -⟩ := lit_small (lm := lm) 1 14 (z := 1e-14) rfl (by norm_num) (by norm_num)
  obtain ⟨mg, hmg, b2, -, -⟩ := lit_small (lm := lm) 1 10 (z := 1e-10) rfl (by norm_num) (by norm_num)
  have u := ulp_le_milli
  have c1 := abs_le.1 (b1.trans (mul_le_mul_of_nonneg_right u (by norm_num)))
  have c2 := abs_le.1 (b2.trans (mul_le_mul_of_nonneg_right u (by norm_num)))
  have S : Suited (moveHeap lm) fixSketch 1 1 4 132 12.5 ml 1000000 := move_suited (by norm_num at c1 ⊢; linarith)
  have l9 : 9e-15 ≤ ml := by norm_num at c1 ⊢; linarith
  have l11 : ml < 1.1e-14 := by norm_num at c1 ⊢; linarith
  have g11 : 1.01 * mg ^ 2 < 2.2e-14 := by
    have : mg ^ 2 ≤ (2e-10) ^ 2 := pow_le_pow_left₀ (by norm_num at c2 ⊢; linarith) (by norm_num at c2 ⊢; linarith) 2
    norm_num at this ⊢
    linarith
  have E := (move_rate).trans_le l9
  refine ⟨fixSketch_nodup, hc, hl, move_squeezed, move_loss, ml, mg, hml, hmg, S, E, ?_⟩
  obtain ⟨r, L1, V, i1, i2, -⟩ := C99_enough fixSketch_nodup hc hl move_squeezed move_loss ⟨1000000, 1e-14, 1e-10⟩ hml hmg S E
  refine ⟨r, L1, i1, ?_⟩
  clear E S
  rcases i2 with i2 | i2
  · exact i2.trans l11
  · norm_num at g11 i2 ⊢
    linarith

end Isotope
