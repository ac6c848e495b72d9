import Verif.Lemmas.FloatStep

/-!
# Gradient descent in binary64 on a linear sketch
-/

namespace Isotope
open Round Val
open Matrix
variable {lm : Libm} {h : Heap (B64 lm)} {s : Sketch} {N X mu M : ℝ}

/-- what an accepted step size has done -/
structure Taken (h : Heap (B64 lm)) (s : Sketch) (X mu M : ℝ) (x g : Fin (getNDofs h.exact s) → ℝ) (L α : ℝ) (H' : Heap (B64 lm))
    (y : Fin (getNDofs h.exact s) → ℝ) (Ly : ℝ) : Prop where
  pos : 0 < α
  refs : SameRefs h H'
  data : VIs (getData H' s) y
  near : ∀ i, |y i - (x i - α * g i)| ≤ 2 * ulp * X
  le : ∀ i, |y i| ≤ X
  low : 0.95 ≤ α * (1 + M)
  high : α ≤ 1 ∨ α * vlen (rowMat h.exact s *ᵥ g) ^ 2 ≤ 0.18 * vlen g ^ 2
  loss : (getLoss H' s).Is Ly
  dec : Ly ≤ L - 0.98e-4 * (α * vlen g ^ 2)

set_option maxHeartbeats 1000000 in
/-- the line search ends with an accepted step size -/
theorem LinSet.lsLoop (S : LinSet h s N X mu M) {x g : Fin (getNDofs h.exact s) → ℝ} {L v : ℝ} {xs gs : List (B64 lm)} {lB mB : B64 lm}
    (hx : VIs xs x) (hg : VIs gs g) (R : Ready h s N X mu M x)
    (b : Base (rowMat h.exact s) mu M (rowMat h.exact s *ᵥ x - rowRhs h.exact s) g L)
    (hgb : ∀ i, |g i| ≤ 2 ^ (160 : ℤ)) (hL : lB.Is L) (hm : mB.Is v) (hv : |v + vlen g ^ 2| ≤ 1e-6 * vlen g ^ 2) :
    ∀ (k j : Nat) (aB : B64 lm) (α : ℝ) (H : Heap (B64 lm)), k + j = 15 → aB.Is α → SameRefs h H →
      Pace (vlen g ^ 2) (vlen (rowMat h.exact s *ᵥ g) ^ 2) α j →
      ∃ aB' α' H' y Ly, Isotope.lsLoop s (vneg gs) xs lB mB k aB H = (.ok aB', H') ∧ aB'.Is α' ∧
        getData H' s = vadd xs (vscale aB' (vneg gs)) ∧ Taken h s X mu M x g L α' H' y Ly := by
  have mu0 := S.mu_pos
  have muM := S.mu_le
  have M0 := S.M_pos
  have sc := scale S R b hgb
  have a0 : 0 < vlen g ^ 2 := pow_pos b.a_pos 2
  have nN : (getNDofs h.exact s : ℝ) ≤ N := S.n_le
  have u0 := ulp_pos
  intro k
  induction k with
  | zero =>
    intro j aB α H hj _ _ p
    obtain rfl : j = 15 := by omega
    exact absurd (p.not_done a0 b.d_ge b.d_le S.lo S.hi) id
  | succ k ih =>
    intro j aB α H hj hα r p
    have hj' : j ≤ 14 := by omega
    have αp := p.pos
    have αlow := p.low a0 b.d_le M0
    -- the trial point
    have sl := b.step_le mu0 αp p.high
    have each : ∀ i, |α * g i| ≤ 1.01 * (Real.sqrt M + 1 / Real.sqrt mu) * vlen (rowMat h.exact s *ᵥ x - rowRhs h.exact s) := by
      intro i
      rw [abs_mul, abs_of_pos αp]
      exact (mul_le_mul_of_nonneg_left (abs_le_vlen g i) αp.le).trans sl
    have room : ∀ i, |x i| + |α * g i| ≤ X / 2 := fun i => by linarith [R.room i, each i]
    obtain ⟨y, H1, e1, r1, ed, hy, near, yb⟩ := S.trial r hx hg hα
      (fun i => by linarith [room i, abs_nonneg (α * g i)])
      (fun i => by
        have h1 := abs_add_le (x i) (-(α * g i))
        rw [abs_neg, ← sub_eq_add_neg] at h1
        linarith [room i])
    obtain ⟨qy, Ly, gy, gys, H2, hLy, e2, hgy, noisy, -, gyb⟩ := S.noisy r1 hy yb
    -- its residual
    have move : vlen ((rowMat h.exact s *ᵥ y - rowRhs h.exact s) -
        ((rowMat h.exact s *ᵥ x - rowRhs h.exact s) - α • (rowMat h.exact s *ᵥ g))) ≤
        tol mu M * vlen (rowMat h.exact s *ᵥ x - rowRhs h.exact s) := by
      have e : (rowMat h.exact s *ᵥ y - rowRhs h.exact s) -
          ((rowMat h.exact s *ᵥ x - rowRhs h.exact s) - α • (rowMat h.exact s *ᵥ g)) = rowMat h.exact s *ᵥ (y - (x - α • g)) := by
        rw [mulVec_sub, mulVec_sub, mulVec_smul]; abel
      rw [e]
      refine (S.wp.mulVec_le M0 _).trans (le_trans ?_ R.move)
      have h1 := vlen_le_of_abs (y - (x - α • g)) (b := 2 * ulp * X) (by have := S.X_ge; positivity) (fun i => by
        simpa using near i)
      have h2 : Real.sqrt (getNDofs h.exact s) ≤ Real.sqrt N := Real.sqrt_le_sqrt nN
      calc Real.sqrt M * vlen (y - (x - α • g)) ≤ Real.sqrt M * (Real.sqrt N * (2 * ulp * X)) := by
            refine mul_le_mul_of_nonneg_left (h1.trans ?_) (Real.sqrt_nonneg M)
            exact mul_le_mul_of_nonneg_right h2 (by have := S.X_ge; positivity)
        _ = _ := by ring
    -- the first test
    have α6 := p.ge hj'
    have aa : 1e-30 ≤ α * vlen g ^ 2 := by
      calc (1e-30 : ℝ) ≤ 6e-5 * 1e-24 := by norm_num
        _ ≤ _ := mul_le_mul α6 sc.a_ge (by norm_num) αp.le
    obtain ⟨r1', hr1, er1⟩ := armijo_rhs hα hL hm αp (p.le hj') aa (by norm_num at *; linarith) a0 sc.a_le hv b.nonneg sc.L_le (sc.rel α αlow)
    have t0 : 0 < α * vlen g ^ 2 := mul_pos αp a0
    rw [abs_le] at er1
    rw [Isotope.lsLoop, e1]
    dsimp only
    by_cases c1 : Ly ≤ r1'
    · rw [if_pos ((hLy.le_iff hr1).2 c1), e2]
      dsimp only
      have dec : Ly ≤ L - 0.98e-4 * (α * vlen g ^ 2) := by
        have := er1.2
        norm_num at *; linarith
      -- the second test
      obtain ⟨r2', hr2, er2⟩ := curv_rhs hm (by have := sc.a_ge; norm_num at *; linarith) sc.a_le hv
      have n49 : getNDofs h.exact s < 2 ^ 49 := by
        have : (getNDofs h.exact s : ℝ) ≤ 2 ^ 15 := nN.trans S.N_le
        have : getNDofs h.exact s ≤ 2 ^ 15 := by exact_mod_cast this
        omega
      obtain ⟨w, hw, ew⟩ := hgy.dot hg.neg n49 (K := 160) (by norm_num) (by norm_num) gyb (fun i => by simpa using hgb i)
      by_cases c2 : r2' ≤ w
      · rw [if_pos (show ge (dotV gys (vneg gs)) (wolfeC2 * mB) = true from (hr2.le_iff hw).2 c2)]
        have fr := getGradient_frame e2
        refine ⟨aB, α, H2, y, Ly, rfl, hα, by rw [fr.getData, ed], αp, r1.trans fr.1, by rw [fr.getData]; exact hy, near, yb, αlow, p.high, ?_, dec⟩
        rw [fr.getLoss]; exact hLy
      · rw [if_neg (show ¬ ge (dotV gys (vneg gs)) (wolfeC2 * mB) = true from fun hh => c2 ((hr2.le_iff hw).1 hh))]
        have small : α * vlen (rowMat h.exact s *ᵥ g) ^ 2 < 0.12 * vlen g ^ 2 := by
          by_contra hh
          obtain ⟨k1, k2⟩ := b.curvature S.wp mu0 muM noisy R.eps S.kap_le move (not_lt.1 hh) (by norm_num at *; linarith)
          apply c2
          rw [dotProduct_neg, vlen_neg] at ew
          have w1 := (abs_le.1 ew).1
          have w2 : (2 * (getNDofs h.exact s : ℝ) + 12) * ulp * (vlen gy * vlen g) ≤
              14 * N * ulp * (1.02 * (Real.sqrt M * vlen (rowMat h.exact s *ᵥ x - rowRhs h.exact s)) * vlen g) := by
            refine mul_le_mul (mul_le_mul_of_nonneg_right (by linarith [S.N_ge]) u0.le) k2 (mul_nonneg (vlen_nonneg _) (vlen_nonneg _)) ?_
            have := S.N_ge
            positivity
          have w3 : (getNDofs h.exact s : ℝ) * 2 ^ (-1074 : ℤ) ≤ N * 2 ^ (-1074 : ℤ) := mul_le_mul_of_nonneg_right nN (by positivity)
          have w4 := sc.dot
          have w5 := sc.tiny
          generalize (2 : ℝ) ^ (-1074 : ℤ) = δ at *
          clear ew
          norm_num at *
          linarith
        have p' := p.more a0 small
        have hα' : (aB * 1.5).Is (α * 1.5) := by
          have rp := p'.rep (by omega)
          have := hα.mul is_three_halves (abs_rs_lt_top (k := 11) (by norm_num) (by norm_num) (by
            have := p.le hj'
            rw [abs_of_pos (by positivity)]
            norm_num at *; linarith))
          rwa [rs_rep rp] at this
        exact ih (j + 1) _ _ H2 (by omega) hα' (r1.trans (getGradient_frame e2).1) p'
    · rw [if_neg (fun hh => c1 ((hLy.le_iff hr1).1 hh))]
      have large : 1.9 * vlen g ^ 2 < α * vlen (rowMat h.exact s *ᵥ g) ^ 2 := by
        by_contra hh
        have := b.armijo mu0 muM noisy R.eps S.kap_le move αlow (not_lt.1 hh)
        apply c1
        have := er1.1
        norm_num at *; linarith
      have p' := p.half a0 large
      have hα' : (aB * 0.5).Is (α * (1 / 2)) := by
        have rp := p'.rep (by omega)
        have := hα.mul B64.is_half (abs_rs_lt_top (k := 11) (by norm_num) (by norm_num) (by
          have := p.le hj'
          rw [abs_of_pos (by positivity)]
          norm_num at *; linarith))
        rwa [rs_rep rp] at this
      exact ih (j + 1) _ _ H1 (by omega) hα' r1 p'

theorem axpy_eq_vadd {F : Type} [Num F] [FloatLaws F] (x d : List F) (a : F) : axpy x a d = vadd x (vscale a d) := by
  unfold axpy vadd vscale
  rw [List.zipWith_map_right]
  congr 1
  funext u v
  rw [FloatLaws.one_mul, FloatLaws.add_comm]

theorem LinSet.n49 (S : LinSet h s N X mu M) : getNDofs h.exact s < 2 ^ 49 := by
  have : (getNDofs h.exact s : ℝ) ≤ 2 ^ 15 := S.n_le.trans S.N_le
  have : getNDofs h.exact s ≤ 2 ^ 15 := by exact_mod_cast this
  omega

/-- one line search -/
theorem LinSet.search (S : LinSet h s N X mu M) {H : Heap (B64 lm)} (r : SameRefs h H) {x g : Fin (getNDofs h.exact s) → ℝ} {L : ℝ}
    {gs : List (B64 lm)} (hx : VIs (getData H s) x) (hg : VIs gs g) (R : Ready h s N X mu M x)
    (b : Base (rowMat h.exact s) mu M (rowMat h.exact s *ᵥ x - rowRhs h.exact s) g L)
    (hgb : ∀ i, |g i| ≤ 2 ^ (160 : ℤ)) (hL : (getLoss H s).Is L) :
    ∃ aB α H' y Ly, lineSearch H s (vneg gs) gs = (.ok aB, H') ∧ setData H' s (axpy (getData H s) aB (vneg gs)) = .ok H' ∧
      Taken h s X mu M x g L α H' y Ly := by
  have sc := scale S R b hgb
  have a0 : 0 < vlen g ^ 2 := pow_pos b.a_pos 2
  obtain ⟨v, hv, ev⟩ := hg.dot hg.neg S.n49 (K := 160) (by norm_num) (by norm_num) hgb (fun i => by simpa using hgb i)
  have hv' : |v + vlen g ^ 2| ≤ 1e-6 * vlen g ^ 2 := by
    rw [dotProduct_neg, sub_neg_eq_add, vlen_neg, ← vlen_sq] at ev
    refine ev.trans (le_trans ?_ sc.own)
    have w1 : (2 * (getNDofs h.exact s : ℝ) + 12) * ulp * (vlen g * vlen g) ≤ 14 * N * ulp * (vlen g * vlen g) := by
      refine mul_le_mul_of_nonneg_right (mul_le_mul_of_nonneg_right ?_ ulp_pos.le) (mul_self_nonneg _)
      linarith [S.N_ge, S.n_le]
    have w3 : (getNDofs h.exact s : ℝ) * 2 ^ (-1074 : ℤ) ≤ N * 2 ^ (-1074 : ℤ) := mul_le_mul_of_nonneg_right S.n_le (by positivity)
    exact add_le_add w1 w3
  obtain ⟨aB, α, H', y, Ly, e1, -, e2, T⟩ := S.lsLoop hx hg R b hgb hL hv hv' 15 0 1.0 1 H rfl B64.is_one r .start
  refine ⟨aB, α, H', y, Ly, ?_, ?_, T⟩
  · unfold lineSearch
    rw [if_neg]
    · exact e1
    · intro hh
      have : (0 : ℝ) ≤ v := (B64.is_zero.le_iff hv).1 hh
      have := (abs_le.1 hv').2
      linarith
  · rw [axpy_eq_vadd, ← e2]
    exact C13_write_back H' s S.nodup (List.all_eq_true.2 T.data.isFinite)

/-- what a run may use up: `K` steps from a start whose coordinates are at most `B`, with loss `S0 ^ 2 / 2`, down to the loss `ml` -/
structure Reach (N X mu M B S0 ml D : ℝ) (K : Nat) : Prop where
  acc : (8 + 2 * Real.sqrt M) * Real.sqrt N * ulp * X ≤ 0.75 * tol mu M * Real.sqrt (2 * ml)
  drift : 2 * Real.sqrt N * ulp * X + kapOf N * (1.02 * ((Real.sqrt M + 1 / Real.sqrt mu) / Real.sqrt mu) * S0) ≤ D
  room : B + K * D * (1 + Real.sqrt M / Real.sqrt mu) + (2.01 / Real.sqrt mu + 1.02 * (Real.sqrt M + 1 / Real.sqrt mu)) * S0 ≤ X / 2

/-- where a run is after `k` steps: up to a drift, it has moved along combinations of the rows -/
def Along (h : Heap (B64 lm)) (s : Sketch) (x0 : Fin (getNDofs h.exact s) → ℝ) (d : ℝ) (x : Fin (getNDofs h.exact s) → ℝ) : Prop :=
  ∃ z t, x - z = (rowMat h.exact s)ᵀ *ᵥ t ∧ vlen (z - x0) ≤ d

variable {B S0 ml D : ℝ} {K : Nat}

/-- while the loss is at least `ml`, the noise is small -/
theorem Reach.small (Q : Reach N X mu M B S0 ml D K) (S : LinSet h s N X mu M) {x g : Fin (getNDofs h.exact s) → ℝ} {L : ℝ}
    {q : Fin _ → ℝ} (hn : Noisy (rowMat h.exact s) (epsOf N X) (kapOf N) (rowMat h.exact s *ᵥ x - rowRhs h.exact s) L g q)
    (hml : 0 < ml) (hL : ml ≤ L) :
    let r := vlen (rowMat h.exact s *ᵥ x - rowRhs h.exact s)
    0 < r ∧ epsOf N X ≤ tol mu M * r ∧ 2 * Real.sqrt M * Real.sqrt N * ulp * X ≤ tol mu M * r ∧ vlen q ≤ 1.001 * r := by
  dsimp only
  have mu0 := S.mu_pos
  have muM := S.mu_le
  have t0 := tol_pos mu0 muM
  have t3 := (tol_facts mu0 muM).2.2
  have kl := S.kap_le
  have X1 := S.X_ge
  have u0 := ulp_pos
  have h1 := (abs_le.1 hn.loss).2
  have h2 := hn.res
  have h3 := vlen_le_add q (rowMat h.exact s *ᵥ x - rowRhs h.exact s)
  have hS : Real.sqrt (2 * ml) ≤ Real.sqrt (2 * L) := Real.sqrt_le_sqrt (by linarith)
  have S0' : 0 < Real.sqrt (2 * ml) := Real.sqrt_pos.2 (by linarith)
  have q0 := vlen_nonneg q
  have acc := Q.acc
  have e1 : epsOf N X ≤ (8 + 2 * Real.sqrt M) * Real.sqrt N * ulp * X := by
    unfold epsOf
    have : 0 ≤ 2 * Real.sqrt M * Real.sqrt N * ulp * X := by positivity
    linarith
  have e2 : 2 * Real.sqrt M * Real.sqrt N * ulp * X ≤ (8 + 2 * Real.sqrt M) * Real.sqrt N * ulp * X := by
    have : 0 ≤ 8 * Real.sqrt N * ulp * X := by positivity
    linarith
  have eps0 : 0 ≤ epsOf N X := by unfold epsOf; positivity
  generalize vlen (rowMat h.exact s *ᵥ x - rowRhs h.exact s) = r at *
  generalize epsOf N X = eps at *
  generalize kapOf N = kap at *
  generalize Real.sqrt (2 * L) = SL at *
  generalize Real.sqrt (2 * ml) = Sm at *
  generalize tol mu M = t at *
  generalize (8 + 2 * Real.sqrt M) * Real.sqrt N * ulp * X = E at *
  have k1 : kap * vlen q ≤ 1 / 4096 * vlen q := mul_le_mul_of_nonneg_right (kl.trans t3) q0
  have k2 : t * Sm ≤ 1 / 4096 * Sm := mul_le_mul_of_nonneg_right t3 S0'.le
  have k3 : 0.99 * Sm ≤ r := by linarith
  have k4 : t * (0.99 * Sm) ≤ t * r := mul_le_mul_of_nonneg_left k3 t0.le
  have k5 : 0 < t * Sm := mul_pos t0 S0'
  have k6 : t * r ≤ 1 / 4096 * r := mul_le_mul_of_nonneg_right t3 (by linarith)
  exact ⟨by linarith, by linarith, by linarith, by linarith⟩

theorem Along.abs_le {x0 x : Fin (getNDofs h.exact s) → ℝ} {d r0 r : ℝ} (S : LinSet h s N X mu M) (a : Along h s x0 d x)
    (h0 : vlen (rowMat h.exact s *ᵥ x0 - rowRhs h.exact s) ≤ r0) (h1 : vlen (rowMat h.exact s *ᵥ x - rowRhs h.exact s) ≤ r)
    (i : Fin (getNDofs h.exact s)) :
    |x i| ≤ |x0 i| + d * (1 + Real.sqrt M / Real.sqrt mu) + (r0 + r) / Real.sqrt mu := by
  obtain ⟨z, t, e, hz⟩ := a
  have smu := Real.sqrt_pos.2 S.mu_pos
  have k1 := S.wp.range_le S.mu_pos t
  rw [← e] at k1
  have k2 : rowMat h.exact s *ᵥ (x - z) = (rowMat h.exact s *ᵥ x - rowRhs h.exact s) -
      ((rowMat h.exact s *ᵥ x0 - rowRhs h.exact s) + rowMat h.exact s *ᵥ (z - x0)) := by
    rw [mulVec_sub, mulVec_sub]; abel
  have k3 : vlen (rowMat h.exact s *ᵥ (x - z)) ≤ r + (r0 + Real.sqrt M * d) := by
    rw [k2]
    refine (vlen_sub_le _ _).trans (add_le_add h1 ((vlen_add_le _ _).trans (add_le_add h0 ?_)))
    exact (S.wp.mulVec_le S.M_pos _).trans (mul_le_mul_of_nonneg_left hz (Real.sqrt_nonneg M))
  have k4 : vlen (x - z) ≤ (r + (r0 + Real.sqrt M * d)) / Real.sqrt mu := by
    rw [le_div_iff₀ smu]; linarith
  have k5 := abs_le_vlen (x - z) i
  have k6 := abs_le_vlen (z - x0) i
  have k7 : |x i| ≤ |x0 i| + |(z - x0) i| + |(x - z) i| := by
    have e : x i = x0 i + (z - x0) i + (x - z) i := by simp only [Pi.sub_apply]; ring
    have := abs_add_three (x0 i) ((z - x0) i) ((x - z) i)
    rwa [← e] at this
  have e2 : (r + (r0 + Real.sqrt M * d)) / Real.sqrt mu = (r0 + r) / Real.sqrt mu + d * (Real.sqrt M / Real.sqrt mu) := by ring
  rw [e2] at k4
  rw [mul_add, mul_one]
  linarith

/-- the next step may be taken -/
theorem Reach.ready (Q : Reach N X mu M B S0 ml D K) (S : LinSet h s N X mu M) {x0 x g : Fin (getNDofs h.exact s) → ℝ} {L : ℝ}
    {q : Fin _ → ℝ} (hn : Noisy (rowMat h.exact s) (epsOf N X) (kapOf N) (rowMat h.exact s *ᵥ x - rowRhs h.exact s) L g q)
    (hml : 0 < ml) (hL : ml ≤ L) (hL' : Real.sqrt (2 * L) ≤ S0) (hB : ∀ i, |x0 i| ≤ B)
    (h0 : vlen (rowMat h.exact s *ᵥ x0 - rowRhs h.exact s) ≤ 1.001 * S0) {k : Nat} (hk : k ≤ K) (a : Along h s x0 (k * D) x) :
    Ready h s N X mu M x ∧ Base (rowMat h.exact s) mu M (rowMat h.exact s *ᵥ x - rowRhs h.exact s) g L ∧
      vlen (rowMat h.exact s *ᵥ x - rowRhs h.exact s) ≤ 1.001 * S0 ∧ vlen q ≤ 1.001 * vlen (rowMat h.exact s *ᵥ x - rowRhs h.exact s) := by
  obtain ⟨r0, e1, e2, e3⟩ := Q.small S hn hml hL
  have mu0 := S.mu_pos
  have muM := S.mu_le
  have b := hn.base S.wp mu0 muM rfl e1 S.kap_le r0
  have t3 := (tol_facts mu0 muM).2.2
  have smu := Real.sqrt_pos.2 mu0
  have sM := Real.sqrt_nonneg M
  have rS : vlen (rowMat h.exact s *ᵥ x - rowRhs h.exact s) ≤ 1.001 * S0 := by
    have k1 := (_root_.abs_le.1 b.loss).1
    have k2 : tol mu M * vlen (rowMat h.exact s *ᵥ x - rowRhs h.exact s) ≤ 1 / 4096 * vlen (rowMat h.exact s *ᵥ x - rowRhs h.exact s) :=
      mul_le_mul_of_nonneg_right t3 r0.le
    linarith
  refine ⟨⟨r0, e1, e2, fun i => ?_⟩, b, rS, e3⟩
  have k1 := a.abs_le S h0 rS i
  have k2 := Q.room
  have D0 : 0 ≤ D := by
    refine le_trans ?_ Q.drift
    have := S.X_ge
    have := ulp_pos
    have hS0 : 0 ≤ S0 := (Real.sqrt_nonneg _).trans hL'
    have : 0 ≤ kapOf N := by unfold kapOf; positivity
    positivity
  have hS0 : 0 ≤ S0 := (Real.sqrt_nonneg _).trans hL'
  have k3 : (k : ℝ) * D * (1 + Real.sqrt M / Real.sqrt mu) ≤ K * D * (1 + Real.sqrt M / Real.sqrt mu) := by
    have : (k : ℝ) ≤ K := by exact_mod_cast hk
    gcongr
  have k4 : 1.01 * (Real.sqrt M + 1 / Real.sqrt mu) * vlen (rowMat h.exact s *ᵥ x - rowRhs h.exact s) ≤
      1.02 * (Real.sqrt M + 1 / Real.sqrt mu) * S0 := by
    have : (Real.sqrt M + 1 / Real.sqrt mu) * vlen (rowMat h.exact s *ᵥ x - rowRhs h.exact s) ≤
        (Real.sqrt M + 1 / Real.sqrt mu) * (1.001 * S0) := mul_le_mul_of_nonneg_left rS (by positivity)
    have p0 : 0 ≤ (Real.sqrt M + 1 / Real.sqrt mu) * S0 := by positivity
    linarith
  have k5 : (1.001 * S0 + 1.001 * S0) / Real.sqrt mu ≤ 2.01 / Real.sqrt mu * S0 := by
    rw [div_mul_eq_mul_div]
    exact div_le_div_of_nonneg_right (by linarith) smu.le
  have k6 := hB i
  have e : (2.01 / Real.sqrt mu + 1.02 * (Real.sqrt M + 1 / Real.sqrt mu)) * S0 =
      2.01 / Real.sqrt mu * S0 + 1.02 * (Real.sqrt M + 1 / Real.sqrt mu) * S0 := by ring
  rw [e] at k2
  linarith

/-- the drift of one step -/
theorem Taken.along (Q : Reach N X mu M B S0 ml D K) (S : LinSet h s N X mu M) {x0 x g y : Fin (getNDofs h.exact s) → ℝ} {L Ly α : ℝ}
    {H' : Heap (B64 lm)} {q : Fin _ → ℝ}
    (hn : Noisy (rowMat h.exact s) (epsOf N X) (kapOf N) (rowMat h.exact s *ᵥ x - rowRhs h.exact s) L g q)
    (b : Base (rowMat h.exact s) mu M (rowMat h.exact s *ᵥ x - rowRhs h.exact s) g L)
    (hr : vlen (rowMat h.exact s *ᵥ x - rowRhs h.exact s) ≤ 1.001 * S0)
    (hq : vlen q ≤ 1.001 * vlen (rowMat h.exact s *ᵥ x - rowRhs h.exact s)) (T : Taken h s X mu M x g L α H' y Ly) {d : ℝ}
    (a : Along h s x0 d x) : Along h s x0 (d + D) y := by
  obtain ⟨z, t, e, hz⟩ := a
  have mu0 := S.mu_pos
  have smu := Real.sqrt_pos.2 mu0
  have u0 := ulp_pos
  have X1 := S.X_ge
  refine ⟨z - α • (g - (rowMat h.exact s)ᵀ *ᵥ q) + (y - (x - α • g)), t - α • q, ?_, ?_⟩
  · have : y - (z - α • (g - (rowMat h.exact s)ᵀ *ᵥ q) + (y - (x - α • g))) = (x - z) - α • ((rowMat h.exact s)ᵀ *ᵥ q) := by
      rw [smul_sub]; abel
    rw [this, e, mulVec_sub, mulVec_smul]
  · have e1 : z - α • (g - (rowMat h.exact s)ᵀ *ᵥ q) + (y - (x - α • g)) - x0 =
        (z - x0) + ((y - (x - α • g)) - α • (g - (rowMat h.exact s)ᵀ *ᵥ q)) := by abel
    rw [e1]
    refine (vlen_add_le _ _).trans (add_le_add hz ((vlen_sub_le _ _).trans (le_trans ?_ Q.drift)))
    refine add_le_add ?_ ?_
    · have h1 := vlen_le_of_abs (y - (x - α • g)) (b := 2 * ulp * X) (by positivity) (fun i => by simpa using T.near i)
      refine h1.trans ?_
      have h2 : Real.sqrt (getNDofs h.exact s) ≤ Real.sqrt N := Real.sqrt_le_sqrt S.n_le
      calc Real.sqrt (getNDofs h.exact s) * (2 * ulp * X) ≤ Real.sqrt N * (2 * ulp * X) :=
            mul_le_mul_of_nonneg_right h2 (by positivity)
        _ = _ := by ring
    · rw [vlen_smul, abs_of_pos T.pos]
      have sl := b.step_le mu0 T.pos T.high
      have ag := b.a_ge
      have r0 := b.pos
      have kp : 0 ≤ kapOf N := by unfold kapOf; positivity
      have α0 := T.pos
      have gr := hn.grad
      generalize vlen (rowMat h.exact s *ᵥ x - rowRhs h.exact s) = r at *
      have sM := Real.sqrt_nonneg M
      -- α r ≤ …
      have c1 : α * (0.9996 * (Real.sqrt mu * r)) ≤ 1.01 * (Real.sqrt M + 1 / Real.sqrt mu) * r :=
        (mul_le_mul_of_nonneg_left ag α0.le).trans sl
      have c2 : α * r ≤ 1.0106 * ((Real.sqrt M + 1 / Real.sqrt mu) / Real.sqrt mu) * r := by
        have : α * r * Real.sqrt mu ≤ 1.0106 * ((Real.sqrt M + 1 / Real.sqrt mu) / Real.sqrt mu) * r * Real.sqrt mu := by
          have e3 : 1.0106 * ((Real.sqrt M + 1 / Real.sqrt mu) / Real.sqrt mu) * r * Real.sqrt mu = 1.0106 * ((Real.sqrt M + 1 / Real.sqrt mu) * r) := by
            field_simp
          rw [e3]
          have p0 : 0 ≤ (Real.sqrt M + 1 / Real.sqrt mu) * r := by positivity
          linarith
        exact le_of_mul_le_mul_right this smu
      have c3 : α * vlen q ≤ 1.02 * ((Real.sqrt M + 1 / Real.sqrt mu) / Real.sqrt mu) * S0 := by
        have d1 : α * vlen q ≤ α * (1.001 * r) := mul_le_mul_of_nonneg_left hq α0.le
        have d2 : (Real.sqrt M + 1 / Real.sqrt mu) / Real.sqrt mu * r ≤ (Real.sqrt M + 1 / Real.sqrt mu) / Real.sqrt mu * (1.001 * S0) :=
          mul_le_mul_of_nonneg_left hr (by positivity)
        have p0 : 0 ≤ (Real.sqrt M + 1 / Real.sqrt mu) / Real.sqrt mu * r := by positivity
        linarith
      calc α * vlen (g - (rowMat h.exact s)ᵀ *ᵥ q) ≤ α * (kapOf N * vlen q) := mul_le_mul_of_nonneg_left gr α0.le
        _ = kapOf N * (α * vlen q) := by ring
        _ ≤ _ := mul_le_mul_of_nonneg_left c3 kp

/-- the norm of the gradient as computed -/
theorem LinSet.norm (S : LinSet h s N X mu M) {x g : Fin (getNDofs h.exact s) → ℝ} {L : ℝ} {gs : List (B64 lm)} (hg : VIs gs g)
    (R : Ready h s N X mu M x) (b : Base (rowMat h.exact s) mu M (rowMat h.exact s *ᵥ x - rowRhs h.exact s) g L)
    (hgb : ∀ i, |g i| ≤ 2 ^ (160 : ℤ)) : ∃ w, (normL gs).Is w ∧ 0 ≤ w ∧ 2 * mu * L ≤ 1.01 * w ^ 2 := by
  have sc := scale S R b hgb
  have a0 : 0 < vlen g ^ 2 := pow_pos b.a_pos 2
  obtain ⟨v, hv, ev⟩ := hg.dot hg S.n49 (K := 160) (by norm_num) (by norm_num) hgb hgb
  have hv' : |v - vlen g ^ 2| ≤ 1e-6 * vlen g ^ 2 := by
    rw [← vlen_sq] at ev
    refine ev.trans (le_trans ?_ sc.own)
    have w1 : (2 * (getNDofs h.exact s : ℝ) + 12) * ulp * (vlen g * vlen g) ≤ 14 * N * ulp * (vlen g * vlen g) := by
      refine mul_le_mul_of_nonneg_right (mul_le_mul_of_nonneg_right ?_ ulp_pos.le) (mul_self_nonneg _)
      linarith [S.N_ge, S.n_le]
    have w3 : (getNDofs h.exact s : ℝ) * 2 ^ (-1074 : ℤ) ≤ N * 2 ^ (-1074 : ℤ) := mul_le_mul_of_nonneg_right S.n_le (by positivity)
    exact add_le_add w1 w3
  rw [_root_.abs_le] at hv'
  have ag := sc.a_ge
  have v0 : 0.999999 * vlen g ^ 2 ≤ v := by linarith [hv'.1]
  have v1 : v ≤ 2 ^ (401 : ℤ) := twice_le sc.a_le (k := 400) (by
    have := hv'.2
    clear ev
    linarith)
  have vp : 0 < v := by linarith
  have sq4 : Real.sqrt v ≤ 2 ^ (401 : ℤ) := by
    rw [Real.sqrt_le_left (by positivity)]
    refine v1.trans ?_
    have : (1 : ℝ) ≤ 2 ^ (401 : ℤ) := one_le_zpow₀ (by norm_num) (by norm_num)
    clear v1 ev
    generalize (2 : ℝ) ^ (401 : ℤ) = T at *
    nlinarith
  have hs := hv.sqrt vp.le (abs_rs_lt_top (k := 401) (by norm_num) (by norm_num) (by rw [abs_of_nonneg (Real.sqrt_nonneg v)]; exact sq4))
  refine ⟨_, hs, rs_nonneg (Real.sqrt_nonneg v), ?_⟩
  have er := rs_err' (Real.sqrt v)
  have l := least_le
  have u := ulp_le_milli
  have sv := Real.sqrt_nonneg v
  have sv2 := Real.sq_sqrt vp.le
  have s12 : 1e-13 ≤ Real.sqrt v := by
    rw [Real.le_sqrt (by norm_num) vp.le]
    norm_num at ag v0 ⊢
    linarith
  rw [abs_of_nonneg sv] at er
  have w0 : 0.9999 * Real.sqrt v ≤ rs (Real.sqrt v) := by
    have := (_root_.abs_le.1 er).1
    have k1 : ulp * Real.sqrt v ≤ 1.2e-16 * Real.sqrt v := mul_le_mul_of_nonneg_right u sv
    clear sq4 hs v1
    generalize (2 : ℝ) ^ (-1075 : ℤ) = δ at *
    norm_num at *
    linarith
  have w1 : 0.9997 * vlen g ^ 2 ≤ rs (Real.sqrt v) ^ 2 := by
    have := pow_le_pow_left₀ (by positivity) w0 2
    rw [mul_pow, sv2] at this
    refine le_trans ?_ this
    norm_num at *
    linarith
  -- the loss
  have mu0 := S.mu_pos
  have t3 := (tol_facts mu0 S.mu_le).2.2
  have r0 := b.pos
  have k1 := (_root_.abs_le.1 b.loss).2
  have agr := b.a_ge
  have k0 := b.nonneg
  clear ev hv' er sq4 v1 l hs
  generalize vlen (rowMat h.exact s *ᵥ x - rowRhs h.exact s) = r at *
  have k2 : tol mu M * r ≤ 1 / 4096 * r := mul_le_mul_of_nonneg_right t3 r0.le
  have k3 : Real.sqrt (2 * L) ≤ 1.0008 * r := by linarith
  have k4 := pow_le_pow_left₀ (Real.sqrt_nonneg _) k3 2
  rw [Real.sq_sqrt (by linarith)] at k4
  have k5 := pow_le_pow_left₀ (by positivity) agr 2
  rw [mul_pow, mul_pow, Real.sq_sqrt mu0.le] at k5
  have k6 : mu * (2 * L) ≤ mu * (1.0008 * r) ^ 2 := mul_le_mul_of_nonneg_left k4 mu0.le
  have p0 : 0 ≤ mu * r ^ 2 := by positivity
  norm_num at *
  nlinarith

/-- the factor by which the loss shrinks with every step -/
noncomputable def rateOf (mu M : ℝ) : ℝ := 1 - 1.8e-4 * (mu / (1 + M))

set_option maxHeartbeats 1000000 in
/-- **the loop** -/
theorem LinSet.gdLoop (S : LinSet h s N X mu M) (Q : Reach N X mu M B S0 ml D K) (p : GDParams (B64 lm)) {mg : ℝ} (hmg : p.minGrad.Is mg)
    (hml : p.minLoss.Is ml) (ml0 : 0 < ml) {x0 : Fin (getNDofs h.exact s) → ℝ} (hB : ∀ i, |x0 i| ≤ B)
    (h0 : vlen (rowMat h.exact s *ᵥ x0 - rowRhs h.exact s) ≤ 1.001 * S0) :
    ∀ (n k : Nat) (H : Heap (B64 lm)) (x g : Fin (getNDofs h.exact s) → ℝ) (q : Fin _ → ℝ) (gs : List (B64 lm)) (L : ℝ),
      k + n ≤ K → SameRefs h H → VIs (getData H s) x → (∀ i, |x i| ≤ X) → VIs gs g → (∀ i, |g i| ≤ 2 ^ (160 : ℤ)) → (getLoss H s).Is L →
      Noisy (rowMat h.exact s) (epsOf N X) (kapOf N) (rowMat h.exact s *ᵥ x - rowRhs h.exact s) L g q →
      Real.sqrt (2 * L) ≤ S0 → Along h s x0 (k * D) x →
      let o := Isotope.gdLoop p s n H gs (normL gs) (getLoss H s)
      o.res = .ok ∧ o.steps.length ≤ n ∧ SameRefs h o.heap ∧ ∃ (x' : Fin (getNDofs h.exact s) → ℝ) (L' : ℝ), VIs (getData o.heap s) x' ∧ (∀ i, |x' i| ≤ X) ∧ (getLoss o.heap s).Is L' ∧ 0 ≤ L' ∧ L' ≤ rateOf mu M ^ o.steps.length * L ∧
        (o.steps.length < n → L' < ml ∨ 2 * mu * L' < 1.01 * mg ^ 2) := by
  have mu0 := S.mu_pos
  have muM := S.mu_le
  have M0 := S.M_pos
  have rate0 : 0 ≤ rateOf mu M := by
    unfold rateOf
    have : mu / (1 + M) ≤ 1 := by rw [div_le_one (by linarith)]; linarith
    linarith
  intro n
  induction n with
  | zero =>
    intro k H x g q gs L _ r hx hxb _ _ hL hn _ _
    exact ⟨rfl, le_rfl, r, x, L, hx, hxb, hL, hn.nonneg, by simp [Isotope.gdLoop], fun hh => absurd hh (by simp)⟩
  | succ n ih =>
    intro k H x g q gs L hk r hx hxb hg hgb hL hn hS ha
    dsimp only
    rw [Isotope.gdLoop]
    by_cases cL : L < ml
    · by_cases c1 : (normL gs <. p.minGrad) = true
      · rw [if_pos c1]
        exact ⟨rfl, by simp, r, x, L, hx, hxb, hL, hn.nonneg, by simp, fun _ => .inl cL⟩
      · rw [if_neg c1, if_pos ((hL.lt_iff hml).2 cL)]
        exact ⟨rfl, by simp, r, x, L, hx, hxb, hL, hn.nonneg, by simp, fun _ => .inl cL⟩
    · obtain ⟨R, b, rS, hq⟩ := Q.ready S hn ml0 (not_lt.1 cL) hS hB h0 (by omega) ha
      obtain ⟨w, hw, w0, hw2⟩ := S.norm hg R b hgb
      by_cases c1 : w < mg
      · rw [if_pos ((hw.lt_iff hmg).2 c1)]
        refine ⟨rfl, by simp, r, x, L, hx, hxb, hL, hn.nonneg, by simp, fun _ => .inr ?_⟩
        have : w ^ 2 < mg ^ 2 := pow_lt_pow_left₀ c1 w0 (by norm_num)
        linarith
      · rw [if_neg (fun hh => c1 ((hw.lt_iff hmg).1 hh)), if_neg (fun hh => cL ((hL.lt_iff hml).1 hh))]
        obtain ⟨aB, α, H', y, Ly, e1, e2, T⟩ := S.search r hx hg R b hgb hL
        simp only [e1, e2]
        obtain ⟨qy, Ly', gy, gys, H3, hLy, e3, hgy, hny, -, hgyb⟩ := S.noisy T.refs T.data T.le
        obtain rfl := hLy.unique T.loss
        simp only [e3]
        have fr := getGradient_frame e3
        rw [← fr.getLoss s]
        have hdec := b.decrease mu0 muM T.low T.dec
        have hLyL : Ly' ≤ L := by
          have := mul_nonneg T.pos.le (sq_nonneg (vlen g))
          have := T.dec
          linarith
        obtain ⟨i1, i2, j1, x', L', j2, j3, i3, i4, i5, i6⟩ := ih (k + 1) H3 y gy qy gys Ly' (by omega) (T.refs.trans fr.1) (by rw [fr.getData]; exact T.data) T.le hgy hgyb
          (by rw [fr.getLoss]; exact hLy) hny ((Real.sqrt_le_sqrt (by linarith)).trans hS)
          (by have := T.along Q S hn b rS hq ha; rwa [show (k : ℝ) * D + D = ((k + 1 : ℕ) : ℝ) * D by push_cast; ring] at this)
        refine ⟨i1, by simpa [SolveOut.cons] using i2, j1, x', L', j2, j3, i3, i4, ?_, fun hh => i6 (by simpa [SolveOut.cons] using hh)⟩
        simp only [SolveOut.cons, List.length_cons]
        rw [pow_succ, mul_assoc]
        exact i5.trans (mul_le_mul_of_nonneg_left hdec (pow_nonneg rate0 _))

end Isotope
