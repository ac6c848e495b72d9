import Verif.Lemmas.FloatLinear
import Verif.Lemmas.Serde

/-!
# The loss and the gradient of a linear sketch in binary64, as an inexact view of its system of equations
-/

namespace Isotope
open Round Val XR
open Matrix

variable {lm : Libm} {h H : Heap (B64 lm)} {s : Sketch} {X : ℝ}

theorem SameRefs.exact (r : SameRefs h H) : SameRefs h.exact H.exact where
  lines := by show H.lines = h.lines; exact r.lines
  cons := by show (fun k => (H.cons k).exact) = fun k => (h.cons k).exact; rw [r.cons]
  arcCenter := fun a => r.arcCenter a
  arcClockwise := fun a => r.arcClockwise a
  circleCenter := fun a => r.circleCenter a
  nPoints := r.nPoints
  nLines := r.nLines
  nArcs := r.nArcs
  nCircles := r.nCircles
  nCons := r.nCons

theorem VIs.exact {n : Nat} {l : List (B64 lm)} {x : Fin n → ℝ} (hv : VIs l x) : l.map B64.exact = vec x := by
  unfold vec
  apply List.ext_getElem (by simp [hv.length])
  intro i h1 h2
  have hi : i < n := by simpa using h2
  simp only [List.getElem_map, List.getElem_ofFn]
  exact (hv.get ⟨i, hi⟩).exact

/-- all numbers of a sketch in a state of a run are at most `X` -/
structure StaysIn (h H : Heap (B64 lm)) (s : Sketch) (X : ℝ) : Prop where
  refs : SameRefs h H
  dat : ∀ x ∈ getData H s, ∃ r : ℝ, x.Is r ∧ |r| ≤ X
  par : ∀ k ∈ s.cons, ∀ x ∈ consParams (h.cons k), ∃ r : ℝ, x.Is r ∧ |r| ≤ X
  le : X ≤ 2 ^ (100 : ℤ)

theorem StaysIn.consUpTo (a : StaysIn h H s X) (hc : Closed ⟨h, s⟩) : ∀ k ∈ s.cons, ConsUpTo H (H.cons k) X := by
  intro k hk
  refine ⟨fun p hp x hx => ?_, by rw [a.refs.cons]; exact a.par k hk, a.le⟩
  apply a.dat
  rw [getData_eq]
  refine List.mem_flatMap.2 ⟨p, ?_, hx⟩
  rw [a.refs.cons, consDeps_sameRefs a.refs] at hp
  unfold consDeps at hp
  rcases List.mem_append.1 hp with hp | hp
  · exact hc.2 k hk p hp
  · obtain ⟨r, hr, hp⟩ := List.mem_flatMap.1 hp
    exact hc.1 r (hc.2 k hk r hr) p hp

theorem Acc.entries (d : Dof) {l : List (Dof × B64 lm)} {L : List (Dof × ℝ)} (hl : List.Forall₂ ExEntry l L) :
    ∀ {g : B64 lm} {R T : ℝ} {i : ℕ}, Acc g R T i → i + l.length < 2 ^ 50 → T + massOf L d ≤ 2 ^ (1000 : ℤ) →
      Acc (addUp d g l) (R + total L d) (T + massOf L d) (i + l.length) := by
  induction hl with
  | nil => intro g R T i hg _ _; simpa [addUp, massOf] using hg
  | @cons e E l L he _ ih =>
    intro g R T i hg hi hT
    rw [List.length_cons] at hi
    have mc : massOf (E :: L) d = (if E.1 = d then |E.2| else 0) + massOf L d := by
      unfold massOf; rw [List.map_cons, total_cons]
    have m0 : 0 ≤ massOf L d := by
      unfold massOf total
      refine List.sum_nonneg fun y hy => ?_
      obtain ⟨z, hz, rfl⟩ := List.mem_map.1 hy
      obtain ⟨w, -, rfl⟩ := List.mem_map.1 hz
      dsimp only
      split_ifs
      · exact abs_nonneg _
      · exact le_rfl
    rw [mc] at hT ⊢
    have key : Acc (if e.1 = d then g + e.2 else g) (R + if E.1 = d then E.2 else 0) (T + if E.1 = d then |E.2| else 0) (i + 1) := by
      rw [he.1]
      by_cases hd : E.1 = d
      · rw [if_pos hd] at hT
        rw [if_pos hd, if_pos hd, if_pos hd]
        exact hg.add ((of_is he.2).mono (Nat.zero_le i)) (by omega) (by linarith)
      · rw [if_neg hd, if_neg hd, if_neg hd, add_zero, add_zero]
        exact hg.mono (by omega)
    have := ih key (by omega) (by linarith)
    rw [total_cons, List.length_cons, ← add_assoc R, ← add_assoc T, show i + (l.length + 1) = i + 1 + l.length by omega]
    exact this

theorem forall₂_flatMap {α β γ : Type} {P : β → γ → Prop} {f : α → List β} {g : α → List γ} (l : List α)
    (hl : ∀ a ∈ l, List.Forall₂ P (f a) (g a)) : List.Forall₂ P (l.flatMap f) (l.flatMap g) := by
  induction l with
  | nil => exact .nil
  | cons a l ih =>
    rw [List.flatMap_cons, List.flatMap_cons]
    exact List.rel_append (hl a (by simp)) (ih fun b hb => hl b (by simp [hb]))

theorem massOf_flatMap {α : Type} (l : List α) (f : α → List (Dof × ℝ)) (d : Dof) :
    massOf (l.flatMap f) d = (l.map (fun a => massOf (f a) d)).sum := by
  unfold massOf
  rw [List.map_flatMap, total_flatMap]

theorem length_flatMap_le {α β : Type} (l : List α) (f : α → List β) (n : Nat) (hf : ∀ a ∈ l, (f a).length ≤ n) :
    (l.flatMap f).length ≤ n * l.length := by
  induction l with
  | nil => simp
  | cons a l ih =>
    rw [List.flatMap_cons, List.length_append, List.length_cons]
    have := hf a (by simp)
    have := ih fun b hb => hf b (by simp [hb])
    rw [Nat.mul_succ]
    omega

theorem sqrt_arith {S Q k e : ℝ} (hS : 0 ≤ S) (hQ : 0 ≤ Q) (hk : 0 ≤ k) (he : 0 < e) (h : |S ^ 2 - Q ^ 2| ≤ k * Q ^ 2 + e ^ 2) :
    |S - Q| ≤ k * Q + e := by
  by_contra hn
  push Not at hn
  have h1 : |S ^ 2 - Q ^ 2| = |S - Q| * (S + Q) := by
    rw [show S ^ 2 - Q ^ 2 = (S - Q) * (S + Q) by ring, abs_mul, abs_of_nonneg (add_nonneg hS hQ)]
  have h2 : |S - Q| ≤ S + Q := by
    rw [abs_le]; constructor <;> linarith
  rw [h1] at h
  have kQ : 0 ≤ k * Q := mul_nonneg hk hQ
  have h3 : e < S + Q := by linarith
  have h4 : (k * Q + e) * (S + Q) ≤ |S - Q| * (S + Q) := mul_le_mul_of_nonneg_right hn.le (by linarith)
  have h5 : k * Q * Q ≤ k * Q * (S + Q) := mul_le_mul_of_nonneg_left (by linarith) kQ
  have h6 : e * e < e * (S + Q) := mul_lt_mul_of_pos_left h3 he
  nlinarith

theorem loss_arith {L Z Q2 c u d : ℝ} (hu : 0 < u) (hc : 0 ≤ c) (hcu : c * u ≤ 1 / 16) (hu' : u ≤ 1 / 64) (h1 : |L - Z| ≤ 2 * c * u * Z)
    (h2 : |Z - Q2 / 2| ≤ 8 * u * (Q2 / 2) + c * d) (hQ : 0 ≤ Q2) (hd : 0 ≤ d) : |2 * L - Q2| ≤ (4 * c + 8) * u * Q2 + 4 * c * d := by
  have h3 : |2 * L - Q2| ≤ 2 * |L - Z| + 2 * |Z - Q2 / 2| := by
    rw [show 2 * L - Q2 = 2 * (L - Z) + 2 * (Z - Q2 / 2) by ring]
    refine (abs_add_le _ _).trans ?_
    rw [abs_mul, abs_mul, abs_of_pos (by norm_num : (0 : ℝ) < 2)]
  have h4 : Z ≤ Q2 / 2 + (8 * u * (Q2 / 2) + c * d) := by linarith [(abs_le.1 h2).2]
  have hcu0 : 0 ≤ c * u := by positivity
  have h5 : c * u * Z ≤ c * u * (Q2 / 2 + (8 * u * (Q2 / 2) + c * d)) := mul_le_mul_of_nonneg_left h4 hcu0
  have h6 : c * u * (u * Q2) ≤ 1 / 64 * (c * u * Q2) := by
    have : u * (c * u * Q2) ≤ 1 / 64 * (c * u * Q2) := mul_le_mul_of_nonneg_right hu' (by positivity)
    linarith
  have h7 : c * u * (c * d) ≤ 1 / 16 * (c * d) := mul_le_mul_of_nonneg_right hcu (by positivity)
  have h8 : 0 ≤ c * d := by positivity
  have h9 : 0 ≤ c * u * Q2 := by positivity
  have h10 : 0 ≤ u * Q2 := by positivity
  nlinarith

theorem sum_le_map {α : Type} (l : List α) (f g : α → ℝ) (hfg : ∀ a ∈ l, f a ≤ g a) : (l.map f).sum ≤ (l.map g).sum :=
  List.sum_le_sum hfg

theorem abs_sum_sub_le {α : Type} (l : List α) (f g e : α → ℝ) (hfg : ∀ a ∈ l, |f a - g a| ≤ e a) :
    |(l.map f).sum - (l.map g).sum| ≤ (l.map e).sum := by
  induction l with
  | nil => simp
  | cons a l ih =>
    simp only [List.map_cons, List.sum_cons]
    have h1 := hfg a (by simp)
    have h2 := ih fun b hb => hfg b (by simp [hb])
    have h3 := abs_add_le (f a - g a) ((l.map f).sum - (l.map g).sum)
    rw [show f a - g a + ((l.map f).sum - (l.map g).sum) = f a + (l.map f).sum - (g a + (l.map g).sum) by ring] at h3
    linarith

/-- what is lost by rounding -/
noncomputable def epsOf (N X : ℝ) : ℝ := 8 * Real.sqrt N * ulp * X
noncomputable def kapOf (N : ℝ) : ℝ := 16 * N ^ 2 * ulp

set_option maxHeartbeats 1000000 in
/-- **the loss and the gradient as computed, as an inexact view of the system of equations** -/
theorem float_noisy (hn : s.cells.Nodup) (hc : Closed ⟨h, s⟩) (hl : ∀ k ∈ s.cons, IsLinear (h.exact.cons k)) {N : ℝ}
    (hN1 : 1 ≤ N) (hN2 : N ≤ 2 ^ 40) (hN : 2 * s.cons.length + getNDofs h.exact s ≤ N) (hX : 1 ≤ X) (a : StaysIn h H s X)
    {x : Fin (getNDofs h.exact s) → ℝ} (hx : VIs (getData H s) x) :
    ∃ q L g gs H', (getLoss H s).Is L ∧ getGradient H s = .ok (gs, H') ∧ VIs gs g ∧
      Noisy (rowMat h.exact s) (epsOf N X) (kapOf N) (rowMat h.exact s *ᵥ x - rowRhs h.exact s) L g q ∧ vlen q ≤ 2 ^ (160 : ℤ) ∧
      ∀ i, |g i| ≤ 2 ^ (160 : ℤ) := by
  have hlin : ∀ k ∈ s.cons, IsLinear (H.cons k).exact := fun k hk => by rw [a.refs.cons]; exact hl k hk
  have hPL : ∀ k, k ∈ s.cons → ∃ P L, LinCons H (H.cons k) X P L := fun k hk => lin_cons (a.consUpTo hc k hk) (hlin k hk)
  choose! P L hPL using hPL
  have hu := ulp_pos
  -- the sizes
  have hcN : (s.cons.length : ℝ) ≤ N / 2 := by
    have : (0 : ℝ) ≤ getNDofs h.exact s := Nat.cast_nonneg _
    linarith
  have hclt : s.cons.length < 2 ^ 41 := by
    have : (s.cons.length : ℝ) < 2 ^ 41 := by
      have : (2 : ℝ) ^ 40 < 2 ^ 41 := by norm_num
      linarith
    exact_mod_cast this
  -- all equations with their computed residuals
  have hfst : (s.cons.flatMap P).map Prod.fst = rows h.exact s := by
    rw [List.map_flatMap, rows]
    refine List.flatMap_congr fun k hk => ?_
    rw [(hPL k hk).eqs, equations_sameRefs a.refs.exact]
    show equations h.exact (H.cons k).exact = equations h.exact (h.cons k).exact
    rw [a.refs.cons]
  have hlen : (s.cons.flatMap P).length = (rows h.exact s).length := by rw [← hfst, List.length_map]
  have hm2 : (s.cons.flatMap P).length ≤ 2 * s.cons.length := length_flatMap_le _ _ 2 fun k hk => (hPL k hk).len
  have hres : ∀ p ∈ s.cons.flatMap P, |p.2 - evalEq H.exact p.1| ≤ 6 * ulp * X ∧ |p.2| ≤ 2 ^ (102 : ℤ) := by
    intro p hp
    obtain ⟨k, hk, hp⟩ := List.mem_flatMap.1 hp
    exact (hPL k hk).res p hp
  obtain ⟨q, hq⟩ : ∃ q : Fin (rows h.exact s).length → ℝ, ∀ i, q i = ((s.cons.flatMap P)[i.1]'(by rw [hlen]; exact i.2)).2 := ⟨_, fun _ => rfl⟩
  have hsum : ∀ f : Equation × ℝ → ℝ, ((s.cons.flatMap P).map f).sum =
      ∑ i : Fin (rows h.exact s).length, f ((s.cons.flatMap P)[i.1]'(by rw [hlen]; exact i.2)) := by
    intro f
    rw [sum_get]
    exact Fintype.sum_equiv (finCongr hlen) _ _ fun i => rfl
  have heqn : ∀ i : Fin (rows h.exact s).length, ((s.cons.flatMap P)[i.1]'(by rw [hlen]; exact i.2)).1 = (rows h.exact s)[i] := by
    intro i
    have : ((s.cons.flatMap P).map Prod.fst)[i.1]'(by rw [List.length_map, hlen]; exact i.2) = (rows h.exact s)[i.1] := by
      congr 1
    rw [List.getElem_map] at this
    exact this
  have qsq : q ⬝ᵥ q = ((s.cons.flatMap P).map (fun p => p.2 ^ 2)).sum := by
    rw [hsum]
    simp only [dotProduct]
    exact Finset.sum_congr rfl fun i _ => by rw [hq i]; ring
  have qabs : ∑ i, |q i| = ((s.cons.flatMap P).map (fun p => |p.2|)).sum := by
    rw [hsum]
    exact Finset.sum_congr rfl fun i _ => by rw [hq i]
  have q0 := vlen_nonneg q
  have hm : ((rows h.exact s).length : ℝ) ≤ 2 * s.cons.length := by rw [← hlen]; exact_mod_cast hm2
  have hn0 : (0 : ℝ) ≤ getNDofs h.exact s := Nat.cast_nonneg _
  have hc0 : (0 : ℝ) ≤ s.cons.length := Nat.cast_nonneg _
  have hm0 : (0 : ℝ) ≤ (rows h.exact s).length := Nat.cast_nonneg _
  have qabs_le : ∑ i, |q i| ≤ Real.sqrt (rows h.exact s).length * vlen q := by
    have h1 := (abs_le.1 (abs_dot_le (fun i => |q i|) (fun _ => (1 : ℝ)))).2
    have e1 : vlen (fun i => |q i|) = vlen q := by unfold vlen dotProduct; simp only [abs_mul_abs_self]
    have e2 : vlen (fun _ : Fin (rows h.exact s).length => (1 : ℝ)) = Real.sqrt (rows h.exact s).length := by
      unfold vlen dotProduct; simp
    rw [e1, e2] at h1
    simp only [dotProduct, mul_one] at h1
    linarith
  have qle : ∀ i, |q i| ≤ 2 ^ (102 : ℤ) := fun i => by rw [hq i]; exact (hres _ (List.getElem_mem _)).2
  have hsqN : Real.sqrt N ≤ 2 ^ (20 : ℤ) := by
    rw [Real.sqrt_le_left (by positivity)]
    refine hN2.trans ?_
    norm_num
  have hsqm : Real.sqrt (rows h.exact s).length ≤ Real.sqrt N := Real.sqrt_le_sqrt (by linarith)
  have qlen : vlen q ≤ 2 ^ (122 : ℤ) := by
    refine (vlen_le_of_abs q (two_pos 102).le qle).trans ?_
    calc _ ≤ (2 : ℝ) ^ (20 : ℤ) * 2 ^ (102 : ℤ) := mul_le_mul_of_nonneg_right (hsqm.trans hsqN) (two_pos _).le
      _ = _ := by rw [two_mul_two]; norm_num
  have qabs_big : ∑ i, |q i| ≤ 2 ^ (142 : ℤ) := by
    refine qabs_le.trans ?_
    calc _ ≤ (2 : ℝ) ^ (20 : ℤ) * 2 ^ (122 : ℤ) := mul_le_mul (hsqm.trans hsqN) qlen q0 (two_pos _).le
      _ = _ := by rw [two_mul_two]; norm_num
  -- the loss
  have hloss : ∀ k, k ∈ s.cons → _ := fun k hk => (hPL k hk).loss
  choose! l hl1 hl2 hl3 using hloss
  have hlZ : |(s.cons.map l).sum - (q ⬝ᵥ q) / 2| ≤ 8 * ulp * ((q ⬝ᵥ q) / 2) + s.cons.length * 2 ^ (-960 : ℤ) := by
    have h1 := abs_sum_sub_le s.cons l (fun k => ((P k).map (fun p => p.2 ^ 2)).sum / 2) _ hl3
    have e1 : (s.cons.map (fun k => ((P k).map (fun p => p.2 ^ 2)).sum / 2)).sum = (q ⬝ᵥ q) / 2 := by
      rw [qsq, sum_flatMap']
      simp only [div_eq_mul_inv, List.sum_map_mul_right]
    rw [e1, List.sum_map_add, List.sum_map_mul_left, e1] at h1
    simpa using h1
  have hlabs : (s.cons.map l).map (fun r => |r|) = s.cons.map l := by
    rw [List.map_map]
    exact List.map_congr_left fun k hk => abs_of_nonneg (hl2 k hk)
  have qsq0 : 0 ≤ q ⬝ᵥ q := dot_self_nonneg q
  have qsq_le : q ⬝ᵥ q ≤ 2 ^ (244 : ℤ) := by
    rw [← vlen_mul_self]
    calc _ ≤ (2 : ℝ) ^ (122 : ℤ) * 2 ^ (122 : ℤ) := mul_le_mul qlen qlen q0 (two_pos _).le
      _ = _ := by rw [two_mul_two]; norm_num
  have small960 : (s.cons.length : ℝ) * 2 ^ (-960 : ℤ) ≤ 2 ^ (-900 : ℤ) := by
    have : (s.cons.length : ℝ) ≤ 2 ^ (60 : ℤ) := by
      refine hcN.trans ?_
      norm_num at hN2 ⊢
      linarith
    calc _ ≤ (2 : ℝ) ^ (60 : ℤ) * 2 ^ (-960 : ℤ) := mul_le_mul_of_nonneg_right this (two_pos _).le
      _ = _ := by rw [two_mul_two]; norm_num
  have hZle : (s.cons.map l).sum ≤ 2 ^ (1000 : ℤ) := by
    have h1 := (abs_le.1 hlZ).2
    have h2 : 8 * ulp * ((q ⬝ᵥ q) / 2) ≤ (q ⬝ᵥ q) / 2 := by
      have := mul_le_mul_of_nonneg_right ulp_le_eighth (by linarith : 0 ≤ (q ⬝ᵥ q) / 2)
      linarith
    have h3 : (2 : ℝ) ^ (-900 : ℤ) ≤ 2 ^ (244 : ℤ) := two_le (by norm_num)
    have h4 : (2 : ℝ) ^ (244 : ℤ) + 2 ^ (244 : ℤ) = 2 ^ (245 : ℤ) := by rw [two_double]; norm_num
    have h5 : (2 : ℝ) ^ (245 : ℤ) ≤ 2 ^ (1000 : ℤ) := two_le (by norm_num)
    refine le_trans ?_ h5
    rw [← h4]
    have h6 := small960.trans h3
    clear hl3 hlZ small960 h3 h5
    generalize (s.cons.length : ℝ) * 2 ^ (-960 : ℤ) = t at *
    linarith
  have hfor : List.Forall₂ (fun (x : B64 lm) r => x.Is r) (s.cons.map (fun k => lossValue H (H.cons k))) (s.cons.map l) := by
    rw [List.forall₂_map_left_iff, List.forall₂_map_right_iff, List.forall₂_same]
    exact hl1
  obtain ⟨Lr, hL1, hL2, -⟩ := Acc.foldl hfor (Acc.zero (lm := lm)) (by rw [List.length_map]; omega) (by rw [hlabs, zero_add]; exact hZle)
  rw [hlabs] at hL2
  simp only [zero_add, List.length_map] at hL2
  have hgl : getLoss H s = (s.cons.map (fun k => lossValue H (H.cons k))).foldl (· + ·) 0.0 := by
    unfold getLoss; rw [List.foldl_map]
  have hcu : (s.cons.length : ℝ) * ulp ≤ 1 / 16 := by
    have h1 : (s.cons.length : ℝ) * ulp ≤ 2 ^ 40 * ulp := mul_le_mul_of_nonneg_right (by linarith) hu.le
    have h2 : (2 : ℝ) ^ 40 * ulp ≤ 1 / 16 := by rw [ulp_eq]; norm_num
    linarith
  have hLQ := loss_arith hu hc0 hcu (by rw [ulp_eq]; norm_num) hL2 hlZ qsq0 (two_pos _).le
  have hZ0 : 0 ≤ (s.cons.map l).sum := List.sum_nonneg fun y hy => by
    obtain ⟨k, hk, rfl⟩ := List.mem_map.1 hy
    exact hl2 k hk
  have hL0 : 0 ≤ Lr := by
    have h1 := (abs_le.1 hL2).1
    have h2 : 2 * (s.cons.length : ℝ) * ulp * (s.cons.map l).sum ≤ 1 * (s.cons.map l).sum := mul_le_mul_of_nonneg_right (by linarith) hZ0
    linarith
  have hkap : 0 ≤ kapOf N := by unfold kapOf; positivity
  have hsq1 : 1 ≤ Real.sqrt N := by rw [Real.one_le_sqrt]; exact hN1
  have heps : 8 * ulp ≤ epsOf N X := by
    unfold epsOf
    have : 1 ≤ Real.sqrt N * X := one_le_mul_of_one_le_of_one_le hsq1 hX
    nlinarith
  -- the gradient
  have hent : List.Forall₂ ExEntry (s.cons.flatMap (fun k => consEntries H (H.cons k))) (s.cons.flatMap L) :=
    forall₂_flatMap _ fun k hk => (hPL k hk).entries
  have hel : (s.cons.flatMap (fun k => consEntries H (H.cons k))).length ≤ 8 * s.cons.length :=
    length_flatMap_le _ _ 8 fun k _ => consEntries_length H _
  have hmass : ∀ d, massOf (s.cons.flatMap L) d ≤ 2 * ∑ i, |q i| := by
    intro d
    rw [massOf_flatMap, qabs, sum_flatMap', ← List.sum_map_mul_left]
    exact sum_le_map _ _ _ fun k hk => (hPL k hk).mass d
  have htot : ∀ d, total (s.cons.flatMap L) d = ((s.cons.flatMap P).map (fun p => p.2 * total p.1.1 d)).sum := by
    intro d
    rw [total_flatMap, sum_flatMap']
    congr 1
    exact List.map_congr_left fun k hk => (hPL k hk).tot d
  have hacc : ∀ d, ∃ v, (addUp d (0.0 : B64 lm) (s.cons.flatMap (fun k => consEntries H (H.cons k)))).Is v ∧
      |v - total (s.cons.flatMap L) d| ≤ 32 * s.cons.length * ulp * ∑ i, |q i| ∧ |v| ≤ 2 ^ (160 : ℤ) := by
    intro d
    have hb : massOf (s.cons.flatMap L) d ≤ 2 ^ (143 : ℤ) := by
      have : (2 : ℝ) ^ (142 : ℤ) + 2 ^ (142 : ℤ) = 2 ^ (143 : ℤ) := by rw [two_double]; norm_num
      linarith [hmass d]
    obtain ⟨v, h1, h2, h3⟩ := Acc.entries d hent (Acc.zero (lm := lm)) (by omega) (by
      rw [zero_add]
      exact hb.trans (two_le (by norm_num)))
    simp only [zero_add] at h2 h3
    have m0 : 0 ≤ massOf (s.cons.flatMap L) d := (abs_nonneg _).trans h3
    have hel' : ((s.cons.flatMap (fun k => consEntries H (H.cons k))).length : ℝ) ≤ 8 * s.cons.length := by exact_mod_cast hel
    have h4 : |v - total (s.cons.flatMap L) d| ≤ 16 * s.cons.length * ulp * massOf (s.cons.flatMap L) d := by
      refine h2.trans (mul_le_mul_of_nonneg_right ?_ m0)
      refine mul_le_mul_of_nonneg_right ?_ hu.le
      linarith
    refine ⟨v, h1, h4.trans ?_, ?_⟩
    · have h5 := mul_le_mul_of_nonneg_left (hmass d) (by positivity : (0 : ℝ) ≤ 16 * s.cons.length * ulp)
      linarith
    · have h5 := abs_add_le (v - total (s.cons.flatMap L) d) (total (s.cons.flatMap L) d)
      rw [sub_add_cancel] at h5
      have h6 : 16 * s.cons.length * ulp * massOf (s.cons.flatMap L) d ≤ 1 * massOf (s.cons.flatMap L) d :=
        mul_le_mul_of_nonneg_right (by linarith) m0
      have h7 : (2 : ℝ) ^ (143 : ℤ) + 2 ^ (143 : ℤ) = 2 ^ (144 : ℤ) := by rw [two_double]; norm_num
      have h8 : (2 : ℝ) ^ (144 : ℤ) ≤ 2 ^ (160 : ℤ) := two_le (by norm_num)
      linarith
  choose gd hg1 hg2 hg3 using hacc
  obtain ⟨H', hG⟩ := getGradient_entries H s (fun k hk e he => by
      obtain ⟨E, -, h2⟩ := forall₂_left (hPL k hk).entries e he
      exact h2.isFinite) (fun d _ => (hg1 d).isFinite)
  have hdl : s.dofs.length = getNDofs h.exact s := dofs_length h.exact s
  refine ⟨q, Lr, fun j => gd (s.dofs[j.1]'(by rw [hdl]; exact j.2)), _, H', by rw [hgl]; exact hL1, hG, ?_, ⟨?_, ?_, hL0, ?_⟩,
    qlen.trans (two_le (by norm_num)), fun i => hg3 _⟩
  · refine VIs.of_get (by rw [List.length_map, hdl]) fun i h1 h2 => ?_
    rw [List.getElem_map]
    exact hg1 _
  · have hxe : getData H.exact s = vec x := by rw [exact_getData, hx.exact]
    have hev := rows_eval hn (exact_closed hc) hl hxe
    have hb : ∀ i, |(q - (rowMat h.exact s *ᵥ x - rowRhs h.exact s)) i| ≤ 6 * ulp * X := by
      intro i
      rw [Pi.sub_apply, ← hev i, hq i, ← heqn i]
      exact (hres _ (List.getElem_mem _)).1
    refine (vlen_le_of_abs _ (by positivity) hb).trans ?_
    unfold epsOf
    have h1 : Real.sqrt (rows h.exact s).length * (6 * ulp * X) ≤ Real.sqrt N * (6 * ulp * X) := mul_le_mul_of_nonneg_right hsqm (by positivity)
    have h2 : 0 ≤ Real.sqrt N * ulp * X := by positivity
    linarith
  · refine sqrt_arith (Real.sqrt_nonneg _) q0 hkap (by linarith) ?_
    rw [Real.sq_sqrt (by linarith), vlen_sq]
    refine hLQ.trans ?_
    have h1 : (4 * (s.cons.length : ℝ) + 8) * ulp ≤ kapOf N := by
      unfold kapOf
      refine mul_le_mul_of_nonneg_right ?_ hu.le
      nlinarith
    have h2 := mul_le_mul_of_nonneg_right h1 qsq0
    have h3 : (8 * ulp) ^ 2 ≤ epsOf N X ^ 2 := pow_le_pow_left₀ (by positivity) heps 2
    have h4 : (2 : ℝ) ^ (-898 : ℤ) ≤ (8 * ulp) ^ 2 := by
      have : (8 * ulp) ^ 2 = 2 ^ (-100 : ℤ) := by rw [ulp_eq]; norm_num
      rw [this]; exact two_le (by norm_num)
    have h5 : 4 * (2 : ℝ) ^ (-900 : ℤ) = 2 ^ (-898 : ℤ) := by
      have : (4 : ℝ) = 2 ^ (2 : ℤ) := by norm_num
      rw [this, two_mul_two]; norm_num
    have h6 : 4 * (s.cons.length : ℝ) * 2 ^ (-960 : ℤ) ≤ epsOf N X ^ 2 := by
      calc 4 * (s.cons.length : ℝ) * 2 ^ (-960 : ℤ) = 4 * (s.cons.length * 2 ^ (-960 : ℤ)) := by ring
        _ ≤ 4 * 2 ^ (-900 : ℤ) := mul_le_mul_of_nonneg_left small960 (by norm_num)
        _ ≤ _ := by rw [h5]; exact h4.trans h3
    exact add_le_add h2 h6
  · have hb : ∀ j, |((fun j : Fin (getNDofs h.exact s) => gd (s.dofs[j.1]'(by rw [hdl]; exact j.2))) - (rowMat h.exact s)ᵀ *ᵥ q) j| ≤
        32 * s.cons.length * ulp * ∑ i, |q i| := by
      intro j
      have e : ((rowMat h.exact s)ᵀ *ᵥ q) j = total (s.cons.flatMap L) (s.dofs[j.1]'(by rw [hdl]; exact j.2)) := by
        rw [htot, hsum]
        simp only [mulVec, dotProduct]
        refine Finset.sum_congr rfl fun i _ => ?_
        rw [hq i, mul_comm, heqn i]
        rfl
      rw [Pi.sub_apply, e]
      exact hg2 _
    refine (vlen_le_of_abs _ (by positivity) hb).trans ?_
    have h1 : 32 * s.cons.length * ulp * ∑ i, |q i| ≤ 32 * s.cons.length * ulp * (Real.sqrt (rows h.exact s).length * vlen q) :=
      mul_le_mul_of_nonneg_left qabs_le (by positivity)
    have h2 := mul_le_mul_of_nonneg_left h1 (Real.sqrt_nonneg (getNDofs h.exact s))
    refine h2.trans ?_
    have h3 : Real.sqrt (getNDofs h.exact s) * Real.sqrt (rows h.exact s).length ≤ N / 2 := by
      rw [← Real.sqrt_mul hn0, Real.sqrt_le_left (by linarith)]
      nlinarith [sq_nonneg ((getNDofs h.exact s : ℝ) - (rows h.exact s).length)]
    have h4 : 32 * (s.cons.length : ℝ) * (Real.sqrt (getNDofs h.exact s) * Real.sqrt (rows h.exact s).length) ≤ 16 * N ^ 2 := by
      have h6 := mul_le_mul hcN h3 (by positivity) (by linarith)
      calc _ = 32 * ((s.cons.length : ℝ) * (Real.sqrt (getNDofs h.exact s) * Real.sqrt (rows h.exact s).length)) := by ring
        _ ≤ 32 * (N / 2 * (N / 2)) := mul_le_mul_of_nonneg_left h6 (by norm_num)
        _ = 8 * N ^ 2 := by ring
        _ ≤ 16 * N ^ 2 := mul_le_mul_of_nonneg_right (by norm_num) (sq_nonneg N)
    have h5 := mul_le_mul_of_nonneg_right h4 (mul_nonneg hu.le q0)
    unfold kapOf
    linarith

end Isotope
