import Verif.Lemmas.ExFix
import Verif.Lemmas.Bfgs

/-!
# Solver runs on the example sketch
-/

namespace Isotope
open XR

variable {x y a b : ℝ} (u v : ℝ)

theorem fix_lineSearch (hN : 1 ≤ (a - x) ^ 2 + (b - y) ^ 2) :
    lineSearch (fixHeap x y a b u v) fixSketch [fin (x - a), fin (y - b)] [fin (a - x), fin (b - y)] =
      (.ok (fin 1), fixHeap x y x y 0 0) := by
  have hm : dotV [fin (a - x), fin (b - y)] [fin (x - a), fin (y - b)] = fin (-((a - x) ^ 2 + (b - y) ^ 2)) := by
    simp [dotV_eq, dotL]; ring
  have h0 : dotV [fin 0, fin 0] [fin (x - a), fin (y - b)] = fin 0 := by simp [dotV_eq, dotL]
  have hd : vadd [fin a, fin b] (vscale (fin 1) [fin (x - a), fin (y - b)]) = [fin x, fin y] := by
    simp [vadd, vscale]
  unfold lineSearch
  simp only [hm, fix_data, fix_loss, zero_lit, one_lit]
  rw [if_neg (by simp [ge]; linarith)]
  unfold lsMaxIter lsLoop
  simp only [hd, fix_setData, fix_gradient, fix_loss, sub_self, h0]
  rw [if_pos, if_pos]
  · simp [ge, wolfeC2]; norm_num; linarith
  · simp [wolfeC1]; norm_num; linarith

theorem fix_gdSolve (k : Nat) (hN : 1 ≤ (a - x) ^ 2 + (b - y) ^ 2) :
    gdSolve ⟨k + 1, 1e-14, 1e-10⟩ (fixHeap x y a b u v) fixSketch =
      ⟨.ok, fixHeap x y x y 0 0,
        [⟨fixHeap x y a b (a - x) (b - y), fin 1, fixHeap x y x y 0 0, []⟩], 1, 0⟩ := by
  have hd : axpy [fin a, fin b] (fin 1) (vneg [fin (a - x), fin (b - y)]) = [fin x, fin y] := by
    simp only [axpy, vneg, one_lit, List.map_cons, List.map_nil, List.zipWith_cons_cons, List.zipWith_nil_left, neg_fin,
      mul_fin, add_fin, List.cons.injEq, fin.injEq, and_true]
    constructor <;> ring
  have hv : vneg [fin (a - x), fin (b - y)] = [fin (x - a), fin (y - b)] := by simp [vneg]
  have hg : normL [fin (a - x), fin (b - y)] = fin (Real.sqrt ((a - x) ^ 2 + (b - y) ^ 2)) := by
    have : dotV [fin (a - x), fin (b - y)] [fin (a - x), fin (b - y)] = fin ((a - x) ^ 2 + (b - y) ^ 2) := by
      simp [dotV_eq, dotL]; ring
    rw [normL, this, sqrt_fin_of_nonneg (by positivity)]
  have h1 : (1 : ℝ) ≤ Real.sqrt ((a - x) ^ 2 + (b - y) ^ 2) := Real.one_le_sqrt.2 hN
  unfold gdSolve
  rw [hv] at hd
  simp only [fix_gradient]
  unfold gdLoop
  simp only [fix_data, fix_loss]
  rw [if_neg, if_neg]
  · rw [hv, fix_lineSearch _ _ hN]
    simp only [fix_setData, fix_gradient, sub_self, hd]
    cases k with
    | zero => simp [gdLoop, SolveOut.cons]
    | succ k =>
      unfold gdLoop
      rw [if_pos]
      · simp [SolveOut.cons]
      · have : dotV [fin 0, fin 0] [fin 0, fin 0] = fin 0 := by simp [dotV_eq, dotL]
        rw [normL, this, sqrt_fin_of_nonneg le_rfl]
        simp
        norm_num
  · simp; norm_num; linarith
  · rw [hg]; simp; norm_num; linarith

theorem fmax_fin (a b : ℝ) : fmax (fin a) (fin b) = fin (max a b) := by
  have : (fin a ==. fin a) = true := by simp [Num.eq, XR.eq]
  simp only [fmax, lt_fin, this]
  by_cases h : a < b
  · simp [h, max_eq_right h.le]
  · simp [h, max_eq_left (not_lt.1 h)]

theorem uniformNorm_two (p q : ℝ) : uniformNorm [fin p, fin q] = fin (max |p| |q|) := by
  simp only [uniformNorm, List.foldl_cons, List.foldl_nil, abs_fin, zero_lit, fmax_fin]
  rw [max_eq_right (abs_nonneg p)]

theorem fix_bfgsSolve (k : Nat) (hN : 1 ≤ (a - x) ^ 2 + (b - y) ^ 2) (hm : 1 ≤ |a - x|) :
    ∃ M, bfgsSolve ⟨k + 1, 1e-16, 1e-8⟩ (fixHeap x y a b u v) fixSketch =
      ⟨.ok, fixHeap x y x y 0 0, [⟨fixHeap x y a b u v, fin 1, fixHeap x y x y 0 0, M⟩], 1, 0⟩ := by
  have hdir : matVec (matNeg (identity 2)) [fin (a - x), fin (b - y)] = [fin (x - a), fin (y - b)] := by
    have : [fin (a - x), fin (b - y)] = vec ![a - x, b - y] := by simp [vec]
    rw [this, identity_mat, matNeg_mat, matVec_mat, Matrix.neg_mulVec, Matrix.one_mulVec]
    simp [vec]
  have hd : vadd [fin a, fin b] (vscale (fin 1) [fin (x - a), fin (y - b)]) = [fin x, fin y] := by
    simp [vadd, vscale]
  have hu : (uniformNorm [fin (a - x), fin (b - y)] <. fin (1e-8)) = false := by
    rw [uniformNorm_two]
    simp only [lt_fin, decide_eq_false_iff_not, not_lt]
    exact le_trans (by norm_num) (le_trans hm (le_max_left _ _))
  unfold bfgsSolve
  simp only [fix_data, List.length_cons, List.length_nil]
  unfold bfgsLoop
  simp only [fix_gradient, fix_loss, hdir]
  rw [if_neg, if_neg, if_neg, if_neg]
  · rw [fix_lineSearch _ _ hN]
    simp only [fix_setData, fix_gradient, sub_self, hd]
    refine ⟨bfgsUpdate (identity 2) (vscale (fin 1) [fin (x - a), fin (y - b)])
      (vsub [fin 0, fin 0] [fin (a - x), fin (b - y)]), ?_⟩
    unfold bfgsLoop
    cases k with
    | zero => simp [SolveOut.cons]
    | succ k =>
      simp only [fix_loss, sub_self]
      rw [if_pos]
      · simp [SolveOut.cons]
      · simp; norm_num
  · simp
  · simp [hu]
  · simp
  · simp; norm_num; linarith

end Isotope
