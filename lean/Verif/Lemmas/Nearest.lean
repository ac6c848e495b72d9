import Verif.SpecNearest
import Verif.Lemmas.LeastSquares
import Verif.Props.LeastSquares

/-!
# Gradient descent and BFGS move a linear sketch only across its solutions
-/

namespace Isotope
open XR
open Matrix

section alg
variable {m n : Nat} {R : Matrix (Fin m) (Fin n) ℝ} {b : Fin m → ℝ}

/-- `v` is orthogonal to every direction along which the residual does not change -/
def Across (R : Matrix (Fin m) (Fin n) ℝ) (v : Fin n → ℝ) : Prop := ∀ u, R *ᵥ u = 0 → v ⬝ᵥ u = 0

theorem Across.zero : Across R 0 := fun u _ => zero_dotProduct u
theorem Across.add {v w : Fin n → ℝ} (hv : Across R v) (hw : Across R w) : Across R (v + w) := fun u hu => by
  rw [add_dotProduct, hv u hu, hw u hu, add_zero]
theorem Across.smul {v : Fin n → ℝ} (hv : Across R v) (a : ℝ) : Across R (a • v) := fun u hu => by
  rw [smul_dotProduct, hv u hu, smul_zero]
theorem Across.neg {v : Fin n → ℝ} (hv : Across R v) : Across R (-v) := fun u hu => by
  rw [neg_dotProduct, hv u hu, neg_zero]
theorem Across.sub {v w : Fin n → ℝ} (hv : Across R v) (hw : Across R w) : Across R (v - w) := by
  rw [sub_eq_add_neg]; exact hv.add hw.neg

theorem across_mulVec (y : Fin m → ℝ) : Across R (Rᵀ *ᵥ y) := fun u hu => by
  rw [dot_mulVec, hu, dotProduct_zero]

theorem across_quadGrad (x : Fin n → ℝ) : Across R (quadGrad R b x) := across_mulVec _

/-- the matrix of BFGS keeps the directions -/
theorem across_upd {A : Matrix (Fin n) (Fin n) ℝ} (hA : ∀ v, Across R v → Across R (A *ᵥ v)) {st y : Fin n → ℝ} (hs : Across R st)
    (hy : Across R y) (ρ : ℝ) (v : Fin n → ℝ) (hv : Across R v) : Across R (updR A st y ρ *ᵥ v) := by
  rw [upd_mulVec]
  exact (((hA v hv).add (hs.smul _)).add ((hA y hy).smul _)).add (hs.smul _)

/-- two positions with vanishing gradient have the same residual -/
theorem rest_sub {z z' : Fin n → ℝ} (h0 : quadGrad R b z = 0) (h1 : quadGrad R b z' = 0) : R *ᵥ (z - z') = 0 := by
  have k := quadGrad_add R b z' (z - z')
  rw [add_sub_cancel, h0, h1, zero_add] at k
  have k2 := dot_mulVec R (z - z') (R *ᵥ (z - z'))
  rw [← k, zero_dotProduct] at k2
  exact dotProduct_self_eq_zero.1 k2.symm

theorem distSq_dot (x z : Fin n → ℝ) : distSq x z = (x - z) ⬝ᵥ (x - z) := by
  simp only [distSq, dotProduct, Pi.sub_apply, pow_two]

theorem distSq_across {x q z z' : Fin n → ℝ} (hx : Across R (x - q)) (hz : R *ᵥ (z - z') = 0) :
    distSq x z - distSq x z' = distSq q z - distSq q z' := by
  have k := hx _ hz
  simp only [distSq_dot, sub_dotProduct, dotProduct_sub] at k ⊢
  rw [dotProduct_comm z x, dotProduct_comm z' x, dotProduct_comm z q, dotProduct_comm z' q]
  linarith

/-- the solution nearest to `q` -/
theorem exists_nearest (R : Matrix (Fin m) (Fin n) ℝ) (b : Fin m → ℝ) (q : Fin n → ℝ) :
    ∃ z, quadGrad R b z = 0 ∧ Across R (q - z) := by
  obtain ⟨x0, h0⟩ := exists_least R b
  obtain ⟨y, hy⟩ := exists_least Rᵀ (q - x0)
  unfold quadGrad at hy
  rw [transpose_transpose] at hy
  refine ⟨q - Rᵀ *ᵥ y, ?_, ?_⟩
  · have e : q - Rᵀ *ᵥ y = x0 + -(Rᵀ *ᵥ y - (q - x0)) := by abel
    rw [e, quadGrad_add, h0, mulVec_neg, hy, neg_zero, mulVec_zero, add_zero]
  · rw [sub_sub_cancel]
    exact across_mulVec y

/-- how far it is at most, by the loss -/
theorem Sized.distSq {mu M : ℝ} (w : Sized R mu M) (hmu : 0 ≤ mu) {x z : Fin n → ℝ} (h0 : quadGrad R b z = 0) (hx : Across R (x - z)) :
    mu * distSq x z ≤ 2 * (quad R b x - quad R b z) := by
  obtain ⟨e0, h1, h2⟩ := w.low (x - z)
  have k0 := hx (x - z - e0) (by rw [mulVec_sub, h1, sub_self])
  rw [dotProduct_sub, sub_eq_zero] at k0
  have k1 : (x - z) ⬝ᵥ (x - z) ≤ e0 ⬝ᵥ e0 := by
    have k := dot_self_nonneg (x - z - e0)
    have k2 : (x - z - e0) ⬝ᵥ (x - z - e0) = (x - z) ⬝ᵥ (x - z) - 2 * ((x - z) ⬝ᵥ e0) + e0 ⬝ᵥ e0 := by
      rw [sub_dotProduct, dotProduct_sub, dotProduct_sub _ _ e0, dotProduct_comm e0 (x - z)]
      ring
    rw [k2, ← k0] at k
    linarith
  have k3 := quad_add R b z (x - z)
  rw [add_sub_cancel, h0, zero_dotProduct, add_zero] at k3
  rw [distSq_dot, k3]
  have k4 := mul_le_mul_of_nonneg_left k1 hmu
  linarith

end alg

variable {h : Heap XR} {s : Sketch} {m : Nat} {R : Matrix (Fin m) (Fin (getNDofs h s)) ℝ} {b : Fin m → ℝ}

/-- a heap whose position differs from `q` only across the solutions -/
def Way (h : Heap XR) (s : Sketch) (R : Matrix (Fin m) (Fin (getNDofs h s)) ℝ) (q : Fin (getNDofs h s) → ℝ) (H : Heap XR) : Prop :=
  SameRefs h H ∧ ∃ x, getData H s = vec x ∧ Across R (x - q)

variable {q : Fin (getNDofs h s) → ℝ}

theorem Way.grad {H H' : Heap XR} (w : Way h s R q H) (g : GradOnly H H') : Way h s R q H' := by
  obtain ⟨r, x, ex, hx⟩ := w
  exact ⟨r.trans g.1, x, by rw [g.getData, ex], hx⟩

theorem LinAt.lsWay (l : LinAt h s R b) {x d : Fin (getNDofs h s) → ℝ} (hx : Across R (x - q)) (hd : Across R d) (loss mm : XR) (n : Nat)
    (a : ℝ) (H : Heap XR) (w : Way h s R q H) :
    Way h s R q (lsLoop s (vec d) (vec x) loss mm n (fin a) H).2 ∧
    ((lsLoop s (vec d) (vec x) loss mm n (fin a) H).1 = .searchFailed ∨
      ∃ a', (lsLoop s (vec d) (vec x) loss mm n (fin a) H).1 = .ok (fin a')) := by
  induction n generalizing a H with
  | zero => exact ⟨w, .inl rfl⟩
  | succ n ih =>
    have ev : vadd (vec x) (vscale (fin a) (vec d)) = vec (x + a • d) := by rw [vscale_vec, vadd_vec]
    obtain ⟨H1, e1, r1, ed⟩ := l.set w.1 (x + a • d)
    obtain ⟨el, H2, g2, e2⟩ := l.at r1 ed
    have w1 : Way h s R q H1 := ⟨r1, _, ed, by rw [add_sub_right_comm]; exact hx.add (hd.smul a)⟩
    have w2 := w1.grad g2
    unfold lsLoop
    rw [ev, e1]
    simp only [e2, half_lit, onehalf_lit, mul_fin]
    split
    · split
      · exact ⟨w2, .inr ⟨a, rfl⟩⟩
      · exact ih _ H2 w2
    · exact ih _ H1 w1

theorem LinAt.searchWay (l : LinAt h s R b) {d : Fin (getNDofs h s) → ℝ} (hd : Across R d) (g : List XR) (H : Heap XR) (w : Way h s R q H) :
    Way h s R q (lineSearch H s (vec d) g).2 ∧
    ((lineSearch H s (vec d) g).1 = .notDescent ∨ (lineSearch H s (vec d) g).1 = .searchFailed ∨
      ∃ a, (lineSearch H s (vec d) g).1 = .ok (fin a)) := by
  unfold lineSearch
  dsimp only
  split
  · exact ⟨w, .inl rfl⟩
  · obtain ⟨r, x, ex, hx⟩ := w
    rw [ex, one_lit]
    obtain ⟨k1, k2⟩ := l.lsWay hx hd (getLoss H s) (dotV g (vec d)) lsMaxIter 1 H ⟨r, x, ex, hx⟩
    exact ⟨k1, .inr k2⟩

/-- the result of a run that stays on the way and does not panic -/
def OnWay (h : Heap XR) (s : Sketch) (R : Matrix (Fin m) (Fin (getNDofs h s)) ℝ) (q : Fin (getNDofs h s) → ℝ) (o : SolveOut XR) : Prop :=
  o.res ≠ .panic ∧ Way h s R q o.heap ∧ ∀ r ∈ o.steps, Way h s R q r.post

theorem LinAt.gdWay (l : LinAt h s R b) (p : GDParams XR) (n : Nat) (H : Heap XR) (w : Way h s R q H) {g : Fin (getNDofs h s) → ℝ}
    (hg : Across R g) (gn loss : XR) : OnWay h s R q (Isotope.gdLoop p s n H (vec g) gn loss) := by
  induction n generalizing H g gn loss with
  | zero => exact ⟨by simp [Isotope.gdLoop], w, by simp [Isotope.gdLoop]⟩
  | succ n ih =>
    rw [Isotope.gdLoop]
    split
    · exact ⟨by simp, w, by simp⟩
    split
    · exact ⟨by simp, w, by simp⟩
    dsimp only
    obtain ⟨k1, k2⟩ := l.searchWay (d := -g) hg.neg (vec g) H w
    rw [vneg_vec]
    generalize lineSearch H s (vec (-g)) (vec g) = o at k1 k2 ⊢
    obtain ⟨o1, H1⟩ := o
    dsimp only at k1 k2
    rcases k2 with rfl | rfl | ⟨a, rfl⟩
    · exact ⟨by simp, k1, by simp⟩
    · exact ⟨by simp, k1, by simp⟩
    · obtain ⟨r, x, ex, hx⟩ := w
      dsimp only
      rw [ex, axpy_vec]
      obtain ⟨H2, e2, r2, ed⟩ := l.set k1.1 (x + a • -g)
      obtain ⟨-, H3, g3, e3⟩ := l.at r2 ed
      simp only [e2, e3]
      have w2 : Way h s R q H2 := ⟨r2, _, ed, by rw [add_sub_right_comm]; exact hx.add (hg.neg.smul a)⟩
      have w3 := w2.grad g3
      obtain ⟨i1, i2, i3⟩ := ih H3 w3 (across_quadGrad (b := b) (x + a • -g)) (normL (vec (quadGrad R b (x + a • -g)))) (getLoss H2 s)
      refine ⟨i1, i2, fun rr hr => ?_⟩
      rcases List.mem_cons.1 hr with rfl | hr
      · exact w3
      · exact i3 rr hr

theorem LinAt.bfgsWay (l : LinAt h s R b) (p : BFGSParams XR) (n : Nat) (reset : Bool)
    (A : Matrix (Fin (getNDofs h s)) (Fin (getNDofs h s)) ℝ) (hA : ∀ v, Across R v → Across R (A *ᵥ v)) (x : Fin (getNDofs h s) → ℝ)
    (hx : Across R (x - q)) (H : Heap XR) (w : Way h s R q H) :
    OnWay h s R q (Isotope.bfgsLoop p s (getNDofs h s) n reset (mat A) (vec x) H) := by
  have step : ∀ (n : Nat) (reset : Bool) (A : Matrix (Fin (getNDofs h s)) (Fin (getNDofs h s)) ℝ) (_ : ∀ v, Across R v → Across R (A *ᵥ v))
      (x : Fin (getNDofs h s) → ℝ) (_ : Across R (x - q)) (H : Heap XR) (_ : Way h s R q H)
      (_ : ∀ (A : Matrix (Fin (getNDofs h s)) (Fin (getNDofs h s)) ℝ) (_ : ∀ v, Across R v → Across R (A *ᵥ v))
        (x : Fin (getNDofs h s) → ℝ) (_ : Across R (x - q)) (H : Heap XR) (_ : Way h s R q H),
        OnWay h s R q (Isotope.bfgsLoop p s (getNDofs h s) n false (mat A) (vec x) H))
      (_ : reset = false → ∀ H, Way h s R q H →
        OnWay h s R q (Isotope.bfgsLoop p s (getNDofs h s) (n + 1) true (identity (getNDofs h s)) (vec x) H)),
      OnWay h s R q (Isotope.bfgsLoop p s (getNDofs h s) (n + 1) reset (mat A) (vec x) H) := by
    intro n reset A hA x hx H w ih ihr
    obtain ⟨r, x', ex, hx'⟩ := w
    obtain ⟨-, H1, g1, e1⟩ := l.at r ex
    have w : Way h s R q H := ⟨r, x', ex, hx'⟩
    have w1 := w.grad g1
    rw [Isotope.bfgsLoop]
    split
    · exact ⟨by simp, w, by simp⟩
    rw [e1]
    dsimp only
    rw [if_neg (by simp [vec])]
    split
    · exact ⟨by simp, w1, by simp⟩
    rw [matNeg_mat, matVec_mat, neg_mulVec, if_neg (by simp [vec])]
    have hd : Across R (-(A *ᵥ quadGrad R b x')) := (hA _ (across_quadGrad _)).neg
    obtain ⟨k1, k2⟩ := l.searchWay hd (vec (quadGrad R b x')) H1 w1
    generalize lineSearch H1 s (vec (-(A *ᵥ quadGrad R b x'))) (vec (quadGrad R b x')) = o at k1 k2 ⊢
    obtain ⟨o1, H2⟩ := o
    dsimp only at k1 k2
    rcases k2 with rfl | rfl | ⟨a, rfl⟩
    · exact ⟨by simp, k1, by simp⟩
    · cases reset with
      | true => exact ⟨by simp, k1, by simp⟩
      | false => exact ihr rfl H2 k1
    · dsimp only
      rw [vscale_vec, vadd_vec]
      obtain ⟨H3, e3, r3, ed⟩ := l.set k1.1 (x + a • -(A *ᵥ quadGrad R b x'))
      obtain ⟨-, H4, g4, e4⟩ := l.at r3 ed
      simp only [e3, e4]
      rw [vsub_vec, bfgsUpdate_mat]
      have hn : Across R (x + a • -(A *ᵥ quadGrad R b x') - q) := by
        rw [add_sub_right_comm]; exact hx.add (hd.smul a)
      have w3 : Way h s R q H3 := ⟨r3, _, ed, hn⟩
      have w4 := w3.grad g4
      obtain ⟨i1, i2, i3⟩ := ih _ (across_upd hA (hd.smul a) ((across_quadGrad (b := b) _).sub (across_quadGrad (b := b) _)) _) _ hn H4 w4
      refine ⟨i1, i2, fun rr hr => ?_⟩
      rcases List.mem_cons.1 hr with rfl | hr
      · exact w4
      · exact i3 rr hr
  induction n generalizing reset A x H with
  | zero => rw [Isotope.bfgsLoop]; exact ⟨by simp, w, by simp⟩
  | succ n ih =>
    refine step n reset A hA x hx H w (fun A hA x hx H w => ih false A hA x hx H w) fun _ H w => ?_
    rw [identity_mat]
    refine step n true 1 (fun v hv => by rwa [one_mulVec]) x hx H w (fun A hA x hx H w => ih false A hA x hx H w) fun hh => by cases hh

end Isotope
