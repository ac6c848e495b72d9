import Verif.SpecPart
import Verif.Lemmas.ReorderCut
import Verif.Lemmas.Diff
import Verif.Lemmas.Check
import Verif.Lemmas.Serde
import Verif.Props.StopExact

/-!
# A part of a sketch under Gauss-Newton and Levenberg-Marquardt
-/

namespace Isotope
open XR
open Matrix

section lin

/-- a sum over a list with irrelevant entries left out -/
theorem sum_part {cs cs1 rest : List Nat} (p : cs.Perm (cs1 ++ rest)) (f : Nat → ℝ) (h0 : ∀ k ∈ rest, f k = 0) :
    ∑ i : Fin cs.length, f cs[i] = ∑ i : Fin cs1.length, f cs1[i] := by
  have key : ∀ l : List Nat, ∑ i : Fin l.length, f l[i] = (l.map f).sum := fun l => by
    rw [← List.sum_ofFn]
    congr 1
    refine List.ext_getElem (by simp) fun i h1 h2 => by simp
  rw [key, key, (p.map f).sum_eq, List.map_append, List.sum_append]
  have : (rest.map f).sum = 0 := List.sum_eq_zero (by
    intro x hx; obtain ⟨k, hk, rfl⟩ := List.mem_map.1 hx; exact h0 k hk)
  rw [this, add_zero]

variable {cs cs1 rest : List Nat} {L L1 : List Dof} {n n1 : Nat}

theorem part_pinv {A P : Matrix (Fin n) (Fin n) ℝ} {A1 P1 : Matrix (Fin n1) (Fin n1) ℝ} (ι : Fin n1 → Fin n) (hA : Aᵀ = A)
    (hc : ∀ x, (A *ᵥ x) ∘ ι = A1 *ᵥ (x ∘ ι)) (f : ℝ → ℝ)
    (hP : ∀ (x : Fin n → ℝ) (w : ℝ), A *ᵥ x = w • x → P *ᵥ x = f w • x)
    (hP1 : ∀ (x : Fin n1 → ℝ) (w : ℝ), A1 *ᵥ x = w • x → P1 *ᵥ x = f w • x) (x : Fin n → ℝ) :
    (P *ᵥ x) ∘ ι = P1 *ᵥ (x ∘ ι) := by
  obtain ⟨b, w, hb⟩ := exists_eigenbasis hA
  let R : (Fin n → ℝ) →ₗ[ℝ] (Fin n1 → ℝ) := LinearMap.funLeft ℝ ℝ ι
  have : R ∘ₗ Matrix.toLin' P = Matrix.toLin' P1 ∘ₗ R := b.ext fun i => by
    have e1 : A1 *ᵥ (b i ∘ ι) = w i • (b i ∘ ι) := by rw [← hc, hb]; rfl
    show (P *ᵥ b i) ∘ ι = P1 *ᵥ (b i ∘ ι)
    rw [hP _ _ (hb i), hP1 _ _ e1]; rfl
  exact LinearMap.congr_fun this x

/-- the index of each coordinate of the part -/
theorem exists_index (hn1 : L1.Nodup) (hl : L.length = n) (hl1 : L1.length = n1) (hs : ∀ d ∈ L1, d ∈ L) :
    ∃ ι : Fin n1 → Fin n, Function.Injective ι ∧ ∀ j : Fin n1, L[(ι j).1]'(by rw [hl]; exact (ι j).2) = L1[j.1]'(by rw [hl1]; exact j.2) := by
  subst hl hl1
  have ex : ∀ i : Fin L1.length, ∃ j : Fin L.length, L[j] = L1[i] := fun i => by
    obtain ⟨j, hj, e⟩ := List.getElem_of_mem (hs _ (List.getElem_mem i.2))
    exact ⟨⟨j, hj⟩, e⟩
  choose f hf using ex
  refine ⟨f, fun i i' e => ?_, hf⟩
  have : L1[i] = L1[i'] := by rw [← hf i, ← hf i', e]
  exact Fin.ext (hn1.getElem_inj_iff.1 this)

variable (ρ : Nat → Dof → ℝ) {J : Matrix (Fin cs.length) (Fin n) ℝ} {J1 : Matrix (Fin cs1.length) (Fin n1) ℝ} {ι : Fin n1 → Fin n}
  (hl : L.length = n) (hl1 : L1.length = n1)
  (hι : ∀ j : Fin n1, L[(ι j).1]'(by rw [hl]; exact (ι j).2) = L1[j.1]'(by rw [hl1]; exact j.2))
  (hJ : ∀ i j, J i j = ρ cs[i] (L[j.1]'(by rw [hl]; exact j.2))) (hJ1 : ∀ i j, J1 i j = ρ cs1[i] (L1[j.1]'(by rw [hl1]; exact j.2)))
  (p : cs.Perm (cs1 ++ rest)) (h2 : ∀ k ∈ rest, ∀ d ∈ L1, ρ k d = 0)

include hι hJ hJ1 p h2 in
theorem part_transpose (y : Nat → ℝ) : (Jᵀ *ᵥ fun i => y cs[i]) ∘ ι = J1ᵀ *ᵥ fun i => y cs1[i] := by
  funext j
  have := sum_part p (fun k => ρ k (L1[j.1]'(by rw [hl1]; exact j.2)) * y k) fun k hk => by
    rw [h2 k hk _ (List.getElem_mem _), zero_mul]
  simp only [Function.comp, mulVec, dotProduct, transpose_apply, hJ, hJ1, hι] at this ⊢
  exact this

include hι hJ hJ1 p h2 in
theorem part_gram (hi : Function.Injective ι) (hn : L.Nodup) (h1 : ∀ k ∈ cs1, ∀ d, d ∉ L1 → ρ k d = 0) (x : Fin n → ℝ) :
    ((Jᵀ * J) *ᵥ x) ∘ ι = (J1ᵀ * J1) *ᵥ (x ∘ ι) := by
  rw [← mulVec_mulVec, ← mulVec_mulVec]
  have e : J *ᵥ x = fun i => (fun k => ∑ j : Fin n, ρ k (L[j.1]'(by rw [hl]; exact j.2)) * x j) cs[i] := by
    funext i; simp only [mulVec, dotProduct, hJ]
  have e1 : J1 *ᵥ (x ∘ ι) = fun i => (fun k => ∑ j : Fin n, ρ k (L[j.1]'(by rw [hl]; exact j.2)) * x j) cs1[i] := by
    funext i
    simp only [mulVec, dotProduct, hJ1, Function.comp]
    refine Fintype.sum_of_injective ι hi _ _ (fun j hj => ?_) (fun j => by rw [hι])
    rw [h1 cs1[i] (List.getElem_mem i.2), zero_mul]
    intro hm
    obtain ⟨a, ha, e⟩ := List.getElem_of_mem hm
    refine hj ⟨⟨a, by rw [← hl1]; exact ha⟩, ?_⟩
    have q := hι ⟨a, by rw [← hl1]; exact ha⟩
    rw [e] at q
    exact Fin.ext (hn.getElem_inj_iff.1 q)
  rw [e, e1]
  exact part_transpose ρ hl hl1 hι hJ hJ1 p h2 fun k => ∑ j : Fin n, ρ k (L[j.1]'(by rw [hl]; exact j.2)) * x j

end lin

section
variable {h : Heap XR} {s u : Sketch}

theorem SameData.val {h1 h2 : Heap XR} (g : SameData s h1 h2) {d : Dof} (hd : d ∈ s.dofs) : val h2 d = val h1 d := by
  have := g _ (mem_sketch_dofs.1 hd)
  rw [primData_dofs, primData_dofs] at this
  exact (List.map_inj_left.1 this) d (mem_dofs_owner d)

theorem SameData.of_val {h1 h2 : Heap XR} (g : ∀ d ∈ s.dofs, Isotope.val h2 d = Isotope.val h1 d) : SameData s h1 h2 := fun c hc => by
  rw [primData_dofs, primData_dofs]
  refine List.map_congr_left fun d hd => g d (mem_sketch_dofs.2 ?_)
  rwa [dofs_owner (mem_dofs_owner d) hd]

theorem Closed.deps (hc : Closed ⟨h, s⟩) {k : Nat} (hk : k ∈ s.cons) {c : PrimCell} (h1 : c ∈ consDeps h (h.cons k)) : c ∈ s.cells := by
  unfold consDeps at h1
  rcases List.mem_append.1 h1 with hp | hp
  · exact hc.2 k hk c hp
  · obtain ⟨x, hx, hp⟩ := List.mem_flatMap.1 hp
    exact hc.1 x (hc.2 k hk x hx) c hp

theorem SameData.depEq {h1 h2 : Heap XR} (g : SameData s h1 h2) (r : SameRefs h1 h2) (hc : Closed ⟨h1, s⟩) {k : Nat} (hk : k ∈ s.cons) :
    DepEq h1 h2 (h1.cons k) := ⟨r, fun _ hp => g _ (hc.deps hk hp)⟩

theorem DepEq.degenerate {h1 h2 : Heap XR} {c : Constraint XR} (g : DepEq h1 h2 c) (f1 : FiniteCons h1 c) (f2 : FiniteCons h2 c) :
    DegenerateEqLen h2 c → DegenerateEqLen h1 c := by
  intro hd
  by_contra hh
  obtain ⟨k, hk, e⟩ := f2.real.chunks_finite.2 hd
  rw [g.all.2.1] at hk
  rw [f1.real.chunks_finite.1 hh k hk] at e
  cases e

theorem total_owner {c : Constraint XR} {d : Dof} (hd : d.owner ∉ consDeps h c) : total (contribs h c) d = 0 := by
  have : ∀ l : List (Dof × ℝ), (∀ e ∈ l, e.1 ≠ d) → total l d = 0 := by
    intro l
    induction l with
    | nil => intro _; rfl
    | cons e l ih =>
      intro hh
      rw [total_cons, if_neg (hh e (by simp)), zero_add]
      exact ih fun e' he' => hh e' (by simp [he'])
  refine this _ fun e he q => hd ?_
  rw [← q]
  exact contribs_owner e he

theorem getJacobian_ok_iff {h1 : Heap XR} (hc : Closed ⟨h1, s⟩) (hf : FiniteSketch h1 s) :
    (∃ q, getJacobian h1 s = .ok q) ↔ ∀ k ∈ s.cons, ¬DegenerateEqLen h1 (h1.cons k) := by
  obtain ⟨A, B⟩ := jacobianRows_exact h1 s s.cons h1 (.refl h1) (hf.cons hc)
  constructor
  · rintro ⟨q, e⟩ k hk hd
    obtain ⟨h', e'⟩ := B ⟨k, hk, hd⟩
    unfold getJacobian at e
    rw [e'] at e; cases e
  · intro hk
    obtain ⟨h', -, e'⟩ := A hk
    exact ⟨_, e'⟩

/-- an iteration whose Jacobian and pseudo-inverse are known, with the coordinates it leaves -/
theorem newtonLoop_round {h1 h2 : Heap XR} (hn : s.cells.Nodup) (hf : FiniteSketch h1 s)
    {pinv : PInv XR} {ml eps ls : XR} {σ : ℝ} {nrm : Nat → List (List XR) → List (List XR)}
    {J : Matrix (Fin s.cons.length) (Fin (getNDofs h s)) ℝ} {P : Matrix (Fin (getNDofs h s)) (Fin (getNDofs h s)) ℝ}
    {x : Fin (getNDofs h s) → ℝ} {l : Fin s.cons.length → ℝ} (k : Nat) (hls : gt ls ml = true)
    (ej : getJacobian h1 s = .ok (mat J, h2)) (ep : pinv (nrm (getNDofs h s) (mat J)) eps = .ok (mat P))
    (ex : getData h1 s = vec x) (el : getLossPerConstraint h1 s = vec l) :
    ∃ h3, newtonLoop pinv ml (fin σ) eps nrm s (k + 1) ls h1 =
      { newtonLoop pinv ml (fin σ) eps nrm s k (sumL (vec l)) h3 with
        steps := ⟨h1, fin σ, h3, []⟩ :: (newtonLoop pinv ml (fin σ) eps nrm s k (sumL (vec l)) h3).steps } ∧
      SameRefs h1 h3 ∧ FiniteSketch h3 s ∧ getData h3 s = vec (x - σ • (P *ᵥ (Jᵀ *ᵥ l))) := by
  have hl : (getData h1 s).length = getNDofs h s := (getData_length h1 s).trans (getNDofs_congr h h1 s)
  have g2 : GradOnly h1 h2 := by have := getJacobian_gradOnly h1 s; rwa [ej] at this
  rw [newtonLoop, if_pos hls, ej]
  dsimp only
  rw [hl, ep]
  dsimp only
  have eu : (matVec (matMul (mat J).length (mat P) (transpose (getNDofs h s) (mat J)))
      (getLossPerConstraint h1 s)).map (· * fin σ) = vec (σ • (P *ᵥ (Jᵀ *ᵥ l))) := by
    have : (mat J).length = s.cons.length := by simp [mat]
    rw [this, transpose_mat, matMul_mat, el, matVec_mat, mulVec_mulVec]
    unfold vec
    rw [List.map_ofFn]
    congr 1; funext i
    simp only [Function.comp, mul_fin, Pi.smul_apply, smul_eq_mul, mul_comm]
  rw [eu, ex, vsub_vec]
  have hok := (C14_ok_iff h2 s hn (vec (x - σ • (P *ᵥ (Jᵀ *ᵥ l))))).2 ⟨by
      rw [length_vec]; exact (getNDofs_congr h2 h s), by
      intro y hy; obtain ⟨i, rfl⟩ := List.mem_ofFn.1 hy; rfl⟩
  obtain ⟨h3, e3⟩ := hok
  rw [e3, el]
  have d3 := C12_roundtrip h2 h3 s _ hn e3
  have r3 : SameRefs h2 h3 := by have := (C14_frame h2 s (vec (x - σ • (P *ᵥ (Jᵀ *ᵥ l))))).1; rwa [e3] at this
  refine ⟨h3, rfl, g2.1.trans r3, ⟨?_, ?_⟩, d3⟩
  · rw [d3]; intro y hy; obtain ⟨i, rfl⟩ := List.mem_ofFn.1 hy; rfl
  · intro k hk; rw [(g2.1.trans r3).cons]; exact hf.2 k hk

/-- the loss vector, entry by entry -/
theorem losses_real {h1 : Heap XR} (hc : Closed ⟨h1, s⟩) (hf : FiniteSketch h1 s) :
    getLossPerConstraint h1 s = vec fun i : Fin s.cons.length => (lossValue h1 (h1.cons s.cons[i])).toReal := by
  unfold getLossPerConstraint vec
  refine List.ext_getElem (by simp) fun i a1 a2 => ?_
  rw [List.getElem_map, List.getElem_ofFn]
  have hi : i < s.cons.length := by simpa using a1
  obtain ⟨r, -, hr⟩ := (hf.cons hc _ (List.getElem_mem hi)).real.loss
  exact hr.trans (by show _ = fin (lossValue h1 (h1.cons s.cons[i])).toReal; rw [hr]; rfl)

theorem data_real {h1 : Heap XR} (hf : FiniteSketch h1 s) :
    getData h1 s = vec fun j : Fin (getNDofs h s) => (val h1 (s.dofs[j.1]'(by rw [dofs_length h]; exact j.2))).toReal := by
  rw [getData_dofs]
  unfold vec
  refine List.ext_getElem (by simp [dofs_length h]) fun i a1 a2 => ?_
  rw [List.getElem_map, List.getElem_ofFn]
  exact val_real hf (List.getElem_mem (by simpa using a1))

theorem val_data {h1 : Heap XR} {v : Fin (getNDofs h s) → ℝ} (e : getData h1 s = vec v) (j : Fin (getNDofs h s)) :
    val h1 (s.dofs[j.1]'(by rw [dofs_length h]; exact j.2)) = fin (v j) := by
  rw [getData_dofs] at e
  have hj : j.1 < s.dofs.length := by rw [dofs_length h]; exact j.2
  have := congrArg (fun l => l[j.1]?) e
  simp only [vec, List.getElem?_map, List.getElem?_eq_getElem hj, Option.map_some, List.getElem?_ofFn, j.2, dif_pos, Option.some.injEq] at this
  exact this

theorem gt_mono {a b : ℝ} (hab : a ≤ b) {m : XR} (e : gt (fin a) m = true) : gt (fin b) m = true := by
  cases m with
  | fin c => simp only [gt, lt_fin, decide_eq_true_eq] at e ⊢; linarith
  | pinf => exact e
  | ninf => exact e
  | nan => exact e

variable {pinv : PInv XR} {β ε σ : ℝ} {ml : XR} {nrm : Nat → List (List XR) → List (List XR)}

/-- one iteration on the whole sketch and one on the part, from states that agree on the part -/
theorem part_round (hp : CutPInv pinv) (h0 : 0 ≤ ε) (h0' : 0 ≤ β)
    (hnrm : ∀ (n m : Nat) (J : Matrix (Fin m) (Fin n) ℝ), nrm n (mat J) = mat (Jᵀ * J + β • 1))
    (hnu : u.cells.Nodup) (hns : s.cells.Nodup) (hcu : Closed ⟨h, u⟩) (hcs : Closed ⟨h, s⟩) (part : s.PartOf h u) (hpos : 0 < getNDofs h s)
    {h1 h2 : Heap XR} (r1 : SameRefs h h1) (r2 : SameRefs h h2) (f1 : FiniteSketch h1 u) (f2 : FiniteSketch h2 s) (g : SameData s h1 h2)
    (hj : ∃ q, getJacobian h1 u = .ok q) :
    ∃ a b : ℝ, b ≤ a ∧ ∀ k ls1, gt ls1 ml = true →
      ∃ h3, newtonLoop pinv ml (fin σ) (fin ε) nrm u (k + 1) ls1 h1 =
        { newtonLoop pinv ml (fin σ) (fin ε) nrm u k (fin a) h3 with
          steps := ⟨h1, fin σ, h3, []⟩ :: (newtonLoop pinv ml (fin σ) (fin ε) nrm u k (fin a) h3).steps } ∧
        SameRefs h h3 ∧ FiniteSketch h3 u ∧ ∀ ls2, gt ls2 ml = true →
        ∃ h4, newtonLoop pinv ml (fin σ) (fin ε) nrm s (k + 1) ls2 h2 =
          { newtonLoop pinv ml (fin σ) (fin ε) nrm s k (fin b) h4 with
            steps := ⟨h2, fin σ, h4, []⟩ :: (newtonLoop pinv ml (fin σ) (fin ε) nrm s k (fin b) h4).steps } ∧
          SameRefs h h4 ∧ FiniteSketch h4 s ∧ SameData s h3 h4 := by
  obtain ⟨rest, pm, hrest⟩ := part.cons
  have hsub : ∀ k ∈ s.cons, k ∈ u.cons := fun k hk => pm.mem_iff.2 (List.mem_append_left _ hk)
  have c1 := hcu.sameRefs r1
  have c1s := hcs.sameRefs r1
  have c2 := hcs.sameRefs r2
  have r12 : SameRefs h1 h2 := r1.symm.trans r2
  have hde : ∀ k ∈ s.cons, DepEq h1 h2 (h1.cons k) := fun k hk => g.depEq r12 c1s hk
  have hcons : h2.cons = h1.cons := r12.cons
  have hdofs : ∀ d ∈ s.dofs, d ∈ u.dofs := fun d hd => mem_sketch_dofs.2 (part.cells _ (mem_sketch_dofs.1 hd))
  have hposu : 0 < getNDofs h u := by
    rw [← dofs_length] at hpos ⊢
    obtain ⟨d, hd⟩ := List.exists_mem_of_length_pos hpos
    exact List.length_pos_of_mem (hdofs d hd)
  -- the two Jacobians
  have nd1 := (getJacobian_ok_iff c1 f1).1 hj
  obtain ⟨⟨jac, g1⟩, ej⟩ := hj
  have nd2 : ∀ k ∈ s.cons, ¬DegenerateEqLen h2 (h2.cons k) := fun k hk hd => by
    have q1 := f1.cons c1 k (hsub k hk)
    have q2 := f2.cons c2 k hk
    rw [hcons] at hd q2
    exact nd1 k (hsub k hk) ((hde k hk).degenerate q1 q2 hd)
  obtain ⟨⟨jac2, g2⟩, ej2⟩ := (getJacobian_ok_iff c2 f2).2 nd2
  have hJ := getJacobian_mat c1 f1 ej
  have hJ2 := getJacobian_mat c2 f2 ej2
  rw [getNDofs_congr h h1 u] at hJ
  rw [getNDofs_congr h h2 s] at hJ2
  obtain ⟨J, rfl⟩ := hJ
  obtain ⟨J1, rfl⟩ := hJ2
  have eJ := getJacobian_entries (h := h) c1 f1 ej
  have eJ1 := getJacobian_entries (h := h) c2 f2 ej2
  -- where the coordinates of the part are
  obtain ⟨ι, hi, hι⟩ := exists_index (L := u.dofs) (L1 := s.dofs) (Sketch.dofs_nodup hns) (dofs_length h u) (dofs_length h s) hdofs
  have eJ1' : ∀ i j, J1 i j = total (contribs h1 (h1.cons s.cons[i])) (s.dofs[j.1]'(by rw [dofs_length h]; exact j.2)) := fun i j => by
    rw [eJ1, hcons]
    exact congrFun (congrArg total ((hde _ (List.getElem_mem i.2)).contribs)) _
  have z1 : ∀ k ∈ rest, ∀ d ∈ s.dofs, total (contribs h1 (h1.cons k)) d = 0 := fun k hk d hd => total_owner fun hm => by
    have e : consDeps h1 (h1.cons k) = consDeps h (h.cons k) := by rw [r1.cons]; exact consDeps_sameRefs r1 _
    rw [e] at hm
    exact hrest k hk _ hm (mem_sketch_dofs.1 hd)
  have z2 : ∀ k ∈ s.cons, ∀ d, d ∉ s.dofs → total (contribs h1 (h1.cons k)) d = 0 := fun k hk d hd => total_owner fun hm =>
    hd (mem_sketch_dofs.2 (c1s.deps hk hm))
  have gram := part_gram (fun k d => total (contribs h1 (h1.cons k)) d) (dofs_length h u) (dofs_length h s) hι eJ eJ1' pm z1 hi
    (Sketch.dofs_nodup hnu) z2
  have tr := part_transpose (fun k d => total (contribs h1 (h1.cons k)) d) (dofs_length h u) (dofs_length h s) hι eJ eJ1' pm z1
    fun k => (lossValue h1 (h1.cons k)).toReal
  -- the pseudo-inverses
  have psd : ∀ {m n : Nat} (J : Matrix (Fin m) (Fin n) ℝ) (x : Fin n → ℝ), 0 ≤ x ⬝ᵥ ((Jᵀ * J + β • (1 : Matrix (Fin n) (Fin n) ℝ)) *ᵥ x) := fun J x => by
    rw [Matrix.add_mulVec, dotProduct_add, gram_form, Matrix.smul_mulVec, Matrix.one_mulVec, dotProduct_smul, smul_eq_mul]
    have := dot_self_nonneg (J *ᵥ x)
    have := mul_nonneg h0' (dot_self_nonneg x)
    linarith
  obtain ⟨P, eP, hP⟩ := hp _ _ ε hposu (lm_symm J β) (psd J) h0
  obtain ⟨P1, eP1, hP1⟩ := hp _ _ ε hpos (lm_symm J1 β) (psd J1) h0
  have comm := part_pinv (A1 := J1ᵀ * J1 + β • 1) ι (lm_symm J β) (fun x => by
    rw [Matrix.add_mulVec, Matrix.add_mulVec, ← gram, Matrix.smul_mulVec, Matrix.smul_mulVec, Matrix.one_mulVec, Matrix.one_mulVec]
    rfl) (fun w => if ε < w then w⁻¹ else 0) hP hP1
  have l1 := losses_real c1 f1
  have l2 : getLossPerConstraint h2 s = vec fun i : Fin s.cons.length => (lossValue h1 (h1.cons s.cons[i])).toReal := by
    rw [losses_real c2 f2]
    congr 1; funext i
    rw [hcons]
    exact congrArg XR.toReal (hde _ (List.getElem_mem i.2)).all.1
  have d1 := data_real (h := h) f1
  have d2 := data_real (h := h) f2
  rw [← hnrm] at eP eP1
  refine ⟨∑ i : Fin u.cons.length, (lossValue h1 (h1.cons u.cons[i])).toReal,
    ∑ i : Fin s.cons.length, (lossValue h1 (h1.cons s.cons[i])).toReal, ?_, fun k ls1 hg1 => ?_⟩
  · have key : ∀ l : List Nat, ∑ i : Fin l.length, (lossValue h1 (h1.cons l[i])).toReal = (l.map fun k => (lossValue h1 (h1.cons k)).toReal).sum := fun l => by
      rw [← List.sum_ofFn]
      congr 1
      exact List.ext_getElem (by simp) fun i h1 h2 => by simp
    rw [key, key, (pm.map _).sum_eq, List.map_append, List.sum_append, le_add_iff_nonneg_right]
    refine List.sum_nonneg fun x hx => ?_
    obtain ⟨k, hk, rfl⟩ := List.mem_map.1 hx
    obtain ⟨r, hr0, hr⟩ := (f1.cons c1 k (pm.mem_iff.2 (List.mem_append_right _ hk))).real.loss
    rw [hr]; exact hr0
  · obtain ⟨h3, e3, r3, f3, d3⟩ := newtonLoop_round (ml := ml) (σ := σ) hnu f1 k hg1 ej eP d1 l1
    refine ⟨h3, by rw [e3, sumL_vec], r1.trans r3, f3, fun ls2 hg2 => ?_⟩
    obtain ⟨h4, e4, r4, f4, d4⟩ := newtonLoop_round (ml := ml) (σ := σ) hns f2 k hg2 ej2 eP1 d2 l2
    refine ⟨h4, by rw [e4, sumL_vec], r2.trans r4, f4, .of_val fun d hd => ?_⟩
    obtain ⟨j, hj, rfl⟩ := List.getElem_of_mem hd
    rw [dofs_length h] at hj
    have v4 := val_data d4 ⟨j, hj⟩
    have v3 := val_data d3 (ι ⟨j, hj⟩)
    rw [hι] at v3
    rw [v4, v3]
    congr 1
    have q := congrFun (comm (Jᵀ *ᵥ fun i : Fin u.cons.length => (lossValue h1 (h1.cons u.cons[i])).toReal)) ⟨j, hj⟩
    rw [tr] at q
    simp only [Pi.sub_apply, Pi.smul_apply, smul_eq_mul, hι, Function.comp] at q ⊢
    rw [← q, g.val (List.getElem_mem _)]

theorem part_loop (hp : CutPInv pinv) (h0 : 0 ≤ ε) (h0' : 0 ≤ β)
    (hnrm : ∀ (n m : Nat) (J : Matrix (Fin m) (Fin n) ℝ), nrm n (mat J) = mat (Jᵀ * J + β • 1))
    (hnu : u.cells.Nodup) (hns : s.cells.Nodup) (hcu : Closed ⟨h, u⟩) (hcs : Closed ⟨h, s⟩) (part : s.PartOf h u) (hpos : 0 < getNDofs h s)
    (k : Nat) {ls1 ls2 : XR} (hls : gt ls2 ml = true → gt ls1 ml = true)
    {h1 h2 : Heap XR} (r1 : SameRefs h h1) (r2 : SameRefs h h2) (f1 : FiniteSketch h1 u) (f2 : FiniteSketch h2 s) (g : SameData s h1 h2) :
    PartRun s (newtonLoop pinv ml (fin σ) (fin ε) nrm u k ls1 h1) (newtonLoop pinv ml (fin σ) (fin ε) nrm s k ls2 h2) := by
  induction k generalizing ls1 ls2 h1 h2 with
  | zero => exact ⟨by simp [newtonLoop], fun _ => rfl, fun _ => le_rfl, fun _ _ => g⟩
  | succ k ih =>
    by_cases hg1 : gt ls1 ml = true
    · by_cases hj : ∃ q, getJacobian h1 u = .ok q
      · obtain ⟨a, b, hab, H⟩ := part_round (σ := σ) (ml := ml) hp h0 h0' hnrm hnu hns hcu hcs part hpos r1 r2 f1 f2 g hj
        obtain ⟨h3, e3, r3, f3, H⟩ := H k ls1 hg1
        by_cases hg2 : gt ls2 ml = true
        · obtain ⟨h4, e4, r4, f4, g'⟩ := H ls2 hg2
          have I := ih (ls1 := fin a) (ls2 := fin b) (gt_mono hab) r3 r4 f3 f4 g'
          rw [e3, e4]
          refine ⟨fun i r r' q q' => ?_, fun q => I.ok q, fun q => ?_, fun q e => I.final q ?_⟩
          · cases i with
            | zero =>
              simp only [List.getElem?_cons_zero, Option.some.injEq] at q q'
              subst q q'
              exact ⟨g, g'⟩
            | succ i => exact I.steps i r r' (by simpa using q) (by simpa using q')
          · have := I.fewer q
            simp only [List.length_cons]; omega
          · simpa using e
        · have e4 : newtonLoop pinv ml (fin σ) (fin ε) nrm s (k + 1) ls2 h2 = ⟨.ok, h2, [], 0, 0⟩ := by rw [newtonLoop, if_neg hg2]
          rw [e3, e4]
          exact ⟨by simp, fun _ => rfl, fun _ => by simp, fun _ q => by simp at q⟩
      · have e3 : (newtonLoop pinv ml (fin σ) (fin ε) nrm u (k + 1) ls1 h1).res = .panic ∧
            (newtonLoop pinv ml (fin σ) (fin ε) nrm u (k + 1) ls1 h1).steps = [] := by
          rw [newtonLoop, if_pos hg1]
          cases e : getJacobian h1 u with
          | error h' => exact ⟨rfl, rfl⟩
          | ok q => exact (hj ⟨q, e⟩).elim
        refine ⟨by simp [e3.2], fun q => ?_, fun q => ?_, fun q => ?_⟩ <;> rw [e3.1] at q <;> cases q
    · have e3 : newtonLoop pinv ml (fin σ) (fin ε) nrm u (k + 1) ls1 h1 = ⟨.ok, h1, [], 0, 0⟩ := by rw [newtonLoop, if_neg hg1]
      have e4 : newtonLoop pinv ml (fin σ) (fin ε) nrm s (k + 1) ls2 h2 = ⟨.ok, h2, [], 0, 0⟩ := by
        rw [newtonLoop, if_neg fun q => hg1 (hls q)]
      rw [e3, e4]
      exact ⟨by simp, fun _ => rfl, fun _ => le_rfl, fun _ _ => g⟩

theorem Closed.pos (hc : Closed ⟨h, s⟩) (hs : s.cells ≠ []) : 0 < getNDofs h s := by
  have key : ∀ c ∈ s.cells, dofs c ≠ [] → 0 < getNDofs h s := fun c hc' hd => by
    rw [← dofs_length]
    obtain ⟨d, hd⟩ := List.exists_mem_of_ne_nil _ hd
    exact List.length_pos_of_mem (List.mem_flatMap.2 ⟨c, hc', hd⟩)
  obtain ⟨c, hc'⟩ := List.exists_mem_of_ne_nil _ hs
  cases c with
  | line l => exact key (.point (h.lines l).start) (hc.1 _ hc' _ (by simp [primFields])) (by simp [dofs])
  | _ => exact key _ hc' (by simp [dofs])

theorem FiniteSketch.part (hf : FiniteSketch h u) (part : s.PartOf h u) : FiniteSketch h s := by
  obtain ⟨rest, pm, -⟩ := part.cons
  refine ⟨fun x hx => hf.1 x ?_, fun k hk => hf.2 k (pm.mem_iff.2 (List.mem_append_left _ hk))⟩
  rw [getData_eq] at hx ⊢
  obtain ⟨c, hc, hx⟩ := List.mem_flatMap.1 hx
  exact List.mem_flatMap.2 ⟨c, part.cells c hc, hx⟩

end

end Isotope
