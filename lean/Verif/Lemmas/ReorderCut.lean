import Verif.Lemmas.Reorder
import Verif.Lemmas.Cut
import Verif.Lemmas.NewtonStep

/-!
# The pseudo-inverse with cut-off follows a change of order
-/

namespace Isotope
open XR
open Matrix

theorem table_listed {L : List Dof} (m : Dof → Dof → XR) (B : Matrix (Fin L.length) (Fin L.length) ℝ) :
    L.map (fun i => L.map (m i)) = mat B ↔ ∀ i j : Fin L.length, m L[i] L[j] = fin (B i j) := by
  have e : L.map (fun i => L.map (m i)) = List.ofFn fun i : Fin L.length => List.ofFn fun j : Fin L.length => m L[i] L[j] := by
    refine List.ext_getElem (by simp) fun i h1 h2 => ?_
    rw [List.getElem_map, List.getElem_ofFn]
    exact List.ext_getElem (by simp) fun j h3 h4 => by simp
  rw [e, mat]
  constructor
  · intro q i j
    exact congrFun (List.ofFn_injective (congrFun (List.ofFn_injective q) i)) j
  · intro q
    congr 1; funext i; congr 1; funext j; exact q i j

/-- a list without repetitions in another order -/
theorem exists_reindex {L L' : List Dof} (hn : L.Nodup) (p : L.Perm L') :
    ∃ e : Fin L'.length ≃ Fin L.length, ∀ i, L[e i] = L'[i] := by
  have hn' := p.nodup_iff.1 hn
  have ex : ∀ i : Fin L'.length, ∃ j : Fin L.length, L[j] = L'[i] := fun i => by
    obtain ⟨j, hj, e⟩ := List.getElem_of_mem (p.mem_iff.2 (List.getElem_mem i.2))
    exact ⟨⟨j, hj⟩, e⟩
  choose f hf using ex
  have inj : Function.Injective f := fun i i' e => by
    have : L'[i] = L'[i'] := by rw [← hf i, ← hf i', e]
    exact Fin.ext (hn'.getElem_inj_iff.1 this)
  refine ⟨Equiv.ofBijective f ((Fintype.bijective_iff_injective_and_card f).2 ⟨inj, ?_⟩), hf⟩
  simp [p.length_eq]

theorem exists_table {L : List Dof} (hn : L.Nodup) (C : Matrix (Fin L.length) (Fin L.length) ℝ) :
    ∃ q : Dof → Dof → XR, ∀ i j : Fin L.length, q L[i] L[j] = fin (C i j) := by
  have inj : Function.Injective (fun i : Fin L.length × Fin L.length => (L[i.1], L[i.2])) := by
    intro i j e
    simp only [Prod.mk.injEq] at e
    exact Prod.ext (Fin.ext (hn.getElem_inj_iff.1 e.1)) (Fin.ext (hn.getElem_inj_iff.1 e.2))
  refine ⟨fun a b => Function.extend (fun i : Fin L.length × Fin L.length => (L[i.1], L[i.2])) (fun i => fin (C i.1 i.2)) (fun _ => fin 0) (a, b),
    fun i j => ?_⟩
  exact inj.extend_apply _ _ (i, j)


/-- the pseudo-inverse with cut-off is determined by the eigenvectors -/
theorem cut_unique {n : Nat} {A P Q : Matrix (Fin n) (Fin n) ℝ} (hA : Aᵀ = A) (f : ℝ → ℝ)
    (hP : ∀ (x : Fin n → ℝ) (w : ℝ), A *ᵥ x = w • x → P *ᵥ x = f w • x)
    (hQ : ∀ (x : Fin n → ℝ) (w : ℝ), A *ᵥ x = w • x → Q *ᵥ x = f w • x) : P = Q := by
  obtain ⟨b, w, hb⟩ := exists_eigenbasis hA
  have : Matrix.toLin' P = Matrix.toLin' Q := b.ext fun i => by
    rw [Matrix.toLin'_apply, Matrix.toLin'_apply, hP _ _ (hb i), hQ _ _ (hb i)]
  exact Matrix.toLin'.injective this

variable {L L' : List Dof}

theorem cut_follows {pinv : PInv XR} (hp : CutPInv pinv) {ε : ℝ} (h0 : 0 ≤ ε) (hd : L ≠ []) (hn : L.Nodup) (p : L.Perm L')
    {A A' : List (List XR)} (hA : Reordered L L' A A') {B : Matrix (Fin L.length) (Fin L.length) ℝ} (e : A = mat B) (hB : Bᵀ = B)
    (hpos : ∀ x, 0 ≤ x ⬝ᵥ (B *ᵥ x)) : SamePInv L L' (pinv A (fin ε)) (pinv A' (fin ε)) := by
  obtain ⟨m, e1, e2⟩ := hA
  obtain ⟨σ, hσ⟩ := exists_reindex hn p
  have e' : A' = mat (B.submatrix σ σ) := by
    rw [e2]
    exact (table_listed m _).2 fun i j => by rw [← hσ i, ← hσ j]; exact (table_listed m B).1 (e1.symm.trans e) (σ i) (σ j)
  have hl : 0 < L.length := List.length_pos_iff.2 hd
  have mv : ∀ (C : Matrix (Fin L.length) (Fin L.length) ℝ) (x : Fin L'.length → ℝ),
      C.submatrix σ σ *ᵥ x = (C *ᵥ (x ∘ σ.symm)) ∘ σ := fun C x => Matrix.submatrix_mulVec_equiv C x σ σ
  obtain ⟨P, eP, hP⟩ := hp _ B ε hl hB hpos h0
  obtain ⟨Q, eQ, hQ⟩ := hp _ (B.submatrix σ σ) ε (by rw [← p.length_eq]; exact hl)
    (by rw [Matrix.transpose_submatrix, hB]) (fun x => by
      rw [mv]
      have := hpos (x ∘ σ.symm)
      convert this using 1
      simp only [dotProduct, Function.comp_apply]
      exact Fintype.sum_equiv σ _ _ fun i => by simp) h0
  have eq : Q = P.submatrix σ σ := by
    refine cut_unique (A := B.submatrix σ σ) (by rw [Matrix.transpose_submatrix, hB]) (fun w => if ε < w then w⁻¹ else 0) hQ fun x w hx => ?_
    rw [mv] at hx ⊢
    have hx' : B *ᵥ (x ∘ σ.symm) = w • (x ∘ σ.symm) := by
      funext i
      have := congrFun hx (σ.symm i)
      simpa using this
    rw [hP _ _ hx']
    funext i
    simp only [Function.comp_apply, Pi.smul_apply, Equiv.symm_apply_apply]
  rw [e, e', eP, eQ, eq]
  obtain ⟨q, hq⟩ := exists_table hn P
  exact ⟨q, ((table_listed q _).2 hq).symm, ((table_listed q _).2 fun i j => by rw [← hσ i, ← hσ j]; exact hq (σ i) (σ j)).symm⟩

/-- a table of real numbers -/
theorem table_real {cs : List Nat} {ρ : Nat → Dof → XR} (hρ : ∀ c ∈ cs, ∀ d ∈ L, ∃ x, ρ c d = fin x) :
    ∃ J : Matrix (Fin cs.length) (Fin L.length) ℝ, cs.map (fun c => L.map (ρ c)) = mat J := by
  have : ∀ (i : Fin cs.length) (j : Fin L.length), ∃ x, ρ cs[i] L[j] = fin x := fun i j =>
    hρ _ (List.getElem_mem i.2) _ (List.getElem_mem j.2)
  choose J hJ using this
  refine ⟨J, ?_⟩
  unfold mat vec
  refine List.ext_getElem (by simp) fun i h1 h2 => ?_
  rw [List.getElem_map, List.getElem_ofFn]
  refine List.ext_getElem (by simp) fun j h3 h4 => ?_
  rw [List.getElem_map, List.getElem_ofFn]
  exact hJ ⟨i, by simpa using h1⟩ ⟨j, by simpa using h3⟩

theorem cut_follows_gn {pinv : PInv XR} (hp : CutPInv pinv) {ε : ℝ} (h0 : 0 ≤ ε) (hd : L ≠ []) (hn : L.Nodup) (p : L.Perm L')
    {cs cs' : List Nat} (q : cs.Perm cs') {ρ : Nat → Dof → XR} (hρ : ∀ c ∈ cs, ∀ d ∈ L, ∃ x, ρ c d = fin x) :
    SamePInv L L' (pinv (gnNormal L.length (cs.map (fun c => L.map (ρ c)))) (fin ε))
      (pinv (gnNormal L.length (cs'.map (fun c => L'.map (ρ c)))) (fin ε)) := by
  obtain ⟨J, hJ⟩ := table_real hρ
  refine cut_follows hp h0 hd hn p (gn_reorder p q ρ) (by rw [hJ, gnNormal_mat]) (gram_symm J) fun x => ?_
  rw [gram_form]
  exact dot_self_nonneg _

theorem cut_follows_lm {pinv : PInv XR} (hp : CutPInv pinv) {ε β : ℝ} (h0 : 0 ≤ ε) (h1 : 0 ≤ β) (hd : L ≠ []) (hn : L.Nodup) (p : L.Perm L')
    {cs cs' : List Nat} (q : cs.Perm cs') {ρ : Nat → Dof → XR} (hρ : ∀ c ∈ cs, ∀ d ∈ L, ∃ x, ρ c d = fin x) :
    SamePInv L L' (pinv (lmNormal (fin β) L.length (cs.map (fun c => L.map (ρ c)))) (fin ε))
      (pinv (lmNormal (fin β) L.length (cs'.map (fun c => L'.map (ρ c)))) (fin ε)) := by
  obtain ⟨J, hJ⟩ := table_real hρ
  refine cut_follows hp h0 hd hn p (lm_reorder hn p q ρ _) (by rw [hJ, lmNormal_mat]) (lm_symm J β) fun x => ?_
  rw [Matrix.add_mulVec, dotProduct_add, gram_form, Matrix.smul_mulVec, Matrix.one_mulVec, dotProduct_smul, smul_eq_mul]
  have := dot_self_nonneg (J *ᵥ x)
  have := mul_nonneg h1 (dot_self_nonneg x)
  linarith

end Isotope
