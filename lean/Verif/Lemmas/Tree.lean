import Mathlib.Combinatorics.SimpleGraph.Paths
import Mathlib.Combinatorics.SimpleGraph.Connectivity.Connected
import Mathlib.Algebra.Order.Chebyshev
import Mathlib.Algebra.Order.BigOperators.Group.Finset
import Mathlib.Data.Real.Basic
import Mathlib.Tactic.Linarith
import Mathlib.Tactic.Positivity
import Mathlib.Data.Fintype.Option

/-!
# Values at the vertices of a graph from their differences along the edges
-/

namespace Isotope

variable {V : Type} {ι : Type}

/-- the difference of two values, without sign -/
def gapOf (f : V → ℝ) : Sym2 V → ℝ := Sym2.lift ⟨fun x y => |f x - f y|, fun _ _ => abs_sub_comm _ _⟩

theorem walk_gap {G : SimpleGraph V} (f : V → ℝ) {u v : V} (p : G.Walk u v) : |f u - f v| ≤ (p.edges.map (gapOf f)).sum := by
  induction p with
  | nil => simp
  | @cons u w v hh p ih =>
    rw [SimpleGraph.Walk.edges_cons, List.map_cons, List.sum_cons]
    have : gapOf f s(u, w) = |f u - f w| := rfl
    rw [this]
    exact (abs_sub_le (f u) (f w) (f v)).trans (by linarith)

/-- the graph of the pairs `(u i, w i)` -/
def rowGraph (u w : ι → V) : SimpleGraph V := SimpleGraph.fromRel fun x y => ∃ i, u i = x ∧ w i = y

theorem path_gap [Fintype V] [Fintype ι] (u w : ι → V) (f : V → ℝ) {x y : V}
    (hr : (rowGraph u w).Reachable x y) :
    (f x - f y) ^ 2 ≤ (Fintype.card V - 1 : ℕ) * ∑ i, (f (w i) - f (u i)) ^ 2 := by
  classical
  obtain ⟨p, hp⟩ := hr.exists_isPath
  have hlen : p.length ≤ Fintype.card V - 1 := by have := hp.length_lt; omega
  have hnd : p.edges.Nodup := hp.isTrail.edges_nodup
  have hsum : (p.edges.map (gapOf f)).sum = ∑ e ∈ p.edges.toFinset, gapOf f e := (List.sum_toFinset _ hnd).symm
  have hcard : (p.edges.toFinset.card : ℝ) ≤ (Fintype.card V - 1 : ℕ) := by
    rw [List.toFinset_card_of_nodup hnd, SimpleGraph.Walk.length_edges]
    exact_mod_cast hlen
  have hsub : p.edges.toFinset ⊆ Finset.univ.image (fun i => s(u i, w i)) := by
    intro e he
    have he := p.edges_subset_edgeSet (List.mem_toFinset.1 he)
    induction e using Sym2.ind with
    | _ a b =>
      rw [SimpleGraph.mem_edgeSet, rowGraph, SimpleGraph.fromRel_adj] at he
      rcases he.2 with ⟨i, rfl, rfl⟩ | ⟨i, rfl, rfl⟩
      · exact Finset.mem_image.2 ⟨i, Finset.mem_univ _, rfl⟩
      · exact Finset.mem_image.2 ⟨i, Finset.mem_univ _, Sym2.eq_swap⟩
  have hsq : ∑ e ∈ p.edges.toFinset, gapOf f e ^ 2 ≤ ∑ i, (f (w i) - f (u i)) ^ 2 := by
    refine (Finset.sum_le_sum_of_subset_of_nonneg hsub fun _ _ _ => sq_nonneg _).trans ?_
    have : ∑ i, (f (w i) - f (u i)) ^ 2 = ∑ i, gapOf f s(u i, w i) ^ 2 := by
      refine Finset.sum_congr rfl fun i _ => ?_
      have : gapOf f s(u i, w i) = |f (u i) - f (w i)| := rfl
      rw [this, sq_abs]
      ring
    rw [this, Finset.sum_comp (fun e => gapOf f e ^ 2) (fun i => s(u i, w i))]
    refine Finset.sum_le_sum fun e he => ?_
    obtain ⟨i, -, rfl⟩ := Finset.mem_image.1 he
    have : 1 ≤ (Finset.univ.filter (fun a => s(u a, w a) = s(u i, w i))).card :=
      Finset.card_pos.2 ⟨i, by simp⟩
    rw [nsmul_eq_mul]
    have h1 : (1 : ℝ) ≤ ((Finset.univ.filter (fun a => s(u a, w a) = s(u i, w i))).card : ℝ) := by exact_mod_cast this
    exact le_mul_of_one_le_left (sq_nonneg _) h1
  have h1 := walk_gap f p
  rw [hsum] at h1
  have h2 := sq_sum_le_card_mul_sum_sq (s := p.edges.toFinset) (f := gapOf f)
  calc (f x - f y) ^ 2 = |f x - f y| ^ 2 := (sq_abs _).symm
    _ ≤ (∑ e ∈ p.edges.toFinset, gapOf f e) ^ 2 := pow_le_pow_left₀ (abs_nonneg _) h1 2
    _ ≤ _ := h2
    _ ≤ _ := mul_le_mul hcard hsq (Finset.sum_nonneg fun _ _ => sq_nonneg _) (by positivity)

/-- Values (zero at `none`) can be changed, without changing any of the differences `f (w i) - f (u i)`, so that none of them is
larger than the differences allow. -/
theorem small_values {P : Type} [Fintype P] [Fintype ι] (u w : ι → Option P) (f : Option P → ℝ) (h0 : f none = 0) :
    ∃ f0 : Option P → ℝ, f0 none = 0 ∧ (∀ i, f0 (w i) - f0 (u i) = f (w i) - f (u i)) ∧
      ∀ p, f0 p ^ 2 ≤ Fintype.card P * ∑ i, (f (w i) - f (u i)) ^ 2 := by
  classical
  let G := rowGraph u w
  let root : G.ConnectedComponent → Option P := fun c => if c = G.connectedComponentMk none then none else c.out
  have hroot : ∀ x, G.Reachable x (root (G.connectedComponentMk x)) := by
    intro x
    simp only [root]
    split_ifs with hh
    · exact SimpleGraph.ConnectedComponent.exact hh
    · exact (SimpleGraph.ConnectedComponent.exact (Quot.out_eq (G.connectedComponentMk x))).symm
  refine ⟨fun x => f x - f (root (G.connectedComponentMk x)), ?_, fun i => ?_, fun x => ?_⟩
  · simp [root, h0]
  · have : G.connectedComponentMk (w i) = G.connectedComponentMk (u i) := by
      by_cases hh : w i = u i
      · rw [hh]
      · apply SimpleGraph.ConnectedComponent.sound
        apply SimpleGraph.Adj.reachable
        exact (SimpleGraph.fromRel_adj _ _ _).2 ⟨hh, .inr ⟨i, rfl, rfl⟩⟩
    dsimp only
    rw [this]
    ring
  · have := path_gap u w f (hroot x)
    rwa [Fintype.card_option, Nat.add_sub_cancel] at this

end Isotope
