import Verif.Model.Sketch
import Verif.XR
import Mathlib.Tactic.Ring
import Mathlib.Tactic.NormNum

/-!
# Sums in the order of nalgebra's dot product
-/

namespace Isotope
open XR

theorem XR.add_comm' (a b : XR) : a + b = b + a := by
  cases a <;> cases b <;> first | rfl | (simp only [add_fin, fin.injEq]; ring)

theorem XR.add_assoc' (a b c : XR) : a + b + c = a + (b + c) := by
  cases a <;> cases b <;> cases c <;> first | rfl | (simp only [add_fin, fin.injEq]; ring)

theorem XR.add_zero' (a : XR) : a + fin 0 = a := by
  cases a <;> first | rfl | (simp only [add_fin, add_zero])

instance : Std.Associative (fun a b : XR => a + b) := ⟨add_assoc'⟩
instance : Std.Commutative (fun a b : XR => a + b) := ⟨add_comm'⟩

theorem foldl_start (l : List XR) (a b : XR) : l.foldl (· + ·) (a + b) = a + l.foldl (· + ·) b := by
  induction l generalizing b with
  | nil => rfl
  | cons c l ih => rw [List.foldl_cons, List.foldl_cons, add_assoc', ih]

theorem dotLoop_eq (a0 a1 a2 a3 a4 a5 a6 a7 : XR) (l : List XR) :
    dotLoop a0 a1 a2 a3 a4 a5 a6 a7 l = l.foldl (· + ·) (a0 + a1 + a2 + a3 + a4 + a5 + a6 + a7) := by
  fun_induction dotLoop a0 a1 a2 a3 a4 a5 a6 a7 l with
  | case1 a0 a1 a2 a3 a4 a5 a6 a7 p0 p1 p2 p3 p4 p5 p6 p7 ps ih =>
    rw [ih]
    simp only [List.foldl_cons]
    congr 1
    ac_rfl
  | case2 a0 a1 a2 a3 a4 a5 a6 a7 ps =>
    congr 1
    have e : (0.0 : XR) = fin 0 := by rw [sci]; norm_num
    rw [e, add_comm' (fin 0), add_zero']
    ac_rfl

/-- in exact arithmetic the order of summation is irrelevant -/
theorem dotV_eq (a b : List XR) : dotV a b = dotL a b := by
  have e : (0.0 : XR) = fin 0 := by rw [sci]; norm_num
  rw [dotV, dotLoop_eq, e]
  simp only [add_zero']
  cases a with
  | nil => exact e.symm
  | cons x a =>
    cases b with
    | nil => exact e.symm
    | cons y b =>
      rw [List.zipWith_cons_cons, List.foldl_cons, add_comm' (fin 0), add_zero', dotL]
      generalize x * y = u
      induction a generalizing b u with
      | nil => rfl
      | cons x a ih =>
        cases b with
        | nil => rfl
        | cons y b => exact ih b _

/-- a sum in which no summand can be lost -/
theorem dotLoop_each {F : Type} [Num F] (P : F → Prop) (R : F → F → Prop) (p0 : P 0.0) (pa : ∀ {a b}, P a → P b → P (a + b))
    (rr : ∀ a, R a a) (rt : ∀ {a b c}, R a b → R b c → R a c) (r1 : ∀ {a b}, P a → P b → R a (a + b)) (r2 : ∀ {a b}, P a → P b → R b (a + b))
    (a0 a1 a2 a3 a4 a5 a6 a7 : F) (l : List F) (ha : ∀ x ∈ [a0, a1, a2, a3, a4, a5, a6, a7], P x) (hl : ∀ x ∈ l, P x) :
    P (dotLoop a0 a1 a2 a3 a4 a5 a6 a7 l) ∧
      (∀ x ∈ [a0, a1, a2, a3, a4, a5, a6, a7], R x (dotLoop a0 a1 a2 a3 a4 a5 a6 a7 l)) ∧
      ∀ x ∈ l, R x (dotLoop a0 a1 a2 a3 a4 a5 a6 a7 l) := by
  fun_induction dotLoop a0 a1 a2 a3 a4 a5 a6 a7 l with
  | case1 a0 a1 a2 a3 a4 a5 a6 a7 p0 p1 p2 p3 p4 p5 p6 p7 ps ih =>
    simp only [List.forall_mem_cons] at ha hl ih ⊢
    obtain ⟨A0, A1, A2, A3, A4, A5, A6, A7, -⟩ := ha
    obtain ⟨P0, P1, P2, P3, P4, P5, P6, P7, hl⟩ := hl
    obtain ⟨h1, ⟨h20, h21, h22, h23, h24, h25, h26, h27, -⟩, h3⟩ :=
      ih ⟨pa A0 P0, pa A1 P1, pa A2 P2, pa A3 P3, pa A4 P4, pa A5 P5, pa A6 P6, pa A7 P7, by simp⟩ hl
    exact ⟨h1, ⟨rt (r1 A0 P0) h20, rt (r1 A1 P1) h21, rt (r1 A2 P2) h22, rt (r1 A3 P3) h23, rt (r1 A4 P4) h24, rt (r1 A5 P5) h25,
      rt (r1 A6 P6) h26, rt (r1 A7 P7) h27, by simp⟩, rt (r2 A0 P0) h20, rt (r2 A1 P1) h21, rt (r2 A2 P2) h22, rt (r2 A3 P3) h23,
      rt (r2 A4 P4) h24, rt (r2 A5 P5) h25, rt (r2 A6 P6) h26, rt (r2 A7 P7) h27, h3⟩
  | case2 a0 a1 a2 a3 a4 a5 a6 a7 ps =>
    simp only [List.forall_mem_cons] at ha ⊢
    obtain ⟨A0, A1, A2, A3, A4, A5, A6, A7, -⟩ := ha
    have fold : ∀ (l : List F) (u : F), P u → (∀ x ∈ l, P x) →
        P (l.foldl (· + ·) u) ∧ R u (l.foldl (· + ·) u) ∧ ∀ x ∈ l, R x (l.foldl (· + ·) u) := by
      intro l
      induction l with
      | nil => exact fun u hu _ => ⟨hu, rr u, by simp⟩
      | cons x l ih =>
        intro u hu hl
        obtain ⟨h1, h2, h3⟩ := ih (u + x) (pa hu (hl x (by simp))) fun y hy => hl y (by simp [hy])
        refine ⟨h1, rt (r1 hu (hl x (by simp))) h2, ?_⟩
        intro y hy
        rcases List.mem_cons.1 hy with rfl | hy
        · exact rt (r2 hu (hl y (by simp))) h2
        · exact h3 y hy
    have b0 := pa p0 (pa A0 A4)
    have b1 := pa b0 (pa A1 A5)
    have b2 := pa b1 (pa A2 A6)
    have b3 := pa b2 (pa A3 A7)
    have s3 := r1 b2 (pa A3 A7)
    have s2 := rt (r1 b1 (pa A2 A6)) s3
    have s1 := rt (r1 b0 (pa A1 A5)) s2
    have t0 := rt (r2 p0 (pa A0 A4)) s1
    have t1 := rt (r2 b0 (pa A1 A5)) s2
    have t2 := rt (r2 b1 (pa A2 A6)) s3
    have t3 := r2 b2 (pa A3 A7)
    obtain ⟨h1, h2, h3⟩ := fold ps _ b3 hl
    exact ⟨h1, ⟨rt (rt (r1 A0 A4) t0) h2, rt (rt (r1 A1 A5) t1) h2, rt (rt (r1 A2 A6) t2) h2, rt (rt (r1 A3 A7) t3) h2,
      rt (rt (r2 A0 A4) t0) h2, rt (rt (r2 A1 A5) t1) h2, rt (rt (r2 A2 A6) t2) h2, rt (rt (r2 A3 A7) t3) h2, by simp⟩, h3⟩

end Isotope
