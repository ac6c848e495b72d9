import Verif.SpecAlike
import Verif.Lemmas.Data

/-!
# Runs of solvers side by side

Two sketches whose data, losses and gradients correspond to each other make corresponding runs.
-/

namespace Isotope
variable {F : Type} [Num F]

/-- both calls panic or both return, with corresponding heaps -/
inductive BothE (R E : Heap F → Heap F → Prop) : Except (Heap F) (Heap F) → Except (Heap F) (Heap F) → Prop
  | error {h h' : Heap F} : E h h' → BothE R E (.error h) (.error h')
  | ok {h h' : Heap F} : R h h' → BothE R E (.ok h) (.ok h')

/-- both calls panic or both return, with corresponding results and heaps -/
inductive BothG {α : Type} (R E : Heap F → Heap F → Prop) (Q : α → α → Prop) :
    Except (Heap F) (α × Heap F) → Except (Heap F) (α × Heap F) → Prop
  | error {h h' : Heap F} : E h h' → BothG R E Q (.error h) (.error h')
  | ok {g g' : α} {h h' : Heap F} : Q g g' → R h h' → BothG R E Q (.ok (g, h)) (.ok (g', h'))

/-- The two sketches correspond to each other: `R` relates heaps (`E` after a panic), `D` data vectors, `G` gradients and directions; `K`
holds for the step sizes. -/
structure Alike (s s' : Sketch) (R E : Heap F → Heap F → Prop) (D G : List F → List F → Prop) (K : F → Prop) : Prop where
  first : K 1.0
  shorter : ∀ {k}, K k → K (k * 0.5)
  longer : ∀ {k}, K k → K (k * 1.5)
  imp : ∀ {h h'}, R h h' → E h h'
  data : ∀ {h h'}, R h h' → D (getData h s) (getData h' s')
  set : ∀ {h h' d d'}, R h h' → D d d' → BothE R E (setData h s d) (setData h' s' d')
  loss : ∀ {h h'}, R h h' → getLoss h s = getLoss h' s'
  grad : ∀ {h h'}, R h h' → BothG R E G (getGradient h s) (getGradient h' s')
  dot : ∀ {a a' b b'}, G a a' → G b b' → dotV a b = dotV a' b'
  neg : ∀ {a a'}, G a a' → G (vneg a) (vneg a')
  add : ∀ {x x' d d'} (k : F), K k → D x x' → G d d' → D (vadd x (vscale k d)) (vadd x' (vscale k d'))
  axpy : ∀ {x x' d d'} (k : F), K k → D x x' → G d d' → D (Isotope.axpy x k d) (Isotope.axpy x' k d')

variable {s s' : Sketch} {R E : Heap F → Heap F → Prop} {D G : List F → List F → Prop}
  {M : List (List F) → List (List F) → Prop} {K : F → Prop}

omit [Num F] in
theorem SameRun.stop {res : SolveRes} {h h' : Heap F} {n k : Nat} (hr : res ≠ .panic) (hR : R h h') :
    SameRun R E M ⟨res, h, [], n, k⟩ ⟨res, h', [], n, k⟩ :=
  ⟨rfl, fun _ => hR, fun e => absurd e hr, rfl, rfl, .nil⟩

omit [Num F] in
theorem SameRun.panic {h h' : Heap F} {n k : Nat} (hE : E h h') : SameRun R E M ⟨.panic, h, [], n, k⟩ ⟨.panic, h', [], n, k⟩ :=
  ⟨rfl, fun e => absurd rfl e, fun _ => hE, rfl, rfl, .nil⟩

omit [Num F] in
theorem SameRun.cons {o o' : SolveOut F} {r r' : StepRec F} (ho : SameRun R E M o o')
    (hr : R r.pre r'.pre ∧ r.alpha = r'.alpha ∧ R r.post r'.post ∧ M r.mat r'.mat) : SameRun R E M (o.cons r) (o'.cons r') :=
  ⟨ho.res, ho.heap, ho.panicked, by simp [SolveOut.cons, ho.searches], ho.failed, .cons hr ho.steps⟩

omit [Num F] in
theorem SameRun.addSearch {o o' : SolveOut F} (ho : SameRun R E M o o') : SameRun R E M o.addSearch o'.addSearch :=
  ⟨ho.res, ho.heap, ho.panicked, by simp [SolveOut.addSearch, ho.searches], by simp [SolveOut.addSearch, ho.failed], ho.steps⟩

theorem Alike.lsLoop (a : Alike s s' R E D G K) {dir dir' x x' : List F} (hx : D x x') (hd : G dir dir') (loss m : F) (n : Nat) {al : F}
    (hal : K al) {h h' : Heap F} (hR : R h h') :
    (∀ b, (Isotope.lsLoop s dir x loss m n al h).1 = .ok b → K b) ∧
    (Isotope.lsLoop s dir x loss m n al h).1 = (Isotope.lsLoop s' dir' x' loss m n al h').1 ∧
    ((Isotope.lsLoop s dir x loss m n al h).1 ≠ .panic →
      R (Isotope.lsLoop s dir x loss m n al h).2 (Isotope.lsLoop s' dir' x' loss m n al h').2) ∧
    ((Isotope.lsLoop s dir x loss m n al h).1 = .panic →
      E (Isotope.lsLoop s dir x loss m n al h).2 (Isotope.lsLoop s' dir' x' loss m n al h').2) := by
  induction n generalizing al h h' with
  | zero => exact ⟨nofun, rfl, fun _ => hR, nofun⟩
  | succ n ih =>
    unfold Isotope.lsLoop
    have hs := a.set hR (a.add al hal hx hd)
    generalize setData h s _ = e at hs
    generalize setData h' s' _ = e' at hs
    cases hs with
    | error hr => exact ⟨nofun, rfl, fun e => absurd rfl e, fun _ => hr⟩
    | @ok h1 h1' hr =>
      dsimp only
      rw [a.loss hr]
      split
      · have hg := a.grad hr
        generalize getGradient h1 s = e at hg
        generalize getGradient h1' s' = e' at hg
        cases hg with
        | error hr => exact ⟨nofun, rfl, fun e => absurd rfl e, fun _ => hr⟩
        | ok hg hr =>
          dsimp only
          rw [a.dot hg hd]
          split
          · exact ⟨by rintro b ⟨⟩; exact hal, rfl, fun _ => hr, nofun⟩
          · exact ih (a.longer hal) hr
      · exact ih (a.shorter hal) hr

theorem Alike.lineSearch (a : Alike s s' R E D G K) {dir dir' g g' : List F} (hd : G dir dir') (hg : G g g') {h h' : Heap F} (hR : R h h') :
    (∀ b, (Isotope.lineSearch h s dir g).1 = .ok b → K b) ∧
    (Isotope.lineSearch h s dir g).1 = (Isotope.lineSearch h' s' dir' g').1 ∧
    ((Isotope.lineSearch h s dir g).1 ≠ .panic →
      R (Isotope.lineSearch h s dir g).2 (Isotope.lineSearch h' s' dir' g').2) ∧
    ((Isotope.lineSearch h s dir g).1 = .panic →
      E (Isotope.lineSearch h s dir g).2 (Isotope.lineSearch h' s' dir' g').2) := by
  unfold Isotope.lineSearch
  dsimp only
  rw [a.dot hg hd, a.loss hR]
  split
  · exact ⟨nofun, rfl, fun _ => hR, nofun⟩
  · exact a.lsLoop (a.data hR) hd _ _ _ a.first hR

theorem Alike.gdLoop (a : Alike s s' R E D G K) (hM : M [] []) (p : GDParams F) (n : Nat) {h h' : Heap F} (hR : R h h') {g g' : List F} (hg : G g g')
    (gn loss : F) : SameRun R E M (Isotope.gdLoop p s n h g gn loss) (Isotope.gdLoop p s' n h' g' gn loss) := by
  induction n generalizing h h' g g' gn loss with
  | zero => exact .stop nofun hR
  | succ n ih =>
    unfold Isotope.gdLoop
    split
    · exact .stop nofun hR
    · split
      · exact .stop nofun hR
      · dsimp only
        obtain ⟨hK, h1, h2, h2'⟩ := a.lineSearch (a.neg hg) hg hR
        generalize Isotope.lineSearch h s (vneg g) g = r at hK h1 h2 h2'
        generalize Isotope.lineSearch h' s' (vneg g') g' = r' at h1 h2 h2'
        obtain ⟨r, hr⟩ := r
        obtain ⟨r', hr'⟩ := r'
        dsimp only at hK h1 h2 h2'
        subst h1
        cases r with
        | notDescent => exact .stop nofun (h2 nofun)
        | searchFailed => exact .stop nofun (h2 nofun)
        | panic => exact .panic (h2' rfl)
        | ok al =>
          dsimp only
          have hs := a.set (h2 nofun) (a.axpy al (hK al rfl) (a.data hR) (a.neg hg))
          generalize setData hr s _ = e at hs
          generalize setData hr' s' _ = e' at hs
          cases hs with
          | error hr => exact .panic hr
          | @ok h3 h3' hr =>
            dsimp only
            rw [a.loss hr]
            have hg := a.grad hr
            generalize getGradient h3 s = e at hg
            generalize getGradient h3' s' = e' at hg
            cases hg with
            | error hr => exact .panic hr
            | @ok g1 g1' _ _ hg hr =>
              dsimp only
              have hn : normL g1 = normL g1' := by unfold normL; rw [a.dot hg hg]
              rw [hn]
              exact (ih hr hg _ _).cons ⟨hR, rfl, hr, hM⟩

theorem Alike.gd (a : Alike s s' R E D G K) (hM : M [] []) (p : GDParams F) {h h' : Heap F} (hR : R h h') :
    SameRun R E M (gdSolve p h s) (gdSolve p h' s') := by
  unfold gdSolve
  have hg := a.grad hR
  generalize getGradient h s = e at hg
  generalize getGradient h' s' = e' at hg
  cases hg with
  | error hr => exact .panic hr
  | @ok g1 g1' _ _ hg hr =>
    dsimp only
    have hn : normL g1 = normL g1' := by unfold normL; rw [a.dot hg hg]
    rw [hn, a.loss hr]
    exact a.gdLoop hM p _ hr hg _ _

/-- what BFGS needs besides: `M` relates matrices -/
structure AlikeM (s s' : Sketch) (R E : Heap F → Heap F → Prop) (D G : List F → List F → Prop) (M : List (List F) → List (List F) → Prop)
    (K : F → Prop) (nd nd' : Nat) : Prop extends Alike s s' R E D G K where
  one : M (identity nd) (identity nd')
  dir : ∀ {H H' g g'}, M H H' → G g g' → G (matVec (matNeg H) g) (matVec (matNeg H') g')
  upd : ∀ {H H' st st' y y'}, M H H' → G st st' → G y y' → M (bfgsUpdate H st y) (bfgsUpdate H' st' y')
  fin : ∀ {g g'}, G g g' → g.all Num.isFinite = g'.all Num.isFinite
  norm : ∀ {g g'}, G g g' → g.all Num.isFinite = true → uniformNorm g = uniformNorm g'
  scale : ∀ {g g'} (k : F), K k → G g g' → G (vscale k g) (vscale k g')
  sub : ∀ {g g' y y'}, G g g' → G y y' → G (vsub g y) (vsub g' y')

theorem AlikeM.bfgsLoop {nd nd' : Nat} (a : AlikeM s s' R E D G M K nd nd') (p : BFGSParams F) (n : Nat) (reset : Bool)
    {hm hm' : List (List F)} (hM : M hm hm') {x x' : List F} (hx : D x x') {h h' : Heap F} (hR : R h h') :
    SameRun R E M (Isotope.bfgsLoop p s nd n reset hm x h) (Isotope.bfgsLoop p s' nd' n reset hm' x' h') := by
  induction n generalizing reset hm hm' x x' h h' with
  | zero => unfold Isotope.bfgsLoop; exact .stop nofun hR
  | succ n ih =>
    have key : ∀ (reset : Bool) {hm hm' : List (List F)} {x x' : List F} {h h' : Heap F}, M hm hm' → D x x' → R h h' →
        (reset = false → ∀ {h h' : Heap F}, R h h' → SameRun R E M (Isotope.bfgsLoop p s nd (n + 1) true (identity nd) x h)
          (Isotope.bfgsLoop p s' nd' (n + 1) true (identity nd') x' h')) →
        SameRun R E M (Isotope.bfgsLoop p s nd (n + 1) reset hm x h) (Isotope.bfgsLoop p s' nd' (n + 1) reset hm' x' h') := by
      intro reset hm hm' x x' h h' hM hx hR again
      rw [Isotope.bfgsLoop, Isotope.bfgsLoop, a.loss hR]
      split
      · exact .stop nofun hR
      · have hg := a.grad hR
        generalize getGradient h s = e at hg
        generalize getGradient h' s' = e' at hg
        cases hg with
        | error hr => exact .panic hr
        | @ok g g' h1 h1' hg hr =>
          dsimp only
          rw [← a.fin hg]
          split
          · exact .stop nofun hr
          · rename_i hf
            rw [← a.norm hg (by simpa using hf)]
            split
            · exact .stop nofun hr
            · have hd := a.dir hM hg
              rw [← a.fin hd]
              split
              · exact .stop nofun hr
              · obtain ⟨hK, q1, q2, q2'⟩ := a.toAlike.lineSearch hd hg hr
                generalize Isotope.lineSearch h1 s (matVec (matNeg hm) g) g = r at hK q1 q2 q2'
                generalize Isotope.lineSearch h1' s' (matVec (matNeg hm') g') g' = r' at q1 q2 q2'
                obtain ⟨r, hr⟩ := r
                obtain ⟨r', hr'⟩ := r'
                dsimp only at hK q1 q2 q2'
                subst q1
                cases r with
                | notDescent => exact .stop nofun (q2 nofun)
                | panic => exact .panic (q2' rfl)
                | searchFailed =>
                  cases reset with
                  | true => exact .stop nofun (q2 nofun)
                  | false => exact (again rfl (q2 nofun)).addSearch
                | ok al =>
                  dsimp only
                  have hx' := a.add al (hK al rfl) hx hd
                  have hs := a.set (q2 nofun) hx'
                  generalize setData hr s _ = e at hs
                  generalize setData hr' s' _ = e' at hs
                  cases hs with
                  | error hr => exact .panic hr
                  | @ok h3 h3' hr =>
                    dsimp only
                    have hg' := a.grad hr
                    generalize getGradient h3 s = e at hg'
                    generalize getGradient h3' s' = e' at hg'
                    cases hg' with
                    | error hr => exact .panic hr
                    | @ok y y' _ _ hy hr =>
                      have hm2 := a.upd hM (a.scale al (hK al rfl) hd) (a.sub hy hg)
                      exact (ih _ hm2 hx' hr).cons ⟨hR, rfl, hr, hm2⟩
    cases reset with
    | true => exact key true hM hx hR (fun e => by cases e)
    | false => exact key false hM hx hR (fun _ => fun hR => key true a.one hx hR (fun e => by cases e))

theorem AlikeM.bfgs {nd nd' : Nat} (a : AlikeM s s' R E D G M K nd nd') (p : BFGSParams F) {h h' : Heap F}
    (hR : R h h') (hn : (getData h s).length = nd) (hn' : (getData h' s').length = nd') : SameRun R E M (bfgsSolve p h s) (bfgsSolve p h' s') := by
  unfold bfgsSolve
  dsimp only
  rw [hn, hn']
  exact a.bfgsLoop p _ _ a.one (a.data hR) hR

/-- when gradients are the same, so are the matrices -/
theorem Alike.withEq (a : Alike s s' R E D Eq K) (nd : Nat) : AlikeM s s' R E D Eq Eq K nd nd where
  toAlike := a
  one := rfl
  dir := by rintro H _ g _ rfl rfl; rfl
  upd := by rintro H _ st _ y _ rfl rfl rfl; rfl
  fin := by rintro g _ rfl; rfl
  norm := by rintro g _ rfl _; rfl
  scale := by rintro g _ k _ rfl; rfl
  sub := by rintro g _ y _ rfl rfl; rfl

theorem Alike.bfgs (a : Alike s s' R E D Eq K) (hl : ∀ {d d'}, D d d' → d.length = d'.length) (p : BFGSParams F) {h h' : Heap F}
    (hR : R h h') : SameRun R E Eq (bfgsSolve p h s) (bfgsSolve p h' s') :=
  (a.withEq _).bfgs p hR rfl (hl (a.data hR)).symm

/-- what the Newton solvers need besides: `P` relates the pseudo-inverses -/
structure AlikeN (s s' : Sketch) (R E : Heap F → Heap F → Prop) (D G : List F → List F → Prop) (K : F → Prop) (pinv : PInv F)
    (eps : F) (normal : Nat → List (List F) → List (List F)) (nd nd' : Nat) : Prop extends Alike s s' R E D G K where
  length : ∀ {h h'}, R h h' → (getData h s).length = nd ∧ (getData h' s').length = nd'
  sub : ∀ {x x' u u'} (k : F), K k → D x x' → G u u' → D (vsub x (u.map (· * k))) (vsub x' (u'.map (· * k)))
  losses : ∀ {h h'}, R h h' → sumL (getLossPerConstraint h s) = sumL (getLossPerConstraint h' s')
  jac : ∀ {h h'}, R h h' → BothG R E (fun J J' => match pinv (normal nd J) eps, pinv (normal nd' J') eps with
      | .panic, .panic => True
      | .err, .err => True
      | .ok pi, .ok pi' => G (matVec (matMul J.length pi (transpose nd J)) (getLossPerConstraint h s))
          (matVec (matMul J'.length pi' (transpose nd' J')) (getLossPerConstraint h' s'))
      | _, _ => False) (getJacobian h s) (getJacobian h' s')

theorem AlikeN.newton {nd nd' : Nat} {pinv : PInv F} {eps : F} {normal : Nat → List (List F) → List (List F)}
    (a : AlikeN s s' R E D G K pinv eps normal nd nd') (hM : M [] []) (ml : F) {σ : F} (hσ : K σ) (n : Nat) (ls : F) {h h' : Heap F} (hR : R h h') :
    SameRun R E M (newtonLoop pinv ml σ eps normal s n ls h) (newtonLoop pinv ml σ eps normal s' n ls h') := by
  induction n generalizing ls h h' with
  | zero => exact .stop nofun hR
  | succ n ih =>
    unfold newtonLoop
    split
    · dsimp only
      rw [a.losses hR, (a.length hR).1, (a.length hR).2]
      have hj := a.jac hR
      generalize getJacobian h s = e at hj
      generalize getJacobian h' s' = e' at hj
      cases hj with
      | error hr => exact .panic hr
      | @ok J J' h1 h1' hq hr =>
        dsimp only at hq ⊢
        generalize pinv (normal nd J) eps = r at hq
        generalize pinv (normal nd' J') eps = r' at hq
        cases r with
        | panic =>
          cases r' with
          | panic => exact .panic (a.imp hr)
          | err => exact hq.elim
          | ok _ => exact hq.elim
        | err =>
          cases r' with
          | panic => exact hq.elim
          | err => exact .stop nofun hr
          | ok _ => exact hq.elim
        | ok pi =>
          cases r' with
          | panic => exact hq.elim
          | err => exact hq.elim
          | ok pi' =>
            dsimp only at hq ⊢
            have hs := a.set hr (a.sub σ hσ (a.data hR) hq)
            generalize setData h1 s _ = e at hs
            generalize setData h1' s' _ = e' at hs
            cases hs with
            | error hr => exact .panic hr
            | ok hr =>
              have q := ih (sumL (getLossPerConstraint h' s')) hr
              exact ⟨q.res, q.heap, q.panicked, q.searches, q.failed, .cons ⟨hR, rfl, hr, hM⟩ q.steps⟩
    · exact .stop nofun hR

/-- the Jacobians give the same normal equations -/
def SameNormal (nd : Nat) (J J' : List (List F)) (l l' : List F) (normal : Nat → List (List F) → List (List F)) : Prop :=
  normal nd J = normal nd J' ∧
    ∀ pi, matVec (matMul J.length pi (transpose nd J)) l = matVec (matMul J'.length pi (transpose nd J')) l'

theorem Alike.newton (a : Alike s s' R E D Eq K) (hl : ∀ {d d'}, D d d' → d.length = d'.length)
    (hsub : ∀ {x x'} (u : List F), D x x' → D (vsub x u) (vsub x' u))
    (normal : Nat → List (List F) → List (List F))
    (hlo : ∀ {h h'}, R h h' → sumL (getLossPerConstraint h s) = sumL (getLossPerConstraint h' s'))
    (hJ : ∀ {h h'}, R h h' → BothG R E (fun J J' => SameNormal (getData h s).length J J' (getLossPerConstraint h s)
      (getLossPerConstraint h' s') normal) (getJacobian h s) (getJacobian h' s'))
    (pinv : PInv F) (ml : F) {σ : F} (hσ : K σ) (eps : F) (n : Nat) (ls : F) {h h' : Heap F} (hR : R h h') :
    SameRun R E Eq (newtonLoop pinv ml σ eps normal s n ls h) (newtonLoop pinv ml σ eps normal s' n ls h') := by
  have hlen : ∀ h1 : Heap F, (getData h1 s).length = (getData h s).length := fun h1 => by
    rw [getData_length, getData_length]; exact getNDofs_congr h h1 s
  refine AlikeN.newton (D := D) (G := Eq) (nd := (getData h s).length) (nd' := (getData h s).length) ⟨a, ?_, ?_, hlo, ?_⟩ rfl ml hσ n ls hR
  · intro h1 h1' r
    exact ⟨hlen h1, by rw [← hl (a.data r)]; exact hlen h1⟩
  · rintro x x' u _ k _ hx rfl
    exact hsub _ hx
  · intro h1 h1' r
    have q := hJ r
    generalize getJacobian h1 s = e at q
    generalize getJacobian h1' s' = e' at q
    cases q with
    | error r => exact .error r
    | ok q r =>
      refine .ok ?_ r
      rw [hlen] at q
      rw [q.1]
      cases pinv _ eps with
      | panic => trivial
      | err => trivial
      | ok pi => exact q.2 pi

end Isotope
