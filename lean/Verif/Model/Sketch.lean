import Verif.Model.Constraint

/-!
# The sketch

Models `src/sketch/mod.rs` and `src/error.rs`.
-/

namespace Isotope
variable {F : Type}

/-- `ISOTopeError` (`src/error.rs:3-16`). -/
inductive Err where
  | missingSketchReferences
  | primitiveAlreadyInSketch
  | primitiveNotFound (id : Nat)
  | constraintAlreadyInSketch
  | constraintNotFound
deriving DecidableEq, Repr

/-- `Sketch` (`src/sketch/mod.rs:24-29`).  The `BTreeMap` is its list of entries in iteration (key) order; the `VecDeque`
is a list; constraint cells are addresses; `u64` is a natural number reduced modulo `2^64` by `addPrimitive`. -/
structure Sketch where
  prims : List (Nat × PrimCell)
  nextId : Nat
  cons : List Nat
deriving DecidableEq, Repr

/-! ## `BTreeMap` on entry lists (`std::collections::BTreeMap`) -/

/-- `BTreeMap::insert`: keeps keys sorted, replaces the value of an existing key. -/
def mapInsert {α : Type} (k : Nat) (v : α) : List (Nat × α) → List (Nat × α)
  | [] => [(k, v)]
  | (k', v') :: t =>
    if k < k' then (k, v) :: (k', v') :: t
    else if k = k' then (k, v) :: t
    else (k', v') :: mapInsert k v t

/-- `BTreeMap::get`. -/
def mapGet {α : Type} (k : Nat) : List (Nat × α) → Option α
  | [] => none
  | (k', v') :: t => if k' = k then some v' else mapGet k t

/-- `BTreeMap::remove`. -/
def mapRemove {α : Type} (k : Nat) : List (Nat × α) → List (Nat × α)
  | [] => []
  | (k', v') :: t => if k' = k then t else (k', v') :: mapRemove k t

/-- number of values of a `u64` -/
def u64Size : Nat := 18446744073709551616

namespace Sketch

/-- `Sketch::new` / `Default` (`src/sketch/mod.rs:24,32-34`). -/
def new : Sketch := ⟨[], 0, []⟩

/-- the cells of a sketch in iteration order -/
def cells (s : Sketch) : List PrimCell := s.prims.map (·.2)

/-- `self.primitives.iter().any(|(_, p)| p == x)`. -/
def hasPrim (s : Sketch) (x : PrimCell) : Bool := s.prims.any (fun kp => decide (kp.2 = x))

/-- `Sketch::add_primitive` (`mod.rs:36-52`).  `u64` arithmetic wraps (release build; a debug build panics on overflow
after `2^64` additions). -/
def addPrimitive (h : Heap F) (s : Sketch) (p : PrimCell) : Except Err Nat × Sketch :=
  if (primRefs h p).any (fun r => !s.hasPrim r) then (.error .missingSketchReferences, s)
  else if s.hasPrim p then (.error .primitiveAlreadyInSketch, s)
  else
    let s' : Sketch :=
      { s with prims := mapInsert s.nextId p s.prims, nextId := (s.nextId + 1) % u64Size }
    (.ok ((s'.nextId + (u64Size - 1)) % u64Size), s')

/-- `Sketch::add_constraint` (`mod.rs:157-172`). -/
def addConstraint (h : Heap F) (s : Sketch) (c : Nat) : Except Err Unit × Sketch :=
  if (consRefs (h.cons c)).any (fun r => !s.hasPrim r) then (.error .missingSketchReferences, s)
  else if s.cons.any (fun c' => decide (c' = c)) then (.error .constraintAlreadyInSketch, s)
  else (.ok (), { s with cons := s.cons ++ [c] })

/-- `Sketch::get_num_primitives` (`mod.rs:153-155`). -/
def getNumPrimitives (s : Sketch) : Nat := s.prims.length
/-- `Sketch::get_num_constraints` (`mod.rs:174-176`). -/
def getNumConstraints (s : Sketch) : Nat := s.cons.length

/-- `Sketch::delete_primitive` (`mod.rs:178-184`). -/
def deletePrimitive (s : Sketch) (id : Nat) : Except Err Unit × Sketch :=
  match mapGet id s.prims with
  | none => (.error (.primitiveNotFound id), s)
  | some _ => (.ok (), { s with prims := mapRemove id s.prims })

/-- `Sketch::delete_constraint` (`mod.rs:186-195`), with the `retain` predicate exactly as written. -/
def deleteConstraint (s : Sketch) (c : Nat) : Except Err Unit × Sketch :=
  let s' : Sketch := { s with cons := s.cons.filter (fun c' => decide (c' = c)) }
  if s.cons.length = s'.cons.length then (.error .constraintNotFound, s') else (.ok (), s')

/-- `Sketch::get_primitive_id` (`mod.rs:358-363`). -/
def getPrimitiveId (s : Sketch) (p : PrimCell) : Option Nat :=
  (s.prims.find? (fun kp => decide (p = kp.2))).map (·.1)

/-- `Sketch::get_primitive_by_id` (`mod.rs:365-367`). -/
def getPrimitiveById (s : Sketch) (id : Nat) : Option PrimCell := mapGet id s.prims

end Sketch

section
variable [Num F]

/-- `Sketch::get_n_dofs` (`mod.rs:205-211`). -/
def getNDofs (h : Heap F) (s : Sketch) : Nat :=
  s.prims.foldl (fun n kp => n + (primData h kp.2).length) 0

/-- `v.rows_mut(i, block.len()).copy_from(block)` (`mod.rs:219-220`, `252-254`, `282-285`). -/
def blit (buf : List F) (i : Nat) (block : List F) : List F :=
  buf.take i ++ block ++ buf.drop (i + block.length)

/-- `DVector::zeros(n)`. -/
def zerosVec (n : Nat) : List F := List.replicate n (0.0 : F)

/-- `Sketch::get_data` (`mod.rs:213-224`). -/
def getData (h : Heap F) (s : Sketch) : List F :=
  (s.prims.foldl
    (fun (st : List F × Nat) kp =>
      (blit st.1 st.2 (primData h kp.2), st.2 + (primData h kp.2).length))
    (zerosVec (getNDofs h s), 0)).1

/-- `Sketch::get_loss` (`mod.rs:226-232`). -/
def getLoss (h : Heap F) (s : Sketch) : F :=
  s.cons.foldl (fun loss c => loss + lossValue h (h.cons c)) (0.0 : F)

/-- The two zeroing loops (`mod.rs:235-237`, `272-274`). -/
def zeroGrads (h : Heap F) (s : Sketch) : Heap F :=
  s.prims.foldl (fun h kp => primZeroGrad h kp.2) h

/-- The accumulation loop (`mod.rs:239-241`). -/
def updateAll (h : Heap F) (cs : List Nat) : Except (Heap F) (Heap F) :=
  cs.foldlM (fun h c => updateGradient h (h.cons c)) h

/-- The loop that copies primitive gradients into the result and asserts that they are finite (`mod.rs:243-257`);
`none` is the assertion failure. -/
def collectGradient (h : Heap F) (s : Sketch) : Option (List F) :=
  (s.prims.foldlM
    (fun (st : List F × Nat) kp =>
      if (primGrad h kp.2).all Num.isFinite then
        some (blit st.1 st.2 (primGrad h kp.2), st.2 + (primGrad h kp.2).length)
      else none)
    (zerosVec (getNDofs h s), 0)).map (·.1)

/-- `Sketch::get_gradient` (`mod.rs:234-258`). -/
def getGradient (h : Heap F) (s : Sketch) : Except (Heap F) (List F × Heap F) :=
  match updateAll (zeroGrads h s) s.cons with
  | .error h' => .error h'
  | .ok h' =>
    match collectGradient h' s with
    | none => .error h'
    | some g => .ok (g, h')

/-- `Sketch::get_loss_per_constraint` (`mod.rs:260-266`). -/
def getLossPerConstraint (h : Heap F) (s : Sketch) : List F := s.cons.map (fun c => lossValue h (h.cons c))

/-- One row of the Jacobian: the copying loop of `get_jacobian` (`mod.rs:278-287`; no finiteness assertion). -/
def jacobianRow (h : Heap F) (s : Sketch) : List F :=
  (s.prims.foldl
    (fun (st : List F × Nat) kp =>
      (blit st.1 st.2 (primGrad h kp.2), st.2 + (primGrad h kp.2).length))
    (zerosVec (getNDofs h s), 0)).1

/-- The loop over constraints of `Sketch::get_jacobian` (`mod.rs:270-288`). -/
def jacobianRows (s : Sketch) : List Nat → Heap F → Except (Heap F) (List (List F) × Heap F)
  | [], h => .ok ([], h)
  | c :: cs, h =>
    let h1 := zeroGrads h s
    match updateGradient h1 (h1.cons c) with
    | .error h2 => .error h2
    | .ok h2 =>
      match jacobianRows s cs h2 with
      | .error h3 => .error h3
      | .ok (rows, h3) => .ok (jacobianRow h2 s :: rows, h3)

/-- `Sketch::get_jacobian` (`mod.rs:268-290`): row `i` is the gradient of constraint `i`. -/
def getJacobian (h : Heap F) (s : Sketch) : Except (Heap F) (List (List F) × Heap F) :=
  jacobianRows s s.cons h

/-- The loop of `Sketch::set_data` (`mod.rs:294-299`): entries still to visit, offset `i`, heap. -/
def setDataLoop (data : List F) : List (Nat × PrimCell) → Nat → Heap F → Except (Heap F) (Heap F)
  | [], _, h => .ok h
  | kp :: kps, i, h =>
    let n := (primData h kp.2).length
    match primSetData h kp.2 ((data.drop i).take n) with
    | .error h' => .error h'
    | .ok h' => setDataLoop data kps (i + n) h'

/-- `Sketch::set_data` (`mod.rs:292-300`). -/
def setData (h : Heap F) (s : Sketch) (data : List F) : Except (Heap F) (Heap F) :=
  if data.length = getNDofs h s then setDataLoop data s.prims 0 h else .error h

/-- One entry of a matrix-vector product (nalgebra's `gemv`): terms added from the first to the last. -/
def dotL : List F → List F → F
  | [], _ => 0.0
  | _, [] => 0.0
  | a :: as, b :: bs => (as.zip bs).foldl (fun acc p => acc + p.1 * p.2) (a * b)

/-- The loop of nalgebra's dot product over the products `a_i * b_i`: eight accumulators as long as eight products remain, then
`res += acc0 + acc4` and so on, then the remaining products one by one. -/
def dotLoop (a0 a1 a2 a3 a4 a5 a6 a7 : F) : List F → F
  | p0 :: p1 :: p2 :: p3 :: p4 :: p5 :: p6 :: p7 :: ps =>
    dotLoop (a0 + p0) (a1 + p1) (a2 + p2) (a3 + p3) (a4 + p4) (a5 + p5) (a6 + p6) (a7 + p7) ps
  | ps => ps.foldl (· + ·) ((((0.0 : F) + (a0 + a4)) + (a1 + a5)) + (a2 + a6) + (a3 + a7))

/-- `DVector::dot` (nalgebra `base/blas.rs`, `dotx`). -/
def dotV (a b : List F) : F := dotLoop 0.0 0.0 0.0 0.0 0.0 0.0 0.0 0.0 (List.zipWith (· * ·) a b)

/-- `DVector::norm`. -/
def normL (v : List F) : F := Num.sqrt (dotV v v)

/-- Inner loop of `check_gradients` over the coordinates `i..` of one primitive (`mod.rs:320-333`), collecting the
numerical gradient. -/
def checkPrimLoop (c : Nat) (eps closs : F) (p : PrimCell) (orig : List F) :
    List Nat → Heap F → Except (Heap F) (List F × Heap F)
  | [], h => .ok ([], h)
  | i :: is, h =>
    match primSetData h p (orig.set i (orig.getD i 0.0 + eps)) with
    | .error h' => .error h'
    | .ok h1 =>
      let newLoss := lossValue h1 (h1.cons c)
      match primSetData h1 p orig with
      | .error h' => .error h'
      | .ok h2 =>
        match checkPrimLoop c eps closs p orig is h2 with
        | .error h' => .error h'
        | .ok (g, h3) => .ok ((newLoss - closs) / eps :: g, h3)

/-- Outer loop of `check_gradients` (`mod.rs:314-341`). -/
def checkPrims (c : Nat) (eps closs checkEps : F) : List (Nat × PrimCell) → Heap F → Except (Heap F) (Heap F)
  | [], h => .ok h
  | kp :: kps, h =>
    let orig := primData h kp.2
    let analytical := primGrad h kp.2
    if orig.length = analytical.length then
      match checkPrimLoop c eps closs kp.2 orig (List.range orig.length) h with
      | .error h' => .error h'
      | .ok (numerical, h1) =>
        if normL (List.zipWith (· - ·) numerical analytical) <. checkEps then checkPrims c eps closs checkEps kps h1
        else .error h1
    else .error h

/-- `Sketch::check_gradients` (`mod.rs:303-342`); printing is dropped. -/
def checkGradients (h : Heap F) (s : Sketch) (eps : F) (c : Nat) (checkEps : F) : Except (Heap F) (Heap F) :=
  match getGradient h s with
  | .error h' => .error h'
  | .ok (_, h1) => checkPrims c eps (lossValue h1 (h1.cons c)) checkEps s.prims h1

/-- `Sketch::get_all_points` (`mod.rs:345-356`): copies of the points with their ids. -/
def getAllPoints (h : Heap F) (s : Sketch) : List (Nat × Point2 F) :=
  s.prims.filterMap (fun kp =>
    match kp.2 with
    | .point a => some (kp.1, h.points a)
    | _ => none)

end
end Isotope
