# ISOtope in Lean 4: design

Read with `properties.jsonl` (what is claimed), `MANIFEST.json` (which theorem proves it), `AXIOMS.md` (axioms of each
theorem) and `seeded/LOG.jsonl` (wrong programs tried against the theorems).

## 1. Shape of the model

* **Numbers.** Every model function is generic in the number type: `class Num F` (`Verif/Num.lean`) lists exactly
  the `f64` operations the Rust code uses (`+ - * / neg sqrt cos sin acos atan2 % abs`, the comparisons, `is_finite`,
  `total_cmp`, literals), with *no* laws.  Theorems come in four strengths:
  1. *any arithmetic* (`[Num F]` only): no law is used, so the theorem covers IEEE binary64 whatever its rounding does;
  2. *laws*: the classes `FloatLaws` (`Spec.lean`), `TotalCmpLaws`, `OrderLaws` (`SpecRing.lean`) and `NonFiniteLaws` (`Lemmas/NonFinite.lean`) list a few facts that
     hold for every monotone rounding; proved for binary64 in `B64Laws.lean`;
  3. *exact arithmetic*: the instance `XR` (`fin r | pinf | ninf | nan` with `r : ℝ`), IEEE-like special values but no
     rounding, no overflow, no signed zero.  Here losses, gradients and derivatives are compared with Mathlib's calculus.
  4. *binary64*: the instance `B64 lm` (`Round.lean`, `B64.lean`): IEEE 754 binary64 with rounding to nearest even, subnormal
     numbers, overflow and signed zeros, over an arbitrary mathematical library `lm` (`cos sin acos atan2`).
  The note of each claim in `MANIFEST.json` says which strength applies.  The same generic model runs on Lean's `Float`; the
  repository's own unit tests are replayed on it in `Verif/Test/Replay.lean` (tests, not proofs).
* **Memory.** `Rc<RefCell<T>>` handles are addresses; `Heap F` holds the points, lines, arcs, circles and constraints.
  Handle equality (`ptr::eq`) is equality of addresses.  Constraints and lines share points by address, as in Rust.
* **Panics and errors.** `Result` stays data.  A panic is `Except.error` carrying the heap at the panic point, so what a
  `catch_unwind` caller would see is part of the model.
* **Sketch.** `BTreeMap<u64, PrimitiveCell>` is a key-sorted association list with an ordered insert; the id counter
  wraps at 2^64 as in release builds; `VecDeque` of constraints is a list.
* **Histories.** `Op` enumerates the public API, `step : World → Op → World × Out`; invariants are proved for every list of ops.
  `Model/Multi.lean` extends this to programs with many sketches and clones over one heap.
* **External code.** `geo` (`contains`, `interior_point`) and nalgebra's `pseudo_inverse` are parameters of the functions that
  call them; theorems hold for every choice of them, or state the assumption made (`GoodPInv`, `RealPInv`, generalised inverse
  per step).  nalgebra's vector and matrix operations are written out as folds over lists (`Model/Solver.lean`).
* **Borrow flags.** A second, instrumented model (`Model/Borrow.lean`, `Model/BorrowApi.lean`) runs the library in a monad that
  carries the `RefCell` flag of every cell; `borrow()`/`borrow_mut()` check and set the flag for as long as the guard lives in the
  source.  It is proved to compute the same results as the first model.
* **Serialisation.** `Model/Serde.lean`: a document is a tree of values; saving unfolds every `Rc`, loading allocates a new
  object for every `Rc` read (serde feature `rc`).
* **Ghost data.** Solvers return, besides the result, the list of accepted steps and counters.  No decision depends on them;
  statements about executions ("every accepted step ...") refer to them.

## 2. Properties

Specifications independent of the model's helpers are in `Spec.lean` (vocabulary of histories, frames, `primFields`,
`consFields`), `SpecReal.lean` (geometry in `EuclideanSpace ℝ (Fin 2)`, `Regular`, `lossAfter`, matrices), `SpecRing.lean`
(chains of segments, polygons), `SpecLocal.lean` (distance to a solution), `SpecCut.lean` (pseudo-inverse with a cut-off,
separate constraints), `SpecLeft.lean` (left turns, circuits),
`SpecSmooth.lean` (smooth losses, sketches without circuits), `SpecChord.lean` (a new line or point in a drawing),
`SpecAlike.lean` (runs of solvers side by side), `SpecTurn.lean` (turned and mirrored sketches), `SpecFloat.lean`
(constraints met up to a tolerance, in binary64), `SpecApart.lean` (objects of a sketch, several sketches), `SpecPart.lean` (an
unconnected part of a sketch), `SpecConflict.lean` (constraints in conflict),
`SpecCount.lean` (the points of a sketch), `SpecResume.lean` (iteration limits, solving again), `SpecStill.lean` (sketches made of two),
`SpecNear.lean` (binary64 sketches in exact arithmetic, error bounds), `SpecClear.lean` (drawings of lines in binary64),
`SpecDescent.lean` (runs of gradient descent in binary64), `SpecAlone.lean` (constraints that share no coordinate), `SpecDelete.lean` (deleted primitives),
`SpecNearest.lean` (positions with least loss), `SpecLong.lean` (long lines), `SpecSwap.lean` (exchanged objects), `SpecMet.lean`
(by how much a constraint is missed), `SpecUnit.lean` (another unit of length), `SpecEdit.lean` (edited desired values), `SpecPath.lean` (the length of the way of a solver),
`SpecSelf.lean` (gradients that are not NaN; loops of lines), `SpecSym.lean` (renamed objects; symmetric and flat sketches), `SpecBalance.lean` (the centre of gravity of a group of points), `SpecTorque.lean` (turning a sketch about a point), `SpecSpread.lean` (the spread of a sketch) and `SpecWay.lean` (how far the coordinates move).

@@TABLE@@

### Properties refuted by the code

The guide's third case (model and code agree, the property is false of both).  The statement in `properties.jsonl` was reworded to
what is true, a theorem gives a concrete counterexample to the original wording, and the note in `MANIFEST.json` says so.

* C06: references can leave the sketch by `delete_primitive` and by `Line::set_start` and friends.
* C08: `delete_constraint` keeps exactly the constraint to be deleted and drops all others (`retain` with `ptr::eq`).
* C27: a failed line search leaves the sketch moved; the loss can grow by a factor of a million.
* C33 (general form): after a failed line search BFGS steps from stale coordinates.
* C37: all four solvers return `Ok` on unsolved sketches.
* C43-C46, C48: face detection reports unused segments wrongly, attaches holes to the wrong face, loses rings when gradients are
  stored in arcs.
* C52, C53: a clone shares its primitives; a loaded sketch has lost all sharing, so solving it has no effect.

## 3. Trusted base

* Lean's kernel with the axioms `propext`, `Classical.choice`, `Quot.sound`; `AXIOMS.md` lists them per theorem (generated from
  `#print axioms`).  No `sorry`, `native_decide`, `bv_decide`, no axioms of our own.
* The reading of the Rust code documented at each definition (file and lines), and the simplifications listed there and below.
* That `f64` on the target is IEEE binary64 as written in `B64.lean` (one NaN: its payload and sign are never looked at).  The law
  classes `FloatLaws`, `TotalCmpLaws`, `OrderLaws`, `NonFiniteLaws` are theorems about it, not assumptions.
* For theorems about histories: that a Rust client can act on a sketch only through the listed calls (fields are private).
* That rustc, the standard library, nalgebra's elementary operations, serde's derive and `Rc`/`RefCell` behave as documented
  (nalgebra's source is not in the sandbox; `Matrix::angle`, used by the circle benchmark only, is modelled from its documentation; the order of
  summation in `DVector::dot` from memory of its source).

## 4. What is modelled

| source | model |
|----|----|
| `src/primitives/{mod,point2,line,arc,circle}.rs` | `Model/Prim.lean` (all functions; `Debug` output excepted) |
| `src/constraints/**` | `Model/Constraint.lean` (all twelve kinds: constructor checks, setters in `Model/Setters.lean`, `references`, `loss_value`, `update_gradient`) |
| `src/sketch/mod.rs`, `src/error.rs` | `Model/Sketch.lean`, `Model/Api.lean` (all public functions) |
| `src/solvers/*.rs` | `Model/Solver.lean` (line search and all four solvers) |
| `src/decompose/{mod,segment,ring,face}.rs` | `Model/Decompose.lean` |
| derives `Clone`, `Serialize`, `Deserialize` | `Model/Multi.lean`, `Model/Serde.lean` |
| `src/examples/*.rs`, `benches/solvers/*.rs` | `Model/Examples.lean` (sketches, checks, one benchmark run) |
| `RefCell` borrows in all of the above | `Model/Borrow.lean`, `Model/BorrowApi.lean` |
| unit tests in these files | replayed in `Test/Replay.lean` where they do not depend on random numbers |

## 5. What is not modelled

* Rounding, overflow and signed zero in the exact-arithmetic theorems; `atan2` at infinities.
* nalgebra's multiplications by 1 (`gemv` with `alpha = 1`) and the order of summation in products of matrices with more than five
  rows and columns (`matrixmultiply`): these sums are left folds.  Matters only for which rounding errors occur.  `DVector::dot`
  and `norm` are modelled with their eight accumulators (`dotV`).
* `Debug`, `println!` in `check_gradients`, the serde wire format, `tsify`/`wasm-bindgen` attributes.
* `src/intersections/mod.rs` (its only function is `todo!()`); printing and timing in `benches/`.
* The internals of `geo` and of nalgebra's SVD.
* Vtable addresses in `ptr::eq` on `*const dyn` (assumed equal for the same object).
* Allocation failure, stack overflow, threads (`Rc` is not `Send`).
* `sort_by` evaluates its comparator per comparison; the borrow model evaluates it once per ring.

## 6. Reading `seeded/LOG.jsonl`

* Each line is one wrong program: the model edited in a scratch copy, every dependent file rechecked with failing declarations
  replaced by `sorry`, and each claimed theorem tested for a dependency on one.
* `failed` lists the theorems of the scratch copy whose proof, or a lemma it uses, no longer checks.  It is an upper bound: a proof
  may break although its statement stays true of the edited model.  Where this was in doubt the lemmas were adapted to the edit
  and the attempt repeated (ids ending in `b`).
* `correction`: the first version of these lines also listed theorems added after the scratch copy was made, because a theorem
  absent from the copy was counted as failed.  Those names are removed; such lines say nothing about those theorems.  No verdict on
  an expected property depended on them.  The harness now stops when its copy lacks a claimed theorem.
