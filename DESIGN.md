# ISOtope in Lean 4: design

Read with `properties.jsonl` (what is claimed), `MANIFEST.json` (which theorem proves it), `AXIOMS.md` (axioms of each
theorem) and `seeded/LOG.jsonl` (wrong programs tried against the theorems).

## 1. Shape of the model

* **Numbers.** Every model function is generic in the number type: `class Num F` (`Verif/Num.lean`) lists exactly
  the `f64` operations the Rust code uses (`+ - * / neg sqrt cos sin acos atan2 % abs`, the comparisons, `is_finite`,
  `total_cmp`, literals), with *no* laws.  Theorems come in four strengths:
  1. *any arithmetic* (`[Num F]` only): no law is used, so the theorem covers IEEE binary64 whatever its rounding does;
  2. *laws*: the classes `FloatLaws` (`Spec.lean`), `TotalCmpLaws`, `OrderLaws` (`SpecRing.lean`) and `NonFiniteLaws` (`Lemmas/NonFinite.lean`) list a few facts that
     hold for every monotone rounding; proved for binary64 in `B64Laws.lean`;
  3. *exact arithmetic*: the instance `XR` (`fin r | pinf | ninf | nan` with `r : ℝ`), IEEE-like special values but no
     rounding, no overflow, no signed zero.  Here losses, gradients and derivatives are compared with Mathlib's calculus.
  4. *binary64*: the instance `B64 lm` (`Round.lean`, `B64.lean`): IEEE 754 binary64 with rounding to nearest even, subnormal
     numbers, overflow and signed zeros, over an arbitrary mathematical library `lm` (`cos sin acos atan2`).
  The note of each claim in `MANIFEST.json` says which strength applies.  The same generic model runs on Lean's `Float`; the
  repository's own unit tests are replayed on it in `Verif/Test/Replay.lean` (tests, not proofs).
* **Memory.** `Rc<RefCell<T>>` handles are addresses; `Heap F` holds the points, lines, arcs, circles and constraints.
  Handle equality (`ptr::eq`) is equality of addresses.  Constraints and lines share points by address, as in Rust.
* **Panics and errors.** `Result` stays data.  A panic is `Except.error` carrying the heap at the panic point, so what a
  `catch_unwind` caller would see is part of the model.
* **Sketch.** `BTreeMap<u64, PrimitiveCell>` is a key-sorted association list with an ordered insert; the id counter
  wraps at 2^64 as in release builds; `VecDeque` of constraints is a list.
* **Histories.** `Op` enumerates the public API, `step : World → Op → World × Out`; invariants are proved for every list of ops.
  `Model/Multi.lean` extends this to programs with many sketches and clones over one heap.
* **External code.** `geo` (`contains`, `interior_point`) and nalgebra's `pseudo_inverse` are parameters of the functions that
  call them; theorems hold for every choice of them, or state the assumption made (`GoodPInv`, `RealPInv`, generalised inverse
  per step).  nalgebra's vector and matrix operations are written out as folds over lists (`Model/Solver.lean`).
* **Borrow flags.** A second, instrumented model (`Model/Borrow.lean`, `Model/BorrowApi.lean`) runs the library in a monad that
  carries the `RefCell` flag of every cell; `borrow()`/`borrow_mut()` check and set the flag for as long as the guard lives in the
  source.  It is proved to compute the same results as the first model.
* **Serialisation.** `Model/Serde.lean`: a document is a tree of values; saving unfolds every `Rc`, loading allocates a new
  object for every `Rc` read (serde feature `rc`).
* **Ghost data.** Solvers return, besides the result, the list of accepted steps and counters.  No decision depends on them;
  statements about executions ("every accepted step ...") refer to them.

## 2. Properties

Specifications independent of the model's helpers are in `Spec.lean` (vocabulary of histories, frames, `primFields`,
`consFields`), `SpecReal.lean` (geometry in `EuclideanSpace ℝ (Fin 2)`, `Regular`, `lossAfter`, matrices), `SpecRing.lean`
(chains of segments, polygons), `SpecLocal.lean` (distance to a solution), `SpecCut.lean` (pseudo-inverse with a cut-off,
separate constraints), `SpecLeft.lean` (left turns, circuits),
`SpecSmooth.lean` (smooth losses, sketches without circuits), `SpecChord.lean` (a new line or point in a drawing),
`SpecAlike.lean` (runs of solvers side by side), `SpecTurn.lean` (turned and mirrored sketches), `SpecFloat.lean`
(constraints met up to a tolerance, in binary64), `SpecApart.lean` (objects of a sketch, several sketches), `SpecPart.lean` (an
unconnected part of a sketch), `SpecConflict.lean` (constraints in conflict),
`SpecCount.lean` (the points of a sketch), `SpecResume.lean` (iteration limits, solving again), `SpecStill.lean` (sketches made of two),
`SpecNear.lean` (binary64 sketches in exact arithmetic, error bounds), `SpecClear.lean` (drawings of lines in binary64),
`SpecDescent.lean` (runs of gradient descent in binary64), `SpecAlone.lean` (constraints that share no coordinate), `SpecDelete.lean` (deleted primitives),
`SpecNearest.lean` (positions with least loss), `SpecLong.lean` (long lines), `SpecSwap.lean` (exchanged objects), `SpecMet.lean`
(by how much a constraint is missed), `SpecUnit.lean` (another unit of length), `SpecEdit.lean` (edited desired values), `SpecPath.lean` (the length of the way of a solver),
`SpecSelf.lean` (gradients that are not NaN; loops of lines), `SpecSym.lean` (renamed objects; symmetric and flat sketches), `SpecBalance.lean` (the centre of gravity of a group of points), `SpecTorque.lean` (turning a sketch about a point), `SpecSpread.lean` (the spread of a sketch) and `SpecWay.lean` (how far the coordinates move).

| id | property | modelled | proof | theorems |
|----|----|----|----|----|
| C01 | Primitive ids are never reused | `Sketch` bookkeeping, `Op`/`step` | invariant over the log of calls, by induction over histories | `ids_increase`, `new_id_never_used`, `returned_id` |
| C02 | add_primitive accepts exactly the well-referenced new primitives | `add_primitive` | case analysis on the reference check, for every state | `ok_iff`, `errors`, `ok_effect` |
| C03 | Lookup by id follows the add/delete history | `Sketch` bookkeeping, `Op`/`step` | invariant over the log of calls, by induction over histories | `lookup_iff`, `found`, `not_before`, `deleted` |
| C04 | get_primitive_id is the inverse of get_primitive_by_id | lookup in both directions | sortedness and uniqueness of the map, every reachable state | `inverse`, `unique` |
| C05 | No object is in a sketch twice | `Sketch` bookkeeping, `Op`/`step` | invariant over the log of calls, by induction over histories | `no_duplicates` |
| C06 | References are closed | `Closed` over `Op`/`step` | invariant over histories without delete and re-pointing; two counterexample histories | `closed`, `closed_without_delete`, `refuted_by_delete`, `refuted_by_set_start` |
| C07 | delete_primitive removes exactly one id | `delete_primitive` | direct, with frame; reachable states | `absent`, `present`, `reachable` |
| C08 | Effect of delete_constraint | `delete_constraint` | exact effect; equivalence of the intended contract with emptiness | `actual_effect`, `spec_iff_empty` |
| C09 | Convenience constructors | convenience constructors `add_point2` etc. | unfolding with frame | `add_point2`, `add_line`, `add_arc` |
| C10 | add_constraint accepts exactly the well-referenced new constraints | `add_constraint` and `constrain_*` | case analysis, every state | `add_constraint`, `constrain` |
| C11 | Counts and degrees of freedom | `Sketch` bookkeeping, `Op`/`step` | invariant over the log of calls, by induction over histories | `count`, `dofs`, `lengths` |
| C12 | set_data then get_data returns the vector | `get_data`/`set_data` over the heap, panic heap | induction over the primitive list with offsets | `layout`, `roundtrip`, `history` |
| C13 | set_data(get_data()) changes nothing | `get_data`/`set_data` over the heap, panic heap | induction over the primitive list with offsets | `write_back` |
| C14 | set_data frame and panic conditions | `get_data`/`set_data` over the heap, panic heap | induction over the primitive list with offsets | `ok_iff`, `wrong_length`, `non_finite`, `frame` |
| C15 | The loss is a non-negative sum | `get_loss`, `get_loss_per_constraint` | induction over constraints; sign by algebra | `sum`, `entries`, `nonneg`, `total_nonneg`, `zero_iff`, `finite` |
| C16 | Zero loss means satisfied: distances | `loss_value` of each kind | real algebra and trigonometry against Mathlib's `dist` and `angle` | `euclidean`, `negative`, `horizontal`, `vertical` |
| C17 | Zero loss means satisfied: fix and coincident | `loss_value` of each kind | real algebra and trigonometry against Mathlib's `dist` and `angle` | `fix`, `arc_start`, `arc_end` |
| C18 | Zero loss means satisfied: lines | `loss_value` of each kind | real algebra and trigonometry against Mathlib's `dist` and `angle` | `horizontal`, `vertical`, `equal_length`, `parallel`, `perpendicular` |
| C19 | Zero loss means satisfied: angle | `loss_value` of each kind | real algebra and trigonometry against Mathlib's `dist` and `angle` | `angle`, `short_arm`, `unsatisfiable` |
| C20 | get_gradient is the derivative of get_loss | `get_gradient`, `get_jacobian`, `update_gradient` of each kind | Frechet derivative of each kernel, then bookkeeping of accumulation with aliasing | `domain`, `gradient`, `history` |
| C21 | Jacobian rows are the constraint gradients | `get_gradient`, `get_jacobian`, `update_gradient` of each kind | Frechet derivative of each kernel, then bookkeeping of accumulation with aliasing | `jacobian` |
| C22 | When get_gradient panics | panics of `update_gradient` | per kind: contributions are finite except for zero-length lines | `panics_iff` |
| C23 | Queries do not move the sketch | zeroing loops and accumulation | frame lemmas by induction | `gradient_finite`, `gradient_frame`, `jacobian_frame`, `gradient_independent`, `gradient_idempotent`, `jacobian_independent` |
| C24 | A satisfied constraint exerts no force | contributions of each kind | closed forms of the contributions | `row`, `gradient` |
| C25 | Internal forces balance | contributions of each kind | closed forms of the contributions | `constraint`, `sketch` |
| C26 | Contract of the line search | `line_search_wolfe` | induction over the 15 trials | `not_descent`, `accepted`, `failed`, `not_descent_exact`, `accepted_exact` |
| C27 | A failed solve moves the sketch | line search, gradient descent | estimate of all 15 trials; concrete history | `stiff`, `failed_moves` |
| C28 | Gradient solver never increases the loss | `GradientBasedSolver::solve` | loop invariant | `sufficient_decrease`, `monotone` |
| C29 | Why the gradient solver stopped | `GradientBasedSolver::solve` | loop invariant | `stop`, `stop_exact` |
| C30 | BFGS terminates | `BFGSSolver::solve` with its uncounted `continue` | measure on iterations and failures | `terminates`, `stop`, `stop_exact` |
| C31 | BFGS keeps its matrix positive definite | BFGS matrix update on list matrices | bridge to `Matrix`, quadratic form identity, loop invariant | `positive_definite`, `descent` |
| C32 | BFGS secant equation | BFGS matrix update on list matrices | bridge to `Matrix`, quadratic form identity, loop invariant | `secant`, `run` |
| C33 | BFGS never increases the loss | `BFGSSolver::solve` | loop invariant | `sufficient_decrease`, `monotone`, `stale_step` |
| C34 | Gauss-Newton and Levenberg-Marquardt bounds | `gnSolve`, `lmSolve` over an arbitrary pseudo-inverse | loop invariant; zero residual gives zero step | `gn_ok`, `lm_ok`, `gn_terminates`, `lm_terminates`, `gn_stop`, `lm_stop`, `gn_leads`, `lm_leads`, `gn_fixed`, `lm_fixed`, `gn_stop_exact`, `lm_stop_exact` |
| C35 | Solvers only move coordinates | all four solvers | frame relation preserved by every primitive operation | `solver_frame`, `world` |
| C36 | A solved sketch stays put | all four solvers | frame relation preserved by every primitive operation | `gd_stays`, `bfgs_stays`, `bfgs_stays_gradient`, `gd_stays_exact`, `bfgs_stays_exact` |
| C37 | Ok does not mean solved | all four solvers, distance constraint | no force under 1e-6; concrete history | `stuck`, `ok_not_solved` |
| C38 | Rings are closed chains of sketch segments | `find_rings`, `find_next_segment` | invariant of the walk, permutation by sorting | `closed_chain` |
| C39 | A directed segment is used at most once | `find_rings`, `find_next_segment` | invariant of the walk, permutation by sorting | `used_once`, `count` |
| C40 | Rings come sorted with positive area | `find_rings`, `find_next_segment` | invariant of the walk, permutation by sorting | `sorted`, `positive`, `circles`, `nothing_lost`, `circle_nonzero` |
| C41 | find_next_segment takes the hardest left turn | `find_next_segment`, `angle_difference` | fold over candidates; real `%` and `atan2` | `hardest_left_float`, `turn_finite`, `direction`, `lines`, `none`, `some`, `hardest_left` |
| C42 | angle_difference is the counter-clockwise angle | `find_next_segment`, `angle_difference` | fold over candidates; real `%` and `atan2` | `angle_difference`, `in_range` |
| C43 | A simple polygon is found | `find_rings` on polygons | simulation of the walk along any drawing of the polygon | `lines`, `found`, `zero_area`, `way_back_line`, `way_back_arc` |
| C44 | What unused_segments means | `unused_segments` | invariant of the walk; two concrete sketches | `drawn`, `unused`, `not_in_ring`, `spur_not_reported`, `ring_reported` |
| C45 | Which faces get which holes | `find_faces`, `merge_faces` | direct, for every geometry backend | `no_panic`, `exteriors`, `holes`, `largest`, `nested_circles` |
| C46 | merge_faces keeps exactly the located faces | `find_faces`, `merge_faces` | direct, for every geometry backend | `located`, `identity`, `panic` |
| C47 | Reversing a segment | `Segment::reverse`, `Ring::signed_area`, `as_polygon` | list induction, real algebra | `swaps`, `line`, `arc`, `arc_reverse`, `closed`, `area` |
| C48 | Leftover gradients and face detection | `Segment` equality with gradients | simulation between two heaps; concrete sketch | `lines`, `face_vanishes` |
| C49 | signed_area | `Segment::reverse`, `Ring::signed_area`, `as_polygon` | list induction, real algebra | `shoelace`, `closed_polygon`, `start`, `affine`, `triangle`, `cut`, `circle`, `two_points`, `half_circles` |
| C50 | as_polygon | `Segment::reverse`, `Ring::signed_area`, `as_polygon` | list induction, real algebra | `segments`, `circle`, `distance` |
| C51 | Arc end points | `Arc::start_point` etc. | real analysis | `distance`, `start_gradient`, `end_gradient` |
| C52 | A cloned sketch shares its primitives | many sketches over one heap | invariant over multi-sketch programs, simulation | `clone`, `membership_separate`, `same_view`, `set_data_visible`, `all_well_formed`, `ids_collide` |
| C53 | Serialisation round trip | save/load of value trees | structural induction; simulation between the two heaps | `load_ids`, `load_last`, `save_load`, `values`, `unshared`, `no_force`, `loss_frozen`, `refused`, `faces`, `history` |
| C54 | check_gradients restores the coordinates | `check_gradients` | write-back lemma of C13 along the loop | `restores`, `restores_on_panic` |
| C55 | Validation by setters and constructors | setters and constructors | case analysis | `point_add`, `line_add`, `arc_add`, `circle_add`, `set_x`, `set_y`, `prim_set_data`, `constructors`, `unchecked` |
| C56 | get_all_points | `get_all_points` | induction over the map | `all_points` |
| C57 | Losses do not depend on position and orientation of the sketch | losses under rigid motions | real algebra | `translation`, `rotation` |
| C58 | RefCell borrows never clash | instrumented borrow monad | triple for every function: flags restored, no clash, same result as the first model | `queries`, `no_clash`, `guard_clash` |
| C59 | Newton steps solve the normal equations and go downhill | steps of `gnSolve`, `lmSolve` | generalised inverse algebra, C21 for the meaning of the gradient | `gauss_newton`, `levenberg_marquardt`, `gradient` |
| C60 | Gauss-Newton shrinks errors by half a step size per step | steps of `gnSolve` on sketches of coordinate differences | C59's normal equations, row independence | `step`, `run`, `default_not_solved` |
| C61 | Solvers and losses in IEEE binary64 | `B64 lm`: IEEE binary64 over an arbitrary mathematical library; the generic model instantiated at it | monotone rounding (`rnd_mono`) gives the law classes; signs for non-negativity; rounding of subnormals for underflow | `gd_monotone`, `bfgs_monotone`, `nonneg`, `total_nonneg`, `fix_underflow`, `fix_zero` |
| C62 | When get_gradient panics in binary64 | `updateAll` and `collectGradient` at `B64 lm`; panic = a gradient chunk that is not finite | a magnitude calculus `B64.Le x k` bounds every intermediate value of every `update_gradient`; partial sums of up to 2^53 terms; exact rounding of squares below 2^-1075 for the threshold | `panics_iff`, `short_line`, `zero_length`, `loss_finite`, `overflow` |
| C63 | The stairs benchmark | `stairsNew`, `stairsCheck`, `benchRun` (`Model/Examples.lean`) | closed form of the sketch (`Lemmas/Layout.lean`); errors accumulate along the chain: (a+b)² ≤ 2(i+2)(A+B); explicit bad state for the converse | `stairs_build`, `stairs_empty`, `stairs_error`, `stairs_zero`, `stairs_check`, `stairs_run`, `stairs_gap`, `stairs_last` |
| C64 | The axis-aligned rectangle | `axisNew`, `axisAsserts` | the loss is a sum of eight squares; Cauchy-Schwarz per corner; explicit bad state | `axis_build`, `axis_error`, `axis_zero`, `axis_asserts`, `axis_gap`, `axis_run` |
| C65 | The rotated rectangle | `rotatedNew`, `rotatedCheck` | zero-loss equations from C16-C19 solved by hand | `rotated_build`, `rotated_zero`, `rotated_check`, `rotated_degenerate` |
| C66 | The circle benchmark | `circleNew`, `circleCheck`, `benchRun` | closed form of the sketch; FixPoint losses bound the errors | `circle_build`, `circle_empty`, `circle_build_exact`, `circle_error`, `circle_zero`, `circle_check`, `circle_run` |
| C67 | The setters | `Model/Setters.lean`: every setter, `SetterCall.run` | by cases on setter and target; the history part by an invariant over all calls (`SoundHeap`) | `primitive_setters`, `constraint_setters`, `methods`, `frame`, `other_losses`, `is_a_call`, `targets`, `unvalidated` |
| C68 | Infinities and NaN in sketches | constraints, `get_*`, `set_data`, line search and solvers as in the other properties | propagation of non-finite operands through each loss and each contribution to the gradient; `NonFiniteLaws` proved for `XR` and `B64` | `watched`, `desired_distance`, `desired_angle`, `tested`, `all_tested`, `solvers`, `solvers_binary64`, `search`, `no_step` |
| C69 | Arcs in rings and faces | `find_rings`, `find_faces`, `signed_area`, `as_polygon` | simulation of the walk between two drawings that differ in arc directions; sign analysis of the area of chains of one and two segments in `XR` and `B64`; the wrong turn is computed on an integer grid and transferred to exact arithmetic | `either_side`, `three_segments`, `three_segments_binary64`, `wrong_turn` |
| C70 | Comparing rings | `adjacent_edges`, `PartialEq` of rings, segments, points | list reasoning; the one-way case is computed on an integer grid and transferred to exact arithmetic | `adjacent_edges`, `circle_adjacent`, `mutual`, `ring_eq`, `start_matters`, `one_way` |
| C71 | The line search on linear sketches | `line_search_wolfe`, `GradientBasedSolver::solve`, `get_loss`, `get_gradient` on constraints linear in the coordinates | the sketch is turned into a linear system R x = b with loss |Rx-b|^2/2 and gradient R^T(Rx-b); the loop is simulated by a function of the bend, whose fifteen rounds are analysed by induction | `parabola`, `search`, `step`, `gd_fails`, `direction` |
| C72 | Convergence of gradient descent on linear sketches | `GradientBasedSolver::solve`, the stairs benchmark | Cauchy-Schwarz bounds bend and gradient from the two parabolas, so C71 applies in every iteration; induction on the iterations. Stairs: sums of squares of differences against sums of squares; the failing start has gradient (1, 2, ..., n), found by summation by parts | `converges`, `enough`, `stairs`, `stairs_fails` |
| C73 | Convergence of BFGS on linear sketches | `BFGSSolver::solve` with its matrix, the guard on `s_dot_y`, the line search | invariant of the matrix A: |R A g|^2 <= M g.Ag for all g, and (p.v)^2 <= nu p.Ap |Rv|^2 for p in the row space of R. The exact update keeps both (projection along the step and Cauchy-Schwarz), the guarded update makes nu worse by at most 1e-10. The invariant puts the bend along -Ag into the range of C71 and gives the decrease | `converges`, `enough`, `stairs` |
| C74 | Gradient descent repairs a solved sketch that was moved a little | `GradientBasedSolver::solve` with the line search, all twelve constraint kinds | the loss is half the square of a continuously differentiable residual near a position without degenerate constraints; at a zero of the residual the loss along the gradient is a parabola up to a relative error that shrinks with the neighbourhood, so the fifteen trials behave as in C71 up to that error; the lengths of the steps sum up to a geometric series, which keeps the iterates in the neighbourhood | `converges`, `enough`, `distance` |
| C75 | The cut-off of the pseudo-inverse stops Gauss-Newton short of its min_loss | `GaussNewtonSolver::solve`, the Jacobian of the difference constraints; `pseudo_inverse` through its specification on symmetric positive semidefinite matrices | rows of the Jacobian of constraints without common coordinates are orthogonal, hence eigenvectors of J^T J with eigenvalues 2e^2; the pseudo-inverse scales them, so every error follows its own scalar recursion; if everything is cut off the pseudo-inverse vanishes on a basis of eigenvectors (spectral theorem) | `step`, `run`, `never`, `five`, `enough`, `four`, `stall`, `flat` |
| C76 | Levenberg-Marquardt converges only like 1/sqrt(K) | `LevenbergMarquardtSolver::solve`, as in C75 | the same eigenvectors with eigenvalues 2e^2 + b; the reciprocal of e^2 grows by an amount bounded below and above in every step | `step`, `run`, `default_fails`, `enough` |
| C77 | The rings of a line drawing are its left-turn circuits | `find_rings`, `find_next_segment`, `angle_difference` in exact arithmetic, on all directed lines of the sketch | the turning angle of the code is the counter-clockwise angle from the way back, so the hardest left turn is a partial injection on directed lines; used lines always form whole circuits, so every walk follows the injection and either closes after one full circuit or ends | `rings`, `unused`, `covered`, `area` |
| C78 | Rings do not depend on the order or direction in which lines were added | as in C77 | by C77 the rings depend only on which points are joined; the example where they do depend on the order is computed on a grid | `order`, `closing_needed` |
| C79 | Rings follow the drawing when it is moved, turned, scaled, skewed or mirrored | as in C77; `affine` is the affine map of the plane | the order of left turns is decided by signs of cross products, which an orientation-preserving map keeps; in the mirror image a circuit of hardest left turns is one run through backwards; then C77 for both drawings, and sorted lists with the same elements are equal | `affine`, `unused`, `mirrored` |
| C80 | Separate parts of a drawing do not disturb each other | as in C77 | the hardest left turn at a point depends only on the lines there, so a walk stays in its part; then C77 for the three drawings | `rings`, `unused` |
| C81 | Gradient descent must come to rest | `SmoothBelow` (SpecSmooth.lean) speaks of the derivative of the loss as a function of the positions, `slopeSq` of what `get_gradient` returns | an accepted step satisfies both Wolfe conditions; the curvature condition and the bound `M` make the step at least `0.1 / M`, then sufficient decrease gives `1e-5 |g|² / M` per step, and the sum telescopes; for distances the pull of a rod is shown to be Lipschitz outside a disc | `slopes`, `steps`, `rest`, `distances` |
| C82 | In sketches without circuits only solutions stop the solvers | `IsForest`: the constraints can be ordered so that each brings in a new point | move everything that hangs behind a constraint along the residual: by induction over the order there is a displacement of length at most `K` times the residuals that every constraint sees as its own residual, so the gradient along it is twice the loss; Cauchy-Schwarz; then the descent of C81 with this bound | `steep`, `solved`, `descent`, `enough`, `bfgs`, `circuit` |
| C83 | A line across a ring cuts it in two | line drawings of C77 with one more line, in any place of the order; `PointsInto`, `ConvexAround` (SpecChord.lean) | at the two corners the new line comes last in the order of left turns, so the turn that arrives along the circuit now takes it and the turn from it leaves along the circuit; all other turns stay; then C77 for both drawings | `cut`, `unused`, `convex` |
| C84 | A point on a line only adds a corner | line drawings of C77 with one line divided; `withPoint`, `Between` (SpecChord.lean) | the half lines have the directions of the whole, so all turns are the same up to the name of the neighbour; at the new point there is only one way on; circuits correspond under `withPoint`, walks project to walks of the old drawing; then the transport lemma of C79 with factor 1 | `rings`, `unused` |
| C85 | Where a sketch lies does not matter | all four solvers; `SameRun`, `Heap.moveBy` (SpecAlike.lean) | a general theorem on runs side by side: if losses, gradients, Jacobians agree for related states and writing coordinates keeps the relation, then the runs of each solver correspond step by step; here losses and forces depend only on differences of coordinates | `anywhere` |
| C86 | The order of the constraints does not matter | all four solvers; `SameRun` (SpecAlike.lean), `GradOnly` | the theorem on runs side by side; gradients and losses are sums over the constraints, JᵀJ and Jᵀl too, and a panic of one constraint is a panic of the sum | `any_order` |
| C87 | The order and the ids of the primitives do not matter | all four solvers; `SameRun`, `Reordered`, `FollowsOrder` (SpecAlike.lean), `CutPInv` (SpecCut.lean) | the theorem on runs side by side with vectors and matrices in the other order; all scalar quantities are sums over coordinates or maxima; a symmetric matrix has an eigenbasis, so the cut-off pseudo-inverse is determined and follows the order | `any_order`, `gauss_newton`, `levenberg_marquardt` |
| C88 | What check_gradients checks | `checkGradients` (Model/Sketch.lean, modelled earlier for C54): gradient of the whole sketch, then for every coordinate of every primitive a difference quotient of the loss of the one constraint, with the coordinate put back. | `Lemmas/Check.lean`: with finite data the loops compute, for every primitive, the norm of (difference quotients minus total force); the quotients tend to the contribution of the constraint (C05's derivative), so the norm tends to the force of the others, computed independently by `getGradient` on the sketch without the constraint. | `check`, `only_constraint` |
| C89 | How a sketch is turned does not matter to the solvers | All four solvers, run on a heap and on the turned heap (`Heap.turn`, SpecTurn.lean). | `Lemmas/Turn.lean`: losses and contributions of every constraint kind turn along. `Lemmas/TurnMat.lean`: on the degrees of freedom of a sketch the turn is an orthogonal matrix Q. `Lemmas/TurnRun.lean`, `TurnNewton.lean`: data become Qx plus constants, gradients Qg, Jacobians J·Qᵀ, BFGS matrices and (by uniqueness on eigenvectors) pseudo-inverses Q·A·Qᵀ; then the general theorem on runs side by side (`Lemmas/Alike.lean`). | `losses`, `gradient_descent`, `bfgs`, `gauss_newton`, `levenberg_marquardt` |
| C90 | What Ok means in binary64 | Losses and solvers at the number type `B64 lm` (IEEE binary64, any mathematical library); `Within` and `Libm.Accurate` in SpecFloat.lean say in reals how far a constraint is met. | `Lemmas/FloatErr.lean`: relative error of rounding, no absolute error for sums and differences. `Lemmas/FloatLoss.lean`, `FloatWithin.lean`: a small finite computed loss bounds the computed residual; computed lengths, directions and cosines are near the exact ones. `Lemmas/FloatMet.lean`: one lemma for each constraint kind. `Props/FloatOk.lean`: losses are never negative, so a small sum bounds each summand; then the stopping theorems C29, C30, C34. | `gauss_newton_number`, `levenberg_marquardt_number`, `small_loss`, `bfgs`, `gd`, `gauss_newton`, `levenberg_marquardt`, `default_bfgs`, `default_gd`, `default_gauss_newton`, `default_levenberg_marquardt` |
| C91 | Sketches that share no object do not see each other | All calls that compute with a sketch, in one heap with any number of sketches (`Model/Multi.lean`); `Heap.graft`, `SameObjects`, `Sketch.Apart` in SpecApart.lean. | `Lemmas/Apart.lean`: every function of the model commutes with replacing all objects outside of the sketch by those of another heap; `Lemmas/Alike.lean` carries this through the loops of the solvers. Taking the heap itself as the other heap gives that nothing outside is written. Histories by induction. | `reads`, `writes`, `either_order`, `histories` |
| C92 | Gauss-Newton and Levenberg-Marquardt treat unconnected parts of a sketch separately | `newtonLoop` with both normal matrices, `gdSolve`; `Sketch.PartOf`, `SameData`, `PartRun` in SpecPart.lean, the pseudo-inverse as in SpecCut.lean. | `Lemmas/Part.lean`: restricting a vector to the coordinates of the part commutes with the normal matrix, hence (on a basis of eigenvectors) with its pseudo-inverse, and takes the right-hand side of the whole sketch to that of the part. Induction over the loop; the part stops no later because its loss is at most that of the whole. The example for gradient descent is computed. | `gauss_newton`, `levenberg_marquardt`, `gd_couples` |
| C93 | Constraints with a non-zero loss at rest are in conflict | `getGradient`, `lossValue`; `MetBy`, `Compatible`, `MinimalConflict`, `AtRest` in SpecConflict.lean are geometric and do not mention losses. | `Lemmas/Conflict.lean`: on each axis a constraint asks for one value of a linear form. A vanishing gradient says that the forms weighted with their errors add up to zero. Caratheodory's lemma for cones (proved here) turns this into a relation with positive coefficients between the form of the given constraint and independent ones; the independent ones can be met, with the given one they cannot since the squares of the errors would add up to zero. Minimality by removing constraints one by one. | `conflict`, `detects`, `unique`, `certificate`, `blind` |
| C94 | A sketch with conflicting constraints is solved as well as possible | `gdSolve`, `bfgsSolve`, `lineSearch`, `getGradient`, `getLoss` as in C72 and C73; the least loss is the least value of `lossAfter`; `pointIds` in SpecCount.lean. | `Lemmas/LeastSquares.lean`: the loss is that of a solvable system plus a constant and has the same gradient, and the solvers see only differences of losses and the gradient (`LinAt.gdLoop'`, `LinAt.bfgsLoop'`). Conditioning (`Lemmas/Tree.lean`): the constraints on one axis are the edges of a graph on the points and the origin; along a path the values are bounded by the root of its length times the errors, so the distance from the nearest minimum is at most N times the error. | `least`, `gd`, `gd_enough`, `bfgs`, `losses`, `highlight` |
| C95 | A limit on the iterations only cuts a run off, and gradient descent can be resumed | `gdSolve`, `bfgsSolve`, `gnSolve`, `lmSolve` over any `Num F`; `SolverKind.withMax` and `SolveOut.followedBy` in SpecResume.lean; heaps are compared by equality, or up to gradients (`GradOnly`) where a second call recomputes them. | Induction over the loops (`Lemmas/Resume.lean`): `Cuts` relates the run with limit n to the longer one. For resuming, the second call recomputes the gradient at the same coordinates (C23) and then runs side by side with the rest of the first (`alike_leftover`). The Newton-type loops carry only the loss before the last step, which is compared with min_loss once. | `limit`, `early`, `where`, `leftover`, `gd_resume`, `gn_resume`, `lm_resume`, `newton_moves`, `bfgs_again` |
| C96 | Solving leaves alone what is satisfied and not connected to anything else | All four solvers over exact arithmetic (`runSolver`); `Sketch.MadeOf`, `Sketch.Covers`, `Satisfied`, `AlikeKeeping`, `SolverKind.Exact` in SpecStill.lean; `SameRun` (SpecAlike.lean) compares the two runs. | Runs side by side (`AlikeM`, `AlikeN`, now for sketches of different sizes) with vectors and matrices over the coordinates of the whole and of the second sketch taken from one table (`Lemmas/Still.lean`): gradients vanish on the first sketch (C24 and locality of constraints), the BFGS matrix is the identity there, the normal equations are block diagonal and the pseudo-inverse follows the blocks (as in C92). A free primitive: split the sketch into the primitives no constraint looks at and the others. | `run`, `stays`, `free` |
| C97 | Losses and derivatives computed in binary64 are close to the exact ones | Losses, gradients and Jacobian of Model/Constraints.lean and Model/Sketch.lean in binary64 (`B64 lm`), compared with the same functions over exact arithmetic at `Heap.exact` (the same numbers); `Modest`, `Clear`, `spanOf`, `slopeOf`, `badness` and the error bounds in SpecNear.lean. | A calculus of rounding errors (`B64.Ap`, Lemmas/FloatNear.lean) followed through every formula of the twelve kinds (FloatGrad, FloatKinds, FloatAngle, FloatNearLoss); the gradient as a running sum of the entries of the chunks in any arithmetic (`foldChunks_entries`, FloatSum); C20 and C21 then identify the exact values as partial derivatives; C29, C30 give the stopping conditions. | `loss_per_constraint`, `loss`, `gradient`, `jacobian`, `decrease`, `bfgs`, `gd` |
| C98 | Rings found in binary64 are those of exact arithmetic unless directions or areas are nearly equal | find_rings, find_next_segment, angle_difference, signed_area (Model/Decompose.lean) in binary64 (`B64 lm`), compared with the same functions over exact arithmetic at `Heap.exact`; `DraftLines`, `SpreadLines`, `areaOf`, `areaError`, `Libm.AtanAccurate` in SpecClear.lean. | Each turn is computed with an error below half the gap between directions, up to a wrap that cannot change the maximum (`angle_near`, `turn_near`), so that the walk over indices is the same in both arithmetics (`same_walk`, Lemmas/RingSim.lean); the shoelace sum is followed through its roundings (`area_near`, Lemmas/FloatArea.lean); C77 gives the geometric description; whole coordinates bound angles from below by cross products and make all areas exact. | `unused`, `found`, `kept`, `order`, `rings`, `list`, `around`, `spread`, `grid` |
| C99 | Convergence of gradient descent on linear sketches in binary64 | gdSolve, gdLoop, line_search_wolfe, get_loss, get_gradient, set_data, the dot product with eight accumulators (Model/*.lean) in binary64 (`B64 lm`); `Suited`, `Bounded`, `sizeOf64` in SpecDescent.lean; `Squeezed` and `IsLinear` from C71, C72. | The computed loss and gradient of a linear sketch are those of a residual vector that is off by an absolute error eps and a relative error kappa (`Noisy`, Lemmas/FloatAcc, FloatLinear, FloatNoisy); as long as the loss is above min_loss the error is a small part of the residual (`Base`, Lemmas/Noise), so that one of the fifteen trials meets both Wolfe conditions as computed and the accepted one decreases the computed loss by the stated factor (Lemmas/FloatSearch, FloatStep); the distance travelled is summed up geometrically so that the coordinates stay within X (`Along`, Lemmas/FloatDescent). | `converges`, `enough` |
| C100 | The stairs benchmark in binary64 | stairsNew, stairsCheck, pointPasses, benchRun (Model/Examples.lean), get_loss, the four solvers (C100_run) and gdSolve, all in binary64 (`B64 lm`). | From the computed loss back to the losses of the constraints (a sum of nonnegative numbers loses at most a factor (1+2u)^n, Lemmas/FloatStairs), from each to its exact error (C90), and along the stairs by the inequality of C63. The descent is C99 with the conditioning of the stairs from C72, for steps of the size of the literal 0.8 in binary64 (Lemmas/StairsAny). | `build`, `error`, `check`, `run`, `descends`, `solves` |
| C101 | Constraints that share no coordinate are solved in one step | gdSolve, bfgsSolve, lineSearch and everything they call, on exact numbers (`XR`). | For each kind: along its own contributions the error is multiplied by 1 - lam*a for 0 <= a <= 1/lam, and is not smaller than before at a step of 2/lam or more (Lemmas/Alone). As no coordinate is shared, a step along the whole gradient does this to every constraint at once; the derivative of the resulting parabola gives |g|^2 = 2 lam L, so the trials of the line search can be followed: those above 1/lam fail, 1/lam is accepted (Lemmas/AloneStep). | `gd`, `bfgs`, `overshoot` |
| C102 | A deleted primitive is held in place | Sketch::delete_primitive, get_data, set_data, get_gradient, get_jacobian and all four solvers on any arithmetic; exact numbers for the derivative. | The gradient of a coordinate is the sum of the entries of all constraints in order, whatever the sketch contains (getGradient_iff, jacobianRows_iff in Lemmas/Deleted), so only the collected blocks differ. set_data is a loop over blocks; writing a primitive's own coordinates back changes nothing. For the derivative, coordinates outside the sketch are constants (depEq_open). | `data`, `gradient`, `jacobian`, `write`, `solvers`, `domain`, `derivative` |
| C103 | Solving moves a sketch to the nearest solution | All four solvers on linear sketches, exact numbers; the best positions through the model's get_loss after set_data (lossAfter). | The gradient is Rᵀ(Rx-b), orthogonal to the kernel of R; two best positions differ by a vector of the kernel. Invariants: the matrix of BFGS maps the orthogonal complement of the kernel into itself, the rows of the Jacobian (the gradients of single constraints, C21) are in it, and the cut pseudo-inverse is symmetric and has the kernel as eigenspace. The bound on the distance uses the conditioning proved for C94. | `nearest`, `gd`, `bfgs`, `gn`, `lm`, `distance`, `gd_default`, `bfgs_default` |
| C104 | Gradient descent and BFGS cannot turn long lines | line_search_wolfe, gradient descent and BFGS on sketches of perpendicular and parallel constraints, exact numbers. | Along a straight path the loss of a constraint is a function of the angle between two uniformly moving directions; its second derivative is at most 5 (e / l)² (lines at least l long, ends moving apart at speed e). So the slope stays below 0.9 times the initial one up to step size 1.5^14, which the curvature condition rejects; the displacement shortens the lines by at most 584 K / l. | `gd`, `bfgs`, `gd_default` |
| C105 | The order in which a constraint names its objects, and the direction of its lines, do not matter to the solvers | All four solvers, update_gradient and loss_value of every constraint kind, exact numbers with infinities and NaN. | The contributions of a constraint and of its other wording are the same up to order or, for a line that runs the other way, add the same to each degree of freedom, and are finite or not together; the solvers then run side by side (`Alike`). | `restated`, `queries` |
| C106 | In binary64 a sketch that is solved is recognised as solved | IEEE binary64 with round to nearest; loss_value of all constraints, get_loss and the four solvers. | The computed residual is off by a multiple of the rounding unit times the sizes that enter it; its half square is bounded with it, and the sum of the losses with the relative error of each addition. Then C36. | `loss`, `bfgs`, `gd`, `newton`, `default` |
| C107 | The unit of length, and sketches too small to be seen | The four solvers, the line search, and the constraints about lengths, in exact arithmetic. | Multiplication by a positive real commutes with every operation the constraints and solvers apply, including those on infinities and NaN; the runs are then compared step by step. For the Newton solvers the pseudo-inverse with cut-off of c^2 A is determined by its eigenvectors. Last part: the losses fall below min_loss, and all singular values below the cut-off. | `losses`, `gradient_descent`, `gauss_newton`, `levenberg_marquardt`, `too_small` |
| C108 | Small edits move a linear sketch a little, and the outcome depends neither on the solver nor on redundant constraints | The setters of desired values, the constraints on coordinates, the four solvers, in exact arithmetic. | An edit moves the right-hand side of the linear equations, so that the triangle inequality bounds the loss after it. By C103 the best position nearest to the start stays the nearest one, and its distance is at most N times the root of twice the excess of the loss; the rest is the triangle inequality between start, end and that position. | `setter`, `size`, `loss`, `moves`, `same`, `gd_edit`, `bfgs_edit`, `redundant`, `solvers` |
| C109 | How far gradient descent moves a sketch; sketches without circuits can be solved nearby | Gradient descent with its line search, the loss of constraints between points, the setters of desired values, in exact arithmetic. | The sufficient-decrease test bounds the length of each accepted step by 1e4 times the decrease of the loss over the length of the gradient; where the gradient is steep this is at most a multiple of the decrease of the root of the loss, and the sum telescopes. Sketches without circuits are steep by C82. For the solution nearby, the points are moved one constraint after the other, each with the point it brings in. | `travel`, `forest`, `solvable`, `loss`, `edit` |
| C110 | Gradients are never NaN, and nearly solved drawings are cut into rings like solved ones | All calls of the library (histories), the rings of line drawings, the axis-aligned rectangle of the tests. | Every gradient that is added passed an assertion that it is finite, and gradients start from zero; so being free of NaN is an invariant of every function, on return, on error and on panic. For (3), the change of the shoelace sum is rewritten, with the sums over first and second end points of edges being equal, as a sum of cross products of a displacement with an edge or another displacement. For (4), the distance of the corners from their places is bounded by the loss (C64) and the loss of the rectangle lies between two parabolas, so C72 applies. | `axis`, `axis_run`, `axis_descent`, `step`, `history`, `jacobian`, `outline`, `asking`, `near`, `solved` |
| C111 | Symmetric sketches stay symmetric and flat ones stay flat | The four solvers, on a sketch and on its image under a motion of the plane. | Renaming the objects of a sketch commutes with every function of the model (Lemmas/Rename). Turned (C89), moved (C85), renamed, with lines turned round and constraints restated (C105) and in another order (C87), a symmetric sketch is itself again, up to gradients and objects it does not mention (C91); so the run is compared with itself, and each of its stages with its own image. A flat sketch is symmetric with respect to the mirror image in its line, every object being its own image, and a finite point that is its own mirror image is on the line. Of three points on a line one distance is the sum of the other two. | `gradient_descent`, `bfgs`, `gauss_newton`, `levenberg_marquardt`, `flat_gradient_descent`, `flat_bfgs`, `flat_gauss_newton`, `flat_levenberg_marquardt`, `triangle` |
| C112 | Groups of points that are held nowhere keep their centre of gravity | The four solvers; the centre of gravity of a list of points as a linear form of the coordinates. | The run is compared with itself (Lemmas/Alike), with the value of the form as an invariant: the forces of a constraint that is not a FixPoint add up to zero (C25), so gradients are in the kernel of the form; BFGS matrices keep the form (n^T H = n^T, by induction along the three rank-one updates); the form is an eigenvector of J^T J + beta I for beta, and the pseudo-inverse has the same eigenvectors, so a Newton step is in the kernel too. | `x`, `y`, `sketch`, `lone_fix`, `rest` |
| C113 | No step turns a sketch | Three of the solvers (BFGS is left out: its matrix remembers gradients taken at earlier places, about which nothing is claimed here); turning as a linear form in the movements of a step, whose coefficients are the places before the step. | Each of the seven kinds of constraints concerned is checked to have no turning force (from the explicit forces of Lemmas/Force); so the gradient and the rows of the Jacobian are in the kernel of the form at the place of the step; for the Newton solvers the form is an eigenvector of J^T J + beta I for beta, hence of the pseudo-inverse, and the step is in its kernel too. | `pinned`, `step`, `rigid`, `gradient` |
| C114 | Constraints about directions never shrink a sketch | Three of the solvers (BFGS is left out as in C113); the spread of the points, and the squares of their ways in a step. | The forces of the three constraints are checked to be at right angles to the lines they act on (explicit forces of Lemmas/Force); so the movement of a step is at right angles to the field of growing from (u, v) (`step_field` in Lemmas/Torque), and the theorem of Pythagoras gives the growth of the spread; a run is put together from its steps by `Leads`. | `step`, `run`, `grows`, `apart`, `collapse` |
| C115 | Gradient descent moves a sketch no farther than the loss it gains allows | Gradient descent with its line search; the changes of the coordinates as read by get_data. | A step accepted by the line search meets the condition of sufficient decrease (C28), and its size is at most 1.5^14; so alpha^2 |g|^2 is at most 10^4 * 1.5^14 times the loss gained. The steps are put together by `Leads`, the distance by the inequality of Cauchy and Schwarz, the spread by C114. | `ways`, `far`, `default`, `spread` |
| C116 | No step of Gauss-Newton or Levenberg-Marquardt is longer than the loss allows | Gauss-Newton and Levenberg-Marquardt with a pseudo-inverse that treats the eigenvalues of the normal matrix as nalgebra's does (`CutPInv`). | In an orthonormal basis of eigenvectors of A = J^T J + b the step x = P J^T l satisfies x.Ax = x.J^T l = Jx.l and e x.x <= x.J^T l; hence |Jx|^2 + b |x|^2 = Jx.l, and completing squares gives e |x|^2 <= |l|^2 and 4b |x|^2 <= |l|^2. Losses are not negative, so the squares add up to at most the square of the loss. The run by the triangle inequality along `Leads`. | `gn`, `lm`, `gn_default`, `lm_default`, `gn_run`, `lm_run`, `gn_order`, `lm_order` |


### Properties refuted by the code

The guide's third case (model and code agree, the property is false of both).  The statement in `properties.jsonl` was reworded to
what is true, a theorem gives a concrete counterexample to the original wording, and the note in `MANIFEST.json` says so.

* C06: references can leave the sketch by `delete_primitive` and by `Line::set_start` and friends.
* C08: `delete_constraint` keeps exactly the constraint to be deleted and drops all others (`retain` with `ptr::eq`).
* C27: a failed line search leaves the sketch moved; the loss can grow by a factor of a million.
* C33 (general form): after a failed line search BFGS steps from stale coordinates.
* C37: all four solvers return `Ok` on unsolved sketches.
* C43-C46, C48: face detection reports unused segments wrongly, attaches holes to the wrong face, loses rings when gradients are
  stored in arcs.
* C52, C53: a clone shares its primitives; a loaded sketch has lost all sharing, so solving it has no effect.

## 3. Trusted base

* Lean's kernel with the axioms `propext`, `Classical.choice`, `Quot.sound`; `AXIOMS.md` lists them per theorem (generated from
  `#print axioms`).  No `sorry`, `native_decide`, `bv_decide`, no axioms of our own.
* The reading of the Rust code documented at each definition (file and lines), and the simplifications listed there and below.
* That `f64` on the target is IEEE binary64 as written in `B64.lean` (one NaN: its payload and sign are never looked at).  The law
  classes `FloatLaws`, `TotalCmpLaws`, `OrderLaws`, `NonFiniteLaws` are theorems about it, not assumptions.
* For theorems about histories: that a Rust client can act on a sketch only through the listed calls (fields are private).
* That rustc, the standard library, nalgebra's elementary operations, serde's derive and `Rc`/`RefCell` behave as documented
  (nalgebra's source is not in the sandbox; `Matrix::angle`, used by the circle benchmark only, is modelled from its documentation; the order of
  summation in `DVector::dot` from memory of its source).

## 4. What is modelled

| source | model |
|----|----|
| `src/primitives/{mod,point2,line,arc,circle}.rs` | `Model/Prim.lean` (all functions; `Debug` output excepted) |
| `src/constraints/**` | `Model/Constraint.lean` (all twelve kinds: constructor checks, setters in `Model/Setters.lean`, `references`, `loss_value`, `update_gradient`) |
| `src/sketch/mod.rs`, `src/error.rs` | `Model/Sketch.lean`, `Model/Api.lean` (all public functions) |
| `src/solvers/*.rs` | `Model/Solver.lean` (line search and all four solvers) |
| `src/decompose/{mod,segment,ring,face}.rs` | `Model/Decompose.lean` |
| derives `Clone`, `Serialize`, `Deserialize` | `Model/Multi.lean`, `Model/Serde.lean` |
| `src/examples/*.rs`, `benches/solvers/*.rs` | `Model/Examples.lean` (sketches, checks, one benchmark run) |
| `RefCell` borrows in all of the above | `Model/Borrow.lean`, `Model/BorrowApi.lean` |
| unit tests in these files | replayed in `Test/Replay.lean` where they do not depend on random numbers |

## 5. What is not modelled

* Rounding, overflow and signed zero in the exact-arithmetic theorems; `atan2` at infinities.
* nalgebra's multiplications by 1 (`gemv` with `alpha = 1`) and the order of summation in products of matrices with more than five
  rows and columns (`matrixmultiply`): these sums are left folds.  Matters only for which rounding errors occur.  `DVector::dot`
  and `norm` are modelled with their eight accumulators (`dotV`).
* `Debug`, `println!` in `check_gradients`, the serde wire format, `tsify`/`wasm-bindgen` attributes.
* `src/intersections/mod.rs` (its only function is `todo!()`); printing and timing in `benches/`.
* The internals of `geo` and of nalgebra's SVD.
* Vtable addresses in `ptr::eq` on `*const dyn` (assumed equal for the same object).
* Allocation failure, stack overflow, threads (`Rc` is not `Send`).
* `sort_by` evaluates its comparator per comparison; the borrow model evaluates it once per ring.

## 6. Reading `seeded/LOG.jsonl`

* Each line is one wrong program: the model edited in a scratch copy, every dependent file rechecked with failing declarations
  replaced by `sorry`, and each claimed theorem tested for a dependency on one.
* `failed` lists the theorems of the scratch copy whose proof, or a lemma it uses, no longer checks.  It is an upper bound: a proof
  may break although its statement stays true of the edited model.  Where this was in doubt the lemmas were adapted to the edit
  and the attempt repeated (ids ending in `b`).
* `correction`: the first version of these lines also listed theorems added after the scratch copy was made, because a theorem
  absent from the copy was counted as failed.  Those names are removed; such lines say nothing about those theorems.  No verdict on
  an expected property depended on them.  The harness now stops when its copy lacks a claimed theorem.
