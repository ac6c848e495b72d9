{
 "C01": [
  "`Sketch` bookkeeping, `Op`/`step`",
  "invariant over the log of calls, by induction over histories"
 ],
 "C03": [
  "`Sketch` bookkeeping, `Op`/`step`",
  "invariant over the log of calls, by induction over histories"
 ],
 "C05": [
  "`Sketch` bookkeeping, `Op`/`step`",
  "invariant over the log of calls, by induction over histories"
 ],
 "C11": [
  "`Sketch` bookkeeping, `Op`/`step`",
  "invariant over the log of calls, by induction over histories"
 ],
 "C02": [
  "`add_primitive`",
  "case analysis on the reference check, for every state"
 ],
 "C04": [
  "lookup in both directions",
  "sortedness and uniqueness of the map, every reachable state"
 ],
 "C06": [
  "`Closed` over `Op`/`step`",
  "invariant over histories without delete and re-pointing; two counterexample histories"
 ],
 "C07": [
  "`delete_primitive`",
  "direct, with frame; reachable states"
 ],
 "C08": [
  "`delete_constraint`",
  "exact effect; equivalence of the intended contract with emptiness"
 ],
 "C09": [
  "convenience constructors `add_point2` etc.",
  "unfolding with frame"
 ],
 "C10": [
  "`add_constraint` and `constrain_*`",
  "case analysis, every state"
 ],
 "C56": [
  "`get_all_points`",
  "induction over the map"
 ],
 "C12": [
  "`get_data`/`set_data` over the heap, panic heap",
  "induction over the primitive list with offsets"
 ],
 "C13": [
  "`get_data`/`set_data` over the heap, panic heap",
  "induction over the primitive list with offsets"
 ],
 "C14": [
  "`get_data`/`set_data` over the heap, panic heap",
  "induction over the primitive list with offsets"
 ],
 "C15": [
  "`get_loss`, `get_loss_per_constraint`",
  "induction over constraints; sign by algebra"
 ],
 "C16": [
  "`loss_value` of each kind",
  "real algebra and trigonometry against Mathlib's `dist` and `angle`"
 ],
 "C17": [
  "`loss_value` of each kind",
  "real algebra and trigonometry against Mathlib's `dist` and `angle`"
 ],
 "C18": [
  "`loss_value` of each kind",
  "real algebra and trigonometry against Mathlib's `dist` and `angle`"
 ],
 "C19": [
  "`loss_value` of each kind",
  "real algebra and trigonometry against Mathlib's `dist` and `angle`"
 ],
 "C20": [
  "`get_gradient`, `get_jacobian`, `update_gradient` of each kind",
  "Frechet derivative of each kernel, then bookkeeping of accumulation with aliasing"
 ],
 "C21": [
  "`get_gradient`, `get_jacobian`, `update_gradient` of each kind",
  "Frechet derivative of each kernel, then bookkeeping of accumulation with aliasing"
 ],
 "C22": [
  "panics of `update_gradient`",
  "per kind: contributions are finite except for zero-length lines"
 ],
 "C23": [
  "zeroing loops and accumulation",
  "frame lemmas by induction"
 ],
 "C24": [
  "contributions of each kind",
  "closed forms of the contributions"
 ],
 "C25": [
  "contributions of each kind",
  "closed forms of the contributions"
 ],
 "C26": [
  "`line_search_wolfe`",
  "induction over the 15 trials"
 ],
 "C27": [
  "line search, gradient descent",
  "estimate of all 15 trials; concrete history"
 ],
 "C28": [
  "`GradientBasedSolver::solve`",
  "loop invariant"
 ],
 "C29": [
  "`GradientBasedSolver::solve`",
  "loop invariant"
 ],
 "C30": [
  "`BFGSSolver::solve` with its uncounted `continue`",
  "measure on iterations and failures"
 ],
 "C31": [
  "BFGS matrix update on list matrices",
  "bridge to `Matrix`, quadratic form identity, loop invariant"
 ],
 "C32": [
  "BFGS matrix update on list matrices",
  "bridge to `Matrix`, quadratic form identity, loop invariant"
 ],
 "C33": [
  "`BFGSSolver::solve`",
  "loop invariant"
 ],
 "C34": [
  "`gnSolve`, `lmSolve` over an arbitrary pseudo-inverse",
  "loop invariant; zero residual gives zero step"
 ],
 "C35": [
  "all four solvers",
  "frame relation preserved by every primitive operation"
 ],
 "C36": [
  "all four solvers",
  "frame relation preserved by every primitive operation"
 ],
 "C37": [
  "all four solvers, distance constraint",
  "no force under 1e-6; concrete history"
 ],
 "C38": [
  "`find_rings`, `find_next_segment`",
  "invariant of the walk, permutation by sorting"
 ],
 "C39": [
  "`find_rings`, `find_next_segment`",
  "invariant of the walk, permutation by sorting"
 ],
 "C40": [
  "`find_rings`, `find_next_segment`",
  "invariant of the walk, permutation by sorting"
 ],
 "C41": [
  "`find_next_segment`, `angle_difference`",
  "fold over candidates; real `%` and `atan2`"
 ],
 "C42": [
  "`find_next_segment`, `angle_difference`",
  "fold over candidates; real `%` and `atan2`"
 ],
 "C43": [
  "`find_rings` on polygons",
  "simulation of the walk along any drawing of the polygon"
 ],
 "C44": [
  "`unused_segments`",
  "invariant of the walk; two concrete sketches"
 ],
 "C45": [
  "`find_faces`, `merge_faces`",
  "direct, for every geometry backend"
 ],
 "C46": [
  "`find_faces`, `merge_faces`",
  "direct, for every geometry backend"
 ],
 "C47": [
  "`Segment::reverse`, `Ring::signed_area`, `as_polygon`",
  "list induction, real algebra"
 ],
 "C49": [
  "`Segment::reverse`, `Ring::signed_area`, `as_polygon`",
  "list induction, real algebra"
 ],
 "C50": [
  "`Segment::reverse`, `Ring::signed_area`, `as_polygon`",
  "list induction, real algebra"
 ],
 "C48": [
  "`Segment` equality with gradients",
  "simulation between two heaps; concrete sketch"
 ],
 "C51": [
  "`Arc::start_point` etc.",
  "real analysis"
 ],
 "C52": [
  "many sketches over one heap",
  "invariant over multi-sketch programs, simulation"
 ],
 "C53": [
  "save/load of value trees",
  "structural induction; simulation between the two heaps"
 ],
 "C54": [
  "`check_gradients`",
  "write-back lemma of C13 along the loop"
 ],
 "C55": [
  "setters and constructors",
  "case analysis"
 ],
 "C57": [
  "losses under rigid motions",
  "real algebra"
 ],
 "C58": [
  "instrumented borrow monad",
  "triple for every function: flags restored, no clash, same result as the first model"
 ],
 "C59": [
  "steps of `gnSolve`, `lmSolve`",
  "generalised inverse algebra, C21 for the meaning of the gradient"
 ],
 "C60": [
  "steps of `gnSolve` on sketches of coordinate differences",
  "C59's normal equations, row independence"
 ],
 "C61": [
  "`B64 lm`: IEEE binary64 over an arbitrary mathematical library; the generic model instantiated at it",
  "monotone rounding (`rnd_mono`) gives the law classes; signs for non-negativity; rounding of subnormals for underflow"
 ],
 "C62": [
  "`updateAll` and `collectGradient` at `B64 lm`; panic = a gradient chunk that is not finite",
  "a magnitude calculus `B64.Le x k` bounds every intermediate value of every `update_gradient`; partial sums of up to 2^53 terms; exact rounding of squares below 2^-1075 for the threshold"
 ],
 "C63": [
  "`stairsNew`, `stairsCheck`, `benchRun` (`Model/Examples.lean`)",
  "closed form of the sketch (`Lemmas/Layout.lean`); errors accumulate along the chain: (a+b)² ≤ 2(i+2)(A+B); explicit bad state for the converse"
 ],
 "C64": [
  "`axisNew`, `axisAsserts`",
  "the loss is a sum of eight squares; Cauchy-Schwarz per corner; explicit bad state"
 ],
 "C65": [
  "`rotatedNew`, `rotatedCheck`",
  "zero-loss equations from C16-C19 solved by hand"
 ],
 "C66": [
  "`circleNew`, `circleCheck`, `benchRun`",
  "closed form of the sketch; FixPoint losses bound the errors"
 ],
 "C67": [
  "`Model/Setters.lean`: every setter, `SetterCall.run`",
  "by cases on setter and target; the history part by an invariant over all calls (`SoundHeap`)"
 ],
 "C68": [
  "constraints, `get_*`, `set_data`, line search and solvers as in the other properties",
  "propagation of non-finite operands through each loss and each contribution to the gradient; `NonFiniteLaws` proved for `XR` and `B64`"
 ],
 "C69": [
  "`find_rings`, `find_faces`, `signed_area`, `as_polygon`",
  "simulation of the walk between two drawings that differ in arc directions; sign analysis of the area of chains of one and two segments in `XR` and `B64`; the wrong turn is computed on an integer grid and transferred to exact arithmetic"
 ],
 "C70": [
  "`adjacent_edges`, `PartialEq` of rings, segments, points",
  "list reasoning; the one-way case is computed on an integer grid and transferred to exact arithmetic"
 ],
 "C71": [
  "`line_search_wolfe`, `GradientBasedSolver::solve`, `get_loss`, `get_gradient` on constraints linear in the coordinates",
  "the sketch is turned into a linear system R x = b with loss |Rx-b|^2/2 and gradient R^T(Rx-b); the loop is simulated by a function of the bend, whose fifteen rounds are analysed by induction"
 ],
 "C72": [
  "`GradientBasedSolver::solve`, the stairs benchmark",
  "Cauchy-Schwarz bounds bend and gradient from the two parabolas, so C71 applies in every iteration; induction on the iterations. Stairs: sums of squares of differences against sums of squares; the failing start has gradient (1, 2, ..., n), found by summation by parts"
 ],
 "C73": [
  "`BFGSSolver::solve` with its matrix, the guard on `s_dot_y`, the line search",
  "invariant of the matrix A: |R A g|^2 <= M g.Ag for all g, and (p.v)^2 <= nu p.Ap |Rv|^2 for p in the row space of R. The exact update keeps both (projection along the step and Cauchy-Schwarz), the guarded update makes nu worse by at most 1e-10. The invariant puts the bend along -Ag into the range of C71 and gives the decrease"
 ],
 "C74": [
  "`GradientBasedSolver::solve` with the line search, all twelve constraint kinds",
  "the loss is half the square of a continuously differentiable residual near a position without degenerate constraints; at a zero of the residual the loss along the gradient is a parabola up to a relative error that shrinks with the neighbourhood, so the fifteen trials behave as in C71 up to that error; the lengths of the steps sum up to a geometric series, which keeps the iterates in the neighbourhood"
 ],
 "C75": [
  "`GaussNewtonSolver::solve`, the Jacobian of the difference constraints; `pseudo_inverse` through its specification on symmetric positive semidefinite matrices",
  "rows of the Jacobian of constraints without common coordinates are orthogonal, hence eigenvectors of J^T J with eigenvalues 2e^2; the pseudo-inverse scales them, so every error follows its own scalar recursion; if everything is cut off the pseudo-inverse vanishes on a basis of eigenvectors (spectral theorem)"
 ],
 "C76": [
  "`LevenbergMarquardtSolver::solve`, as in C75",
  "the same eigenvectors with eigenvalues 2e^2 + b; the reciprocal of e^2 grows by an amount bounded below and above in every step"
 ],
 "C77": [
  "`find_rings`, `find_next_segment`, `angle_difference` in exact arithmetic, on all directed lines of the sketch",
  "the turning angle of the code is the counter-clockwise angle from the way back, so the hardest left turn is a partial injection on directed lines; used lines always form whole circuits, so every walk follows the injection and either closes after one full circuit or ends"
 ],
 "C78": [
  "as in C77",
  "by C77 the rings depend only on which points are joined; the example where they do depend on the order is computed on a grid"
 ],
 "C79": [
  "as in C77; `affine` is the affine map of the plane",
  "the order of left turns is decided by signs of cross products, which an orientation-preserving map keeps; in the mirror image a circuit of hardest left turns is one run through backwards; then C77 for both drawings, and sorted lists with the same elements are equal"
 ],
 "C80": [
  "as in C77",
  "the hardest left turn at a point depends only on the lines there, so a walk stays in its part; then C77 for the three drawings"
 ],
 "C81": [
  "`SmoothBelow` (SpecSmooth.lean) speaks of the derivative of the loss as a function of the positions, `slopeSq` of what `get_gradient` returns",
  "an accepted step satisfies both Wolfe conditions; the curvature condition and the bound `M` make the step at least `0.1 / M`, then sufficient decrease gives `1e-5 |g|² / M` per step, and the sum telescopes; for distances the pull of a rod is shown to be Lipschitz outside a disc"
 ],
 "C82": [
  "`IsForest`: the constraints can be ordered so that each brings in a new point",
  "move everything that hangs behind a constraint along the residual: by induction over the order there is a displacement of length at most `K` times the residuals that every constraint sees as its own residual, so the gradient along it is twice the loss; Cauchy-Schwarz; then the descent of C81 with this bound"
 ],
 "C83": [
  "line drawings of C77 with one more line, in any place of the order; `PointsInto`, `ConvexAround` (SpecChord.lean)",
  "at the two corners the new line comes last in the order of left turns, so the turn that arrives along the circuit now takes it and the turn from it leaves along the circuit; all other turns stay; then C77 for both drawings"
 ],
 "C84": [
  "line drawings of C77 with one line divided; `withPoint`, `Between` (SpecChord.lean)",
  "the half lines have the directions of the whole, so all turns are the same up to the name of the neighbour; at the new point there is only one way on; circuits correspond under `withPoint`, walks project to walks of the old drawing; then the transport lemma of C79 with factor 1"
 ],
 "C85": [
  "all four solvers; `SameRun`, `Heap.moveBy` (SpecAlike.lean)",
  "a general theorem on runs side by side: if losses, gradients, Jacobians agree for related states and writing coordinates keeps the relation, then the runs of each solver correspond step by step; here losses and forces depend only on differences of coordinates"
 ],
 "C86": [
  "all four solvers; `SameRun` (SpecAlike.lean), `GradOnly`",
  "the theorem on runs side by side; gradients and losses are sums over the constraints, JᵀJ and Jᵀl too, and a panic of one constraint is a panic of the sum"
 ],
 "C87": [
  "all four solvers; `SameRun`, `Reordered`, `FollowsOrder` (SpecAlike.lean), `CutPInv` (SpecCut.lean)",
  "the theorem on runs side by side with vectors and matrices in the other order; all scalar quantities are sums over coordinates or maxima; a symmetric matrix has an eigenbasis, so the cut-off pseudo-inverse is determined and follows the order"
 ],
 "C88": [
  "`checkGradients` (Model/Sketch.lean, modelled earlier for C54): gradient of the whole sketch, then for every coordinate of every primitive a difference quotient of the loss of the one constraint, with the coordinate put back.",
  "`Lemmas/Check.lean`: with finite data the loops compute, for every primitive, the norm of (difference quotients minus total force); the quotients tend to the contribution of the constraint (C05's derivative), so the norm tends to the force of the others, computed independently by `getGradient` on the sketch without the constraint."
 ],
 "C89": [
  "All four solvers, run on a heap and on the turned heap (`Heap.turn`, SpecTurn.lean).",
  "`Lemmas/Turn.lean`: losses and contributions of every constraint kind turn along. `Lemmas/TurnMat.lean`: on the degrees of freedom of a sketch the turn is an orthogonal matrix Q. `Lemmas/TurnRun.lean`, `TurnNewton.lean`: data become Qx plus constants, gradients Qg, Jacobians J·Qᵀ, BFGS matrices and (by uniqueness on eigenvectors) pseudo-inverses Q·A·Qᵀ; then the general theorem on runs side by side (`Lemmas/Alike.lean`)."
 ],
 "C90": [
  "Losses and solvers at the number type `B64 lm` (IEEE binary64, any mathematical library); `Within` and `Libm.Accurate` in SpecFloat.lean say in reals how far a constraint is met.",
  "`Lemmas/FloatErr.lean`: relative error of rounding, no absolute error for sums and differences. `Lemmas/FloatLoss.lean`, `FloatWithin.lean`: a small finite computed loss bounds the computed residual; computed lengths, directions and cosines are near the exact ones. `Lemmas/FloatMet.lean`: one lemma for each constraint kind. `Props/FloatOk.lean`: losses are never negative, so a small sum bounds each summand; then the stopping theorems C29, C30, C34."
 ],
 "C91": [
  "All calls that compute with a sketch, in one heap with any number of sketches (`Model/Multi.lean`); `Heap.graft`, `SameObjects`, `Sketch.Apart` in SpecApart.lean.",
  "`Lemmas/Apart.lean`: every function of the model commutes with replacing all objects outside of the sketch by those of another heap; `Lemmas/Alike.lean` carries this through the loops of the solvers. Taking the heap itself as the other heap gives that nothing outside is written. Histories by induction."
 ],
 "C92": [
  "`newtonLoop` with both normal matrices, `gdSolve`; `Sketch.PartOf`, `SameData`, `PartRun` in SpecPart.lean, the pseudo-inverse as in SpecCut.lean.",
  "`Lemmas/Part.lean`: restricting a vector to the coordinates of the part commutes with the normal matrix, hence (on a basis of eigenvectors) with its pseudo-inverse, and takes the right-hand side of the whole sketch to that of the part. Induction over the loop; the part stops no later because its loss is at most that of the whole. The example for gradient descent is computed."
 ],
 "C93": [
  "`getGradient`, `lossValue`; `MetBy`, `Compatible`, `MinimalConflict`, `AtRest` in SpecConflict.lean are geometric and do not mention losses.",
  "`Lemmas/Conflict.lean`: on each axis a constraint asks for one value of a linear form. A vanishing gradient says that the forms weighted with their errors add up to zero. Caratheodory's lemma for cones (proved here) turns this into a relation with positive coefficients between the form of the given constraint and independent ones; the independent ones can be met, with the given one they cannot since the squares of the errors would add up to zero. Minimality by removing constraints one by one."
 ],
 "C94": [
  "`gdSolve`, `bfgsSolve`, `lineSearch`, `getGradient`, `getLoss` as in C72 and C73; the least loss is the least value of `lossAfter`; `pointIds` in SpecCount.lean.",
  "`Lemmas/LeastSquares.lean`: the loss is that of a solvable system plus a constant and has the same gradient, and the solvers see only differences of losses and the gradient (`LinAt.gdLoop'`, `LinAt.bfgsLoop'`). Conditioning (`Lemmas/Tree.lean`): the constraints on one axis are the edges of a graph on the points and the origin; along a path the values are bounded by the root of its length times the errors, so the distance from the nearest minimum is at most N times the error."
 ],
 "C95": [
  "`gdSolve`, `bfgsSolve`, `gnSolve`, `lmSolve` over any `Num F`; `SolverKind.withMax` and `SolveOut.followedBy` in SpecResume.lean; heaps are compared by equality, or up to gradients (`GradOnly`) where a second call recomputes them.",
  "Induction over the loops (`Lemmas/Resume.lean`): `Cuts` relates the run with limit n to the longer one. For resuming, the second call recomputes the gradient at the same coordinates (C23) and then runs side by side with the rest of the first (`alike_leftover`). The Newton-type loops carry only the loss before the last step, which is compared with min_loss once."
 ],
 "C96": [
  "All four solvers over exact arithmetic (`runSolver`); `Sketch.MadeOf`, `Sketch.Covers`, `Satisfied`, `AlikeKeeping`, `SolverKind.Exact` in SpecStill.lean; `SameRun` (SpecAlike.lean) compares the two runs.",
  "Runs side by side (`AlikeM`, `AlikeN`, now for sketches of different sizes) with vectors and matrices over the coordinates of the whole and of the second sketch taken from one table (`Lemmas/Still.lean`): gradients vanish on the first sketch (C24 and locality of constraints), the BFGS matrix is the identity there, the normal equations are block diagonal and the pseudo-inverse follows the blocks (as in C92). A free primitive: split the sketch into the primitives no constraint looks at and the others."
 ],
 "C97": [
  "Losses, gradients and Jacobian of Model/Constraints.lean and Model/Sketch.lean in binary64 (`B64 lm`), compared with the same functions over exact arithmetic at `Heap.exact` (the same numbers); `Modest`, `Clear`, `spanOf`, `slopeOf`, `badness` and the error bounds in SpecNear.lean.",
  "A calculus of rounding errors (`B64.Ap`, Lemmas/FloatNear.lean) followed through every formula of the twelve kinds (FloatGrad, FloatKinds, FloatAngle, FloatNearLoss); the gradient as a running sum of the entries of the chunks in any arithmetic (`foldChunks_entries`, FloatSum); C20 and C21 then identify the exact values as partial derivatives; C29, C30 give the stopping conditions."
 ],
 "C98": [
  "find_rings, find_next_segment, angle_difference, signed_area (Model/Decompose.lean) in binary64 (`B64 lm`), compared with the same functions over exact arithmetic at `Heap.exact`; `DraftLines`, `SpreadLines`, `areaOf`, `areaError`, `Libm.AtanAccurate` in SpecClear.lean.",
  "Each turn is computed with an error below half the gap between directions, up to a wrap that cannot change the maximum (`angle_near`, `turn_near`), so that the walk over indices is the same in both arithmetics (`same_walk`, Lemmas/RingSim.lean); the shoelace sum is followed through its roundings (`area_near`, Lemmas/FloatArea.lean); C77 gives the geometric description; whole coordinates bound angles from below by cross products and make all areas exact."
 ],
 "C99": [
  "gdSolve, gdLoop, line_search_wolfe, get_loss, get_gradient, set_data, the dot product with eight accumulators (Model/*.lean) in binary64 (`B64 lm`); `Suited`, `Bounded`, `sizeOf64` in SpecDescent.lean; `Squeezed` and `IsLinear` from C71, C72.",
  "The computed loss and gradient of a linear sketch are those of a residual vector that is off by an absolute error eps and a relative error kappa (`Noisy`, Lemmas/FloatAcc, FloatLinear, FloatNoisy); as long as the loss is above min_loss the error is a small part of the residual (`Base`, Lemmas/Noise), so that one of the fifteen trials meets both Wolfe conditions as computed and the accepted one decreases the computed loss by the stated factor (Lemmas/FloatSearch, FloatStep); the distance travelled is summed up geometrically so that the coordinates stay within X (`Along`, Lemmas/FloatDescent)."
 ],
 "C100": [
  "stairsNew, stairsCheck, pointPasses, benchRun (Model/Examples.lean), get_loss, the four solvers (C100_run) and gdSolve, all in binary64 (`B64 lm`).",
  "From the computed loss back to the losses of the constraints (a sum of nonnegative numbers loses at most a factor (1+2u)^n, Lemmas/FloatStairs), from each to its exact error (C90), and along the stairs by the inequality of C63. The descent is C99 with the conditioning of the stairs from C72, for steps of the size of the literal 0.8 in binary64 (Lemmas/StairsAny)."
 ],
 "C101": [
  "gdSolve, bfgsSolve, lineSearch and everything they call, on exact numbers (`XR`).",
  "For each kind: along its own contributions the error is multiplied by 1 - lam*a for 0 <= a <= 1/lam, and is not smaller than before at a step of 2/lam or more (Lemmas/Alone). As no coordinate is shared, a step along the whole gradient does this to every constraint at once; the derivative of the resulting parabola gives |g|^2 = 2 lam L, so the trials of the line search can be followed: those above 1/lam fail, 1/lam is accepted (Lemmas/AloneStep)."
 ],
 "C102": [
  "Sketch::delete_primitive, get_data, set_data, get_gradient, get_jacobian and all four solvers on any arithmetic; exact numbers for the derivative.",
  "The gradient of a coordinate is the sum of the entries of all constraints in order, whatever the sketch contains (getGradient_iff, jacobianRows_iff in Lemmas/Deleted), so only the collected blocks differ. set_data is a loop over blocks; writing a primitive's own coordinates back changes nothing. For the derivative, coordinates outside the sketch are constants (depEq_open)."
 ],
 "C103": [
  "All four solvers on linear sketches, exact numbers; the best positions through the model's get_loss after set_data (lossAfter).",
  "The gradient is Rᵀ(Rx-b), orthogonal to the kernel of R; two best positions differ by a vector of the kernel. Invariants: the matrix of BFGS maps the orthogonal complement of the kernel into itself, the rows of the Jacobian (the gradients of single constraints, C21) are in it, and the cut pseudo-inverse is symmetric and has the kernel as eigenspace. The bound on the distance uses the conditioning proved for C94."
 ],
 "C104": [
  "line_search_wolfe, gradient descent and BFGS on sketches of perpendicular and parallel constraints, exact numbers.",
  "Along a straight path the loss of a constraint is a function of the angle between two uniformly moving directions; its second derivative is at most 5 (e / l)² (lines at least l long, ends moving apart at speed e). So the slope stays below 0.9 times the initial one up to step size 1.5^14, which the curvature condition rejects; the displacement shortens the lines by at most 584 K / l."
 ],
 "C105": [
  "All four solvers, update_gradient and loss_value of every constraint kind, exact numbers with infinities and NaN.",
  "The contributions of a constraint and of its other wording are the same up to order or, for a line that runs the other way, add the same to each degree of freedom, and are finite or not together; the solvers then run side by side (`Alike`)."
 ],
 "C106": [
  "IEEE binary64 with round to nearest; loss_value of all constraints, get_loss and the four solvers.",
  "The computed residual is off by a multiple of the rounding unit times the sizes that enter it; its half square is bounded with it, and the sum of the losses with the relative error of each addition. Then C36."
 ],
 "C107": [
  "The four solvers, the line search, and the constraints about lengths, in exact arithmetic.",
  "Multiplication by a positive real commutes with every operation the constraints and solvers apply, including those on infinities and NaN; the runs are then compared step by step. For the Newton solvers the pseudo-inverse with cut-off of c^2 A is determined by its eigenvectors. Last part: the losses fall below min_loss, and all singular values below the cut-off."
 ],
 "C108": [
  "The setters of desired values, the constraints on coordinates, the four solvers, in exact arithmetic.",
  "An edit moves the right-hand side of the linear equations, so that the triangle inequality bounds the loss after it. By C103 the best position nearest to the start stays the nearest one, and its distance is at most N times the root of twice the excess of the loss; the rest is the triangle inequality between start, end and that position."
 ],
 "C109": [
  "Gradient descent with its line search, the loss of constraints between points, the setters of desired values, in exact arithmetic.",
  "The sufficient-decrease test bounds the length of each accepted step by 1e4 times the decrease of the loss over the length of the gradient; where the gradient is steep this is at most a multiple of the decrease of the root of the loss, and the sum telescopes. Sketches without circuits are steep by C82. For the solution nearby, the points are moved one constraint after the other, each with the point it brings in."
 ],
 "C110": [
  "All calls of the library (histories), the rings of line drawings, the axis-aligned rectangle of the tests.",
  "Every gradient that is added passed an assertion that it is finite, and gradients start from zero; so being free of NaN is an invariant of every function, on return, on error and on panic. For (3), the change of the shoelace sum is rewritten, with the sums over first and second end points of edges being equal, as a sum of cross products of a displacement with an edge or another displacement. For (4), the distance of the corners from their places is bounded by the loss (C64) and the loss of the rectangle lies between two parabolas, so C72 applies."
 ],
 "C111": [
  "The four solvers, on a sketch and on its image under a motion of the plane.",
  "Renaming the objects of a sketch commutes with every function of the model (Lemmas/Rename). Turned (C89), moved (C85), renamed, with lines turned round and constraints restated (C105) and in another order (C87), a symmetric sketch is itself again, up to gradients and objects it does not mention (C91); so the run is compared with itself, and each of its stages with its own image. A flat sketch is symmetric with respect to the mirror image in its line, every object being its own image, and a finite point that is its own mirror image is on the line. Of three points on a line one distance is the sum of the other two."
 ],
 "C112": [
  "The four solvers; the centre of gravity of a list of points as a linear form of the coordinates.",
  "The run is compared with itself (Lemmas/Alike), with the value of the form as an invariant: the forces of a constraint that is not a FixPoint add up to zero (C25), so gradients are in the kernel of the form; BFGS matrices keep the form (n^T H = n^T, by induction along the three rank-one updates); the form is an eigenvector of J^T J + beta I for beta, and the pseudo-inverse has the same eigenvectors, so a Newton step is in the kernel too."
 ],
 "C113": [
  "Three of the solvers (BFGS is left out: its matrix remembers gradients taken at earlier places, about which nothing is claimed here); turning as a linear form in the movements of a step, whose coefficients are the places before the step.",
  "Each of the seven kinds of constraints concerned is checked to have no turning force (from the explicit forces of Lemmas/Force); so the gradient and the rows of the Jacobian are in the kernel of the form at the place of the step; for the Newton solvers the form is an eigenvector of J^T J + beta I for beta, hence of the pseudo-inverse, and the step is in its kernel too."
 ],
 "C114": [
  "Three of the solvers (BFGS is left out as in C113); the spread of the points, and the squares of their ways in a step.",
  "The forces of the three constraints are checked to be at right angles to the lines they act on (explicit forces of Lemmas/Force); so the movement of a step is at right angles to the field of growing from (u, v) (`step_field` in Lemmas/Torque), and the theorem of Pythagoras gives the growth of the spread; a run is put together from its steps by `Leads`."
 ],
 "C115": [
  "Gradient descent with its line search; the changes of the coordinates as read by get_data.",
  "A step accepted by the line search meets the condition of sufficient decrease (C28), and its size is at most 1.5^14; so alpha^2 |g|^2 is at most 10^4 * 1.5^14 times the loss gained. The steps are put together by `Leads`, the distance by the inequality of Cauchy and Schwarz, the spread by C114."
 ],
 "C116": [
  "Gauss-Newton and Levenberg-Marquardt with a pseudo-inverse that treats the eigenvalues of the normal matrix as nalgebra's does (`CutPInv`).",
  "In an orthonormal basis of eigenvectors of A = J^T J + b the step x = P J^T l satisfies x.Ax = x.J^T l = Jx.l and e x.x <= x.J^T l; hence |Jx|^2 + b |x|^2 = Jx.l, and completing squares gives e |x|^2 <= |l|^2 and 4b |x|^2 <= |l|^2. Losses are not negative, so the squares add up to at most the square of the loss. The run by the triangle inequality along `Leads`."
 ]
}