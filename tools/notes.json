{
 "C01": "Any arithmetic. Histories of fewer than 2^64 calls (u64 ids).",
 "C02": "Any arithmetic, every sketch state.",
 "C03": "Any arithmetic. Histories of fewer than 2^64 calls.",
 "C04": "Any arithmetic.",
 "C05": "Any arithmetic.",
 "C06": "Proved for histories without delete_primitive and without re-pointing setters; both exceptions shown necessary by counterexample theorems.",
 "C07": "Any arithmetic.",
 "C08": "The intended contract is refuted by the code: delete_constraint keeps exactly the constraint to be deleted. C08_actual_effect states what it does, C08_spec_iff_empty that the intended contract holds only for sketches without constraints.",
 "C09": "Any arithmetic.",
 "C10": "Any arithmetic.",
 "C11": "Any arithmetic.",
 "C12": "Any arithmetic.",
 "C13": "Any arithmetic.",
 "C14": "Any arithmetic.",
 "C15": "C15_sum and C15_entries any arithmetic; non-negativity for reals with infinities and NaN; zero iff all zero in exact arithmetic.",
 "C16": "Exact arithmetic; distance is Mathlib's Euclidean dist.",
 "C17": "Exact arithmetic.",
 "C18": "Exact arithmetic.",
 "C19": "Exact arithmetic; angle is Mathlib's unoriented angle. Includes the short-arm and out-of-range cases.",
 "C20": "Exact arithmetic; Frechet derivative of the loss as a function of the whole data vector; C20_domain shows the differentiated function is total. Non-degeneracy is the predicate Regular.",
 "C21": "Exact arithmetic.",
 "C22": "Exact arithmetic; closed sketches with finite numbers.",
 "C23": "Any arithmetic.",
 "C24": "Exact arithmetic; no non-degeneracy assumption.",
 "C25": "Exact arithmetic; per constraint and per sketch.",
 "C35": "Any arithmetic; all four solvers, all outcomes.",
 "C36": "Any arithmetic.",
 "C51": "Exact arithmetic.",
 "C54": "Any arithmetic.",
 "C55": "Any arithmetic.",
 "C56": "Any arithmetic.",
 "C57": "Exact arithmetic.",
 "C26": "Any arithmetic.",
 "C27": "The intended claim is refuted by the code: C27_failed_moves gives a history on which gradient descent fails, moves the sketch and increases the loss; C27_stiff is the general condition under which this happens (exact arithmetic).",
 "C28": "Any arithmetic satisfying the order laws FloatLaws (instance for reals with infinities and NaN in XRLaws.lean).",
 "C29": "Any arithmetic.",
 "C30": "Any arithmetic.",
 "C31": "Exact arithmetic; runs without failed line search (ghost counter failed = 0). C31_descent needs a positive gradient threshold.",
 "C32": "Exact arithmetic; C32_secant for every symmetric matrix and all s, y, C32_run for the steps of the solver.",
 "C33": "Any arithmetic satisfying FloatLaws; runs without failed line search. C33_stale_step refutes the claim for runs with a failed search.",
 "C34": "Bounds and stopping reason in any arithmetic for an arbitrary pseudo-inverse; fixed point in exact arithmetic for any pseudo-inverse that returns finite matrices of the right size.",
 "C37": "The intended claim is refuted by the code: C37_ok_not_solved; C37_stuck describes a whole class of unsolved sketches on which all four solvers return Ok without moving.",
 "C38": "Any arithmetic; ends and starts agree by the == of the arithmetic, as in the code.",
 "C39": "Any arithmetic; segments of all rings counted with repetitions.",
 "C40": "Order needs total_cmp to be a total preorder (TotalCmpLaws, instance for exact numbers); positivity and completeness hold in any arithmetic; circles with non-zero radius in exact arithmetic.",
 "C41": "None/Some characterised in any arithmetic; maximality in any arithmetic with the order laws of f64 (class OrderLaws) when no turning angle is NaN, and in exact arithmetic with finite angles.",
 "C42": "Exact arithmetic, range [-2pi,4pi], larger than claimed; C42_in_range shows which arguments occur.",
 "C43": "Proved for lines in any arithmetic up to the area test and for lines and arcs in exact arithmetic, any drawing order and direction. Needs non-NaN gradients and, for arcs, zero gradients (see C48).",
 "C47": "Swap, involution in any arithmetic; closedness needs symmetric ==; area in exact arithmetic.",
 "C49": "Exact arithmetic; general affine maps, cutting along a diagonal, triangles, circles, segments between two points.",
 "C50": "Exact arithmetic.",
 "C44": "The intended claim (reported iff in no ring) is refuted in both directions by C44_spur_not_reported and C44_ring_reported; the true parts hold in any arithmetic.",
 "C45": "The intended claim (a ring becomes a hole of the ring that contains it) is refuted: C45_holes gives the exact behaviour, C45_largest and C45_nested_circles the consequences. geo's containment test is an arbitrary function.",
 "C46": "geo's interior_point and contains are arbitrary functions.",
 "C48": "The intended claim is refuted by C48_face_vanishes (get_gradient makes a ring disappear); C48_lines is the true part.",
 "C52": "Any arithmetic. Model/Multi.lean: several sketches over one heap.",
 "C53": "First stated as 'same further behaviour', which is false: serde's rc feature writes every Rc as its contents and reads a new object each time. Values survive (C53_save_load, C53_values, C53_faces), behaviour does not (C53_unshared, C53_no_force, C53_loss_frozen, C53_refused). The derived (de)serialisers are modelled on trees of values; the wire format is not modelled.",
 "C58": "Second model of the library with RefCell borrow flags (Model/Borrow.lean): every borrow()/borrow_mut() with the life time of its guard, all twelve constraints, sketch functions, solvers, decomposition. Proved equal to the model without flags. The comparator of sort_by is evaluated once per ring instead of once per comparison.",
 "C59": "Exact arithmetic. pseudo_inverse is arbitrary; that its result is a generalised (or symmetric outer) inverse is a hypothesis on each step. Lemmas/GenInv.lean shows that such a pseudo-inverse exists.",
 "C60": "Exact arithmetic. The pseudo-inverse is arbitrary as in C59; a hypothesis says it inverted the matrices of the run. Errors that are exactly 0 are excluded: their row in the Jacobian vanishes and another constraint's move may disturb them.",
 "C61": "Strength 4: concrete IEEE binary64 (Verif/Round.lean, Verif/B64.lean). The three law classes used by other claims (FloatLaws, TotalCmpLaws, OrderLaws) are proved for it in Verif/B64Laws.lean. NaN payloads and signs are dropped; cos, sin, acos, atan2 are arbitrary functions.",
 "C62": "Strength 4: IEEE binary64. The library functions cos, sin, acos are arbitrary up to the bounds of Libm.Sane; roundedLibm_sane shows that the correctly rounded functions meet them. The limits 2^200 and 2^50 are sufficient, not the exact thresholds of overflow.",
 "C63": "C63_stairs_build: any arithmetic in which 0.0 and 0.8 are finite; n is bounded by 2^63 because ids are u64. The other theorems: exact arithmetic, any heap that keeps the references (as every solver does).",
 "C64": "C64_axis_build: any arithmetic in which the constants are finite. The other theorems: exact arithmetic, any heap that keeps the references.",
 "C65": "C65_rotated_build: any arithmetic in which the constants are finite. The other theorems: exact arithmetic. Zero loss only; no bound on the error is given for a positive loss.",
 "C66": "C66_circle_build: any arithmetic in which the reference points, their distances and angles are finite; C66_circle_build_exact discharges this in exact arithmetic. nalgebra's Matrix::angle is modelled as the arc cosine of the clamped cosine (0 for a zero vector).",
 "C67": "Any arithmetic. Point2::set_x, set_y (which do check finiteness) are covered by C55.",
 "C68": "NonFiniteLaws (instances: exact arithmetic, binary64). C68_solvers assumes a non-negative loss, discharged by C15 and C61 (C68_solvers_binary64). Angles of arcs are left out of the watched numbers because cos and sin of infinity come from the platform.",
 "C69": "C69_either_side assumes that of arcs that coincide (same centre, radius and end angles) all or none are changed. C69_wrong_turn is a refutation of the expected behaviour.",
 "C70": "EqLaws (== symmetric and transitive) proved for exact arithmetic and binary64. C70_one_way is a refutation of the expected behaviour; the rings compared are returned by find_rings.",
 "C71": "Exact arithmetic. The bend is defined by the losses at q and q - g only, not by the linear system used in the proof.",
 "C72": "Exact arithmetic. The factor per step is a worst case over all accepted steps; nothing is claimed about the number of iterations actually needed. Between 76 and 92 points neither theorem about the stairs applies.",
 "C73": "Exact arithmetic. The factor per step is a worst case; nothing is claimed about superlinear convergence. The margin of 1e-10 per iteration comes from the guard that adds 1e-6 to a tiny s.y: it breaks the secant equation and makes the bound on the bend worse by at most s.y/1e-6 < 1e-10.",
 "C74": "Exact arithmetic. Local: the size of the neighbourhood is not computed. That a sketch is squeezed near a solution is a hypothesis; it is proved for one distance between two points, and it fails where the constraints have no solution near by or where a constraint touches its solution set tangentially.",
 "C75": "Exact arithmetic. pseudo_inverse is assumed to do on symmetric positive semidefinite matrices what nalgebra documents (CutPInv: eigenvalues above eps inverted, the others replaced by 0); such a function exists (cutPInv_cut). C60 covers constraints that share coordinates, as long as nothing is cut off.",
 "C76": "Exact arithmetic; pseudo_inverse assumed as in C75. The damping keeps all singular values above the default cut-off, so nothing is cut off.",
 "C77": "Exact arithmetic, lines only: with arcs the code compares parameter angles instead of tangents, so its left turns are not left turns (see C49 and C41 for what holds there). That the circuits are the boundaries of the regions of a plane drawing is not formalised; the conditions are on turns only.",
 "C78": "Exact arithmetic, lines only. Order of the rings in the result: by area (C40), so only rings of equal area can change places.",
 "C79": "Exact arithmetic, lines only, under the conditions of C77 for the first drawing (they are shown to carry over to the image). For mirroring maps nothing is said about unused lines, since the code asks for the direction drawn.",
 "C80": "Exact arithmetic, lines only, under the conditions of C77 for both parts (they are shown to carry over to the whole).",
 "C81": "Exact arithmetic. The line search may still give up (SearchFailed) when its 15 rounds do not suffice; the theorems bound what happens up to then.",
 "C82": "Exact arithmetic. As in C81 SearchFailed stays possible. The theorem C82_circuit gives a sketch with a circuit, zero gradient and loss 1, for which gradient descent returns Ok at once.",
 "C83": "Exact arithmetic. The drawing must be one whose walks close up (ClosesUp), as in C77.",
 "C84": "Exact arithmetic. The drawing must be one whose walks close up (ClosesUp), as in C77. Nothing is said about whether a part drawn against the direction of the whole line is reported unused.",
 "C85": "Exact arithmetic (in floating point the sums round differently elsewhere).",
 "C86": "Exact arithmetic (floating-point addition is not associative).",
 "C87": "Exact arithmetic. For Gauss-Newton and Levenberg-Marquardt the pseudo-inverse is a parameter; it has to follow a change of order (FollowsOrder) or to be the cut-off one of SpecCut.lean.",
 "C88": "The check of one constraint in a sketch with other constraints compares unlike things (its own difference quotients with the force of all constraints); C88_check says exactly when it passes. Steps are small enough, not a fixed 1e-5, and the arithmetic exact.",
 "C89": "BFGS stops when the largest coordinate of the gradient is small, which depends on the directions of the axes; hence only turns by multiples of 90 degrees (and mirror images) for BFGS. The Newton solvers need a finite step size and a finite cut-off and damping that are not negative (the defaults are).",
 "C90": "Parallel and perpendicular lines with lengths outside 2^-400..2^400, and angles with an arm outside 2^-18..2^400, are not covered: the code gives such degenerate lines and arms loss 0 or an angle of 0. Gauss-Newton and Levenberg-Marquardt stop on a NaN loss; the two theorems ending in _number show that this needs a NaN parameter of a constraint, since otherwise get_jacobian panics. Both solvers make one more step after the loss is small.",
 "C91": "Needs sketches that are closed under references: delete_primitive can leave a sketch whose constraints refer to primitives outside of it (C06), and then a solver adds to gradients outside of the sketch.",
 "C92": "C92_gd_couples is the counterexample for gradient descent.",
 "C93": "C93_blind is the counterexample to the README's converse (constraints in conflict have a non-zero loss). For other constraints a sketch can rest with non-zero loss without conflict, see C37.",
 "C94": "Generalises C72 and C73 to sketches without a solution and replaces their hypothesis on the conditioning by a count of points and constraints. The bound of 54 points is what the worst sketch needs for the fifteen trials of the line search (C71); it is not claimed to be sharp.",
 "C95": "BFGS stopped by its limit does not go on as if it had not been stopped, since a new call starts from the identity matrix; nothing is claimed about it. The hypothesis gt inf minLoss for the Newton-type solvers holds for every min_loss that is neither infinite nor NaN.",
 "C96": "Satisfied means loss exactly 0. A part that is only nearly satisfied is moved, by as much as its gradient says, and then the parts influence each other under gradient descent (C92).",
 "C97": "The bounds (rowError, gradError, entryError, lossError in SpecNear.lean) are absolute, scaled by the size of the residual before cancellation (spanOf), its slope (slopeOf) and, for angles, powers of 1/sine. Close to degenerate positions no such bound can hold: see C16, C20, C62. The library functions sin, cos, acos are assumed accurate to 2^-45 (`Libm.Accurate`).",
 "C98": "Sketches with arcs are not covered. `Libm.AtanAccurate` assumes that atan2 has an absolute error of at most kappa up to whole turns. Exact arithmetic means the same coordinates (`Heap.exact`). When directions are closer than the bound, rounding may choose another line: no statement is made there.",
 "C99": "`Suited` (SpecDescent.lean) lists the numeric conditions; they are sufficient, not sharp. mu and M are those of exact arithmetic at the same coordinates (`Heap.exact`). Nothing is said about sketches outside these bounds or with other constraints.",
 "C100": "The binary64 counterpart of C63 and C72. The limits 10 and 4 on the number of points come from the sufficient conditions of C99; nothing is claimed for gradient descent on longer stairs in binary64.",
 "C101": "Sketches that mix the three sorts are not covered: the sorts need different step sizes and share one. Parallel and perpendicular lines, angles and arcs are not covered.",
 "C102": "(5) generalises C20, which assumes that the sketch contains what its constraints use (Closed); the example deletes the corner of a triangle whose two lines and three constraints stay.",
 "C103": "CutPInv (SpecCut) states what nalgebra's pseudo_inverse does with small singular values; it is an assumption about nalgebra, met by cutPInv (Lemmas/Cut).",
 "C104": "A defect of the code: loss and gradient of these two constraints depend on the angle only, so that the gradient shrinks with the length of the lines while the step size is limited to 1.5^14.",
 "C105": "Exact arithmetic: with rounding the sums of the gradient are formed in another order.",
 "C106": "Away from degenerate positions (`Clear`): near them the arc cosine and the normalised directions are ill-conditioned.",
 "C107": "BFGS is only in the last part: its guard on s.y (1e-16, 1e-6) is absolute and not a parameter. EuclideanDistance is left out because of its absolute threshold 1e-6, angles and arcs because their losses scale differently.",
 "C108": "Parts (2) and (4) are about every outcome for which C103 shows that the distances to all best positions have changed alike (Straight); C103 shows this for all four solvers.",
 "C109": "The position after a failed line search, where the sketch is left at the last trial point, is not covered by the bound on the way; all accepted steps are.",
 "C110": "Infinite gradients are possible in f64 (finite contributions may overflow). Rings of arcs are left out of (2) and (3): after a solver run the gradient of an arc is not zero and the walk does not recognise the way back along it (C48).",
 "C111": "In binary64 rounding breaks all symmetries except those that commute with it, so a flat triangle may open after all; nothing is claimed there."
}