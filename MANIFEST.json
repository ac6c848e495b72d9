{
 "claims": [
  {
   "property": "C01",
   "status": "proved",
   "theorems": [
    "Isotope.C01_ids_increase",
    "Isotope.C01_new_id_never_used",
    "Isotope.C01_returned_id"
   ],
   "note": "Any arithmetic. Histories of fewer than 2^64 calls (u64 ids)."
  },
  {
   "property": "C02",
   "status": "proved",
   "theorems": [
    "Isotope.C02_ok_iff",
    "Isotope.C02_errors",
    "Isotope.C02_ok_effect"
   ],
   "note": "Any arithmetic, every sketch state."
  },
  {
   "property": "C03",
   "status": "proved",
   "theorems": [
    "Isotope.C03_lookup_iff",
    "Isotope.C03_found",
    "Isotope.C03_not_before",
    "Isotope.C03_deleted"
   ],
   "note": "Any arithmetic. Histories of fewer than 2^64 calls."
  },
  {
   "property": "C04",
   "status": "proved",
   "theorems": [
    "Isotope.C04_inverse",
    "Isotope.C04_unique"
   ],
   "note": "Any arithmetic."
  },
  {
   "property": "C05",
   "status": "proved",
   "theorems": [
    "Isotope.C05_no_duplicates"
   ],
   "note": "Any arithmetic."
  },
  {
   "property": "C06",
   "status": "proved",
   "theorems": [
    "Isotope.C06_closed",
    "Isotope.C06_closed_without_delete",
    "Isotope.C06_refuted_by_delete",
    "Isotope.C06_refuted_by_set_start"
   ],
   "note": "Proved for histories without delete_primitive and without re-pointing setters; both exceptions shown necessary by counterexample theorems."
  },
  {
   "property": "C07",
   "status": "proved",
   "theorems": [
    "Isotope.C07_absent",
    "Isotope.C07_present",
    "Isotope.C07_reachable"
   ],
   "note": "Any arithmetic."
  },
  {
   "property": "C08",
   "status": "proved",
   "theorems": [
    "Isotope.C08_actual_effect",
    "Isotope.C08_spec_iff_empty"
   ],
   "note": "The intended contract is refuted by the code: delete_constraint keeps exactly the constraint to be deleted. C08_actual_effect states what it does, C08_spec_iff_empty that the intended contract holds only for sketches without constraints."
  },
  {
   "property": "C09",
   "status": "proved",
   "theorems": [
    "Isotope.C09_add_point2",
    "Isotope.C09_add_line",
    "Isotope.C09_add_arc"
   ],
   "note": "Any arithmetic."
  },
  {
   "property": "C10",
   "status": "proved",
   "theorems": [
    "Isotope.C10_add_constraint",
    "Isotope.C10_constrain"
   ],
   "note": "Any arithmetic."
  },
  {
   "property": "C11",
   "status": "proved",
   "theorems": [
    "Isotope.C11_count",
    "Isotope.C11_dofs",
    "Isotope.C11_lengths"
   ],
   "note": "Any arithmetic."
  },
  {
   "property": "C12",
   "status": "proved",
   "theorems": [
    "Isotope.C12_layout",
    "Isotope.C12_roundtrip",
    "Isotope.C12_history"
   ],
   "note": "Any arithmetic."
  },
  {
   "property": "C13",
   "status": "proved",
   "theorems": [
    "Isotope.C13_write_back"
   ],
   "note": "Any arithmetic."
  },
  {
   "property": "C14",
   "status": "proved",
   "theorems": [
    "Isotope.C14_ok_iff",
    "Isotope.C14_wrong_length",
    "Isotope.C14_non_finite",
    "Isotope.C14_frame"
   ],
   "note": "Any arithmetic."
  },
  {
   "property": "C15",
   "status": "proved",
   "theorems": [
    "Isotope.C15_sum",
    "Isotope.C15_entries",
    "Isotope.C15_nonneg",
    "Isotope.C15_total_nonneg",
    "Isotope.C15_zero_iff",
    "Isotope.C15_finite"
   ],
   "note": "C15_sum and C15_entries any arithmetic; non-negativity for reals with infinities and NaN; zero iff all zero in exact arithmetic."
  },
  {
   "property": "C16",
   "status": "proved",
   "theorems": [
    "Isotope.C16_euclidean",
    "Isotope.C16_negative",
    "Isotope.C16_horizontal",
    "Isotope.C16_vertical"
   ],
   "note": "Exact arithmetic; distance is Mathlib's Euclidean dist."
  },
  {
   "property": "C17",
   "status": "proved",
   "theorems": [
    "Isotope.C17_fix",
    "Isotope.C17_arc_start",
    "Isotope.C17_arc_end"
   ],
   "note": "Exact arithmetic."
  },
  {
   "property": "C18",
   "status": "proved",
   "theorems": [
    "Isotope.C18_horizontal",
    "Isotope.C18_vertical",
    "Isotope.C18_equal_length",
    "Isotope.C18_parallel",
    "Isotope.C18_perpendicular"
   ],
   "note": "Exact arithmetic."
  },
  {
   "property": "C19",
   "status": "proved",
   "theorems": [
    "Isotope.C19_angle",
    "Isotope.C19_short_arm",
    "Isotope.C19_unsatisfiable"
   ],
   "note": "Exact arithmetic; angle is Mathlib's unoriented angle. Includes the short-arm and out-of-range cases."
  },
  {
   "property": "C20",
   "status": "proved",
   "theorems": [
    "Isotope.C20_domain",
    "Isotope.C20_gradient",
    "Isotope.C20_history"
   ],
   "note": "Exact arithmetic; Frechet derivative of the loss as a function of the whole data vector; C20_domain shows the differentiated function is total. Non-degeneracy is the predicate Regular."
  },
  {
   "property": "C21",
   "status": "proved",
   "theorems": [
    "Isotope.C21_jacobian"
   ],
   "note": "Exact arithmetic."
  },
  {
   "property": "C22",
   "status": "proved",
   "theorems": [
    "Isotope.C22_panics_iff"
   ],
   "note": "Exact arithmetic; closed sketches with finite numbers."
  },
  {
   "property": "C23",
   "status": "proved",
   "theorems": [
    "Isotope.C23_gradient_finite",
    "Isotope.C23_gradient_frame",
    "Isotope.C23_jacobian_frame",
    "Isotope.C23_gradient_independent",
    "Isotope.C23_gradient_idempotent",
    "Isotope.C23_jacobian_independent"
   ],
   "note": "Any arithmetic."
  },
  {
   "property": "C24",
   "status": "proved",
   "theorems": [
    "Isotope.C24_row",
    "Isotope.C24_gradient"
   ],
   "note": "Exact arithmetic; no non-degeneracy assumption."
  },
  {
   "property": "C25",
   "status": "proved",
   "theorems": [
    "Isotope.C25_constraint",
    "Isotope.C25_sketch"
   ],
   "note": "Exact arithmetic; per constraint and per sketch."
  },
  {
   "property": "C26",
   "status": "proved",
   "theorems": [
    "Isotope.C26_not_descent",
    "Isotope.C26_accepted",
    "Isotope.C26_failed",
    "Isotope.C26_not_descent_exact",
    "Isotope.C26_accepted_exact"
   ],
   "note": "Any arithmetic."
  },
  {
   "property": "C27",
   "status": "proved",
   "theorems": [
    "Isotope.C27_stiff",
    "Isotope.C27_failed_moves"
   ],
   "note": "The intended claim is refuted by the code: C27_failed_moves gives a history on which gradient descent fails, moves the sketch and increases the loss; C27_stiff is the general condition under which this happens (exact arithmetic)."
  },
  {
   "property": "C28",
   "status": "proved",
   "theorems": [
    "Isotope.C28_sufficient_decrease",
    "Isotope.C28_monotone"
   ],
   "note": "Any arithmetic satisfying the order laws FloatLaws (instance for reals with infinities and NaN in XRLaws.lean)."
  },
  {
   "property": "C29",
   "status": "proved",
   "theorems": [
    "Isotope.C29_stop",
    "Isotope.C29_stop_exact"
   ],
   "note": "Any arithmetic."
  },
  {
   "property": "C30",
   "status": "proved",
   "theorems": [
    "Isotope.C30_terminates",
    "Isotope.C30_stop",
    "Isotope.C30_stop_exact"
   ],
   "note": "Any arithmetic."
  },
  {
   "property": "C31",
   "status": "proved",
   "theorems": [
    "Isotope.C31_positive_definite",
    "Isotope.C31_descent"
   ],
   "note": "Exact arithmetic; runs without failed line search (ghost counter failed = 0). C31_descent needs a positive gradient threshold."
  },
  {
   "property": "C32",
   "status": "proved",
   "theorems": [
    "Isotope.C32_secant",
    "Isotope.C32_run"
   ],
   "note": "Exact arithmetic; C32_secant for every symmetric matrix and all s, y, C32_run for the steps of the solver."
  },
  {
   "property": "C33",
   "status": "proved",
   "theorems": [
    "Isotope.C33_sufficient_decrease",
    "Isotope.C33_monotone",
    "Isotope.C33_stale_step"
   ],
   "note": "Any arithmetic satisfying FloatLaws; runs without failed line search. C33_stale_step refutes the claim for runs with a failed search."
  },
  {
   "property": "C34",
   "status": "proved",
   "theorems": [
    "Isotope.C34_gn_ok",
    "Isotope.C34_lm_ok",
    "Isotope.C34_gn_terminates",
    "Isotope.C34_lm_terminates",
    "Isotope.C34_gn_stop",
    "Isotope.C34_lm_stop",
    "Isotope.C34_gn_leads",
    "Isotope.C34_lm_leads",
    "Isotope.C34_gn_fixed",
    "Isotope.C34_lm_fixed",
    "Isotope.C34_gn_stop_exact",
    "Isotope.C34_lm_stop_exact"
   ],
   "note": "Bounds and stopping reason in any arithmetic for an arbitrary pseudo-inverse; fixed point in exact arithmetic for any pseudo-inverse that returns finite matrices of the right size."
  },
  {
   "property": "C35",
   "status": "proved",
   "theorems": [
    "Isotope.C35_solver_frame",
    "Isotope.C35_world"
   ],
   "note": "Any arithmetic; all four solvers, all outcomes."
  },
  {
   "property": "C36",
   "status": "proved",
   "theorems": [
    "Isotope.C36_gd_stays",
    "Isotope.C36_bfgs_stays",
    "Isotope.C36_bfgs_stays_gradient",
    "Isotope.C36_gd_stays_exact",
    "Isotope.C36_bfgs_stays_exact"
   ],
   "note": "Any arithmetic."
  },
  {
   "property": "C37",
   "status": "proved",
   "theorems": [
    "Isotope.C37_stuck",
    "Isotope.C37_ok_not_solved"
   ],
   "note": "The intended claim is refuted by the code: C37_ok_not_solved; C37_stuck describes a whole class of unsolved sketches on which all four solvers return Ok without moving."
  },
  {
   "property": "C38",
   "status": "proved",
   "theorems": [
    "Isotope.C38_closed_chain"
   ],
   "note": "Any arithmetic; ends and starts agree by the == of the arithmetic, as in the code."
  },
  {
   "property": "C39",
   "status": "proved",
   "theorems": [
    "Isotope.C39_used_once",
    "Isotope.C39_count"
   ],
   "note": "Any arithmetic; segments of all rings counted with repetitions."
  },
  {
   "property": "C40",
   "status": "proved",
   "theorems": [
    "Isotope.C40_sorted",
    "Isotope.C40_positive",
    "Isotope.C40_circles",
    "Isotope.C40_nothing_lost",
    "Isotope.C40_circle_nonzero"
   ],
   "note": "Order needs total_cmp to be a total preorder (TotalCmpLaws, instance for exact numbers); positivity and completeness hold in any arithmetic; circles with non-zero radius in exact arithmetic."
  },
  {
   "property": "C41",
   "status": "proved",
   "theorems": [
    "Isotope.C41_hardest_left_float",
    "Isotope.C41_turn_finite",
    "Isotope.C41_direction",
    "Isotope.C41_lines",
    "Isotope.C41_none",
    "Isotope.C41_some",
    "Isotope.C41_hardest_left"
   ],
   "note": "None/Some characterised in any arithmetic; maximality in any arithmetic with the order laws of f64 (class OrderLaws) when no turning angle is NaN, and in exact arithmetic with finite angles."
  },
  {
   "property": "C42",
   "status": "proved",
   "theorems": [
    "Isotope.C42_angle_difference",
    "Isotope.C42_in_range"
   ],
   "note": "Exact arithmetic, range [-2pi,4pi], larger than claimed; C42_in_range shows which arguments occur."
  },
  {
   "property": "C43",
   "status": "proved",
   "theorems": [
    "Isotope.C43_lines",
    "Isotope.C43_found",
    "Isotope.C43_zero_area",
    "Isotope.C43_way_back_line",
    "Isotope.C43_way_back_arc"
   ],
   "note": "Proved for lines in any arithmetic up to the area test and for lines and arcs in exact arithmetic, any drawing order and direction. Needs non-NaN gradients and, for arcs, zero gradients (see C48)."
  },
  {
   "property": "C44",
   "status": "proved",
   "theorems": [
    "Isotope.C44_drawn",
    "Isotope.C44_unused",
    "Isotope.C44_not_in_ring",
    "Isotope.C44_spur_not_reported",
    "Isotope.C44_ring_reported"
   ],
   "note": "The intended claim (reported iff in no ring) is refuted in both directions by C44_spur_not_reported and C44_ring_reported; the true parts hold in any arithmetic."
  },
  {
   "property": "C45",
   "status": "proved",
   "theorems": [
    "Isotope.C45_no_panic",
    "Isotope.C45_exteriors",
    "Isotope.C45_holes",
    "Isotope.C45_largest",
    "Isotope.C45_nested_circles"
   ],
   "note": "The intended claim (a ring becomes a hole of the ring that contains it) is refuted: C45_holes gives the exact behaviour, C45_largest and C45_nested_circles the consequences. geo's containment test is an arbitrary function."
  },
  {
   "property": "C46",
   "status": "proved",
   "theorems": [
    "Isotope.C46_located",
    "Isotope.C46_identity",
    "Isotope.C46_panic"
   ],
   "note": "geo's interior_point and contains are arbitrary functions."
  },
  {
   "property": "C47",
   "status": "proved",
   "theorems": [
    "Isotope.C47_swaps",
    "Isotope.C47_line",
    "Isotope.C47_arc",
    "Isotope.C47_arc_reverse",
    "Isotope.C47_closed",
    "Isotope.C47_area"
   ],
   "note": "Swap, involution in any arithmetic; closedness needs symmetric ==; area in exact arithmetic."
  },
  {
   "property": "C48",
   "status": "proved",
   "theorems": [
    "Isotope.C48_lines",
    "Isotope.C48_face_vanishes"
   ],
   "note": "The intended claim is refuted by C48_face_vanishes (get_gradient makes a ring disappear); C48_lines is the true part."
  },
  {
   "property": "C49",
   "status": "proved",
   "theorems": [
    "Isotope.C49_shoelace",
    "Isotope.C49_closed_polygon",
    "Isotope.C49_start",
    "Isotope.C49_affine",
    "Isotope.C49_triangle",
    "Isotope.C49_cut",
    "Isotope.C49_circle",
    "Isotope.C49_two_points",
    "Isotope.C49_half_circles"
   ],
   "note": "Exact arithmetic; general affine maps, cutting along a diagonal, triangles, circles, segments between two points."
  },
  {
   "property": "C50",
   "status": "proved",
   "theorems": [
    "Isotope.C50_segments",
    "Isotope.C50_circle",
    "Isotope.C50_distance"
   ],
   "note": "Exact arithmetic."
  },
  {
   "property": "C51",
   "status": "proved",
   "theorems": [
    "Isotope.C51_distance",
    "Isotope.C51_start_gradient",
    "Isotope.C51_end_gradient"
   ],
   "note": "Exact arithmetic."
  },
  {
   "property": "C52",
   "status": "proved",
   "theorems": [
    "Isotope.C52_clone",
    "Isotope.C52_membership_separate",
    "Isotope.C52_same_view",
    "Isotope.C52_set_data_visible",
    "Isotope.C52_all_well_formed",
    "Isotope.C52_ids_collide"
   ],
   "note": "Any arithmetic. Model/Multi.lean: several sketches over one heap."
  },
  {
   "property": "C53",
   "status": "proved",
   "theorems": [
    "Isotope.C53_load_ids",
    "Isotope.C53_load_last",
    "Isotope.C53_save_load",
    "Isotope.C53_values",
    "Isotope.C53_unshared",
    "Isotope.C53_no_force",
    "Isotope.C53_loss_frozen",
    "Isotope.C53_refused",
    "Isotope.C53_faces",
    "Isotope.C53_history"
   ],
   "note": "First stated as 'same further behaviour', which is false: serde's rc feature writes every Rc as its contents and reads a new object each time. Values survive (C53_save_load, C53_values, C53_faces), behaviour does not (C53_unshared, C53_no_force, C53_loss_frozen, C53_refused). The derived (de)serialisers are modelled on trees of values; the wire format is not modelled."
  },
  {
   "property": "C54",
   "status": "proved",
   "theorems": [
    "Isotope.C54_restores",
    "Isotope.C54_restores_on_panic"
   ],
   "note": "Any arithmetic."
  },
  {
   "property": "C55",
   "status": "proved",
   "theorems": [
    "Isotope.C55_point_add",
    "Isotope.C55_line_add",
    "Isotope.C55_arc_add",
    "Isotope.C55_circle_add",
    "Isotope.C55_set_x",
    "Isotope.C55_set_y",
    "Isotope.C55_prim_set_data",
    "Isotope.C55_constructors",
    "Isotope.C55_unchecked"
   ],
   "note": "Any arithmetic."
  },
  {
   "property": "C56",
   "status": "proved",
   "theorems": [
    "Isotope.C56_all_points"
   ],
   "note": "Any arithmetic."
  },
  {
   "property": "C57",
   "status": "proved",
   "theorems": [
    "Isotope.C57_translation",
    "Isotope.C57_rotation"
   ],
   "note": "Exact arithmetic."
  },
  {
   "property": "C58",
   "status": "proved",
   "theorems": [
    "Isotope.C58_queries",
    "Isotope.C58_no_clash",
    "Isotope.C58_guard_clash"
   ],
   "note": "Second model of the library with RefCell borrow flags (Model/Borrow.lean): every borrow()/borrow_mut() with the life time of its guard, all twelve constraints, sketch functions, solvers, decomposition. Proved equal to the model without flags. The comparator of sort_by is evaluated once per ring instead of once per comparison."
  },
  {
   "property": "C59",
   "status": "proved",
   "theorems": [
    "Isotope.C59_gauss_newton",
    "Isotope.C59_levenberg_marquardt",
    "Isotope.C59_gradient"
   ],
   "note": "Exact arithmetic. pseudo_inverse is arbitrary; that its result is a generalised (or symmetric outer) inverse is a hypothesis on each step. Lemmas/GenInv.lean shows that such a pseudo-inverse exists."
  },
  {
   "property": "C60",
   "status": "proved",
   "theorems": [
    "Isotope.C60_step",
    "Isotope.C60_run",
    "Isotope.C60_default_not_solved"
   ],
   "note": "Exact arithmetic. The pseudo-inverse is arbitrary as in C59; a hypothesis says it inverted the matrices of the run. Errors that are exactly 0 are excluded: their row in the Jacobian vanishes and another constraint's move may disturb them."
  },
  {
   "property": "C61",
   "status": "proved",
   "theorems": [
    "Isotope.C61_gd_monotone",
    "Isotope.C61_bfgs_monotone",
    "Isotope.C61_nonneg",
    "Isotope.C61_total_nonneg",
    "Isotope.C61_fix_underflow",
    "Isotope.C61_fix_zero"
   ],
   "note": "Strength 4: concrete IEEE binary64 (Verif/Round.lean, Verif/B64.lean). The three law classes used by other claims (FloatLaws, TotalCmpLaws, OrderLaws) are proved for it in Verif/B64Laws.lean. NaN payloads and signs are dropped; cos, sin, acos, atan2 are arbitrary functions."
  },
  {
   "property": "C62",
   "status": "proved",
   "theorems": [
    "Isotope.C62_panics_iff",
    "Isotope.C62_short_line",
    "Isotope.C62_zero_length",
    "Isotope.C62_loss_finite",
    "Isotope.C62_overflow"
   ],
   "note": "Strength 4: IEEE binary64. The library functions cos, sin, acos are arbitrary up to the bounds of Libm.Sane; roundedLibm_sane shows that the correctly rounded functions meet them. The limits 2^200 and 2^50 are sufficient, not the exact thresholds of overflow."
  },
  {
   "property": "C63",
   "status": "proved",
   "theorems": [
    "Isotope.C63_stairs_build",
    "Isotope.C63_stairs_empty",
    "Isotope.C63_stairs_error",
    "Isotope.C63_stairs_zero",
    "Isotope.C63_stairs_check",
    "Isotope.C63_stairs_run",
    "Isotope.C63_stairs_gap",
    "Isotope.C63_stairs_last"
   ],
   "note": "C63_stairs_build: any arithmetic in which 0.0 and 0.8 are finite; n is bounded by 2^63 because ids are u64. The other theorems: exact arithmetic, any heap that keeps the references (as every solver does)."
  },
  {
   "property": "C64",
   "status": "proved",
   "theorems": [
    "Isotope.C64_axis_build",
    "Isotope.C64_axis_error",
    "Isotope.C64_axis_zero",
    "Isotope.C64_axis_asserts",
    "Isotope.C64_axis_gap",
    "Isotope.C64_axis_run"
   ],
   "note": "C64_axis_build: any arithmetic in which the constants are finite. The other theorems: exact arithmetic, any heap that keeps the references."
  },
  {
   "property": "C65",
   "status": "proved",
   "theorems": [
    "Isotope.C65_rotated_build",
    "Isotope.C65_rotated_zero",
    "Isotope.C65_rotated_check",
    "Isotope.C65_rotated_degenerate"
   ],
   "note": "C65_rotated_build: any arithmetic in which the constants are finite. The other theorems: exact arithmetic. Zero loss only; no bound on the error is given for a positive loss."
  },
  {
   "property": "C66",
   "status": "proved",
   "theorems": [
    "Isotope.C66_circle_build",
    "Isotope.C66_circle_empty",
    "Isotope.C66_circle_build_exact",
    "Isotope.C66_circle_error",
    "Isotope.C66_circle_zero",
    "Isotope.C66_circle_check",
    "Isotope.C66_circle_run"
   ],
   "note": "C66_circle_build: any arithmetic in which the reference points, their distances and angles are finite; C66_circle_build_exact discharges this in exact arithmetic. nalgebra's Matrix::angle is modelled as the arc cosine of the clamped cosine (0 for a zero vector)."
  },
  {
   "property": "C67",
   "status": "proved",
   "theorems": [
    "Isotope.C67_primitive_setters",
    "Isotope.C67_constraint_setters",
    "Isotope.C67_methods",
    "Isotope.C67_frame",
    "Isotope.C67_other_losses",
    "Isotope.C67_is_a_call",
    "Isotope.C67_targets",
    "Isotope.C67_unvalidated"
   ],
   "note": "Any arithmetic. Point2::set_x, set_y (which do check finiteness) are covered by C55."
  },
  {
   "property": "C68",
   "status": "proved",
   "theorems": [
    "Isotope.C68_watched",
    "Isotope.C68_desired_distance",
    "Isotope.C68_desired_angle",
    "Isotope.C68_tested",
    "Isotope.C68_all_tested",
    "Isotope.C68_solvers",
    "Isotope.C68_solvers_binary64",
    "Isotope.C68_search",
    "Isotope.C68_no_step"
   ],
   "note": "NonFiniteLaws (instances: exact arithmetic, binary64). C68_solvers assumes a non-negative loss, discharged by C15 and C61 (C68_solvers_binary64). Angles of arcs are left out of the watched numbers because cos and sin of infinity come from the platform."
  },
  {
   "property": "C69",
   "status": "proved",
   "theorems": [
    "Isotope.C69_either_side",
    "Isotope.C69_three_segments",
    "Isotope.C69_three_segments_binary64",
    "Isotope.C69_wrong_turn"
   ],
   "note": "C69_either_side assumes that of arcs that coincide (same centre, radius and end angles) all or none are changed. C69_wrong_turn is a refutation of the expected behaviour."
  },
  {
   "property": "C70",
   "status": "proved",
   "theorems": [
    "Isotope.C70_adjacent_edges",
    "Isotope.C70_circle_adjacent",
    "Isotope.C70_mutual",
    "Isotope.C70_ring_eq",
    "Isotope.C70_start_matters",
    "Isotope.C70_one_way"
   ],
   "note": "EqLaws (== symmetric and transitive) proved for exact arithmetic and binary64. C70_one_way is a refutation of the expected behaviour; the rings compared are returned by find_rings."
  },
  {
   "property": "C71",
   "status": "proved",
   "theorems": [
    "Isotope.C71_parabola",
    "Isotope.C71_search",
    "Isotope.C71_step",
    "Isotope.C71_gd_fails",
    "Isotope.C71_direction"
   ],
   "note": "Exact arithmetic. The bend is defined by the losses at q and q - g only, not by the linear system used in the proof."
  },
  {
   "property": "C72",
   "status": "proved",
   "theorems": [
    "Isotope.C72_converges",
    "Isotope.C72_enough",
    "Isotope.C72_stairs",
    "Isotope.C72_stairs_fails"
   ],
   "note": "Exact arithmetic. The factor per step is a worst case over all accepted steps; nothing is claimed about the number of iterations actually needed. Between 76 and 92 points neither theorem about the stairs applies."
  },
  {
   "property": "C73",
   "status": "proved",
   "theorems": [
    "Isotope.C73_converges",
    "Isotope.C73_enough",
    "Isotope.C73_stairs"
   ],
   "note": "Exact arithmetic. The factor per step is a worst case; nothing is claimed about superlinear convergence. The margin of 1e-10 per iteration comes from the guard that adds 1e-6 to a tiny s.y: it breaks the secant equation and makes the bound on the bend worse by at most s.y/1e-6 < 1e-10."
  },
  {
   "property": "C74",
   "status": "proved",
   "theorems": [
    "Isotope.C74_converges",
    "Isotope.C74_enough",
    "Isotope.C74_distance"
   ],
   "note": "Exact arithmetic. Local: the size of the neighbourhood is not computed. That a sketch is squeezed near a solution is a hypothesis; it is proved for one distance between two points, and it fails where the constraints have no solution near by or where a constraint touches its solution set tangentially."
  },
  {
   "property": "C75",
   "status": "proved",
   "theorems": [
    "Isotope.C75_step",
    "Isotope.C75_run",
    "Isotope.C75_never",
    "Isotope.C75_five",
    "Isotope.C75_enough",
    "Isotope.C75_four",
    "Isotope.C75_stall",
    "Isotope.C75_flat"
   ],
   "note": "Exact arithmetic. pseudo_inverse is assumed to do on symmetric positive semidefinite matrices what nalgebra documents (CutPInv: eigenvalues above eps inverted, the others replaced by 0); such a function exists (cutPInv_cut). C60 covers constraints that share coordinates, as long as nothing is cut off."
  },
  {
   "property": "C76",
   "status": "proved",
   "theorems": [
    "Isotope.C76_step",
    "Isotope.C76_run",
    "Isotope.C76_default_fails",
    "Isotope.C76_enough"
   ],
   "note": "Exact arithmetic; pseudo_inverse assumed as in C75. The damping keeps all singular values above the default cut-off, so nothing is cut off."
  },
  {
   "property": "C77",
   "status": "proved",
   "theorems": [
    "Isotope.C77_rings",
    "Isotope.C77_unused",
    "Isotope.C77_covered",
    "Isotope.C77_area"
   ],
   "note": "Exact arithmetic, lines only: with arcs the code compares parameter angles instead of tangents, so its left turns are not left turns (see C49 and C41 for what holds there). That the circuits are the boundaries of the regions of a plane drawing is not formalised; the conditions are on turns only."
  },
  {
   "property": "C78",
   "status": "proved",
   "theorems": [
    "Isotope.C78_order",
    "Isotope.C78_closing_needed"
   ],
   "note": "Exact arithmetic, lines only. Order of the rings in the result: by area (C40), so only rings of equal area can change places."
  },
  {
   "property": "C79",
   "status": "proved",
   "theorems": [
    "Isotope.C79_affine",
    "Isotope.C79_unused",
    "Isotope.C79_mirrored"
   ],
   "note": "Exact arithmetic, lines only, under the conditions of C77 for the first drawing (they are shown to carry over to the image). For mirroring maps nothing is said about unused lines, since the code asks for the direction drawn."
  },
  {
   "property": "C80",
   "status": "proved",
   "theorems": [
    "Isotope.C80_rings",
    "Isotope.C80_unused"
   ],
   "note": "Exact arithmetic, lines only, under the conditions of C77 for both parts (they are shown to carry over to the whole)."
  },
  {
   "property": "C81",
   "status": "proved",
   "theorems": [
    "Isotope.C81_slopes",
    "Isotope.C81_steps",
    "Isotope.C81_rest",
    "Isotope.C81_distances"
   ],
   "note": "Exact arithmetic. The line search may still give up (SearchFailed) when its 15 rounds do not suffice; the theorems bound what happens up to then."
  },
  {
   "property": "C82",
   "status": "proved",
   "theorems": [
    "Isotope.C82_steep",
    "Isotope.C82_solved",
    "Isotope.C82_descent",
    "Isotope.C82_enough",
    "Isotope.C82_bfgs",
    "Isotope.C82_circuit"
   ],
   "note": "Exact arithmetic. As in C81 SearchFailed stays possible. The theorem C82_circuit gives a sketch with a circuit, zero gradient and loss 1, for which gradient descent returns Ok at once."
  },
  {
   "property": "C83",
   "status": "proved",
   "theorems": [
    "Isotope.C83_cut",
    "Isotope.C83_unused",
    "Isotope.C83_convex"
   ],
   "note": "Exact arithmetic. The drawing must be one whose walks close up (ClosesUp), as in C77."
  },
  {
   "property": "C84",
   "status": "proved",
   "theorems": [
    "Isotope.C84_rings",
    "Isotope.C84_unused"
   ],
   "note": "Exact arithmetic. The drawing must be one whose walks close up (ClosesUp), as in C77. Nothing is said about whether a part drawn against the direction of the whole line is reported unused."
  },
  {
   "property": "C85",
   "status": "proved",
   "theorems": [
    "Isotope.C85_anywhere"
   ],
   "note": "Exact arithmetic (in floating point the sums round differently elsewhere)."
  },
  {
   "property": "C86",
   "status": "proved",
   "theorems": [
    "Isotope.C86_any_order"
   ],
   "note": "Exact arithmetic (floating-point addition is not associative)."
  },
  {
   "property": "C87",
   "status": "proved",
   "theorems": [
    "Isotope.C87_any_order",
    "Isotope.C87_gauss_newton",
    "Isotope.C87_levenberg_marquardt"
   ],
   "note": "Exact arithmetic. For Gauss-Newton and Levenberg-Marquardt the pseudo-inverse is a parameter; it has to follow a change of order (FollowsOrder) or to be the cut-off one of SpecCut.lean."
  },
  {
   "property": "C88",
   "status": "proved",
   "theorems": [
    "Isotope.C88_check",
    "Isotope.C88_only_constraint"
   ],
   "note": "The check of one constraint in a sketch with other constraints compares unlike things (its own difference quotients with the force of all constraints); C88_check says exactly when it passes. Steps are small enough, not a fixed 1e-5, and the arithmetic exact."
  },
  {
   "property": "C89",
   "status": "proved",
   "theorems": [
    "Isotope.C89_losses",
    "Isotope.C89_gradient_descent",
    "Isotope.C89_bfgs",
    "Isotope.C89_gauss_newton",
    "Isotope.C89_levenberg_marquardt"
   ],
   "note": "BFGS stops when the largest coordinate of the gradient is small, which depends on the directions of the axes; hence only turns by multiples of 90 degrees (and mirror images) for BFGS. The Newton solvers need a finite step size and a finite cut-off and damping that are not negative (the defaults are)."
  },
  {
   "property": "C90",
   "status": "proved",
   "theorems": [
    "Isotope.C90_gauss_newton_number",
    "Isotope.C90_levenberg_marquardt_number",
    "Isotope.C90_small_loss",
    "Isotope.C90_bfgs",
    "Isotope.C90_gd",
    "Isotope.C90_gauss_newton",
    "Isotope.C90_levenberg_marquardt",
    "Isotope.C90_default_bfgs",
    "Isotope.C90_default_gd",
    "Isotope.C90_default_gauss_newton",
    "Isotope.C90_default_levenberg_marquardt"
   ],
   "note": "Parallel and perpendicular lines with lengths outside 2^-400..2^400, and angles with an arm outside 2^-18..2^400, are not covered: the code gives such degenerate lines and arms loss 0 or an angle of 0. Gauss-Newton and Levenberg-Marquardt stop on a NaN loss; the two theorems ending in _number show that this needs a NaN parameter of a constraint, since otherwise get_jacobian panics. Both solvers make one more step after the loss is small."
  },
  {
   "property": "C91",
   "status": "proved",
   "theorems": [
    "Isotope.C91_reads",
    "Isotope.C91_writes",
    "Isotope.C91_either_order",
    "Isotope.C91_histories"
   ],
   "note": "Needs sketches that are closed under references: delete_primitive can leave a sketch whose constraints refer to primitives outside of it (C06), and then a solver adds to gradients outside of the sketch."
  },
  {
   "property": "C92",
   "status": "proved",
   "theorems": [
    "Isotope.C92_gauss_newton",
    "Isotope.C92_levenberg_marquardt",
    "Isotope.C92_gd_couples"
   ],
   "note": "C92_gd_couples is the counterexample for gradient descent."
  },
  {
   "property": "C93",
   "status": "proved",
   "theorems": [
    "Isotope.C93_conflict",
    "Isotope.C93_detects",
    "Isotope.C93_unique",
    "Isotope.C93_certificate",
    "Isotope.C93_blind"
   ],
   "note": "C93_blind is the counterexample to the README's converse (constraints in conflict have a non-zero loss). For other constraints a sketch can rest with non-zero loss without conflict, see C37."
  },
  {
   "property": "C94",
   "status": "proved",
   "theorems": [
    "Isotope.C94_least",
    "Isotope.C94_gd",
    "Isotope.C94_gd_enough",
    "Isotope.C94_bfgs",
    "Isotope.C94_losses",
    "Isotope.C94_highlight"
   ],
   "note": "Generalises C72 and C73 to sketches without a solution and replaces their hypothesis on the conditioning by a count of points and constraints. The bound of 54 points is what the worst sketch needs for the fifteen trials of the line search (C71); it is not claimed to be sharp."
  },
  {
   "property": "C95",
   "status": "proved",
   "theorems": [
    "Isotope.C95_limit",
    "Isotope.C95_early",
    "Isotope.C95_where",
    "Isotope.C95_leftover",
    "Isotope.C95_gd_resume",
    "Isotope.C95_gn_resume",
    "Isotope.C95_lm_resume",
    "Isotope.C95_newton_moves",
    "Isotope.C95_bfgs_again"
   ],
   "note": "BFGS stopped by its limit does not go on as if it had not been stopped, since a new call starts from the identity matrix; nothing is claimed about it. The hypothesis gt inf minLoss for the Newton-type solvers holds for every min_loss that is neither infinite nor NaN."
  },
  {
   "property": "C96",
   "status": "proved",
   "theorems": [
    "Isotope.C96_run",
    "Isotope.C96_stays",
    "Isotope.C96_free"
   ],
   "note": "Satisfied means loss exactly 0. A part that is only nearly satisfied is moved, by as much as its gradient says, and then the parts influence each other under gradient descent (C92)."
  },
  {
   "property": "C97",
   "status": "proved",
   "theorems": [
    "Isotope.C97_loss_per_constraint",
    "Isotope.C97_loss",
    "Isotope.C97_gradient",
    "Isotope.C97_jacobian",
    "Isotope.C97_decrease",
    "Isotope.C97_bfgs",
    "Isotope.C97_gd"
   ],
   "note": "The bounds (rowError, gradError, entryError, lossError in SpecNear.lean) are absolute, scaled by the size of the residual before cancellation (spanOf), its slope (slopeOf) and, for angles, powers of 1/sine. Close to degenerate positions no such bound can hold: see C16, C20, C62. The library functions sin, cos, acos are assumed accurate to 2^-45 (`Libm.Accurate`)."
  },
  {
   "property": "C98",
   "status": "proved",
   "theorems": [
    "Isotope.C98_unused",
    "Isotope.C98_found",
    "Isotope.C98_kept",
    "Isotope.C98_order",
    "Isotope.C98_rings",
    "Isotope.C98_list",
    "Isotope.C98_around",
    "Isotope.C98_spread",
    "Isotope.C98_grid"
   ],
   "note": "Sketches with arcs are not covered. `Libm.AtanAccurate` assumes that atan2 has an absolute error of at most kappa up to whole turns. Exact arithmetic means the same coordinates (`Heap.exact`). When directions are closer than the bound, rounding may choose another line: no statement is made there."
  },
  {
   "property": "C99",
   "status": "proved",
   "theorems": [
    "Isotope.C99_converges",
    "Isotope.C99_enough"
   ],
   "note": "`Suited` (SpecDescent.lean) lists the numeric conditions; they are sufficient, not sharp. mu and M are those of exact arithmetic at the same coordinates (`Heap.exact`). Nothing is said about sketches outside these bounds or with other constraints."
  },
  {
   "property": "C100",
   "status": "proved",
   "theorems": [
    "Isotope.C100_build",
    "Isotope.C100_error",
    "Isotope.C100_check",
    "Isotope.C100_run",
    "Isotope.C100_descends",
    "Isotope.C100_solves"
   ],
   "note": "The binary64 counterpart of C63 and C72. The limits 10 and 4 on the number of points come from the sufficient conditions of C99; nothing is claimed for gradient descent on longer stairs in binary64."
  },
  {
   "property": "C101",
   "status": "proved",
   "theorems": [
    "Isotope.C101_gd",
    "Isotope.C101_bfgs",
    "Isotope.C101_overshoot"
   ],
   "note": "Sketches that mix the three sorts are not covered: the sorts need different step sizes and share one. Parallel and perpendicular lines, angles and arcs are not covered."
  },
  {
   "property": "C102",
   "status": "proved",
   "theorems": [
    "Isotope.C102_data",
    "Isotope.C102_gradient",
    "Isotope.C102_jacobian",
    "Isotope.C102_write",
    "Isotope.C102_solvers",
    "Isotope.C102_domain",
    "Isotope.C102_derivative"
   ],
   "note": "(5) generalises C20, which assumes that the sketch contains what its constraints use (Closed); the example deletes the corner of a triangle whose two lines and three constraints stay."
  },
  {
   "property": "C103",
   "status": "proved",
   "theorems": [
    "Isotope.C103_nearest",
    "Isotope.C103_gd",
    "Isotope.C103_bfgs",
    "Isotope.C103_gn",
    "Isotope.C103_lm",
    "Isotope.C103_distance",
    "Isotope.C103_gd_default",
    "Isotope.C103_bfgs_default"
   ],
   "note": "CutPInv (SpecCut) states what nalgebra's pseudo_inverse does with small singular values; it is an assumption about nalgebra, met by cutPInv (Lemmas/Cut)."
  },
  {
   "property": "C104",
   "status": "proved",
   "theorems": [
    "Isotope.C104_gd",
    "Isotope.C104_bfgs",
    "Isotope.C104_gd_default"
   ],
   "note": "A defect of the code: loss and gradient of these two constraints depend on the angle only, so that the gradient shrinks with the length of the lines while the step size is limited to 1.5^14."
  },
  {
   "property": "C105",
   "status": "proved",
   "theorems": [
    "Isotope.C105_restated",
    "Isotope.C105_queries"
   ],
   "note": "Exact arithmetic: with rounding the sums of the gradient are formed in another order."
  },
  {
   "property": "C106",
   "status": "proved",
   "theorems": [
    "Isotope.C106_loss",
    "Isotope.C106_bfgs",
    "Isotope.C106_gd",
    "Isotope.C106_newton",
    "Isotope.C106_default"
   ],
   "note": "Away from degenerate positions (`Clear`): near them the arc cosine and the normalised directions are ill-conditioned."
  },
  {
   "property": "C107",
   "status": "proved",
   "theorems": [
    "Isotope.C107_losses",
    "Isotope.C107_gradient_descent",
    "Isotope.C107_gauss_newton",
    "Isotope.C107_levenberg_marquardt",
    "Isotope.C107_too_small"
   ],
   "note": "BFGS is only in the last part: its guard on s.y (1e-16, 1e-6) is absolute and not a parameter. EuclideanDistance is left out because of its absolute threshold 1e-6, angles and arcs because their losses scale differently."
  },
  {
   "property": "C108",
   "status": "proved",
   "theorems": [
    "Isotope.C108_setter",
    "Isotope.C108_size",
    "Isotope.C108_loss",
    "Isotope.C108_moves",
    "Isotope.C108_same",
    "Isotope.C108_gd_edit",
    "Isotope.C108_bfgs_edit",
    "Isotope.C108_redundant",
    "Isotope.C108_solvers"
   ],
   "note": "Parts (2) and (4) are about every outcome for which C103 shows that the distances to all best positions have changed alike (Straight); C103 shows this for all four solvers."
  },
  {
   "property": "C109",
   "status": "proved",
   "theorems": [
    "Isotope.C109_travel",
    "Isotope.C109_forest",
    "Isotope.C109_solvable",
    "Isotope.C109_loss",
    "Isotope.C109_edit"
   ],
   "note": "The position after a failed line search, where the sketch is left at the last trial point, is not covered by the bound on the way; all accepted steps are."
  },
  {
   "property": "C110",
   "status": "proved",
   "theorems": [
    "Isotope.C110_axis",
    "Isotope.C110_axis_run",
    "Isotope.C110_axis_descent",
    "Isotope.C110_step",
    "Isotope.C110_history",
    "Isotope.C110_jacobian",
    "Isotope.C110_outline",
    "Isotope.C110_asking",
    "Isotope.C110_near",
    "Isotope.C110_solved"
   ],
   "note": "Infinite gradients are possible in f64 (finite contributions may overflow). Rings of arcs are left out of (2) and (3): after a solver run the gradient of an arc is not zero and the walk does not recognise the way back along it (C48)."
  },
  {
   "property": "C111",
   "status": "proved",
   "theorems": [
    "Isotope.C111_gradient_descent",
    "Isotope.C111_bfgs",
    "Isotope.C111_gauss_newton",
    "Isotope.C111_levenberg_marquardt",
    "Isotope.C111_flat_gradient_descent",
    "Isotope.C111_flat_bfgs",
    "Isotope.C111_flat_gauss_newton",
    "Isotope.C111_flat_levenberg_marquardt",
    "Isotope.C111_triangle"
   ],
   "note": "In binary64 rounding breaks all symmetries except those that commute with it, so a flat triangle may open after all; nothing is claimed there."
  },
  {
   "property": "C112",
   "status": "proved",
   "theorems": [
    "Isotope.C112_x",
    "Isotope.C112_y",
    "Isotope.C112_sketch",
    "Isotope.C112_lone_fix",
    "Isotope.C112_rest"
   ],
   "note": ""
  },
  {
   "property": "C113",
   "status": "proved",
   "theorems": [
    "Isotope.C113_pinned",
    "Isotope.C113_step",
    "Isotope.C113_rigid",
    "Isotope.C113_gradient"
   ],
   "note": ""
  },
  {
   "property": "C114",
   "status": "proved",
   "theorems": [
    "Isotope.C114_step",
    "Isotope.C114_run",
    "Isotope.C114_grows",
    "Isotope.C114_apart",
    "Isotope.C114_collapse"
   ],
   "note": ""
  },
  {
   "property": "C115",
   "status": "proved",
   "theorems": [
    "Isotope.C115_ways",
    "Isotope.C115_far",
    "Isotope.C115_default",
    "Isotope.C115_spread"
   ],
   "note": ""
  },
  {
   "property": "C116",
   "status": "proved",
   "theorems": [
    "Isotope.C116_gn",
    "Isotope.C116_lm",
    "Isotope.C116_gn_default",
    "Isotope.C116_lm_default",
    "Isotope.C116_gn_run",
    "Isotope.C116_lm_run",
    "Isotope.C116_gn_order",
    "Isotope.C116_lm_order"
   ],
   "note": ""
  }
 ]
}