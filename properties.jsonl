{"id": "C01", "title": "Primitive ids are never reused", "statement": "Every successful add_primitive returns an id different from every id returned before in the same sketch's life, ids are strictly increasing, and this stays so across deletions and failed adds.", "quantifier": "every finite history of public API calls on a fresh sketch (any interleaving of allocation, add, delete, constrain, setters, set_data, get_gradient, get_jacobian and solver calls), with fewer than 2^64 calls", "why_tests_cant": "Needs all histories, including arbitrary delete/add interleavings; a test fixes one.", "anchors": ["src/sketch/mod.rs:Sketch::add_primitive", "src/sketch/mod.rs:Sketch::delete_primitive"]}
{"id": "C02", "title": "add_primitive accepts exactly the well-referenced new primitives", "statement": "add_primitive returns Ok iff every primitive it references is currently in the sketch and it is itself not in the sketch; MissingSketchReferences takes precedence over PrimitiveAlreadyInSketch; on Err the sketch is unchanged; on Ok exactly one entry is added.", "quantifier": "every sketch state and every primitive of every kind", "why_tests_cant": "Quantifies over all sketch contents and all reference patterns.", "anchors": ["src/sketch/mod.rs:Sketch::add_primitive"]}
{"id": "C03", "title": "Lookup by id follows the add/delete history", "statement": "get_primitive_by_id(id) returns the very primitive whose add call returned id, from that call on until a delete_primitive(id) succeeds, and None at all other times.", "quantifier": "every finite history of public API calls on a fresh sketch (any interleaving of allocation, add, delete, constrain, setters, set_data, get_gradient, get_jacobian and solver calls), with fewer than 2^64 calls", "why_tests_cant": "A history property: any number of unrelated operations may lie between the add and the lookup.", "anchors": ["src/sketch/mod.rs:Sketch::get_primitive_by_id", "src/sketch/mod.rs:Sketch::add_primitive", "src/sketch/mod.rs:Sketch::delete_primitive"]}
{"id": "C04", "title": "get_primitive_id is the inverse of get_primitive_by_id", "statement": "For every primitive p and id i: get_primitive_id(p)=Some(i) iff get_primitive_by_id(i) is p. So each primitive object has at most one id and each id one object.", "quantifier": "every finite history of public API calls on a fresh sketch (any interleaving of allocation, add, delete, constrain, setters, set_data, get_gradient, get_jacobian and solver calls), with fewer than 2^64 calls", "why_tests_cant": "Uniqueness over all reachable sketches, not a sample.", "anchors": ["src/sketch/mod.rs:Sketch::get_primitive_id", "src/sketch/mod.rs:Sketch::get_primitive_by_id"]}
{"id": "C05", "title": "No object is in a sketch twice", "statement": "primitives() never holds the same primitive object under two ids and constraints() never holds the same constraint object twice.", "quantifier": "every finite history of public API calls on a fresh sketch (any interleaving of allocation, add, delete, constrain, setters, set_data, get_gradient, get_jacobian and solver calls), with fewer than 2^64 calls", "why_tests_cant": "Invariant over all histories.", "anchors": ["src/sketch/mod.rs:Sketch::add_primitive", "src/sketch/mod.rs:Sketch::add_constraint"]}
{"id": "C06", "title": "References are closed", "statement": "In every history without delete_primitive and without re-pointing setters, every primitive referenced by a primitive or by a constraint of the sketch is itself in the sketch; delete_primitive and re-pointing setters each can break it.", "quantifier": "every history without delete_primitive and reference setters; refuted in general", "why_tests_cant": "Invariant over histories; tests only try one missing reference.", "anchors": ["src/sketch/mod.rs:Sketch::add_primitive", "src/sketch/mod.rs:Sketch::add_constraint", "src/sketch/mod.rs:Sketch::delete_primitive"]}
{"id": "C07", "title": "delete_primitive removes exactly one id", "statement": "delete_primitive(id) returns Err(PrimitiveNotFound(id)) and changes nothing if id is not present; otherwise it removes id and leaves every other id, the order of the others, the constraints and all coordinates as they were.", "quantifier": "every sketch state and every id", "why_tests_cant": "All states, all ids; frame condition on everything else.", "anchors": ["src/sketch/mod.rs:Sketch::delete_primitive"]}
{"id": "C08", "title": "Effect of delete_constraint", "statement": "Intended: delete_constraint(c) returns Ok iff c is in the sketch and then removes c and nothing else, else ConstraintNotFound without change. The code violates this (inverted retain predicate): delete_constraint(c) keeps exactly the occurrences of c and drops every other constraint, returns ConstraintNotFound iff no constraint other than c is present, and agrees with the intended contract only when the sketch has no constraints.", "quantifier": "every sketch state and every constraint", "why_tests_cant": "The repository has no test of it at all; a single-constraint test would only see the error branch.", "anchors": ["src/sketch/mod.rs:Sketch::delete_constraint"]}
{"id": "C09", "title": "Convenience constructors", "statement": "add_point2 never returns an error and returns a handle to a new point with exactly the given coordinates that is now in the sketch; add_line and add_arc return Ok iff their points are in the sketch, and then the new primitive has exactly the given fields.", "quantifier": "every reachable sketch, all arguments", "why_tests_cant": "All states and arguments, including points deleted earlier.", "anchors": ["src/sketch/mod.rs:Sketch::add_point2", "src/sketch/mod.rs:Sketch::add_line", "src/sketch/mod.rs:Sketch::add_arc"]}
{"id": "C10", "title": "add_constraint accepts exactly the well-referenced new constraints", "statement": "add_constraint returns Ok iff all primitives the constraint references are in the sketch and the constraint object is not; it is appended last and the order of the others kept; on Err nothing changes; the constrain_* helpers succeed iff the references are present.", "quantifier": "every sketch state, every constraint of the twelve kinds", "why_tests_cant": "All states and all reference patterns for each kind.", "anchors": ["src/sketch/mod.rs:Sketch::add_constraint", "src/sketch/mod.rs:Sketch::constrain_fix_point", "src/constraints/mod.rs:ConstraintLike::references"]}
{"id": "C11", "title": "Counts and degrees of freedom", "statement": "get_num_primitives equals successful adds minus successful deletes, get_n_dofs equals 2*(points)+3*(arcs)+(circles) in the sketch, and get_data, get_gradient have that length, get_jacobian has constraints x dofs entries and get_loss_per_constraint one per constraint.", "quantifier": "every finite history of public API calls on a fresh sketch (any interleaving of allocation, add, delete, constrain, setters, set_data, get_gradient, get_jacobian and solver calls), with fewer than 2^64 calls", "why_tests_cant": "Arithmetic over all histories.", "anchors": ["src/sketch/mod.rs:Sketch::get_num_primitives", "src/sketch/mod.rs:Sketch::get_n_dofs", "src/sketch/mod.rs:Sketch::get_data"]}
{"id": "C12", "title": "set_data then get_data returns the vector", "statement": "If set_data(v) does not panic then get_data() returns v, whatever arithmetic the floats obey.", "quantifier": "every reachable sketch, every vector", "why_tests_cant": "Every layout of primitives, every vector.", "anchors": ["src/sketch/mod.rs:Sketch::set_data", "src/sketch/mod.rs:Sketch::get_data"]}
{"id": "C13", "title": "set_data(get_data()) changes nothing", "statement": "Writing back the current data succeeds whenever the data is finite and leaves every observable of the sketch unchanged.", "quantifier": "every reachable sketch with finite data", "why_tests_cant": "Every layout of primitives.", "anchors": ["src/sketch/mod.rs:Sketch::set_data", "src/sketch/mod.rs:Sketch::get_data"]}
{"id": "C14", "title": "set_data frame and panic conditions", "statement": "set_data panics iff the length differs from get_n_dofs (nothing written) or some entry is not finite (exactly the primitives before the offending one are written); it never changes gradients, references, constraints, ids or primitives outside the sketch.", "quantifier": "every sketch, every vector, every panic point", "why_tests_cant": "Crash points: every position of a bad entry.", "anchors": ["src/sketch/mod.rs:Sketch::set_data", "src/primitives/point2.rs:set_data", "src/primitives/arc.rs:set_data", "src/primitives/circle.rs:set_data"]}
{"id": "C15", "title": "The loss is a non-negative sum", "statement": "get_loss() is the left-to-right sum of get_loss_per_constraint(), each entry is the loss_value of the constraint at that position, every loss is >= 0, and in exact arithmetic get_loss()=0 iff every entry is 0.", "quantifier": "every sketch, all coordinates", "why_tests_cant": "All coordinates and all constraint sets.", "anchors": ["src/sketch/mod.rs:Sketch::get_loss", "src/sketch/mod.rs:Sketch::get_loss_per_constraint"]}
{"id": "C16", "title": "Zero loss means satisfied: distances", "statement": "Euclidean/horizontal/vertical distance loss is 0 iff the (signed) distance equals the desired one; a negative Euclidean distance can never be satisfied.", "quantifier": "all point coordinates and desired values (exact arithmetic)", "why_tests_cant": "All reals.", "anchors": ["src/constraints/distance"]}
{"id": "C17", "title": "Zero loss means satisfied: fix and coincident", "statement": "FixPoint loss is 0 iff the point is at the desired position; ArcStart/EndPointCoincident loss is 0 iff the point is the arc's start/end point.", "quantifier": "all coordinates, radii, angles (exact arithmetic)", "why_tests_cant": "All reals.", "anchors": ["src/constraints/fix_point.rs", "src/constraints/coincident"]}
{"id": "C18", "title": "Zero loss means satisfied: lines", "statement": "HorizontalLine/VerticalLine loss is 0 iff the end points share y/x; EqualLength loss is 0 iff the lengths agree; ParallelLines/PerpendicularLines loss is 0 iff the cross/dot product of the directions is 0 (which includes degenerate lines).", "quantifier": "all coordinates (exact arithmetic)", "why_tests_cant": "All reals including degenerate lines.", "anchors": ["src/constraints/lines"]}
{"id": "C19", "title": "Zero loss means satisfied: angle", "statement": "AngleBetweenPoints loss is 0 iff the unsigned angle at the middle point equals the desired angle (0 if an arm is shorter than 1e-6); desired angles outside [0,pi] can never be satisfied.", "quantifier": "all coordinates and desired angles (exact arithmetic)", "why_tests_cant": "All reals.", "anchors": ["src/constraints/angle_between_points.rs"]}
{"id": "C20", "title": "get_gradient is the derivative of get_loss", "statement": "At every state where no constraint is degenerate, the vector returned by get_gradient is the gradient (Frechet derivative) of the function v -> get_loss after set_data(v), at v = get_data().", "quantifier": "every sketch with any number and sharing pattern of primitives and constraints, all non-degenerate real coordinates (exact arithmetic)", "why_tests_cant": "Finite differences at one point with one constraint cannot settle aliasing, accumulation over constraints, or all points.", "anchors": ["src/sketch/mod.rs:Sketch::get_gradient", "src/constraints"]}
{"id": "C21", "title": "Jacobian rows are the constraint gradients", "statement": "Row i of get_jacobian is the derivative of the i-th entry of get_loss_per_constraint, and the column sums of the Jacobian are get_gradient.", "quantifier": "every sketch, all non-degenerate coordinates (exact arithmetic)", "why_tests_cant": "All sketches.", "anchors": ["src/sketch/mod.rs:Sketch::get_jacobian"]}
{"id": "C22", "title": "When get_gradient panics", "statement": "In exact arithmetic with finite coordinates get_gradient panics iff an EqualLength constraint of the sketch has a line of length zero.", "quantifier": "every sketch, all finite coordinates", "why_tests_cant": "All degenerate configurations; no test builds a zero-length line.", "anchors": ["src/sketch/mod.rs:Sketch::get_gradient", "src/constraints/lines/equal_length.rs:update_gradient"]}
{"id": "C23", "title": "Queries do not move the sketch", "statement": "get_gradient and get_jacobian change no coordinate, no reference, no constraint and no id; get_gradient's result does not depend on gradients left by earlier calls, and calling it twice gives the same result; all numbers it returns are finite.", "quantifier": "every sketch and every prior gradient state, any arithmetic", "why_tests_cant": "All states.", "anchors": ["src/sketch/mod.rs:Sketch::get_gradient", "src/sketch/mod.rs:Sketch::get_jacobian"]}
{"id": "C24", "title": "A satisfied constraint exerts no force", "statement": "If the loss of a constraint is 0 its Jacobian row is 0; if get_loss() is 0 and get_gradient does not panic, then get_gradient is the zero vector.", "quantifier": "every sketch, all coordinates including degenerate ones (exact arithmetic)", "why_tests_cant": "All reals, including the degenerate guards.", "anchors": ["src/constraints", "src/sketch/mod.rs:Sketch::get_gradient"]}
{"id": "C25", "title": "Internal forces balance", "statement": "For every constraint kind except FixPoint the x-components (y-components) of the forces on the points of the constraint add up to 0, so relative constraints never push the sketch as a whole.", "quantifier": "all coordinates (exact arithmetic)", "why_tests_cant": "All reals.", "anchors": ["src/constraints"]}
{"id": "C26", "title": "Contract of the line search", "statement": "If the Wolfe line search returns alpha, then the sketch is at x0+alpha*d, the loss there meets the sufficient-decrease test and the directional derivative the curvature test, as computed; alpha is a product of fewer than 15 factors 0.5/1.5; and NotDescentDirection is returned iff gradient.direction >= 0, without moving the sketch.", "quantifier": "every sketch, direction and gradient vector, any arithmetic", "why_tests_cant": "All inputs and all 2^15 step sequences.", "anchors": ["src/solvers/line_search.rs:line_search_wolfe"]}
{"id": "C27", "title": "A failed solve moves the sketch", "statement": "If the gradient is so large that loss < 1e-4*2^-14*|g|^2, GradientBasedSolver::solve returns Err(SearchFailed) and leaves the sketch moved by -2^-14*g, not where it was; a sketch reachable by five calls on which this multiplies the loss by more than a million exists. (So a failed solve does not restore the coordinates.)", "quantifier": "every sketch and parameter choice with that property (exact arithmetic)", "why_tests_cant": "Needs a sketch on which all 15 trials fail.", "anchors": ["src/solvers/line_search.rs", "src/solvers/gradient_based_solver.rs:solve"]}
{"id": "C28", "title": "Gradient solver never increases the loss", "statement": "If GradientBasedSolver::solve returns Ok, the loss computed afterwards is <= the loss before, and every accepted step satisfies sufficient decrease.", "quantifier": "every sketch, every parameter choice; any rounding arithmetic satisfying the stated order laws", "why_tests_cant": "All sketches and parameters.", "anchors": ["src/solvers/gradient_based_solver.rs:solve"]}
{"id": "C29", "title": "Why the gradient solver stopped", "statement": "If GradientBasedSolver::solve returns Ok then the gradient norm is < min_grad, or the loss is < min_loss, or exactly max_iterations steps were made; it never makes more than max_iterations steps.", "quantifier": "every sketch, every parameter choice, any arithmetic", "why_tests_cant": "All executions.", "anchors": ["src/solvers/gradient_based_solver.rs:solve"]}
{"id": "C30", "title": "BFGS terminates", "statement": "BFGSSolver::solve makes at most max_iterations accepted steps and at most 2*max_iterations line searches, although a failed line search does not count as an iteration.", "quantifier": "every sketch, every parameter choice, any arithmetic", "why_tests_cant": "A loop with an uncounted continue; termination is over all executions.", "anchors": ["src/solvers/bfgs_solver.rs:solve"]}
{"id": "C31", "title": "BFGS keeps its matrix positive definite", "statement": "As long as no line search has failed, the approximation h stays symmetric positive definite, so the search direction is a descent direction and NotDescentDirection is never returned.", "quantifier": "every sketch, every number of steps (exact arithmetic)", "why_tests_cant": "All executions; an invariant over steps.", "anchors": ["src/solvers/bfgs_solver.rs:solve"]}
{"id": "C32", "title": "BFGS secant equation", "statement": "After an accepted step with |s.y| >= 1e-16 the updated h maps y (gradient change) to s (step).", "quantifier": "all symmetric h, all s, y (exact arithmetic)", "why_tests_cant": "All matrices of all sizes.", "anchors": ["src/solvers/bfgs_solver.rs:solve"]}
{"id": "C33", "title": "BFGS never increases the loss", "statement": "In a run in which no line search fails, the loss after BFGSSolver::solve is <= the loss before. After a failed line search this is false, because the code adds the step to stale coordinates: on a reachable sketch, BFGS with max_iterations = 1 returns Ok after one failed search and one step, and the loss has grown from less than ten to more than ten million.", "quantifier": "every sketch, every parameter choice (the counterexample in exact arithmetic)", "why_tests_cant": "All executions.", "anchors": ["src/solvers/bfgs_solver.rs:solve"]}
{"id": "C34", "title": "Gauss-Newton and Levenberg-Marquardt bounds", "statement": "They make at most max_iterations steps; if every constraint is satisfied they leave the coordinates unchanged and stop after one step.", "quantifier": "every sketch, every pseudo-inverse routine (exact arithmetic for the fixed point)", "why_tests_cant": "All sketches and all pseudo-inverses.", "anchors": ["src/solvers/gauss_newton_solver.rs:solve", "src/solvers/levenberg_marquardt.rs:solve"]}
{"id": "C35", "title": "Solvers only move coordinates", "statement": "No solver changes ids, membership, references, constraint parameters, orientation flags, or the data of primitives outside the sketch, whether it returns Ok, Err or panics.", "quantifier": "all four solvers, every sketch, every parameter choice, any arithmetic", "why_tests_cant": "All executions including panics and errors.", "anchors": ["src/solvers"]}
{"id": "C36", "title": "A solved sketch stays put", "statement": "If the loss is already < min_loss (or the gradient below threshold), GradientBasedSolver and BFGSSolver return Ok without moving any coordinate.", "quantifier": "every sketch, any arithmetic", "why_tests_cant": "All sketches.", "anchors": ["src/solvers/gradient_based_solver.rs:solve", "src/solvers/bfgs_solver.rs:solve"]}
{"id": "C37", "title": "Ok does not mean solved", "statement": "If every constraint is satisfied or is a Euclidean distance constraint between points less than 1e-6 apart, then all four solvers with default parameters return Ok without moving a coordinate, however large the loss; a reachable sketch with loss 50 before and after exists.", "quantifier": "every such sketch (exact arithmetic), every pseudo-inverse that returns finite matrices", "why_tests_cant": "The claim is universal; a refuting state must be found and proved.", "anchors": ["src/solvers/gradient_based_solver.rs:solve", "src/constraints/distance/euclidian_distance_between_points.rs:update_gradient"]}
{"id": "C38", "title": "Rings are closed chains of sketch segments", "statement": "Every ring returned by find_rings is a circle of the sketch or a non-empty list of lines/arcs of the sketch, possibly reversed, in which each segment starts where the previous one ends and the last ends where the first starts.", "quantifier": "every sketch, any arithmetic", "why_tests_cant": "All graphs.", "anchors": ["src/decompose/mod.rs:find_rings", "src/decompose/mod.rs:find_next_segment"]}
{"id": "C39", "title": "A directed segment is used at most once", "statement": "No line/arc is used twice in the same direction, neither within a ring nor in two different rings.", "quantifier": "every sketch, any arithmetic", "why_tests_cant": "All graphs; the walk does not mark segments while a ring is being built.", "anchors": ["src/decompose/mod.rs:find_rings"]}
{"id": "C40", "title": "Rings come sorted with positive area", "statement": "find_rings returns rings in ascending order of signed area, all areas are > 0, and no detected ring of positive area is lost; every circle with non-zero radius is a ring.", "quantifier": "every sketch", "why_tests_cant": "All sketches.", "anchors": ["src/decompose/mod.rs:find_rings", "src/decompose/ring.rs:signed_area"]}
{"id": "C41", "title": "find_next_segment takes the hardest left turn", "statement": "It returns None iff no unused segment starts at the current end other than the segment itself or its reverse; otherwise it returns such a segment whose left-turn angle is maximal: the angle, in [0, 2 pi), from the direction back along the current segment counter-clockwise to the direction of the next one.", "quantifier": "every segment list, current segment and used set", "why_tests_cant": "All inputs.", "anchors": ["src/decompose/mod.rs:find_next_segment"]}
{"id": "C42", "title": "angle_difference is the counter-clockwise angle", "statement": "For angles in [-2pi,2pi] the result is in [0,2pi] and differs from a1-a0 by a multiple of 2pi.", "quantifier": "all angles in range (exact arithmetic)", "why_tests_cant": "All reals; boundary cases.", "anchors": ["src/decompose/mod.rs:angle_difference"]}
{"id": "C43", "title": "A simple polygon is found", "statement": "For every polygon of n>=3 distinct vertices whose edges are drawn once each as lines or (gradient-free) arcs, in any order and any direction, find_rings returns exactly one ring, running once around the polygon in the orientation of positive area, and no unused segment, provided the shoelace area is not 0.", "quantifier": "all n >= 3, all vertex coordinates, all drawing orders and directions", "why_tests_cant": "All sizes and shapes.", "anchors": ["src/decompose/mod.rs:find_rings"]}
{"id": "C44", "title": "What unused_segments means", "statement": "find_rings reports as unused a sublist of the lines and arcs as drawn; every line/arc not reported lies on a closed chain of sketch segments that never turns straight back; if all directed segments are different, no ring uses a reported segment in the direction drawn. It is false that exactly the segments of no ring are reported: a square with a line attached has the line in no ring but nothing reported, and a clockwise square with two lines attached is a ring all of whose lines are reported.", "quantifier": "every sketch, any arithmetic (the two counterexamples in exact arithmetic)", "why_tests_cant": "Universal claim about all graphs; the counterexamples need a dangling line whose chain closes with negative area.", "anchors": ["src/decompose/mod.rs:find_rings"]}
{"id": "C45", "title": "Which faces get which holes", "statement": "find_faces returns one face per ring, in order, with the ring as exterior, and its index lookups never fail; the holes of face j are the rings i whose next larger containing ring is number i+1+j (the index is relative to i+1, not absolute), so the largest face never has a hole, and of two nested circles the inner face gets itself as hole and the outer none.", "quantifier": "every sketch, every containment test", "why_tests_cant": "No test has nested rings.", "anchors": ["src/decompose/mod.rs:find_faces"]}
{"id": "C46", "title": "merge_faces keeps exactly the located faces", "statement": "merge_faces panics iff some face polygon has no interior point; otherwise it returns, in order, exactly the faces whose interior point lies in some face polygon; if geo's interior point lies in its polygon nothing is removed.", "quantifier": "every list of faces, every geometry backend", "why_tests_cant": "All lists.", "anchors": ["src/decompose/mod.rs:merge_faces"]}
{"id": "C47", "title": "Reversing a segment", "statement": "reverse swaps start and end point, is an involution on lines and on arcs up to the gradient, and reversing a closed chain negates its signed area.", "quantifier": "all segments, all chains", "why_tests_cant": "All inputs.", "anchors": ["src/decompose/segment.rs", "src/decompose/ring.rs:signed_area"]}
{"id": "C48", "title": "Leftover gradients and face detection", "statement": "In a sketch without arcs in which different end points of lines lie at different places, find_rings gives the same rings and unused segments before and after any change of gradients (no NaN). With arcs this is false: there is a sketch of two lines and an arc on which find_rings finds a ring before get_gradient is called and none afterwards, because segment equality compares stored gradients.", "quantifier": "every arc-free sketch and gradient state, any arithmetic; counterexample in exact arithmetic", "why_tests_cant": "Needs two states that differ only in hidden gradients.", "anchors": ["src/decompose/segment.rs:equals_or_reverse_equals", "src/primitives/arc.rs:reverse"]}
{"id": "C49", "title": "signed_area", "statement": "For a closed chain of lines signed_area is the shoelace area: invariant under translation and under rotation of the starting segment; it ignores the bulge of arcs, so a full circle drawn as two half-circle arcs has area 0 and yields no face.", "quantifier": "all closed chains (exact arithmetic)", "why_tests_cant": "All reals.", "anchors": ["src/decompose/ring.rs:signed_area"]}
{"id": "C50", "title": "as_polygon", "statement": "A segment ring becomes the polygon of its start points; a circle becomes 36 points all at distance |radius| from the centre.", "quantifier": "all rings (exact arithmetic)", "why_tests_cant": "All reals.", "anchors": ["src/decompose/ring.rs:as_polygon"]}
{"id": "C51", "title": "Arc end points", "statement": "start_point and end_point lie at distance |radius| from the centre, and start_point_gradient/end_point_gradient are their Jacobians in (cx, cy, radius, start, end).", "quantifier": "all arcs (exact arithmetic)", "why_tests_cant": "All reals.", "anchors": ["src/primitives/arc.rs"]}
{"id": "C52", "title": "A cloned sketch shares its primitives", "statement": "Sketch::clone copies membership and the id counter only. Whatever is done to other sketches, clones included, leaves the members, constraints and ids of a sketch alone; and as long as nothing is added to or deleted from a sketch and its clone, every query answers the same for both: in particular set_data on the clone is what get_data of the original returns. In programs with many sketches over shared objects every sketch keeps its id bookkeeping intact, but ids of a sketch and its clone collide.", "quantifier": "every program with any number of sketches and clones over shared objects", "why_tests_cant": "All interleavings of calls on several sketches.", "anchors": ["src/sketch/mod.rs:Sketch (derive Clone)"]}
{"id": "C53", "title": "Serialisation round trip", "statement": "Loading a saved sketch, in the same or another program, gives a sketch that saves to the same document: the same ids, id counter, coordinates, stored gradients and constraints; hence the same get_data, losses, points, rings, unused segments, faces and merged faces. Sharing is not kept: no line, arc, circle or constraint of the loaded sketch refers to a primitive of it. So its gradient and Jacobian are zero, set_data and the solvers change none of its losses, and adding one of its constraints (or a line, arc or circle of it) is refused. Whatever document is loaded, also one with repeated or unordered ids, the sketch has exactly its ids, each once; of several entries with the same id the last one counts.", "quantifier": "every sketch with distinct ids (so every reachable one), every program that loads it, any arithmetic; a wire format that keeps values is assumed", "why_tests_cant": "All sketches; needs reasoning about object identity.", "anchors": ["src/sketch/mod.rs:Sketch (derive Serialize, Deserialize)", "Cargo.toml:serde feature rc"]}
{"id": "C54", "title": "check_gradients restores the coordinates", "statement": "If check_gradients returns, every coordinate is as before.", "quantifier": "every sketch, every epsilon, any arithmetic", "why_tests_cant": "All sketches.", "anchors": ["src/sketch/mod.rs:Sketch::check_gradients"]}
{"id": "C55", "title": "Validation by setters and constructors", "statement": "Point2::set_x/set_y, primitive set_data and the constructors of FixPoint, AngleBetweenPoints and the distance constraints panic on non-finite input and then change nothing; so do the four add_to_gradient methods, which otherwise add to the gradient of the primitive and of the points it refers to and change nothing else. The other setters accept anything (what they do is C67).", "quantifier": "all float inputs", "why_tests_cant": "All values including NaN and infinities.", "anchors": ["src/primitives/point2.rs", "src/constraints"]}
{"id": "C56", "title": "get_all_points", "statement": "get_all_points returns exactly the ids of Point2 primitives with their current values.", "quantifier": "every finite history of public API calls on a fresh sketch (any interleaving of allocation, add, delete, constrain, setters, set_data, get_gradient, get_jacobian and solver calls), with fewer than 2^64 calls", "why_tests_cant": "All histories.", "anchors": ["src/sketch/mod.rs:Sketch::get_all_points"]}
{"id": "C57", "title": "Losses do not depend on position and orientation of the sketch", "statement": "All losses except FixPoint are invariant under translation of all points; Euclidean distance, angle, equal length, parallel and perpendicular also under rotation.", "quantifier": "all coordinates, all rigid motions (exact arithmetic)", "why_tests_cant": "All reals.", "anchors": ["src/constraints"]}
{"id": "C58", "title": "RefCell borrows never clash", "statement": "As long as the caller holds no RefCell guard between calls, no call of the library panics because of a double borrow, also when constraints alias the same line, arc or point; every call releases all its borrows, also when it panics; read-only queries tolerate shared guards held by the caller; get_gradient with a guard on a primitive of the sketch alive does panic.", "quantifier": "every program of API calls and queries (any sketch, aliasing pattern, arithmetic, pseudo-inverse), caught panics included", "why_tests_cant": "Runtime borrow flags depend on aliasing that tests do not enumerate.", "anchors": ["src/primitives", "src/constraints", "src/sketch/mod.rs"]}
{"id": "C59", "title": "Newton steps solve the normal equations and go downhill", "statement": "In every step of Gauss-Newton (Levenberg-Marquardt) the move dx satisfies A dx = -step_size * J^T l with A = J^T J (J^T J + beta I), J the Jacobian and l the losses per constraint, provided pseudo_inverse returned a generalised inverse of A; J^T l is the gradient of half the sum of squared losses, and dx goes strictly downhill on it unless it is 0. If small singular values were cut off (P A P = P, P symmetric) dx still does not go uphill.", "quantifier": "every sketch, every run, every step, every pseudo-inverse (exact arithmetic)", "why_tests_cant": "All sketches and all pseudo-inverses; a wrong sign or transpose still lets small tests converge.", "anchors": ["src/solvers/gauss_newton_solver.rs:solve", "src/solvers/levenberg_marquardt.rs:solve"]}
{"id": "C60", "title": "Gauss-Newton shrinks errors by half a step size per step", "statement": "On a sketch whose constraints all ask for coordinate differences (horizontal or vertical distance, horizontal or vertical line), none following from the others, every Gauss-Newton step multiplies the signed error of every constraint that is not yet satisfied by 1 - step_size/2 (the losses are squares, so a Newton step on them halves the step). After n steps the errors are (1 - step_size/2)^n of the initial ones; with the default 10000 iterations and step size 1e-3 the solver returns Ok although at least 0.6% of every error of size 1 or more is left and the loss is above min_loss.", "quantifier": "every such sketch of any size, every start with finite values, every pseudo-inverse that inverts (exact arithmetic)", "why_tests_cant": "The rate holds for all sketches and step counts; a test sees one run and cannot tell a slow rate from a wrong one.", "anchors": ["src/solvers/gauss_newton_solver.rs:solve", "src/solvers/gauss_newton_solver.rs:new"]}
{"id": "C61", "title": "Solvers and losses in IEEE binary64", "statement": "With f64 arithmetic as IEEE 754 defines it (rounding to nearest even, subnormals, overflow, signed zeros) and any library for the trigonometric functions: a gradient-descent run that returns Ok, and a BFGS run that returns Ok without a failed line search, has not increased the computed loss; no computed loss is below zero; a FixPoint loss is exactly 0 for every point within 2^-538 of its target, and conversely a zero FixPoint loss puts the point within 2^-536 of its target.", "quantifier": "every sketch, heap state, solver parameters and every mathematical library, in binary64", "why_tests_cant": "All rounding errors of all runs.", "anchors": ["src/solvers/gradient_based_solver.rs:solve", "src/solvers/bfgs_solver.rs:solve", "src/constraints:loss_value", "src/constraints/fix_point.rs"]}
{"id": "C62", "title": "When get_gradient panics in binary64", "statement": "With IEEE f64 arithmetic, on a closed sketch with fewer than 2^50 constraints whose coordinates and parameters are finite and at most 2^200 in magnitude (and cos, sin bounded by 1, acos by 4): get_gradient panics if and only if some EqualLength constraint has a line whose computed length is zero. That happens whenever the end points agree to within 2^-538 in both coordinates, and only if they agree to within 2^-536. The loss is finite under the same bounds. Without the bound, finite coordinates alone do not prevent a panic: a point at 2^1023 fixed to -2^1023 panics.", "quantifier": "every sketch and heap state in binary64, every sane mathematical library", "why_tests_cant": "Overflow and division by zero over all inputs.", "anchors": ["src/sketch/mod.rs:get_gradient", "src/constraints/lines/equal_length.rs:update_gradient", "src/constraints:update_gradient", "src/primitives:add_to_gradient"]}
{"id": "C63", "title": "The stairs benchmark", "statement": "For every n >= 1 the stairs benchmark is built without a panic: n points, 2n-1 primitives, 2n-1 constraints, references inside the sketch. If its loss is L, the i-th point (from 0) is within sqrt(2(i+1)L) of its place in x and in y, so the loss is zero iff every point is in place, and check(eps) succeeds if 2(n-1)L <= eps^2. The bound is exact: if 2(n-1)L > eps^2 there are positions with loss L that check rejects. So BFGS stopping at its min_loss is reported as solved for n <= 5001, gradient descent only for n <= 51 of the benchmark's sizes up to 300. check never looks at the last point.", "quantifier": "every n, every solver, every heap with the same references (building: any arithmetic; errors: exact arithmetic)", "why_tests_cant": "The benchmark runs seven sizes; the bound is for all sizes and all final states.", "anchors": ["benches/solvers/stairs_with_lines_benchmark.rs", "benches/solvers/main.rs"]}
{"id": "C64", "title": "The axis-aligned rectangle", "statement": "The test's sketch is built without a panic. If its loss is L, the corners are within sqrt(2L), sqrt(4L), sqrt(6L), sqrt(4L) of (0,0), (2,0), (2,3), (0,3); zero loss means exactly there. The four assertions (1e-8) follow from a loss below 1e-16/6 but not from the solver's stopping criterion, a loss below 1e-16.", "quantifier": "every heap with the same references, every solver (building: any arithmetic; errors: exact arithmetic)", "why_tests_cant": "One test run sees one final state.", "anchors": ["src/examples/test_rectangle_axis_aligned.rs"]}
{"id": "C65", "title": "The rotated rectangle", "statement": "RotatedRectangleDemo::new returns Ok. As long as points c and d are at different finite places, the loss is zero iff the points form one of the four rectangles A=(0,0), |AB|=2, |AD|=3, AB at +-45 degrees, and then check(eps) succeeds for every eps > 0. There is one more kind of solution: with c on top of d the loss can be zero, BFGS returns Ok without moving anything, and check fails even with tolerance 0.1.", "quantifier": "every heap with the same references (building: any arithmetic; solutions: exact arithmetic)", "why_tests_cant": "All solutions of the constraint system, including degenerate ones.", "anchors": ["src/examples/test_rectangle_rotated.rs"]}
{"id": "C66", "title": "The circle benchmark", "statement": "For every n >= 1 the circle benchmark is built without a panic: n points, 2n-1 primitives, 3n-2 constraints, references inside the sketch; n = 0 panics. If its loss is L every point is within sqrt(2L) of its reference point, the loss is zero iff all points are there (distances and angles agree with the fixed points), and a run that reports an error of at most 5e-13 reports solved, whatever n. The reference points are the stairs of C63, not a circle.", "quantifier": "every n, every solver, every heap with the same references (building: any arithmetic that keeps the constants finite; errors: exact arithmetic)", "why_tests_cant": "The benchmark runs seven sizes.", "anchors": ["benches/solvers/circle_with_lines_benchmark.rs", "benches/solvers/main.rs"]}
{"id": "C67", "title": "The setters", "statement": "Every set_* method of lines, arcs, circles and constraints replaces exactly one reference, number or the orientation of its object and changes nothing else: no point, no gradient, no other object; only the losses of the constraint itself or of constraints referring to the object can change. It never panics and validates nothing: set_desired_* stores values that the constructor would reject. Which constraint types have which setter is fixed by their references and parameters. In every history existing objects refer to existing objects, so a setter call on an existing object with an existing handle is a call of the histories over which the other properties quantify.", "quantifier": "every setter, object, argument, heap, history (any arithmetic)", "why_tests_cant": "Most setters have no test at all.", "anchors": ["src/primitives/line.rs", "src/primitives/arc.rs", "src/primitives/circle.rs", "src/constraints/fix_point.rs", "src/constraints/angle_between_points.rs", "src/constraints/distance/euclidian_distance_between_points.rs"]}
{"id": "C68", "title": "Infinities and NaN in sketches", "statement": "Points, arcs and circles can be built or set with infinite or NaN numbers. If a constraint of one of the nine kinds without finiteness tests computes with such a number, the losses are not finite, get_gradient and get_jacobian panic, and every solver panics before its first step with nothing moved. Parallel, perpendicular and angle constraints with such a coordinate are silently ignored (loss 0, or that of angle 0; no gradient). A non-finite desired distance or angle panics unless the constraint is degenerate. If any coordinate of the sketch is not finite, even one no constraint uses, no solver makes a step: every line search and every Newton update panics in set_data.", "quantifier": "every heap, sketch, constraint, solver, parameters (any arithmetic with IEEE rules for non-finite operands; exact arithmetic and binary64 satisfy them)", "why_tests_cant": "Tests use finite numbers.", "anchors": ["src/sketch/mod.rs", "src/primitives/point2.rs", "src/constraints/lines/parallel_lines.rs", "src/constraints/angle_between_points.rs", "src/solvers/line_search.rs"]}
{"id": "C69", "title": "Arcs in rings and faces", "statement": "(1) To which side arcs bulge is irrelevant: changing the direction of any arcs leaves rings, faces, unused segments, their order, areas and polygons as they were. (2) Every ring is a circle or has at least three segments, also with rounding, so the area between an arc and its chord is never a face. (3) The walk turns by the direction from the centre of an arc and not by its tangent, so it can take a wrong turn: the faces of a box with a half disc on its lid depend on the order in which its segments were added.", "quantifier": "(1) every heap, sketch and arithmetic; (2) every sketch in exact arithmetic and in binary64; (3) one sketch (exact arithmetic)", "why_tests_cant": "Tests with arcs use single closed outlines.", "anchors": ["src/decompose/mod.rs:find_rings", "src/decompose/mod.rs:find_next_segment", "src/decompose/segment.rs:start_angle", "src/decompose/ring.rs:signed_area", "src/decompose/ring.rs:as_polygon"]}
{"id": "C70", "title": "Comparing rings", "statement": "adjacent_edges returns exactly the pairs of positions at which one ring has the reverse of a segment of the other, each once, in lexicographic order, and None if there is none or one is a circle. Adjacency is mutual for lines and for arcs without stored gradient; with a gradient stored in an arc it can be one-way. Ring equality is symmetric and transitive, reflexive without NaN, and depends on the starting segment.", "quantifier": "all heaps and rings; the one-way case is one sketch (exact arithmetic)", "why_tests_cant": "adjacent_edges has no test.", "anchors": ["src/decompose/ring.rs:adjacent_edges", "src/decompose/ring.rs:eq", "src/decompose/segment.rs:reverse_equals", "src/primitives/arc.rs:reverse"]}
{"id": "C71", "title": "The line search on linear sketches", "statement": "On a sketch whose constraints are FixPoint, horizontal and vertical distances, horizontal and vertical lines, the loss against the gradient is an upward parabola. The line search finds a step exactly if its bend (second derivative along the normalised gradient) is between 0.1/1.5^14 and 1.9998*2^14, and otherwise returns SearchFailed. The step is the first of 1, 1/2, 1/4, ... (at most 15) whose product with the bend is at most 1.9998, or the first of 1, 1.5, 2.25, ... whose product is at least 0.1. Outside that range gradient descent returns Err(SearchFailed) without a step. The same range decides for every other direction, with the bend along it; directions in which the loss does not decrease give NotDescentDirection.", "quantifier": "every such sketch and every finite position with non-zero gradient (exact arithmetic)", "why_tests_cant": "The exact limits of the fifteen trials are not visible in any test.", "anchors": ["src/solvers/line_search.rs:line_search_wolfe", "src/solvers/gradient_based_solver.rs:solve", "src/constraints/fix_point.rs", "src/constraints/distance/horizontal_distance_between_points.rs", "src/constraints/lines/horizontal_line.rs"]}
{"id": "C72", "title": "Convergence of gradient descent on linear sketches", "statement": "If the constraints of a sketch are linear (as in C71) and its loss is squeezed between two parabolas mu, M around its solutions with 0.1/1.5^14 <= mu <= M <= 1.9998*2^14, then from every finite start gradient descent returns Ok, every step reduces the loss at least by the factor 1 - 3.9996e-4 mu/M, and with enough iterations the loss gets below min_loss or below min_grad^2/(2 mu). The stairs benchmark is such a sketch for up to 75 points. For 93 or more points (the benchmark runs 100 and 300) there are finite starts from which gradient descent returns Err(SearchFailed) at once.", "quantifier": "every such sketch, every finite start, all parameters min_loss, min_grad > 0, every number of iterations; stairs of every size (exact arithmetic)", "why_tests_cant": "Tests run single starts.", "anchors": ["src/solvers/gradient_based_solver.rs:solve", "src/solvers/line_search.rs:line_search_wolfe", "benches/solvers/stairs_with_lines_benchmark.rs"]}
{"id": "C73", "title": "Convergence of BFGS on linear sketches", "statement": "If the constraints of a sketch are linear (as in C71) and its loss is squeezed between two parabolas mu <= 1 <= M around its solutions, inside the range of C71 with a margin of 1e-10 per iteration, then from every finite start BFGS returns Ok, no line search fails, every step reduces the loss at least by a fixed factor, and at the end the loss is below min_loss, or at most dofs*threshold^2/(2 mu), or max_iterations steps were made. In particular for the stairs benchmark with up to 75 points.", "quantifier": "every such sketch, every finite start, all parameters min_loss, threshold > 0, every number of iterations within the margin (exact arithmetic)", "why_tests_cant": "Tests run single starts; that updating the matrix never spoils a later line search is not visible in them.", "anchors": ["src/solvers/bfgs_solver.rs:solve", "src/solvers/line_search.rs:line_search_wolfe", "benches/solvers/stairs_with_lines_benchmark.rs"]}
{"id": "C74", "title": "Gradient descent repairs a solved sketch that was moved a little", "statement": "For a solved sketch with any kinds of constraints, none degenerate at the solution, near which the loss is squeezed between two parabolas mu, M with 0.1/1.5^14 < mu <= M < 1.9998*2^14: for every e > 0 there is a d > 0 such that from every position closer than d to the solution gradient descent returns Ok, stays closer than e to the solution, reduces the loss with every step at least by the factor 1 - 1.6e-5 mu/M, and with enough iterations brings the loss below min_loss or below min_grad^2/mu. Two points with a desired distance above 1e-6 are such a sketch (mu = M = 2).", "quantifier": "every such sketch, every start near enough, all parameters min_loss, min_grad > 0, every number of iterations (exact arithmetic)", "why_tests_cant": "Tests run single starts; a neighbourhood and an unbounded number of steps cannot be tested.", "anchors": ["src/solvers/gradient_based_solver.rs:solve", "src/solvers/line_search.rs:line_search_wolfe", "src/constraints"]}
{"id": "C75", "title": "The cut-off of the pseudo-inverse stops Gauss-Newton short of its min_loss", "statement": "pseudo_inverse(1e-6) treats singular values up to 1e-6 as 0. On a sketch of horizontal/vertical constraints no two of which use the same coordinate, a Gauss-Newton step with step size s multiplies an error e by 1 - s/2 if 2e^2 > eps and leaves it alone otherwise; over a run each error shrinks geometrically until 2e^2 <= eps and then stays. Five or more such constraints each off by at least 7.08e-4 are never solved to the default min_loss 1e-6, however many iterations are allowed: all of them are used, and solve returns Ok. Up to four, each off by at most 0.1, are solved with default parameters. On any sketch, if the squares of all entries of the Jacobian sum up to eps or less (or all singular values of J^T J are at most eps), solve moves nothing.", "quantifier": "every such sketch, every number of constraints, all step sizes between 0 and 2, every cut-off, every number of iterations (exact arithmetic, pseudo_inverse as nalgebra documents it)", "why_tests_cant": "The bundled test runs one sketch once and compares with a tolerance of 0.1; that a run cannot succeed for any number of iterations cannot be tested.", "anchors": ["src/solvers/gauss_newton_solver.rs:solve", "src/solvers/gauss_newton_solver.rs:new", "src/sketch/mod.rs:get_jacobian"]}
{"id": "C76", "title": "Levenberg-Marquardt converges only like 1/sqrt(K)", "statement": "On a sketch of horizontal/vertical constraints no two of which use the same coordinate, a Levenberg-Marquardt step with step size s and damping b > eps changes an error e to (1 - s e^2/(2e^2 + b)) e. After K steps 1/e0^2 + K 2s/(2 e0^2 + b) <= 1/e^2 <= 1/e0^2 + K s(2 - s/2)/(b (1 - s/2)^2). With default parameters a single error of 1.42e-5 (the default min_loss 1e-10 means 1.4142e-5) makes the solver use all its 1000 iterations and return Ok with a loss above min_loss; with N (2E^2 + b)/(4 s min_loss) iterations the loss ends at or below min_loss.", "quantifier": "every such sketch, every number of constraints, all step sizes between 0 and 2, all damping factors above the cut-off, every number of iterations (exact arithmetic, pseudo_inverse as nalgebra documents it)", "why_tests_cant": "The bundled test runs one sketch once and compares with a tolerance of 0.1; rates over unboundedly many steps cannot be tested.", "anchors": ["src/solvers/levenberg_marquardt.rs:solve", "src/solvers/levenberg_marquardt.rs:new", "src/sketch/mod.rs:get_jacobian"]}
{"id": "C77", "title": "The rings of a line drawing are its left-turn circuits", "statement": "Take a sketch of lines (no arcs) without zero-length or doubled lines and without two lines leaving a point in the same direction. Suppose that whenever a walk of hardest left turns returns to its starting point, the hardest left turn there is its first line; this holds if every line lies, in both directions, on a circuit of hardest left turns that visits no point twice. Then find_rings returns, besides circles, exactly the circuits of hardest left turns with positive area, each once up to the starting segment; a line is reported unused exactly if it lies, in the direction drawn, on no such circuit. If every line lies on circuits in both directions, nothing is unused and the ring areas add up to the area enclosed by the clockwise circuits.", "quantifier": "all such drawings of any size, all coordinates (exact arithmetic)", "why_tests_cant": "Which regions are found must be right for every graph; tests use two or three fixed figures.", "anchors": ["src/decompose/mod.rs:find_rings", "src/decompose/mod.rs:find_next_segment", "src/decompose/mod.rs:angle_difference"]}
{"id": "C78", "title": "Rings do not depend on the order or direction in which lines were added", "statement": "Two sketches whose lines join the same points (added in any order, drawn in any direction, sharing point objects or not) have the same rings up to the segment where each starts, if the drawing meets the conditions of C77. The condition that walks of hardest left turns close up cannot be dropped: for a polygon with a square inside that touches it at one corner, one order of adding the lines yields the whole polygon as a ring and another order does not.", "quantifier": "all pairs of such sketches (exact arithmetic)", "why_tests_cant": "There are n! 2^n orders and directions of n lines; no test permutes the lines.", "anchors": ["src/decompose/mod.rs:find_rings", "src/decompose/mod.rs:find_next_segment"]}
{"id": "C79", "title": "Rings follow the drawing when it is moved, turned, scaled, skewed or mirrored", "statement": "If the lines of a second sketch are the images of the lines of a first one under an invertible affine map (and the first drawing meets the conditions of C77), the rings of the second are the images of the rings of the first up to the starting segment, run through the other way round if the map reverses orientation; listed by area, the areas are multiplied one by one by the absolute determinant; and if the map keeps the orientation, the same lines are reported unused.", "quantifier": "all such drawings, all invertible affine maps (exact arithmetic)", "why_tests_cant": "The code measures angles from the x-axis with a branch cut; tests draw every figure in one position only.", "anchors": ["src/decompose/mod.rs:find_rings", "src/decompose/mod.rs:find_next_segment", "src/decompose/mod.rs:angle_difference", "src/decompose/ring.rs:signed_area"]}
{"id": "C80", "title": "Separate parts of a drawing do not disturb each other", "statement": "If the lines of a sketch fall into two parts without a common end point (each meeting the conditions of C77), its rings are the rings of the one part together with the rings of the other, up to the starting segments, wherever the parts lie and however their lines were mixed when added; and whether a line is reported unused is decided by its own part.", "quantifier": "all such drawings (exact arithmetic)", "why_tests_cant": "The used-segment list is shared by all walks; tests contain at most two parts.", "anchors": ["src/decompose/mod.rs:find_rings", "src/decompose/mod.rs:find_next_segment"]}
{"id": "C81", "title": "Gradient descent must come to rest", "statement": "If at all positions with loss at most the starting loss L no constraint is degenerate and the gradient changes at most M times as fast as the position, gradient descent does not panic, the squares of the gradients over all its steps add up to at most 1e5 M L, so it makes at most 1e5 M L / min_grad^2 steps whatever max_iterations is; with more iterations than that, Ok means that the gradient is shorter than min_grad or the loss below min_loss. Sketches of fixed points, distances and horizontal or vertical lines are of this kind, with an explicit M, if the desired Euclidean distances are not too small for the starting loss.", "quantifier": "all such sketches and parameters (exact arithmetic)", "why_tests_cant": "The number of steps until the gradient is small has no bound a test could check without the constants; tests stop at max_iterations.", "anchors": ["src/solvers/gradient_based_solver.rs:solve", "src/solvers/line_search.rs:line_search_wolfe", "src/constraints/distance/euclidian_distance_between_points.rs:update_gradient"]}
{"id": "C82", "title": "In sketches without circuits only solutions stop the solvers", "statement": "In a sketch of fixed points, distances and horizontal or vertical lines whose graph has no circuits, with K constraints none of which is degenerate, twice the loss is at most K^2 times the square of the gradient: a zero gradient means solved. If the desired distances are not too small for the starting loss, gradient descent reduces the loss at a linear rate with an explicit factor, and with enough iterations it returns Ok only with a loss below min_loss or K^2 min_grad^2 / 2. For BFGS, Ok before max_iterations means a loss below min_loss or K^2 N gradient_threshold^2 / 2 for N coordinates, unless a constraint has become degenerate. With a circuit this is false.", "quantifier": "all such sketches and parameters (exact arithmetic)", "why_tests_cant": "That there are no false resting places is a statement about all positions of all linkages without circuits.", "anchors": ["src/solvers/gradient_based_solver.rs:solve", "src/solvers/bfgs_solver.rs:solve", "src/constraints/distance/euclidian_distance_between_points.rs:update_gradient", "src/constraints/fix_point.rs:update_gradient", "src/sketch/mod.rs:get_gradient"]}
{"id": "C83", "title": "A line across a ring cuts it in two", "statement": "In a plain drawing of lines, let p and q be two corners of a way around by hardest left turns (a circuit) that are not joined yet, and add a line between them that lies, at both ends, inside the corner of the circuit. Then find_rings gives the old rings, except that in place of this circuit there are its two parts, each if its area is positive; the two areas add up to the old one. Neither the new line nor any line that was used is reported unused, and the lines reported unused before still are. For a strictly convex circuit any line between two corners will do, and both parts are rings.", "quantifier": "all such drawings, all orders and directions of drawing (exact arithmetic)", "why_tests_cant": "A test draws one figure; that adding a line changes no other ring is a statement about all drawings around it.", "anchors": ["src/decompose/mod.rs:find_rings", "src/decompose/mod.rs:find_next_segment"]}
{"id": "C84", "title": "A point on a line only adds a corner", "statement": "In a plain drawing of lines put a point m on a line between a and b, strictly between its ends and where no other line ends, and draw the line in two parts, in any order and directions. Then find_rings gives the old rings with the corner m put in between a and b; the signed areas are the same one by one; the other lines are reported unused exactly when they were before, and a part drawn in the direction of the whole line exactly when the whole line was.", "quantifier": "all such drawings (exact arithmetic)", "why_tests_cant": "A test divides one line of one drawing.", "anchors": ["src/decompose/mod.rs:find_rings", "src/decompose/mod.rs:find_next_segment", "src/decompose/ring.rs:signed_area"]}
{"id": "C85", "title": "Where a sketch lies does not matter", "statement": "Move a sketch by (tx, ty): all points and the places demanded by FixPoint constraints. Every solver treats the moved sketch like the original: same result, same number of steps and line searches, same step sizes and BFGS matrices, and after every step and at the end the one sketch is the other moved by (tx, ty). If the one run panics so does the other.", "quantifier": "all sketches, states, displacements, solvers, parameters and pseudo-inverses (exact arithmetic)", "why_tests_cant": "A test moves one sketch by one vector; a hidden dependence on the origin shows up only for some constraints, positions and solvers.", "anchors": ["src/solvers/gradient_based_solver.rs:solve", "src/solvers/bfgs_solver.rs:solve", "src/solvers/gauss_newton_solver.rs:solve", "src/solvers/levenberg_marquardt.rs:solve", "src/sketch/mod.rs:get_gradient", "src/sketch/mod.rs:get_jacobian"]}
{"id": "C86", "title": "The order of the constraints does not matter", "statement": "Add the constraints of a sketch in another order, and leave other gradients in the primitives: every solver still does the same, with the same result, the same step sizes and BFGS matrices and the same coordinates after every step and at the end. If the one run panics so does the other.", "quantifier": "all sketches, states, orders, leftover gradients, solvers, parameters and pseudo-inverses (exact arithmetic)", "why_tests_cant": "The number of orders grows like a factorial and leftover gradients are a continuum.", "anchors": ["src/solvers/gradient_based_solver.rs:solve", "src/solvers/bfgs_solver.rs:solve", "src/solvers/gauss_newton_solver.rs:solve", "src/solvers/levenberg_marquardt.rs:solve", "src/sketch/mod.rs:get_gradient", "src/sketch/mod.rs:get_jacobian"]}
{"id": "C87", "title": "The order and the ids of the primitives do not matter", "statement": "Add the primitives and the constraints of a sketch in another order, so that primitives have other ids: every solver still does the same, with the same result, step sizes and the same coordinates after every step and at the end; the BFGS matrices are the same with rows and columns in the other order. For Gauss-Newton and Levenberg-Marquardt the pseudo-inverse must not depend on the order of rows and columns either, which holds for the one that the code computes (given by its eigenvalues and vectors).", "quantifier": "all sketches without doubled primitives, all states, orders, ids, solvers and parameters (exact arithmetic)", "why_tests_cant": "The number of orders grows like a factorial.", "anchors": ["src/solvers/gradient_based_solver.rs:solve", "src/solvers/bfgs_solver.rs:solve", "src/solvers/gauss_newton_solver.rs:solve", "src/solvers/levenberg_marquardt.rs:solve", "src/sketch/mod.rs:get_gradient", "src/sketch/mod.rs:get_jacobian", "src/sketch/mod.rs:get_data", "src/sketch/mod.rs:set_data"]}
{"id": "C88", "title": "What check_gradients checks", "statement": "check_gradients(eps, c, tol) compares difference quotients of the loss of one constraint c with the gradient of the whole sketch. If no constraint is degenerate, then for all small enough steps eps, positive or negative, it passes when on every primitive the force of the constraints other than c is shorter than tol, and panics when on some primitive it is longer. For the only constraint of a sketch it therefore passes with every positive tolerance.", "quantifier": "all sketches, states without degenerate constraints, constraints, tolerances and small steps (exact arithmetic)", "why_tests_cant": "Tests call it for one constraint in one position with one step size.", "anchors": ["src/sketch/mod.rs:check_gradients", "src/sketch/mod.rs:get_gradient"]}
{"id": "C89", "title": "How a sketch is turned does not matter to the solvers", "statement": "Turn a sketch by any angle about the origin, or mirror it and turn it: points, angles of arcs and desired places of FixPoint constraints. If constraints speak of the x- or y-direction, the turn must be by a multiple of 90 degrees, and these constraints turn along. Then every loss stays the same, and gradient descent, the Gauss-Newton and the Levenberg-Marquardt solver make corresponding runs: same result, same number of steps and line searches, same step sizes, and before and after each step and at the end the one sketch is the other one turned. BFGS does so for turns by multiples of 90 degrees and mirror images, and its matrices turn along.", "quantifier": "all closed sketches with finite data, all angles, mirror images, all constraint kinds, all parameters (exact arithmetic; for the Newton solvers the pseudo-inverse with cut-off)", "why_tests_cant": "Tests solve one sketch in one orientation; a term that forgets one coordinate can go unnoticed there.", "anchors": ["src/solvers/gradient_based_solver.rs:solve", "src/solvers/bfgs_solver.rs:solve", "src/solvers/gauss_newton_solver.rs:solve", "src/solvers/levenberg_marquardt.rs:solve", "src/sketch/mod.rs:get_gradient", "src/sketch/mod.rs:get_jacobian"]}
{"id": "C90", "title": "What Ok means in binary64", "statement": "In IEEE binary64 arithmetic with correct rounding, and with cos, sin and acos accurate to an absolute error kappa: if the computed loss of a sketch is below min_loss = m then every constraint is met in the reals up to (1+2^-50)*sqrt(2m), plus a stated multiple of the rounding unit times the lengths involved. When BFGS or gradient descent returns Ok, this holds at the end, or every partial derivative is below the threshold, or max_iterations steps were made. When Gauss-Newton or Levenberg-Marquardt returns Ok before max_iterations, this holds before the last step, or the loss there was NaN; if no parameter of a constraint is NaN, it holds before the last step. With the default parameters the tolerance is 1.42e-8 (BFGS), 1.42e-7 (gradient descent), 1.42e-3 (Gauss-Newton) and 1.42e-5 (Levenberg-Marquardt).", "quantifier": "all sketches, heaps with any f64 (NaN, infinities, subnormal numbers), all constraint kinds, all parameters with min_loss >= 2^-600", "why_tests_cant": "Tests compare a few solutions with hand-picked tolerances; that no sketch at all can pass the stopping test with a large error, in spite of rounding, cancellation, overflow and NaN, needs an error analysis.", "anchors": ["src/sketch/mod.rs:get_loss", "src/sketch/mod.rs:get_loss_per_constraint", "src/solvers/bfgs_solver.rs:solve", "src/solvers/gradient_based_solver.rs:solve", "src/solvers/gauss_newton_solver.rs:solve", "src/solvers/levenberg_marquardt.rs:solve"]}
{"id": "C91", "title": "Sketches that share no object do not see each other", "statement": "In any arithmetic: a solver run depends on nothing but the primitives and constraints of its sketch, and leaves every other object as it was, gradients included, even after a panic. Hence two sketches without a common primitive can be solved in either order, by any two solvers, with the same results and identical final heaps; and in any history of computing calls (set_data, get_gradient, get_jacobian, check_gradients, solve) on any number of sketches, the calls on a sketch that shares no primitive with the others return exactly what they would return alone.", "quantifier": "all heaps, all sketches that contain what their primitives and constraints refer to, all solvers and parameters, any pseudo-inverse, all interleavings of calls", "why_tests_cant": "Objects are shared through Rc<RefCell>, so aliasing bugs show only for particular pairs of sketches and call orders; no finite set of interleavings covers them all.", "anchors": ["src/sketch/mod.rs:get_gradient", "src/sketch/mod.rs:get_jacobian", "src/sketch/mod.rs:set_data", "src/sketch/mod.rs:check_gradients", "src/solvers/bfgs_solver.rs:solve", "src/solvers/gradient_based_solver.rs:solve", "src/solvers/gauss_newton_solver.rs:solve", "src/solvers/levenberg_marquardt.rs:solve"]}
{"id": "C92", "title": "Gauss-Newton and Levenberg-Marquardt treat unconnected parts of a sketch separately", "statement": "In exact arithmetic: if some primitives and constraints of a sketch are not connected to the others by any constraint, Gauss-Newton and Levenberg-Marquardt on the whole sketch move this part exactly as they would if it were solved alone: the i-th step starts from and leads to the same coordinates, the run on the part makes at most as many steps, and if it makes as many the part ends in the same place. For gradient descent this is false: the parts share the step size found by the line search.", "quantifier": "all sketches and parts, in any order of primitives and constraints, all coordinates and parameters that are real numbers, any step size, damping and cut-off; the pseudo-inverse is any function that inverts the eigenvalues above the cut-off", "why_tests_cant": "The two runs agree only if the whole chain from the Jacobian over the normal matrix and its pseudo-inverse to the update respects the block structure for every sketch; tests see a few sketches.", "anchors": ["src/solvers/gauss_newton_solver.rs:solve", "src/solvers/levenberg_marquardt.rs:solve", "src/sketch/mod.rs:get_jacobian", "src/solvers/gradient_based_solver.rs:solve", "src/solvers/line_search.rs:line_search_wolfe"]}
{"id": "C93", "title": "Constraints with a non-zero loss at rest are in conflict", "statement": "README, Conflict resolution, for constraints on coordinates (fixed points, horizontal and vertical distances, horizontal and vertical lines): where get_gradient vanishes, every constraint with a non-zero loss belongs to a minimal conflict, that is a set of constraints with non-zero losses that cannot all be met, but can as soon as any one of them is left out. The constraints can be met together exactly if the loss is zero. The losses are the same in every position with vanishing gradient, whatever solver or start led there. Short of rest, if there is a solution, twice the loss is the product of the gradient with the difference to it, so a loss above half the gradient times the distance excludes a solution. The converse claim of the README is false: a constraint in conflict can have loss 0.", "quantifier": "all sketches of such constraints, any number and sharing of points, all real coordinates and desired values (exact arithmetic)", "why_tests_cant": "That a non-zero loss always points at a conflict, for every system of constraints, is a theorem about all linear systems; tests see a few.", "anchors": ["src/sketch/mod.rs:get_gradient", "src/sketch/mod.rs:get_loss_per_constraint", "src/constraints/fix_point.rs", "src/constraints/distance/horizontal_distance_between_points.rs", "src/constraints/lines/horizontal_line.rs"]}
{"id": "C94", "title": "A sketch with conflicting constraints is solved as well as possible", "statement": "README: the solver finds a state of the sketch that satisfies all the constraints as much as possible. For sketches of at most 54 points with at most 16382 constraints on coordinates (fixed points, horizontal and vertical distances and lines), from any finite start and whether or not the constraints can be met together: gradient descent and BFGS return Ok, BFGS without a failed line search, and every step brings the loss closer to the least possible loss by a fixed factor (1 - 1.9998e-4/(K N^2) for gradient descent, with N points and K constraints). When they stop before max_iterations, the loss is below min_loss or exceeds the least one by less than (N min_grad)^2/2. The gradient vanishes exactly where the loss is least. The square root of the loss of every constraint is off its value at rest by at most the square root of what the whole loss is off the least one, so for any number of points a constraint with a loss above N^2/2 times the squared gradient belongs to a minimal conflict.", "quantifier": "all sketches of such constraints up to that size, solvable or not, all real starts and desired values, all tolerances and iteration limits (BFGS: up to 10^10), exact arithmetic", "why_tests_cant": "Convergence to the least loss from every start is a statement about infinitely many runs; conflicting sketches do not even have a known answer to compare with.", "anchors": ["src/solvers/gradient_based_solver.rs:solve", "src/solvers/bfgs_solver.rs:solve", "src/solvers/line_search.rs:line_search_wolfe", "src/sketch/mod.rs:get_gradient", "src/sketch/mod.rs:get_loss"]}
{"id": "C95", "title": "A limit on the iterations only cuts a run off, and gradient descent can be resumed", "statement": "For each solver, the run with max_iterations n makes the first n steps of the run with a higher limit; if the latter makes an n-th step, the former returns Ok and ends in the state after that step, otherwise (fewer steps, an error or a panic) the two runs are equal. Gradients left in primitives by earlier calls have no influence. Gradient descent limited to n iterations that returns Ok and is called again with limit m does what a single call with limit n+m does. The same holds exactly for Gauss-Newton and Levenberg-Marquardt unless the single call returns Ok with at most n steps: called again they always make at least one more step (or fail), even at a solution. BFGS that returned Ok before its limit returns Ok at once, moving nothing, when called again.", "quantifier": "all sketches, heaps, parameters, limits and pseudo-inverses, in any arithmetic (including IEEE binary64)", "why_tests_cant": "Tests call a solver once, with one limit; whether state is carried over between calls, or whether the limit changes the steps, shows up only in comparing runs.", "anchors": ["src/solvers/gradient_based_solver.rs:solve", "src/solvers/bfgs_solver.rs:solve", "src/solvers/gauss_newton_solver.rs:solve", "src/solvers/levenberg_marquardt.rs:solve", "src/sketch/mod.rs:get_gradient", "src/sketch/mod.rs:get_jacobian"]}
{"id": "C96", "title": "Solving leaves alone what is satisfied and not connected to anything else", "statement": "Let a sketch be made of two sketches without common primitives, whose constraints look only at primitives of their own, and let all constraints of the first have loss 0 (with a gradient that can be computed). Then gradient descent, BFGS, Gauss-Newton and Levenberg-Marquardt run on the whole as on the second sketch alone: same result, same number of steps and line searches, same step sizes, same coordinates of everything before and after every step and at the end; the coordinates of the first sketch never change, even if the solver fails or panics. In particular, in a sketch with constraints, a primitive that no constraint looks at is never moved.", "quantifier": "all sketches with finite numbers, the second not empty, constraints of any kinds, all solver parameters (Gauss-Newton and Levenberg-Marquardt: real step size, cut-off and damping), exact arithmetic, the pseudo-inverse with cut-off", "why_tests_cant": "Tests look at the final coordinates of connected sketches; that a line search, the BFGS matrix or the pseudo-inverse does not leak from one part of a sketch into another is a statement about all pairs of sketches and all iterations.", "anchors": ["src/solvers/gradient_based_solver.rs:solve", "src/solvers/bfgs_solver.rs:solve", "src/solvers/gauss_newton_solver.rs:solve", "src/solvers/levenberg_marquardt.rs:solve", "src/solvers/line_search.rs:line_search_wolfe", "src/sketch/mod.rs:get_gradient", "src/sketch/mod.rs:get_jacobian"]}
{"id": "C97", "title": "Losses and derivatives computed in binary64 are close to the exact ones", "statement": "In binary64, at coordinates of magnitude up to 2^100 and with every constraint away from its degenerate positions (points with a desired distance and the arms of an angle more than 2^-19 apart, sine of the angle at least 2^-5, lines to be compared longer than 2^-100), get_loss, get_loss_per_constraint, get_gradient and get_jacobian neither panic nor overflow, and every number they return differs from the exact value (for derivatives: the partial derivative of the exact loss at the same coordinates) by at most about 1e-11 times the size of the numbers the constraint computes with. Consequently, if the computed loss went down by more than that, so did the exact loss; and when BFGS or gradient descent returns Ok before the iteration limit, the exact loss is below min_loss or every exact partial derivative is below the gradient threshold, up to these errors.", "quantifier": "all sketches with fewer than 2^40 constraints of all twelve kinds and all finite coordinates as described, all library functions accurate to 2^-45", "why_tests_cant": "Tests compare gradients with finite differences on a few sketches, with tolerances much larger than the rounding errors; they bound neither the rounding error nor its dependence on the size of the sketch.", "anchors": ["src/sketch/mod.rs:get_loss", "src/sketch/mod.rs:get_loss_per_constraint", "src/sketch/mod.rs:get_gradient", "src/sketch/mod.rs:get_jacobian", "src/constraints/angle_between_points.rs:update_gradient", "src/constraints/distance/euclidian_distance_between_points.rs:update_gradient", "src/constraints/lines/parallel_lines.rs:update_gradient", "src/solvers/bfgs_solver.rs:solve", "src/solvers/gradient_based_solver.rs:solve"]}
{"id": "C98", "title": "Rings found in binary64 are those of exact arithmetic unless directions or areas are nearly equal", "statement": "For a sketch of straight lines (and circles) in binary64 with coordinates of magnitude up to 2^100: if any two lines that leave the same point make an angle of at least 4 kappa + 2^-42, where kappa is the error of atan2, then find_rings leaves over exactly the lines it would leave over in exact arithmetic; every ring it returns is one of the exact rings or has a true area within the rounding error of zero; every exact ring is returned unless its area is below the rounding error; and two rings returned in the wrong order differ in area by at most the rounding errors. If all areas and their differences exceed these errors, the returned list is the exact one; where walks of hardest left turns close up, the rings are then exactly the ways around by hardest left turns with positive area. For n lines without circles, with whole-number coordinates up to B <= 2^19 where 4 n B^2 < 2^53, and no two lines leaving a point in the same direction, the results always agree.", "quantifier": "all sketches with up to 2^40 lines and any number of circles, all finite coordinates up to 2^100, all libraries with an accurate atan2", "why_tests_cant": "Tests run a handful of axis-parallel boxes; they say nothing about when rounding in atan2, in the wrapped angle difference or in the area sum can change which rings are found.", "anchors": ["src/decompose/mod.rs:find_rings", "src/decompose/mod.rs:find_next_segment", "src/decompose/mod.rs:angle_difference", "src/decompose/segment.rs:start_angle", "src/decompose/segment.rs:end_angle", "src/decompose/ring.rs:signed_area"]}
{"id": "C99", "title": "Convergence of gradient descent on linear sketches in binary64", "statement": "Let the constraints of a sketch be linear (as in C71) and its loss, as a function of the coordinates, be squeezed between two parabolas mu, M around its solutions, with 0.121/1.5^14 <= mu <= M <= 1.9*2^14. Let binary64 have digits enough for it: the size of the sketch squared times (1+M)/mu is at most 2^30, min_loss is above the noise of the loss, and the number of iterations times the unit roundoff is small. Then gradient descent in binary64 returns Ok; every step reduces the computed loss at least by the factor 1 - 1.8e-4 mu/(1+M), so that rounding never makes the line search fail or the loss grow; it stops before the last iteration only if the computed loss is below min_loss or below 1.01 min_grad^2/(2 mu); and the exact loss of the sketch it leaves is at most 1% above the larger of the computed loss and min_loss. With enough iterations one of the two bounds is reached.", "quantifier": "every such sketch, all finite coordinates and parameters within explicit bounds, all parameters of the solver, every number of iterations (binary64)", "why_tests_cant": "Tests run single starts; that no rounding error can derail the line search or the stopping tests is a statement about all of them.", "anchors": ["src/solvers/gradient_based_solver.rs:solve", "src/solvers/line_search.rs:line_search_wolfe", "src/sketch/mod.rs:get_loss", "src/sketch/mod.rs:get_gradient", "src/constraints/fix_point.rs", "src/constraints/distance/horizontal_distance_between_points.rs", "src/constraints/lines/horizontal_line.rs"]}
{"id": "C100", "title": "The stairs benchmark in binary64", "statement": "For every n from 1 to 2^63 the stairs benchmark is built in binary64 without a panic. For every state of the sketch, however its points were moved, with up to 2^20 points: if the loss computed in binary64 is a finite L, then all coordinates are finite and the i-th point (from 0) is within (1+2^-30) sqrt(2(i+1)L) + (i+1) 2^-52 of where it belongs; check(eps), computed in binary64, passes as soon as (1+2^-30) sqrt(2(n-1)L) + n 2^-50 <= eps. Hence the run of the benchmark with tolerance 1e-6 and any of the four solvers with any parameters reports success if the reported loss is at most 9.9e-13/(2(n-1)). Gradient descent in binary64 solves the stairs: with up to 10 points, from every start with coordinates of at most 1, within 10^8 iterations for min_loss 1e-8, and then check(1e-3) passes; the run of the benchmark with up to 4 points, tolerance 1e-6, min_loss 1e-13 and 2*10^7 iterations reports success.", "quantifier": "every number of points within the stated limits, every state of the sketch (binary64), every solver and its parameters, every libm", "why_tests_cant": "Single runs of the benchmark show single outcomes; that the loss bounds all position errors in spite of rounding concerns all states.", "anchors": ["benches/solvers/stairs_with_lines_benchmark.rs:new_benchmark", "benches/solvers/stairs_with_lines_benchmark.rs:check", "benches/solvers/main.rs", "src/sketch/mod.rs:get_loss", "src/solvers/gradient_based_solver.rs:solve", "src/constraints/fix_point.rs", "src/constraints/distance/horizontal_distance_between_points.rs", "src/constraints/distance/vertical_distance_between_points.rs", "src/constraints/lines/horizontal_line.rs", "src/constraints/lines/vertical_line.rs"]}
{"id": "C101", "title": "Constraints that share no coordinate are solved in one step", "statement": "Take a sketch in which no coordinate is used by two constraints, or twice by one, and whose constraints are all of one sort: (a) fixed points, lam=1; (b) horizontal, vertical and Euclidean distances and horizontal and vertical lines, lam=2; (c) equal lengths of lines that are not of length 0, lam=4. In (b), points with a desired Euclidean distance of at least 1e-6 are to start at least 1e-6 and at most twice the desired distance apart. Then gradient descent returns Ok: if the loss L is below min_loss or sqrt(2 lam L) below min_grad it makes no step and moves nothing, otherwise it makes exactly one step, with step size 1/lam, and the loss is 0. BFGS likewise: no step if L < min_loss; exactly one step of size 1/lam and then loss 0 if L >= min_loss and 2 lam L >= (number of dofs) threshold^2; in between one or the other. The limit on the distance is needed: the points (0,0) and (3,0), desired distance 1, change sides in the first step (step size 1) and end at (2,0) and (1,0).", "quantifier": "every sketch with any number of such constraints and any other primitives, all coordinates and desired values that are real numbers, every min_loss > 0 and every min_grad (BFGS: threshold > 0), max_iterations >= 1 (exact arithmetic)", "why_tests_cant": "The number of steps for every number of constraints and every position cannot be sampled.", "anchors": ["src/solvers/gradient_based_solver.rs:solve", "src/solvers/bfgs_solver.rs:solve", "src/solvers/line_search.rs:line_search_wolfe", "src/constraints/distance/euclidian_distance_between_points.rs:update_gradient", "src/constraints/lines/equal_length.rs:update_gradient", "src/constraints/fix_point.rs:update_gradient"]}
{"id": "C102", "title": "A deleted primitive is held in place", "statement": "Let delete_primitive(id) remove a primitive P that constraints or other primitives may still use. Then: (1) get_loss and get_loss_per_constraint are as before, and get_data has lost exactly the block of P. (2) If get_gradient succeeded before, it succeeds afterwards and its result has lost exactly the block of P; get_jacobian has lost exactly the columns of P and panics iff it did before. (3) If the coordinates of P are finite, set_data(v) does exactly what set_data did before with the coordinates of P put in at its block: same heap, same panics; so the loss as a function of the data vector is the old one with P held in place. (4) No solver moves P. (5) In exact arithmetic, for every sketch, whether or not it contains everything its constraints use: if these are finite and regular, get_gradient succeeds and is the derivative of the loss as a function of the data vector, and set_data accepts every vector of reals.", "quantifier": "(1), (2): every sketch with increasing ids, every heap and every arithmetic; (3), (4): moreover no primitive under two ids; (5): every sketch without a primitive under two ids, exact arithmetic", "why_tests_cant": "Every sketch and every deleted primitive; a test can only delete a few.", "anchors": ["src/sketch/mod.rs:delete_primitive", "src/sketch/mod.rs:get_gradient", "src/sketch/mod.rs:get_jacobian", "src/sketch/mod.rs:set_data", "src/sketch/mod.rs:get_data"]}
{"id": "C103", "title": "Solving moves a sketch to the nearest solution", "statement": "A linear sketch (fixed points, horizontal and vertical distances and lines), its constraints compatible or not; call a position best if no other has a smaller loss. (1) To every position there is exactly one nearest best position. (2) After every step of gradient descent or BFGS (any parameters, also when line searches fail), and at the end, whatever the outcome, the squares of the distances to all best positions have changed by the same amount since the start; neither solver panics. The same holds for Gauss-Newton and Levenberg-Marquardt with nalgebra's cut-off of singular values, unless pseudo_inverse panics. (3) Hence the nearest best position is the same at the start and at the end, and in a sketch with at most N points the square of its distance is at most 2 N\u00b2 times what the loss exceeds the least one by. (4) With default parameters and at most 54 points, gradient descent that stops before its limit is within 1e-5 of the best position nearest to the start; for BFGS the square of that distance is less than 1e-9 times the number of coordinates.", "quantifier": "every linear sketch that contains what it uses and contains no primitive twice, every finite start, all parameters and numbers of steps ((4): at most 54 points and 16382 constraints); exact arithmetic", "why_tests_cant": "Infinitely many sketches, starts and best positions; a test sees the distance to a few of them.", "anchors": ["src/solvers/gradient_based_solver.rs:solve", "src/solvers/bfgs_solver.rs:solve", "src/solvers/gauss_newton_solver.rs:solve", "src/solvers/levenberg_marquardt.rs:solve", "src/solvers/line_search.rs:line_search_wolfe"]}
{"id": "C104", "title": "Gradient descent and BFGS cannot turn long lines", "statement": "A sketch all of whose K constraints demand that two lines be perpendicular or parallel, each of these lines at least 200 \u221aK long. (1) Unless the loss is below min_loss or the gradient shorter than min_grad at the start (min_grad positive, at least one iteration allowed), gradient descent returns the error SearchFailed from its first line search without having taken a step. It leaves the sketch where its longest trial step led, at the start minus 1.5^14 times the gradient, and the loss there is smaller than at the start. (2) BFGS (positive gradient_threshold) takes no step either: it returns Ok or the error that the line search failed twice in a row, and the loss does not grow. (3) In particular the default gradient descent returns SearchFailed whenever the loss is at least 1e-14 and the gradient at least 1e-10.", "quantifier": "every sketch of such constraints that contains what it uses and contains no primitive twice, every finite position, all parameters; exact arithmetic", "why_tests_cant": "The failure depends on the size of the drawing: tests with lines a few units long do not show it, and it has to be shown for all fifteen step sizes, all angles and all ways the lines are joined.", "anchors": ["src/solvers/line_search.rs:line_search_wolfe", "src/solvers/gradient_based_solver.rs:solve", "src/solvers/bfgs_solver.rs:solve", "src/constraints/lines/perpendicular_lines.rs:update_gradient", "src/constraints/lines/parallel_lines.rs:update_gradient"]}
{"id": "C105", "title": "The order in which a constraint names its objects, and the direction of its lines, do not matter to the solvers", "statement": "Let two heaps describe the same drawing: same coordinates, the same centres and directions of arcs and circles, every line with the same two points (possibly start and end exchanged), and every constraint equal or with its two points (Euclidian distance), its two lines (equal length, parallel, perpendicular) or the two arms of its angle exchanged, or its two points exchanged and its desired distance negated (horizontal and vertical distance). Then each of the four solvers, with any parameters and any pseudo-inverse, makes the same run on both: same result, same number of steps and line searches, same step sizes and BFGS matrices, same coordinates before and after each step and at the end; if the one panics so does the other. Loss, losses of the constraints, gradient and Jacobian are the same too.", "quantifier": "every sketch, every pair of such heaps (coordinates finite or not, any gradients left over), all solvers, parameters and pseudo-inverses; exact arithmetic", "why_tests_cant": "Every constraint kind is written with a first and a second object and its gradient is spelled out for each by hand; a sign or an index wrong for one of them shows only for that order and direction. Tests fix one order each.", "anchors": ["src/constraints/angle_between_points.rs:update_gradient", "src/constraints/distance/euclidian_distance_between_points.rs:update_gradient", "src/constraints/distance/horizontal_distance_between_points.rs:update_gradient", "src/constraints/distance/vertical_distance_between_points.rs:update_gradient", "src/constraints/lines/equal_length.rs:update_gradient", "src/constraints/lines/parallel_lines.rs:update_gradient", "src/constraints/lines/perpendicular_lines.rs:update_gradient", "src/constraints/lines/horizontal_line.rs:update_gradient", "src/constraints/lines/vertical_line.rs:update_gradient"]}
{"id": "C106", "title": "In binary64 a sketch that is solved is recognised as solved", "statement": "Take the coordinates, as real numbers, and let every constraint be missed by some amount (a distance, a difference of lengths, the sine or cosine of the angle between two lines, an angle). Then the loss computed in binary64 is finite and at most 0.501 times the sum of the squares of these amounts, each increased by a rounding error of about 2e-14 times the sizes that enter the constraint. So when the constraints are met (exactly or closely enough for this bound to be below min_loss) BFGS returns Ok at once with the sketch untouched, gradient descent returns Ok at once and moves nothing, and Gauss-Newton and Levenberg-Marquardt, which look at the loss only after a step, make at most one step. With default parameters BFGS and gradient descent do so for every sketch of at most 100 constraints that are met up to 1e-9, with sizes (for angles increased by the ill-conditioning of the arc cosine) up to 1000.", "quantifier": "every closed sketch with fewer than 2^40 constraints whose coordinates and parameters are at most 2^100 in magnitude and whose constraints are not near their degenerate positions (lines not shorter than 2^-100, points at a desired distance and arms of angles not closer than 2^-19, angles whose sine is at least 1/32), any mathematical library with an error of at most 2^-45 (2^-50 for the defaults), any parameters; binary64", "why_tests_cant": "An error bound for all inputs: that rounding cannot keep a solver busy on a solved sketch. Converse of C90; the first-order bound of C97 is too coarse for it, as min_loss is far below it.", "anchors": ["src/sketch/mod.rs:get_loss", "src/solvers/bfgs_solver.rs:solve", "src/solvers/gradient_based_solver.rs:solve", "src/solvers/gauss_newton_solver.rs:solve", "src/solvers/levenberg_marquardt.rs:solve", "src/constraints:loss_value"]}
{"id": "C107", "title": "The unit of length, and sketches too small to be seen", "statement": "Write a sketch whose constraints are about lengths (fixed points, horizontal and vertical distances and lines, equal lengths) in another unit: coordinates, radii and what the constraints ask for times c > 0. Then every loss is multiplied by c^2. Gradient descent behaves alike on both if min_loss is multiplied by c^2 and min_grad by c; Gauss-Newton if min_loss and the cut-off of the pseudo-inverse are multiplied by c^2; Levenberg-Marquardt if its damping beta is multiplied by c^2, too: same result, as many steps and line searches, same step sizes, and before and after each step and at the end the one sketch is the other one in the other unit. With the default parameters, which do not change with the unit, the unit does matter: whenever the gradient can be computed, there is a c0 > 0 such that for every c up to c0 gradient descent, BFGS and Gauss-Newton return Ok and leave all coordinates as they are, however badly the constraints are missed in the first unit.", "quantifier": "every sketch without arcs whose constraints are of the kinds named, every c > 0, any parameters; for Gauss-Newton and Levenberg-Marquardt closed sketches of finite numbers and any pseudo-inverse that inverts the eigenvalues above the cut-off; exact arithmetic", "why_tests_cant": "A relation between runs on two different inputs, for all sketches and scales. It shows which thresholds of the solvers are absolute: a part drawn in kilometres is not solved although Ok is returned.", "anchors": ["src/solvers/gradient_based_solver.rs:solve", "src/solvers/bfgs_solver.rs:solve", "src/solvers/gauss_newton_solver.rs:solve", "src/solvers/levenberg_marquardt.rs:solve", "src/solvers/line_search.rs", "src/constraints:loss_value"]}
{"id": "C108", "title": "Small edits move a linear sketch a little, and the outcome depends neither on the solver nor on redundant constraints", "statement": "A linear sketch (fixed points, horizontal and vertical distances and lines) with at most N points. (1) Changing desired values with set_desired_distance or set_desired_pos by delta altogether (root of the sum of the squares) leaves all coordinates as they are and raises the square root of twice the loss by at most delta. (2) Solving, with any of the four solvers, moves the sketch at most by N times the sum of the roots of twice what the loss exceeds the least one by, before and after. (3) Hence, for N up to 54, if the sketch has the loss L, is edited by delta and then solved with gradient descent or BFGS with any parameters, it moves at most by N (sqrt(2 L) + delta + sqrt(2 L1)), where L1 is the loss at the end and sqrt(2 L1) is at most sqrt(2 L) + delta: a solved sketch moves at most by 2 N delta. (4) Two sets of constraints with the same solutions (or the same positions of least loss), such as one with further constraints that follow from the others, solved from the same start by any two of the solvers, end within N (sqrt(2 L) + sqrt(2 L')) of each other, L and L' being the losses at the end. (5) Gradient descent and BFGS with default parameters that stop before their limits end less than 1e-5 + sqrt(1e-9 n) apart, n being the number of coordinates.", "quantifier": "every closed linear sketch of finite numbers, every edit of desired values, every start; all parameters (for BFGS at most 10^10 iterations); for Gauss-Newton and Levenberg-Marquardt any pseudo-inverse that cuts off as nalgebra's does; exact arithmetic", "why_tests_cant": "A comparison of runs on different sketches, over all sketches and edits. It is what users of a sketcher rely on when they change a dimension: a small change must not throw the drawing over.", "anchors": ["src/constraints/distance/horizontal_distance_between_points.rs:set_desired_distance", "src/constraints/distance/vertical_distance_between_points.rs:set_desired_distance", "src/constraints/fix_point.rs:set_desired_pos", "src/solvers/gradient_based_solver.rs:solve", "src/solvers/bfgs_solver.rs:solve", "src/solvers/gauss_newton_solver.rs:solve", "src/solvers/levenberg_marquardt.rs:solve"]}
{"id": "C109", "title": "How far gradient descent moves a sketch; sketches without circuits can be solved nearby", "statement": "(1) If at all positions with loss at most that of the start, L, no constraint is degenerate and the square of the gradient is at least 2 mu times the loss, then the way gradient descent goes through all its steps is at most 1e4 sqrt(2 L / mu) long, whatever its parameters are, and at most 1e4 (sqrt(2 L) - sqrt(2 L1)) / sqrt(mu) if it returns Ok with the loss L1. (2) For a sketch without circuits, of K constraints (fixed points, horizontal, vertical and Euclidean distances, horizontal and vertical lines), whose desired Euclidean distances are at least sqrt(2 L) plus 1e-6, this holds with mu = 1 / K^2: the way is at most 1e4 K sqrt(2 L) long. (3) A sketch without circuits whose desired Euclidean distances are not negative can be solved, and there is a solution not farther than K sqrt(2 L) from the start. (4) Editing desired values by delta altogether raises the square root of twice the loss by at most delta, also if Euclidean distances are edited. (5) So, after an edit by delta of a sketch without circuits with the loss L, there is a solution within K (sqrt(2 L) + delta) of the present position, and gradient descent goes nowhere farther than 1e4 K (sqrt(2 L) + delta) from it.", "quantifier": "every closed sketch of finite numbers; for (2) to (5) every sketch without circuits, every edit; all parameters with positive min_grad; exact arithmetic", "why_tests_cant": "A bound on the sum of all steps of all runs, and the existence of solutions: no finite number of runs shows either.", "anchors": ["src/solvers/gradient_based_solver.rs:solve", "src/solvers/line_search.rs:line_search_wolfe", "src/constraints/distance/euclidian_distance_between_points.rs:loss_value", "src/constraints/distance/euclidian_distance_between_points.rs:set_desired_distance", "src/constraints/distance/horizontal_distance_between_points.rs:set_desired_distance", "src/constraints/distance/vertical_distance_between_points.rs:set_desired_distance", "src/constraints/fix_point.rs:set_desired_pos"]}
{"id": "C110", "title": "Gradients are never NaN, and nearly solved drawings are cut into rings like solved ones", "statement": "(1) Whatever calls a program makes - with NaN and infinite coordinates and parameters, after errors and panics - no gradient of a primitive is ever NaN, nor any entry of a Jacobian it obtains (unless the program itself writes a primitive with a NaN gradient through its cell). (2) Hence, after any calls, lines that outline a polygon are found, and asking for the gradient or the Jacobian does not change how a drawing of lines is cut: C43 and C48 without their conditions on gradients. (3) The lines of a closed loop each point of which is within eps of its place are cut into exactly one ring, with nothing unused, whose area differs from that of the polygon of the places by at most eps times its perimeter plus n eps^2 / 2 - if the places are more than 2 eps apart and the polygon has more area than that. So does every solver leave a drawing, however it ended. (4) The axis-aligned rectangle of the tests with a loss L of at most 1/100 is cut into exactly one ring of area 6 up to 10 sqrt(6 L) + 12 L; gradient descent with default thresholds and enough iterations gets there from every finite start, with an area of 6 up to 1e-5.", "quantifier": "(1), (2): every history of calls, every arithmetic in which 0 is not NaN and adding a finite number to one that is not NaN does not give NaN (f64 and exact arithmetic among them); (3), (4): exact arithmetic, every loop of lines, every solver, every start", "why_tests_cant": "A claim about all histories of calls, and about all positions near a solution.", "anchors": ["src/primitives/point2.rs:add_to_gradient", "src/primitives/line.rs:add_to_gradient", "src/primitives/arc.rs:add_to_gradient", "src/sketch/mod.rs:get_gradient", "src/sketch/mod.rs:get_jacobian", "src/decompose/mod.rs:find_rings", "src/decompose/ring.rs:signed_area", "src/examples/test_rectangle_axis_aligned.rs"]}
{"id": "C111", "title": "Symmetric sketches stay symmetric and flat ones stay flat", "statement": "(1) A motion of the plane - a turn by any angle, perhaps after mirroring, followed by a translation - takes a sketch to itself, exchanging points, lines (of either direction), arcs, circles and constraints of the sketch among themselves. In exact arithmetic all solvers keep this symmetry, with any parameters: before and after every step and at the end the motion exchanges the same objects. If constraints speak of the x- or y-direction, or for BFGS, the turn must be by a multiple of 90 degrees; Gauss-Newton and Levenberg-Marquardt need the pseudo-inverse with cut-off, a finite step size and finite cut-off and damping that are not negative. (2) If all points are on one line, there are no arcs, and no constraint tells the sides of the line apart, no solver ever takes a point off the line (BFGS: if the line is horizontal, vertical or diagonal). (3) So a triangle that was drawn flat is never solved: if any two demanded sides together exceed the third by m, then at the end one of the three distances still has a loss of at least m^2/18.", "quantifier": "exact arithmetic; every sketch, every motion and exchange of objects, every run", "why_tests_cant": "A claim about runs of any length of sketches of any size, and about every symmetry; that a run does not get anywhere is not visible from the result Ok.", "anchors": ["src/solvers/gradient_based_solver.rs:solve", "src/solvers/bfgs_solver.rs:solve", "src/solvers/gauss_newton_solver.rs:solve", "src/solvers/levenberg_marquardt.rs:solve", "src/sketch/mod.rs:get_gradient", "src/sketch/mod.rs:get_jacobian", "src/constraints/distance/euclidian_distance_between_points.rs:update_gradient"]}
{"id": "C112", "title": "Groups of points that are held nowhere keep their centre of gravity", "statement": "In exact arithmetic: let P be a group of points of a sketch such that every constraint either looks only at points of P, without being a FixPoint, or at no point of P. Then all four solvers - with any parameters; Gauss-Newton and Levenberg-Marquardt with the pseudo-inverse with cut-off and finite step size, cut-off and damping, the last two not negative - leave the centre of gravity of P where it is, with every single step. Vertical distances and horizontal lines may connect P with other points as far as its x-coordinate is concerned, horizontal distances and vertical lines as far as its y-coordinate is. In particular a sketch without FixPoint keeps its centre of gravity. If exactly one FixPoint holds a group, the gradients of its points add up to the way from the demanded place to the point; so where no entry of the gradient exceeds G the point is within n G of its place, and where the gradient vanishes it is there exactly, however badly the other constraints are met.", "quantifier": "exact arithmetic; every sketch, every group of points, every run of every solver", "why_tests_cant": "A claim about every step of every run; for BFGS it depends on an invariant of the matrix, for the Newton solvers on the range of the pseudo-inverse.", "anchors": ["src/solvers/gradient_based_solver.rs:solve", "src/solvers/bfgs_solver.rs:solve", "src/solvers/gauss_newton_solver.rs:solve", "src/solvers/levenberg_marquardt.rs:solve", "src/sketch/mod.rs:get_gradient", "src/sketch/mod.rs:get_jacobian", "src/constraints/fix_point.rs:update_gradient"]}
{"id": "C113", "title": "No step turns a sketch", "statement": "In exact arithmetic: let no constraint of a sketch refer to a place or a direction (no FixPoint, no horizontal or vertical distance, horizontal or vertical line). Then the movements of a single step of gradient descent, of Gauss-Newton or of Levenberg-Marquardt (with the pseudo-inverse with cut-off and finite parameters) do not turn the sketch about any point (u, v) of the plane: the cross products of the places of the points before the step, seen from (u, v), with their movements, and the changes of the start and end angles of the arcs, add up to zero. So a step never turns a sketch without arcs like a rigid body by an angle that is no multiple of a half turn, unless all its points are at the centre. If the sketch is pinned by FixPoint constraints of points that are all at one place before the step - of one point, say -, the step still does not turn it about that place. The gradient of an unpinned sketch has no turning force about any point either.", "quantifier": "exact arithmetic; every such sketch, every step of every run of the three solvers, every centre", "why_tests_cant": "A claim about every step of every run and every centre; one sign error in the gradient of one constraint breaks it although the solvers may still converge.", "anchors": ["src/solvers/gradient_based_solver.rs:solve", "src/solvers/gauss_newton_solver.rs:solve", "src/solvers/levenberg_marquardt.rs:solve", "src/sketch/mod.rs:get_gradient", "src/sketch/mod.rs:get_jacobian", "src/constraints"]}
{"id": "C114", "title": "Constraints about directions never shrink a sketch", "statement": "In exact arithmetic: let all constraints of a sketch be AngleBetweenPoints, ParallelLines and PerpendicularLines. Call the sum of the squares of the distances of all its points from (u, v) the spread about (u, v). Then every step of gradient descent, of Gauss-Newton or of Levenberg-Marquardt (with the pseudo-inverse with cut-off and finite parameters) makes the spread about every point (u, v) larger by exactly the sum of the squares of the ways of the points in the step. So over a run that ends without an error the squares of all ways add up to the growth of the spread, neither the spread about any point nor the sum of the squares of the distances of all pairs of points becomes smaller, and a sketch with two points at different places never ends with all its points at one place: such constraints are never met by shrinking the sketch to a point.", "quantifier": "exact arithmetic; every such sketch, every step of every run of the three solvers, every centre", "why_tests_cant": "A claim about every step of every run and every centre; a gradient that is only roughly right still converges, but slowly shrinks the drawing.", "anchors": ["src/solvers/gradient_based_solver.rs:solve", "src/solvers/gauss_newton_solver.rs:solve", "src/solvers/levenberg_marquardt.rs:solve", "src/constraints/angle_between_points.rs:update_gradient", "src/constraints/lines/parallel_lines.rs:update_gradient", "src/constraints/lines/perpendicular_lines.rs:update_gradient"]}
{"id": "C115", "title": "Gradient descent moves a sketch no farther than the loss it gains allows", "statement": "In exact arithmetic: let the coordinates, the parameters and the loss of a sketch be finite, and let gradient descent end without an error. Then the loss is finite at the end; the squares of the changes of all coordinates in all steps add up to at most 10^4 * 1.5^14 times the loss gained; the square of the distance between the first and the last state (all coordinates together) is at most the number of steps times that. With the default parameters no point of a sketch whose loss L satisfies 3 * 10^10 * L <= e^2 is moved by more than e in x or y: a sketch that is nearly met does not jump. If all constraints are angles, parallels and perpendiculars (C114), the spread of the sketch about any point grows by at most 10^4 * 1.5^14 times the loss gained, however many steps are made.", "quantifier": "exact arithmetic; every finite sketch, every run of gradient descent that ends well, all parameters", "why_tests_cant": "A bound on all runs on all sketches; it rests on the constants of the line search (sufficient decrease 1e-4, at most 14 changes of the step size by at most 1.5).", "anchors": ["src/solvers/gradient_based_solver.rs:solve", "src/solvers/line_search.rs:line_search_wolfe", "src/sketch/mod.rs:get_gradient", "src/sketch/mod.rs:get_loss"]}
{"id": "C116", "title": "No step of Gauss-Newton or Levenberg-Marquardt is longer than the loss allows", "statement": "In exact arithmetic, for every sketch with finite coordinates and parameters and the pseudo-inverse with cut-off e: the square of the length of a step (all coordinates together) times e is at most the sum of the squares of the losses of the constraints before the step times the square of the step size; for Levenberg-Marquardt with damping b also with 4b instead of e. With the default parameters no step of Gauss-Newton is longer than the loss before it, no step of Levenberg-Marquardt longer than 15.9 times the loss before it, and over a run of Gauss-Newton (Levenberg-Marquardt) that does not panic the sketch is moved no farther than (15.9 times) what the losses at the starts of the steps add up to. Hence in a step of Gauss-Newton (Levenberg-Marquardt) two points whose x or y coordinates differ by more than 2 (31.8) times the loss keep their order. This holds however degenerate the Jacobian is: the cut-off keeps nearly dependent constraints from throwing the sketch far away.", "quantifier": "exact arithmetic; every finite sketch, every step of every run of the two solvers, all finite parameters with non-negative cut-off and damping", "why_tests_cant": "A bound on all steps on all sketches, including those with a nearly singular Jacobian, which tests hit only by chance.", "anchors": ["src/solvers/gauss_newton_solver.rs:solve", "src/solvers/levenberg_marquardt.rs:solve", "src/sketch/mod.rs:get_jacobian", "src/sketch/mod.rs:get_loss_per_constraint"]}
