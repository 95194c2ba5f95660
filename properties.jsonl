{"id": "C01", "title": "Polyhedron constructor accepts exactly the consistent data", "statement": "Polyhedron(A, b, C, d) raises ValueError exactly when b (or d) is not one dimensional, the number of rows of A and b (C and d) disagree, or only one of C, d is given; otherwise the object represents exactly {x | A x <= b, C x = d} (no equalities when C, d are omitted).", "quantifier": "every A, b, C, d of every shape, every point x", "why_tests_cant": "infinitely many shapes and values; a test samples a handful", "anchors": ["pympc/geometry/polyhedron.py:Polyhedron.__init__", "pympc/geometry/polyhedron.py:Polyhedron._same_number_rows"]}
{"id": "C02", "title": "Adding constraints intersects the set", "statement": "After a successful add_inequality(A, b, indices) / add_equality(C, d, indices) the represented set is the old set intersected with {x | A x[indices] <= b} / {x | C x[indices] = d}; indices=None means all the coordinates.", "quantifier": "every polyhedron, every constraint, every strictly increasing index list, every point", "why_tests_cant": "holds for all real matrices, sizes and index sets", "anchors": ["pympc/geometry/polyhedron.py:Polyhedron.add_inequality", "pympc/geometry/polyhedron.py:Polyhedron.add_equality", "pympc/geometry/polyhedron.py:Polyhedron._selection_matrix"]}
{"id": "C03", "title": "Set after any history of additions", "statement": "After any sequence of add_inequality/add_equality/add_lower_bound/add_upper_bound/add_bounds calls the represented set is the initial set intersected with every added constraint: it never grows, and two histories that are permutations of each other represent the same set.", "quantifier": "every finite history of additions and every reordering of it", "why_tests_cant": "unbounded number of histories and orders", "anchors": ["pympc/geometry/polyhedron.py:Polyhedron.add_inequality", "pympc/geometry/polyhedron.py:Polyhedron.add_equality", "pympc/geometry/polyhedron.py:Polyhedron.add_bounds"]}
{"id": "C04", "title": "Bounds describe boxes", "statement": "from_lower_bound, from_upper_bound, from_bounds and add_lower_bound, add_upper_bound, add_bounds represent exactly the points whose selected coordinates satisfy x_min <= x[indices] <= x_max (coordinates outside indices are free); missing n or bounds of different size raise ValueError.", "quantifier": "every bound vector, every strictly increasing index list, every point", "why_tests_cant": "all sizes and all real bounds", "anchors": ["pympc/geometry/polyhedron.py:Polyhedron.from_bounds", "pympc/geometry/polyhedron.py:Polyhedron.from_lower_bound", "pympc/geometry/polyhedron.py:Polyhedron.from_upper_bound", "pympc/geometry/polyhedron.py:Polyhedron.add_bounds"]}
{"id": "C05", "title": "Index lists are honoured in the order given", "statement": "For any list of distinct coordinates indices, add_lower_bound(x_min, indices) bounds x[indices[k]] by x_min[k]. (Violated: the selection matrix sorts the indices.)", "quantifier": "every index list, not only sorted ones", "why_tests_cant": "tests only use sorted index lists", "anchors": ["pympc/geometry/polyhedron.py:Polyhedron._selection_matrix"]}
{"id": "C06", "title": "A rejected addition leaves the object consistent", "statement": "If add_inequality/add_equality raises, the polyhedron still has as many right-hand sides as rows and still represents the same set. (Violated when the right-hand side is a column vector.)", "quantifier": "every failing call on every polyhedron", "why_tests_cant": "needs every exception point inside the method", "anchors": ["pympc/geometry/polyhedron.py:Polyhedron.add_inequality", "pympc/geometry/polyhedron.py:Polyhedron.add_equality"]}
{"id": "C07", "title": "normalize does not change the set", "statement": "normalize() keeps the represented set, makes every row with norm above the threshold unit norm, leaves the other rows untouched, and a second call changes nothing.", "quantifier": "every polyhedron and every threshold >= 0", "why_tests_cant": "all real matrices", "anchors": ["pympc/geometry/polyhedron.py:Polyhedron.normalize"]}
{"id": "C08", "title": "contains decides membership", "statement": "contains(x, tol) is True exactly when every inequality residual is at most tol and every equality residual is at most tol in absolute value. (Violated with two or more equalities: abs is taken after max.)", "quantifier": "every polyhedron with at least one inequality, every point, every tol", "why_tests_cant": "a residual vector of mixed signs is needed to see it; tests use single equalities", "anchors": ["pympc/geometry/polyhedron.py:Polyhedron.contains"]}
{"id": "C09", "title": "Redundancy removal never loses points and is exact away from the tolerance", "statement": "minimal_facets / remove_redundant_inequalities return a subset of the inequalities whose set contains the original set; if no facet is redundant or violated by an amount strictly between 0 and tol during the sweep, the set is exactly unchanged. Empty polyhedra give None / ValueError. Without any inequality or equality both raise RuntimeError.", "quantifier": "every polyhedron, every order of facets, every duplicate or degenerate facet", "why_tests_cant": "sequential removals interact; needs induction over the sweep", "anchors": ["pympc/geometry/polyhedron.py:Polyhedron.minimal_facets", "pympc/geometry/polyhedron.py:Polyhedron.remove_redundant_inequalities"]}
{"id": "C10", "title": "Facets kept by minimal_facets are irredundant", "statement": "For every index i returned by minimal_facets there is a point that satisfies all the other returned inequalities and violates the i-th one by at least tol.", "quantifier": "every non-empty polyhedron, every returned index", "why_tests_cant": "all real data; later removals must not make earlier kept facets redundant", "anchors": ["pympc/geometry/polyhedron.py:Polyhedron.minimal_facets"]}
{"id": "C11", "title": "Redundancy removal is accurate to tol", "statement": "Every point of the polyhedron produced by remove_redundant_inequalities violates the original inequalities by less than tol. (Violated: errors accumulate over the sweep, and can be amplified by any factor.)", "quantifier": "every non-empty polyhedron", "why_tests_cant": "needs adversarial chains of nearly redundant facets", "anchors": ["pympc/geometry/polyhedron.py:Polyhedron.remove_redundant_inequalities"]}
{"id": "C12", "title": "is_included_in decides inclusion up to tol", "statement": "For a non-empty bounded P1 with at least one inequality or equality, P1.is_included_in(P2) is True exactly when every point of P1 violates each inequality and (two sided) equality of P2 by at most tol; for an empty or (in a facet direction of P2) unbounded P1 the call does not return an answer. For P1 without any, RuntimeError is raised in place of an answer.", "quantifier": "every pair of polyhedra with the same dimension", "why_tests_cant": "all real data", "anchors": ["pympc/geometry/polyhedron.py:Polyhedron.is_included_in"]}
{"id": "C13", "title": "intersection is the set intersection", "statement": "P1.intersection(P2) represents exactly the points in both sets and does not change P1 or P2; different dimensions raise ValueError.", "quantifier": "every pair of polyhedra", "why_tests_cant": "all real data and shapes", "anchors": ["pympc/geometry/polyhedron.py:Polyhedron.intersection"]}
{"id": "C14", "title": "cartesian_product is the set product", "statement": "P1.cartesian_product(P2) contains (x, y) exactly when P1 contains x and P2 contains y, also when either has no inequalities or no equalities.", "quantifier": "every pair of polyhedra, every pair of points", "why_tests_cant": "all real data and shapes", "anchors": ["pympc/geometry/polyhedron.py:Polyhedron.cartesian_product"]}
{"id": "C15", "title": "What empty reports", "statement": "empty is never False for an empty polyhedron, and it is False for every polyhedron that has a point of norm below sqrt(1/tol^2 - 1) with tol = 1e-7.", "quantifier": "every polyhedron with at least one inequality or equality (RuntimeError otherwise)", "why_tests_cant": "quantifies over all real polyhedra", "anchors": ["pympc/geometry/polyhedron.py:Polyhedron.empty", "pympc/optimization/solvers/pnnls.py:quadratic_program"]}
{"id": "C16", "title": "empty is True exactly for the empty set", "statement": "empty is True if and only if the polyhedron has no point. (Violated by non-empty polyhedra far from the origin.)", "quantifier": "every polyhedron with at least one inequality or equality", "why_tests_cant": "needs polyhedra at distance above 1e7", "anchors": ["pympc/geometry/polyhedron.py:Polyhedron.empty"]}
{"id": "C17", "title": "bounded decides boundedness", "statement": "For a polyhedron that is not reported empty, bounded is True exactly when the set is bounded (Stiemke alternative), provided infeasible auxiliary LPs are recognised as such. (The last proviso fails for badly scaled data.) Without any inequality or equality RuntimeError is raised, and in dimension zero ValueError.", "quantifier": "every polyhedron", "why_tests_cant": "needs a theorem of the alternative for all matrices", "anchors": ["pympc/geometry/polyhedron.py:Polyhedron.bounded"]}
{"id": "C18", "title": "Chebyshev radius and center", "statement": "If radius is a number r and center c: for r >= 0 the ball of radius r about c lies in the polyhedron (relative to the equalities) and no larger ball does; r < 0 implies that the set is empty.", "quantifier": "every polyhedron", "why_tests_cant": "all balls, all centers", "anchors": ["pympc/geometry/polyhedron.py:Polyhedron._chebyshev", "pympc/geometry/polyhedron.py:Polyhedron.radius", "pympc/geometry/polyhedron.py:Polyhedron.center"]}
{"id": "C19", "title": "Eliminating the equalities is a bijection", "statement": "With independent equalities the change of variables used by center, vertices and minimal_facets is one to one between {n | E n <= f} and the polyhedron; dependent equalities or a trivial nullspace raise ValueError.", "quantifier": "every polyhedron with equalities", "why_tests_cant": "all real matrices and every orthonormal basis", "anchors": ["pympc/geometry/polyhedron.py:Polyhedron._remove_equalities", "pympc/geometry/utils.py:nullspace_basis"]}
{"id": "C20", "title": "Cached answers are never stale", "statement": "In every history of additions, redundancy removals and queries (empty, bounded, radius, center) each query answers what a freshly built polyhedron with the current inequalities and equalities would answer. (Also violated: after the only inequality was removed the cached answer of empty is False, whereas a fresh polyhedron raises RuntimeError.)", "quantifier": "every finite history of operations", "why_tests_cant": "unbounded histories", "anchors": ["pympc/geometry/polyhedron.py:Polyhedron._delete_attributes", "pympc/geometry/polyhedron.py:Polyhedron.empty", "pympc/geometry/polyhedron.py:Polyhedron.bounded", "pympc/geometry/polyhedron.py:Polyhedron.radius"]}
{"id": "C21", "title": "vertices of an interval", "statement": "For a bounded one dimensional polyhedron with positive radius vertices are its two end points.", "quantifier": "every one dimensional polytope, every redundant description", "why_tests_cant": "all descriptions of an interval", "anchors": ["pympc/geometry/polyhedron.py:Polyhedron.vertices"]}
{"id": "C22", "title": "Orthogonal projection", "statement": "Every point of the polytope returned by project_to is the projection of a point of the original polytope, and when the expansion loop stops every projected point violates the returned inequalities by at most tol; for one residual dimension the result is exact.", "quantifier": "every polytope and set of residual dimensions, every run of the expansion loop", "why_tests_cant": "loop of unbounded length; all polytopes", "anchors": ["pympc/geometry/polyhedron.py:Polyhedron.project_to", "pympc/geometry/polyhedron.py:convex_hull_method", "pympc/geometry/polyhedron.py:_expand_simplex"]}
{"id": "C23", "title": "Objects do not share mutable data", "statement": "normalize() on a polyhedron does not change any other polyhedron or any array of the caller. (Violated: constructor and copy share arrays and normalize writes in place.)", "quantifier": "every heap of arrays and objects", "why_tests_cant": "needs aliasing between objects", "anchors": ["pympc/geometry/polyhedron.py:Polyhedron.__init__", "pympc/geometry/polyhedron.py:Polyhedron.normalize"]}
{"id": "C24", "title": "nullspace_basis", "statement": "The columns of nullspace_basis(A) are orthonormal, there are n - rank(A) of them and they span exactly {x | A x = 0}.", "quantifier": "every matrix with at least one entry (ValueError otherwise)", "why_tests_cant": "all real matrices", "anchors": ["pympc/geometry/utils.py:nullspace_basis"]}
{"id": "C25", "title": "linearly_independent_rows", "statement": "The rows selected by linearly_independent_rows are linearly independent, and they are a maximal such set. (Independence holds, with a distance larger than tol from every combination of the preceding rows; maximality is violated when a dependent row precedes an independent one.)", "quantifier": "every matrix", "why_tests_cant": "all real matrices and every QR factorization", "anchors": ["pympc/geometry/utils.py:linearly_independent_rows"]}
{"id": "C26", "title": "plane_through_points", "statement": "plane_through_points returns (a, d) with a unit norm, d >= 0 and a . p = d for every given point, whatever the random offset, whenever it returns.", "quantifier": "every set of n points in R^n, every random offset", "why_tests_cant": "random offsets and all points", "anchors": ["pympc/geometry/utils.py:plane_through_points"]}
{"id": "C27", "title": "same_rows and same_vectors are sound", "statement": "If same_rows(A, B, normalize=False) or same_vectors is True there is a one to one matching of the rows of A with the rows of B under which matched rows agree within the allclose tolerances, in particular have the same size. (Violated by rows with a single entry, which numpy broadcasts.)", "quantifier": "every pair of matrices", "why_tests_cant": "all matrices, all orders", "anchors": ["pympc/geometry/utils.py:same_rows", "pympc/geometry/utils.py:same_vectors"]}
{"id": "C28", "title": "same_rows recognises permutations", "statement": "same_rows(A, B) is True whenever B is a row permutation of A. (Violated with repeated rows.)", "quantifier": "every matrix and permutation", "why_tests_cant": "needs duplicates", "anchors": ["pympc/geometry/utils.py:same_rows"]}
{"id": "C29", "title": "pnnls solves partial nonnegative least squares", "statement": "pnnls(A, B, c) returns v >= 0 and u that minimize ||A v + B u - c|| over all v >= 0 and u, and r is that minimal norm. Without any nonnegative unknown RuntimeError is raised.", "quantifier": "every A, B, c, every competitor (v, u)", "why_tests_cant": "all real data and all competitors", "anchors": ["pympc/optimization/solvers/pnnls.py:pnnls"]}
{"id": "C30", "title": "The LP solver finds the optimum whenever there is one", "statement": "If min f x s.t. A x <= b, C x = d has an optimal solution, linear_program returns one: argmin is feasible and optimal, min is the optimal value and the multipliers satisfy the KKT conditions.", "quantifier": "every LP with at least one inequality or equality", "why_tests_cant": "strong duality over all LPs", "anchors": ["pympc/optimization/solvers/pnnls.py:linear_program", "pympc/optimization/programs.py:linear_program"]}
{"id": "C31", "title": "LP: no answer only if there is no optimum", "statement": "If linear_program returns min = None then the LP is infeasible or unbounded.", "quantifier": "every LP with at least one inequality or equality (RuntimeError otherwise)", "why_tests_cant": "all LPs", "anchors": ["pympc/optimization/solvers/pnnls.py:linear_program"]}
{"id": "C32", "title": "LP: an answer certifies an optimum", "statement": "If linear_program returns a number then the LP has an optimal solution. (Violated: residuals below 1e-7 are accepted; what holds is that the KKT conditions hold within tol.)", "quantifier": "every LP", "why_tests_cant": "needs LPs infeasible by less than the tolerance", "anchors": ["pympc/optimization/solvers/pnnls.py:linear_program"]}
{"id": "C33", "title": "LP active set", "statement": "active_set only contains inequalities tight at argmin with positive multiplier; the documentation says it is the set of all tight inequalities. (The second part is violated by degenerate problems.)", "quantifier": "every LP with an optimum", "why_tests_cant": "degenerate optima", "anchors": ["pympc/optimization/solvers/pnnls.py:linear_program"]}
{"id": "C34", "title": "QP: an answer is the unique optimum", "statement": "If quadratic_program (H positive definite) returns a number, argmin is the unique minimizer of the QP, min its value and the multipliers satisfy the KKT conditions.", "quantifier": "every strictly convex QP, every competitor", "why_tests_cant": "all QPs and competitors", "anchors": ["pympc/optimization/solvers/pnnls.py:quadratic_program"]}
{"id": "C35", "title": "QP: when no answer is given", "statement": "quadratic_program returns None exactly when the QP is infeasible or its optimum is at least sqrt(1/tol^2 - 1) away (in the norm of H) from the unconstrained optimum.", "quantifier": "every strictly convex QP with at least one inequality or equality (RuntimeError otherwise)", "why_tests_cant": "all QPs", "anchors": ["pympc/optimization/solvers/pnnls.py:quadratic_program"]}
{"id": "C36", "title": "Solver dispatch", "statement": "linear_program, quadratic_program and mixed_integer_quadratic_program call exactly the requested solver with the arguments in order, raise ValueError for unknown names, and fail with NameError for drake, whose import is disabled.", "quantifier": "every argument list and solver name", "why_tests_cant": "all strings", "anchors": ["pympc/optimization/programs.py:linear_program", "pympc/optimization/programs.py:quadratic_program", "pympc/optimization/programs.py:mixed_integer_quadratic_program"]}
{"id": "C37", "title": "The Gurobi model is the stated program", "statement": "The program built for Gurobi has exactly the feasible points and the cost of the stated program. (Violated when data contain non-zero entries of magnitude at most 1e-9, which are dropped.)", "quantifier": "every program, every point", "why_tests_cant": "needs tiny coefficients; Gurobi is not available in tests", "anchors": ["pympc/optimization/solvers/gurobi.py:_build_model", "pympc/optimization/solvers/gurobi.py:linear_expression", "pympc/optimization/solvers/gurobi.py:quadratic_expression"]}
{"id": "C38", "title": "Solvers agree", "statement": "On every strictly convex QP for which both answer, the pnnls and the Gurobi backends return the same min and argmin.", "quantifier": "every QP", "why_tests_cant": "all QPs", "anchors": ["pympc/optimization/solvers/pnnls.py:quadratic_program", "pympc/optimization/solvers/gurobi.py:quadratic_program"]}
{"id": "C39", "title": "drake backend multipliers", "statement": "Given an exact optimizer with independent active constraints, the multipliers returned by the drake quadratic_program satisfy the KKT conditions.", "quantifier": "every QP", "why_tests_cant": "backend is not installed; all QPs", "anchors": ["pympc/optimization/solvers/drake.py:quadratic_program"]}
{"id": "C40", "title": "Critical regions are optimal", "statement": "For x in the critical region returned by explicit_solve_given_active_set, u(x) is the unique optimizer of the mpQP at x and p(x) are KKT multipliers.", "quantifier": "every mpQP, active set and parameter x", "why_tests_cant": "all x in a polyhedral region", "anchors": ["pympc/optimization/parametric_programs.py:MultiParametricQuadraticProgram.explicit_solve_given_active_set", "pympc/optimization/parametric_programs.py:CriticalRegion"]}
{"id": "C41", "title": "Explicit value function", "statement": "V(x) of a critical region equals the cost of the mpQP at (u(x), x) for every x, hence the optimal value inside the region.", "quantifier": "every mpQP, active set and parameter x", "why_tests_cant": "polynomial identity over all reals", "anchors": ["pympc/optimization/parametric_programs.py:CriticalRegion.V", "pympc/optimization/parametric_programs.py:MultiParametricQuadraticProgram.explicit_solve_given_active_set"]}
{"id": "C42", "title": "Explicit lookup agrees with online optimization", "statement": "If ExplicitSolution finds a region that contains x, then u(x), V(x) equal argmin and min of solve(x); u, p, V are None exactly when no region contains x, and always refer to the same (first) region.", "quantifier": "every list of regions, every x", "why_tests_cant": "all parameters", "anchors": ["pympc/optimization/parametric_programs.py:ExplicitSolution", "pympc/optimization/parametric_programs.py:MultiParametricQuadraticProgram.solve"]}
{"id": "C43", "title": "explicit_solve only stores optimal regions", "statement": "Whatever points are explored and in whatever order, every region in the result of explicit_solve comes from an active set of the mpQP, hence gives optimal u and V; points covered by a stored region are never solved again.", "quantifier": "every run of the exploration loop", "why_tests_cant": "loop of unbounded length", "anchors": ["pympc/optimization/parametric_programs.py:MultiParametricQuadraticProgram.explicit_solve"]}
{"id": "C44", "title": "explicit_solve_given_point", "statement": "A region returned by explicit_solve_given_point from a correct guess contains x; a wrong guess never changes the optimizer; None is returned only when the QP at x has no answer or its active set is degenerate.", "quantifier": "every x, every guess, every mpQP with at least one variable and one inequality", "why_tests_cant": "all guesses", "anchors": ["pympc/optimization/parametric_programs.py:MultiParametricQuadraticProgram.explicit_solve_given_point"]}
{"id": "C45", "title": "mpQP point solve", "statement": "solve(x) returns exactly the optimal value and optimizer of 1/2 (u,x) H (u,x) + f (u,x) + g s.t. Au u + Ax x <= b for fixed x. Without any inequality RuntimeError is raised.", "quantifier": "every mpQP and x", "why_tests_cant": "all real data", "anchors": ["pympc/optimization/parametric_programs.py:MultiParametricQuadraticProgram.solve"]}
{"id": "C46", "title": "Feasible set", "statement": "Every x in get_feasible_set has a feasible u, and every x with a feasible u is in it up to tol.", "quantifier": "every mpQP with bounded constraints", "why_tests_cant": "all x", "anchors": ["pympc/optimization/parametric_programs.py:MultiParametricQuadraticProgram.get_feasible_set"]}
{"id": "C47", "title": "Shape validation of systems", "statement": "check_affine_system accepts exactly square A, B with as many rows, one dimensional c of the same size and h >= 0, and raises ValueError otherwise.", "quantifier": "every A, B, c, h", "why_tests_cant": "all shapes", "anchors": ["pympc/dynamics/utils.py:check_affine_system"]}
{"id": "C48", "title": "explicit_euler", "statement": "The discretized system maps (x, u) to x + h (A x + B u + c).", "quantifier": "every A, B, c, h, x, u", "why_tests_cant": "all real data", "anchors": ["pympc/dynamics/discretization_methods.py:explicit_euler"]}
{"id": "C49", "title": "zero_order_hold is exact", "statement": "A_d x0 + B_d u + c_d is the value at time h of the unique solution of dx/dt = A x + B u + c with x(0) = x0 and constant u; discretizing with h1 and then h2 equals discretizing with h1 + h2.", "quantifier": "every A, B, c, h >= 0, x0, u", "why_tests_cant": "matrix exponential for all reals", "anchors": ["pympc/dynamics/discretization_methods.py:zero_order_hold"]}
{"id": "C50", "title": "Simulation", "statement": "simulate and simulate_closed_loop return N+1 states that start at x0 and satisfy the recursion of the system at every step.", "quantifier": "every system, horizon, input sequence", "why_tests_cant": "unbounded horizon", "anchors": ["pympc/dynamics/discrete_time_systems.py:LinearSystem.simulate", "pympc/dynamics/discrete_time_systems.py:LinearSystem.simulate_closed_loop", "pympc/dynamics/discrete_time_systems.py:AffineSystem.simulate"]}
{"id": "C51", "title": "Condensed dynamics equal simulation", "statement": "For every mode sequence of length N >= 1, A_bar x0 + B_bar u_bar + c_bar is the stacked trajectory of the system; N = 0 raises ValueError.", "quantifier": "every PWA/affine/linear system, mode sequence, x0, inputs", "why_tests_cant": "unbounded horizon and mode sequences", "anchors": ["pympc/dynamics/discrete_time_systems.py:condense_pwa_system", "pympc/dynamics/discrete_time_systems.py:productory", "pympc/dynamics/discrete_time_systems.py:LinearSystem.condense", "pympc/dynamics/discrete_time_systems.py:AffineSystem.condense"]}
{"id": "C52", "title": "controllable means reachable", "statement": "controllable is True exactly when every state can be steered to every other state in nx steps, and then in any longer number of steps.", "quantifier": "every (A, B) with at least one state and one input (ValueError otherwise)", "why_tests_cant": "all states and systems", "anchors": ["pympc/dynamics/discrete_time_systems.py:LinearSystem.controllable"]}
{"id": "C53", "title": "solve_dare returns the LQR", "statement": "With P solving the Riccati equation, K is optimal: for every horizon and input sequence, cost plus 1/2 x_N P x_N is at least 1/2 x0 P x0, with equality exactly for u = K x; uncontrollable systems raise ValueError.", "quantifier": "every controllable system with at least one input, horizon, input sequence", "why_tests_cant": "all input sequences of any length", "anchors": ["pympc/dynamics/discrete_time_systems.py:LinearSystem.solve_dare"]}
{"id": "C54", "title": "mcais is the maximal constraint admissible set", "statement": "When mcais returns before redundancy removal errors, x is in O_inf exactly when A^t x is in X for all t >= 0.", "quantifier": "every A and X without equalities, every x, every t; at least one state", "why_tests_cant": "infinite time", "anchors": ["pympc/dynamics/discrete_time_systems.py:mcais"]}
{"id": "C55", "title": "mcais is invariant", "statement": "x in O_inf implies A x in O_inf and x in X; LinearSystem.mcais(K, D) contains exactly the x with (x(t), K x(t)) in D forever in closed loop.", "quantifier": "every A, X, x; at least one state", "why_tests_cant": "infinite time", "anchors": ["pympc/dynamics/discrete_time_systems.py:mcais", "pympc/dynamics/discrete_time_systems.py:LinearSystem.mcais"]}
{"id": "C56", "title": "mcais terminates for asymptotically stable systems", "statement": "If A^t tends to zero, X is bounded and contains the origin in its interior, the loop of mcais stops after finitely many iterations.", "quantifier": "every such A, X; at least one state", "why_tests_cant": "termination", "anchors": ["pympc/dynamics/discrete_time_systems.py:mcais"]}
{"id": "C57", "title": "The guards of mcais ensure termination", "statement": "If none of the three checks of mcais raises, the loop stops. (Violated by marginally stable systems, and by stable systems with the origin on the boundary of X.)", "quantifier": "every A, X that passes the checks", "why_tests_cant": "non-termination cannot be observed by a test", "anchors": ["pympc/dynamics/discrete_time_systems.py:mcais"]}
{"id": "C58", "title": "PieceWiseAffineSystem validation", "statement": "The constructor accepts exactly non-empty lists of equally many systems and domains with common nx, nu and domains of dimension nx + nu; linear systems become affine with zero offset.", "quantifier": "every list of systems and domains", "why_tests_cant": "all lists", "anchors": ["pympc/dynamics/discrete_time_systems.py:PieceWiseAffineSystem.__init__"]}
{"id": "C59", "title": "PWA simulation", "statement": "simulate returns a mode sequence in which each mode is the first whose domain contains (x(t), u(t)) and the states follow these modes; it raises ValueError exactly when some (x(t), u(t)) is in no domain; the result agrees with condense(mode_sequence).", "quantifier": "every PWA system, x0, input sequence", "why_tests_cant": "unbounded histories", "anchors": ["pympc/dynamics/discrete_time_systems.py:PieceWiseAffineSystem.simulate", "pympc/dynamics/discrete_time_systems.py:PieceWiseAffineSystem.get_mode"]}
{"id": "C60", "title": "is_well_posed", "statement": "True implies that no ball of radius above tol lies in two different domains; False implies that two different domains share a ball of radius above tol.", "quantifier": "every PWA system", "why_tests_cant": "all pairs and all balls", "anchors": ["pympc/dynamics/discrete_time_systems.py:PieceWiseAffineSystem.is_well_posed"]}
{"id": "C61", "title": "Symbolic affine expressions", "statement": "For affine symbolic expressions, the extracted matrices reproduce the expression at every point: from_symbolic represents expr(x) <= 0, eq(x) = 0, and the extracted A, B, c give x_next for all (x, u).", "quantifier": "every affine expression tree, every point", "why_tests_cant": "all expressions", "anchors": ["pympc/geometry/polyhedron.py:get_matrices_affine_expression", "pympc/dynamics/discrete_time_systems.py:get_state_transition_matrices"]}
{"id": "C62", "title": "Condensed constraints", "statement": "u satisfies Au u + Ax x0 <= b of the condensed program exactly when the trajectory from x0 under u satisfies the inequalities of the domains at all t < N and of the terminal set at N.", "quantifier": "every PWA system, mode sequence, x0, u", "why_tests_cant": "unbounded horizon", "anchors": ["pympc/control/controllers.py:condense_optimal_control_problem"]}
{"id": "C63", "title": "Condensed cost", "statement": "The cost of the condensed program at (u, x0) is 1/2 sum x Q x + u R u + 1/2 x_N P x_N along the trajectory, for symmetric Q, P.", "quantifier": "every PWA system, weights, mode sequence, x0, u", "why_tests_cant": "unbounded horizon", "anchors": ["pympc/control/controllers.py:condense_optimal_control_problem"]}
{"id": "C64", "title": "MPC feedforward is optimal", "statement": "feedforward(x) returns inputs whose trajectory is feasible and has the least cost among all feasible input sequences, with V its cost; (None, None) whenever no input sequence is feasible. (Violated: no answer if the optimum is about 1e7 away from the unconstrained one, and RuntimeError if there is no inequality.)", "quantifier": "every linear MPC problem, x, competitor", "why_tests_cant": "all competitors", "anchors": ["pympc/control/controllers.py:ModelPredictiveController.feedforward"]}
{"id": "C65", "title": "feedback is the first feedforward input", "statement": "feedback(x) (feedback_explicit, and for the hybrid controller) is the first input of feedforward(x), and None exactly when feedforward has none.", "quantifier": "every controller and state", "why_tests_cant": "all states", "anchors": ["pympc/control/controllers.py:ModelPredictiveController.feedback", "pympc/control/controllers.py:ModelPredictiveController.feedback_explicit", "pympc/control/controllers.py:HybridModelPredictiveController.feedback"]}
{"id": "C66", "title": "Explicit MPC equals implicit MPC", "statement": "Whenever the stored regions contain x, feedforward_explicit(x) equals feedforward(x); without a stored solution it raises ValueError.", "quantifier": "every controller, x", "why_tests_cant": "all states", "anchors": ["pympc/control/controllers.py:ModelPredictiveController.feedforward_explicit"]}
{"id": "C67", "title": "MPC equals LQR in the terminal set", "statement": "With P, K from the Riccati equation and X_N the admissible invariant set, for x in X_N feedforward(x) is the LQR sequence and V = 1/2 x P x.", "quantifier": "every controller, x in X_N", "why_tests_cant": "all states", "anchors": ["pympc/control/controllers.py:ModelPredictiveController.feedforward", "pympc/dynamics/discrete_time_systems.py:LinearSystem.solve_dare"]}
{"id": "C68", "title": "Closed loop MPC is recursively feasible", "statement": "If the MPC problem is feasible at x(0) then it is feasible at every state of the closed loop and (x(t), u(t)) satisfies D for all t.", "quantifier": "every closed-loop history", "why_tests_cant": "infinite time", "anchors": ["pympc/control/controllers.py:ModelPredictiveController.feedback"]}
{"id": "C69", "title": "Closed loop MPC decreases the value function", "statement": "Along the closed loop V(x(t+1)) <= V(x(t)) - stage cost, so the sum of the stage costs is at most V(x(0)).", "quantifier": "every closed-loop history", "why_tests_cant": "infinite time", "anchors": ["pympc/control/controllers.py:ModelPredictiveController.feedforward"]}
{"id": "C70", "title": "big-M constants are valid and tight", "statement": "alpha_ij, beta_ij, gamma_ij are the exact component-wise extrema of the i-th dynamics / constraints over the j-th domain.", "quantifier": "every PWA system with bounded non-empty domains", "why_tests_cant": "all points of the domains", "anchors": ["pympc/control/controllers.py:HybridModelPredictiveController._get_bigM_dynamics", "pympc/control/controllers.py:HybridModelPredictiveController._get_bigM_domains"]}
{"id": "C71", "title": "Hybrid MIQP is sound", "statement": "Every feasible point of the condensed MIQP with binary d gives a mode sequence and a trajectory of the PWA system under it that satisfies the domain and terminal inequalities, and the MIQP cost is the trajectory cost.", "quantifier": "every PWA system, horizon, feasible point", "why_tests_cant": "all points, unbounded horizon", "anchors": ["pympc/control/controllers.py:HybridModelPredictiveController._condense_program", "pympc/control/controllers.py:HybridModelPredictiveController._build_inequalities"]}
{"id": "C72", "title": "Hybrid MIQP is complete", "statement": "Every PWA trajectory that satisfies domains and terminal set is represented by a feasible point of the MIQP with the same cost; so the MIQP optimum is the optimum over all mode sequences.", "quantifier": "every PWA trajectory", "why_tests_cant": "all trajectories", "anchors": ["pympc/control/controllers.py:HybridModelPredictiveController._condense_program"]}
{"id": "C73", "title": "Hybrid feedforward output is consistent", "statement": "The returned inputs, states and modes are a trajectory from x of the PWA system under the returned modes and the value is its cost; four Nones when infeasible.", "quantifier": "every hybrid controller and state", "why_tests_cant": "all states", "anchors": ["pympc/control/controllers.py:HybridModelPredictiveController.feedforward"]}
{"id": "C74", "title": "Hybrid optimum equals the mpQP of its mode sequence", "statement": "Solving get_mpqp(mode_sequence) for the optimal mode sequence returned by feedforward gives the same value.", "quantifier": "every hybrid controller and state", "why_tests_cant": "all states", "anchors": ["pympc/control/controllers.py:HybridModelPredictiveController.get_mpqp"]}
{"id": "C75", "title": "Controllers honour equality constraints", "statement": "Equalities of D, of the domains and of X_N hold along the optimal trajectories and in mcais. (Violated: they are ignored.)", "quantifier": "every problem with equalities", "why_tests_cant": "tests only use inequalities", "anchors": ["pympc/control/controllers.py:condense_optimal_control_problem", "pympc/dynamics/discrete_time_systems.py:mcais", "pympc/dynamics/discrete_time_systems.py:LinearSystem.mcais"]}
{"id": "C76", "title": "Graph big-M formulation of the drake example", "statement": "(x, u, x+) with binary d satisfies the constraints of the example controller exactly when (x,u) is in the selected domain, x+ is the selected dynamics and (x,u,x+) satisfies them.", "quantifier": "every PWA system with bounded domains", "why_tests_cant": "all points", "anchors": ["examples/pwa_from_urdf/utils.py:graph_representation", "examples/pwa_from_urdf/utils.py:big_m", "examples/pwa_from_urdf/utils.py:HybridModelPredictiveController.build_mpmiqp"]}
{"id": "C77", "title": "Voronoi partition", "statement": "Cell i of constrained_voronoi contains exactly the points of X that are closest to point i. (In one dimension cells are returned for the sorted points: violated for unsorted input.)", "quantifier": "every list of distinct points, every x", "why_tests_cant": "all points", "anchors": ["examples/pwa_from_urdf/utils.py:_voronoi_1d", "examples/pwa_from_urdf/utils.py:_voronoi_nd", "examples/pwa_from_urdf/utils.py:constrained_voronoi"]}
{"id": "C78", "title": "The example Controller uses its terminal cost", "statement": "Controller(S, N, Q, R, P, X_N) minimizes with terminal cost P. (Violated: Q is passed instead.)", "quantifier": "every argument list", "why_tests_cant": "needs P different from Q", "anchors": ["examples/pwa_from_urdf/utils.py:Controller.__init__"]}
{"id": "C79", "title": "Gurobi backend is exact on data without tiny entries", "statement": "If no data entry is nonzero with magnitude at most 1e-9, linear_program and quadratic_program of the Gurobi backend answer exactly when an optimum exists, and return an optimum, its value, and multipliers satisfying the KKT conditions.", "quantifier": "every program with a symmetric Hessian, every optimizer meeting the contract", "why_tests_cant": "all programs; Gurobi is not available in tests", "anchors": ["pympc/optimization/solvers/gurobi.py:linear_program", "pympc/optimization/solvers/gurobi.py:quadratic_program", "pympc/optimization/solvers/gurobi.py:_reorganize_solution"]}
{"id": "C80", "title": "Mixed-integer programs", "statement": "If no data entry is nonzero with magnitude at most 1e-9, mixed_integer_quadratic_program answers exactly when there is an optimum among the feasible points whose coordinates from nc on are binary, and returns such an optimum and its value.", "quantifier": "every program, every nc, every optimizer meeting the contract", "why_tests_cant": "all programs; Gurobi is not available in tests", "anchors": ["pympc/optimization/solvers/gurobi.py:mixed_integer_quadratic_program"]}
{"id": "C81", "title": "drake backend multipliers of linear programs", "statement": "Given an optimal solution with independent active constraints and no inactive constraint within tol of being active, linear_program of the drake backend returns multipliers satisfying the KKT conditions and the set of tight inequalities.", "quantifier": "every LP", "why_tests_cant": "backend is not installed; all LPs", "anchors": ["pympc/optimization/solvers/drake.py:linear_program"]}
{"id": "C82", "title": "same_rows with normalization is sound", "statement": "If same_rows(A, B) with the default normalization is True and the rows of both matrices have entries, the matrices have the same shape (or no rows), no row of either matrix vanishes and there is a one to one matching of the rows under which the rows divided by their norms agree within the allclose tolerances.", "quantifier": "every pair of matrices", "why_tests_cant": "all matrices, all orders, and rows of norm zero", "anchors": ["pympc/geometry/utils.py:same_rows"]}
{"id": "C83", "title": "from_continuous", "statement": "from_continuous of AffineSystem and LinearSystem builds the discrete-time system whose matrices are those of the requested discretization (explicit Euler or zero-order hold), and any other method name raises ValueError.", "quantifier": "every continuous system, every step and every method", "why_tests_cant": "tests use one system and one step", "anchors": ["pympc/dynamics/discrete_time_systems.py:LinearSystem.from_continuous", "pympc/dynamics/discrete_time_systems.py:AffineSystem.from_continuous"]}
{"id": "C84", "title": "explicit_solve terminates and stores each active set at most once", "statement": "For every strictly convex mpQP with finitely many constraints the search loop of explicit_solve ends, and no two regions in the result have the same active set.", "quantifier": "all mpQPs with at least one variable and one inequality, all step sizes, all orders of exploration", "why_tests_cant": "Non-termination needs a multiplier between 0 and the threshold 1e-7 at a point beyond a facet whose guess is wrong; random tests are unlikely to hit it and a test that hangs proves nothing about the others.", "anchors": ["pympc/optimization/parametric_programs.py:209-237"]}
{"id": "C85", "title": "mpMIQP solve returns the minimum of the mixed-integer program", "statement": "MultiParametricMixedIntegerQuadraticProgram.solve(x) returns a minimizer (u, z, d) with binary d of the program at x and its minimum including the term 1/2 x'Hxx x, and None values exactly when there is no minimum. (Violated for coefficients of magnitude at most 1e-9, which Gurobi never sees.)", "quantifier": "every program with consistent sizes, every parameter", "why_tests_cant": "all programs and all parameters; optimality over a continuum of points", "anchors": ["pympc/optimization/parametric_programs.py:MultiParametricMixedIntegerQuadraticProgram.solve"]}
{"id": "C86", "title": "Vertices of a polytope", "statement": "vertices of a nonempty bounded polyhedron of dimension at least two (positive radius, or equalities with a full dimensional relative interior of dimension at least two) are exactly its extreme points.", "quantifier": "every polytope, every redundant description, every cache state reachable from the constructor", "why_tests_cant": "all polytopes; extreme points quantify over all points of the set", "anchors": ["pympc/geometry/polyhedron.py:Polyhedron.vertices", "pympc/geometry/polyhedron.py:Polyhedron.get_vertices"]}
{"id": "C87", "title": "Polyhedron from a convex hull", "statement": "from_convex_hull(points) is a polyhedron whose points are exactly the convex combinations of the given points.", "quantifier": "every list of points with full dimensional hull in dimension two or more (ValueError in dimension one), every point of the space", "why_tests_cant": "all lists of points and all convex combinations", "anchors": ["pympc/geometry/polyhedron.py:Polyhedron.from_convex_hull"]}
{"id": "C88", "title": "project_to refuses what it cannot project", "statement": "project_to raises ValueError for empty polyhedra, unbounded polyhedra and polyhedra with equalities, and leaves the rows of the polyhedron unchanged. Without any inequality or equality RuntimeError is raised.", "quantifier": "every polyhedron, every list of residual dimensions", "why_tests_cant": "all polyhedra", "anchors": ["pympc/geometry/polyhedron.py:Polyhedron.project_to"]}
{"id": "C89", "title": "No vertices for unbounded or empty polyhedra", "statement": "vertices is None for unbounded polyhedra and for empty polyhedra. (Without any inequality or equality RuntimeError is raised.)", "quantifier": "every unbounded or empty polyhedron in H-representation", "why_tests_cant": "all descriptions of the empty set and of unbounded sets", "anchors": ["pympc/geometry/polyhedron.py:Polyhedron.vertices"]}
{"id": "C90", "title": "Adding symbolic constraints", "statement": "add_symbolic_inequality(x, expr) and add_symbolic_equality(x, expr) with one distinct symbol per variable add exactly expr <= 0 and expr = 0 whenever they return; they return for all affine expressions; otherwise they raise TypeError and leave the polyhedron unchanged.", "quantifier": "every polyhedron, every list of expressions (affine or not), every point", "why_tests_cant": "all expressions and points", "anchors": ["pympc/geometry/polyhedron.py:add_symbolic_inequality", "pympc/geometry/polyhedron.py:add_symbolic_equality"]}
{"id": "C91", "title": "Systems from symbolic difference equations", "statement": "The one-step map of the system returned by AffineSystem.from_symbolic and LinearSystem.from_symbolic equals the symbolic expressions at every state and input; LinearSystem.from_symbolic raises ValueError for expressions with an offset.", "quantifier": "every list of expressions, every state and input", "why_tests_cant": "the offset test uses allclose and lets small offsets through", "anchors": ["pympc/dynamics/discrete_time_systems.py:AffineSystem.from_symbolic", "pympc/dynamics/discrete_time_systems.py:LinearSystem.from_symbolic"]}
{"id": "C92", "title": "Systems from symbolic differential equations", "statement": "from_symbolic_continuous with zero-order hold returns a system whose step is the solution at time h of the symbolic differential equation with constant input (which exists and is unique), with explicit Euler x + h f(x, u); other methods raise ValueError.", "quantifier": "every list of affine expressions, every h >= 0, every initial state and input", "why_tests_cant": "tests compare single matrices", "anchors": ["pympc/dynamics/discrete_time_systems.py:AffineSystem.from_symbolic_continuous", "pympc/dynamics/discrete_time_systems.py:LinearSystem.from_symbolic_continuous"]}
{"id": "C93", "title": "Answers of the drake example controller", "statement": "feedforward(x0) of the example controller returns four None exactly when no mode sequence and inputs satisfy the domains and the terminal set; otherwise it returns modes, inputs and states that form a trajectory of the system through the domains of the returned modes, with the returned value as cost, and no admissible trajectory costs less.", "quantifier": "every PWA system with at least two modes and bounded satisfiable domains with at least one inequality each whose big-M constants are not rounded, every horizon, positive semidefinite Q and P, positive definite R, every terminal set, every x0", "why_tests_cant": "the solver's answers are needed for all states", "anchors": ["examples/pwa_from_urdf/utils.py:HybridModelPredictiveController.feedforward", "examples/pwa_from_urdf/utils.py:HybridModelPredictiveController.build_mpmiqp"]}
{"id": "C94", "title": "The drake example controller has no memory", "statement": "After any sequence of calls to feedforward and feedback (with any arguments, including calls that raised), a call with a state of at least nx entries gives the answer of a new controller; with fewer entries it raises.", "quantifier": "every controller, every sequence of calls, every state", "why_tests_cant": "all call sequences, including failed ones that leave part of the bounds updated", "anchors": ["examples/pwa_from_urdf/utils.py:HybridModelPredictiveController.set_initial_condition", "examples/pwa_from_urdf/utils.py:HybridModelPredictiveController.feedforward", "examples/pwa_from_urdf/utils.py:HybridModelPredictiveController.feedback"]}
{"id": "C96", "title": "One mode is rejected by the drake example controller", "statement": "For a PWA system with a single mode the constructor of the example controller raises IndexError: the sum over the other modes is a scalar that is indexed.", "quantifier": "every PWA system with one mode and a bounded satisfiable domain, every horizon and cost", "why_tests_cant": "the example has several modes", "anchors": ["examples/pwa_from_urdf/utils.py:HybridModelPredictiveController.build_mpmiqp"]}
{"id": "C95", "title": "Piecewise affine approximation of a plant", "statement": "pwa_from_RigidBodyPlant returns one mode per linearization point; the domain of mode i is the set of states of X closest to point i times U, and its dynamics is the discretization of the first order approximation of the plant at point i. (Violated for points not sorted along the only coordinate that varies: domains belong to the sorted points, dynamics to the given ones.)", "quantifier": "every plant with one input and differentiable field, every list of distinct points, every X, U and step", "why_tests_cant": "all fields, states and inputs; the example only uses sorted points", "anchors": ["examples/pwa_from_urdf/utils.py:pwa_from_RigidBodyPlant"]}
{"id": "C97", "title": "The closed loop of the linear controller converges", "statement": "With positive definite Q, an admissible invariant terminal set and a terminal cost that decreases by the stage cost in it, the states and inputs of the closed loop with ModelPredictiveController.feedback go to zero, and from each state with an answer of value below about 5e13 the closed loop runs forever (the controller never answers None).", "quantifier": "every linear system, horizon, weights, constraints, initial state; infinite executions", "why_tests_cant": "limit over infinitely many steps, for all systems and initial states", "anchors": ["pympc/control/controllers.py:ModelPredictiveController.feedback", "pympc/control/controllers.py:ModelPredictiveController.feedforward"]}
{"id": "C98", "title": "The feedback of solve_dare stabilizes the system", "statement": "With positive definite Q and R, each trajectory of the system under u = Kx, K returned by solve_dare, goes to the origin, and its cost up to any time is at most 1/2 x0 P x0.", "quantifier": "every linear system and weights for which solve_dare returns, every initial state, infinite trajectories", "why_tests_cant": "limit over infinitely many steps for all systems and initial states", "anchors": ["pympc/dynamics/discrete_time_systems.py:LinearSystem.solve_dare"]}
{"id": "C99", "title": "Design of the notebooks: solve_dare, mcais, controller", "statement": "Let P, K be returned by solve_dare and let D be bounded with the origin inside. Then mcais(K, D) stops with a set X_N that contains every state from which u = Kx is admissible forever, the controller with terminal cost P and terminal set X_N can be constructed, its closed loop satisfies the constraints and goes to the origin, and on X_N its feedback is Kx. (Violated: mcais may remove inequalities that cut off less than 1e-7, so that Kx is not admissible on all of X_N.)", "quantifier": "every controllable system, positive definite weights, bounded constraints, horizon and initial state; infinite executions", "why_tests_cant": "composition of three routines for all systems, infinite horizon", "anchors": ["pympc/dynamics/discrete_time_systems.py:LinearSystem.solve_dare", "pympc/dynamics/discrete_time_systems.py:LinearSystem.mcais", "pympc/control/controllers.py:ModelPredictiveController"]}
{"id": "C100", "title": "Recursive feasibility and cost decrease of the hybrid closed loop", "statement": "Let the piecewise affine system be in closed loop with the hybrid controller, the next state being that of simulate. If the terminal set can be kept invariant in some mode and the first problem is feasible, then at every time the problem is feasible, feedback answers, simulate makes a step and state and input are in the domain of a mode. If moreover the terminal cost decreases by the stage cost, the optimal value decreases by at least the stage cost at every step and the accumulated stage costs are at most the first optimal value. (Violated where domains touch: simulate takes the first mode containing state and input, which is_well_posed allows, and the next state may be one without answer; numbers up to 1e-9 are dropped by the solver interface.)", "quantifier": "every piecewise affine system, horizon, weights, terminal set, initial state, and every finite number of closed-loop steps", "why_tests_cant": "all systems and all executions of a mixed-integer feedback loop, composed from controller, solver interface and simulation", "anchors": ["pympc/control/controllers.py:HybridModelPredictiveController.feedback", "pympc/dynamics/discrete_time_systems.py:PieceWiseAffineSystem.simulate"]}
{"id": "C101", "title": "The hybrid closed loop converges to the origin", "statement": "With positive definite Q and a terminal cost that decreases by the stage cost on the terminal set, the states of the closed loop of a piecewise affine system and the hybrid controller go to the origin, and for every accuracy and every bound on the first optimal value there is a number of steps within which the accuracy is reached. (Violated: states of magnitude up to 1e-9 are invisible to the solver, which answers 0 forever.)", "quantifier": "every piecewise affine system, weights, terminal set, initial state, infinite executions", "why_tests_cant": "limit over infinite executions", "anchors": ["pympc/control/controllers.py:HybridModelPredictiveController.feedback", "pympc/dynamics/discrete_time_systems.py:PieceWiseAffineSystem.simulate", "pympc/optimization/solvers/gurobi.py:linear_expression"]}
{"id": "C102", "title": "Which program MultiParametricMixedIntegerQuadraticProgram.solve solves", "statement": "For arbitrary data and every parameter x of the right size, solve(x) does not raise and solves the program in which the entries of magnitude at most 1e-9 of the arrays, of Hzx x and of b - Ax x are replaced by zero: it answers exactly if that program has a minimum, with a minimizer and the minimum. If the coefficients of the constraints are not tiny, the minimizer satisfies the original constraints up to 1e-9.", "quantifier": "every program of consistent sizes, every parameter", "why_tests_cant": "all data, including the tiny numbers that tests avoid", "anchors": ["pympc/optimization/parametric_programs.py:MultiParametricMixedIntegerQuadraticProgram.solve", "pympc/optimization/solvers/gurobi.py:linear_expression", "pympc/optimization/solvers/gurobi.py:quadratic_expression"]}
{"id": "C103", "title": "explicit_solve steps over every facet of every region it returns", "statement": "Let explicit_solve return a list of critical regions and let inequality i of one of them not be implied, up to 1e-7, by its other inequalities. Then there is a point y where the inequality holds with equality (a point of the region, if the region is bounded or there is only one parameter) such that the search has dealt with x = y + step_size * A_i: a returned region contains x, or the program has no solution there, or the region found at x is among those returned. The active set guessed at x is that of the region with i added or removed. If the step exceeds the tolerance, the region itself does not contain x.", "quantifier": "every program, step size, result of the search, region and facet", "why_tests_cant": "universal over programs and over the facets of all regions", "anchors": ["pympc/optimization/parametric_programs.py:MultiParametricQuadraticProgram.explicit_solve", "pympc/optimization/parametric_programs.py:CriticalRegion.facet_center"]}
{"id": "C104", "title": "drake linear_program returns an optimum exactly if there is one", "statement": "drake.linear_program raises ValueError if exactly one of C, d is given. On data of matching sizes it returns an optimal point with its cost and the list of the inequalities that hold there with less than tol to spare, or five None values exactly if the program has no optimal point.", "quantifier": "every linear program of matching sizes", "why_tests_cant": "all data; drake needs a licence and is not imported by the tests", "anchors": ["pympc/optimization/solvers/drake.py:linear_program"]}
{"id": "C105", "title": "drake quadratic_program returns the optimum of every feasible strictly convex program", "statement": "drake.quadratic_program returns the minimizer and the minimum of every strictly convex quadratic program with a feasible point, and five None values if there is none. (Violated: dependent active constraints make the computation of the multipliers raise LinAlgError.)", "quantifier": "every strictly convex quadratic program of matching sizes", "why_tests_cant": "all data, including degenerate ones", "anchors": ["pympc/optimization/solvers/drake.py:quadratic_program"]}
{"id": "C106", "title": "drake mixed_integer_quadratic_program returns an optimum exactly if there is one", "statement": "drake.mixed_integer_quadratic_program raises ValueError if exactly one of C, d is given. On data of matching sizes with positive semidefinite H it returns a minimizer among the feasible points whose coordinates from nc on are binary, and its cost, or None values exactly if there is no minimizer.", "quantifier": "every convex mixed-integer quadratic program of matching sizes", "why_tests_cant": "all data", "anchors": ["pympc/optimization/solvers/drake.py:mixed_integer_quadratic_program"]}
{"id": "C107", "title": "Multipliers of the drake linear programs", "statement": "At the optimum the multipliers returned by drake.linear_program are nonnegative, vanish on constraints that are not active up to tol, and satisfy the stationarity condition. (Violated: the pseudoinverse may return negative multipliers when the active constraints are dependent.)", "quantifier": "every linear program with an optimum", "why_tests_cant": "all data, including degenerate ones", "anchors": ["pympc/optimization/solvers/drake.py:linear_program"]}
{"id": "C108", "title": "normalize keeps the set for every element type", "statement": "normalize() keeps the set of the polyhedron, whatever the element types of its arrays are. (Violated: quotients stored in arrays of integers are truncated.)", "quantifier": "every polyhedron, every element type of A, b, C, d", "why_tests_cant": "all data; the tests use floating point arrays", "anchors": ["pympc/geometry/polyhedron.py:Polyhedron.normalize"]}
{"id": "C109", "title": "same_rows does not change its arguments", "statement": "After a call of same_rows all the arrays hold what they held before. (Violated: the rows of both arguments are normalized in place.)", "quantifier": "every memory of arrays, arguments possibly the same array", "why_tests_cant": "needs a look at the arguments after the call", "anchors": ["pympc/geometry/utils.py:same_rows"]}
{"id": "C110", "title": "same_rows is right for every element type", "statement": "If same_rows(A, B) is True, the normalized rows of A and B can be matched one to one within the tolerances of allclose, whatever the element types are. (Violated: integer rows are truncated before the comparison.)", "quantifier": "every pair of arrays of floating point numbers or integers", "why_tests_cant": "all data", "anchors": ["pympc/geometry/utils.py:same_rows"]}
{"id": "C111", "title": "plot_state_space_trajectory draws the projected trajectory", "statement": "With two coordinates the plot is the polygonal line through the states projected on these coordinates, with a mark at the initial state, the names of the coordinates on the axes, and (if wanted) the text x(t) at the drawn point of time t; other numbers of coordinates raise ValueError. (Violated: the texts are at the coordinates 0 and 1.)", "quantifier": "every list of states, pair of coordinates, text flag and label", "why_tests_cant": "plots are looked at for single trajectories; the claim is about every point of every picture", "anchors": ["pympc/plot.py:plot_state_space_trajectory"]}
{"id": "C112", "title": "plot_input_sequence draws a zero-order hold of the inputs and the bounds", "statement": "Panel i has a blue line at the value u_k[i] during the whole step from k h to (k+1) h and red lines at the bounds over the whole horizon; with an empty list of bounds there is no red line. (Violated: an empty list of bounds raises NameError.)", "quantifier": "every list of inputs, positive time step, list of bounds, panel and instant", "why_tests_cant": "all instants and inputs", "anchors": ["pympc/plot.py:plot_input_sequence"]}
{"id": "C113", "title": "plot_state_trajectory and plot_output_trajectory interpolate the samples", "statement": "With no bounds or at least one bound, panel i has a blue line through the points (k h, x_k[i]), or (k h, (C x_k)[i]) for outputs, linear in between, and red lines at the bounds over the whole horizon, with the limits of the horizon and the name of the component on the axes.", "quantifier": "every list of at least two states, positive time step, output matrix, list of bounds, panel and instant", "why_tests_cant": "all instants and trajectories", "anchors": ["pympc/plot.py:plot_state_trajectory", "pympc/plot.py:plot_output_trajectory"]}
{"id": "C114", "title": "Polyhedron.plot draws the projection of the polyhedron", "statement": "plot raises ValueError unless two coordinates are given, draws nothing when there are no vertices, and otherwise draws one closed path that encloses exactly the projection of the polyhedron on the two coordinates; it raises if this projection is contained in a line.", "quantifier": "every bounded polyhedron whose vertices are found, and every pair of coordinates", "why_tests_cant": "all points of the plane and all polyhedra", "anchors": ["pympc/geometry/polyhedron.py:Polyhedron.plot"]}
{"id": "C115", "title": "plot_optimal_value_function shows the value function on the feasible set", "statement": "It raises ValueError without two states or without explicit solution; otherwise it draws the boundary of the feasible set and the level sets of the explicit value function, evaluated at the points of an equidistant grid on the smallest box that contains the feasible set.", "quantifier": "every controller with a bounded program with a feasible pair of moderate norm, every resolution of at least two, every run that returns the feasible set", "why_tests_cant": "all programs, resolutions and grid points", "anchors": ["pympc/control/controllers.py:ModelPredictiveController.plot_optimal_value_function"]}
{"id": "C116", "title": "plot_state_space_partition draws every critical region", "statement": "It raises ValueError without two states or without explicit solution; otherwise it draws for every critical region one closed path that encloses exactly the region, and writes the active sets at the centers exactly if asked to.", "quantifier": "every controller whose regions are bounded, not contained in a line, and have their vertices found", "why_tests_cant": "all explicit solutions and all points of the plane", "anchors": ["pympc/control/controllers.py:ModelPredictiveController.plot_state_space_partition"]}
{"id": "C117", "title": "When same_vectors answers, and when it raises", "statement": "same_vectors raises ValueError if some array is two dimensional, if a list is empty or if the vectors of a list have different sizes; otherwise it is False for lists of different lengths, raises ValueError for vectors of different sizes across the lists if none of the sizes is one and answers in the other cases, and for equal sizes is True if one list is a permutation of the other and its vectors differ pairwise by more than the allclose tolerances.", "quantifier": "every two lists of arrays", "why_tests_cant": "all lists", "anchors": ["pympc/geometry/utils.py:same_vectors"]}
{"id": "C118", "title": "the design of the hybrid notebooks gives a controller that keeps the constraints and approaches the origin", "statement": "Let mode i of a PieceWiseAffineSystem be a LinearSystem S1 on the domain D with the origin in its interior, all domains bounded, nonempty and without equalities, and let P, K be the answer of S1.solve_dare(Q, R) with positive definite Q and R. Then S1.mcais(K, D) returns a set X_N and HybridModelPredictiveController(S, N, Q, R, P, X_N) is constructed. If X_N is invariant under u = K x, and the programs of the visited states have no tiny entries and overlapping modes agree there, then: in X_N the controller answers with a value of at most 1/2 x P x; from a state with a feasible trajectory the loop of feedback and simulate never stops and never leaves the domains; the value decreases by at least the stage cost in each step; and the loop reaches each neighbourhood of the origin after a number of steps that depends only on the first value.", "quantifier": "all lists of systems and domains, all weights, horizons, solvers that meet their contracts, all closed loops of any length", "why_tests_cant": "the notebooks run one system from one state for 100 steps; the claim is about all systems, all initial states and loops without end", "anchors": ["examples/hybrid_mpc.ipynb", "examples/hybrid_mpc_2.ipynb", "pympc/dynamics/discrete_time_systems.py:100-158", "pympc/control/controllers.py:257-560"]}
{"id": "C119", "title": "explicit_solve leaves no gap wider than its step, for one parameter", "statement": "For every multiparametric quadratic program with one parameter whose regions have rows of norm one or zero: if at each point that explicit_solve visits and where the program is feasible the solver returns a solution whose active constraints are linearly independent and whose multipliers are zero or above 1e-7, then for every feasible parameter x (0 being feasible) a returned region contains a point between 0 and x that is within step + 1e-7 * (number of constraints) of x.", "quantifier": "all programs with one parameter, all feasible parameters x, all steps above 1e-7, all answers of the solver within its contract, at least one variable and one inequality", "why_tests_cant": "The set of feasible parameters is a continuum and the regions depend on the data of the program; a test evaluates finitely many parameters of finitely many programs, while a gap between two regions can be as thin as the step and lie anywhere.", "anchors": ["pympc/optimization/parametric_programs.py:181-241", "pympc/geometry/polyhedron.py:403-460"]}
{"id": "C120", "title": "radius and center without a largest ball", "statement": "radius and center are None, and raise no exception, exactly when arbitrarily large balls (relative to the equalities) fit in the polyhedron. (Violated: with equalities ValueError is raised, and thin wedges get a number.) (Violated also without inequalities: RuntimeError is raised.)", "quantifier": "every polyhedron with independent equalities", "why_tests_cant": "needs unbounded sets with equalities and all balls", "anchors": ["pympc/geometry/polyhedron.py:Polyhedron._chebyshev", "pympc/geometry/polyhedron.py:Polyhedron.radius", "pympc/geometry/polyhedron.py:Polyhedron.center"]}
{"id": "C121", "title": "The solvers reject inconsistent sizes", "statement": "linear_program and quadratic_program raise ValueError when the sizes of f, A, b, C, d do not fit or one of C and d is missing, and answer otherwise. (Violated: the bounds are only counted together with the right-hand sides of the equalities, and a single bound is repeated.) (Also violated: without any constraint RuntimeError is raised.)", "quantifier": "all matrices and vectors, all sizes", "why_tests_cant": "needs all combinations of sizes; the accepted wrong ones look like ordinary answers", "anchors": ["pympc/optimization/solvers/pnnls.py:linear_program", "pympc/optimization/solvers/pnnls.py:quadratic_program", "pympc/optimization/solvers/drake.py:linear_program", "pympc/optimization/solvers/drake.py:quadratic_program"]}
{"id": "C122", "title": "explicit_solve covers every feasible parameter", "statement": "When explicit_solve returns, every parameter for which the program is feasible lies in a returned critical region, so that ExplicitSolution answers wherever solve does. (Violated: if the parameter 0 is infeasible nothing is returned, and regions narrower than step_size are stepped over.)", "quantifier": "all multiparametric programs, all feasible parameters; what is proved: one parameter, 0 feasible, the feasible parameters made of nondegenerate intervals longer than step + 1e-7 * (number of constraints + 2), solver answers with independent active constraints and multipliers that are zero or above 1e-7; any number of parameters, if moreover the steps over the facets are right", "why_tests_cant": "The feasible parameters are a continuum, and the missing region can be thinner than any grid; the program needed to see it depends on the step.", "anchors": ["pympc/optimization/parametric_programs.py:181-241", "pympc/optimization/parametric_programs.py:105-179"]}
{"id": "C123", "title": "explicit_solve raises no exception", "statement": "explicit_solve raises no exception on a multiparametric program with a positive definite Hessian, consistent sizes, a variable and an inequality. (Violated: a region that is empty but within the tolerance 1e-7 of containing the point has no list of facets, and TypeError is raised. Violated also without tolerances: with two or more parameters ValueError is raised at an unbounded facet, since it has no Chebyshev center.)", "quantifier": "all such programs; what is proved: all steps, regions found at the visited points not empty; with two or more parameters, their facets bounded and not empty", "why_tests_cant": "Needs all points that the search can visit, for all programs; the exception needs data that differ by less than the tolerance.", "anchors": ["pympc/optimization/parametric_programs.py:181-241", "pympc/optimization/parametric_programs.py:143-179", "pympc/optimization/parametric_programs.py:319-347", "pympc/geometry/polyhedron.py:403-460"]}
{"id": "C124", "title": "big-M relaxation of the notebook disjunctive_inequalities", "statement": "The constraint set of the big-M formulation is the documented one, {(x, delta) | A1 x <= b1 + M delta, A2 x <= b2 + M (1 - delta), 0 <= delta <= 1}: delta = 0 selects the first polytope, delta = 1 the second, and the drawn relaxation is its shadow. (Violated: the second inequality is built with M delta, so delta = 0 is infeasible for disjoint polytopes, delta = 1 relaxes both, and the drawn set is larger than the documented relaxation.)", "quantifier": "all pairs of polyhedra of the same dimension and all constants M; all binaries and all points; the witness holds for all solvers", "why_tests_cant": "The notebook has no tests and the picture looks plausible; the claim compares two infinite sets.", "anchors": ["examples/disjunctive_inequalities.ipynb:138-152", "pympc/geometry/polyhedron.py:Polyhedron.add_bounds", "pympc/geometry/polyhedron.py:Polyhedron.intersection", "pympc/geometry/polyhedron.py:Polyhedron.project_to"]}
{"id": "C125", "title": "convex hull formulation of the notebook disjunctive_inequalities", "statement": "For two nonempty polytopes the constraint set of the convex hull formulation has, with delta in {0, 1}, exactly the points of the union, and with delta in [0, 1] exactly the points of the convex hull of the union; the drawn relaxation is contained in the convex hull and the points of the convex hull satisfy its facets up to the tolerances of project_to.", "quantifier": "all pairs of nonempty polytopes of the same dimension, all points, all solvers within their contracts", "why_tests_cant": "Equality of infinite sets, for all polytopes; a plot shows one pair.", "anchors": ["examples/disjunctive_inequalities.ipynb:218-230", "pympc/geometry/polyhedron.py:Polyhedron.add_bounds", "pympc/geometry/polyhedron.py:Polyhedron.intersection", "pympc/geometry/polyhedron.py:Polyhedron.project_to"]}
{"id": "C126", "title": "critical regions overlap only where they agree", "statement": "Two critical regions returned by explicit_solve_given_active_set have the same optimizer and the same value at each parameter they share, and the same multipliers where the tight constraints are independent; regions of different active sets have no common interior point. (The last part is violated: with a repeated constraint the regions of the active sets [0] and [1] are the same half line. It holds if no constraint out of the active set is tight for all parameters.)", "quantifier": "all strictly convex multiparametric programs, all pairs of active sets, all parameters", "why_tests_cant": "Compares two affine laws and two polyhedra at all the parameters they share; the tests look at sampled parameters and at one region each.", "anchors": ["pympc/optimization/parametric_programs.py:MultiParametricQuadraticProgram.explicit_solve_given_active_set", "pympc/optimization/parametric_programs.py:CriticalRegion"]}
{"id": "C127", "title": "MPC value function is convex", "statement": "If feedforward of the linear controller returns inputs at x and at y then it returns inputs at every state between them, and the value V it returns there is at most the interpolation of the values at x and y. (This includes the states that the solver gives up on because of its internal threshold: the states it does answer form a convex set.)", "quantifier": "all linear MPC problems with positive (semi)definite weights, all pairs of states, all points of the segment, all solvers within their contracts", "why_tests_cant": "A statement on triples of states; the tests solve the problem at isolated states.", "anchors": ["pympc/control/controllers.py:ModelPredictiveController.feedforward", "pympc/optimization/parametric_programs.py:MultiParametricQuadraticProgram.solve"]}
{"id": "C128", "title": "Redundancy removal is idempotent", "statement": "After remove_redundant_inequalities, minimal_facets returns all the indices and a second remove_redundant_inequalities leaves A, b, C, d as they are, also if the first call removed all the inequalities.", "quantifier": "all polyhedra with a point (below the threshold of the solver) and independent equalities, all solvers within their contracts", "why_tests_cant": "The sweep decides with a tolerance in an order-dependent way; that no later decision overturns an earlier one is a statement on all polyhedra.", "anchors": ["pympc/geometry/polyhedron.py:Polyhedron.minimal_facets", "pympc/geometry/polyhedron.py:Polyhedron.remove_redundant_inequalities"]}
{"id": "C129", "title": "longer horizons are at least as good", "statement": "If the terminal set is invariant and admissible under u = K x and the terminal cost decreases there by at least the stage cost, then a controller with a longer horizon M >= N is feasible wherever the one with horizon N is, its value is not larger where both return inputs, and it does return inputs wherever the value for N is below the threshold of the solver (about 5e13).", "quantifier": "all linear MPC problems, all pairs of horizons N <= M, all states, all solvers within their contracts", "why_tests_cant": "Compares infinitely many controllers at all states.", "anchors": ["pympc/control/controllers.py:ModelPredictiveController.__init__", "pympc/control/controllers.py:ModelPredictiveController.feedforward"]}
{"id": "C130", "title": "The systems of the hybrid notebooks are the mechanical systems they describe", "statement": "For all positive masses and lengths and nonnegative stiffness, gap, step and bound of the angle, the cells of hybrid_mpc.ipynb and hybrid_mpc_2.ipynb that build the piecewise affine systems run without exception (the asserts hold), is_well_posed() is True, simulate makes a step exactly when state and input are within the bounds up to 1e-7 and raises ValueError otherwise, and the states of every simulation are those of the explicit Euler method for the linearised pendulum (cart-pole) with one-sided elastic walls: exactly, unless the tip is beyond a wall (or before the left one) by at most the tolerance, and then up to h k/m 1e-7 (h k/(l mp) 1e-7) in the angular velocity.", "quantifier": "all parameters, initial states, input sequences and lengths, all LP solvers within their contract", "why_tests_cant": "The notebooks run one set of parameters and one trajectory; agreement with the physical law is a statement on all states, inputs and parameters, including the boundaries between modes.", "anchors": ["examples/hybrid_mpc.ipynb", "examples/hybrid_mpc_2.ipynb", "pympc/dynamics/discrete_time_systems.py:PieceWiseAffineSystem.simulate", "pympc/dynamics/discrete_time_systems.py:PieceWiseAffineSystem.is_well_posed"]}
{"id": "C131", "title": "The controllers of the hybrid notebooks can be designed and stabilise the systems", "statement": "For all positive masses, lengths, gaps, steps and horizons (for the cart-pole also a nonzero gravity and a positive bound of the angle) the system without contact of hybrid_mpc.ipynb and hybrid_mpc_2.ipynb is controllable and its Riccati equation with unit weights has a solution; if scipy returns a solution, the cells solve_dare, mcais and HybridModelPredictiveController run without exception and the loop of mcais ends. If the computed terminal set is invariant, the closed loop of feedback and simulate goes on from every state with an answer, stays in the domains, its value decreases by the stage cost, and it reaches every neighbourhood of the origin, for states that are on a wall or more than the tolerance 1e-7 of simulate away from it.", "quantifier": "all parameters, horizons, initial states, lengths of the loop, all solvers within the contracts", "why_tests_cant": "Tests run the notebooks with one set of parameters and one initial state.", "anchors": ["examples/hybrid_mpc.ipynb:246-256", "examples/hybrid_mpc.ipynb:283-293", "examples/hybrid_mpc_2.ipynb:249-260", "pympc/dynamics/discrete_time_systems.py:94-158", "pympc/control/controllers.py:250-330"]}
{"id": "C132", "title": "solve_dare returns the infinite-horizon optimal cost and gain", "statement": "For a controllable system and symmetric positive definite weights the Riccati equation has exactly one symmetric positive semidefinite solution P. solve_dare returns it with a gain K; for every initial state no input sequence has a total cost over the infinite horizon less than 1/2 x0' P x0, and an input sequence has this cost exactly if u = K x at all times.", "quantifier": "all controllable systems, positive definite weights, initial states and input sequences; all Riccati solvers that return a positive semidefinite solution", "why_tests_cant": "Tests compare with a few systems and finite horizons; existence, uniqueness and optimality over infinite sequences are limits.", "anchors": ["pympc/dynamics/discrete_time_systems.py:94-126"]}
{"id": "C133", "title": "What mcais rejects", "statement": "mcais raises LinAlgError for matrices that are not square, and ValueError for matrices without entries, with an eigenvalue outside of the unit circle, for polyhedra without inequalities, without the origin (up to the tolerance) or unbounded; for all other data it raises no exception, after any number of iterations.", "quantifier": "every matrix, every polyhedron, every number of iterations", "why_tests_cant": "all matrices and polyhedra, and executions of any length", "anchors": ["pympc/dynamics/discrete_time_systems.py:mcais"]}
{"id": "C134", "title": "What constrained_voronoi rejects", "statement": "constrained_voronoi raises ValueError for an empty list, AssertionError for points of different sizes and an exception for a single point.", "quantifier": "every list of points, every X", "why_tests_cant": "all lists", "anchors": ["examples/pwa_from_urdf/utils.py:constrained_voronoi"]}
{"id": "C135", "title": "The notebook linear_mpc.ipynb", "statement": "For positive parameters the notebook's pendulum is discretized exactly (hyperbolic functions), is controllable, and its Riccati equation has a solution; with a solution from scipy the cells that build the controller run. The terminal set contains every state from which u = Kx respects the bounds forever. If the terminal set is invariant, the simulation loop runs for any number of steps from each state with an answer of value below 5e13, respects the bounds, and goes to the origin; in the terminal set the answer is Kx. If the controller has no answer, the loop raises TypeError.", "quantifier": "every mass, length, gravity, step, bounds, horizon, initial state; infinite closed loops", "why_tests_cant": "Parameters are real and the loops are infinite; the notebook runs one instance for a few steps.", "anchors": ["examples/linear_mpc.ipynb", "pympc/control/controllers.py:41-184", "pympc/dynamics/discrete_time_systems.py:94-184"]}
{"id": "C136", "title": "The notebook maximal_constraint_admissible_set.ipynb", "statement": "For positive parameters, with a solution of the Riccati equation from scipy, the cells run. X_cl contains the states within the bounds for which Kx is within the bounds of the input; O_inf contains every state from which the closed loop stays in X_cl; the closed loop can be simulated from each state for any number of steps and goes to the origin; if O_inf is invariant and contained in X_cl, simulations that start in O_inf stay in X_cl and O_inf.", "quantifier": "every mass, length, gravity, step, bounds, initial state, number of steps", "why_tests_cant": "Parameters are real and the loops are infinite; the notebook draws one instance.", "anchors": ["examples/maximal_constraint_admissible_set.ipynb", "pympc/dynamics/discrete_time_systems.py:68-184", "pympc/geometry/polyhedron.py"]}
{"id": "C137", "title": "The notebook cart_pole_from_urdf.ipynb", "statement": "For every plant with four states and one input that is differentiable at the linearization points, at least two linearizations and an angle range wider than the tolerance of isclose, the cells that build the piecewise affine system and the controller run. There is one mode per linearization, valid exactly for the angles nearest to it (up to one step beyond the first and the last), whose step is the exact solution of the linearized plant over h; the modes cover the bounds. Unless big_m rounds down a violation (C93), after any calls the output of the controller is nan exactly if no inputs drive the state to the origin within the bounds and the horizon, and otherwise the first input of a cheapest plan that does.", "quantifier": "every plant, angle range, number of linearizations, bounds, step, horizon, state and history of calls", "why_tests_cant": "Plants and parameters are real-valued and the histories unbounded; the notebook simulates one instance.", "anchors": ["examples/pwa_from_urdf/cart_pole_from_urdf.ipynb", "examples/pwa_from_urdf/utils.py:118-237"]}
{"id": "C138", "title": "Hybrid MPC with a longer horizon", "statement": "If states of the terminal set can be kept in it, the hybrid controller with a longer horizon is feasible wherever the one with the shorter horizon is, and answers wherever that one answers; if moreover the terminal cost decreases by the stage cost in the terminal set, the value of the answer is not larger.", "quantifier": "every PWA system without equalities, horizons N <= M, weights, terminal set, state whose programs have no tiny entries", "why_tests_cant": "The comparison is over all pairs of horizons and all states; each test solves two mixed-integer programs for one state.", "anchors": ["pympc/control/controllers.py:252-287", "pympc/control/controllers.py:611-646"]}
{"id": "C139", "title": "Linear MPC with a long horizon solves the infinite horizon problem", "statement": "Let P and K come from solve_dare and the terminal set be invariant and admissible for K. A plan of the controller can be continued forever within the constraints at a cost of at most V. If the terminal set contains a neighbourhood of the origin, then for each cost C below the threshold of the solver there is a horizon from which on, at every state from which C suffices: the controller answers, V is the least cost over the infinite horizon, the closed loop runs forever, is the only solution of the infinite horizon problem, and applies exactly the inputs of the first plan.", "quantifier": "every linear system, positive definite weights, constraints, terminal set, cost level, all longer horizons, all states", "why_tests_cant": "The claim compares with all infinite input sequences and concerns infinite executions.", "anchors": ["pympc/control/controllers.py:21-124", "pympc/dynamics/discrete_time_systems.py:94-126"]}
{"id": "C140", "title": "The hybrid controller answers at every state, up to 1e-9", "statement": "If no coefficient of the variables in the mixed-integer program is tiny, feedforward raises at no state. What it returns has one input and one mode per step and one state more; the states start at the given state, each is the image of the previous one in the returned mode up to 1e-9 times the number of modes, the inequalities of the domains and of the terminal set hold up to 1e-9, and the value is exactly the cost of the returned states and inputs.", "quantifier": "every PWA system, horizon, weights, terminal set with coefficients that are zero or larger than 1e-9, every state of the right size (tiny right hand sides included)", "why_tests_cant": "Gurobi's wrapper drops entries of magnitude at most 1e-9, so states where the exact claim fails have measure zero; tests do not hit them, and they need all optimizers.", "anchors": ["pympc/control/controllers.py:252-287", "pympc/control/controllers.py:611-646", "pympc/optimization/solvers/gurobi.py:linear_expression"]}
{"id": "C141", "title": "Negative indices count from the end", "statement": "In add_lower_bound, add_upper_bound and project_to negative indices select coordinates from the end, as in x[indices] of the documentation. (Violated: the selection matrix ignores them, and a projection whose first dimension is negative raises TypeError for every bounded polyhedron.)", "quantifier": "every list of integer indices, every polyhedron and bound", "why_tests_cant": "Tests use nonnegative indices; that every projection with a negative first dimension fails is a statement about all polytopes and all solvers.", "anchors": ["pympc/geometry/polyhedron.py:141-181", "pympc/geometry/polyhedron.py:213-237", "pympc/geometry/polyhedron.py:826-857", "pympc/geometry/polyhedron.py:940-998"]}
{"id": "C142", "title": "The linear controller rejects weights and sets of the wrong size", "statement": "ModelPredictiveController(S, N, Q, R, P, D, X_N) raises ValueError if N = 0, if D or X_N has the wrong dimension, or if Q, R or P has the wrong shape, and accepts positive definite weights of the right shape. (Violated: Q and P are only checked through the sum of their sizes, and with N = 1 a weight R with a single row or column is broadcast.)", "quantifier": "every linear system, horizon, weights of every shape, domain and terminal set", "why_tests_cant": "Tests construct controllers with matching sizes; which of all the wrong shapes slip through is a statement about every shape and horizon.", "anchors": ["pympc/control/controllers.py:21-74", "pympc/control/controllers.py:682-749"]}
{"id": "C143", "title": "The hybrid controller rejects weights and sets of the wrong size", "statement": "HybridModelPredictiveController(S, N, Q, R, P, X_N) raises ValueError if N = 0, if X_N has the wrong dimension, or if Q, R or P has the wrong shape, and accepts the right shapes. (Violated: R is never checked, and a small R moves the cost of the states onto the inputs; Q and P are only checked through the sum of their sizes.)", "quantifier": "every piecewise affine system with bounded domains, horizon, weights of every shape and terminal set; every solver", "why_tests_cant": "Tests construct controllers with matching sizes; the wrong program is solved without any error, for every state and every solver.", "anchors": ["pympc/control/controllers.py:254-286", "pympc/control/controllers.py:407-447", "pympc/optimization/parametric_programs.py:568-625", "pympc/optimization/solvers/gurobi.py:289-308"]}
{"id": "C144", "title": "The inputs of linear MPC are Lipschitz in the state", "statement": "For every linear MPC problem there is one constant K, independent of the states and of the QP solver, such that the inputs returned by feedforward (and feedback) at two states differ by at most K times the distance of the states, wherever the controller answers at both. The same holds for the optimizers that solve returns for a multiparametric quadratic program at two parameters.", "quantifier": "all multiparametric programs with positive definite Hessian, degenerate ones included; all linear MPC problems with positive (semi)definite weights, all pairs of states, all solvers within their contracts", "why_tests_cant": "A single constant for infinitely many pairs of states, also across the boundaries of the critical regions and where active constraints are dependent; sampled states cannot show that no jump exists.", "anchors": ["pympc/optimization/parametric_programs.py:154-185", "pympc/control/controllers.py:76-124"]}
{"id": "C145", "title": "The active set guessed beyond a facet", "statement": "For inequality i of a critical region, explicit_solve tries the active set of the region with the constraint of that inequality added (if it was not active) or removed (if it was). (Violated: the index of the inequality is used as the index of the constraint, so the guess is only right if the two coincide, as when the active constraints are the first ones; otherwise the guess may consist of constraints that can not be active together.)", "quantifier": "all multiparametric programs, regions, inequalities and steps", "why_tests_cant": "A wrong guess is silently replaced by the solution of a QP, so the returned regions look right; only the relation between inequality and constraint, for all regions, shows when the guess is the intended one.", "anchors": ["pympc/optimization/parametric_programs.py:96-104", "pympc/optimization/parametric_programs.py:223-232"]}
{"id": "C146", "title": "Number of critical regions", "statement": "The active sets of the regions returned by explicit_solve are increasing lists of at most nu constraint indices, so there are at most sum_{k <= nu} binom(m, k) different ones; if the nonzero multipliers met by the search exceed 1e-7 then this bounds the number of regions.", "quantifier": "all strictly convex programs with nu variables and m inequalities, all steps, all executions of the search that end", "why_tests_cant": "A bound for all programs and all orders of exploration.", "anchors": ["pympc/optimization/parametric_programs.py:75-78", "pympc/optimization/parametric_programs.py:181-241"]}
{"id": "C147", "title": "The closed loop of the linear controller is exponentially stable", "statement": "With positive definite Q, an admissible invariant terminal set and a terminal cost that decreases by the stage cost in it, there are constants M and r < 1, which depend on the controller only, such that the state and input at time t of every closed loop with ModelPredictiveController.feedback are at most M r^t times the size of the initial state.", "quantifier": "every linear system, horizon, weights, constraints; every initial state with an answer, every length of the execution, all QP solvers within their contract", "why_tests_cant": "One rate and one constant for all initial states (including arbitrarily small ones, which is Lyapunov stability) and all times.", "anchors": ["pympc/control/controllers.py:76-124", "pympc/optimization/parametric_programs.py:154-185"]}
{"id": "C148", "title": "Negative modes in mode sequences", "statement": "condense(mode_sequence) and get_mpqp(mode_sequence) take the modes -s, ..., -1 of a system with s modes as the last ones, consistently for the dynamics and the domains; a mode out of -s, ..., s-1 raises IndexError, and an empty sequence raises ValueError.", "quantifier": "all PWA systems, all mode sequences of integers of any length", "why_tests_cant": "All sequences of integers and all systems; the dynamics and the domains are looked up in two different lists in two different functions.", "anchors": ["pympc/dynamics/discrete_time_systems.py:487-491", "pympc/dynamics/discrete_time_systems.py:676-729", "pympc/control/controllers.py:668-749"]}
{"id": "C149", "title": "Explicit Euler converges to the exact discretization", "statement": "For every continuous-time affine system, time span T and bounds on the initial state and the inputs there is one constant K such that, for every step h and every sequence of at most T/h inputs, the simulations of the systems from from_continuous with explicit_euler and with zero_order_hold differ by at most K h at all times.", "quantifier": "all A, B, c of consistent sizes, all T and bounds, all steps h >= 0, all input sequences and initial states within the bounds", "why_tests_cant": "The number of steps grows without bound as h goes to zero; a test sees finitely many steps and no uniform constant.", "anchors": ["pympc/dynamics/discretization_methods.py:8-104", "pympc/dynamics/discrete_time_systems.py:315-337", "pympc/dynamics/discrete_time_systems.py:361-391"]}
{"id": "C150", "title": "Bounds given as floats", "statement": "Wherever add_lower_bound, add_upper_bound and add_bounds take a float for one selected coordinate, the constructors from_lower_bound, from_upper_bound and from_bounds take it too and give the same constraints.", "quantifier": "all numbers, all coordinates, all dimensions, all polyhedra the bounds are added to", "why_tests_cant": "All polyhedra, coordinates and numbers; the counterexamples hold for every pair of floats.", "anchors": ["pympc/geometry/polyhedron.py:137-201", "pympc/geometry/polyhedron.py:239-336"]}
{"id": "C151", "title": "The hybrid closed loop decreases exponentially", "statement": "With positive definite Q, a terminal set around the origin and a terminal cost that decreases by the stage cost in it, there are constants M and r < 1, which depend on the data of HybridModelPredictiveController only, such that the state and the input at time t of every closed loop of simulate and feedback are at most M r^t times the size of the initial state, as long as the mixed-integer programs have no tiny entries and overlapping modes agree in the visited states.", "quantifier": "every piecewise affine system with bounded domains, horizon, weights, terminal set; every initial state and every length of the execution; all solvers within their contracts", "why_tests_cant": "One rate for all initial states and all times; the value function of the hybrid controller is discontinuous, so nearby states say nothing.", "anchors": ["pympc/control/controllers.py:255-666", "pympc/dynamics/discrete_time_systems.py:519-560"]}
{"id": "C152", "title": "Membership after a rejected addition of inequalities", "statement": "If add_inequality rejects its arguments and the exception is caught, a later call of contains on the same object either gives the answer that it gave before or raises.", "quantifier": "every polyhedron, every rejected matrix and right-hand side with two dimensions, every choice of indices, every point and tolerance", "why_tests_cant": "The tests check that the exception is raised and then throw the object away; the wrong answer shows only when the polyhedron has exactly one inequality, since numpy then broadcasts its single right-hand side.", "anchors": ["pympc/geometry/polyhedron.py:63-100", "pympc/geometry/polyhedron.py:578-604"]}
{"id": "C153", "title": "normalize on objects with missing right-hand sides", "statement": "normalize ends without exception exactly if every row of A and C whose norm is above the threshold has a right-hand side, and raises IndexError otherwise; in both cases the sizes stay and each row that has a right-hand side keeps its half space or hyperplane; if it ends, the object is the one described in C07. When it raises, the rows of A up to the first one without a right-hand side are divided by their norms (that row included), the right-hand sides before it too, and nothing else has changed; if it is a row of C, all of A and b are as in C07.", "quantifier": "every object with any numbers of rows and right-hand sides (as left behind by a rejected addition), every nonnegative threshold", "why_tests_cant": "The tests normalise well-formed polyhedra only; the state after the exception matters only to callers that catch it.", "anchors": ["pympc/geometry/polyhedron.py:379-401"]}
{"id": "C154", "title": "Linear MPC tolerates a plant that differs from the model", "statement": "With positive definite Q, an admissible invariant terminal set and a terminal cost that decreases by the stage cost in it, there are constants M, G and r < 1, which depend on the controller only, such that in every loop x(t+1) = A x(t) + B u(t) + w(t) with the inputs of ModelPredictiveController.feedback, as long as it answers, states and inputs at time t are at most M r^t times the size of the initial state plus G times the bound of the disturbances (input-to-state stability). If the terminal set contains a neighbourhood of the origin, there are bounds on the initial state and the disturbances under which the controller answers at every time and the constraints are never violated.", "quantifier": "every linear system, horizon, weights, constraints; every sequence of disturbances, initial state and length of the execution, all QP solvers within their contract", "why_tests_cant": "The tests simulate the model itself; the bound is for all disturbance sequences and all times at once.", "anchors": ["pympc/control/controllers.py:14-252"]}
{"id": "C155", "title": "The explicit solution is close to the optimal one also within the tolerance", "statement": "If the program is feasible at some parameter, there is a constant k, which depends on the program only, such that for every critical region that explicit_solve_given_active_set returns and every parameter x that its polyhedron contains within a tolerance tol (the code tests with 1e-7), u(x) is within k tol of the optimizer at some feasible parameter within k tol of x, and within k (|x - y| + tol) of the optimizer at every feasible parameter y; in particular within k tol of the optimizer at x if x is feasible. Hence the inputs of feedforward_explicit are within k 1e-7 of those of feedforward, whenever both answer.", "quantifier": "every strictly convex multiparametric program, active set, parameter and tolerance; every linear controller, state and QP solver within its contract", "why_tests_cant": "Regions that contain a parameter only within the tolerance are rarely sampled, and the constant holds for all of them at once.", "anchors": ["pympc/optimization/parametric_programs.py:292-306", "pympc/optimization/parametric_programs.py:42-116", "pympc/control/controllers.py:108-186"]}
{"id": "C156", "title": "The loop with the explicit controller is practically exponentially stable", "statement": "With positive definite Q, a nonempty admissible invariant terminal set and a terminal cost that decreases by the stage cost in it, there are constants M, G and r < 1, which depend on the controller only, such that in every closed loop with feedback_explicit (after store_explicit_solution), as long as it answers, states and inputs at time t are at most M r^t times the size of the initial state plus G times 1e-7, although the stored regions are tested with a tolerance and the inputs need not be feasible. The same with G tol for every tolerance tol of the regions.", "quantifier": "every linear system, horizon, weights, constraints; every initial state and length of the execution; every tolerance, step size and fuel of the explicit solution, all QP solvers within their contract", "why_tests_cant": "The property is about all states and all times; the tests compare the explicit and the implicit input at sampled states.", "anchors": ["pympc/control/controllers.py:108-186", "pympc/optimization/parametric_programs.py:292-306"]}
{"id": "C157", "title": "Reducing the step makes the two discretizations agree", "statement": "The loop of test_explicit_euler_and_zero_order_hold, which divides the step h = .01 by ten until np.allclose holds for the matrices of explicit_euler and zero_order_hold, ends without an exception for every system, and it ends at the first step at which the two agree within the tolerances. For the double integrator both discretizations are the closed forms of the test, for every h >= 0.", "quantifier": "every A, B, c of matching sizes (any sizes and entries)", "why_tests_cant": "The test runs the loop on 100 random systems with at most 9 states and entries in [0,1]; a loop that does not end would hang the test rather than fail it.", "anchors": ["pympc/test/test_dynamics/test_discretization_methods.py:9-51", "pympc/dynamics/discretization_methods.py:8-104"]}
{"id": "C158", "title": "The tests of Polyhedron pass for every numerical library within its contract", "statement": "test_initialization, the assertRaises of test_add_functions and test_from_functions, test_empty, test_bounded, test_contains and test_is_included_in of test_polyhedron.py pass: every assertion holds, whatever numbers nnls, svd, qr and cholesky return within their contract.", "quantifier": "every library that satisfies LibSpec", "why_tests_cant": "A run of the tests uses one library with one choice of bases, signs and of solutions among several.", "anchors": ["pympc/test/test_geometry/test_polyhedron.py:15-39", "pympc/test/test_geometry/test_polyhedron.py:376-521"]}
{"id": "C159", "title": "The test of the multiparametric quadratic programs passes for every numerical library within its contract", "statement": "test_solve of test_parametric_programs.py passes: the regions of the active sets [] and [0] and the region found at 1.5 have the expected coefficients, solve(1.5) gives the expected minimum, minimizer and active set, explicit_solve ends without exceptions and its lookup agrees with solve (minimum, minimizer and multipliers, or None) at the five parameters, and get_feasible_set gives the expected interval.", "quantifier": "every library that satisfies LibSpec, every Qhull and random generator", "why_tests_cant": "A run of the test uses one library with one choice of bases and signs, and stops after a finite time: it does not show that the search ends with another one.", "anchors": ["pympc/test/test_optimization/test_parametric_programs.py:15-80"]}
{"id": "C160", "title": "Linear MPC costs the same as LQR exactly on its terminal set", "statement": "Let P, K come from solve_dare and X_N from mcais(K, D), with u = K x admissible and invariant on X_N. Whenever the controller answers, its cost is at least x'Px/2; it is strictly more exactly for the states outside X_N; and its inputs are those of the LQR along the trajectory exactly for the states of X_N.", "quantifier": "every system, weights, bounded domain with the origin inside, horizon, state and library within its contract", "why_tests_cant": "The test compares the two costs at random states of random systems; that equality holds nowhere outside of X_N is a statement about a continuum of states.", "anchors": ["pympc/control/controllers.py:12-120", "pympc/test/test_control/test_controllers.py:75-83"]}
{"id": "C161", "title": "The set built by the test of the linear controller is empty exactly when no inputs are feasible", "statement": "The polyhedron that test_implicit_solution builds from the domain, the dynamics and the terminal set is empty if and only if no input sequence is feasible from the state.", "quantifier": "every system, domain, terminal set, horizon and state", "why_tests_cant": "It is the oracle of the test itself; random states of well scaled systems are infeasible only because of the first constraints.", "anchors": ["pympc/test/test_control/test_controllers.py:63-73"]}
{"id": "C162", "title": "The test of the linear controller passes", "statement": "For every system, weights, bounds and horizon for which solve_dare and mcais answer, all assertions of test_implicit_solution hold at every state.", "quantifier": "every system, weights, domain, horizon, state and library within its contract", "why_tests_cant": "The test runs 1000 random states from one seed; the failing states are a small set of systems and states.", "anchors": ["pympc/test/test_control/test_controllers.py:47-101"]}
{"id": "C163", "title": "contains in floating point arithmetic", "statement": "In floating point arithmetic contains(x, tol) answers between the exact answers with tolerances tol - E and tol + E, where E bounds ((1+u)^(n+1) - 1)(sum |a_ij x_j| + |b_i|) (plus underflow) over the rows.", "quantifier": "every polyhedron with inequalities, point, tolerance, rounding function with relative error u and underflow error, order of the sums, with or without fused multiplications", "why_tests_cant": "A test runs one BLAS library with one order of the sums on finitely many points.", "anchors": ["pympc/geometry/polyhedron.py:578-604"]}
{"id": "C164", "title": "simulate in floating point arithmetic", "statement": "The states computed by LinearSystem.simulate in floating point arithmetic differ from the exact ones at time t by at most (1 + alpha + ... + alpha^(t-1)) times the error of one step, alpha bounding the absolute row sums of A.", "quantifier": "every system, initial state, input sequence, rounding function and order of the sums", "why_tests_cant": "The tests compare simulate with condense to six digits on random systems with small entries; the growth of the error with the horizon is not seen.", "anchors": ["pympc/dynamics/discrete_time_systems.py:44-66"]}
{"id": "C165", "title": "The loop of the linear controller with a system simulated in floating point arithmetic", "statement": "There are M, G and r < 1 that depend on the controller only such that, if the relative error e of a step satisfies G e <= 1, the states and inputs of the loop with the rounded simulation are at most (M r^t + G e) |x0| + G times the absolute error, as long as the controller answers.", "quantifier": "every controller with positive definite Q and an invariant terminal set with decreasing terminal cost, initial state, rounding function, order of the sums, time", "why_tests_cant": "Stability under rounding is a statement about all times and all rounding errors.", "anchors": ["pympc/control/controllers.py:12-120", "pympc/dynamics/discrete_time_systems.py:64"]}
{"id": "C166", "title": "normalize in floating point arithmetic", "statement": "After normalize in floating point arithmetic each inequality is a positive multiple of the original one up to the relative error u of its terms, even if the norm was computed badly; points of the normalized set violate the original inequalities by at most this error, and points with this margin stay in the set.", "quantifier": "every matrix, right-hand side, rounding function, computed norm and point", "why_tests_cant": "The test compares a few normalized rows with their exact values to six digits.", "anchors": ["pympc/geometry/polyhedron.py:379-401"]}
{"id": "C167", "title": "The explicit solution evaluated in floating point arithmetic", "statement": "If in floating point arithmetic a critical region is found to contain x, with rounding errors of its rows at most E, and the rounding errors of u(x) are at most F, then the computed u(x) is within kappa (1e-7 + E) + F of the optimizer at a parameter within kappa (1e-7 + E) of x, and of the optimizer at x if there is one; kappa depends on the program only.", "quantifier": "every strictly convex mpQP feasible at some parameter, active set, parameter, rounding function and order of the sums", "why_tests_cant": "Points where rounding changes the region are a thin set that random points miss.", "anchors": ["pympc/optimization/parametric_programs.py:292-306", "pympc/optimization/parametric_programs.py:349-364"]}
{"id": "C168", "title": "LP answers are certified even if nnls stops early", "statement": "Whatever nonnegative vector nnls returns, with the norm of its residual, an answer of linear_program satisfies the constraints, stationarity and strong duality within some eps < tol, has nonnegative inequality multipliers, and costs at most eps (1 + ||x'||_1) more than any feasible point x'.", "quantifier": "every LP with or without equalities, tolerance, and nnls routine (not necessarily optimal)", "why_tests_cant": "Tests run with one nnls implementation, whose iterates converge on the problems of the tests.", "anchors": ["pympc/optimization/solvers/pnnls.py:5-39", "pympc/optimization/solvers/pnnls.py:41-147"]}
{"id": "C169", "title": "LPs with an optimum are answered if nnls is accurate to the tolerance", "statement": "If the residual of nnls exceeds the smallest one by less than tol, linear_program does not raise on data with a constraint, answers whenever the LP has an optimal solution, and returns None only if the LP is infeasible or unbounded.", "quantifier": "every LP with a constraint, tolerance, and nnls routine within the accuracy", "why_tests_cant": "The accuracy of nnls is a property of all its inputs, tests see a few.", "anchors": ["pympc/optimization/solvers/pnnls.py:41-147"]}
{"id": "C170", "title": "Accuracy of the QP answers in terms of the stopping conditions of nnls", "statement": "If the vector returned by nnls satisfies its optimality conditions up to delta (gradient) and eps <= tol^2 (complementarity), an answer of quadratic_program violates the constraints by at most delta/t, with t > tol^2 - eps positive, satisfies stationarity exactly with nonnegative multipliers, costs at most eps/t^2 more than any feasible point, and has squared distance at most eps/t^2 + delta/t (||ls||_1 + ||ms||_1) from an optimum with multipliers ls, ms, in the norm of H.", "quantifier": "every strictly convex QP, tolerance, and nnls routine that meets the stopping conditions", "why_tests_cant": "Tests compare with known optima to six digits on well conditioned problems.", "anchors": ["pympc/optimization/solvers/pnnls.py:149-241"]}
{"id": "C171", "title": "None of the QP solver is certified even if nnls stops early", "statement": "Whatever nonnegative vector nnls returns, with the norm of its residual, quadratic_program does not raise on data with a constraint and returns None only if every feasible point is at squared distance at least 1/tol^2 - 1 from the unconstrained optimum, in the norm of H; it returns None on all the infeasible QPs if the residual of nnls exceeds the smallest one by at most tol.", "quantifier": "every strictly convex QP with a constraint, positive tolerance, and nnls routine (not necessarily optimal)", "why_tests_cant": "An infinite set of programs and of nnls routines.", "anchors": ["pympc/optimization/solvers/pnnls.py:149-241"]}
{"id": "C172", "title": "QP answers are as accurate as nnls", "statement": "If the residual of nnls is within 1e-12 of the smallest one, the answer of quadratic_program is close to the optimum, whatever the distance of the optimum from the unconstrained one.", "quantifier": "every strictly convex QP and nnls routine within the accuracy", "why_tests_cant": "The error grows with the distance of the feasible set from the unconstrained optimum, which is of order one in the tests.", "anchors": ["pympc/optimization/solvers/pnnls.py:209-239"]}
{"id": "C173", "title": "Multiparametric QP solved by a least squares routine that stops early", "statement": "For each multiparametric QP there is a constant such that, if nnls stops with a gradient of at least -delta and a complementarity within eps < 1e-14, every answer of solve(x) violates the constraints by at most delta/t, costs at most eps/t^2 more than any feasible point, and its squared distance from the optimizer is at most the constant times eps/t^2 + delta/t times the gradient of the cost, for some t > 1e-14 - eps. solve(x) does not raise, and answers None only if every feasible point costs at least (1e14 - 1)/2 more than the unconstrained optimum.", "quantifier": "every mpQP with positive definite Huu, every parameter, every nnls routine with that accuracy", "why_tests_cant": "The tests run one nnls, on a few programs, and compare with a tolerance; they cannot range over stopping criteria and parameters.", "anchors": ["pympc/optimization/parametric_programs.py:155-179", "pympc/optimization/solvers/pnnls.py:142-243"]}
{"id": "C174", "title": "Practical stability of MPC with a least squares routine that stops early", "statement": "With positive definite Q and a terminal set and cost as in the stability theorem, there are M, G and r < 1, which depend on the controller only, such that if nnls stops with tolerances delta and eps < 1e-14, in each closed loop whose states are feasible the states and inputs are at most M r^t |x0| + G eta, with eta = (delta + sqrt eps)/(1e-14 - eps), and the stage constraints are violated by at most G sqrt(eta^2 + eta |x(t)|).", "quantifier": "every linear MPC controller, every nnls routine with that accuracy, every initial state and length of the loop", "why_tests_cant": "A rate that is uniform over all initial states and all stopping criteria is not visible in finitely many simulations.", "anchors": ["pympc/control/controllers.py:76-124", "pympc/optimization/parametric_programs.py:155-179", "pympc/optimization/solvers/pnnls.py:142-243"]}
{"id": "C175", "title": "MPC with a least squares routine that stops early runs forever near the origin", "statement": "If moreover the terminal set contains a neighbourhood of the origin, there are rho, xi > 0 such that for every nnls routine whose tolerances give eta <= xi, from every state with entries at most rho the controller answers at every step of the closed loop, forever, and inputs are feasible at each state.", "quantifier": "every linear MPC controller, every nnls routine accurate enough, every initial state near the origin, all times", "why_tests_cant": "Infinitely many steps, initial states and stopping criteria.", "anchors": ["pympc/control/controllers.py:76-124", "pympc/optimization/solvers/pnnls.py:142-243"]}
{"id": "C176", "title": "empty with a least squares routine that stops early", "statement": "Whatever nonnegative vector nnls returns, with the norm of its residual, empty does not raise on a polyhedron with an inequality or equality and is True only if every point is at least sqrt(1/tol^2 - 1), about 1e7, away from the origin; it is True on all the polyhedra without points if the residual of nnls exceeds the smallest one by at most tol = 1e-7.", "quantifier": "every polyhedron with at least one inequality or equality, every nnls routine (not necessarily optimal)", "why_tests_cant": "Infinitely many polyhedra and stopping criteria of nnls.", "anchors": ["pympc/geometry/polyhedron.py:505-526", "pympc/optimization/solvers/pnnls.py:142-243"]}
{"id": "C177", "title": "is_included_in with a least squares routine that stops early", "statement": "Whatever nonnegative vector nnls returns, with the norm of its residual: if P1.is_included_in(P2, tol) is True, every point x of P1 violates the constraints of P2 by at most tol + 1e-7 (1 + ||x||_1); if it is False, a point that satisfies the constraints of P1 within 1e-7 violates one of P2 by more than tol. If the residual exceeds the smallest one by less than 1e-7, and P1 has a constraint and a point and is bounded in the directions of the constraints of P2, there is an answer.", "quantifier": "every pair of polyhedra of the same dimension, tolerance, and nnls routine (not necessarily optimal)", "why_tests_cant": "Infinitely many pairs of polyhedra and stopping criteria of nnls.", "anchors": ["pympc/geometry/polyhedron.py:606-641", "pympc/optimization/solvers/pnnls.py:7-72"]}
{"id": "C178", "title": "Chebyshev ball with a least squares routine that stops early", "statement": "Whatever nonnegative vector nnls returns, with the norm of its residual: for a polyhedron without equalities the points of the ball given by radius r >= 0 and center violate the inequalities by at most some eps < 1e-7, and every ball in the polyhedron with center c' has radius r' <= r + eps (1 + ||c'||_1 + r'). If the residual exceeds the smallest one by less than 1e-7, the polyhedron has a point and the radii of the balls in it are bounded, radius is a number.", "quantifier": "every polyhedron without equalities, every nnls routine (not necessarily optimal)", "why_tests_cant": "Infinitely many polyhedra and stopping criteria of nnls.", "anchors": ["pympc/geometry/polyhedron.py:687-768", "pympc/optimization/solvers/pnnls.py:7-72"]}
{"id": "C179", "title": "Redundancy removal with a least squares routine that stops early", "statement": "Whatever nonnegative vector nnls returns, with the norm of its residual: for a polyhedron without equalities minimal_facets keeps a sublist of the inequalities, so no point is lost; a point with 1-norm at most R that satisfies the inequalities kept and those after a removed one violates the latter by less than tol + 1e-7 (1 + R), if this is at most 1 and the polyhedron has a point of 1-norm at most R; an inequality that is kept is violated by tol or more at a point that satisfies the other ones within 1e-7. If the residual exceeds the smallest one by less than 1e-7 and the polyhedron has a point of norm below about 1e7, no exception is raised.", "quantifier": "every polyhedron without equalities, tolerance, and nnls routine (not necessarily optimal)", "why_tests_cant": "Infinitely many polyhedra and stopping criteria of nnls.", "anchors": ["pympc/geometry/polyhedron.py:403-466", "pympc/optimization/solvers/pnnls.py:7-72"]}
{"id": "C180", "title": "The LQR test passes", "statement": "For every controllable system, positive definite weights and initial states, the body of test_solve_dare_and_simulate_closed_loop passes: the eigenvalues of P are positive, x P x decreases strictly along ten steps of simulate_closed_loop, and the cost accumulated in closed loop gets np.isclose to 1/2 x0 P x0 within 1000 steps.", "quantifier": "every controllable linear system of any size, every pair of symmetric positive definite weights, every initial state, every number of steps", "why_tests_cant": "The test draws 100 random systems with a fixed seed; it cannot tell on which systems its own assertions would fail.", "anchors": ["pympc/test/test_dynamics/test_discrete_time_systems.py:57-100", "pympc/dynamics/discrete_time_systems.py:68-126"]}
{"id": "C181", "title": "The controllability tests pass for every step", "statement": "For every time step h > 0 the double integrator discretized with zero_order_hold is reported controllable, the chain driven at the first state is reported uncontrollable, and solve_dare raises ValueError for the latter, whatever the Riccati solver does.", "quantifier": "every step h > 0, every Riccati solver", "why_tests_cant": "The tests use the one step h = 0.1 and one Riccati solver.", "anchors": ["pympc/test/test_dynamics/test_discrete_time_systems.py:38-65", "pympc/dynamics/discrete_time_systems.py:94-126", "pympc/dynamics/discrete_time_systems.py:186-231"]}
{"id": "C182", "title": "get_mode in floating point arithmetic", "statement": "With rounding errors of the rows of at most E, whatever the order of the sums, a mode found by get_mode contains state and input up to 1e-7 + E and no earlier mode contains them up to 1e-7 - E; if none is found, no mode contains them up to 1e-7 - E; if state and input are not closer than E to the threshold of any domain, the answer is that of exact arithmetic.", "quantifier": "every piecewise affine system, state, input, rounding function within the standard model and order of the sums", "why_tests_cant": "Tests use a few points on one machine with one library for the sums; points close to a border and other orders of summation are not tried.", "anchors": ["pympc/dynamics/discrete_time_systems.py:533-556", "pympc/geometry/polyhedron.py:578-604"]}
{"id": "C183", "title": "simulate of piecewise affine systems in floating point arithmetic", "statement": "If no state and input of the exact simulation is closer to the threshold of a domain than the accumulated error allows, the rounded simulation does not raise, finds the same modes, and its states differ from the exact ones by at most (1 + a + ... + a^(t-1)) d, with a the largest absolute row sum of the matrices A and d the error of one step.", "quantifier": "every piecewise affine system, initial state, sequence of inputs, rounding function within the standard model and order of the sums", "why_tests_cant": "A wrong mode found because of rounding changes the whole trajectory; tests compare a few random trajectories on one machine.", "anchors": ["pympc/dynamics/discrete_time_systems.py:493-531"]}
{"id": "C184", "title": "The tests of condense and simulate for linear and affine systems", "statement": "The comparison of condense with simulate that the tests make passes for every linear and affine system, initial state and non-empty list of inputs; with no inputs it raises a ValueError.", "quantifier": "every system matrix, initial state and list of inputs of matching sizes", "why_tests_cant": "The tests draw a few random systems of one size and ten steps; a wrong block of the condensed matrices for other sizes or numbers of steps is not seen.", "anchors": ["pympc/test/test_dynamics/test_discrete_time_systems.py:22-41", "pympc/test/test_dynamics/test_discrete_time_systems.py:195-215"]}
{"id": "C185", "title": "The test of condense and simulate for piecewise affine systems", "statement": "For all draws of matrices and inputs the test that builds a small box around each state and input of a trajectory, and then compares get_mode, simulate and condense with it, passes.", "quantifier": "every initial state, number of steps, systems and inputs with non-negative entries", "why_tests_cant": "The test runs with random draws; whether it fails for some of them is not seen by running it.", "anchors": ["pympc/test/test_dynamics/test_discrete_time_systems.py:325-390"]}
{"id": "C186", "title": "The test of is_well_posed", "statement": "The test of is_well_posed passes in every dimension: two overlapping cubes are found not to be well posed, and three cubes that only touch are found to be well posed.", "quantifier": "every number of states and inputs, at least one together", "why_tests_cant": "The test is run with two states and one input; nothing is known of other dimensions, nor of least squares routines other than the installed one.", "anchors": ["pympc/test/test_dynamics/test_discrete_time_systems.py:392-416"]}
{"id": "C187", "title": "The test of mcais", "statement": "The test of mcais passes for all drawn matrices with eigenvalues inside the unit circle and all drawn points: from a point that the result contains the trajectory stays in the cube, and from any other point the trajectory leaves the cube before its norm gets below 1e-4.", "quantifier": "every number of states, list of matrices with eigenvalues inside the unit circle and list of points", "why_tests_cant": "The test runs with ten random matrices and a fixed seed; draws for which it fails have a small probability.", "anchors": ["pympc/test/test_dynamics/test_discrete_time_systems.py:418-453", "pympc/dynamics/discrete_time_systems.py:584-674"]}
{"id": "C188", "title": "How far redundancy removal enlarges a polyhedron", "statement": "Let c be a point at which all inequalities hold with a margin of at least beta > 0. If remove_redundant_inequalities removes k inequalities, then for every x in the result the point on the way from c to x at the fraction 1/(1 + 1e-7/beta)^k is in the original polyhedron; every point of the original polyhedron is in the result.", "quantifier": "every polyhedron (independent equalities allowed), point c and margin", "why_tests_cant": "Facets removed within the tolerance add up; tests check that a few polyhedra with clearly redundant facets keep their set.", "anchors": ["pympc/geometry/polyhedron.py:403-466"]}
{"id": "C189", "title": "How far the result of mcais is from the maximal set", "statement": "If the inequalities of X hold at the origin with margin beta > 0, the result of mcais contains the maximal constraint-admissible set and is inside its multiple by s = (1 + 1e-7/beta)^k, with k the number of removed facets; for x in the result, x/s is in X and A x/s is in the result.", "quantifier": "every square matrix and every bounded polyhedron without equalities with the origin in its interior for which mcais returns", "why_tests_cant": "The tests check trajectories from random points; the error made by the tolerance adds up with the number of facets and is far below what random points see.", "anchors": ["pympc/dynamics/discrete_time_systems.py:584-674"]}
{"id": "C190", "title": "simulate_closed_loop in floating point arithmetic", "statement": "If the closed loop without rounding shrinks states like M r^t, the states that simulate_closed_loop computes are at most M q^t X0 + M a (1 + ... + q^(t-1)) with q = r + M e, e about (nx + nu + 1) u times the row sums of |A| + |B||K| and a the error of numbers too small for the format, and their distance from the states without rounding is at most M (e Y + a)(1 + ... + r^(t-1)). If the closed loop is stable (for example with the gain of solve_dare), a precision exists from which on the computed states shrink like M q^t + C eta with q < 1.", "quantifier": "every linear system, gain, initial state, number of steps, rounding with errors u and eta, order of the sums in each product", "why_tests_cant": "A test compares a few runs up to a tolerance; the claim bounds the errors of all runs of any length, and of all floating point formats and summation orders.", "anchors": ["pympc/dynamics/discrete_time_systems.py:68-92", "pympc/dynamics/discrete_time_systems.py:94-128"]}
{"id": "C191", "title": "When the test of the explicit controller passes", "statement": "The body of the loop of test_explicit_solution, for a controller whose explicit solution is stored and a state x: if no region is found to contain x it passes if feedforward(x) has no answer and raises TypeError otherwise; if a region is found and feedforward(x) has no answer an assertion fails; if both answer it passes exactly if the explicit value is within 5e-8 of the optimal cost and all inputs are within 1.5e-6 of the optimal ones, which is so if x satisfies the inequalities of the region.", "quantifier": "every controller with consistent sizes and convex costs, every step size, every state", "why_tests_cant": "The test draws ten states for each of ten systems; the claim is about all of them, including the states near the boundary of a region where explicit and implicit answers differ.", "anchors": ["pympc/test/test_control/test_controllers.py:103-163", "pympc/control/controllers.py:126-186"]}
{"id": "C192", "title": "Constraint violation from the computed invariant set, and recursive feasibility up to a factor", "statement": "Let the constraints D of a linear system hold at the origin with margin beta > 0, and let mcais(K, D) return O. There is s >= 1, the power of 1 + 1e-7/beta with the number of facets dropped at the end, such that every trajectory of u = K x from O satisfies D with right-hand side s b at all times; and in the predictive controller with terminal set O, if the problem is feasible at x with inputs u then it is feasible at (A x + B u(0)) / s.", "quantifier": "every linear system, gain, bounded domain around the origin, horizon, weights, state, time", "why_tests_cant": "The set that mcais returns need not be invariant (C55_false); how much can be lost is a statement about all trajectories and all times.", "anchors": ["pympc/dynamics/discrete_time_systems.py:128-158", "pympc/dynamics/discrete_time_systems.py:584-655", "pympc/control/controllers.py:15-85"]}
{"id": "C193", "title": "When the test of the hybrid controller passes", "statement": "For a piecewise affine system whose first mode is a linear system S1 on D, any horizon, weights, terminal set and state: if the linear predictive controller of S1 answers, the hybrid one answers with a value that is not greater, and the comparison of inputs, states, values, modes, feedback and get_mpqp passes exactly if all answered modes are 0; the comparison of an answer with get_mpqp of its own modes always passes; on an invariant terminal set, with P and K from solve_dare, the hybrid value is at most 1/2 x P x and the comparison with the LQR passes exactly if all answered modes are 0.", "quantifier": "all systems, domains, horizons, weights, terminal sets, states, and answers of the solvers within their contracts", "why_tests_cant": "The test uses one system and three states.", "anchors": ["pympc/test/test_control/test_controllers.py:165-289", "pympc/control/controllers.py:611-680"]}
{"id": "C194", "title": "The tests of the geometric functions", "statement": "With any linear algebra library within its contract, test_nullspace_basis and test_linearly_independent_rows pass; test_plane_through_points passes for any offsets np.random.rand may draw. (False of the first: it passes for exactly one of the two signs that the singular vectors may have. The last raises LinAlgError if the last offset drawn is zero.)", "quantifier": "all answers of the SVD and QR factorizations within their contracts, all offsets", "why_tests_cant": "A test sees the one sign its library returns and the offsets of one run.", "anchors": ["pympc/test/test_geometry/test_utils.py:12-66", "pympc/geometry/utils.py:4-92"]}
{"id": "C195", "title": "The test of the calls of the solvers", "statement": "With any linear algebra library and any optimizer within their contracts: test_linear_program and test_quadratic_program pass with pnnls, test_quadratic_program and the mixed-integer test pass with Gurobi, and test_linear_program with Gurobi passes exactly if the constraints that Gurobi reports as nonbasic are the expected ones.", "quantifier": "all answers of the library and of Gurobi within their contracts", "why_tests_cant": "A test sees one version of the library and of Gurobi; the programs have unique solutions and multipliers, so no other can fail.", "anchors": ["pympc/test/test_optimization/test_programs.py:14-167", "pympc/optimization/programs.py:9-150"]}
{"id": "C196", "title": "The test of the solvers of quadratic programs", "statement": "test_quadratic_programming_solver passes with pnnls and with Gurobi, for every linear algebra library and every optimizer within their contracts.", "quantifier": "all answers of the library and of Gurobi within their contracts", "why_tests_cant": "The last program of the test has many multipliers, of which the test expects one; the versions of the library and of Gurobi at hand happen to return it.", "anchors": ["pympc/test/test_optimization/test_solvers.py:255-329", "pympc/optimization/solvers/pnnls.py:149-240", "pympc/optimization/solvers/gurobi.py:60-117"]}
{"id": "C197", "title": "The test of the solvers of linear programs", "statement": "test_linear_programming_solver passes with pnnls for every linear algebra library within the contract.", "quantifier": "all answers of the library within its contract", "why_tests_cant": "The last program of the test has many multipliers, of which the test expects one; the version of the library at hand happens to return it.", "anchors": ["pympc/test/test_optimization/test_solvers.py:13-253", "pympc/optimization/solvers/pnnls.py:5-147"]}
{"id": "C198", "title": "The test of the largest ball", "statement": "test_chebyshev passes for every linear algebra library within the contract.", "quantifier": "all answers of the library within its contract", "why_tests_cant": "One polyhedron of the test has many largest balls, of which the test expects one; the version of the library at hand happens to return it.", "anchors": ["pympc/test/test_geometry/test_polyhedron.py:581-632", "pympc/geometry/polyhedron.py:687-768", "pympc/optimization/solvers/pnnls.py:5-147"]}
{"id": "C199", "title": "The test of the removal of equalities", "statement": "test_remove_equalities passes with every library within the contract: the square [-1,1]^2 cut by x1 + x2 = 1 becomes a segment in one coordinate, and at each of the four listed coordinates one of its inequalities is active. The check in the test is weaker than that: it takes a column minus an array with one axis, which is a matrix, and passes a number as soon as its product with any row of E is any entry of f.", "quantifier": "every library within the contract; every E, f, number for the last part", "why_tests_cant": "The test runs with one library and cannot see that its own check is weak.", "anchors": ["pympc/test/test_geometry/test_polyhedron.py:257-299", "pympc/geometry/polyhedron.py"]}
{"id": "C200", "title": "The tests of wrong initializations", "statement": "test_check_affine_system and the three test_intialization of linear, affine and piecewise affine systems pass: every wrong call raises ValueError. The faults are the announced ones: the systems and domains of the last test without the fault, in any equal positive number, are accepted with 3 states and 2 inputs.", "quantifier": "every positive number of systems and domains", "why_tests_cant": "A test for ValueError does not show that the error has the intended cause.", "anchors": ["pympc/test/test_dynamics/test_utils.py:10-33", "pympc/test/test_dynamics/test_discrete_time_systems.py:279-323", "pympc/dynamics/discrete_time_systems.py:439-485"]}
{"id": "C201", "title": "The tests of normalize and of the cartesian product", "statement": "test_normalize and test_cartesian_product pass. normalize gives exactly the expected rows, in their order; the rows of the product of the square cut by x1 + x2 = 0 with itself are those of the first factor followed by those of the second, a different order than that of the box in four dimensions with two equalities, and same_rows matches them.", "quantifier": "the runs of the two tests", "why_tests_cant": "The tests compare up to tolerances and up to order; the theorem gives the exact rows.", "anchors": ["pympc/test/test_geometry/test_polyhedron.py:231-255", "pympc/test/test_geometry/test_polyhedron.py:551-579", "pympc/geometry/polyhedron.py"]}
{"id": "C202", "title": "The test of same_rows", "statement": "test_same_rows passes for all the numbers in [0, 1) that np.random.rand can give and all orders that shuffle can give. (Violated: for example with equal factors of all the columns the rows are the same up to scaling and the last assertion fails.)", "quantifier": "all random numbers of the ten iterations", "why_tests_cant": "The test runs with one seed for the numbers.", "anchors": ["pympc/test/test_geometry/test_utils.py:67-90", "pympc/geometry/utils.py:same_rows"]}
{"id": "C203", "title": "The test of same_vectors", "statement": "test_same_vectors passes for all the numbers in [0, 1) that np.random.rand can give and all orders that shuffle can give. (Violated: for example if the vectors are equal.) same_vectors is True on a list of vectors that allclose tells apart and the same list in another order, and raises ValueError if one of the arrays has two axes.", "quantifier": "all random numbers of the test; lists of any length of vectors of any size, in any order", "why_tests_cant": "The test runs with one seed for the numbers and one length of the lists.", "anchors": ["pympc/test/test_geometry/test_utils.py:93-113", "pympc/geometry/utils.py:same_vectors"]}
{"id": "C204", "title": "The tests of added rows and of the constructors from bounds", "statement": "The parts of test_add_functions and test_from_functions without symbolic expressions pass: after inequalities, equalities and bounds are added on all or some of the coordinates the arrays of the polyhedron have the rows that the test lists (as compared by same_rows, with its normalization and the tolerances of allclose), the constructors from bounds give the listed rows, and the calls with wrong sizes raise ValueError.", "quantifier": "the execution of the tests; the lemmas behind it hold for all polyhedra, bounds and indices", "why_tests_cant": "The tests run in floating point, and they cannot show that same_rows tells the listed rows apart for all tables of such integers.", "anchors": ["pympc/test/test_geometry/test_polyhedron.py:43-103", "pympc/test/test_geometry/test_polyhedron.py:136-210", "pympc/geometry/polyhedron.py:add_bounds", "pympc/geometry/utils.py:same_rows"]}
{"id": "C205", "title": "The test of the intersection", "statement": "test_intersection passes: the intersection of the boxes [-1, 1]^2 and [0, 2]^2 has, after remove_redundant_inequalities, the rows of the box [0, 1]^2 as compared by same_rows, and with an equality that no point of the second box satisfies it is empty. The rows of P1.intersection(P2) are the rows of P2 followed by the rows of P1, and its points are the points in both.", "quantifier": "all solvers that meet their specification; for the last part all polyhedra with the same dimension", "why_tests_cant": "The test runs with one solver on two boxes.", "anchors": ["pympc/test/test_geometry/test_polyhedron.py:523-549", "pympc/geometry/polyhedron.py:intersection", "pympc/geometry/polyhedron.py:remove_redundant_inequalities"]}
{"id": "C206", "title": "The test of the redundant inequalities", "statement": "test_remove_redundant_inequalities passes: minimal_facets finds the listed facets of a triangle with redundant inequalities (also with a zero row), remove_redundant_inequalities leaves the listed rows up to a positive factor, an equality is taken into account, inequalities that follow from it are removed, and polyhedra without points raise ValueError.", "quantifier": "all solvers that meet their specification", "why_tests_cant": "The test runs with one solver; the facets it accepts depend on the answers of the solver at ties, here on rows that coincide.", "anchors": ["pympc/test/test_geometry/test_polyhedron.py:301-374", "pympc/geometry/polyhedron.py:minimal_facets", "pympc/geometry/polyhedron.py:remove_redundant_inequalities"]}
{"id": "C207", "title": "The test of the vertices", "statement": "test_vertices passes: the vertices of the polytopes of the test are the listed ones as compared by same_vectors, and vertices is None for an unbounded polyhedron, for one that its inequalities make flat, and for one without points; adding the bounds to the same object resets the stored answers.", "quantifier": "all solvers and convex hulls that meet their specification", "why_tests_cant": "The test runs with one solver and one version of qhull.", "anchors": ["pympc/test/test_geometry/test_polyhedron.py:695-754", "pympc/geometry/polyhedron.py:vertices"]}
