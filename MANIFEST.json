{
 "claims": [
  {
   "property": "C01",
   "status": "proved",
   "theorems": [
    "Verif.Props.C01"
   ],
   "note": "constructor: accepted exactly for consistent one-dimensional right-hand sides; represented set; no cached answers. The code does not compare the numbers of columns of A and C, so the theorem asks for the same number."
  },
  {
   "property": "C02",
   "status": "proved",
   "theorems": [
    "Verif.Props.C02"
   ],
   "note": "add_inequality / add_equality on selected coordinates, with what is rejected"
  },
  {
   "property": "C03",
   "status": "proved",
   "theorems": [
    "Verif.Props.C03"
   ],
   "note": "any list of add_* calls, in any order, with any mix of index lists"
  },
  {
   "property": "C04",
   "status": "proved",
   "theorems": [
    "Verif.Props.C04",
    "Verif.Props.C04_errors"
   ],
   "note": "bounds constructors and their errors"
  },
  {
   "property": "C05",
   "status": "partial",
   "theorems": [
    "Verif.Props.C05_false",
    "Verif.Props.C05_partial"
   ],
   "note": "FALSE of the code for index lists that are not increasing (witness in C05_false); partial: the k-th bound applies to the k-th smallest index"
  },
  {
   "property": "C06",
   "status": "partial",
   "theorems": [
    "Verif.Props.C06_false",
    "Verif.Props.C06_partial"
   ],
   "note": "FALSE of the code when the right-hand side is a column (rows of A are added before the exception); proved for one-dimensional right-hand sides"
  },
  {
   "property": "C07",
   "status": "proved",
   "theorems": [
    "Verif.Props.C07"
   ],
   "note": "normalize keeps the set, unit rows, untouched small rows, idempotent (exact arithmetic, float arrays)"
  },
  {
   "property": "C08",
   "status": "partial",
   "theorems": [
    "Verif.Props.C08_false",
    "Verif.Props.C08_partial"
   ],
   "note": "FALSE of the code with two or more equalities (abs of max instead of max of abs); proved for at most one equality, one-sided in general"
  },
  {
   "property": "C09",
   "status": "proved",
   "theorems": [
    "Verif.Props.C09",
    "Verif.Props.C09_errors"
   ],
   "note": "set contains the original one; exact under the gap condition on the removed inequalities; errors"
  },
  {
   "property": "C10",
   "status": "proved",
   "theorems": [
    "Verif.Props.C10"
   ],
   "note": ""
  },
  {
   "property": "C100",
   "status": "partial",
   "theorems": [
    "Verif.Props.C100_partial",
    "Verif.Props.C100_false"
   ],
   "note": "Assumes that the numbers of the programs are 0 or larger than 1e-9 along the loop and that the modes containing state and input (up to the tolerance of simulate) agree; domains without equalities. C100_false: is_well_posed accepts a system where simulate leaves the feasible states. Instance: fold in HybridLoopExamples. Contracts LibSpec, GurobiSpec."
  },
  {
   "property": "C101",
   "status": "partial",
   "theorems": [
    "Verif.Props.C101_partial",
    "Verif.Props.C101_false"
   ],
   "note": "Same assumptions as C100_partial. C101_false: from 5e-10 the closed loop of an integrator stays there forever. Instance: fold in HybridLoopExamples."
  },
  {
   "property": "C102",
   "status": "proved",
   "theorems": [
    "Verif.Props.C102"
   ],
   "note": "Contract GurobiSpec. Instance: dz_answer."
  },
  {
   "property": "C103",
   "status": "proved",
   "theorems": [
    "Verif.Props.C103"
   ],
   "note": "The facet must not be implied up to 1e-7 by the others. The base point lies in the region if the region is bounded or there is one parameter (else the Chebyshev program of the facet can be unbounded). Contract LibSpec. Instance: MpQPNeighboursExample."
  },
  {
   "property": "C104",
   "status": "proved",
   "theorems": [
    "Verif.Props.C104"
   ],
   "note": "Contracts LibSpec, MathSolverSpec. Instance in Props/DrakeProg."
  },
  {
   "property": "C105",
   "status": "partial",
   "theorems": [
    "Verif.Props.C105_partial",
    "Verif.Props.C105_false"
   ],
   "note": "None without feasible points, the optimum if the nearly active constraints are independent. C105_false: with a repeated active constraint LinAlgError is raised."
  },
  {
   "property": "C106",
   "status": "proved",
   "theorems": [
    "Verif.Props.C106"
   ],
   "note": "Contract MathSolverSpec. Instance in Props/DrakeProg."
  },
  {
   "property": "C107",
   "status": "partial",
   "theorems": [
    "Verif.Props.C107_partial",
    "Verif.Props.C107_false"
   ],
   "note": "Stationarity and zero multipliers away from the boundary. C107_false: negative multiplier for x <= 0, -x <= 0."
  },
  {
   "property": "C108",
   "status": "partial",
   "theorems": [
    "Verif.Props.C108_partial",
    "Verif.Props.C108_false",
    "Verif.Props.C108_rhs_false"
   ],
   "note": "Arrays with element types. The set is kept if the stored numbers fit the element type. C108_false: x0 + x1 <= -1 in integers becomes the plane."
  },
  {
   "property": "C109",
   "status": "partial",
   "theorems": [
    "Verif.Props.C109_partial",
    "Verif.Props.C109_false"
   ],
   "note": "Exactly which entries are written. C109_false: the set of the caller's polyhedron changes."
  },
  {
   "property": "C11",
   "status": "partial",
   "theorems": [
    "Verif.Props.C11_false",
    "Verif.Props.C11_any_false",
    "Verif.Props.C11_partial"
   ],
   "note": "false of the code: errors of successive removals add up, and can be amplified by any factor; each removal alone is accurate to tol"
  },
  {
   "property": "C110",
   "status": "partial",
   "theorems": [
    "Verif.Props.C110_partial",
    "Verif.Props.C110_false",
    "Verif.Props.C110_int_false",
    "Verif.Props.C110_zero_false"
   ],
   "note": "Floating point arrays. C110_false: rows (1,1) and (1,2) in integers are reported equal. C110_int_false: any two single integer rows with two nonzero entries are. C110_zero_false: integer rows of zeros are reported equal (the integer that nan is converted to), rows of floating point zeros are not."
  },
  {
   "property": "C111",
   "status": "partial",
   "theorems": [
    "Verif.Props.C111_partial",
    "Verif.Props.C111_false",
    "Verif.Props.C111_range"
   ],
   "note": "Everything but the position of the texts, which is given as it is in the code. C111_false: with dim=[1, 0] a text is at a point that is not drawn. C111_range: a missing coordinate raises IndexError."
  },
  {
   "property": "C112",
   "status": "partial",
   "theorems": [
    "Verif.Props.C112_partial",
    "Verif.Props.C112_false",
    "Verif.Props.C112_range"
   ],
   "note": "Bounds that are not an empty list. C112_false: an empty list raises NameError. C112_range: an input or bound shorter than the first input raises IndexError."
  },
  {
   "property": "C113",
   "status": "proved",
   "theorems": [
    "Verif.Props.C113",
    "Verif.Props.C112_range"
   ],
   "note": "The points covered by the lines of every panel. C112_range: a state or bound shorter than the first state raises IndexError."
  },
  {
   "property": "C114",
   "status": "proved",
   "theorems": [
    "Verif.Props.C114"
   ],
   "note": "For lists of vertices that contain all vertices and only points of the polyhedron, as computed (C86) and as stored by the projection (C22)."
  },
  {
   "property": "C115",
   "status": "proved",
   "theorems": [
    "Verif.Props.C115"
   ],
   "note": "Given that the feasible set is returned (C46) and that the value function can be evaluated on the plane."
  },
  {
   "property": "C116",
   "status": "proved",
   "theorems": [
    "Verif.Props.C116",
    "Verif.Props.C116_center",
    "Verif.Props.C116_halfPlane"
   ],
   "note": "Given the vertices of the regions (C86). C116_center: writing the active sets raises TypeError at a region without a center; C116_halfPlane: such a region."
  },
  {
   "property": "C117",
   "status": "proved",
   "theorems": [
    "Verif.Props.C117"
   ],
   "note": "All lists of arrays of one or two dimensions: when it raises, when it answers."
  },
  {
   "property": "C118",
   "status": "proved",
   "theorems": [
    "Verif.Props.C118"
   ],
   "note": "The invariance of X_N is a hypothesis of the claim, as in C99 (see C99_false for when it fails); so are the absence of tiny entries and the agreement of overlapping modes (see C100_false, C101_false). The theorem starts from the lists passed to PieceWiseAffineSystem. Example in HybridDesignExample.lean: two modes, a start in the second."
  },
  {
   "property": "C119",
   "status": "proved",
   "theorems": [
    "Verif.Props.C119"
   ],
   "note": "The condition on the rows is about rows that normalize leaves alone, their norm being at most 1e-7. The condition on the solver is met by the program of the example, which has two regions. For more parameters the search only steps over the centers of the facets (C103)."
  },
  {
   "property": "C12",
   "status": "partial",
   "theorems": [
    "Verif.Props.C12_false",
    "Verif.Props.C12_partial",
    "Verif.Props.C12_no_rows"
   ],
   "note": "first part proved; second part false of the code: an empty P1 may get an answer"
  },
  {
   "property": "C120",
   "status": "partial",
   "theorems": [
    "Verif.Props.C120_partial",
    "Verif.Props.C120_false"
   ],
   "note": "None or ValueError only when arbitrarily large balls fit. C120_false: the half line x0 = 0, x1 <= 0 raises ValueError; see also C18_false."
  },
  {
   "property": "C121",
   "status": "partial",
   "theorems": [
    "Verif.Props.C121_partial",
    "Verif.Props.C121_qp_partial",
    "Verif.Props.C121_one_bound",
    "Verif.Props.C121_drake",
    "Verif.Props.C121_false"
   ],
   "note": "Exactly the sizes pnnls accepts. C121_false: linear_program accepts one bound for three inequalities with two right-hand sides for one equality; quadratic_program one bound for two inequalities, repeated by broadcasting (C121_one_bound)."
  },
  {
   "property": "C122",
   "status": "partial",
   "theorems": [
    "Verif.Props.C122_partial",
    "Verif.Props.C122_many_partial",
    "Verif.Props.C122_false",
    "Verif.Props.C122_narrow_false"
   ],
   "note": "C122_many_partial: any number of parameters, if the step over each facet of the regions found is right (FacetToFacet): the point beyond the facet is infeasible only if everything beyond the facet is, and a region found to contain it has the whole facet in it. One parameter: every feasible one is in a region, if the pieces of the solution are longer than the step plus tolerances. C122_false: the start 0 is infeasible and nothing is returned. C122_narrow_false: a region of width 4e-6 is stepped over with the default step 1e-5."
  },
  {
   "property": "C123",
   "status": "partial",
   "theorems": [
    "Verif.Props.C123_partial",
    "Verif.Props.C123_many_partial",
    "Verif.Props.C123_false",
    "Verif.Props.C123_unbounded_false"
   ],
   "note": "One parameter, if the regions found have points; with more parameters, if moreover the facets gone through are bounded and have points. C123_false: TypeError on min u^2/2 s.t. u <= -5e-8, which solve answers. C123_unbounded_false: ValueError on min u^2/2 - u x0 s.t. u <= 0 with two parameters, for every step, since the facet x0 = 0 of the first region is a line."
  },
  {
   "property": "C124",
   "status": "partial",
   "theorems": [
    "Verif.Props.C124_partial",
    "Verif.Props.C124_false"
   ],
   "note": "What the code builds, and that it contains the documented relaxation. C124_false: with the data of the notebook delta = 0 is infeasible, delta = 1 allows points of neither polytope, and the drawn set has a point outside the documented relaxation."
  },
  {
   "property": "C125",
   "status": "proved",
   "theorems": [
    "Verif.Props.C125",
    "Verif.Props.C125_projection"
   ],
   "note": "C125_projection needs a point of the first polytope whose norm is below about 7e6 (C16)."
  },
  {
   "property": "C126",
   "status": "partial",
   "theorems": [
    "Verif.Props.C126_partial",
    "Verif.Props.C126_false"
   ],
   "note": "Optimizer, value and multipliers agree on overlaps; interiors of different active sets are apart if no constraint out of an active set is tight for all parameters. C126_false: u <= 0 twice, the regions of [0] and [1] both contain the positive parameters."
  },
  {
   "property": "C127",
   "status": "proved",
   "theorems": [
    "Verif.Props.C127"
   ],
   "note": "For problems with at least one inequality (without any, feedforward raises: C64_no_rows)."
  },
  {
   "property": "C128",
   "status": "proved",
   "theorems": [
    "Verif.Props.C128"
   ],
   "note": ""
  },
  {
   "property": "C129",
   "status": "proved",
   "theorems": [
    "Verif.Props.C129"
   ],
   "note": "The hypotheses on the terminal set and cost hold for the ones built from solve_dare and mcais (terminalDecrease_of_dare, terminalInvariant_of_mcais)."
  },
  {
   "property": "C13",
   "status": "proved",
   "theorems": [
    "Verif.Props.C13"
   ],
   "note": "intersection; different dimensions rejected"
  },
  {
   "property": "C130",
   "status": "proved",
   "theorems": [
    "Verif.Props.C130_pendulum",
    "Verif.Props.C130_cart"
   ],
   "note": "The bound np.pi/6 of the angle is a parameter; quotients are those of the reals (the parameters in denominators are positive)."
  },
  {
   "property": "C131",
   "status": "proved",
   "theorems": [
    "Verif.Props.C131_pendulum",
    "Verif.Props.C131_cart"
   ],
   "note": "Invariance of the terminal set is a hypothesis: it holds up to the tolerance of the removal of redundant facets (C99). Programs without tiny entries (C73)."
  },
  {
   "property": "C132",
   "status": "proved",
   "theorems": [
    "Verif.Props.C132"
   ],
   "note": "The solver is scipy.linalg.solve_discrete_are under DareSpec; that a solution exists is proved."
  },
  {
   "property": "C133",
   "status": "proved",
   "theorems": [
    "Verif.Props.C133"
   ],
   "note": "Unbounded sets under the condition on the scaling of C17 (bounded may report badly scaled unbounded sets as bounded, C17_scaling_false)."
  },
  {
   "property": "C134",
   "status": "proved",
   "theorems": [
    "Verif.Props.C134"
   ],
   "note": "scipy.spatial.Voronoi is trusted as VorSpec; which exception a single point raises depends on it."
  },
  {
   "property": "C135",
   "status": "proved",
   "theorems": [
    "Verif.Props.C135"
   ],
   "note": "Invariance of the terminal set is a hypothesis: it holds up to the tolerance of the removal of redundant facets (C99). scipy.linalg.solve_discrete_are under DareSpec."
  },
  {
   "property": "C136",
   "status": "proved",
   "theorems": [
    "Verif.Props.C136"
   ],
   "note": "Invariance of O_inf is a hypothesis (it holds up to the tolerance of the removal of redundant facets, C55). scipy.linalg.solve_discrete_are under DareSpec."
  },
  {
   "property": "C137",
   "status": "proved",
   "theorems": [
    "Verif.Props.C137"
   ],
   "note": "Drake's Taylor approximation under TaylorSpec, Gurobi under SolverSpec, scipy.spatial.Voronoi under VorSpec; the Drake simulation is not modelled. plant_input[:] = None stores nan without an error."
  },
  {
   "property": "C138",
   "status": "proved",
   "theorems": [
    "Verif.Props.C138"
   ],
   "note": "Under the conditions of C73: no equalities, and no entries of magnitude at most 1e-9 in the programs of the state."
  },
  {
   "property": "C139",
   "status": "proved",
   "theorems": [
    "Verif.Props.C139"
   ],
   "note": "scipy.linalg.solve_discrete_are under DareSpec; the cost is below the threshold 5e13 of the solver (C64). The horizon is not computed by the code, the theorem states that one exists."
  },
  {
   "property": "C14",
   "status": "proved",
   "theorems": [
    "Verif.Props.C14"
   ],
   "note": "Cartesian product"
  },
  {
   "property": "C140",
   "status": "proved",
   "theorems": [
    "Verif.Props.C140"
   ],
   "note": "The coefficients of the program (not its right hand sides) are zero or of magnitude above 1e-9; the exact cost needs this of the weights as well. That exactness fails at tiny right hand sides is C101_false and C73_false."
  },
  {
   "property": "C141",
   "status": "partial",
   "theorems": [
    "Verif.Props.C141_partial",
    "Verif.Props.C141_false"
   ],
   "note": "Which coordinates are bounded for every list of integers, and when ValueError is raised; projections with natural numbers are those of C22; a negative first dimension raises TypeError. Missing: negative indices from the end (false, C141_false)."
  },
  {
   "property": "C142",
   "status": "partial",
   "theorems": [
    "Verif.Props.C142_partial",
    "Verif.Props.C142_false"
   ],
   "note": "Exactly which sizes raise ValueError, for all horizons; other sizes give a controller, or LinAlgError if the Hessian is not square or singular. Missing: wrong sizes of Q and P with the right sum, and R with one row or column when N = 1 (false, C142_false)."
  },
  {
   "property": "C143",
   "status": "partial",
   "theorems": [
    "Verif.Props.C143_partial",
    "Verif.Props.C143_false"
   ],
   "note": "Exactly which sizes raise ValueError, for systems with bounded nonempty domains given by inequalities (so that the big-M constants exist, C70), under LibSpec. Missing: wrong sizes of Q and P with the right sum, and all sizes of R (false, C143_false)."
  },
  {
   "property": "C144",
   "status": "proved",
   "theorems": [
    "Verif.Props.C144_solve",
    "Verif.Props.C144_mpc"
   ],
   "note": "For solve and for the linear controller, with inequalities; under LibSpec (exact QP solver). The constant exists for the whole feasible set; degenerate programs (dependent active constraints) are included."
  },
  {
   "property": "C145",
   "status": "partial",
   "theorems": [
    "Verif.Props.C145_partial",
    "Verif.Props.C145_false"
   ],
   "note": "Exactly which guess is tried, and that it is the intended one if and only if the index of the inequality is that of its constraint. Missing: the intended guess for all regions (false, C145_false)."
  },
  {
   "property": "C146",
   "status": "proved",
   "theorems": [
    "Verif.Props.C146"
   ],
   "note": "Under LibSpec, for programs with at least one variable and one inequality. The bound is attained, see the example beside the theorem."
  },
  {
   "property": "C147",
   "status": "proved",
   "theorems": [
    "Verif.Props.C147"
   ],
   "note": "Under LibSpec (exact QP solver). The hypotheses are those of C97; C97 says when the closed loop runs forever. That the origin is in the terminal set is proved, not assumed."
  },
  {
   "property": "C148",
   "status": "proved",
   "theorems": [
    "Verif.Props.C148"
   ],
   "note": "For systems with as many domains as affine systems (the constructor raises otherwise). What the program is for nonnegative modes is C62 and C63."
  },
  {
   "property": "C149",
   "status": "proved",
   "theorems": [
    "Verif.Props.C149"
   ],
   "note": "Sizes are sums of absolute values. That the simulation with zero_order_hold is the solution of the differential equation for inputs constant over each step is C49 with C50."
  },
  {
   "property": "C15",
   "status": "proved",
   "theorems": [
    "Verif.Props.C15"
   ],
   "note": ""
  },
  {
   "property": "C150",
   "status": "partial",
   "theorems": [
    "Verif.Props.C150_partial",
    "Verif.Props.C150_false"
   ],
   "note": "False of from_bounds, which raises AttributeError for every two floats, and of from_lower_bound and from_upper_bound without n. Integers (not floats) are rejected by add_lower_bound as well (they have no size)."
  },
  {
   "property": "C151",
   "status": "proved",
   "theorems": [
    "Verif.Props.C151"
   ],
   "note": "Under LibSpec and GurobiSpec. As in C100 and C101 the domains have no equalities; tiny entries (which occur close to the origin, C101_false) and modes that disagree (C100_false) are excluded by hypotheses along the execution."
  },
  {
   "property": "C152",
   "status": "partial",
   "theorems": [
    "Verif.Props.C152_partial",
    "Verif.Props.C152_false"
   ],
   "note": "With two or more inequalities, or none, contains raises ValueError after the rejected call; with exactly one it answers with the rejected rows and the right-hand side of that inequality, which C152_false shows to be wrong."
  },
  {
   "property": "C153",
   "status": "proved",
   "theorems": [
    "Verif.Props.C153",
    "Verif.Props.C153_raised"
   ],
   "note": "Real numbers. The model with exceptions (Model/NormalizeRaise) is shown to agree with the one used elsewhere whenever it ends."
  },
  {
   "property": "C154",
   "status": "proved",
   "theorems": [
    "Verif.Props.C154",
    "Verif.Props.C154_forever"
   ],
   "note": "Under LibSpec. C154 is input-to-state stability as long as the controller answers; C154_forever gives robust recursive feasibility and constraint satisfaction near the origin."
  },
  {
   "property": "C155",
   "status": "proved",
   "theorems": [
    "Verif.Props.C155",
    "Verif.Props.C155_mpc"
   ],
   "note": "Quantifies the gap left by C42 and C66: C155 is for the critical regions and any tolerance, C155_mpc for feedforward_explicit with the code's 1e-7. The constant depends on the program only, not on the parameter, the region or the tolerance."
  },
  {
   "property": "C156",
   "status": "proved",
   "theorems": [
    "Verif.Props.C156"
   ],
   "note": "Under LibSpec for the stored solution. As long as feedback_explicit answers; the terminal set is not empty."
  },
  {
   "property": "C157",
   "status": "proved",
   "theorems": [
    "Verif.Props.C157",
    "Verif.Props.C157_double"
   ],
   "note": "The loop of the repository's own test. C157_double gives both discretizations of the double integrator in closed form, for every step."
  },
  {
   "property": "C158",
   "status": "proved",
   "theorems": [
    "Verif.Props.C158"
   ],
   "note": "Under LibSpec. The bodies of the tests are the programs test_* in Model/TestSuite; an assertion that fails is an exception."
  },
  {
   "property": "C159",
   "status": "proved",
   "theorems": [
    "Verif.Props.C159"
   ],
   "note": "Under LibSpec. With one parameter the projection uses neither Qhull nor random directions. The body of the test is TestSuite.test_solve in Model/TestParametric; an assertion that fails is an exception, and enough fuel makes the searches end."
  },
  {
   "property": "C16",
   "status": "partial",
   "theorems": [
    "Verif.Props.C16_false",
    "Verif.Props.C16_partial"
   ],
   "note": "false of the code for polyhedra that are at least 1e7 away from the origin; exact characterisation proved"
  },
  {
   "property": "C160",
   "status": "proved",
   "theorems": [
    "Verif.Props.C160"
   ],
   "note": "Under LibSpec and DareSpec. Assumes TerminalInvariant, which mcais gives up to its removed inequalities (C99)."
  },
  {
   "property": "C161",
   "status": "partial",
   "theorems": [
    "Verif.Props.C161_partial",
    "Verif.Props.C161_false"
   ],
   "note": "The equality of the last step is missing in the test: the set is empty exactly if no inputs satisfy the stage constraints or X_N is empty. C161_false is the integrator with N = 2 at the state 5."
  },
  {
   "property": "C162",
   "status": "partial",
   "theorems": [
    "Verif.Props.C162_partial",
    "Verif.Props.C162_false"
   ],
   "note": "Under LibSpec and DareSpec, at states that contains does not put into X_N by its tolerance alone, for feasible costs below the threshold of the solver, assuming TerminalInvariant (C99). C162_false: the last assertion fails at an infeasible state."
  },
  {
   "property": "C163",
   "status": "proved",
   "theorems": [
    "Verif.Props.C163"
   ],
   "note": "Standard model of floating point arithmetic (Spec/Rounding), without overflow; any order of the sums. Model/Rounding has the functions as relations."
  },
  {
   "property": "C164",
   "status": "proved",
   "theorems": [
    "Verif.Props.C164"
   ],
   "note": "Standard model of floating point arithmetic, without overflow; any order of the sums."
  },
  {
   "property": "C165",
   "status": "proved",
   "theorems": [
    "Verif.Props.C165"
   ],
   "note": "Under LibSpec for the controller, whose quadratic programs are solved exactly; the simulated system is in floating point arithmetic. Consequence of C154 and C164's bound of one step."
  },
  {
   "property": "C166",
   "status": "proved",
   "theorems": [
    "Verif.Props.C166"
   ],
   "note": "Standard model of floating point arithmetic, without overflow; the norm may be any number larger than the threshold."
  },
  {
   "property": "C167",
   "status": "proved",
   "theorems": [
    "Verif.Props.C167"
   ],
   "note": "The lookup is in floating point arithmetic; the regions themselves are those of exact arithmetic. Uses C155 and C163."
  },
  {
   "property": "C168",
   "status": "proved",
   "theorems": [
    "Verif.Props.C168"
   ],
   "note": "Contract LibSound: nnls returns some nonnegative vector and the norm of its residual; pinv is exact."
  },
  {
   "property": "C169",
   "status": "proved",
   "theorems": [
    "Verif.Props.C169"
   ],
   "note": "Contracts LibSound and NnlsWithin."
  },
  {
   "property": "C17",
   "status": "proved",
   "theorems": [
    "Verif.Props.C17",
    "Verif.Props.C17_any_scaling",
    "Verif.Props.C17_scaling_false"
   ],
   "note": "under a bound on the scaling of the rows; without it, one direction and a counterexample"
  },
  {
   "property": "C170",
   "status": "proved",
   "theorems": [
    "Verif.Props.C170"
   ],
   "note": "Contracts LibSound and NnlsStops; the arithmetic outside nnls, cholesky and the inverse is exact."
  },
  {
   "property": "C171",
   "status": "proved",
   "theorems": [
    "Verif.Props.C171"
   ],
   "note": "Contract LibSound; NnlsWithin for the last part."
  },
  {
   "property": "C172",
   "status": "partial",
   "theorems": [
    "Verif.Props.C172_partial",
    "Verif.Props.C172_false"
   ],
   "note": "False: for min x^2/2 s.t. x >= 10000 a library within 1e-12 of the smallest residual makes the solver answer 20000.0001 (C172_false). C172_partial: the errors are bounded by multiples of 1 + rho, rho the squared distance of some feasible point from the unconstrained optimum."
  },
  {
   "property": "C173",
   "status": "proved",
   "theorems": [
    "Verif.Props.C173",
    "Verif.Props.C173_answers"
   ],
   "note": "Contracts LibSound and NnlsStops (C173), LibSound (C173_answers); the arithmetic outside nnls, cholesky and the inverse is exact."
  },
  {
   "property": "C174",
   "status": "proved",
   "theorems": [
    "Verif.Props.C174"
   ],
   "note": "Contracts LibSound and NnlsStops. Feasibility of the states of the loop is a hypothesis, which C175 discharges near the origin."
  },
  {
   "property": "C175",
   "status": "proved",
   "theorems": [
    "Verif.Props.C175"
   ],
   "note": "Contracts LibSound and NnlsStops."
  },
  {
   "property": "C176",
   "status": "proved",
   "theorems": [
    "Verif.Props.C176"
   ],
   "note": "Contract LibSound; NnlsWithin 1e-7 for the second part."
  },
  {
   "property": "C177",
   "status": "proved",
   "theorems": [
    "Verif.Props.C177",
    "Verif.Props.C177_answers"
   ],
   "note": "Contract LibSound; NnlsWithin for C177_answers."
  },
  {
   "property": "C178",
   "status": "proved",
   "theorems": [
    "Verif.Props.C178",
    "Verif.Props.C178_answers"
   ],
   "note": "Contract LibSound; NnlsWithin for C178_answers. Polyhedra without equalities."
  },
  {
   "property": "C179",
   "status": "proved",
   "theorems": [
    "Verif.Props.C179",
    "Verif.Props.C179_answers"
   ],
   "note": "Contract LibSound; NnlsWithin for C179_answers. Polyhedra without equalities."
  },
  {
   "property": "C18",
   "status": "partial",
   "theorems": [
    "Verif.Props.C18_false",
    "Verif.Props.C18_partial"
   ],
   "note": "false of the code for sets with arbitrarily large balls and nearly parallel facets; proved when ball radii are bounded"
  },
  {
   "property": "C180",
   "status": "partial",
   "theorems": [
    "Verif.Props.C180_partial",
    "Verif.Props.C180_false"
   ],
   "note": "False: x+ = u reaches the origin in one step, so x P x does not decrease strictly for ten steps, and a slow system needs more than 1000 steps (C180_false). C180_partial states exactly when the body passes, and that it does for z P z <= 87 z Q z and nonzero states. Contracts DareSpec and RealEigs; exact arithmetic."
  },
  {
   "property": "C181",
   "status": "proved",
   "theorems": [
    "Verif.Props.C181"
   ],
   "note": ""
  },
  {
   "property": "C182",
   "status": "proved",
   "theorems": [
    "Verif.Props.C182"
   ],
   "note": "Contract Spec.Rounds: standard model of rounding, no overflow."
  },
  {
   "property": "C183",
   "status": "proved",
   "theorems": [
    "Verif.Props.C183",
    "Verif.Props.run_exists"
   ],
   "note": "Contract Spec.Rounds: standard model of rounding, no overflow. The bound X on the computed states is a hypothesis."
  },
  {
   "property": "C184",
   "status": "proved",
   "theorems": [
    "Verif.Props.C184"
   ],
   "note": ""
  },
  {
   "property": "C185",
   "status": "partial",
   "theorems": [
    "Verif.Props.C185_partial",
    "Verif.Props.C185_false"
   ],
   "note": "The test passes exactly when no state and input of the trajectory is in the box around an earlier one (from its entries divided by 1.01 to its entries times 1.01, up to 1e-7). C185_false: ten steps that settle at a fixed point make the test fail."
  },
  {
   "property": "C186",
   "status": "proved",
   "theorems": [
    "Verif.Props.C186"
   ],
   "note": "Contract LibSpec."
  },
  {
   "property": "C187",
   "status": "partial",
   "theorems": [
    "Verif.Props.C187_partial",
    "Verif.Props.C187_contraction",
    "Verif.Props.C187_false"
   ],
   "note": "Contract LibSpec. C187_partial: if mcais removes no facet that cuts off points, the test passes exactly when no trajectory has norm below 1e-4 before it leaves the cube. C187_contraction: the test passes for all matrices with absolute row sums at most 1 - 1e-7. C187_false: draws for which the test fails, and a trajectory of the second kind."
  },
  {
   "property": "C188",
   "status": "proved",
   "theorems": [
    "Verif.Props.C188"
   ],
   "note": "Contract LibSpec."
  },
  {
   "property": "C189",
   "status": "proved",
   "theorems": [
    "Verif.Props.C189"
   ],
   "note": "Contract LibSpec. StaysIn X A x: A^t x is in X for all t >= 0."
  },
  {
   "property": "C19",
   "status": "proved",
   "theorems": [
    "Verif.Props.C19"
   ],
   "note": ""
  },
  {
   "property": "C190",
   "status": "proved",
   "theorems": [
    "Verif.Props.C190",
    "Verif.Props.C190_stable",
    "Verif.Props.C190_dare"
   ],
   "note": "Rounds fl u eta: relative error u and absolute error eta of each operation, no overflow; any order of the sums. C190_dare: contract DareSpec."
  },
  {
   "property": "C191",
   "status": "proved",
   "theorems": [
    "Verif.Props.C191"
   ],
   "note": "Contract LibSpec. Asserts r p: r is ok if p holds and AssertionError otherwise. Says exactly when the body passes; it does not pass at every state (see C66_false, C122_false)."
  },
  {
   "property": "C192",
   "status": "proved",
   "theorems": [
    "Verif.Props.C192"
   ],
   "note": "Contract LibSpec. s = (1 + 1e-7/beta)^k with k the number of the facets that redundancy removal drops. Quantifies what C55, C68 and C99 need the invariance of the terminal set for."
  },
  {
   "property": "C193",
   "status": "proved",
   "theorems": [
    "Verif.Props.C193"
   ],
   "note": "Contracts LibSpec, GurobiSpec; no tiny entries (as in C73). Says exactly when each part of the test passes, for all systems and states: the comparisons pass if and only if all answered modes are 0 (respectively some mode is not 0). Values below 5e13 (see C74_false)."
  },
  {
   "property": "C194",
   "status": "partial",
   "theorems": [
    "Verif.Props.C194_nullspace_partial",
    "Verif.Props.C194_nullspace_false",
    "Verif.Props.C194_rows",
    "Verif.Props.C194_plane"
   ],
   "note": "Contract LibSpec. The expected basis of one case of the nullspace test has the sign that the SVD happens to return; the contract (and LAPACK) leaves the sign open. The tests of same_rows and same_vectors are not modelled (their functions: C27, C28, C82)."
  },
  {
   "property": "C195",
   "status": "proved",
   "theorems": [
    "Verif.Props.C195"
   ],
   "note": "Contracts LibSpec, GurobiSpec. With Gurobi, the active sets of the linear programs come from its basis, on which the contract says nothing: the test passes exactly if they are the expected ones. The columns that the mixed-integer test passes are one dimensional here."
  },
  {
   "property": "C196",
   "status": "partial",
   "theorems": [
    "Verif.Props.C196_partial",
    "Verif.Props.C196_false"
   ],
   "note": "Contracts LibSpec, GurobiSpec. The last program has the multipliers (l, 1 + l) for every l >= 0 and the test expects l = 0: C196_partial says that the test passes exactly if the solver finds an l below the tolerance, C196_false gives, from every library within the contract, one within the contract with which the test fails."
  },
  {
   "property": "C197",
   "status": "partial",
   "theorems": [
    "Verif.Props.C197_partial",
    "Verif.Props.C197_false"
   ],
   "note": "Contract LibSpec. All programs but the last have unique values in all that the test checks, and pass. The last has the multipliers (l, 1 + l) for every l >= 0 and the test expects l = 0: C197_partial says that the test passes exactly if pnnls finds an l below the tolerance, C197_false gives, from every library within the contract, one within the contract with which the test fails. The run of the test with Gurobi is not treated: its active sets come from the basis, on which the contract says nothing."
  },
  {
   "property": "C198",
   "status": "partial",
   "theorems": [
    "Verif.Props.C198_partial",
    "Verif.Props.C198_false"
   ],
   "note": "Contract LibSpec. All assertions hold but the one on the first coordinate of the center of the strip x >= 1, x1 <= 2: any number from 1.5 on gives a largest ball, and the test expects 1.5. C198_partial says that the test passes exactly if the coordinate found is 1.5 up to the tolerance, C198_false gives, from every library within the contract, one within the contract with which the test fails."
  },
  {
   "property": "C199",
   "status": "proved",
   "theorems": [
    "Verif.Props.C199"
   ],
   "note": "Contract LibSpec. The last part records that the residual check of the test is weaker than intended, since a column minus an array with one axis is a matrix."
  },
  {
   "property": "C20",
   "status": "partial",
   "theorems": [
    "Verif.Props.C20_false",
    "Verif.Props.C20_partial",
    "Verif.Props.C20_empty_partial",
    "Verif.Props.C20_no_rows_false"
   ],
   "note": "false of the code: redundancy removal does not reset the cache; proved for all other histories, and for `empty` with removals"
  },
  {
   "property": "C200",
   "status": "proved",
   "theorems": [
    "Verif.TestSuite.C200"
   ],
   "note": "No library is called by these tests."
  },
  {
   "property": "C201",
   "status": "proved",
   "theorems": [
    "Verif.TestSuite.C201"
   ],
   "note": "No library is called by these tests. The exact rows of the results are stated besides the passing of the tests."
  },
  {
   "property": "C202",
   "status": "partial",
   "theorems": [
    "Verif.TestSuite.C202_partial",
    "Verif.TestSuite.C202_false"
   ],
   "note": "The random numbers are parameters. The test passes if they are such that allclose tells the normalized rows apart and the scaled columns change the rows; it fails for some numbers in [0, 1), for example equal factors for all the columns."
  },
  {
   "property": "C203",
   "status": "partial",
   "theorems": [
    "Verif.TestSuite.C203_partial",
    "Verif.TestSuite.C203_false"
   ],
   "note": "The random numbers are parameters. The test passes if allclose tells the vectors of each list apart; it fails for some numbers in [0, 1), for example equal vectors. C203_partial also gives same_vectors for lists of any length in any order and its ValueError."
  },
  {
   "property": "C204",
   "status": "proved",
   "theorems": [
    "Verif.TestSuite.C204"
   ],
   "note": "The tests have no parameters: C204 runs them on the model of Polyhedron and of same_rows (with the normalization and allclose with its default tolerances, in exact arithmetic). The parts of the two tests with symbolic expressions are not run here; the errors of the bounds are test_bound_errors."
  },
  {
   "property": "C205",
   "status": "proved",
   "theorems": [
    "Verif.TestSuite.C205"
   ],
   "note": "For all solvers with the specification LibSpec. C205 also gives the rows and the points of the intersection of any two polyhedra of the same dimension."
  },
  {
   "property": "C206",
   "status": "proved",
   "theorems": [
    "Verif.TestSuite.C206"
   ],
   "note": "For all solvers with the specification LibSpec, with same_rows and its normalization in exact arithmetic. The lemma facets_run gives the facets that minimal_facets finds on any polyhedron."
  },
  {
   "property": "C207",
   "status": "partial",
   "theorems": [
    "Verif.TestSuite.C207_partial"
   ],
   "note": "The unbounded, the flat and the empty polyhedron of the test (lines 718-731), for all solvers and hulls with their specifications. Missing: the comparisons of the vertices of the other polyhedra with the lists of the test."
  },
  {
   "property": "C21",
   "status": "partial",
   "theorems": [
    "Verif.Props.C21_partial",
    "Verif.Props.C21_close_partial",
    "Verif.Props.C21_false"
   ],
   "note": "exact end points when no inequality is almost redundant (also on the line cut out by equalities); in general the error is at most 1e-7 times the sum of 1/|a_i|; a counterexample with x <= 0, x <= 5e-8"
  },
  {
   "property": "C22",
   "status": "partial",
   "theorems": [
    "Verif.Props.C22_partial",
    "Verif.Props.C22_false",
    "Verif.Props.C22_thin_false"
   ],
   "note": "Proved: the result is contained in the projection; projected points violate it by at most tol + n(1e-8+1e-5)D; exact in one dimension; the loop ends when the projection contains a box of side 1e-7. C22_false: the bound by tol alone fails (facets with nearly equal normals are skipped). C22_thin_false: polytopes thinner than 1e-7 make it fail."
  },
  {
   "property": "C23",
   "status": "partial",
   "theorems": [
    "Verif.Props.C23_partial",
    "Verif.Props.C23_false",
    "Verif.Props.C23_self_false"
   ],
   "note": "polyhedra without common arrays are not affected; counterexamples: two polyhedra with the same A, one polyhedron with b = d"
  },
  {
   "property": "C24",
   "status": "proved",
   "theorems": [
    "Verif.Props.C24"
   ],
   "note": "for every matrix and every SVD meeting the contract of LibSpec; matrix_rank is the exact rank"
  },
  {
   "property": "C25",
   "status": "partial",
   "theorems": [
    "Verif.Props.C25_partial",
    "Verif.Props.C25_false"
   ],
   "note": "independence and distance to the preceding rows proved; maximality is false of the code, witness the 2x1 matrix with rows (0), (1)"
  },
  {
   "property": "C26",
   "status": "proved",
   "theorems": [
    "Verif.Props.C26",
    "Verif.Props.C26_returns"
   ],
   "note": "for every offset; also when it returns"
  },
  {
   "property": "C27",
   "status": "partial",
   "theorems": [
    "Verif.Props.C27_partial",
    "Verif.Props.C27_vectors_partial",
    "Verif.Props.C27_false"
   ],
   "note": "false when a row has a single entry, which numpy compares with each entry of the other row; true when the sizes are equal"
  },
  {
   "property": "C28",
   "status": "partial",
   "theorems": [
    "Verif.Props.C28_partial",
    "Verif.Props.C28_false"
   ],
   "note": "false with repeated rows; true when different rows are not within the tolerances of allclose"
  },
  {
   "property": "C29",
   "status": "proved",
   "theorems": [
    "Verif.Props.C29"
   ],
   "note": "nnls and pinv by contract LibSpec (shown satisfiable)"
  },
  {
   "property": "C30",
   "status": "proved",
   "theorems": [
    "Verif.Props.C30"
   ],
   "note": ""
  },
  {
   "property": "C31",
   "status": "proved",
   "theorems": [
    "Verif.Props.C31"
   ],
   "note": ""
  },
  {
   "property": "C32",
   "status": "partial",
   "theorems": [
    "Verif.Props.C32_false",
    "Verif.Props.C32_partial"
   ],
   "note": "false of the code: infeasible by less than tol is answered; proved: KKT within tol"
  },
  {
   "property": "C33",
   "status": "partial",
   "theorems": [
    "Verif.Props.C33_false",
    "Verif.Props.C33_partial"
   ],
   "note": "active set = multipliers > tol, all tight; the converse is false"
  },
  {
   "property": "C34",
   "status": "proved",
   "theorems": [
    "Verif.Props.C34"
   ],
   "note": ""
  },
  {
   "property": "C35",
   "status": "proved",
   "theorems": [
    "Verif.Props.C35"
   ],
   "note": ""
  },
  {
   "property": "C36",
   "status": "proved",
   "theorems": [
    "Verif.Props.C36"
   ],
   "note": ""
  },
  {
   "property": "C37",
   "status": "partial",
   "theorems": [
    "Verif.Props.C37_false",
    "Verif.Props.C37_dropped",
    "Verif.Props.C37_partial"
   ],
   "note": "false with entries of magnitude at most 1e-9; exact characterisation in C37_dropped"
  },
  {
   "property": "C38",
   "status": "partial",
   "theorems": [
    "Verif.Props.C38_false",
    "Verif.Props.C38_partial"
   ],
   "note": "false with tiny entries; proved without"
  },
  {
   "property": "C39",
   "status": "partial",
   "theorems": [
    "Verif.Props.C39_false",
    "Verif.Props.C39_partial"
   ],
   "note": "false with nearly active constraints; proved without"
  },
  {
   "property": "C40",
   "status": "proved",
   "theorems": [
    "Verif.Props.C40"
   ],
   "note": "the region is exactly the set of parameters where the active set is optimal; numpy.linalg.inv and matrix_rank exact"
  },
  {
   "property": "C41",
   "status": "proved",
   "theorems": [
    "Verif.Props.C41"
   ],
   "note": ""
  },
  {
   "property": "C42",
   "status": "partial",
   "theorems": [
    "Verif.Props.C42_partial",
    "Verif.Props.C42_false"
   ],
   "note": "First region that contains x, None exactly when no region does, exact agreement with solve when x satisfies the inequalities of the region, bounds on violation and suboptimality otherwise. The equality itself is false for points within the tolerance of the region."
  },
  {
   "property": "C43",
   "status": "proved",
   "theorems": [
    "Verif.Props.C43"
   ],
   "note": "for any content of the buffer; also: when the search ends all points beyond facets are through"
  },
  {
   "property": "C44",
   "status": "partial",
   "theorems": [
    "Verif.Props.C44_partial",
    "Verif.Props.C44_false"
   ],
   "note": "Everything but wrong guesses whose region contains x only within tolerance, for which the claim is false."
  },
  {
   "property": "C45",
   "status": "partial",
   "theorems": [
    "Verif.Props.C45_partial",
    "Verif.Props.C45_false"
   ],
   "note": "Exact whenever solve answers; None exactly if infeasible or the optimizer is more than about 1e7 away from the unconstrained one, where the claim is false."
  },
  {
   "property": "C46",
   "status": "partial",
   "theorems": [
    "Verif.Props.C46_partial",
    "Verif.Props.C46_false"
   ],
   "note": "the feasible set is the projection under the hypotheses of C22; counterexample with a skipped facet"
  },
  {
   "property": "C47",
   "status": "proved",
   "theorems": [
    "Verif.Props.C47"
   ],
   "note": ""
  },
  {
   "property": "C48",
   "status": "proved",
   "theorems": [
    "Verif.Props.C48"
   ],
   "note": ""
  },
  {
   "property": "C49",
   "status": "proved",
   "theorems": [
    "Verif.Props.C49"
   ],
   "note": "the matrix exponential is exact"
  },
  {
   "property": "C50",
   "status": "proved",
   "theorems": [
    "Verif.Props.C50"
   ],
   "note": ""
  },
  {
   "property": "C51",
   "status": "proved",
   "theorems": [
    "Verif.Props.C51",
    "Verif.Props.C51_single"
   ],
   "note": "condense_pwa_system, and condense of affine and linear systems"
  },
  {
   "property": "C52",
   "status": "proved",
   "theorems": [
    "Verif.Props.C52",
    "Verif.Props.C52_no_states",
    "Verif.Props.C52_no_inputs"
   ],
   "note": "also equivalent to steering in some number of steps"
  },
  {
   "property": "C53",
   "status": "proved",
   "theorems": [
    "Verif.Props.C53"
   ],
   "note": "scipy.linalg.solve_discrete_are by contract DareSpec"
  },
  {
   "property": "C54",
   "status": "proved",
   "theorems": [
    "Verif.Props.C54"
   ],
   "note": "set before redundancy removal is exact; final set contains it, exact under the gap condition"
  },
  {
   "property": "C55",
   "status": "partial",
   "theorems": [
    "Verif.Props.C55_partial",
    "Verif.Props.C55_false"
   ],
   "note": "The set before the removal of redundant facets is invariant and inside X, and so is the result when no removed facet cuts off points by less than the tolerance; LinearSystem.mcais poses the closed loop problem when the domain has no equalities. False in general: facets that cut off less than 1e-7 are dropped, equalities of the domain are ignored."
  },
  {
   "property": "C56",
   "status": "proved",
   "theorems": [
    "Verif.Props.C56"
   ],
   "note": "The answer is the same for every large fuel. Hypotheses: all trajectories go to the origin, X bounded without equalities with the origin inside."
  },
  {
   "property": "C57",
   "status": "partial",
   "theorems": [
    "Verif.Props.C57_partial",
    "Verif.Props.C57_false",
    "Verif.Props.C57_boundary_false"
   ],
   "note": "Returns when all eigenvalues are inside the unit circle and the origin is in the interior; false for the double integrator, which passes the checks but never stops, and for a stable system with the origin on the boundary."
  },
  {
   "property": "C58",
   "status": "proved",
   "theorems": [
    "Verif.Props.C58"
   ],
   "note": ""
  },
  {
   "property": "C59",
   "status": "proved",
   "theorems": [
    "Verif.Props.C59"
   ],
   "note": "membership in a domain is that of contains, with its tolerance 1e-7; domains have at least one inequality (contains raises otherwise)"
  },
  {
   "property": "C60",
   "status": "partial",
   "theorems": [
    "Verif.Props.C60_partial",
    "Verif.Props.C60_false"
   ],
   "note": "Exact for nonempty domains without equalities whose common balls have bounded radii. False for two half-planes that form a very thin wedge: they share balls of every radius but the answer is True."
  },
  {
   "property": "C61",
   "status": "proved",
   "theorems": [
    "Verif.Props.C61"
   ],
   "note": "sympy is modelled as expression trees with exact differentiation; float() of an expression is a contract (ConvSpec)"
  },
  {
   "property": "C62",
   "status": "proved",
   "theorems": [
    "Verif.Props.C62"
   ],
   "note": "for systems, domains, weights and mode sequences of consistent sizes; the constraints are the inequalities of the domains and of the terminal set (equalities are ignored by the code, see C75)"
  },
  {
   "property": "C63",
   "status": "proved",
   "theorems": [
    "Verif.Props.C63"
   ],
   "note": "cost of the condensed program equals the cost of the trajectory for symmetric Q and P; construction succeeds when the weights are positive (semi)definite"
  },
  {
   "property": "C64",
   "status": "partial",
   "theorems": [
    "Verif.Props.C64_partial",
    "Verif.Props.C64_false",
    "Verif.Props.C64_no_rows"
   ],
   "note": "Feasible, optimal, unique inputs with their cost whenever there is an answer; None exactly if infeasible or the optimal cost exceeds the unconstrained one by about 5e13, where the claim is false."
  },
  {
   "property": "C65",
   "status": "proved",
   "theorems": [
    "Verif.Props.C65_linear",
    "Verif.Props.C65_hybrid"
   ],
   "note": "feedback, feedback_explicit and the hybrid feedback are the first input of the corresponding feedforward (N > 0), None exactly when it has none, and raise when it raises."
  },
  {
   "property": "C66",
   "status": "partial",
   "theorems": [
    "Verif.Props.C66_partial",
    "Verif.Props.C66_false"
   ],
   "note": "Exact when x satisfies the inequalities of the region that is found to contain it; ValueError without a stored solution. C66_false: for x within the tolerance of a region the explicit input is infeasible while feedforward returns the optimum."
  },
  {
   "property": "C67",
   "status": "proved",
   "theorems": [
    "Verif.Props.C67",
    "Verif.Props.terminalInvariant_of_mcais"
   ],
   "note": "terminal set invariant and admissible for K; mcais answers satisfy this under the gap condition of C55"
  },
  {
   "property": "C68",
   "status": "proved",
   "theorems": [
    "Verif.Props.C68"
   ],
   "note": "for every number of steps of the closed loop; terminal set invariant and admissible for some gain; inequalities of D and X_N"
  },
  {
   "property": "C69",
   "status": "proved",
   "theorems": [
    "Verif.Props.C69",
    "Verif.Props.terminalDecrease_of_dare"
   ],
   "note": "also: the controller always has an answer if the initial value is below about 5e13; the hypothesis on the terminal cost holds for solve_dare"
  },
  {
   "property": "C70",
   "status": "proved",
   "theorems": [
    "Verif.Props.C70"
   ],
   "note": "alpha, beta, gamma are the exact minima/maxima over the domains (IsLeast/IsGreatest), for nonempty bounded domains with at least one inequality each and nx > 0."
  },
  {
   "property": "C71",
   "status": "proved",
   "theorems": [
    "Verif.Props.C71"
   ],
   "note": "Every feasible point with binary d of the condensed program is a trajectory with the modes read from d, satisfies the inequalities, and has the trajectory's cost. No assumption on the big-M constants or the solver."
  },
  {
   "property": "C72",
   "status": "proved",
   "theorems": [
    "Verif.Props.C72"
   ],
   "note": "Nonempty bounded domains: the constructor succeeds, every trajectory is a point of the program with equal cost; without equalities the sets of values coincide."
  },
  {
   "property": "C73",
   "status": "partial",
   "theorems": [
    "Verif.Props.C73_partial",
    "Verif.Props.C73_false"
   ],
   "note": "Proved for data without entries of magnitude in (0, 1e-9] (condition on the data, met by all integer data): inputs, states and modes are a trajectory, the value is its cost, None iff infeasible. C73_false: a weight of 1e-9 is dropped and the value is not the cost."
  },
  {
   "property": "C74",
   "status": "partial",
   "theorems": [
    "Verif.Props.C74_partial",
    "Verif.Props.C74_false"
   ],
   "note": "The mpQP of the optimal modes has the same value whenever it answers, under the proviso of C73; it answers if the value is below about 5e13. C74_false: with a larger value get_mpqp(modes).solve returns None."
  },
  {
   "property": "C75",
   "status": "partial",
   "theorems": [
    "Verif.Props.C75_partial",
    "Verif.Props.C75_false",
    "Verif.Props.C75_hybrid_partial",
    "Verif.Props.C75_hybrid_false"
   ],
   "note": "False for the linear controller (u = 1 required, u = 0 returned) and for the hybrid one (x = 1 required at the end, x = 0 reached). Partial: the programs are relaxations, so the value is a lower bound for the problem with equalities, and an answer that satisfies them is optimal. mcais: C55_false."
  },
  {
   "property": "C76",
   "status": "partial",
   "theorems": [
    "Verif.Props.C76_partial",
    "Verif.Props.C76_false"
   ],
   "note": "program points are trajectories; the converse if no big-M constant is rounded (NoCut); counterexample: a domain row violated by 5e-7"
  },
  {
   "property": "C77",
   "status": "partial",
   "theorems": [
    "Verif.Props.C77_partial",
    "Verif.Props.C77_false",
    "Verif.Props.C77_close_false",
    "Verif.Props.C77_equality_false"
   ],
   "note": "for the sorted points if one coordinate varies, differences beyond isclose, inequalities of X; counterexamples for the three exceptions"
  },
  {
   "property": "C78",
   "status": "partial",
   "theorems": [
    "Verif.Props.C78_partial",
    "Verif.Props.C78_false"
   ],
   "note": "answers are optimal for terminal cost Q whatever P is; counterexample with P different from Q"
  },
  {
   "property": "C79",
   "status": "proved",
   "theorems": [
    "Verif.Props.C79"
   ],
   "note": "Gurobi by contract GurobiSpec (shown satisfiable)"
  },
  {
   "property": "C80",
   "status": "proved",
   "theorems": [
    "Verif.Props.C80"
   ],
   "note": "Gurobi by contract GurobiSpec (shown satisfiable)"
  },
  {
   "property": "C81",
   "status": "proved",
   "theorems": [
    "Verif.Props.C81"
   ],
   "note": ""
  },
  {
   "property": "C82",
   "status": "proved",
   "theorems": [
    "Verif.Props.C82"
   ],
   "note": "same_rows with normalization"
  },
  {
   "property": "C83",
   "status": "proved",
   "theorems": [
    "Verif.Props.C83"
   ],
   "note": ""
  },
  {
   "property": "C84",
   "status": "partial",
   "theorems": [
    "Verif.Props.C84_partial",
    "Verif.Props.C84_false"
   ],
   "note": "Ends if the multipliers at the visited points are zero or greater than 1e-7; a program with two constraints on which it never ends."
  },
  {
   "property": "C85",
   "status": "partial",
   "theorems": [
    "Verif.Props.C85_partial",
    "Verif.Props.C85_false"
   ],
   "note": "Proved for programs without tiny coefficients; C85_false: a tiny cost is dropped."
  },
  {
   "property": "C86",
   "status": "partial",
   "theorems": [
    "Verif.Props.C86_partial",
    "Verif.Props.C86_false"
   ],
   "note": "exactly the extreme points if the constant inequalities are strict, None without a ball of radius 1e-7; vertices raises for a square with the inequality 0 <= 0"
  },
  {
   "property": "C87",
   "status": "proved",
   "theorems": [
    "Verif.Props.C87"
   ],
   "note": "points not on a hyperplane, dimension two or more; it raises on points of a hyperplane"
  },
  {
   "property": "C88",
   "status": "proved",
   "theorems": [
    "Verif.Props.C88"
   ],
   "note": "Reported-empty, unbounded (well scaled) and with equalities: ValueError, rows unchanged. Without rows: RuntimeError."
  },
  {
   "property": "C89",
   "status": "partial",
   "theorems": [
    "Verif.Props.C89_partial",
    "Verif.Props.C89_false"
   ],
   "note": "raises TypeError for the empty polyhedron 0*x <= -1"
  },
  {
   "property": "C90",
   "status": "proved",
   "theorems": [
    "Verif.Props.C90"
   ],
   "note": "for every expression that is accepted, affine or not"
  },
  {
   "property": "C91",
   "status": "partial",
   "theorems": [
    "Verif.Props.C91_partial",
    "Verif.Props.C91_false"
   ],
   "note": "exact for AffineSystem; LinearSystem.from_symbolic drops offsets up to 1e-8, counterexample x + 1e-9"
  },
  {
   "property": "C92",
   "status": "proved",
   "theorems": [
    "Verif.Props.C92"
   ],
   "note": "linear systems: expressions that vanish at the origin"
  },
  {
   "property": "C93",
   "status": "proved",
   "theorems": [
    "Verif.Props.C93"
   ],
   "note": "solver and LP contracts SolverSpec and LibSpec; no rounded big-M constants (C76_false shows this is needed)"
  },
  {
   "property": "C94",
   "status": "proved",
   "theorems": [
    "Verif.Props.C94"
   ],
   "note": "every sequence of calls"
  },
  {
   "property": "C95",
   "status": "partial",
   "theorems": [
    "Verif.Props.C95_partial",
    "Verif.Props.C95_false"
   ],
   "note": "points sorted if one coordinate varies, differences beyond isclose, inequalities of X; contracts VorSpec and TaylorSpec; counterexample with two unsorted points"
  },
  {
   "property": "C96",
   "status": "proved",
   "theorems": [
    "Verif.Props.C96"
   ],
   "note": "every single-mode system"
  },
  {
   "property": "C97",
   "status": "proved",
   "theorems": [
    "Verif.Props.C97"
   ],
   "note": "Instance: integrator_pipeline."
  },
  {
   "property": "C98",
   "status": "proved",
   "theorems": [
    "Verif.Props.C98"
   ],
   "note": "Contract DareSpec. Instance: integrator_pipeline."
  },
  {
   "property": "C99",
   "status": "partial",
   "theorems": [
    "Verif.Props.C99_partial",
    "Verif.Props.C99_false"
   ],
   "note": "The set of mcais is assumed to be invariant (sufficient condition in terminalInvariant_of_mcais; met in integrator_pipeline). C99_false: for |u| <= 1-4e-8, |x| <= 2 the set contains a state where Kx is not admissible."
  }
 ]
}
