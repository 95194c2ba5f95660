# Formal model of pympc in Lean 4

## Layout

The Python functions of `/repo/pympc` and of `/repo/examples/pwa_from_urdf/utils.py` are modelled one
by one as Lean functions with the same branches and the same order of side effects, over exact real
arithmetic and with Python 3 semantics.

* `Verif/Np/*`     numpy arrays: a vector is a size and an entry function, a matrix is a shape and an
                   entry function. `np.dot`, `vstack`, `hstack`, `concatenate`, `block_diag`, slices,
                   fancy indexing ... are checked operations that return `Except PyErr` and raise
                   `ValueError` / `IndexError` on incompatible shapes as numpy does.
* `Verif/Model/*`  the code of the repository. Every definition cites file and lines.
* `Verif/Spec/*`   small specifications (membership in a polyhedron, optimum of a program, trajectory of a
                   system, cells of a Voronoi partition ...) written with plain sums. They do not mention the model.
* `Verif/Math/*`   mathematics that does not depend on the model (nonnegative least squares, Farkas,
                   LP duality, Stiemke, facets of polytopes, matrix exponential, ...).
* `Verif/Proofs/*` lemmas about the model.
* `Verif/Props/*`  the property theorems `Verif.Props.Cxx...`, and next to them `example`s showing that
                   their hypotheses are met by concrete cases.

Exceptions are values (`Py α = Except PyErr α`). Methods that mutate `self` are functions
`state → result × state` (`PyM`), so the state left behind by a raised exception is visible.
Loops are folds or structural recursion. The `while` loops (`mcais`, `explicit_solve`,
`_expand_simplex`) take a fuel argument and return `none` when it runs out; theorems quantify over all
fuels, and termination theorems give a fuel from which on the answer does not depend on it.

## Names

A property that holds of the code has a theorem `Cxx` (sometimes a second one with a suffix). A
property that does not hold, or holds only with provisos, has `Cxx_partial` (what does hold, with the
missing part named in its comment) and `Cxx_false` (the negation, with a concrete witness).
`MANIFEST.json` lists the theorems of each property and `properties.jsonl` the full statements.

## Trusted base

* Lean's kernel.
* The axioms `propext`, `Classical.choice`, `Quot.sound`. `#print axioms` gives exactly these three for
  every theorem listed in `MANIFEST.json` (they are all over the reals of Mathlib). There are no other
  axioms, no `sorry`, no `native_decide`, no `bv_decide`.
* The reading of the Python code recorded in the comments of `Verif/Model`.
* The contracts of the external routines below. They are hypotheses of the theorems that use them, not axioms.

## External routines

| contract | routine | satisfiable |
|---|---|---|
| `LibSpec` | `scipy.optimize.nnls`, `np.linalg.pinv`, `cholesky`, `svd` (right singular vectors), `qr` | `exists_lib` |
| `LibSound`, `NnlsWithin`, `NnlsStops` (weaker than `LibSpec`, for C168 – C179) | `scipy.optimize.nnls` when it stops before the minimum; `pinv`, `cholesky` as in `LibSpec` | `early_sound`, `early_within`, `early_stops` |
| `GurobiSpec` | `gurobipy` on the model that is built: optimal answers, multipliers, no answer only without optimum | `exists_gurobi` |
| `DareSpec` | `scipy.linalg.solve_discrete_are`: symmetric positive semidefinite solution of the Riccati equation | `dare_exists` (every controllable system has one, and C132 only one); example in `Props/MpcExamples` |
| `RealEigs` (C180) | `np.linalg.eig(P)[0]` for a symmetric `P`: a non-empty list of eigenvalues | example in `Props/LqrTestFalse` |
| `QhullSpec` | `scipy.spatial.ConvexHull`, `HalfspaceIntersection` | `exists_qhull` |
| `RandSpec` | `np.random.rand` in `plane_through_points`: the drawn offsets are generic | `exists_rand` |
| `ConvSpec` | `float` of a sympy expression | `exists_conv` |
| `HullVerticesSpec` | `ConvexHull(..).vertices` in the plane, counterclockwise | `exists_hullVertices` |
| `VorSpec` | `scipy.spatial.Voronoi(..).ridge_points` | `exists_vor` |
| `SolverSpec` | drake's `MathematicalProgram` with Gurobi in the example | `exists_solver` |
| `MathSolverSpec` | `MathematicalProgram.Solve` in `drake.py` | `exists_mathSolver` |
| `TaylorSpec` | drake's `FirstOrderTaylorApproximation` of a plant | `exists_taylor` |

`np.linalg.norm`, `inv`, `solve`, `matrix_rank`, `matrix_power`, `eig` (spectral radius) and
`scipy.linalg.expm` are exact mathematical functions. `matrix_rank` of an array without entries raises
`ValueError`, and `nnls` with a matrix without columns raises `RuntimeError` (scipy up to 1.11.4), so
linear and quadratic programs without any constraint raise.

## What is modelled

| Python | Lean |
|---|---|
| `geometry/polyhedron.py` constructor, `add_*`, `from_*`, `normalize`, `minimal_facets`, `remove_redundant_inequalities`, `_remove_equalities`, `empty`, `bounded`, `contains`, `is_included_in`, `intersection`, `cartesian_product`, `radius`, `center`, with caches | `Model/Polyhedron` |
| `vertices`, `project_to`, `from_convex_hull`, `convex_hull_method` and its helpers | `Model/Projection` |
| symbolic constraints and systems | `Model/Symbolic` |
| negative indices in `add_*` and `project_to` | `Model/NegIndex` |
| negative modes in `condense` and `get_mpqp` | `Model/NegModes` |
| arrays shared by several polyhedra | `Model/Heap` |
| arrays of integers, arrays changed by `same_rows` | `Model/Dtype` |
| `normalize` with any number of right-hand sides | `Model/NormalizeRaise` |
| `geometry/utils.py` | `Model/GeomUtils` |
| `optimization/solvers/pnnls.py`, `gurobi.py`, `drake.py` | `Model/Pnnls`, `Model/Gurobi`, `Model/Drake`, `Model/DrakeProg` |
| `optimization/programs.py` | `Model/Programs` |
| `optimization/parametric_programs.py` | `Model/MpQP`, `Model/FeasibleSet` |
| `dynamics/*` | `Model/Systems`, `Model/Pwa` |
| `control/controllers.py`: linear and hybrid controllers, condensing | `Model/Controllers`, `Model/Hybrid` |
| `plot.py`, `Polyhedron.plot`, `plot_state_space_partition`, `plot_optimal_value_function` (as lists of drawing commands) | `Model/Plot` |
| `examples/pwa_from_urdf/utils.py` | `Model/Voronoi`, `Model/Plant`, `Model/Example` |
| `examples/disjunctive_inequalities.ipynb` (sets; not the pictures) | `Model/Disjunctive` |
| `examples/hybrid_mpc.ipynb`, `hybrid_mpc_2.ipynb`: the cells that build the systems and design the controllers, for all parameters | `Model/Notebooks` |
| `examples/linear_mpc.ipynb`: the system, the controller and the simulation loop; `maximal_constraint_admissible_set.ipynb`: all but the pictures; for all parameters | `Model/LinearNotebooks` |
| `examples/pwa_from_urdf/cart_pole_from_urdf.ipynb`: the cells up to the controller and its output, for all parameters and plants | `Model/UrdfNotebook` |
| `contains`, `simulate` (also of piecewise affine systems), `simulate_closed_loop`, `get_mode`, `normalize`, `CriticalRegion.u` in floating point arithmetic, as relations | `Model/Rounding`, `Model/RoundingPwa`, `Model/RoundingLoop`, `Spec/Rounding` |
| `test/test_dynamics/test_discretization_methods.py` (its loop), `test/test_geometry/test_polyhedron.py` (some of the tests) | `Model/TestSuite` |
| `test/test_dynamics/test_discrete_time_systems.py`: `test_controllable`, `test_solve_dare_and_simulate_closed_loop` (the random draws are arguments) | `Model/TestLqr` |
| same file: the three `test_condense_and_simulate*` tests (the random draws are arguments) | `Model/TestCondense` |
| same file: `test_is_well_posed` (any number of states and inputs) | `Model/TestWellPosed` |
| same file: `TestMCAIS.test_mcais` (the random draws are arguments; the loops have a number of iterations; what `mcais` caches in `X` is computed again for each matrix) | `Model/TestMcais` |
| `test/test_optimization/test_parametric_programs.py` | `Model/TestParametric` |
| `test/test_control/test_controllers.py`: `test_implicit_solution`, for one system and one state, all parameters | `Model/TestController` |
| same file: `test_explicit_solution`, for one controller and one state | `Model/TestExplicit` |
| same file: `test_feedforward_feedback_and_get_mpqp`, its three parts, for any system, controller and state (the assertion that the second state is not in the terminal set is left out) | `Model/TestHybrid` |
| `pympc/test/test_geometry/test_utils.py`: `test_nullspace_basis`, `test_linearly_independent_rows`, `test_plane_through_points` | `Model/TestGeomUtils` |
| `pympc/test/test_optimization/test_programs.py`, with columns replaced by one dimensional arrays | `Model/TestPrograms` |
| `pympc/test/test_optimization/test_solvers.py` (the solvers are parameters) | `Model/TestSolvers` |
| `pympc/test/test_geometry/test_polyhedron.py` 581-632 | `Model/TestChebyshev` |
| `pympc/test/test_geometry/test_polyhedron.py` 257-299 | `Model/TestRemoveEqualities` |
| `pympc/test/test_dynamics/test_utils.py` 10-33, `test_discrete_time_systems.py` 12-20, 180-193, 279-323 | `Model/TestInit` |
| `pympc/test/test_geometry/test_polyhedron.py` 231-255, 551-579 | `Model/TestSets` |
| `pympc/test/test_geometry/test_utils.py` 67-90 (random numbers are parameters) | `Model/TestRows` |
| `pympc/test/test_geometry/test_utils.py` 93-113 (random numbers are parameters) | `Model/TestVectors` |
| `pympc/test/test_geometry/test_polyhedron.py` 43-92, 140-203 (lines 168-170 are in `test_bound_errors`) | `Model/TestBounds` |
| `pympc/test/test_geometry/test_polyhedron.py` 523-549 | `Model/TestIntersection` |
| `pympc/test/test_geometry/test_polyhedron.py` 718-731 | `Model/TestVertices` |
| `pympc/test/test_geometry/test_polyhedron.py` 301-374 | `Model/TestRedundant` |

Not modelled: `verbose` output and solver options passed as keyword
arguments, the other cells and notebooks (the explicit solution of `linear_mpc.ipynb` is C66; the Drake diagram and simulation of `cart_pole_from_urdf.ipynb`), and the other tests.

## Simplifications

* Real numbers instead of floating point, without infinities and nan. Thresholds of the code are kept as they are. `Model/Rounding` has `contains`,
  `simulate`, `normalize` and the evaluation of an explicit solution in floating point arithmetic (standard model of rounding, no overflow, any order of the sums), `Model/RoundingPwa` has `get_mode` and `simulate` of piecewise affine systems, and `Model/RoundingLoop` has `simulate_closed_loop`: C163-C167, C182, C183, C190. Element types of
  arrays appear in `Model/Dtype` only (`normalize` and `same_rows`); everywhere else the arrays hold floating point numbers.
* The broadcasting of numpy is modelled in sums and differences of arrays with the same number of dimensions
  (`np.broadcastV`, `np.broadcastM`) and in the comparison of rows (`Geom.compareRows`). Elsewhere (assignments to
  blocks in `Model/Systems` and `Model/Hybrid`, one dimensional with two dimensional arrays) the model raises `ValueError`
  where numpy would repeat an array of size one; this narrows the accepted inputs of the model, and theorems ask for consistent sizes.
* Matrices are two dimensional, right-hand sides are one or two dimensional (`NDArr`). Indices and modes
  are nonnegative, but for lists of indices of polyhedra and for mode sequences, which can be integers in `Model/NegIndex` (C141) and `Model/NegModes` (C148).
* `normalize` in `Model/Polyhedron` assumes as many right-hand sides as rows; `Model/NormalizeRaise` has it for any number (C153).
* `facet_center` in one dimension returns a vector of size one where the code returns a number.
* `ConvexHull(incremental=True)` with `add_points` is modelled as the hull of all the points.
* `Model/Heap` has references to whole arrays, no views.
* sympy expressions are trees with distinct symbols, sums and products of numbers are evaluated.
* drake's constant formulas (rejected by drake) are accepted in `Model/Example`; its objective is
  accumulated in the program. The plant has one input, which is fixed to zero.
* In `Model/Drake` (multipliers of `drake.py`) the point found by the solver is a parameter; `Model/DrakeProg` builds the
  programs and takes the solver as parameter.
* Plots are lists of matplotlib commands; colors and further keyword arguments, and what is drawn before an exception, are not kept; neither are the caches that plotting fills in the regions of an explicit solution.
  `Spec/Drawing` says which points the lines of a command cover.
* gurobi: `.5*H` of a matrix with no entry beyond `1e-9` is the number 0.

## Properties that do not hold of the code

| id | theorem | what happens |
|---|---|---|
| C05 | `C05_false` | index lists are sorted, so bounds for `[1,0]` go to the wrong coordinates |
| C06 | `C06_false` | a column `b` is rejected after the rows of `A` were added |
| C08 | `C08_false` | `contains` takes the absolute value after the maximum over the equalities |
| C11 | `C11_false`, `C11_any_false` | errors of successive removals of facets add up beyond `tol`, by any amount |
| C12 | `C12_false` | inclusion of an empty polyhedron may be answered by False |
| C16 | `C16_false` | `{x >= 1e8}` is reported empty |
| C17 | `C17_scaling_false` | `bounded` is wrong for badly scaled rows (unless some recession direction is parallel to all inequalities or clearly recedes from one) |
| C18 | `C18_false` | finite radius for sets with arbitrarily large balls |
| C20 | `C20_false`, `C20_no_rows_false` | `remove_redundant_inequalities` keeps cached answers that are no longer right, or that a fresh polyhedron would answer by `RuntimeError` |
| C21 | `C21_false` | interval vertices from `x <= 0, x <= 5e-8` |
| C22 | `C22_false`, `C22_thin_false` | projections miss parts behind facets with nearly equal normals; fail on thin sets |
| C23 | `C23_false`, `C23_self_false` | `normalize` changes another polyhedron that shares `A`, or itself if `b is d` |
| C25 | `C25_false` | rows (0), (1): no row is returned |
| C27 | `C27_false` | `same_rows` and `same_vectors` are True for `[2, 2]` and `[2]` |
| C28 | `C28_false` | `same_rows(A, A)` is False with repeated rows |
| C32 | `C32_false` | LP answers for programs infeasible by less than the tolerance |
| C33 | `C33_false` | tight constraints with zero multiplier are not in the active set |
| C37, C38 | `C37_false`, `C38_false` | entries up to `1e-9` are dropped from the gurobi model |
| C39 | `C39_false` | nearly active constraints make the multipliers of drake wrong |
| C42, C44, C66 | `C42_false`, `C44_false`, `C66_false` | points within the tolerance of a critical region get infeasible inputs; by how much at most: C155, and the loop stays stable: C156 |
| C45, C64 | `C45_false`, `C64_false`, `C64_no_rows` | None although feasible if the optimum is about 1e7 away from the unconstrained one; `RuntimeError` without inequalities |
| C46 | `C46_false` | feasible set misses points (C22) |
| C55 | `C55_false` | `mcais` drops facets that cut off less than `1e-7`, ignores equalities |
| C57 | `C57_false`, `C57_boundary_false` | `mcais` never ends for the double integrator, which passes its guards, nor for a stable system with the origin on the boundary of `X` |
| C60 | `C60_false` | two half-planes forming a thin wedge are well posed |
| C73 | `C73_false` | a weight of `1e-9` is dropped, the value is not the cost |
| C74 | `C74_false` | the mpQP of the optimal modes has no answer if the value exceeds 5e13 |
| C75 | `C75_false`, `C75_hybrid_false` | the controllers ignore equalities |
| C76 | `C76_false` | rounded big-M constants cut off trajectories |
| C77, C95 | `C77_false`, `C77_close_false`, `C77_equality_false`, `C95_false` | one dimensional points are sorted, close coordinates and equalities of X are ignored |
| C78 | `C78_false` | the example controller uses `Q` as terminal cost |
| C84 | `C84_false` | `explicit_solve` never ends |
| C85 | `C85_false` | tiny costs are dropped |
| C86 | `C86_false` | `vertices` raises for a square with the inequality `0 <= 0` |
| C89 | `C89_false` | `vertices` raises `TypeError` for `0 x <= -1` |
| C91 | `C91_false` | `LinearSystem.from_symbolic` drops offsets up to `1e-8` |
| C99 | `C99_false` | the terminal set of `mcais` contains a state where the feedback of `solve_dare` is not admissible |
| C100 | `C100_false` | `simulate` takes the first mode that contains the state: `is_well_posed` accepts two domains with a common facet, and after one step the controller has no answer |
| C101 | `C101_false` | states up to `1e-9` are dropped from the gurobi model: from `5e-10` the controller answers 0 forever |
| C105 | `C105_false` | drake: `LinAlgError` for a feasible program with a repeated active constraint |
| C107 | `C107_false` | drake: multipliers 1/2, -1/2 for `x <= 0`, `-x <= 0` |
| C108 | `C108_false`, `C108_rhs_false` | `normalize` truncates in arrays of integers: `x0 + x1 <= -1` becomes the plane |
| C109 | `C109_false` | `same_rows` normalizes its arguments in place |
| C110 | `C110_false`, `C110_int_false`, `C110_zero_false` | `same_rows` is True for the integer rows (1, 1) and (1, 2), and for every two single integer rows with two nonzero entries each; a row of zeros is divided by zero |
| C111 | `C111_false` | `plot_state_space_trajectory` puts the texts at the coordinates 0 and 1, whatever is drawn |
| C112 | `C112_false` | `plot_input_sequence` raises `NameError` for an empty list of bounds |
| C120 | `C120_false` | `radius` and `center` of the half line `x0 = 0, x1 <= 0` raise `ValueError` |
| C121 | `C121_false` | `linear_program` accepts one bound for three inequalities with two right-hand sides for one equality; `quadratic_program` repeats a single bound |
| C122 | `C122_false`, `C122_narrow_false` | `explicit_solve` returns nothing if the parameter 0 is infeasible, and steps over a region of width `4e-6` |
| C123 | `C123_false` | `explicit_solve` raises `TypeError` for `min u^2/2 s.t. u <= -5e-8` |
| C123 | `C123_unbounded_false` | with two parameters `explicit_solve` raises `ValueError` for `min u^2/2 - u x0 s.t. u <= 0`: the facet `x0 = 0` of the first region is a line and has no center |
| C124 | `C124_false` | the notebook `disjunctive_inequalities` builds `A2 x <= b2 + M delta` where its text says `M (1 - delta)`; `delta = 0` is infeasible and the drawn relaxation is too large |
| C126 | `C126_false` | with a repeated constraint the active sets `[0]` and `[1]` have overlapping critical regions |
| C141 | `C141_false` | `add_lower_bound` ignores negative indices: with `[0, -1]` two bounds are rejected, one is accepted and bounds `x[0]` only; `project_to([-1])` raises `TypeError` |
| C142 | `C142_false` | `ModelPredictiveController` with two states, `N = 1`, `Q` 3×3 and `P` 1×1 builds the same program as with two 2×2 weights; with two inputs `R` 1×1 is broadcast and couples the inputs |
| C150 | `C150_false` | `from_bounds` raises `AttributeError` for every two floats, `from_lower_bound` and `from_upper_bound` for a float without `n`, although `add_bounds` takes floats |
| C152 | `C152_false` | after the rejected addition of `2 x <= 9` (as a column) to `x <= 1` the point `1` is no longer contained, and nothing is raised |
| C143 | `C143_false` | `HybridModelPredictiveController` takes `R` of any size: with two inputs and `R` 1×1 the terminal cost of the state is charged to the second input, for every solver and state |
| C161, C162 | `C161_false`, `C162_false` | `test_implicit_solution` does not tie the last state to the one before: the set that it builds is not empty at a state from which no inputs are feasible, and the test fails there |
| C172 | `C172_false` | The QP solver divides the output of `nnls` by `1 + m y`, which is small when the feasible set is far from the unconstrained optimum: with a residual within 1e-12 of the smallest one the answer can be twice the optimum |
| C145 | `C145_false` | beyond the facet of the region of `{1}` of `min (u - x)^2/2 s.t. -1 <= u <= 1` the guess is `{0, 1}`, constraints that can not be active together |
| C180 | `C180_false` | the LQR test asserts a strict decrease for ten steps, but `x⁺ = u` is at the origin after one; and with `x⁺ = x + 2e-4 u` 1000 steps do not suffice for the cost to go |
| C185 | `C185_false` | The test of `condense` and `simulate` for piecewise affine systems puts a box around each state and input, from the value divided by 1.01 to the value times 1.01. When the trajectory settles (all draws 0.05, ten steps) a later state is in an earlier box, `get_mode` gives the earlier mode and the test fails |
| C187 | `C187_false` | (1) With `A = [[1/2, 1/2 + 5e-8], [0, 0]]`, `mcais` removes the facet that cuts off a corner of the square by 5e-8; from `x = (1 + 8e-8)(1, 1)`, which the result contains up to the tolerance, the next state is out of the square by 1.3e-7 and `test_mcais` fails. (2) With `A = [[a, 1/2], [0, a]]`, `a = 1 - 1e-6`, the norm of the state gets below 1e-4 and the state leaves the square later, which the test takes for a failure |
| C194 | `C194_nullspace_false` | the second case of `test_nullspace_basis` expects the basis `(0, 0, 1)`, but `(0, 0, -1)` is as good: of a library and the one with the opposite singular vectors, exactly one passes |
| C196 | `C196_false` | the last program of `test_quadratic_programming_solver` has the multipliers `(l, 1 + l)` for every `l ≥ 0`, and the test expects `(0, 1)`: with an `nnls` that returns another of its minimizers the test fails |
| C197 | `C197_false` | likewise the last program of `test_linear_programming_solver` |
| C198 | `C198_false` | `test_chebyshev` expects one of the many centers of the largest balls in the strip `x ≥ 1, x₁ ≤ 2` |
| C202 | `C202_false` | `test_same_rows` fails for some numbers that `np.random.rand` can give, for example equal factors of all the columns |
| C203 | `C203_false` | `test_same_vectors` fails for some numbers that `np.random.rand` can give, for example equal vectors |

## Observations that are part of the model

* `np.max` of an empty array raises: `contains` on a polyhedron without inequalities.
* Without any inequality or equality, `empty`, `bounded`, `minimal_facets`, `is_included_in`, `radius`, `project_to` and the
  controllers raise `RuntimeError`; `nullspace_basis` of a matrix without entries raises `ValueError`.
* The constructor does not compare the numbers of columns of `A` and `C`.
* The controller of `cart_pole_from_urdf.ipynb` writes `None` into an array of floats when no plan exists: the plant then gets nan as its input, without an error (C137).
* `is_included_in` and the big-M computations apply `-` to `None` when a program has no answer (`TypeError`).
* `bounded` does not cache its answer for empty polyhedra or when the nullspace is not trivial.
* `explicit_solve` passes the index of a facet of the region as active set guess, not that of a constraint.
* `check_affine_system` accepts `h = 0`; `condense_pwa_system` with no modes and `controllable` with no
  states or no inputs raise `ValueError`.
* `LinearSystem.mcais` and the condensing functions drop the equalities of their domains.
* `PieceWiseAffineSystem` changes the list passed by the user.
* The example controller raises `IndexError` with one mode; `set_initial_condition` accepts longer states.

## Mutation testing

`seeded/LOG.jsonl` has one line per attempt. Model definitions were edited in a scratch copy; the log
names the theorems that failed, the modules that could not be built because of them, and the theorems
that were tightened when the mutant survived.
