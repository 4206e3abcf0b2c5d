# Formal model of simsopt in Lean 4 — design

Source under study: `/repo` (hiddenSymmetries/simsopt, pinned commit).  All
paths below are relative to `/repo/src`.  Nothing is executed; the model was
written by reading the code, and every definition cites file and lines.

## Layout

* `lean/Verif/<Area>/Model.lean`  – executable, total model of the code, function by
  function, exceptions as values.
* `lean/Verif/<Area>/Spec.lean` (where one is needed) – a small specification that does not
  mention the model's helpers.
* `lean/Verif/<Area>/Lemmas.lean` – helper lemmas.
* `lean/Verif/<Area>/Props.lean`  – the property theorems (names `Cxx_...`), each followed by
  non-vacuity `example`s.  `_partial` = only part of the property proved;
  `_violated` = the code at this commit does not have the property, concrete witness.
  Where the natural wording of a property is false of the code, the statement in
  properties.jsonl names the conditions under which it holds and says that they are needed;
  the positive theorems prove it under these conditions and the `_violated` theorems prove
  that the condition cannot be dropped (table of disagreements below).

## Trusted base

1. Lean 4.33.0 kernel; axioms at most `propext`, `Classical.choice`, `Quot.sound`.
2. My reading of the Python/C++ source into the model.  There is no extraction and no
   differential test (the sandbox has none of the dependencies).
3. Real numbers stand for floats wherever a theorem is about numeric *values* (Derivative,
   objectives, residuals, currents, rotations).  Where a theorem only moves values around
   (dofs, caches, serialisation) the value type is an arbitrary type, so floats are covered
   exactly.  Where rounding matters for a *decision* the model carries it: `MpiPartition`
   takes `floor` of a float quotient, modelled with an arbitrary rounding function satisfying the IEEE
   half-ulp bound (theorems assume nprocs² < 2^53); `parallel_loop_bounds` uses exact integer `//`.
4. Python runtime behaviour assumed: dict preserves insertion order and keeps the first
   position of a repeated key; `dict.fromkeys(l)` removes later duplicates; `np.array[mask] = v`
   assigns in order of the True positions; lists/str/ints behave as documented; sets have an
   arbitrary iteration order (theorems quantify over that order).
5. MPI: collectives called in the same order by all the members of a communicator match up,
   deliver bcast/reduce/gather values, and otherwise block (modelled as "mismatch").

## Not modelled

Floating-point rounding of objective values (except where stated in 3), the external solvers (VMEC, SPEC, Boozer
Newton solves, SciPy/JAX internals), numpy memory layout, SIMD, OpenMP, file-system errors, plotting, Python
garbage-collection timing (weak references to dead objects are a parameter), thread-safety.
Per area the header comment of each `Model.lean` lists what it leaves out.

## Models

* **Dofs** – class `DOFs`: record of names, values, mask, lower, upper over any value type; methods return `Except`.
* **Graph** – a heap of `Optimizable` objects and of `DOFs`; `exec` interprets each API operation on the heap
  (constructor, add/remove parent, x/full_x/local_* setters, fix/unfix, replace_dofs, …).  `Reachable` = any finite
  operation sequence, including failing ones.  Sets are iterated through an arbitrary permutation.
* **MakeOpt** – `make_optimizable` on the graph store; `Frame` shows which API calls can touch an object's parents and dof count (no naming hypothesis).
* **Descriptor** – every `validate` method, MRO chains, attribute dictionaries.
* **Deriv** – `Derivative` with a heap of arrays (so aliasing is visible); algebra over any commutative ring.
* **Util** – `parallel_loop_bounds`, `unique`-like helpers, padding.
* **FD**, **Mpi** – steps, serial Jacobian and MPI Jacobian over any field; `Sync.lean` proves a generic theorem on
  programs that communicate through synchronous collectives, `Proto.lean` gives the per-rank programs of the
  leader/worker loops.
* **Objectives** – expression trees of `OptimizableSum`/`ScaledOptimizable`/`QuadraticPenalty`/`MPIObjective`
  evaluated over graph stores; `Ext` bundles what the leaf objectives compute.
* **LeastSquares**, **Constrained** – the problem object's cache embedded in a graph world; histories (`Hist`,
  `Created`) interleave arbitrary graph operations with evaluations; `ReadsInputs` says an owner function reads only
  the dofs of its lineage; arithmetic over any ordered field, `sqrt` a parameter with its defining property.
* **Gson** – `GSONEncoder`/`GSONDecoder` on object graphs with atoms, lists, tuples and dicts; recursion depth is a
  fuel parameter; total-correctness relations `EncOK`/`DecOK`.
* **Coils** – rotations/flips, `apply_symmetries_to_curves/currents`, `Current` arithmetic, Biot–Savart kernels
  (B, A and first and second derivatives) over ℝ with points in ℝ×ℝ×ℝ.
* **Makegrid** – lines as token lists, number printing/parsing a function `rnd`; Fourier fit over ℝ.
* **Curves** – `CurveXYZFourier` (dofs, names, derivatives of every order used); further modules listed in the table.
* **Caches** – the C++ caches of curves and fields as a generic machine (`Sys`: which quantities, which are
  persistent, which are marked valid before their inputs are asked) on top of the graph model; `Classes` instantiates
  it with Curve, RotatedCurve, Current, BiotSavart, field sums and multiples; `Val` is an inductive specification of
  the value a quantity must have for the *current* dofs and points.  `set_points_cyl` is not modelled.

* **Distance** – the C++ search for close point clouds, CurveCurveDistance and CurveSurfaceDistance with their remembered
  candidates.  JAX gradients of single pair terms are assumed exact where used (hypothesis of C59_gradient).

## Per-property plan

| id | model | proof |
|----|-------|-------|
| C01–C03 | Dofs | list-mask lemmas (scatter/gather) by induction |
| C04–C12, C42–C44 | Graph | reachable-state invariant by induction over operation sequences; recursion of `_set_new_x` as reachability over child edges |
| C13 | MakeOpt: argument splitting and reassembly of `make_optimizable` | induction over argument lists |
| C14–C16 | Deriv (+ Graph for alignment) | algebra; heap frame lemmas |
| C17–C19 | Objectives; calculus over ℝ for C18 and for the gradient theorems | induction on expression trees, `HasDerivAt` |
| C20, C45 | Util | arithmetic, list induction |
| C21 | `MpiPartition.__init__` with rounded quotient | arithmetic |
| C22–C24, C46 | FD | algebra, sums; cache as state machine |
| C25 | Mpi (Sync, Proto) | simulation of all ranks, induction over sequences of evaluations |
| C26–C30, C47, C48 | LeastSquares | world invariant by induction over histories; algebra |
| C31, C32, C48 | Constrained | same |
| C33–C35 | Gson | mutual induction on value and depth |
| C36, C37, C50, C51 | Coils | algebra, trigonometry, `HasDerivAt` |
| C38, C49 | Makegrid | token lists; discrete orthogonality of cosines and sines |
| C39, C40 | Caches | invariant by induction over histories (`WInv`) |
| C41 | Descriptor | case analysis, induction over assignment histories |
| C52 | Curves.XYZ | sums, calculus |
| C53 | Curves.Geometry (curve.py formulas at one point) | `HasDerivAt` algebra, polynomial identities |
| C54 | Curves.Planar | sums, calculus, quaternion algebra |
| C55 | Curves.RZ | sums, calculus, trigonometry |
| C56, C57 | Curves.Symm | sums, trigonometry, Bezout |
| C58 | Distance.Model, Close (grid of cells, sorted sets, every OpenMP order) | sorted-merge induction, floor arithmetic |
| C59 | Distance.Objective, Surface (objects with remembered candidates) | invariant over histories, `HasDerivAt` |
| C60 | Penalties.{Model,Grad,Values} (five single-curve objectives, JAX gradients by rule) | `HasDerivAt`, one-sided derivatives at kinks, finite sums |
| C61 | Curves.Rotated (Jacobians, pull-backs, any nesting) | induction on nesting, orthogonality |
| C62 | Penalties.Linking (loops, downsampling) | permutation of double sums, continuity of `floor` |
| C63 | Coils.Vjp (kernels, sums over points and coils, `Coil.vjp`, rotated coils) | pointwise adjoint identity by `HasDerivAt` algebra, exchange of finite sums |
| C64 | Flux.{Model,Props} (integral_BdotN serial and as interleaved steps of threads, dJdB, the object and its field) | finite sums, quotient rule, permutation invariance over all interleavings; counterexample schedule |
| C65 | Surfaces.{RZModel,RZDofs,RZOps,RZSym} (packing loops on row-major buffers, names, mode numbers, accessors, histories) | one list of (array, index) pairs shown to describe set_dofs, get_dofs, names and Jacobian columns; invariant `Clean` for histories |
| C66 | Surfaces.{RZModel,RZShape} (the recurrence for sines/cosines, all six arrays) | induction over the recurrence, arrays as linear combinations of basis rows, HasDerivAt of the rows |
| C67 | Surfaces.{RZModel,RZJac} (Jacobian loops, vjp with thread-private arrays and index shifts) | linearity; sums over threads via permutations; index arithmetic by omega |
| C68 | Surfaces.RZSym | linear maps on basis rows, 2π-periodicity |
| C69 | Surfaces.{RZOps,RZRes} (change_resolution, copy, cache and persistent cache) | fold invariants for the copy loop; cache invariant over all histories; counterexample histories |
| C70 | Surfaces.{Generic,GenericProps,GenericRZ} (surface.cpp normals, area, volume, first and second derivatives) | calculus along an arbitrary differentiable family of shapes; instantiated end to end with the threaded SurfaceRZFourier vector-Jacobian products (C67) |
| C71 | Surfaces.{Generic,GenericProps} (fundamental forms, curvatures) | discriminant as a sum of squares; calculus |
| C72 | Surfaces.{Generic,GenericRadii,GenericRZ,Torus} (surface.py radii and aspect ratio) | line-integral form without the matrix inverse, then calculus; homogeneity; exact discrete trigonometric sums for the torus (which also witnesses the hypotheses) |
| C73 | Surfaces.{Grid,GridSym} (surface.py quadrature points, deduced_range) over the surface model of C67-C72 | explicit grids; sums over residues and reflections; symmetry of the integrands from C68 |
| C74 | Surfaces.Tools (wrap and bisection of cross_section; the sampling that finds the bracket is an assumption) | width halves each step; invariant `h u <= phi <= h v` and the intermediate value theorem |
| C75 | Surfaces.Tools (arclength_poloidal_angle, one row) | induction over the points |
| C76 | Magnets.MwPGP (one iteration: gradient, phi, beta_tilde, step lengths, the three branches, projection) | convex quadratic along projected steps; projection onto balls by Cauchy-Schwarz; variational inequality gives global optimality |
| C77 | Magnets.Prox (prox operators, recording schedule, acceptance check) | case analysis on the threshold; counting multiples; counterexamples |
| C78 | Magnets.Greedy (baseline and ArbVec as one loop over a configuration) | loop invariant; first-minimum search; residual as a finite sum |
| C79 | Magnets.Connect (repeated elimination of the nearest dipole) | elimination invariant, pigeonhole |
| C80 | Magnets.Backtrack (placement, pair removal, recording and stop tests; unwritten array entries are an arbitrary function) | invariant with the set of occupied dipoles, preserved by placement and pair removal; sweep over all pairs |
| C81 | Magnets.ArbBack (initial guess, placement, removal by angle) | the invariant of C80 with allowed vectors; nearest vector search |
| C82 | Magnets.Multi (groups from the neighbour table; failure of the search is explicit) | counting argument for the search, invariant per group |
| C83 | Wireframe.Model: the index arrays of ToroidalWireframe (segments, connected_segments, cell_key, cell_neighbors) and the rows of its continuity and total current constraints as functions of n_phi, n_theta. Specification: flows T I J, P I J on the whole torus, indexed by integers modulo the period and with mirrored images. | The flow of given segment currents exists and is unique; the rows of the continuity constraints are the divergence at the stored nodes, and the divergence at the other nodes follows from the mirror symmetry; the effect of a loop on all nodes of the torus; telescoping over cross-sections for the totals. |
| C84 | Wireframe.Constraints: the ordered dictionary of constraints, the flag implicits_updated, all public methods as state transformers with exceptions, the set of states any history of calls leads to. Specification: sets of segments without dead ends (NoDeadEnd); currents that meet the non-implicit constraints (Meets); C y = d (Solves). | Invariant of all reachable states (names unique and well formed, explicit and implicit disjoint, flag implies closed). Each pass adds only segments no dead-end-free set contains and at least one, so the loop ends at the greatest fixed point; the support of currents that balance at all nodes (C83) has no dead ends, whence the implied zeros and the redundancy of removed rows. |
| C85 | As C84. | Effect of each call on the explicit constraints, by induction over the list of segments, from the invariant. Two negative theorems: add_segment_constraints on an implicitly constrained segment raises AttributeError; set_segments_free on one has no effect. |
| C86 | Wireframe.NoCross: the walk over the free segments in find_inactive_nodes with an arbitrary choice function for set.pop. | The rows kept are rows of constraints (so nothing is lost); negative theorem: for a planar coil in a symmetry plane the only continuity constraint of the loop is removed, whatever the order, and the equations have solutions that are not continuous. Missing: redundancy for loops that avoid the fixed points of the symmetry. |
| C87 | Wireframe.Gsco: GSCO and check_eligibility line by line (history, incremental residual and segment count, argmin over both signs of all loops, stopping rules), get_gsco_iteration with numpy's indexed assignment; Wireframe.GscoWire: what gsco_wireframe passes on. | Invariant Gsco.Inv over all iterations: the stored residual and objectives are those of the replayed currents. |
| C88 | The same run; the constraints of Wireframe.Constraints. | Linearity of the rows in the loops, with C83 for continuity and total currents and C84 for constrained segments; negative theorem: a constraint added by add_constraint is ignored. |
| C89 | check_eligibility with all its branches; the spec is on the whole torus. | Induction over the recorded iterations; crossings by the images of the corners of a cell under periodicity and the mirror symmetry. |
| C90 | The choice of the loop and the stopping rules, with `opt_ind + nLoops % twoNLoops` as C++ parses it. | Each step is best among all allowed loops; early stops are local minima when match_current is off; negative theorems: one iteration from a local minimum makes the result worse, and the undo of a positive loop is not detected. Missing: early stops with match_current. |
| C91 | Rcls/Model: `regularized_constrained_least_squares` with real matrices over finite index types; scipy's qr, solve_triangular and lstsq enter by what they promise (orthogonal factor, solution of the triangular system or an error when it is singular, least-squares minimum) | Rcls/Solve, Exists: normal equations of the least-squares call, decomposition of a feasible vector along the orthogonal factor; existence by orthonormal bases of the row space and its complement |
| C92 | Rcls/Wire: `rcls_wireframe` on the wireframe model of C83-C86, `assume_no_crossings=False` | the reduced problem equals the full one because currents that meet the constraints vanish on constrained segments (C84); counterexample for 2d regularization on every unconstrained wireframe |
| C93 | same model, `constraint_matrices` of C84 | Rcls/Dual: for each constraint currents that violate it alone, by induction along the grid; Rcls/Island: the sum of the rows of an island vanishes on the free segments |
| C94 | `Mhd/Profiles.lean`: profile objects in the order of construction, `polyval` (Horner) and `polyder` of numpy, `f`, `dfds`, `resample`; splines by contract | induction over the construction order; `HasDerivAt` |
| C95 | `Mhd/Profiles.lean`: index checks of `ProfileSpec.f` and `dfds` with Python's truncation and negative indices | arithmetic of indices for every length; the ends of the range are wrong (violated) |
| C96 | `Mhd/Vmec*.lean`: `Vmec` objects, the shared module variables, the flag, the setters, `set_indata`, `run`; the solver, the fits and the net current are parameters | invariant over careful histories: the flag is down only if the stored output is the one of the present inputs, and the module variables hold what no object has replaced; six kinds of histories break the property (violated) |
| C97 | `Mhd/Boozer.lean`: registry, flag, the two-step index map of `run`; booz_xform and the equilibrium are parameters | invariant over histories; `argmin`, sorted set and `index` lemmas; two violations |
| C98 | `Mhd/Quasi.lean`: `Quasisymmetry.J` on a spectrum; `Util/Trig.lean`: orthogonality on uniform grids | symmetric fields are constant along a shift; the discrete Fourier projection of the shifted field determines every coefficient; two violations |
| C99 | `Fields/Model.lean`: every array expression of ToroidalField, PoloidalField and MirrorModel at one point, `arctan2` the argument of a complex number, the transpositions of the arrays explicit | partial derivatives (`HasDerivAt`) by the rules of calculus, at every point off the axis; the entries that are wrong are shown to be wrong by uniqueness of derivatives |
| C100 | `Fields/CoilModel.lean`: all the expressions of CircularCoil at one point, the constants 1e-31 a parameter; `Fields/Elliptic.lean`: `ellipe`, `ellipk` are the integrals | derivatives of the elliptic integrals by differentiation under the integral and integration by parts; then the chain rule along curves in the frame of the coil and an identity of rational functions; rotation by orthogonality. dB is refuted on the line x = 0 (mean value theorem), A by comparison with a corrected potential whose curl is proved to be B |
| C101 | Fields.Reiman: `ReimanB`, `ReimandB` at one point; integer modes (documented), equal lengths of `k` and `epsilonk`; pow with integer exponent | derivatives of cos/sin of integer multiples of arctan2 along a curve by induction on the multiple (no jump at the branch cut), chain rule for the two sums and the cylindrical components; divergence term by term; symmetries from equality of angles modulo full turns |
| C102 | Fields.Dipole: the four kernels of dipole_field.cpp for a list of dipoles at one point (both builds do the same arithmetic) | chain rule for the inverse distance, one dipole at a time, then the sum; `dA_by_dX` is proved to be the transpose of the documented array (C102_dA_transposed) and not the array itself wherever B is not zero (C102_dA_violated) |
| C103 | Fields.Dipole: `_dipole_fields_from_symmetries` and `dipole_field_Bn`; Fields.DipoleSym | equivariance of one dipole's term under rotation and half turn, cyclic shift and reversal of the sum over field periods; the matrix by exchanging sums and transposing the rotations |
| C104 | `Fields.DomRadial`, `Fields.DomModel`: every function of dommaschk.cpp over the reals, as it stands (loops as sums, `tgamma` as Mathlib's Gamma, truncating integer division), the bodies of the two kernels and the sum with `ToroidalField(1,1)`. `m ≥ 2`: for `m = 0` (the default of the constructor) `B` and for `m = 1` `dB` are NaN in the program (`0 * (1/0)`), and so is `n = 0` on the plane `Z = 0`; these cases are excluded by `Mode.Fits`. | Recursions of the coefficients give Bessel's equation with a lowered index for the radial sums (induction on the sums), the series in Z telescopes, hence Laplace's equation; derivatives along arbitrary smooth curves; a general lemma (`Fields.Cyl`) turns cylindrical derivatives into the Cartesian array. |
| C105 | `Fields.DomRace`: the parallel loop with its seven variables declared outside, hence shared by the threads; statement-level interleavings of threads, iterations assigned to threads arbitrarily. | Invariant by induction on executions with one thread (any number of points); a schedule of two threads that returns the field of the second point for the first, for any two points and any harmonic, and a concrete wrong value. |
| C106 | Fields/Derived.lean: the points (Cartesian or cylindrical, with C's truncating `fmod` and `atan2`), the conversions, `AbsB`, `GradAbsB`, `B_cyl`, `A_cyl`, `GradAbsB_cyl` for an arbitrary field | floor/ceiling arithmetic, uniqueness of the angle modulo 2π, orthonormality, chain rule along the coordinate curves |
| C107 | Fields/Algebra.lean: expression trees over arbitrary fields, evaluated as the two classes do; `B_vjp` with its filter on free dofs | mutual structural induction over nested sums; linearity of derivative, curl and divergence; a part without free dofs is constant in every free dof |
| C108 | Fields/Potential.lean: the sympy expression is a function of three variables and `diff` its partial derivative (sympy trusted); every entry of `Blambdify`, `dBlambdify_by_dX`, `_B_impl`, `_dB_by_dX_impl`, with the 1e-30 terms | derivative of arctan2 from the complex logarithm, chain rule, symmetry of second derivatives, explicit error matrix and its bound |
| C109 | Interp/Model.lean: rules, meshes, skip tables, full/reduced index maps, batched evaluation of the function, per-cell tables, evaluation | write-list semantics of every table; injectivity of the index maps; Mathlib's Lagrange interpolation for the basis; continuity by gluing finitely many closed cells |
| C110 | the same `eval` for arbitrary points: the 1e-13 shift, truncation, range checks, cell lookup | exact characterisation of the error; witnesses on a 2x2x2 grid |
| C111 | Interp/Field.lean: `fbatch_B`, point mapping, sign flips, on top of Fields/Derived.lean | parities under turn and reflection in cylindrical components; for GradAbsB through uniqueness of the derivatives of |B| (C106) |
| C112 | Interp/World.lean: points of both fields, interpolant and buffer with status, as a state machine | invariant over histories; witnesses by running histories |
| C113 | Boozer/Model: every line of `boozer_surface_residual` at a quadrature point, with `Setting` = field + linear surface; spec `boozer` is the formula of the documentation | curves of data (`Moves`, `Moves2`), product rule line by line; second derivatives from the first |
| C114 | Boozer/DB: `boozer_surface_residual_dB` line by line | one-component curves `setB`, `setDB`; `field_simp`/`ring` |
| C115 | Boozer/Penalty: rows, scalarised value, gradient, Hessian; `Cpp` models boozerresidual_impl.h with the mirrored triangle | C113 plus sums; term-by-term equality of the C++ and Python formulas (uses symmetry of the second derivatives of the field). `BoozerResidual`'s docstring (no 1/2, `label - constraint_weight`) disagrees with its code, ½Σr² + ½w(label - targetlabel)² |
| C116 | Boozer/Penalty: `kkt`, `dkkt` | derivatives of the Lagrangian |
| C117 | Boozer/Solve: state machine of `BoozerSurface` (flag, result, environment), solvers with abstract residual norms and steps that may raise | loop lemmas and an invariant over histories; toy instances for the negations. Also: a second `run_code` returns None; the option dict of the caller is mutated and `constraint_weight=0` selects the exact type (not modelled) |
| C118 | Boozer/Solve: `Iotas.J` with its cache | the invariant extended to the cached value |
| C119 | Boozer/Adjoint: triangular solves by substitution, `forward_backward`, `adjointGradient` | strong induction for the substitution; chain rule |
| C120 | Boozer/Adjoint `lsqVjp`, Boozer/ExactVjp `exactVjp` (mask, scatter) | C114 with `FieldMoves`; list lemmas for the boolean mask |
| C121 | Boozer/QS: `bqs`, `value`, `dJ_by_dB`, `dJ_by_dc` | quotient rule; the terms with the derivative of B_QS cancel along the averaged axis |
| C122 | The right-hand sides of tracing.cpp as functions of the field values (Tracing/Rhs.lean), the documented equations as separate specification | derivative of the invariant along any solution is zero (`is_const_of_deriv_eq_zero`), algebra |
| C123 | `get_phi` with `std::round` and `atan2` (Tracing/Model.lean) | case analysis on the three candidates, `Complex.arg` |
| C124 | `solve` with boost's stepper and root finder as parameters (any step sequence, any dense output); `trace_*` distribution over MPI (Tracing/Loop.lean, Stop.lean) | induction over the steps with an invariant for the criterion states; floor counting for the hits |
| C125 | The criteria of tracing.h with their state | same invariant; floor arithmetic |
| C126 | `compute_*_transits` for one particle | induction over the rows with C123 |
| C127 | `gc_to_fullorbit_initial_guesses` for one particle; specification: guiding center x - m/(q B²) B × v | explicit frame, algebra; uniform-field theorem by differentiation |
| C128 | `compute_resonances`, flux branch (Tracing/Res.lean) | membership characterisation; witness run of `solve` |
| C129 | `WField/Model.lean`: kernel of a segment and its gradient, loops over half periods and segments, current derivatives, normal-field row | `WField/Kernel.lean` integrates Biot–Savart by an explicit antiderivative; `WField/Field.lean` differentiates, sums over pieces, curl telescopes for closed currents; `WField/Sym.lean` holds the two counterexamples |
| C130 | `WField/Torus.lean`: nodes, half periods and signs built from the RZ surface model, segments from the wireframe grid | summation by parts over the half period, antisymmetry of the node weights on the symmetry planes (from C68), C83_continuity; symmetries of the field in `WField/Sym.lean` |
| C131 | `Solve/Model.lean`: the inner function with its `try`, the log, `nevals`; SciPy as an arbitrary strategy, a Jacobian as any sequence of residual calls; built on the least-squares model of C26-C30 | `Solve/Lsq.lean`: invariant over `Run` (induction over the exchanges); an evaluation repeated without a change of x returns the cache or raises again |
| C132 | `Solve/Constr.lean`: `_obj`, `_nlc`, bounds, logs; SciPy as an arbitrary strategy; built on the constrained model of C31-C32 | same file: invariant over `Run`; counterexample with a failing first evaluation |
| C133 | `FourInt/Model.lean`: nodes, weights, the matrix with its `eps*(D==0)`, both formulas, the quotient; exact real arithmetic | `FourInt/Props.lean`: half-angle exponentials turn both matrices into sums over roots of unity, `Σ ζ^p/(z-ζ) = N z^(p-1)/(z^N-1)`; on the grid the other entries of a row cancel in pairs; sharpness example |
| C134 | `Frames/Model.lean`: both frames row by row, the rotation and its Jacobians; exact reals | `Frames/Ortho.lean`: algebra of inner and cross products, Fourier sums by induction on the order |
| C135 | `Frames/Model.lean`: `jax.jvp` is the Fréchet derivative of a row | `Frames/Dash.lean`, `Frames/Torsion.lean`: chain rule through the row maps; derivatives of unit vectors are orthogonal to them; `Frames/Examples.lean`: circle, and a curve for which the mean condition fails and the result is wrong |
| C136 | `Frames/Model.lean`: `CurveFilament`, grid of shifts, the vjp formulas with `None` for unused arguments; `jax.vjp` is the gradient of the paired function | `Frames/Filament.lean`, `Frames/DashVjp.lean`: total derivative = sum of the partial gradients; second-order smoothness of the frames for gammadash |
| C137 | `Strain/Model.lean`: strains, penalties, `dJ`, the pull-backs with six (Frenet) or five (centroid) arguments | `Strain/Props.lean`: total derivative as sum of partial gradients, then chain rule along lines with the slopes of `max` and `abs`; `Strain/Examples.lean`: circles of varying radius |
| C138 | `BField/Analytic.lean`: all methods of `BoozerAnalytic`, the object with Python attributes, C++ `psi0`, points and cache | gradients by the chain rule with the derivative of `√|x|`; invariant of the cache by induction over histories; orbits from C122 |
| C139 | `BField/Radial.lean`: evaluation methods over arbitrary splines, the filter by `N`, the extension and difference of the arrays, which process holds which splines | termwise differentiation of finite sums, periodicity and parity of each term |
| C140 | `BField/ComputeK.lean`: `compute_K`, `compute_kmns`, `compute_kmnc_kmns` | coordinate vectors by the product rule from C139; discrete orthogonality of the modes on the grid (`Util/Trig.lean`) |
| C141 | `Garabedian/Model.lean`: constructor, `get_Delta`, `set_Delta`, names, `to_RZFourier`, `from_RZFourier` (loops as monadic folds over the C65 model of `SurfaceRZFourier`), `area_volume` | coefficients of the result by induction over the loop; the double series folded to `m ≥ 0` by reflection; cache invariant |
| C142 | `Henneberg/Model.lean`: dofs, names, `gamma`, `gammadash1`, `gammadash2`, `to_RZFourier` (four loops over the C65 model of `SurfaceRZFourier`), `from_RZFourier` after the scalar minimiser and the interpolation | product formulas and induction over the loops; termwise differentiation; orthogonality on the grid |
| C143 | `XYZ/Model.lean`: arrays, dofs, the six shape functions, Jacobians of surfacexyzfourier.h | every array is a sum of coefficients times a basis function in the rotating frame (`XYZ/Frame.lean`); termwise differentiation; dof bookkeeping by induction |
| C144 | `XYZ/TensorModel.lean`: `skip`, dofs, basis functions with the boundary enforcer (cached and uncached, with their integer divisions), shape functions, Jacobians | as C143; tensor-product basis |
| C145 | `XYZ/Mask.lean`: `get_stellsym_mask` on lists of reals (np.allclose is equality) | reduction of the equivalence to integers, then linear arithmetic; combined with C144 |
| C146 | `NField/Transform.lean`: both functions of surfacerzfourier.py L798-920 on a grid of real angles | discrete orthogonality (`Ortho`, `Half`), completeness of the finite Fourier basis (`Values`) |
| C147 | `NField/Model.lean`: NormalField with its arrays, its dof vector and numpy's negative indices (normal_field.py L22-516) | arithmetic of the mixed-radix index; sequential writes as relations |
| C148 | `NField/Coil.lean`: CoilNormalField; the field of the coils is an arbitrary function of the dofs and the surface; recompute_bell propagation is C09 | invariant of the caches over histories, then C146 |
| C149 | `NField/Reduced.lean`: ReducedCoilSet; the SVD is given by its factors (orthonormality is a hypothesis only where used) | invariant over histories; finite sums |
| C150 | `Labels/Model.lean`: ToroidalFlux (surfaceobjectives.py L170-280) on the arrays of C70 and C51 | chain rule along every path (`C51_path`), C63 for the coils |
| C151 | `Labels/Model.lean`: PrincipalCurvature (L283-337) | C71 (curvatures) and the chain rule; monotonicity of exp |
| C152 | `Labels/Model.lean`: QfmResidual (L553-624) | Cauchy-Schwarz, quotient rule, C70 vjp of the normal |
| C153 | `Labels/Qfm.lean`: qfmsurface.py L32-217; scipy's minimize is any adaptive program of queries | induction on the program; derivatives along paths |
| C154 | `Labels/Points.lean`: bells, set_points and J with shape errors (surfaceobjectives.py L209-225, L567-589); bells in any order | invariant over histories |
| C155 | `Perturb/Sampler.lean`: curveperturbed.py L47-92; ldl is an oracle for lu, d | iterated derivatives, matrix algebra, Bochner integral of finite sums |
| C156 | `Perturb/Curve.lean`: curveperturbed.py L95-214 with the cache of a curve (C39) and one dependent per curve | invariant over histories |
| C157 | `MGrid/Model.lean`: mgrid.py L7-330, to_mgrid (magneticfield.py L95-156); the netCDF file is a record; a missing array is NaN | induction on the calls; list lemmas |
| C158 | `Force/Model.lean`: selffield.py L11-96 over the reals | algebra of cross products, term-by-term cancellation for the circle |
| C159 | `Force/Model.lean`: force.py L15-271; jax's gradients are hypotheses (not modelled: that jax returns NaN for the gradient of a norm at zero) | C63 and C51 joined by moving the frame with the point (`Force/Joint.lean`); Fréchet differentiability of the pure functions |
| C160 | `Sampling/Basic.lean`: sampling.py; randint and uniform are a product measure; C order of the surface arrays | measure of a finite union of boxes (`Measure.pi_pi`), induction on the number of attempts |
| C161 | `Coilset/Ring.lean`: create_equally_spaced_curves with dofs set by name, then C36; `Coilset/Even.lean`: for_surface | C52, C36_copies, angle addition, an involution of the positions |
| C162 | `Coilset/Set.lean`: the lists kept by CoilSet; Python's for loop over a list that shrinks | norm of a rotated row; induction over the loop |
| C163 | `Coilset/Reduced.lean`: the dof side of ReducedCoilSet; `np.linalg.svd` is an oracle (`IsSvd`), finite differences are not modelled | orthonormality, finite sums |
| C164 | `Ports/Model.lean`: constructors, collides, PortSet.collides; real arithmetic; spec `Solid` | orthonormal frames, Cauchy-Schwarz, projection on the solid |
| C165 | `Ports/Model.lean`: repeat_via_symmetries | isometry of rotation and mirror; permutation of the field periods |
| C166 | `Ports/Files.lean`: CSV rows, np.loadtxt's shapes, the two files on disk | case analysis over rows, idempotence of the normalisation |
| C167 | `Functions/Basic.lean`: the classes as functions of lists of dofs | calculus, polynomial algebra |
| C168 | `QSRatio/Model.lean`: Fourier series, interp1d, the grid sums; real arithmetic; VMEC's output is data | algebra of the weighted sums; derivative of the series |
| C169 | `QSRatio/Metrics.lean`: objectives and shape_gradient with a partial solver and the inputs as state; the field B_cartesian is data of the output | inequalities between sums; case analysis of the runs |
| C170 | `QSRatio/BCart.lean`: B_cartesian with the arrays of the boundary as a `Shape`; parameter_derivatives | vector algebra; uniqueness of derivatives for the symmetry; induction over the points |
| C171 | `Spec/Arrays.lean`: arrays as shape and function; slices, transposition and assignment as numpy does them | case analysis on the index ranges |
| C172 | `Spec/Profiles.lean`: dofs of a profile and the array of the inputlist, the loop of `run` over the volumes | induction over the volumes; induction over the history |
| C173 | `Spec/Currents.lean`: set_profile, activate_profile, the loop for the volume current, the slices for the others | induction over the volumes |
| C174 | `Spec/Run.lean`: `run` as a step on the state of the object, SPEC an arbitrary function | invariant over histories; case analysis for the exceptions |
| C175 | `Spec/Setters.lean`: slots and parents; append_parent and remove_parent as lists | invariant over sequences of assignments |
| C176 | `Bootstrap/Trapped.lean`: means over a grid, exact integral over lambda | weighted means; Jensen and Chebyshev for the integrand, exact integral of each term |
| C177 | `Bootstrap/Redl.lean`: the fit formulae with their coefficients as real functions | real inequalities; algebra |
| C178 | `Bootstrap/Mismatch.lean`: residuals, linear interpolation, surfaces, Fourier sums, log file | sums; induction over the modes, calls and evaluations |
| C179 | `Axis/Iota.lean`: the matrix A of the variational equations from B and its gradient; the result as a function of the integrated tangent map (real and complex eigenvalues); the integration itself is not modelled | chain rule; trace and determinant are invariant under coordinates; case distinction on the discriminant |
| C180 | `VCasing/Extend.lean`: arrays as shape and function; flip, roll, stacking and tiling as numpy does them; the package is not modelled | division with remainder on the row number, oddness and periodicity of the field |
| C181 | `Polar/Sets.lean`: the literal lists of vectors, polarization_axes | algebra of square roots; symmetric closure of each list; induction over names |
| C182 | `Polar/Discretize.lean`: frame of a magnet, candidates with the null magnet, argmin, the new angles through arctan2 | argmin is a least element; isometry of the frame; idempotence from distance zero |
| C183 | `Polar/Focus.lean`: arrays per magnet, selection, repetition, flip, exponents; the Fourier sum of the plasma field; text formats are not modelled | trigonometric identities; lists |
| C184 | `VmecGeo/Fourier.lean`: Fourier sums over a list of modes with arbitrary differentiable radial functions | derivative of a sum, term by term |
| C185 | `VmecGeo/Basis.lean`: the arrays at a point as a record of numbers, the formulas as they are | duality by vector algebra; chain rule for functions known in the coordinates near the point |
| C186 | `VmecGeo/Normalized.lean`: the formulas of L1225-1250 | algebra; Cauchy-Schwarz; chain rule |
| C187 | `VmecGeo/Normalized.lean`: the formulas of L1258-1363 | product rule; the gradient theorem of C185 |
| C188 | `VmecGeo/FieldLines.lean`: target angles and residual; the root finder is an argument | algebra; intermediate value theorem and monotonicity |
| C189 | `Adjoint/Metrics.lean`: run, set_profile and the three classes as functions on the state (inputs, flag, output); solver, surface quadrature and profile fits are parameters | inversion of a successful shape_gradient; idempotence of set_indata; finite sums |
| C190 | `Wireframe/TFCoils.lean`: the positions as ceilings of rationals, the slices, the call with check_constraints | floor/ceiling arithmetic; reduction to the segments of the half period and summation over a field period (C83, C84) |
| C191 | `Wireframe/Breaks.lean`: the calls on the constraint dictionary of C84/C85; positions as in C190 | arithmetic of block indices; `C85_set_constrained`; net toroidal current is the same in all planes (C83) |
| C192 | `Spec/Guess.lean`: both loops over modes and volumes as folds, the getters with their range checks | induction on the list of modes with a description of the arrays after each step; the list of modes has no repetition |
| C193 | `Interp/Boozer.lean`: the restriction of the angles, the table of symmetries and the two sign changes, over the reals with arbitrary interpolants; caching is in C112 | the restriction is `x - floor(x/P) P`; the parity of each derivative follows from uniqueness of derivatives; case analysis over the quantities |
| C194 | `Coils/FourierFile.lean`: table as a list of rows, FOCUS file as a list of lines of tokens, the loops that fill `dofs_matrix`; positions by the model of C52 | positions in blocks of fixed length; the sum of `curve_sum` term by term |
| C195 | `Configs/Zoo.lean`: the slices and assignments that make the axis, with the curve of C55; the tables are arguments, that of W7-X is copied | the dof vector is the concatenation of the two slices; `C55_series` |
| C196 | `Surfaces/FixRange.lean`: the calls of the double loop as a list of names, flags by name, names of C65 | membership in the list of calls; induction on the list with the state after success and after an exception |
| C197 | `Surfaces/Nml.lean`: the printed assignments; namelist arrays with start indices, ragged rows and missing entries as `f90nml` returns them; the transfer loops of the reader | membership in the printed list; induction on the transfer loop; the parsed file characterised by the printed assignments only |

## Disagreements found (code does not have the stated property)

Each is a theorem with a concrete reachable witness; the property keeps its full English statement and the positive
theorems carry the missing hypothesis.

| theorem | behaviour of the code |
|---------|-----------------------|
| C10_duplicate_parent_violated | `depends_on=[a,a]` then `remove_parent(a)` leaves a one-way link |
| C11_make_optimizable_violated | class name ending in a digit: two objects with the same name compare/hash equal |
| C12_full_bounds_setter_violated, C12_full_bounds_lineage_violated | full bounds setters raise |
| C13_parent_edit_violated | `add_parent(0, c)` on the returned object shifts the optimizable arguments of `J` |
| C15_as_derivative_aliases_violated, C15_sum_singleton_violated | `as_derivative=True` and one-element sums share arrays |
| C16_all_fixed_violated | gradient of an all-fixed lineage raises |
| C17_empty_sum_violated | empty sum has no value |
| C19_idle_process_violated, C19_key_order_violated | a rank without objectives / differing key order breaks the mean gradient |
| C23_*_violated | exception leaves x displaced; default point is sticky; integer points truncate; Jacobian size remembered |
| C24_worker_fixed_dofs_violated | workers are not sent fixed dofs |
| C25_*_violated | centered scheme without free dofs, exceptions in/around the Jacobian: deadlock |
| C27_detached_violated | least-squares cache stale after `remove_parent` |
| C28_length_violated | failure on the first evaluation has no residual length |
| C30_*_violated | sums with interleaved owners, repeated parents or `fail=None` |
| C31_all_infinite_violated | no finite bound: ValueError |
| C32_failure_length_violated | failure vector of the wrong length |
| C33_bound_method_violated, C33_duplicate_names_violated, C34_cycle_violated, C35_*_violated | see MANIFEST notes |
| C38_blank_in_group_violated, C49_nyquist_violated, C49_circle_violated | blank in a group name; N = 2·order samples |
| C39_planar_jacobian_violated | `CurvePlanarFourier` keeps its persistent Jacobian although its dofs enter nonlinearly |
| C39_replace_dofs_violated | replacing the DOFs object does not refresh a curve |
| C40_all_fixed_violated | all dofs fixed and one changed: field not invalidated |
| C40_component_points_violated | moving the points of a component of a field sum |
| C40_dA_by_dcoilcurrents_violated | wrong quantity returned |
| C40_raise_violated | a raising evaluation leaves zero arrays marked valid |
| C41_positive_accepts_zero_violated, C41_nan_violated | 0 is accepted as positive; NaN passes range checks |
| C42_replace_dofs_violated, C43_*_violated, C44_broadcast_violated | see MANIFEST notes |
| C46_*_violated | Jacobian cache with in-place modified arrays, default argument, changed fixed dofs |
| C47_names_violated, C48_constrained_violated | see MANIFEST notes |
| C59_num_basecurves_violated | `shortest_distance()` with `num_basecurves` is not the shortest distance |
| C59_surface_moved_violated | CurveSurfaceDistance keeps its candidates when the surface moves |
| C60_partial_violated | ArclengthVariation "partial" with 2·order > nquadpoints: empty interval, constant arclength is penalised |
| C64_race_violated | integral_BdotN: `mod_B_squared` is declared outside the OpenMP loop and shared by the threads; "normalized" and "local" can be wrong |
| C64_shared_field_violated | two SquaredFlux on one field: the second constructor moves the points, J of the first evaluates the wrong surface |
| C65_hidden_mode_violated | set_rc/set_zs with m=0, n<0 is accepted, writes an entry that is no dof but enters gamma: shape no longer a function of the dofs |
| C69_stale_jacobian_violated | change_resolution never clears `cache_persistent`: dgamma_by_dcoeff keeps the columns of the old resolution |
| C69_overrun_violated | after change_resolution the ordinary cached Jacobians are recomputed into arrays of the old size: out-of-bounds writes |
| C73_half_period_single_violated | get_phi_quadpoints(nphi=1, range='half period') raises IndexError |
| C73_deduced_single_violated | a one-point field-period grid is deduced to be a full torus |
| C76_feasible_violated | a search direction component below 1e-10 is ignored in the step to the boundary: MwPGP returns infeasible moments for weak fields |
| C76_step_size_violated | without rescale_for_opt the default step of relax_and_split can increase the objective |
| C77_history_overflow_violated | nhistory not dividing K: GPMO writes past its history arrays |
| C77_modulo_zero_violated | MwPGP with max_iter < 5 and verbose computes k % 0 |
| C77_infeasible_accepted_violated | setup_initial_condition accepts guesses that are slightly infeasible |
| C78_arbvec_penalty_violated | GPMO_ArbVec reads the penalty of dipole j at entry j of an array with three entries per dipole |
| C79_beyond_violated | columns of the neighbour table beyond the number of dipoles all name dipole 0 |
| C80_stagnation_violated | the stagnation test of GPMO_backtracking reads a count that has not been written yet, so it never fires with magnets present |
| C80_history_overflow_violated | reaching the magnet limit in the last iteration records once more than the history arrays have room |
| C80_opposite_remains_violated | the magnet placed last is not examined by the backtracking sweep; with non-symmetric adjacency an opposite pair remains |
| C81_limit_violated | the magnet limit is tested only after a placement: a guess at the limit ends one above |
| C81_zero_threshold_violated | a dipole is its own neighbour: with threshold 0 it is removed with itself, its field subtracted twice |
| C81_full_guess_violated | a guess filling the grid: a magnet is placed on top of dipole 0 |
| C82_exhausted_violated | GPMO limits K, not K*Nadjacent, to the number of dipoles: the neighbour search runs out of available dipoles |
| C82_joint_violated | groups are compared by the sum of the separate misfits of their magnets, not by the joint misfit |
| C85_add_implied_violated | add_segment_constraints calls remove_segment_constraint, which does not exist: AttributeError when a segment to be constrained explicitly is constrained implicitly. |
| C85_free_implied_violated | set_segments_free returns without an error for an implicitly constrained segment, which is still constrained at the next query. |
| C86_symmetry_plane_violated | constraint_matrices(assume_no_crossings=True) drops one continuity row per loop; a loop through the fixed points of the stellarator symmetry has no redundant row, so the equations admit discontinuous currents. |
| C88_user_violated | gsco_wireframe says it obeys the constraints set in the wireframe; constraints made with add_constraint are not looked at. |
| C90_worse_violated | The best loop is added even if it increases the objective, so the result can be worse than x_init (max_iter=1 from a local minimum). |
| C90_undo_violated | `opt_ind + nLoops % (twoNLoops)` lacks parentheses: undoing a positive loop is neither detected nor refused; a local minimum that was reached is left again. |
| C92_matrix_violated | `rcls_wireframe` with a 2d `reg_W` uses `W[free_segs,free_segs]`, i.e. only the diagonal; the documentation promises the full matrix (solve/wireframe_optimization.py L508) |
| C95_ends_violated | `ProfileSpec.dfds`: documented range 1..Mvol-1; interface Mvol-1 raises, 0 gives the difference between the first and the last volume, and `f(-0.5)` gives volume 0 |
| C96_removed_violated | `vmec.current_profile = None` after a run: VMEC keeps the coefficients and the net current of the old profile; the DOF `curtor` is not written again |
| C96_shared_profile_violated | one profile object in two slots: after it is removed from one, its changes no longer trigger a run |
| C96_two_objects_violated | two `Vmec` objects share `vmec_input`: the second constructor replaces the first object's scalars, profiles and resolution |
| C96_points_violated | `n_pressure`, `n_current`, `n_iota` do not raise the flag |
| C96_asymmetric_violated | `set_indata` transfers only `rc` and `zs`, never `rs` and `zc` |
| C96_cap_violated | boundary modes above 101 are dropped silently |
| C97_clear_violated | `boozer.s = {}` (documented way to clear the registry) stores a dict; the next `register` raises AttributeError |
| C97_resolution_violated | `boozer.mpol = ...` does not raise the flag |
| C98_sign_violated | documentation: symmetry in helicity_m theta - nfp helicity_n zeta; the code tests m helicity_n + n helicity_m = 0, the opposite sign of helicity_n |
| C98_asymmetric_violated | only `bmnc_b` is used; without stellarator symmetry the sine modes are ignored |
| C99_toroidal_d2B_violated | `ToroidalField.d2B_by_dXdX` has `3*x**2 + y**3` for ∂_x∂_x B_x, which is proportional to y³ - 3x²y |
| C99_toroidal_dA_violated | `ToroidalField.dA_by_dX` has its two indices exchanged (and is NaN in the plane z = 0) |
| C99_toroidal_d2A_violated | `ToroidalField.d2A_by_dXdX` has the component as its first index instead of the last |
| C99_poloidal_dB_violated | `PoloidalField.dB_by_dX` has its two indices exchanged (and divides by zero on the cylinder R = R0); the stored values of its test have the same order |
| C100_dB_violated | `CircularCoil.dB_by_dX` computes `dBzdy = dBzdx*y/(x+1e-31)`, which is 0 at points with x = 0 in the frame of the coil |
| C100_A_violated | `CircularCoil.A` has `2*r0 + rho*E` instead of `2*r0*rho*E`; `C100_A_repaired` shows that this is the repair |
| C102_dA_violated | `DipoleField.dA_by_dX()[p, j, l]` is the derivative of A_j in the direction l (its C++ comment says so), the transpose of the documented order; its curl is -B |
| C105_race_violated, C105_wrong_field_violated | `DommaschkB` and `DommaschkdB` declare `x, y, z, R, phi, cosphi, sinphi` before `#pragma omp parallel for`, so they are shared between the threads: a data race. There are schedules of two threads in which a point gets the field of another point. Only with one thread (`OMP_NUM_THREADS=1`, or a build without OpenMP) is the result always right. |
| C110_below_violated | `extrapolate=False` is documented to raise outside the domain; up to one cell below the lower bound of a range a value is returned (int() truncates towards zero) |
| C110_extrapolate_violated | `extrapolate=True` is documented to extrapolate; one cell index above the last range the value comes from the bottom of the neighbouring row of cells, and beyond that the mesh is read out of bounds |
| C111_negative_angle_violated | angles are documented to be always mapped into [0, 2π/nfp); negative angles set with set_points_cyl are mapped into (-2π/nfp, 0] |
| C112_estimate_moves_points_violated | estimate_error_B leaves the underlying field at the sampled points |
| C112_leftovers_violated | with extrapolate=True (default) rows of points in skipped cells keep what the previous evaluation left |
| C112_underlying_changed_violated | the interpolant is never rebuilt when the underlying field changes |
| C117_target_unnoticed_violated, C117_surface_unnoticed_violated | changing `targetlabel` or the dofs of the surface leaves `need_to_run_code` false: the stored result is taken for the solution |
| C117_exact_success_violated | solve_residual_equation_exactly_newton tests the norm before the last step: a solve that converges in exactly maxiter steps reports success=False |
| C118_key_error_violated, C118_not_solved_violated | Iotas.J() raises KeyError after LBFGS/ls/constrained solves (no 'PLU'), and AttributeError before the first solve |
| C120_without_symmetry_violated | boozer_surface_dexactresidual_dcoils_dcurrents_vjp raises for surfaces without stellarator symmetry (one more row in lm than the mask keeps) |
| C120_label_violated | boozer_surface_dlsqgrad_dcoils_vjp leaves out the label row; wrong when the label depends on the coils (ToroidalFlux) |
| C122_turning_point_violated | modes 'gc' and 'gc_nok' of trace_particles_boozer compute (mu / v_par) * (...), 0/0 at a turning point |
| C122_cartesian_documentation_violated | documentation of trace_particles: dv_par/dt = -mu B.grad|B|; the code (correctly) divides by |B| |
| C124_hit_after_tmax_violated | plane hits after tmax are recorded |
| C124_stop_after_tmax_violated | a stopping criterion satisfied after tmax in the last step is recorded, and the row at tmax is missing |
| C125_backward_violated | ToroidalTransitStoppingCriterion counts floor of a negative turn number: one turn too early backwards |
| C125_iteration_violated | IterationStoppingCriterion(N) allows N + 1 steps |
| C127_negative_charge_violated | gc_to_fullorbit_initial_guesses ignores the sign of the charge |
| C128_first_return_violated | compute_resonances never examines the first hit |
| C129_open_violated | dB_by_dX of WireframeField is the transpose of the documented array unless the currents are closed |
| C129_derivs_violated | dB_by_dsegmentcurrents(1) returns the derivatives of B, not of its spatial derivatives |
| C131_fallback_violated / C131_exception_aborts | least_squares_serial_solve never answers a raising evaluation with residuals of 1e12 although it has a branch for this: `prob.objective()` after the `except` raises the same exception again |
| C132_lengths_violated | constrained_serial_solve returns constraint vectors of different lengths if the first evaluation of the constraints fails (`np.full(prob.nvals, prob.fail)` with a partial count) |
| C138_G_I_documentation_violated | documentation of `BoozerAnalytic`: `G = G0 + sqrt(2 s psi0/Bbar) G1`; the code has `G0 + s G1` (same for `I`) |
| C138_set_psi0_violated | `set_psi0` leaves the C++ member `psi0`, which tracing uses, unchanged |
| C139_rescale_with_N_violated | `rescale=True` together with `N`: `dbmncds` is not defined in that branch, the constructor raises |
| C139_mpi_K_violated | `kmns_splines` are not broadcast: on processes that do not lead a group `K()` raises |
| C141_set_dofs_violated | `SurfaceGarabedian.get_dofs` has no return statement; `set_dofs` raises `TypeError` |
| C141_shared_dofs_violated | `SurfaceGarabedian(dofs=...)` overwrites `Delta(1,0)`, `Delta(0,0)` in the given dofs, so a loaded surface differs from the saved one |
| C141_excluded_modes_violated | `nmin > 0`: `set_Delta(1,0)` of the constructor lands on another mode |
| C141_view_violated | `s.Delta[i,j] = v` changes the dofs without invalidating `area`, `volume` |
| C142_documentation_violated | `SurfaceHenneberg` docstring: `cos(m θ - nfp n φ - α φ)`; code: `+ nfp n φ` |
| C142_axisymmetric_violated | `SurfaceHenneberg.from_RZFourier` with `nmax = 0`: default `nphi = 3 nmax = 0`, empty grid, assertion fails |
| C142_hidden_modes_violated | `SurfaceHenneberg.to_RZFourier` writes `rc(0,-n)`, `zs(0,-n)`, which are not dofs of `SurfaceRZFourier` |
| C142_set_rhomn_violated | `SurfaceHenneberg.set_rhomn` changes the array but not the dof vector |
| C145_documented_grid_violated | docstring of `get_stellsym_mask`: `np.linspace(0, 0.5, 2*mpol)`; code: `mpol+1` points |
| C146_half_period_nyquist_violated | `fourier_transform_scalar` on a half-period grid: the Nyquist correction halves the coefficients with `|n| = nphi/2` |
| C147_stale_setter_violated, C147_stale_arrays_violated | `NormalField`: setting `x` does not update `_vns`/`_vnc`; `set_vns` then restores old values, arrays and real-space field are stale |
| C147_asarray_roundtrip_violated, C147_real_space_violated | `get_vns_asarray` omits the row `m = mpol`; `get_real_space_field` ignores it |
| C147_change_resolution_set_violated, C147_change_resolution_column_violated | `change_resolution` does not resize the arrays: `set_vns` raises or writes to another mode |
| C147_narrow_array_violated | an array with fewer columns than `2*ntor+1` is read with negative (wrapped) indices |
| C147_set_vnc_asarray_violated | `set_vnc_asarray` always raises for non-stellsym |
| C148_surface_stale_violated | `CoilNormalField.surface` setter leaves `_vns`, `_vnc` |
| C148_resolution_violated | `CoilNormalField.coilset` setter leaves `mpol`, `ntor` |
| C149_nsv_lower_violated | lowering `ReducedCoilSet.nsv` keeps the displaced coils |
| C149_default_matrices_violated | `ReducedCoilSet(coilset, nsv=k)` without matrices: identity of the wrong size |
| C149_nonzero_violated | documentation: `nsv=None` takes the nonzero singular values; code: all |
| C151_direction_violated, C151_threshold_violated | `PrincipalCurvature` is documented to penalize `κ1 > κmax1`; its value decreases with `κ1` |
| C151_quadrature_violated | `PrincipalCurvature.J` is not divided by the number of quadrature points |
| C153_multiplier_violated, C153_minimum_violated, C153_halving_violated | `minimize_qfm_exact_constraints_SLSQP` passes the squared distance as equality constraint: degenerate at every feasible surface |
| C154_shared_violated, C154_two_surfaces_violated, C154_silent_violated | objects that share a field overwrite each other's evaluation points |
| C155_sigma_violated | `GaussianSampler`: standard deviation larger than `sigma` |
| C156_shared_violated, C156_dependent_violated, C156_sample_violated | `CurvePerturbed.resample` clears only its own cache |
| C157_nfp_violated, C157_guard_violated, C157_mixed_violated, C157_append_violated | `MGrid.from_file` sets `nfp=2`; guards of `ap`, `az` exchanged; mixed groups raise in `write`; a read grid cannot be extended |
| C159_lp_violated, C159_lp_circle_violated | `lp_force_pure` sums over the quadrature points without dividing by their number |
| C160_exact_violated, C160_safety_violated | `assert len(accept) > nsamples`; `nattempts = 10 * nsamples` |
| C161_for_surface_violated | `CoilSet.for_surface` always uses `stellsym=True` |
| C162_set_base_violated, C162_reduced_violated, C162_parents_violated | setter writes `_coils`, not `coils`; `ReducedCoilSet.bs` is not renewed; `for parent in target.parents: target.remove_parent(parent)` |
| C163_identity_violated, C163_nsv_violated, C163_nonzero_violated | `np.eye(nsv)` with zero-padded `x`; `nsv` setter does not call `set_dofs`; `'nonzero'` is `len(s_diag)` |
| C164_one_gap_violated, C164_negative_gap_violated | `gaparr.squeeze()` makes a one-element list 0-dimensional; the radius is compared after squaring |
| C166_single_violated, C166_stale_violated | np.loadtxt drops a dimension of length one; the file of a type without ports is not removed |
| C167_adder_violated, C167_rosenbrock_violated, C167_object1_violated, C167_raises_violated | `n` is not passed on; `_sqrtb` divides; order of the concatenation |
| C168_one_point_violated | `theta1d[1]` is read for the spacing |
| C169_failure_violated, C169_size_violated, C169_profile_violated | no try/finally around the perturbed run; slices longer than the arrays; set_indata is called by run() |
| C189_profile_violated, C189_pressure_violated | a profile object overwrites the perturbed profile; the shape gradient does not depend on the target |
| C189_failure_violated | inputs not restored when the perturbed run raises |
| C189_long_violated | profile arrays filled with -1 when the radial grid is longer |
| C190_crowded_violated | add_tfcoil_currents: a coil on the symmetry plane counts once, not twice |
| C192_missing_violated | modes a SPEC file does not list are read as those of a default torus |
| C194_truncated_violated | read_focus_coils drops harmonics beyond those of the first coil |
| C195_w7x_violated | the W7-X axis of the zoo is shifted by one mode |
| C196_atomic_violated | a fixed_range call that raises has already changed dofs |
| C197_asym_violated | the file of a non-symmetric surface with vanishing rs, zc cannot be read back (KeyError) |
| C197_missing_violated | coefficients outside the arrays of a VMEC file are those of the default torus, not zero |
| C183_flip_violated | flip_negative_magnets with an even momentq reverses the moment. |
| C183_mixed_violated | repeat_hp_to_fp reflects the positions of all magnets although only those with symm = 2 are repeated. |
| C183_op_violated | FocusData leaves `Ic` and `op` unreduced when magnets are left out (downsample, Ic = 0), so that they belong to other magnets. |
| C182_exponent_violated | discretize_polarizations with momentq = 0 takes a null magnet as a full one (0 ** 0 = 1). |
| ['C180_shifted_violated', 'C180_twice_violated', 'C180_sign_violated'] | VirtualCasing.from_vmec: the extended normal field is shifted by one grid point in the second half of each field period, and with use_stellsym=False covers the torus twice. |
| ['C179_sign_violated', 'C179_current_violated'] | compute_on_axis_iota loses the sign of iota, aliases it to at most nfp/2, and with current at the axis uses the transposed gradient of B. |
| C178_surfaces_violated | `RedlGeomVmec` without surfaces keeps the half grid of its first call when VMEC's resolution changes. |
| C177_Zeff_violated | `j_dot_B_Redl(..., Zeff=None)` raises TypeError (0-d array of dofs) instead of using Zeff = 1. |
| C175_checks_violated | The profile setters construct but do not raise the ValueErrors for wrong types and sizes. |
| ['C175_helicity_fails_violated', 'C175_helicity_parent_violated'] | The helicity setter removes the toroidal flux profile from the parents instead of the old helicity profile. |
| C174_axis_violated | Without stellarator symmetry the second run with several volumes raises KeyError: 'ras' is not stored in the new axis. |
| ['C174_unconverged_returned_violated', 'C174_residue_violated'] | After an ObjectiveFailure for an unconverged SPEC result, asking again returns the unconverged value. |
| C173_activate_violated | With a free boundary, `activate_profile('volume_current')` and `('interface_current')` make profiles with which `run` raises IndexError. |
| C173_iota_violated | A profile of iota or oita makes every run with two or more volumes raise ValueError (slice of nvol+1 entries, nvol values). |
| C173_mu_violated | With a free boundary, `run` zeroes entry `mvol` of mu and helicity instead of entry `nvol`. |
| ['C173_free_dof_changed_violated', 'C173_history_violated'] | `Spec.run` changes free volume currents that come after fixed ones, and sends different currents for the same dofs depending on the runs before. |
| C171_set_spec_violated | `SpecFourierArray.as_spec = a` always raises AttributeError: the setter reads `self.mntor`, the attribute is `_mntor` (and compares a tuple with a list). |
| TF.C144_dgammadash1dash1_violated | `dgammadash1dash1_by_dcoeff` uses `nfp*nfp/2`, `gammadash1dash1` uses `nfp*(nfp/2)` |
| TF.C144_gammadash1dash1_violated | the same with `nfp*(nfp/2)` in `gammadash1dash1` for odd `nfp` |
| TF.C144_gammadash2dash2_violated | `SurfaceXYZTensorFourier` with clamped dimension: `(1/2)` integer division makes `gammadash2dash2` wrong |
