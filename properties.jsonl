{"id": "C01", "title": "Free-DOF vector round trip and frame", "statement": "Assigning a vector v to the free dofs of one object (`local_x = v`) succeeds exactly when len(v) equals the number of free dofs; then reading `local_x` returns v, every fixed dof keeps its value, and names, bounds and free/fixed status are unchanged. When the length is wrong an exception is raised and nothing changes; a single value is never broadcast.", "quantifier": "all numbers of dofs, all free/fixed patterns, all values, all supplied vectors of any length", "why_tests_cant": "the free mask and the length are unbounded; a test samples a few masks", "anchors": ["src/simsopt/_core/optimizable.py: DOFs.free_x (getter/setter), DOFs.reduced_len, Optimizable.local_x"]}
{"id": "C02", "title": "fix/unfix change exactly the named DOF's status", "statement": "fix(key)/unfix(key), with key a dof name or an (optionally negative) integer index, makes exactly the addressed dof fixed/free and changes no value, bound, name or other status; fix and unfix are idempotent and override each other; an unknown name or out-of-range index raises and changes nothing. fix_all/unfix_all do it for every local dof.", "quantifier": "all DOFs objects, all keys (names and integers)", "why_tests_cant": "quantifies over every key and every mask, including negative and invalid indices", "anchors": ["src/simsopt/_core/optimizable.py: DOFs.fix, DOFs.unfix, DOFs.fix_all, DOFs.unfix_all, DOFs.is_free"]}
{"id": "C03", "title": "Single-DOF and full-vector access", "statement": "set(key, v) changes exactly the addressed dof to v, even when it is fixed, and get(key) reads it back; assigning `local_full_x` replaces all values (fixed ones too) exactly when the length matches and otherwise raises without any change; no accessor changes the free/fixed status.", "quantifier": "all DOFs objects, keys, values, vectors", "why_tests_cant": "unbounded domain of sizes/keys; frame conditions are about everything else being untouched", "anchors": ["src/simsopt/_core/optimizable.py: DOFs.get, DOFs.set, DOFs.full_x"]}
{"id": "C04", "title": "Global state vector round trip through the graph", "statement": "For an object with ancestors, assigning `obj.x = v` with len(v) == obj.dof_size and then reading `obj.x` returns v, even when several objects in the lineage share one DOFs object; with any other length an exception is raised before any dof is changed.", "quantifier": "all dependency graphs reachable by any history of object creation, parent addition/removal, fixing/unfixing and DOFs sharing; all vectors", "why_tests_cant": "graphs and histories are unbounded; the index bookkeeping is cached and updated incrementally", "anchors": ["src/simsopt/_core/optimizable.py: Optimizable.x, Optimizable.dof_indices, Optimizable.update_free_dof_size_indices"]}
{"id": "C05", "title": "Setting the global state vector touches only free DOFs of the lineage", "statement": "After `obj.x = v`, every fixed dof of every object and every dof of every object outside obj's lineage (not sharing DOFs with it) has the value it had before, and all free/fixed statuses, names and bounds are unchanged.", "quantifier": "all reachable graphs, all vectors", "why_tests_cant": "a frame condition over all other objects and dofs", "anchors": ["src/simsopt/_core/optimizable.py: Optimizable.x setter, DOFs.free_x setter"]}
{"id": "C06", "title": "All per-DOF views have consistent lengths and order", "statement": "In every reachable state: dof_size == len(x) == len(dof_names) == len(lower_bounds) == len(upper_bounds) == number of True in dofs_free_status, and full_dof_size == len(full_x) == len(full_dof_names) == len(dofs_free_status); moreover x is full_x masked by dofs_free_status (same for names and bounds), so entry i of each view refers to the same dof.", "quantifier": "all histories of graph operations", "why_tests_cant": "dof_size and the index tables are cached and updated by recursive propagation; only an invariant over histories shows no stale table survives", "anchors": ["src/simsopt/_core/optimizable.py: Optimizable.update_free_dof_size_indices, _update_full_dof_size_indices, dof_names, bounds"]}
{"id": "C07", "title": "Lineage equals the transitive closure of the parent relation", "statement": "In every reachable state, the set of ancestors of an object is exactly the set of objects reachable from it by following parents one or more times, without duplicates and sorted by name; and the dofs of an object are exactly those of itself and its ancestors, each DOFs object counted once.", "quantifier": "all histories of object creation, add_parent/append_parent/remove_parent/pop_parent on acyclic graphs, in any iteration order of the children sets", "why_tests_cant": "the ancestor lists are cached per object and repaired by recursion over unordered children sets; diamonds make intermediate values stale, so correctness is a fixpoint argument over all DAGs", "anchors": ["src/simsopt/_core/optimizable.py: Optimizable._get_ancestors, _update_full_dof_size_indices, add_parent, remove_parent, pop_parent"]}
{"id": "C08", "title": "A shared DOFs object is counted once", "statement": "If several objects in a lineage share the same DOFs object, its free dofs appear exactly once in x, dof_names, bounds and in the gradient; no DOFs object is ever listed twice.", "quantifier": "all reachable graphs with arbitrary sharing", "why_tests_cant": "sharing patterns are unbounded", "anchors": ["src/simsopt/_core/optimizable.py: Optimizable._update_full_dof_size_indices, _unique_dof_opts"]}
{"id": "C09", "title": "Changing a DOF invalidates every dependent object", "statement": "After any change of dof values through the API (x, full_x, local_x, local_full_x, set) every object that shares the changed DOFs object, and every object that depends on such an object directly or transitively, has its recompute flag raised and its recompute callback has been called.", "quantifier": "all reachable graphs, all DOFs, all values", "why_tests_cant": "transitive dependence over unbounded DAGs, shared DOFs", "anchors": ["src/simsopt/_core/optimizable.py: DOFs._flag_recompute_opt, Optimizable.set_recompute_flag, recompute_bell"]}
{"id": "C10", "title": "Parent/child links are two-way in every reachable state", "statement": "In every reachable state p is in child.parents exactly when child is registered among p's children, parents are alive and the parent relation has no cycle, so change notifications can reach every child; add_parent with a parent that is already there changes nothing; appending a new parent and removing it restores parents and ancestors. This covers every history in which an object that is listed twice among the parents is not removed; the exception is real: after depends_on=[a, a] and remove_parent(a), a is still a parent but no longer notifies (witness theorem).", "quantifier": "all histories of graph operations", "why_tests_cant": "invariant over histories", "anchors": ["src/simsopt/_core/optimizable.py: Optimizable._add_child, _remove_child, add_parent, remove_parent, pop_parent"]}
{"id": "C11", "title": "Distinct objects are never confused", "statement": "Two distinct live Optimizable objects never compare equal and never have the same name or hash, so both appear in lineages and both get notified, provided the class names are distinct and do not end in a digit. The proviso is needed: objects of two calls of make_optimizable carry the same name and are merged (witness theorem).", "quantifier": "all sequences of object creations over any set of classes", "why_tests_cant": "per-class instance counters; uniqueness depends on all creations in the process", "anchors": ["src/simsopt/_core/optimizable.py: Optimizable.__init__ (name), __eq__, __hash__, make_optimizable", "src/simsopt/_core/util.py: InstanceCounterMeta"]}
{"id": "C12", "title": "Bounds setters round trip", "statement": "Assigning lower_bounds/upper_bounds of an object with a vector of length dof_size and reading it back returns the vector; bounds of fixed dofs, values, names and statuses and everything outside the lineage are unchanged; a wrong length raises ValueError and changes nothing; update_*_bound changes exactly the addressed bound. The setters of the full bounds are not part of this: they raise for every argument (witness theorem).", "quantifier": "all graphs, all free/fixed masks, all vectors", "why_tests_cant": "masks and graphs unbounded", "anchors": ["src/simsopt/_core/optimizable.py: Optimizable.lower_bounds/upper_bounds/full_lower_bounds, DOFs.free_lower_bounds, DOFs.full_lower_bounds"]}
{"id": "C13", "title": "make_optimizable reassembles the arguments", "statement": "For any positional and keyword arguments and any dof_indicators, J() of the object returned by make_optimizable calls the wrapped function with the original arguments in their original positions and keywords, except that each argument marked 'dof' is replaced by the current value of the corresponding dof; wrong indicator strings or a wrong number of indicators are rejected.", "quantifier": "all argument lists, keyword lists and indicator lists", "why_tests_cant": "unbounded argument lists and interleavings of the three kinds", "anchors": ["src/simsopt/_core/optimizable.py: make_optimizable.TempOptimizable.__init__, J"]}
{"id": "C14", "title": "Derivative objects form a vector space and gradient extraction is linear", "statement": "For Derivative objects a, b, number c and any object o: (a+b)(o) = a(o)+b(o), (a-b)(o) = a(o)-b(o), (c*a)(o) = (a*c)(o) = c*a(o); a+b and b+a give the same gradients; sum() of a list gives the sum of gradients; keys that are missing behave as zero.", "quantifier": "all Derivative dictionaries with arbitrary key sets and array lengths, all objects", "why_tests_cant": "key sets may be partially overlapping in arbitrary ways", "anchors": ["src/simsopt/_core/derivative.py: Derivative.__add__, __sub__, __mul__, __rmul__, __radd__, __iadd__, __isub__, __call__"]}
{"id": "C15", "title": "Derivative arithmetic does not alias its operands", "statement": "a+b, a-b and c*a leave a and b unchanged and the result shares no array with them, so later in-place updates of the result do not change a or b; a += b and a -= b leave b unchanged.", "quantifier": "all Derivative dictionaries, all later update sequences", "why_tests_cant": "aliasing is a property of all later mutations", "anchors": ["src/simsopt/_core/derivative.py: copy_numpy_dict, Derivative.__add__, __sub__, __iadd__, __isub__, __mul__"]}
{"id": "C16", "title": "Gradient is aligned with x", "statement": "For an object o with at least one free dof, a(o) has length o.dof_size and its entry i is the derivative with respect to the dof whose value is o.x[i]; contributions of all live objects that share one DOFs object are summed. (When every dof is fixed the call raises instead of returning an empty vector: recorded.)", "quantifier": "all reachable graphs, sharing patterns, masks", "why_tests_cant": "alignment across independent index tables for unbounded graphs", "anchors": ["src/simsopt/_core/derivative.py: Derivative.__call__", "src/simsopt/_core/optimizable.py: Optimizable.x"]}
{"id": "C17", "title": "Sums and scalings of objectives are consistent", "statement": "(f+g).J() = f.J()+g.J(), (c*f).J() = c*f.J(), sum(list).J() is the sum for non-empty lists, and the gradients dJ() obey the same laws, for any nesting of + and * expressions; dJ() is the exact gradient of J with respect to x. Empty sums are excluded, necessarily: dJ() of OptimizableSum([]) raises (witness theorem).", "quantifier": "all expression trees over objectives", "why_tests_cant": "expression trees are unbounded", "anchors": ["src/simsopt/_core/optimizable.py: OptimizableSum, ScaledOptimizable, Optimizable.__add__/__mul__/__radd__"]}
{"id": "C18", "title": "QuadraticPenalty gradient matches its value", "statement": "For each wrapping option ('identity','max','min') the dJ of QuadraticPenalty is the exact derivative of its J composed with any differentiable objective, J is non-negative, and it is zero exactly when the (in)equality constraint holds; any other option raises.", "quantifier": "all objective values, constants and options; all differentiable inner objectives", "why_tests_cant": "a statement about all real inputs, including the kink", "anchors": ["src/simsopt/objectives/utilities.py: QuadraticPenalty"]}
{"id": "C19", "title": "MPIObjective is the mean independent of the process count", "statement": "For any non-empty list of objectives and any number of MPI ranks, MPIObjective(..., needs_splitting=True).J() equals the plain mean of all J values, and each rank gets the same value; dJ() is the exact gradient of that mean on every rank, when every rank has at least one objective and the objectives list the Optimizables in the same order. Both conditions are needed: an idle rank raises and blocks the others, and another key order gives a wrong gradient (witness theorems).", "quantifier": "all lists, all communicator sizes", "why_tests_cant": "unbounded numbers of objectives and ranks, incl. uneven splits", "anchors": ["src/simsopt/objectives/utilities.py: MPIObjective, sum_across_comm", "src/simsopt/_core/util.py: parallel_loop_bounds"]}
{"id": "C20", "title": "parallel_loop_bounds is an exact partition", "statement": "For every n and communicator size, the intervals returned on the ranks are in order, disjoint, cover exactly 0..n-1, and their lengths differ by at most one; with no communicator the interval is [0,n).", "quantifier": "all n, all sizes, all ranks", "why_tests_cant": "all integers", "anchors": ["src/simsopt/_core/util.py: parallel_loop_bounds"]}
{"id": "C21", "title": "MpiPartition forms balanced contiguous groups", "statement": "For any number of processes and any requested number of groups (or none), ngroups is clamped to [1,nprocs]; every group 0..ngroups-1 is non-empty, groups are contiguous ranges of ranks, sizes differ by at most one, each group has exactly one leader (its lowest rank), there are exactly ngroups leaders and rank_leaders of a leader equals its group number.", "quantifier": "all nprocs, all requested ngroups", "why_tests_cant": "all integers", "anchors": ["src/simsopt/util/mpi.py: MpiPartition.__init__"]}
{"id": "C22", "title": "Finite-difference steps are positive or rejected", "statement": "finite_difference_steps returns, for every entry, max(|x_j| rel_step, abs_step), and all are strictly positive; negative step arguments, or arguments that would give any zero step, raise ValueError.", "quantifier": "all x, abs_step, rel_step", "why_tests_cant": "real-valued inputs", "anchors": ["src/simsopt/_core/util.py: finite_difference_steps"]}
{"id": "C23", "title": "Serial finite-difference Jacobian", "statement": "At a point given as floats, for an object whose number of free dofs has not changed since the first call and a function that returns at the points of the scheme: FiniteDifference.jac evaluates the function at x0 and x0 +- h_j e_j only, its column j is the forward (or centered) difference quotient, it is exact for affine functions (and for quadratic ones when centered), and after the return the object's x is the one it had before the call. Each condition is needed: integer points truncate the step, a remembered size gives zero columns, an exception leaves the object at a shifted point, and jac() without argument uses the point of an earlier call (witness theorems).", "quantifier": "all dimensions, points, steps, functions", "why_tests_cant": "unbounded dimension and arbitrary functions", "anchors": ["src/simsopt/_core/finite_difference.py: FiniteDifference.jac"]}
{"id": "C24", "title": "Parallel finite-difference Jacobian equals the serial one", "statement": "MPIFiniteDifference.jac on proc 0 gives the same matrix (or exception) as FiniteDifference.jac at the same point, for any number of worker groups and any assignment of evaluations to groups, if the workers hold the same fixed dofs as proc 0 or the function uses the leaders only. The condition is needed: workers are not sent fixed dofs (witness theorem).", "quantifier": "all numbers of groups, dimensions, functions", "why_tests_cant": "number of groups and work split unbounded", "anchors": ["src/simsopt/_core/finite_difference.py: MPIFiniteDifference._jac, jac"]}
{"id": "C25", "title": "MPI leader/worker protocol never mismatches", "statement": "During MPI solves every collective call on the leaders' communicator and on each group's communicator is made by all its members in the same order, for any sequence of function and Jacobian evaluations that return (with at least one evaluation per Jacobian); the system never gets stuck, and together() ends all loops with exactly one STOP per process. The conditions are needed: a centered Jacobian without free dofs, an exception in the middle of a Jacobian on proc 0, and one outside the try block mismatch or block (witness theorems).", "quantifier": "all numbers of processes/groups, all sequences of tasks", "why_tests_cant": "schedules and lengths unbounded; a mismatch is a deadlock", "anchors": ["src/simsopt/util/mpi.py: MpiPartition.apart/together/leaders_loop/worker_loop", "src/simsopt/_core/finite_difference.py: MPIFiniteDifference", "src/simsopt/solve/mpi.py"]}
{"id": "C26", "title": "Least-squares objective equals squared norm of residuals", "statement": "objective(x) = sum_i w_i (f_i - g_i)^2 = sum of squares of residuals(x), it is non-negative, and constructing a problem with a negative weight raises.", "quantifier": "all functions (scalar or vector valued), goals, weights", "why_tests_cant": "reals and unbounded lists", "anchors": ["src/simsopt/objectives/least_squares.py: LeastSquaresProblem"]}
{"id": "C27", "title": "Least-squares cache is never stale", "statement": "Whatever sequence of state changes and evaluations is performed, as long as the problem keeps the owners of its functions as parents, unweighted_residuals/residuals/objective return what a fresh evaluation at the current dofs returns (or the failure vector if that evaluation fails). After remove_parent of an owner the result can be stale (witness theorem).", "quantifier": "all histories of dof changes and evaluations", "why_tests_cant": "histories", "anchors": ["src/simsopt/objectives/least_squares.py: LeastSquaresProblem.unweighted_residuals"]}
{"id": "C28", "title": "Least-squares failure handling", "statement": "If a component function raises ObjectiveFailure after an evaluation that returned and fail is a number, the returned vector is constant = fail, and if the first evaluation ever made did not fail it has the same length as every successful residual vector; if fail is None or no evaluation has returned yet the exception propagates. The condition on the first evaluation is needed for the length (witness theorem).", "quantifier": "all functions and failure patterns", "why_tests_cant": "failure points and histories", "anchors": ["src/simsopt/objectives/least_squares.py: LeastSquaresProblem.unweighted_residuals"]}
{"id": "C29", "title": "from_sigma is weighting by 1/sigma^2", "statement": "LeastSquaresProblem.from_sigma(goals, sigma) has objective sum ((f-g)/sigma)^2; any zero sigma raises.", "quantifier": "all goals and sigma", "why_tests_cant": "reals", "anchors": ["src/simsopt/objectives/least_squares.py: LeastSquaresProblem.from_sigma"]}
{"id": "C30", "title": "Sum of least-squares problems", "statement": "For problems with numeric fail whose functions are listed one block per owner, with one goal and one weight per function: p+q evaluates the functions of p and then those of q with the goals and weights of both, and (p+q).objective() = p.objective() + q.objective(), after any histories. The conditions are needed: with interleaved functions, a repeated parent in a nested sum, or fail=None the sum is wrong or raises (witness theorems).", "quantifier": "all pairs of problems", "why_tests_cant": "function orderings unbounded", "anchors": ["src/simsopt/objectives/least_squares.py: LeastSquaresProblem.__add__, get_parent_return_fns_list"]}
{"id": "C31", "title": "Constraint vector encodes feasibility", "statement": "For lower bounds that are numbers or -inf and upper bounds that are numbers or +inf, scalar or array, nonlinear_constraints(x) <= 0 componentwise exactly when l <= c(x) <= u for every constraint, whenever it returns. With no finite bound at all it raises ValueError (theorem).", "quantifier": "all constraint functions and (possibly infinite, vector) bounds", "why_tests_cant": "reals and unbounded lists", "anchors": ["src/simsopt/objectives/constrained.py: ConstrainedProblem.nonlinear_constraints"]}
{"id": "C32", "title": "ConstrainedProblem caches are never stale", "statement": "objective, nonlinear_constraints and all_funcs return values of a fresh evaluation at the current dofs, or a constant vector of the failure value if that evaluation fails, for every interleaving of evaluations and dof changes; evaluating the objective never makes constraints stale or vice versa; they do return whenever the functions do and some bound is finite. The length of the failure vector is not claimed: it can differ from that of a successful one (witness theorem).", "quantifier": "all histories", "why_tests_cant": "interleavings of two caches sharing one flag", "anchors": ["src/simsopt/objectives/constrained.py: ConstrainedProblem.objective, nonlinear_constraints, all_funcs"]}
{"id": "C33", "title": "Saving and loading preserves the object graph", "statement": "Loading a saved acyclic graph of uniquely named objects yields an isomorphic graph: same classes, same constructor arguments, and two references reach the same loaded object exactly when they reached the same saved object. Unique names and the absence of bound methods are needed: equal names merge objects and a bound method duplicates its object (witness theorems).", "quantifier": "all acyclic object graphs with arbitrary sharing, lists and dicts", "why_tests_cant": "graph shapes unbounded", "anchors": ["src/simsopt/_core/json.py: GSONable.as_dict, SIMSON.as_dict/from_dict, GSONDecoder.process_decoded"]}
{"id": "C34", "title": "Each object is serialised and reconstructed once", "statement": "For every acyclic object graph the saved document contains exactly one entry per distinct reachable object, every reference points to an existing entry, and loading calls each constructor exactly once. A cyclic graph cannot be saved (theorem).", "quantifier": "all acyclic object graphs", "why_tests_cant": "graph shapes unbounded", "anchors": ["src/simsopt/_core/json.py: SIMSON.as_dict, GSONDecoder.process_decoded"]}
{"id": "C35", "title": "Class redirection on load", "statement": "A class redirected to (new_module,new_class) in the redirect table is loaded from there. (False when old and new module differ: the second lookup uses the already replaced module; recorded.)", "quantifier": "all redirect tables and documents", "why_tests_cant": "table contents unbounded", "anchors": ["src/simsopt/_core/json.py: GSONDecoder.process_decoded, _load_redirect"]}
{"id": "C36", "title": "Symmetric coil sets", "statement": "coils_via_symmetries returns n*nfp*(1+stellsym) coils, the first n are the base coils, coil k*n*(1+s)+f*n+i is base i rotated by 2 pi k/nfp and flipped iff f, with current sign -1 iff flipped; the resulting coil set is invariant under rotation by one field period and (if stellsym) under the stellarator flip.", "quantifier": "all n, nfp, stellsym, base curves", "why_tests_cant": "all integers; group closure", "anchors": ["src/simsopt/field/coil.py: apply_symmetries_to_curves, apply_symmetries_to_currents, coils_via_symmetries"]}
{"id": "C37", "title": "Current arithmetic", "statement": "For any expression built from currents with +, -, unary -, *, / and sum(), get_value() equals the arithmetic value, and vjp gives the derivative with respect to each underlying Current (summed over occurrences).", "quantifier": "all expression trees", "why_tests_cant": "unbounded trees", "anchors": ["src/simsopt/field/coil.py: CurrentBase, ScaledCurrent, CurrentSum"]}
{"id": "C38", "title": "MAKEGRID currents round trip", "statement": "Loading a file written by coils_to_makegrid gives the currents and the points of the selected coils in the same order, one per coil, up to the printing of numbers, for all coils with at least one point and group and curve names without blanks. With a blank in a group name the file cannot be loaded (witness theorem).", "quantifier": "all numbers of coils and points per coil (at least one)", "why_tests_cant": "unbounded lengths; a line-oriented state machine", "anchors": ["src/simsopt/field/coil.py: coils_to_makegrid, load_coils_from_makegrid_file"]}
{"id": "C39", "title": "Curve cache coherence", "statement": "gamma(), gammadash(), ... of a curve (with dofs of its own, or rotated) always return the values for its current dofs, for any interleaving of dof changes (through the Optimizable API, without exchanging the DOFs object) and evaluations; the Jacobians too for the families whose Jacobian cache is kept only when the curve is linear in its dofs. Both exceptions are real: CurvePlanarFourier keeps an outdated dgamma_by_dcoeff, and replace_dofs leaves the old shape (witness theorems).", "quantifier": "all histories", "why_tests_cant": "histories", "anchors": ["src/simsoptpp/curve.h: check_the_cache, set_dofs, invalidate_cache", "src/simsopt/geo/curve.py: Curve.recompute_bell"]}
{"id": "C40", "title": "Magnetic field cache coherence", "statement": "After any history of set_points, dof changes (with at least one free dof) and evaluations that return, B(), dB_by_dX(), A(), ... of a BiotSavart field, or of a sum or multiple whose components have its points, return the values at the current evaluation points for the current coil dofs; dB_by_dcoilcurrents gives the field of each coil with unit current. The exceptions are real: changes when all dofs are fixed, points of a component changed behind a sum, evaluations that raised, and dA_by_dcoilcurrents return wrong values (witness theorems).", "quantifier": "all histories", "why_tests_cant": "histories", "anchors": ["src/simsoptpp/magneticfield.h", "src/simsoptpp/cachedtensor.h", "src/simsopt/field/magneticfield.py: MagneticField.recompute_bell"]}
{"id": "C41", "title": "Validated attributes", "statement": "A descriptor-validated attribute only ever holds values its validator accepts: a rejected assignment raises and keeps the old value; each validator accepts exactly a stated set of values. That set is the documented one except that PositiveInteger and PositiveFloat accept 0 and that NaN passes every range (theorems).", "quantifier": "all assignment histories", "why_tests_cant": "histories, all values", "anchors": ["src/simsopt/_core/descriptor.py"]}
{"id": "C42", "title": "External (C++) copy of the dofs is in sync", "statement": "For an Optimizable constructed with external_dof_setter whose DOFs object is never exchanged, after any API call that returns or raises, the values last handed to the external setter equal local_full_x. After replace_dofs they need not (witness theorem).", "quantifier": "all graphs, all call histories, all shared-DOFs configurations", "why_tests_cant": "The mirror must hold after every history of calls on any object sharing the DOFs, including calls that raise half way.", "anchors": ["src/simsopt/_core/optimizable.py: DOFs._flag_recompute_opt", "src/simsopt/_core/optimizable.py: Optimizable.replace_dofs", "src/simsopt/geo/curve.py"]}
{"id": "C43", "title": "full_x of the whole lineage", "statement": "Assigning obj.full_x = v with len(v) >= full_dof_size makes obj.full_x equal to the first full_dof_size entries of v (so equal to v for the right length) and changes no DOFs object outside the lineage, no status, bound or name. Vectors of the wrong length are not rejected cleanly: longer ones are truncated and shorter ones overwrite a prefix before raising (witness theorems).", "quantifier": "all graphs, all vectors", "why_tests_cant": "Depends on offset tables of arbitrarily deep lineages with shared DOFs.", "anchors": ["src/simsopt/_core/optimizable.py: Optimizable.full_x"]}
{"id": "C44", "title": "Lineage-wide fix_all / unfix_all / full_fix / full_unfix", "statement": "fix_all/unfix_all make every dof of the object and its ancestors fixed/free; full_fix(arr)/full_unfix(arr) with one flag per full dof make exactly the flagged dofs fixed/free; values and every DOFs object outside the lineage are unchanged, and dof_size is updated accordingly. A flag array of the wrong length is not always rejected: a single flag is broadcast (witness theorem).", "quantifier": "all graphs, all flag arrays", "why_tests_cant": "Must hold for every lineage, with DOFs shared between objects and arbitrary earlier statuses.", "anchors": ["src/simsopt/_core/optimizable.py: Optimizable.fix_all", "src/simsopt/_core/optimizable.py: Optimizable.full_fix", "src/simsopt/_core/optimizable.py: Optimizable.full_unfix"]}
{"id": "C45", "title": "List helpers: order-preserving de-duplication and zero-padding of ragged lists", "statement": "unique(l) returns each distinct element of l exactly once, in the order of first occurrence. nested_lists_to_array(ll) returns a rectangular array with as many rows as ll and as many columns as the longest row, whose entry (i,j) is ll[i][j] when present and not None and 0 otherwise.", "quantifier": "every list of hashable elements; every non-empty list of lists of numbers or None", "why_tests_cant": "Holds for every list length and every pattern of repeats, None entries and ragged rows.", "anchors": ["src/simsopt/_core/util.py: unique, nested_lists_to_array"]}
{"id": "C46", "title": "The cache of the parallel Jacobian is transparent", "statement": "For explicit points held in arrays that the caller does not modify, and a Jacobian that depends on the point only, every call of MPIFiniteDifference.jac(x) in every sequence of calls returns the Jacobian at its own argument although a stored matrix is returned when x equals the previous x. The conditions are needed: arrays modified in place, calls without argument, and changes of fixed dofs between calls give an old matrix (witness theorems).", "quantifier": "every sequence of calls with any arguments (or none), any changes of fixed dofs and any in-place modification of arrays by the caller in between", "why_tests_cant": "a stale answer appears only for particular histories", "anchors": ["src/simsopt/_core/finite_difference.py: MPIFiniteDifference.jac"]}
{"id": "C47", "title": "opt_return_fns selects the evaluated functions", "statement": "A problem built with depends_on and callables in opt_return_fns evaluates, parent by parent, exactly the selected functions, and all functions of the parents' return_fn_map if none are selected. Names instead of callables are accepted by the constructor, but evaluating the problem raises TypeError (witness theorem).", "quantifier": "all parents, return_fn_maps and selections", "why_tests_cant": "Ranges over every list of parents and selections; the tests cover a few callables.", "anchors": ["src/simsopt/_core/optimizable.py: Optimizable.__init__, binder, add_return_fn", "src/simsopt/objectives/least_squares.py: LeastSquaresProblem.__init__"]}
{"id": "C48", "title": "Evaluation vectors of the wrong length are rejected", "statement": "Passing to objective, residuals or unweighted_residuals of a least-squares problem a vector whose length is not dof_size raises ValueError and changes nothing; the same for objective, nonlinear_constraints and all_funcs of a constrained problem unless the length of the vector or dof_size is one, and then at least no dof is changed. That exception is real (witness theorem).", "quantifier": "all problems, histories and vectors", "why_tests_cant": "Depends on every pair of lengths and on the current values of the dofs (NumPy broadcasting makes the comparison with the current x succeed for some).", "anchors": ["src/simsopt/objectives/constrained.py: ConstrainedProblem.objective, nonlinear_constraints, all_funcs", "src/simsopt/objectives/least_squares.py: LeastSquaresProblem.unweighted_residuals, residuals, objective"]}
{"id": "C49", "title": "Fourier fit of loaded MAKEGRID filaments", "statement": "Loading N > 2*order uniformly spaced samples of a Fourier curve of order at most `order` with load_curves_from_makegrid_file recovers exactly its cosine and sine coefficients, also through a file written by coils_to_makegrid. At N = 2*order, which is accepted, the highest cosine is doubled and the highest sine lost, for every curve (theorem).", "quantifier": "all orders, sample counts and coefficient values", "why_tests_cant": "All real coefficients and all N; rests on discrete orthogonality.", "anchors": ["src/simsopt/geo/curvexyzfourier.py: CurveXYZFourier.load_curves_from_makegrid_file", "src/simsoptpp/curvexyzfourier.cpp: CurveXYZFourier::gamma_impl"]}
{"id": "C50", "title": "Field of a symmetric coil set", "statement": "For coils = coils_via_symmetries(curves, currents, nfp, stellsym), the Biot-Savart field satisfies B(R x) = R B(x) for R the rotation by one field period, and, if stellsym, B(x,-y,-z) = (-Bx, By, Bz).", "quantifier": "all base coils, nfp, points", "why_tests_cant": "continuum of points and coil shapes", "anchors": ["src/simsopt/field/coil.py: coils_via_symmetries", "src/simsoptpp/biot_savart_impl.h", "src/simsoptpp/magneticfield_biotsavart.cpp: BiotSavart::compute"]}
{"id": "C51", "title": "Field derivatives are the derivatives of the field", "statement": "dB_by_dX() and d2B_by_dXdX() of a BiotSavart field are the exact first and second partial derivatives of B(), and dA_by_dX() of A(), at every point off the filaments; the discretised B is divergence free.", "quantifier": "all coil sets, quadratures and points off the filaments", "why_tests_cant": "continuum of points; finite differences only approximate", "anchors": ["src/simsoptpp/biot_savart_impl.h: biot_savart_kernel, biot_savart_kernel_A", "src/simsoptpp/magneticfield_biotsavart.cpp"]}
{"id": "C52", "title": "CurveXYZFourier dofs, names and derivatives", "statement": "For every order, get_dofs() after set_dofs(d) is d; the dof named xs(m) (xc(m), ys(m), ...) is the coefficient of sin(2 pi m t) (cos) in that coordinate; gammadash, gammadashdash, gammadashdashdash are the successive derivatives of gamma in the curve parameter; dgamma_by_dcoeff and the three others are exactly the derivatives with respect to the dofs.", "quantifier": "all orders, dof vectors, parameters", "why_tests_cant": "unbounded order; continuum of values", "anchors": ["src/simsoptpp/curvexyzfourier.cpp", "src/simsoptpp/curvexyzfourier.h: set_dofs_impl, get_dofs", "src/simsopt/geo/curvexyzfourier.py: CurveXYZFourier._make_names"]}
{"id": "C53", "title": "Curve geometry: curvature, torsion, frame and their dof derivatives", "statement": "For a curve whose gammadash and gammadashdash are not parallel, incremental_arclength, kappa, torsion, kappadash and frenet_frame are the arclength element, curvature, torsion, parameter derivative of the curvature and an orthonormal right-handed frame satisfying the Frenet-Serret equations; dincremental_arclength_by_dcoeff, dkappa_by_dcoeff, dtorsion_by_dcoeff, dkappadash_by_dcoeff and dfrenet_frame_by_dcoeff are the exact derivatives with respect to each dof.", "quantifier": "all curves, dofs and parameters at which the curvature does not vanish", "why_tests_cant": "continuum of curves; finite differences only approximate, long hand-derived formulas", "anchors": ["src/simsopt/geo/curve.py: incremental_arclength_pure, kappa_pure, torsion_pure, Curve.frenet_frame, Curve.kappadash, Curve.dkappa_by_dcoeff_impl, Curve.dtorsion_by_dcoeff_impl, Curve.dfrenet_frame_by_dcoeff, Curve.dkappadash_by_dcoeff"]}
{"id": "C54", "title": "CurvePlanarFourier is a planar Fourier curve with exact derivatives", "statement": "gamma of a CurvePlanarFourier is the polar Fourier curve r(phi)(cos phi, sin phi, 0) rotated by the quaternion dofs (whose length does not matter) and shifted to the centre dofs, so it is a rigid image of a planar curve; get_dofs after set_dofs returns the vector; gammadash, gammadashdash, gammadashdashdash are successive derivatives; the four by_dcoeff arrays are the exact derivatives in every dof, quaternion included, when the quaternion is not zero.", "quantifier": "all orders, dof vectors with non-zero quaternion, parameters", "why_tests_cant": "continuum of values; about 1400 lines of hand-expanded derivatives", "anchors": ["src/simsoptpp/curveplanarfourier.cpp", "src/simsoptpp/curveplanarfourier.h: set_dofs_impl, get_dofs, inv_magnitude"]}
{"id": "C55", "title": "CurveRZFourier series, derivatives and symmetries", "statement": "gamma of a CurveRZFourier has the documented cylindrical Fourier series with the documented dof order for both settings of stellsym; get_dofs after set_dofs returns the vector; the parameter derivatives and the by_dcoeff arrays are exact; advancing the parameter by 1/nfp rotates the curve by 2 pi/nfp; with stellsym the curve at -t is the reflection of the curve at t.", "quantifier": "all orders, nfp, stellsym, dof vectors, parameters", "why_tests_cant": "unbounded order, continuum of values", "anchors": ["src/simsoptpp/curverzfourier.cpp", "src/simsoptpp/curverzfourier.h", "src/simsopt/geo/curverzfourier.py: CurveRZFourier"]}
{"id": "C56", "title": "CurveXYZFourierSymmetries has the advertised symmetries", "statement": "gamma is the documented series with each coefficient identified by its dof name; the names are distinct, one per dof; the curve is closed; advancing the parameter by 1/nfp rotates it by 2 pi ntor/nfp; the constructor accepts exactly coprime nfp and ntor and then the curve is mapped to itself by the rotation by 2 pi/nfp; with stellsym the point at -theta is the reflection of the point at theta.", "quantifier": "all orders, nfp, ntor, stellsym, dof vectors, parameters", "why_tests_cant": "unbounded order, nfp, ntor; continuum of values", "anchors": ["src/simsopt/geo/curvexyzfouriersymmetries.py: jaxXYZFourierSymmetriescurve_pure, CurveXYZFourierSymmetries"]}
{"id": "C57", "title": "CurveHelical lies on the torus and is closed and symmetric", "statement": "gamma of a CurveHelical is the documented series with A_k and B_k in the documented dof order; the curve lies on the torus of radii R0 >= r0, closes after one parameter period, and advancing the parameter by 1/n0 rotates it by 2 pi l0/n0; get_dofs returns what set_dofs was given; the dof B_0 has no effect.", "quantifier": "all orders, n0, l0, radii, dof vectors, parameters", "why_tests_cant": "continuum of values, unbounded order", "anchors": ["src/simsopt/geo/curvehelical.py: jaxHelicalfouriercurve_pure, CurveHelical"]}
{"id": "C58", "title": "The grid search returns exactly the close pairs of point clouds", "statement": "For a positive threshold, get_pointclouds_closer_than_threshold_within_collection returns each pair (i,j), j<i, j<num_base_curves, once if and only if the two clouds contain points closer than the threshold, and get_pointclouds_closer_than_threshold_between_two_collections likewise for two collections, whatever the thread schedule.", "quantifier": "all collections of point clouds, thresholds > 0, schedules of the OpenMP loops", "why_tests_cant": "continuum of positions (cell boundaries, negative coordinates), all schedules", "anchors": ["src/simsoptpp/python_distance.cpp: get_close_candidates_pdist, get_close_candidates_cdist, empty_intersection, two_points_too_close_exist"]}
{"id": "C59", "title": "Distance objectives equal their full sums", "statement": "CurveCurveDistance.J() is, at any time in any history, the sum over all pairs of curves of the documented double integral (discretised), is zero exactly when no two points of different curves are closer than minimum_distance, its gradient may be assembled from the candidate pairs, and without num_basecurves shortest_distance() is the least distance between points of different curves; CurveSurfaceDistance.J() is the sum over all curves of the documented integral as long as the surface does not move. Both conditions are needed: with num_basecurves closer pairs are ignored, and a moved surface is not noticed (witness theorems).", "quantifier": "all histories of curve and surface changes and evaluations, all thresholds > 0", "why_tests_cant": "histories of cache invalidation; continuum of configurations around the threshold", "anchors": ["src/simsopt/geo/curveobjectives.py: cc_distance_pure, CurveCurveDistance, cs_distance_pure, CurveSurfaceDistance"]}
{"id": "C60", "title": "Single-curve penalties: value, zero set and gradient", "statement": "CurveLength, LpCurveCurvature, LpCurveTorsion, ArclengthVariation and MeanSquaredCurvature compute the documented discretised integrals; the threshold penalties are non-negative and vanish exactly when the (absolute) curvature/torsion is at most the threshold at every quadrature point; ArclengthVariation is the variance of the averages over the intervals, which for nintervals=\"full\" or an accepted integer partition the quadrature points into consecutive non-empty runs, and vanishes exactly when these averages agree; MeanSquaredCurvature lies between the extreme values of the squared curvature; and at curves with non-vanishing curvature dJ()[i] is the derivative of J() in dof i, also where max(.,0) or abs has its kink. With nintervals=\"partial\" an interval can be empty (witness theorem).", "quantifier": "all curves, numbers of quadrature points, dofs, exponents p > 1 (p > 0 for values), thresholds, numbers of intervals", "why_tests_cant": "Tests compare J and finite differences for a handful of curves and exponents; the zero set, the kinks and the interval partition for every pair (nquadpoints, nintervals) need a universal argument.", "anchors": ["src/simsopt/geo/curveobjectives.py: CurveLength, LpCurveCurvature, LpCurveTorsion, ArclengthVariation, MeanSquaredCurvature", "src/simsoptpp/curve.h: curve_vjp_contraction", "src/simsopt/geo/curve.py: dincremental_arclength_by_dcoeff_vjp, dkappa_by_dcoeff_vjp, dtorsion_by_dcoeff_vjp"]}
{"id": "C61", "title": "Rotated curves: invariants, Jacobians, pull-back of gradients", "statement": "A RotatedCurve (rotated, flipped, nested arbitrarily) has the arclength, curvature, torsion and hence the single-curve objectives of its base curve; its Jacobian arrays are the derivatives of its points in the base curve's dofs; its *_by_dcoeff_vjp functions attribute to the base curve exactly v^T times that Jacobian.", "quantifier": "all base curves, angles, flips, nesting depths, cotangent vectors, quadrature points", "why_tests_cant": "Tests use one or two angles; an error in transposition or orientation vanishes for symmetric choices.", "anchors": ["src/simsopt/geo/curve.py: RotatedCurve", "src/simsoptpp/python.cpp: matmult"]}
{"id": "C62", "title": "Linking number is an invariant of the set of curves", "statement": "LinkingNumber.J() is the sum over unordered pairs of the rounded absolute discretised Gauss integral; it is non-negative, independent of the order and the orientation of the curves and of the thread schedule, unchanged by moving, rotating, flipping or scaling all curves together; dJ() = 0 is its derivative wherever no pair is at a half-integer; downsample=d equals the linking number of the curves with every d-th quadrature point.", "quantifier": "all lists of curves, permutations, orientations, rigid motions, positive downsample factors dividing the numbers of points", "why_tests_cant": "Tests check a few coil sets; invariance under all permutations and motions is universal.", "anchors": ["src/simsopt/geo/curveobjectives.py: LinkingNumber", "src/simsoptpp/python_distance.cpp: compute_linking_number"]}
{"id": "C63", "title": "Vector-Jacobian products of Biot-Savart", "statement": "For any coils, evaluation points off the quadrature points, and arrays v and vgrad, each entry of B_vjp(v) is the derivative of sum(v*B()) in that dof of the curves and currents, and likewise for the second result of B_and_dB_vjp (sum(vgrad*dB_by_dX())), A_vjp and A_and_dA_vjp; this includes coils made by rotating and flipping base curves and by scaling and adding currents.", "quantifier": "all numbers of coils, quadrature points and evaluation points, all positions, tangents and currents, all curves with correct Jacobians, all v and vgrad, all chains of rotations", "why_tests_cant": "tests compare with finite differences for a few coils, points and directions, to a tolerance; the adjoint identity must hold for every input", "anchors": ["src/simsopt/field/biotsavart.py: B_vjp, B_and_dB_vjp, A_vjp, A_and_dA_vjp", "src/simsoptpp/biot_savart_vjp_impl.h: biot_savart_vjp_kernel, biot_savart_vector_potential_vjp_kernel", "src/simsoptpp/biot_savart_vjp_py.cpp: biot_savart_vjp_graph", "src/simsopt/field/coil.py: Coil.vjp"]}
{"id": "C64", "title": "SquaredFlux: value, gradient, threads and evaluation points", "statement": "SquaredFlux.J() is the documented surface average for each definition; it is nonnegative, zero exactly if the normal field equals the target everywhere, scales as documented with the field strength, and dJ() is its derivative in the dofs of the coils; for the default definition it does not depend on how the parallel loop is scheduled, for the other two it is right with one thread; J() evaluates the current field on the object's own surface as long as nobody has set the points of the field since the construction. Both conditions are needed: with two threads the other definitions race, and a second SquaredFlux with the same field moves the points (witness theorems).", "quantifier": "all surfaces, fields, targets and the three definitions; all numbers of threads, distributions of iterations and interleavings; all histories of constructing objectives and changing dofs", "why_tests_cant": "data races depend on the schedule and the tests use one objective per field; gradients are only tested at a few points", "anchors": ["src/simsopt/objectives/fluxobjective.py: SquaredFlux", "src/simsoptpp/integral_BdotN.cpp: integral_BdotN"]}
{"id": "C65", "title": "SurfaceRZFourier dof vector, names and coefficients agree", "statement": "For SurfaceRZFourier: get_dofs(), the dof names and num_dofs have the same length, names are unique, the dof named kind(m,n) is the amplitude that get_rc/get_rs/get_zc/get_zs(m,n) returns, the named modes are exactly those of the documented series, the attributes m and n list the mode numbers of the dofs; get_dofs after set_dofs(d) gives d and set_dofs(get_dofs()) changes nothing; set_rc etc. change exactly the amplitude named and nothing for illegal arguments; two surfaces reached by constructor, dof assignment, setters of modes that have a dof and change_resolution with the same dofs have the same shape. Setters also accept m = 0, n < 0, which have no dof but change the shape (witness theorem).", "quantifier": "all mpol, ntor, nfp, stellsym, all dof vectors, all modes, all histories", "why_tests_cant": "Tests check a few resolutions; packing errors show up only for particular (mpol, ntor, stellsym) combinations and histories.", "anchors": ["src/simsoptpp/surfacerzfourier.h: set_dofs_impl", "src/simsoptpp/surfacerzfourier.h: get_dofs", "src/simsopt/geo/surfacerzfourier.py: _make_names", "src/simsopt/geo/surfacerzfourier.py: _make_mn", "src/simsopt/geo/surfacerzfourier.py: set_rc"]}
{"id": "C66", "title": "SurfaceRZFourier evaluates the documented Fourier series and its exact derivatives", "statement": "gamma() is the point with cylindrical coordinates given by the documented double Fourier series of the amplitudes (also gamma_lin), although the code advances sines and cosines by a recurrence that is restarted every 5 modes; gammadash1, gammadash2, gammadash1dash1, gammadash1dash2, gammadash2dash2 are the first and second partial derivatives of gamma in the two angles.", "quantifier": "all resolutions, nfp, coefficients and quadrature points, all contents of uninitialised variables", "why_tests_cant": "Finite-difference tests check sample points, few resolutions and tolerate small errors of the recurrence.", "anchors": ["src/simsoptpp/surfacerzfourier.cpp: gamma_impl", "src/simsoptpp/surfacerzfourier.cpp: gammadash1_impl", "src/simsoptpp/surfacerzfourier.cpp: gammadash1dash2_impl"]}
{"id": "C67", "title": "SurfaceRZFourier Jacobians and vector-Jacobian products", "statement": "Column k of dgamma_by_dcoeff (and of the Jacobians of the first and second derivatives) is the derivative of that array with respect to dof k; the Jacobians have num_dofs columns and do not depend on the dofs; dgamma_by_dcoeff_vjp(v), dgammadash1_by_dcoeff_vjp(v), dgammadash2_by_dcoeff_vjp(v) are the contraction of v with the Jacobian over all quadrature points, for any distribution of the points over threads, and write nothing outside the result.", "quantifier": "all resolutions, dof vectors, dof indices, quadrature points, thread partitions and orders", "why_tests_cant": "Taylor tests sample a direction; thread schedules and index shifts for all resolutions cannot be enumerated.", "anchors": ["src/simsoptpp/surfacerzfourier.cpp: dgamma_by_dcoeff_impl", "src/simsoptpp/surfacerzfourier.cpp: dgamma_by_dcoeff_vjp", "src/simsoptpp/surfacerzfourier.cpp: dgammadash1_by_dcoeff_vjp"]}
{"id": "C68", "title": "SurfaceRZFourier field-period and stellarator symmetry", "statement": "Moving by a field periods in phi and b turns in theta rotates position, tangents and second derivatives by 2 pi a/nfp about the z axis; with stellsym=True the point at (-phi,-theta) is the point at (phi,theta) with y and z reversed, tangents additionally change sign.", "quantifier": "all surfaces, all points, all integers a and b", "why_tests_cant": "Holds for a continuum of angles and all coefficients; tests sample a grid.", "anchors": ["src/simsoptpp/surfacerzfourier.cpp: gamma_impl", "src/simsoptpp/surfacerzfourier.cpp: gammadash1_impl"]}
{"id": "C69", "title": "SurfaceRZFourier change_resolution, copy and cache coherence", "statement": "change_resolution keeps the amplitudes of the modes in both ranges, sets the new ones to 0 and drops the others; enlarging does not change the shape; enlarging and going back restores the dofs; copy() has the same shape; after any history of dof assignments, setters, change_resolution and evaluations the shape arrays, and after any history without change_resolution also the Jacobians, are those of the current coefficients. After change_resolution the Jacobians are outdated or written out of bounds (witness theorems).", "quantifier": "all surfaces, all resolutions, all histories of API calls", "why_tests_cant": "Stale-cache errors depend on which arrays were evaluated before which change: unbounded histories.", "anchors": ["src/simsopt/geo/surfacerzfourier.py: change_resolution", "src/simsopt/geo/surfacerzfourier.py: copy", "src/simsoptpp/surface.h: check_the_persistent_cache", "src/simsoptpp/surface.h: invalidate_cache"]}
{"id": "C70", "title": "Surface normal, area and volume and their derivatives", "statement": "normal() is orthogonal to both tangents with length sqrt(EG-F^2); unitnormal() has length 1; dnormal_by_dcoeff, dunitnormal_by_dcoeff, darea_by_dcoeff, dvolume_by_dcoeff are the exact partial derivatives, and d2normal/d2area/d2volume_by_dcoeffdcoeff the exact, symmetric second derivatives; for SurfaceRZFourier this holds for the threaded vector-Jacobian products whatever the distribution of points over threads.", "quantifier": "all surfaces whose arrays depend differentiably (for the second derivatives linearly) on the dofs, all dof vectors, all quadrature points, all thread schedules", "why_tests_cant": "A Taylor test checks one random surface, one direction and a tolerance; the claim is about all of them and exact.", "anchors": ["src/simsoptpp/surface.cpp: normal_impl", "src/simsoptpp/surface.cpp: dnormal_by_dcoeff_vjp", "src/simsoptpp/surface.cpp: darea_by_dcoeff_impl", "src/simsoptpp/surface.cpp: d2area_by_dcoeffdcoeff_impl", "src/simsoptpp/surface.cpp: dvolume_by_dcoeff_impl", "src/simsoptpp/surface.cpp: d2volume_by_dcoeffdcoeff_impl"]}
{"id": "C71", "title": "Surface fundamental forms and curvatures", "statement": "surface_curvatures() returns real principal curvatures in decreasing order whose mean and product are the returned mean and Gaussian curvature; the derivatives of the fundamental forms and of all four curvatures returned by the *_by_dcoeff functions are exact (for the principal curvatures away from umbilic points).", "quantifier": "all surfaces, all points with independent tangents, all dofs", "why_tests_cant": "Reality of the square root is a statement about all shapes; the derivative formulas are only sampled by Taylor tests.", "anchors": ["src/simsoptpp/surface.cpp: surface_curvatures_impl", "src/simsoptpp/surface.cpp: dsurface_curvatures_by_dcoeff_impl", "src/simsoptpp/surface.cpp: first_fund_form_impl", "src/simsoptpp/surface.cpp: dsecond_fund_form_by_dcoeff_impl"]}
{"id": "C72", "title": "Mean cross-sectional area, minor and major radius, aspect ratio", "statement": "The minor radius is that of the circle with the mean cross-sectional area, the major radius that of the circular torus with the same volume and minor radius, the aspect ratio their quotient; their first and second derivatives by the dofs are exact; multiplying the shape by c multiplies area by c^2, volume by |c|^3 (up to sign), radii by |c| and leaves the aspect ratio; for a circular torus all these are exact on every tensor grid with at least 3 equidistant poloidal points.", "quantifier": "all toroidal surfaces off the axis with nonzero signed mean area and volume, all dofs, all scale factors, all grids", "why_tests_cant": "Exactness for all shapes, all second-derivative pairs and all grids cannot be sampled.", "anchors": ["src/simsopt/geo/surface.py: mean_cross_sectional_area", "src/simsopt/geo/surface.py: dmean_cross_sectional_area_by_dcoeff", "src/simsopt/geo/surface.py: d2mean_cross_sectional_area_by_dcoeff_dcoeff", "src/simsopt/geo/surface.py: minor_radius", "src/simsopt/geo/surface.py: major_radius", "src/simsopt/geo/surface.py: aspect_ratio", "src/simsopt/geo/surface.py: d2aspect_ratio_by_dcoeff_dcoeff"]}
{"id": "C73", "title": "Quadrature grids and their ranges", "statement": "get_theta_quadpoints and get_phi_quadpoints return the documented equidistant points inside the documented interval (half period: for at least two points); deduced_range recovers the range from at least two points; for a surface with field-period symmetry (and, for the half-period range, stellarator symmetry) area, volume, mean cross-sectional area, radii and aspect ratio computed on the reduced grid equal those on the corresponding full-torus grid. Single-point grids are excluded, necessarily (theorems).", "quantifier": "all numbers of points, all numbers of field periods, all SurfaceRZFourier coefficients", "why_tests_cant": "Equality of the sums is a symmetry argument over all surfaces, resolutions and numbers of field periods.", "anchors": ["src/simsopt/geo/surface.py: Surface.get_theta_quadpoints", "src/simsopt/geo/surface.py: Surface.get_phi_quadpoints", "src/simsopt/geo/surface.py: Surface.deduced_range"]}
{"id": "C74", "title": "cross_section bisection terminates at the requested angle", "statement": "cross_section wraps any requested angle into [-pi, pi] by whole turns, its bisection ends for every surface and every initial bracket, and, if the bracket encloses the target angle, every returned toroidal parameter is within 5e-14 of a point where the cylindrical angle is exactly the requested one.", "quantifier": "all angles, all surfaces (as continuous angle functions), all initial brackets", "why_tests_cant": "Termination and accuracy for every surface cannot be sampled.", "anchors": ["src/simsopt/geo/surface.py: Surface.cross_section"]}
{"id": "C75", "title": "Arclength poloidal angle", "statement": "Each row of arclength_poloidal_angle starts with 0, lies in [0, 1], is nondecreasing (strictly if neighbouring points differ), and its increments, including the closing one to 1, are the chord lengths divided by the perimeter of the closed polygon.", "quantifier": "all cross sections with any number of points that are not all the same", "why_tests_cant": "It must hold for every cross section and every resolution.", "anchors": ["src/simsopt/geo/surface.py: Surface.arclength_poloidal_angle"]}
{"id": "C76", "title": "MwPGP keeps dipoles feasible and descends", "statement": "Starting from dipole moments within their maximum strengths, and as long as no component of a search direction is nonzero but below 1e-10, every iteration of MwPGP_algorithm returns moments within those maxima, never increases the objective |Ax-b|^2/2 + |x-m_proxy|^2/(2 nu) + reg_l2 |x|^2 when the step size is at most 2 over the largest eigenvalue of its Hessian (which relax_and_split provides after rescale_for_opt), and moments that an iteration leaves unchanged are a global minimum over all feasible moments. Both conditions are needed: tiny search directions lead to moments far above the maxima, and without rescale_for_opt the objective can increase (witness theorems).", "quantifier": "all numbers of dipoles and grid points, all matrices, right hand sides, proxies, regularizations, feasible initial guesses and numbers of iterations", "why_tests_cant": "The invariant and the optimality statement range over all problems and all iteration counts; a test runs one problem.", "anchors": ["src/simsoptpp/permanent_magnet_optimization.cpp: MwPGP_algorithm", "src/simsopt/solve/permanent_magnet_optimization.py: relax_and_split", "src/simsopt/geo/permanent_magnet_grid.py: rescale_for_opt"]}
{"id": "C77", "title": "Proximal operators, history arrays and initial guesses of the magnet solvers", "statement": "prox_l1 and prox_l0 minimize the functionals they are the proximal operators of and never enlarge a moment; the recording of the histories stays inside the history arrays for GPMO if nhistory divides K and for MwPGP with at least 5 iterations; setup_initial_condition accepts every feasible initial guess and only guesses within the tolerances of np.allclose of a feasible one. The conditions are needed: other nhistory <= K write out of bounds, fewer than 5 iterations divide by zero, and infeasible guesses within the tolerance are accepted (witness theorems).", "quantifier": "all moments, maxima, regularization parameters, iteration counts, history lengths and initial guesses", "why_tests_cant": "Minimality is against all competitors, and the array bound must hold for all combinations of iteration count and history length.", "anchors": ["src/simsopt/solve/permanent_magnet_optimization.py: prox_l0", "src/simsopt/solve/permanent_magnet_optimization.py: prox_l1", "src/simsopt/solve/permanent_magnet_optimization.py: setup_initial_condition", "src/simsoptpp/permanent_magnet_optimization.cpp: print_GPMO", "src/simsoptpp/permanent_magnet_optimization.cpp: print_MwPGP"]}
{"id": "C78", "title": "Greedy magnet placement", "statement": "While all objective values stay below 1e50: after K iterations of GPMO_baseline or GPMO_ArbVec exactly K dipoles carry a magnet, each of full strength in an allowed orientation, all others are zero, the running residual is A x - b, and every iteration made the choice (of an empty dipole, an allowed orientation and a sign) with the smallest |A x - b|^2 plus the penalty that the code reads for that dipole. For GPMO_ArbVec that penalty is the one of another dipole (witness theorem).", "quantifier": "all grids, matrices, right hand sides, allowed orientations and numbers of iterations up to the number of dipoles", "why_tests_cant": "The invariant ranges over all problems and all iteration counts; the greedy choice is against all candidates.", "anchors": ["src/simsoptpp/permanent_magnet_optimization.cpp: GPMO_baseline", "src/simsoptpp/permanent_magnet_optimization.cpp: GPMO_ArbVec", "src/simsopt/solve/permanent_magnet_optimization.py: GPMO"]}
{"id": "C79", "title": "Adjacent dipoles are the nearest ones", "statement": "For distances below 1e10, the first n entries (n up to the number of dipoles) of a dipole's row in the neighbour table used by the GPMO algorithms are n different dipoles ordered by distance, no dipole left out is nearer than one listed, and the first entry is the dipole itself if no other sits at the same place. Entries beyond the number of dipoles are dipole 0 (theorem).", "quantifier": "all grids of dipole positions, all rows, all numbers of neighbours up to the number of dipoles", "why_tests_cant": "Nearness is against all dipoles of every grid; a test checks one grid.", "anchors": ["src/simsoptpp/permanent_magnet_optimization.cpp: connectivity_matrix"]}
{"id": "C80", "title": "Greedy placement with backtracking", "statement": "While all objective values stay below 1e50: after any number of iterations of GPMO_backtracking every dipole is empty or carries a full strength magnet along an allowed axis, the running residual is A x - b, there are at most max_nMagnets magnets (and at least one may be placed), the loop goes on only below the magnet limit and with an empty dipole; after a backtracking iteration no magnet but the one placed last has an equal and opposite neighbour, and none at all if adjacency is symmetric. Not true of the code, each by a theorem: the test for stagnation never stops the loop, the last record can be out of bounds, and the magnet placed last can keep an opposite neighbour.", "quantifier": "all grids, matrices, right hand sides, neighbour tables, backtracking intervals, magnet limits and numbers of iterations", "why_tests_cant": "The invariant must survive every sequence of placements and removals.", "anchors": ["src/simsoptpp/permanent_magnet_optimization.cpp: GPMO_backtracking", "src/simsoptpp/permanent_magnet_optimization.cpp: print_GPMO"]}
{"id": "C81", "title": "Greedy placement of arbitrary vectors with backtracking and an initial guess", "statement": "While all objective values stay below 1e50, for an initial guess that leaves a dipole empty and thresholds above the angle of a vector with itself: GPMO_ArbVec_backtracking starts from the allowed vectors nearest to the initial guess; after any number of iterations every dipole is empty or carries one of its allowed vectors or a negative of one, the running residual is A x - b, the running count is the number of magnets and exceeds neither max_nMagnets nor one more than the magnets of the guess, and after a backtracking iteration adjacent magnets make an angle below the threshold. The conditions are needed (witness theorems).", "quantifier": "all grids, matrices, allowed vectors, initial guesses, neighbour tables, thresholds, limits and numbers of iterations", "why_tests_cant": "The invariant must survive every sequence of placements and removals from every initial guess.", "anchors": ["src/simsoptpp/permanent_magnet_optimization.cpp: GPMO_ArbVec_backtracking", "src/simsoptpp/permanent_magnet_optimization.cpp: initialize_GPMO_ArbVec"]}
{"id": "C82", "title": "Greedy placement of groups of magnets", "statement": "For at most 2000 dipoles and as long as a group is available, each iteration of GPMO_multi places equal full strength magnets on the Nadjacent available dipoles nearest to an available dipole, choosing the group with the smallest sum of the single-magnet objectives; after K iterations exactly K*Nadjacent dipoles carry a magnet and the running residual is A x - b. The group chosen need not be the one with the smallest joint objective, and an exhausted grid is not handled (witness theorems).", "quantifier": "all grids, matrices, right hand sides, group sizes and numbers of iterations GPMO accepts", "why_tests_cant": "The choice is against all groups and the count must be right after all numbers of iterations.", "anchors": ["src/simsoptpp/permanent_magnet_optimization.cpp: GPMO_multi", "src/simsopt/solve/permanent_magnet_optimization.py: GPMO"]}
{"id": "C83", "title": "The wireframe grid is a torus on which current is conserved", "statement": "The segments, node connections, cells and neighbours a ToroidalWireframe stores for half a field period are those of one consistent grid on the whole torus. Currents that satisfy the wireframe's continuity constraints accumulate nothing at any node of the torus, including the nodes on the symmetry planes for which no constraint is stored, and vice versa. Adding a loop of current around any cell adds a loop around each of its images with the mirrored sign, and preserves continuity. For such currents the rows of the toroidal and poloidal current constraints give the total current through every poloidal cross-section and every toroidal cut of a field period.", "quantifier": "all grid sizes (n_phi>=2, n_theta even), all nodes, cells and segment currents", "why_tests_cant": "The special cases are on the edges and the symmetry planes, and must fit for all grid sizes and all currents.", "anchors": ["src/simsopt/geo/wireframe_toroidal.py: ToroidalWireframe.determine_connected_segments", "src/simsopt/geo/wireframe_toroidal.py: ToroidalWireframe.set_up_cell_key", "src/simsopt/geo/wireframe_toroidal.py: ToroidalWireframe.add_continuity_constraints", "src/simsopt/geo/wireframe_toroidal.py: ToroidalWireframe.add_poloidal_current_constraint", "src/simsopt/geo/wireframe_toroidal.py: ToroidalWireframe.add_toroidal_current_constraint"]}
{"id": "C84", "title": "Implicit constraints of a wireframe are exactly the implied dead ends", "statement": "After any history of calls that add, remove, set or free constraints, unconstrained_segments() is the largest set of segments without explicit constraints in which no node has exactly one free connection; it depends on the explicit constraints alone, not on the history, and the computation ends. Currents that meet the explicit constraints and the continuity vanish in all segments reported as constrained. constraint_matrices describes exactly the currents that meet the constraints, with and without removal of redundant rows and of constrained columns. get_free_cells reports the cells whose four segments are free, and check_constraints accepts the currents that meet the constraints.", "quantifier": "all grid sizes, all histories of constraint calls (including calls that raise), all currents and tolerances", "why_tests_cant": "The state of the implicit constraints depends on the whole history; the fixed point must be reached for all sets of constraints.", "anchors": ["src/simsopt/geo/wireframe_toroidal.py: ToroidalWireframe.update_implicit_constraints", "src/simsopt/geo/wireframe_toroidal.py: ToroidalWireframe.unconstrained_segments", "src/simsopt/geo/wireframe_toroidal.py: ToroidalWireframe.constraint_matrices", "src/simsopt/geo/wireframe_toroidal.py: ToroidalWireframe.find_inactive_nodes", "src/simsopt/geo/wireframe_toroidal.py: ToroidalWireframe.get_free_cells", "src/simsopt/geo/wireframe_toroidal.py: ToroidalWireframe.check_constraints"]}
{"id": "C85", "title": "Constraining and freeing segments does what it says", "statement": "After any history: set_segments_constrained constrains the given segments and no others; set_segments_free leaves them unconstrained; add_segment_constraints and remove_segment_constraints add and remove constraints on the given segments; free_all_segments frees all segments; the calls about total currents and the user's own constraints do not change which segments are constrained.", "quantifier": "all grid sizes, all histories of constraint calls, all lists of segments", "why_tests_cant": "Success depends on the implicit constraints left by earlier calls.", "anchors": ["src/simsopt/geo/wireframe_toroidal.py: ToroidalWireframe.add_segment_constraints", "src/simsopt/geo/wireframe_toroidal.py: ToroidalWireframe.remove_segment_constraints", "src/simsopt/geo/wireframe_toroidal.py: ToroidalWireframe.set_segments_constrained", "src/simsopt/geo/wireframe_toroidal.py: ToroidalWireframe.set_segments_free", "src/simsopt/geo/wireframe_toroidal.py: ToroidalWireframe.free_all_segments"]}
{"id": "C86", "title": "Assuming no crossings removes only redundant constraints", "statement": "constraint_matrices(assume_no_crossings=True) has the same solutions as the constraints: one degree of freedom per loop of current.", "quantifier": "all grid sizes, all reachable sets of constraints whose free segments form loops without crossings, all orders in which the segments are visited", "why_tests_cant": "Loops can pass through the symmetry planes in all ways.", "anchors": ["src/simsopt/geo/wireframe_toroidal.py: ToroidalWireframe.find_inactive_nodes", "src/simsopt/geo/wireframe_toroidal.py: ToroidalWireframe.constraint_matrices"]}
{"id": "C87", "title": "The recorded history of GSCO is true", "statement": "For the result of gsco_wireframe, get_gsco_iteration(k) gives the currents after iteration k: those of x_init for k=0 and the returned x for the last entry; f_B_hist, f_S_hist, f_hist hold 0.5|Ax-b|^2, half the number of active segments and f_B + lambda_S f_S of these currents; loop_count is the initial count plus the signs of the recorded loops; there are at most max_iter + 1 entries.", "quantifier": "all grids, constraints, matrices, weights, options, initial currents and counts, numbers of iterations", "why_tests_cant": "The objectives are updated incrementally through all iterations; tests see a few runs.", "anchors": ["src/simsoptpp/wireframe_optimization.cpp: GSCO", "src/simsopt/solve/wireframe_optimization.py: gsco_wireframe", "src/simsopt/solve/wireframe_optimization.py: get_gsco_iteration"]}
{"id": "C88", "title": "GSCO obeys the constraints of the wireframe", "statement": "The solution of gsco_wireframe meets all constraints of the wireframe that the initial currents meet, if there are no constraints of the user's own: continuity at all nodes, total poloidal and toroidal currents, segment constraints; constrained segments keep their currents, and the net currents that those constraints are about do not change whatever they are. The user's own constraints are ignored (witness theorem).", "quantifier": "all grids, all histories of constraint calls, all options and initial currents", "why_tests_cant": "Every loop added in any iteration, also at the symmetry planes, must keep every constraint.", "anchors": ["src/simsopt/solve/wireframe_optimization.py: gsco_wireframe", "src/simsoptpp/wireframe_optimization.cpp: GSCO", "src/simsopt/geo/wireframe_toroidal.py: ToroidalWireframe.get_free_cells"]}
{"id": "C89", "title": "GSCO respects its limits", "statement": "No segment exceeds max_current unless it already did and was left alone; no cell exceeds max_loop_count likewise; with no_crossing, currents that do not cross at any node of the torus never come to cross; with no_new_coils every added loop touches an active segment; without match_current every loop has the default current, with it the current of the segments around it.", "quantifier": "all grids, constraints, options, initial currents and numbers of iterations", "why_tests_cant": "The limits must hold after every iteration of every run; crossings must be excluded also at the images of the nodes in the other half periods.", "anchors": ["src/simsoptpp/wireframe_optimization.cpp: check_eligibility", "src/simsoptpp/wireframe_optimization.cpp: GSCO"]}
{"id": "C90", "title": "GSCO is greedy and ends at a local minimum", "statement": "In every iteration the allowed loop with the smallest objective is added; if the optimization stops before max_iter no allowed loop improves the result; the result is not worse than the initial currents or than an intermediate solution.", "quantifier": "all grids, constraints, matrices, options, initial currents, numbers of iterations", "why_tests_cant": "It is a statement about the whole sequence of iterations for every objective.", "anchors": ["src/simsoptpp/wireframe_optimization.cpp: GSCO", "src/simsopt/solve/wireframe_optimization.py: gsco_wireframe"]}
{"id": "C91", "title": "Regularized constrained least squares returns the constrained minimum", "statement": "When regularized_constrained_least_squares(A, b, W, C, d) returns x, then C x = d exactly and no vector y with C y = d has a smaller value of 0.5*(|A y - b|^2 + |W y|^2), whether W is a scalar, a vector or a matrix; another minimizer has the same A y and W y, so with a nonzero scalar or a vector without zeros the minimum is unique. The function gets past its triangular solve exactly when the rows of C are independent, and then a solution exists.", "quantifier": "all matrices A, C, vectors b, d and regularizations of all sizes, all QR factorizations and least-squares solutions scipy could return", "why_tests_cant": "tests compare a few random instances with another solver; optimality is a statement about all feasible vectors", "anchors": ["src/simsopt/solve/wireframe_optimization.py: regularized_constrained_least_squares"]}
{"id": "C92", "title": "rcls_wireframe minimizes the documented objective over the currents that meet the constraints", "statement": "The currents rcls_wireframe returns (and stores in the wireframe) meet every constraint set in the wireframe - explicit segment constraints, continuity, total currents, user constraints - are zero on constrained segments, and have the least value of 0.5*(|A x - b|^2 + |W x|^2) among all currents on all segments that meet the constraints; the returned f is that value. This holds for a scalar or 1d reg_W. For a 2d reg_W only its diagonal is used (W[free_segs,free_segs] pairs the index arrays), so the documented objective is not minimized.", "quantifier": "all wireframe sizes, all histories of constraint calls, all inductance matrices, targets and regularizations", "why_tests_cant": "tests check a handful of wireframes with scalar or 1d regularization, and cannot compare with all admissible currents", "anchors": ["src/simsopt/solve/wireframe_optimization.py: rcls_wireframe", "src/simsopt/geo/wireframe_toroidal.py: ToroidalWireframe.constraint_matrices"]}
{"id": "C93", "title": "When the constraint matrix of a wireframe has independent rows", "statement": "If no segment of a wireframe is constrained and the user has added no constraints of his own, the rows of constraint_matrices(remove_constrained_segments=True) are independent - with or without constraints on the total toroidal and poloidal currents - and rcls_wireframe returns for every input. If some free segments form an island between the symmetry planes (a set of nodes no free segment leaves), the rows are dependent in spite of remove_redundancies and rcls_wireframe without assume_no_crossings raises.", "quantifier": "all wireframe sizes, all histories of constraint calls, all inputs of the solver, all islands", "why_tests_cant": "the rank of a matrix that depends on the grid size and the history cannot be sampled", "anchors": ["src/simsopt/geo/wireframe_toroidal.py: ToroidalWireframe.constraint_matrices", "src/simsopt/geo/wireframe_toroidal.py: ToroidalWireframe.find_inactive_nodes", "src/simsopt/solve/wireframe_optimization.py: rcls_wireframe"]}
{"id": "C94", "title": "A radial profile is what its documentation says and dfds is its derivative", "statement": "f(s) of a polynomial profile is the power series with its DOFs as coefficients, of a scaled profile the DOF times the base profile, of a pressure profile the sum of the products f_{2j} f_{2j+1} of its arguments; dfds(s) is the derivative of f at s. This holds after any sequence of constructions and assignments of DOFs, however the profiles refer to each other (also with one profile in several places). resample returns a spline through the values of the old one at the new nodes.", "quantifier": "all expressions of profiles, all histories of constructions and DOF assignments, all s", "why_tests_cant": "expressions of profiles can be nested to any depth and shared; a test evaluates a few points of a few profiles", "anchors": ["src/simsopt/mhd/profiles.py: ProfilePolynomial", "src/simsopt/mhd/profiles.py: ProfileScaled", "src/simsopt/mhd/profiles.py: ProfileSpline", "src/simsopt/mhd/profiles.py: ProfilePressure"]}
{"id": "C95", "title": "ProfileSpec: values in the volumes and jumps at the interfaces", "statement": "f(lvol) is the value in volume lvol for 0 <= lvol < Mvol and larger lvol raise; dfds(l) is psi_edge times the jump at the interface between volumes l-1 and l, for 1 <= l <= Mvol-2, and raises without psi_edge. At the ends the code differs from its documentation: dfds(Mvol-1) raises, dfds(0) gives a difference across the whole profile, and lvol in (-1, 0) is taken for 0 (theorems).", "quantifier": "all profiles, all indices (also floats, which are truncated)", "why_tests_cant": "boundaries of index ranges for every number of volumes", "anchors": ["src/simsopt/mhd/profiles.py: ProfileSpec.f", "src/simsopt/mhd/profiles.py: ProfileSpec.dfds"]}
{"id": "C96", "title": "A VMEC result is the result for the present boundary, profiles and DOFs", "statement": "Any query of a Vmec object (aspect, iota_axis, ...), after any history of changes of surfaces, profiles, DOFs and of which of them the object uses, of failed and successful runs, of written input files, returns what VMEC computes for the input file with the present boundary, profiles, phiedge, curtor and pres_scale put into it; it raises only if that calculation fails; a repeated query does not run VMEC again. An object made from a wout file returns the file's data, and raises after a change of its boundary.", "quantifier": "all histories of API calls on any number of objects, all outcomes of VMEC runs", "why_tests_cant": "the results depend on a flag and on Fortran module variables that every call changes; a missed notification shows only in particular histories", "anchors": ["src/simsopt/mhd/vmec.py: Vmec.run", "src/simsopt/mhd/vmec.py: Vmec.set_indata", "src/simsopt/mhd/vmec.py: Vmec.set_profile", "src/simsopt/mhd/vmec.py: Vmec.set_dofs", "src/simsopt/mhd/vmec.py: Vmec.recompute_bell", "src/simsopt/mhd/vmec.py: Vmec.boundary"]}
{"id": "C97", "title": "Boozer: every registered surface gets the transformation of the present equilibrium on the nearest half-grid surface", "statement": "After any history of register calls, runs and changes of the equilibrium (with mpol and ntor unchanged), bx results looked up through s_to_index[s] for a registered s are the Boozer transformation of the present equilibrium on the half-grid surface closest to s, and s_used[s] is its flux label, also when several numbers are rounded to the same surface; no surface is transformed twice; a lookup fails only if the equilibrium does. Two documented actions do not work: after clearing the registry with s = {} nothing can be registered, and a change of mpol or ntor is not noticed (theorems).", "quantifier": "all histories, all sets of registered numbers, all radial resolutions", "why_tests_cant": "the index maps depend on the whole registry and the rounding, and the cache on the history", "anchors": ["src/simsopt/mhd/boozer.py: Boozer.register", "src/simsopt/mhd/boozer.py: Boozer.run"]}
{"id": "C98", "title": "Quasisymmetry.J is zero exactly for quasisymmetric fields", "statement": "In stellarator symmetry and for helicity_m in {0, 1}: the entries of J() are zero exactly if the field strength on the surface depends on the Boozer angles only through helicity_m theta + nfp helicity_n zeta, for every normalization and weight; with even weight they are the amplitudes of the symmetry-breaking modes divided by the normalization, each once and in order. The documentation has the opposite sign of helicity_n, and without stellarator symmetry sine modes are ignored (witness theorems).", "quantifier": "all Boozer spectra, all helicities, normalizations and weights", "why_tests_cant": "an equivalence over all spectra; tests compare with stored numbers", "anchors": ["src/simsopt/mhd/boozer.py: Quasisymmetry.J"]}
{"id": "C99", "title": "Analytic fields: the derivative arrays are the derivatives in the documented order, A is a vector potential", "statement": "For ToroidalField, PoloidalField and MirrorModel, at every point where they are defined: B() is the field in the documentation of the class; dB_by_dX()[p,j,l] is the derivative of B_l in direction j, d2B_by_dXdX()[p,j,k,l] the second derivative of B_l in the directions j and k, and the same for A; the curl of A is B; the divergence of the toroidal and of the mirror field is zero, and the curl of the toroidal field.", "quantifier": "all parameters of the fields, all points off the axis", "why_tests_cant": "the tests compare with stored numbers at a few points; the stored numbers can have the same mistake as the program (they do for the order of indices of PoloidalField.dB_by_dX)", "anchors": ["src/simsopt/field/magneticfieldclasses.py: ToroidalField", "src/simsopt/field/magneticfieldclasses.py: PoloidalField", "src/simsopt/field/magneticfieldclasses.py: MirrorModel", "src/simsoptpp/python_magneticfield.cpp: dB_by_dX", "docs/source/fields.rst: dB_by_dX"]}
{"id": "C100", "title": "CircularCoil: field, derivatives and vector potential of a circular loop", "statement": "A coil made with radius r0, centre, current I and normal (as spherical angles or as a vector of any length) has on its axis the field mu0 I r0^2 / (2 (r0^2+s^2)^(3/2)) along the normal, so that a positive current gives a field along the normal at the centre; B() has no divergence and no curl off the coil, dB_by_dX()[p,j,l] is the derivative of B_l in direction j, and the curl of A() is B(); I is the current that was given.", "quantifier": "all radii, centres, currents, normals, all points off the coil", "why_tests_cant": "identities between elliptic integrals at every point; the tests check a few points", "anchors": ["src/simsopt/field/magneticfieldclasses.py: CircularCoil", "src/simsopt/field/magneticfieldclasses.py: CircularCoil._rotmat", "src/simsopt/field/magneticfieldclasses.py: CircularCoil._dB_by_dX_impl", "src/simsopt/field/magneticfieldclasses.py: CircularCoil._A_impl"]}
{"id": "C101", "title": "The Reiman field's derivatives, divergence and symmetries", "statement": "Reiman.dB_by_dX is the array of first derivatives of Reiman.B, the field has no divergence, its toroidal component is -1, it is invariant under rotation by 2 pi / m0 and stellarator symmetric, and without modes every field line stays on its circular torus and turns with the rotational transform iota0 + iota1 r^2.", "quantifier": "all iota0, iota1, m0, every list of integer modes and amplitudes, every point off the z axis and off the magnetic axis, including the half-planes where the two polar angles jump", "why_tests_cant": "tests compare with finite differences and a symbolic reference at a few points; the claim covers every point, every mode list and the branch cuts of the angles", "anchors": ["src/simsopt/field/magneticfieldclasses.py: Reiman", "src/simsoptpp/reiman.cpp: ReimanB", "src/simsoptpp/reiman.cpp: ReimandB"]}
{"id": "C102", "title": "The dipole field's derivatives and vector potential", "statement": "DipoleField.dB_by_dX is the array of first derivatives of DipoleField.B, the field has neither divergence nor curl, the curl of DipoleField.A is B, and dA_by_dX[p, j, l] is the derivative of A_j in the direction l. The last is the transpose of the documented order (witness theorem).", "quantifier": "every list of dipoles and every evaluation point that is not a dipole's location", "why_tests_cant": "tests check Taylor expansions at a few random points and compare A with B for one configuration; the claim is for every point and every set of dipoles", "anchors": ["src/simsopt/field/magneticfieldclasses.py: DipoleField", "src/simsoptpp/dipole_field.cpp: dipole_field_B", "src/simsoptpp/dipole_field.cpp: dipole_field_dB", "src/simsoptpp/dipole_field.cpp: dipole_field_A", "src/simsoptpp/dipole_field.cpp: dipole_field_dA"]}
{"id": "C103", "title": "Symmetric copies of the dipoles and the optimization matrix", "statement": "A DipoleField built with nfp and stellsym from the dipoles of one half period has a field with nfp field periods and stellarator symmetry, its first rows are the given dipoles, and the matrix computed for the permanent-magnet optimization with the same nfp, stellsym, coordinate system and R0, applied to the dipole vectors, is the normal component of that field.", "quantifier": "all lists of dipoles, nfp >= 1, both values of stellsym, the three coordinate systems, all R0, evaluation points and normals", "why_tests_cant": "tests compare the two paths for a few grids; two independent implementations (Python and C++) of the symmetries must agree for every configuration", "anchors": ["src/simsopt/field/magneticfieldclasses.py: DipoleField._dipole_fields_from_symmetries", "src/simsoptpp/dipole_field.cpp: dipole_field_Bn"]}
{"id": "C104", "title": "Dommaschk field: gradient of a harmonic potential, derivatives, symmetries", "statement": "For every list of harmonics (m \u2265 2, n \u2265 0) and coefficients and every point off the z axis, the field of each harmonic of a Dommaschk object is the gradient of its scalar potential, dB_by_dX is the array of first derivatives of B (including across the half-plane where the toroidal angle jumps), the whole field has zero divergence and zero curl, it is stellarator symmetric, and it has nfp field periods if all m are multiples of nfp.", "quantifier": "every list of harmonics and coefficients, every evaluation point off the axis (off the plane Z = 0 if some n = 0)", "why_tests_cant": "the field is a double sum of products of Gamma functions, logarithms and powers whose cancellation is what makes the field a vacuum field; tests compare a few harmonics with stored numbers", "anchors": ["src/simsoptpp/dommaschk.cpp: Dmn", "src/simsoptpp/dommaschk.cpp: Nmn", "src/simsoptpp/dommaschk.cpp: DommaschkB", "src/simsoptpp/dommaschk.cpp: DommaschkdB", "src/simsopt/field/magneticfieldclasses.py: Dommaschk"]}
{"id": "C105", "title": "Dommaschk field: the result does not depend on the threads", "statement": "Dommaschk.B and dB_by_dX return for every point the field and the derivatives at that point, for every number of threads and every interleaving of the threads of the loop over the points.", "quantifier": "every number of points and threads, every assignment of the iterations to threads, every interleaving", "why_tests_cant": "a race between threads shows only under some schedules; a test runs a few", "anchors": ["src/simsoptpp/dommaschk.cpp: DommaschkB", "src/simsoptpp/dommaschk.cpp: DommaschkdB"]}
{"id": "C106", "title": "Evaluation points and derived quantities of a field", "statement": "For every array of evaluation points, set in Cartesian or in cylindrical coordinates with any angles: reading them in the other coordinates gives the same positions (R>=0 and 0<=phi<2 pi when they were set in Cartesian coordinates; the angle modulo full turns, same sign, when set in cylindrical ones); B_cyl and A_cyl are the components along the cylindrical unit vectors and, off the axis, do not depend on which setter was used; AbsB is |B|; where B is not zero GradAbsB is the gradient of |B| and GradAbsB_cyl its cylindrical components.", "quantifier": "all fields with differentiable B, all lists of points, both setters, all angles", "why_tests_cant": "the angle range, the branch of atan2 and the axis are corner cases over a continuum of points; derivative identities must hold at every point", "anchors": ["src/simsoptpp/magneticfield.h: get_points_cyl_impl", "src/simsoptpp/magneticfield.h: get_points_cart_impl", "src/simsoptpp/magneticfield.h: set_points_cyl", "src/simsoptpp/magneticfield.h: _AbsB_impl", "src/simsoptpp/magneticfield.h: _GradAbsB_impl", "src/simsoptpp/magneticfield.h: _B_cyl_impl", "src/simsoptpp/magneticfield.h: _GradAbsB_cyl_impl"]}
{"id": "C107", "title": "Sums and multiples of fields are linear and stay consistent", "statement": "For every field built from other fields with +, * and MagneticFieldSum in any nesting, B, A and their first and second derivatives are the corresponding linear combination of those of the parts, and every consistency the parts have (derivative arrays right, curl A = B, div B = 0, curl B = 0) holds for the whole; B_vjp of a sum holds, for every free degree of freedom, the derivative of the sum over v.B of the whole field, although parts without free degrees of freedom are skipped.", "quantifier": "all expression trees over arbitrary fields, all points, all sets of free degrees of freedom", "why_tests_cant": "unbounded nesting and arbitrary parts; tests use two or three particular fields", "anchors": ["src/simsopt/field/magneticfield.py: MagneticFieldSum", "src/simsopt/field/magneticfield.py: MagneticFieldMultiply", "src/simsopt/field/magneticfield.py: MagneticField.__add__", "src/simsopt/field/magneticfield.py: MagneticFieldSum.B_vjp"]}
{"id": "C108", "title": "A scalar-potential field is the gradient of its potential", "statement": "For every potential Phi(R, Z, phi) that is twice continuously differentiable near a point off the half plane phi = pi, ScalarPotentialRZMagneticField returns the gradient of Phi up to 2e-30 |phi| R |Z| per component, dB_by_dX its derivatives up to (2+2/R) 1e-30 |phi| R |Z|, and the gradient is curl-free, and divergence-free exactly where Phi satisfies Laplace's equation.", "quantifier": "all twice continuously differentiable potentials, all points off the axis and off the half plane where arctan2 jumps", "why_tests_cant": "the potential is an arbitrary user expression and the points are a continuum", "anchors": ["src/simsopt/field/magneticfieldclasses.py: ScalarPotentialRZMagneticField._B_impl", "src/simsopt/field/magneticfieldclasses.py: ScalarPotentialRZMagneticField._dB_by_dX_impl", "src/simsopt/field/magneticfieldclasses.py: ScalarPotentialRZMagneticField.__init__"]}
{"id": "C109", "title": "The regular-grid interpolant is the piecewise tensor-product Lagrange interpolant", "statement": "At every point strictly inside the domain whose cell has a corner `skip` accepts, RegularGridInterpolant3D.evaluate returns in each component the tensor-product Lagrange interpolation of the function on that cell's nodes, whichever other cells are skipped and however the function was called in batches; so polynomials up to the rule's degree in each variable are reproduced exactly, the nodes are interpolated, and without skipped cells the interpolant is continuous across faces, edges and corners.", "quantifier": "every rule (uniform and Chebyshev of every degree \u2265 1), every grid size and range, every number of components and SIMD width, every skip pattern, every function, every interior point", "why_tests_cant": "tests compare a few functions on a few grids to a tolerance; the index maps (full to reduced degrees of freedom, batches, padding) must be right for every grid and every skip pattern", "anchors": ["src/simsoptpp/regular_grid_interpolant_3d.h: RegularGridInterpolant3D", "src/simsoptpp/regular_grid_interpolant_3d_impl.h: interpolate_batch, evaluate_inplace, evaluate_local"]}
{"id": "C110", "title": "The interpolant at the edge of its domain and outside", "statement": "With extrapolate=False a point outside the domain is an error; with extrapolate=True the interpolant is extrapolated; a point in a skipped cell is an error or leaves zeros. (Holds up to 1e-13 above the domain and a whole cell below it; the extrapolation above the last coordinate's range returns values from another cell.)", "quantifier": "every configuration and every point of space", "why_tests_cant": "tests probe a few outside points; the claim is about all of them, and the aliasing of cell indices only shows for particular combinations of rows", "anchors": ["src/simsoptpp/regular_grid_interpolant_3d_impl.h: evaluate_inplace, evaluate_local", "src/simsopt/field/magneticfieldclasses.py: InterpolatedField"]}
{"id": "C111", "title": "InterpolatedField exploits field-period and stellarator symmetry correctly", "statement": "For an underlying field with the symmetries the constructor was told, the error of B and of GradAbsB at a point equals the interpolation error at its image in the fundamental domain; angles in [0, 2 pi) are mapped to [0, 2 pi/nfp) and heights to their modulus; and the interpolated field is itself exactly periodic and stellarator symmetric. Negative angles are mapped to non-positive ones (witness theorem).", "quantifier": "every symmetric field, every nfp, with and without stellarator symmetry, every point whose image is inside the grid", "why_tests_cant": "the sign and angle conventions must match at every point, and for both the field and the gradient of its modulus", "anchors": ["src/simsoptpp/magneticfield_interpolated.h: InterpolatedField, exploit_symmetries_points, apply_symmetries_to_B_cyl, apply_symmetries_to_GradAbsB_cyl"]}
{"id": "C112", "title": "Evaluations of InterpolatedField depend only on the field and the points, and leave the underlying field alone", "statement": "After every history of calls B_cyl() at points in known cells returns the interpolant's values and does not move the underlying field's evaluation points. Not included, each with a witness theorem: points in skipped cells keep the rows of the previous evaluation, estimate_error_B moves the underlying field's points, and a change of the underlying field is not noticed.", "quantifier": "every history of set_points, evaluations, error estimates and changes of the underlying field", "why_tests_cant": "what is left in a reused buffer depends on the history of calls", "anchors": ["src/simsoptpp/magneticfield_interpolated.h: _B_cyl_impl, estimate_error_B", "src/simsoptpp/cachedtensor.h: get_or_create_and_fill"]}
{"id": "C113", "title": "The Boozer residual and its derivatives are those of the documented formula", "statement": "boozer_surface_residual returns G B - |B|^2 (x_phi + iota x_theta) at each quadrature point (divided by |B| if weighted), and with derivatives=1, 2 the Jacobian and the array of second derivatives hold its first and second partial derivatives with respect to the dofs of the surface, iota and G.", "quantifier": "every differentiable (twice differentiable) field that does not vanish on the surface, every surface that is linear in its dofs, every value of the dofs, iota and G, weighted or not, every grid", "why_tests_cant": "Taylor tests sample a few directions at one configuration; the formulas have dozens of terms and must be derivatives everywhere", "anchors": ["src/simsopt/geo/surfaceobjectives.py: boozer_surface_residual", "src/simsoptpp/python.cpp: boozer_dresidual_dc"]}
{"id": "C114", "title": "The derivatives of the Boozer residual with respect to the field are right", "statement": "boozer_surface_residual_dB returns the same residual and Jacobian, the derivatives of the residual and of the Jacobian with respect to the components of the field at a point, and the derivatives of the Jacobian with respect to the components of the gradient of the field.", "quantifier": "every point, every value of the field and its gradient with a nonzero field, every column of the Jacobian, weighted or not", "why_tests_cant": "the formulas must hold for every field and every surface", "anchors": ["src/simsopt/geo/surfaceobjectives.py: boozer_surface_residual_dB"]}
{"id": "C115", "title": "The penalised Boozer objective has the documented value, gradient and Hessian, and the vectorized version is equal", "statement": "boozer_penalty_constraints returns half the mean square of the residuals plus half the weight times the squared errors of the label and of z(0,0), the gradient and the Hessian of that number, and unscalarised rows whose Jacobian is right; boozer_penalty_constraints_vectorized (C++) returns the same three results.", "quantifier": "every surface, field, label, target, weight >= 0, dofs, iota and G, weighted or not", "why_tests_cant": "the two implementations share no code; equality and the derivative property must hold for every configuration", "anchors": ["src/simsopt/geo/boozersurface.py: BoozerSurface.boozer_penalty_constraints, BoozerSurface.boozer_penalty_constraints_vectorized", "src/simsoptpp/boozerresidual_impl.h: boozer_residual_impl"]}
{"id": "C116", "title": "The conditions with exact constraints are those of the Lagrangian, and their Jacobian is right", "statement": "boozer_exact_constraints returns the partial derivatives of the Lagrangian (half the sum of squares of the residuals minus the multipliers times the two constraints) with respect to the unknowns of the surface, and the constraints; the matrix it returns holds the partial derivatives of that vector.", "quantifier": "every surface, field, label, dofs, iota, G and multipliers", "why_tests_cant": "each block of the matrix must be right for every configuration", "anchors": ["src/simsopt/geo/boozersurface.py: BoozerSurface.boozer_exact_constraints"]}
{"id": "C117", "title": "A Boozer surface that says it is solved is solved for the coils of now", "statement": "After every history of changes of the coils, calls of any of the solvers and of Iotas.J(), whether they returned or raised: if need_to_run_code is false there is a stored result, and if its success is true the surface held now with the stored iota and G solves the equations to the tolerance for the coils of now; each Newton solver stops within maxiter steps and reports success only if the equations hold (the penalty solver: exactly if); a solve that raises leaves the flag up. Not included, each with a witness theorem: changes of the target label and of the surface are not noticed, and the exact solver may report failure although the last step converged.", "quantifier": "every history of operations, every solver step function (it may raise), every tolerance below 1e6, every maxiter", "why_tests_cant": "stale results depend on the order of calls; the histories are unbounded", "anchors": ["src/simsopt/geo/boozersurface.py: BoozerSurface.run_code, BoozerSurface.recompute_bell, BoozerSurface.minimize_boozer_penalty_constraints_newton, BoozerSurface.minimize_boozer_exact_constraints_newton, BoozerSurface.solve_residual_equation_exactly_newton, BoozerSurface.minimize_boozer_penalty_constraints_LBFGS, BoozerSurface.minimize_boozer_penalty_constraints_ls"]}
{"id": "C118", "title": "Iotas.J returns the rotational transform of the coils of now", "statement": "After every history of changes of the coils, of run_code and of Iotas.J(), a call of Iotas.J() that returns gives the iota of a result for the coils of now, and if that result reports success the equations hold at the surface held now with that iota. Before any solve, and after the solvers whose results have no PLU, J() raises (theorems).", "quantifier": "every history, every solver step function, both types of Boozer surface", "why_tests_cant": "a cache that is stale after some order of calls is not seen by tests of one order", "anchors": ["src/simsopt/geo/surfaceobjectives.py: Iotas.J, Iotas.compute, Iotas.recompute_bell", "src/simsopt/geo/boozersurface.py: BoozerSurface.run_code"]}
{"id": "C119", "title": "Adjoint gradients are total derivatives", "statement": "forward_backward solves (P L U)^T adj = rhs, with and without iterative refinement; and the gradient dJ_by_dcoils - vjp(adj) that the objectives on Boozer surfaces return is the total derivative of the objective along the solutions of the equations.", "quantifier": "every size, every permutation matrix and triangular factors with nonzero diagonals, every right-hand side; every differentiable system and objective", "why_tests_cant": "the identity must hold for all matrices and all systems", "anchors": ["src/simsopt/objectives/utilities.py: forward_backward", "src/simsopt/geo/surfaceobjectives.py: MajorRadius.compute, NonQuasiSymmetricRatio.compute, Iotas.compute, BoozerResidual.compute"]}
{"id": "C120", "title": "The vector-Jacobian products of the Boozer equations are derivatives with respect to the coils", "statement": "boozer_surface_dexactresidual_dcoils_dcurrents_vjp for stellarator-symmetric surfaces returns the derivative of lm^T times the equations with respect to each coil dof at a fixed surface, and boozer_surface_dlsqgrad_dcoils_vjp that of lm^T times the gradient of the residual part of the penalised objective. Not included, each with a theorem: without stellarator symmetry the exact version raises for every input, and the least-squares version leaves out the dependence of the label on the coils.", "quantifier": "every mask, surface, field moving with a coil dof, and vector lm, weighted or not", "why_tests_cant": "the contraction of six-index arrays must be right for every configuration and every dof", "anchors": ["src/simsopt/geo/surfaceobjectives.py: boozer_surface_dexactresidual_dcoils_dcurrents_vjp, boozer_surface_dlsqgrad_dcoils_vjp"]}
{"id": "C121", "title": "NonQuasiSymmetricRatio has the documented value and exact derivatives", "statement": "The value is the ratio of the area-weighted sums of (|B| - B_QS)^2 and B_QS^2, with B_QS the area-weighted mean of |B| over the chosen angle; dJ_by_dB and dJ_by_dsurfacecoefficients hold its partial derivatives with respect to the field at each point and to the surface dofs.", "quantifier": "every grid, both axes, every field and normal that do not vanish on the surface, every motion of them", "why_tests_cant": "the averages couple all points of a line; the derivative must be right for every grid and field", "anchors": ["src/simsopt/geo/surfaceobjectives.py: NonQuasiSymmetricRatio.compute, NonQuasiSymmetricRatio.dJ_by_dB, NonQuasiSymmetricRatio.dJ_by_dsurfacecoefficients"]}
{"id": "C122", "title": "Equations of motion conserve what they must", "statement": "The right-hand sides that trace_particles, trace_particles_boozer and compute_fieldlines integrate are the documented equations and have the exact invariants of the motion. Guiding centers in Cartesian coordinates keep v_par^2/2 + mu |B|, so that with the mu computed at the start the total speed stays the given one, and their velocity along B is v_par; full orbits keep their speed in every field; field lines stay on every flux surface. In Boozer coordinates mode 'gc_vac' solves the documented equations for constant G, I = K = 0, and modes 'gc' and 'gc_nok' solve them wherever v_par is not 0; along their solutions the energy is constant, and in a quasisymmetric field also the canonical momentum. Exceptions, proved by the _violated theorems: where v_par = 0 modes 'gc' and 'gc_nok' divide by zero although the documented equation has a finite mirror force; the formula in the documentation of trace_particles lacks the division by |B|.", "quantifier": "all fields, masses, charges, magnetic moments and all differentiable solutions of the equations", "why_tests_cant": "tests integrate a few orbits in a few fields with a tolerance; conservation is a statement about every field and every solution", "anchors": ["src/simsoptpp/tracing.cpp:GuidingCenterVacuumRHS,GuidingCenterVacuumBoozerRHS,GuidingCenterNoKBoozerRHS,GuidingCenterBoozerRHS,FullorbitRHS,FieldlineRHS", "src/simsopt/field/tracing.py:trace_particles,trace_particles_boozer"]}
{"id": "C123", "title": "get_phi follows the toroidal angle", "statement": "get_phi(x, y, phi_near) is an angle of the point (x, y), it is at most pi away from phi_near and no angle of the point is nearer; if the true angle has changed by less than half a turn it is the continued angle. get_phi(x, y, pi) is the angle in [0, 2 pi). The cylindrical coordinates at which tracing evaluates the field are those of the point.", "quantifier": "all points and all phi_near, any number of turns away", "why_tests_cant": "the branch cut, the two roundings and the three candidates only interact for particular combinations of angles and turn numbers", "anchors": ["src/simsoptpp/tracing.cpp:get_phi"]}
{"id": "C124", "title": "What tracing returns", "statement": "For every sequence of integrator steps, every list of planes and of stopping criteria, res_tys has the accepted states from t = 0 on until a criterion is satisfied, or else until tmax with the interpolated state at tmax as last row; the run ends if and only if one of these happens. res_phi_hits has a row for plane i and a step exactly if the unwrapped angle passed phis[i] modulo 2 pi in that step, with the point on the plane as accurately as the root finder's result; forward-moving particles have exactly as many rows as passages; a stop is recorded last with index -1-i for the first satisfied criterion. The result does not depend on the number of MPI processes. Exceptions, proved by the _violated theorems: rows of res_phi_hits, of planes and of criteria, can lie after tmax, because the last step overshoots it.", "quantifier": "all integrators (sequences of accepted steps with dense output and root finder), plane lists, criteria lists, tmax and process counts", "why_tests_cant": "adaptive steps make the schedule of steps, crossings and stops different for every field and tolerance", "anchors": ["src/simsoptpp/tracing.cpp:solve", "src/simsopt/field/tracing.py:trace_particles,trace_particles_boozer,compute_fieldlines"]}
{"id": "C125", "title": "Stopping criteria", "statement": "A criterion object can be shared by particles and reused for later runs without influencing their results. ToroidalTransitStoppingCriterion(N) stops a particle that moves forward after exactly N turns from its position after the first step; the thresholds of the other criteria are inclusive and compare the documented coordinate. Exceptions, proved by the _violated theorems: a particle that moves backward is stopped when it has gone more than N - 1 turns, for N = 1 at once; IterationStoppingCriterion(N) takes N + 1 steps.", "quantifier": "all trajectories, all numbers of turns, all histories of the criterion objects", "why_tests_cant": "the state of the criterion survives from run to run, so only particular sequences of runs expose an error", "anchors": ["src/simsoptpp/tracing.h:ToroidalTransitStoppingCriterion,IterationStoppingCriterion", "src/simsoptpp/tracing.cpp:solve"]}
{"id": "C126", "title": "Transit counts are winding numbers", "statement": "compute_toroidal_transits and compute_poloidal_transits return the total change of the angle along the trajectory in turns, rounded to the nearest integer, with its sign, for every trajectory whose angle changes by less than half a turn between rows; with flux=True the change of the angle column.", "quantifier": "all trajectories of any length and any number of turns", "why_tests_cant": "a wrong branch shows only after particular numbers of turns or crossings of the branch cut", "anchors": ["src/simsopt/field/tracing.py:compute_toroidal_transits,compute_poloidal_transits"]}
{"id": "C127", "title": "Full-orbit initial conditions match the guiding center", "statement": "gc_to_fullorbit_initial_guesses returns, wherever the field is not vertical, a velocity with the total speed and with the given parallel speed along the field, and a position one gyro radius m v_perp / (|q| |B|) away from the given point perpendicularly to the field; for a positive charge the given point is the guiding center of the particle, and in a uniform field that guiding center moves along the field with the given parallel speed. Exception, proved by the _violated theorem: for a negative charge the guiding center of the returned particle is two gyro radii away from the given point.", "quantifier": "all positions, fields that are not vertical, masses, charges, speeds and phases eta", "why_tests_cant": "tests use one charge and compare orbits loosely; the sign error is invisible for positive charges", "anchors": ["src/simsopt/field/tracing.py:gc_to_fullorbit_initial_guesses,compute_gc_radius"]}
{"id": "C128", "title": "compute_resonances in flux coordinates", "statement": "compute_resonances(res_tys, res_phi_hits) returns exactly one entry for each plane hit but the first that lies within delta of the initial position in the poloidal plane, with the particle's initial conditions, the time of the hit, and the numbers of poloidal and toroidal turns made until then; rows of stopping criteria are ignored. Exception, proved by the _violated theorem: the first hit is never examined, although for a particle that starts in the plane and moves forward it is its first return, so an orbit that closes after one turn is not reported then.", "quantifier": "all trajectories and lists of hits, all delta", "why_tests_cant": "orbits that close after one toroidal turn are rare in test data", "anchors": ["src/simsopt/field/tracing.py:compute_resonances"]}
{"id": "C129", "title": "WireframeField computes the Biot\u2013Savart field of the segments, with the stated exceptions for the derivatives", "statement": "For a point off the wires, the field of a segment is the Biot\u2013Savart integral mu0/4pi I \u222b dl x r/|r|^3 along it; B is the sum over all segments and half periods of current times sign times that field; dB_by_dX[p,k,l] is the derivative of B_k in direction l (the transpose of the documented order), divergence free always; if the currents are closed (nothing accumulates anywhere) the curl is zero off the wires, and dB_by_dX has the documented meaning as well. dB_by_dsegmentcurrents(0) are the derivatives of B with respect to the segment currents, and the rows of dBnormal_by_dsegmentcurrents_matrix times the currents give the (weighted) normal field. Exceptions: for currents that are not closed dB_by_dX is not the documented array; dB_by_dsegmentcurrents(1) returns derivatives of B, not of dB.", "quantifier": "all wireframes (nodes, segments, half periods, signs), all currents, all evaluation points off the wires", "why_tests_cant": "Tests compare with finite differences at sampled points of one wireframe whose currents are closed; the identities hold for all nodes, currents and points.", "anchors": ["src/simsoptpp/wireframe_field_impl.h: wireframe_field_kernel", "src/simsoptpp/magneticfield_wireframe.cpp: WireframeField::_B_impl, compute", "src/simsopt/field/wireframefield.py: WireframeField.dB_by_dsegmentcurrents, dBnormal_by_dsegmentcurrents_matrix"]}
{"id": "C130", "title": "A wireframe that meets its continuity constraints produces a vacuum field with the symmetries of the device", "statement": "For every stellarator symmetric SurfaceRZFourier, every grid and all segment currents that satisfy the continuity constraints imposed on half a field period, the currents of the 2 nfp half periods together are closed, so off the wires the field has no divergence and no curl and dB_by_dX is the documented array. Whatever the currents, the field has nfp field periods and is stellarator symmetric.", "quantifier": "all surfaces with stellsym=True, all nfp, n_phi, n_theta, all currents meeting the constraints, all points off the wires", "why_tests_cant": "Current conservation at the seams between the half periods is a statement about all grids and all current distributions; tests look at a few.", "anchors": ["src/simsopt/geo/wireframe_toroidal.py: ToroidalWireframe.__init__, add_continuity_constraints", "src/simsopt/field/wireframefield.py: WireframeField.__init__"]}
{"id": "C131", "title": "least_squares_serial_solve tells the optimizer the truth and logs exactly what was exchanged", "statement": "Whatever points the optimizer asks for, in whatever order and with whatever finite-difference Jacobians in between: the residuals it is told for x are the weighted residuals sqrt(w_i)(f_i - g_i) at prob.x = x, or the failure vector where a function fails, always of the same length; the log file has one line per evaluation, numbered from 0 in the order of the evaluations, with x, the residuals and an objective value equal to the weighted sum of squares (and to the sum of squares of the residuals); when the solve returns, prob.x is the optimizer's result and the problem is in a regular state. Exception: where prob.residuals(x) raises (fail=None, a failure at the first evaluation, any other exception) the solve ends with that same exception; the branch of the code that answers with residuals of 1e12 is never effective.", "quantifier": "all graphs and problems whose functions return arrays of fixed lengths, all histories before the solve, all optimizers (any strategy that asks for vectors of the right length), any number of evaluations", "why_tests_cant": "Tests run one SciPy algorithm on a small problem that never fails; the claim is about every sequence of evaluations, including failing ones.", "anchors": ["src/simsopt/solve/serial.py: least_squares_serial_solve", "src/simsopt/objectives/least_squares.py: LeastSquaresProblem.residuals, objective"]}
{"id": "C132", "title": "constrained_serial_solve tells the optimizer the truth and logs exactly what was exchanged", "statement": "Whatever the optimizer asks for: objective values are the objective function at the requested x, or prob.fail where it raises; constraint vectors are [l - c, c - u, ...] at the requested x, or a vector of prob.fail where they cannot be computed; both log files contain exactly the exchanged points and values, in order and numbered from 0; the optimizer gets the free dofs as start vector and, entry by entry, their lower and upper bounds; afterwards prob.x is the optimizer's result. An evaluation raises only (with TypeError) if the objective is an array, or if something failed and fail is None. Exception: if the first evaluation of the constraints fails, constraint vectors of different lengths are returned during one solve.", "quantifier": "all graphs and constrained problems, all histories before the solve, all optimizers, any number of evaluations of objective and constraints in any order", "why_tests_cant": "Tests run three SciPy algorithms on small problems; the claim covers every interleaving of objective and constraint evaluations, failing or not.", "anchors": ["src/simsopt/solve/serial.py: constrained_serial_solve", "src/simsopt/objectives/constrained.py: ConstrainedProblem"]}
{"id": "C133", "title": "fourier_interpolation is the trigonometric interpolant", "statement": "For every number N of samples and every trigonometric polynomial all of whose frequencies are below N/2, fourier_interpolation of its samples on the uniform grid returns exactly the value of the polynomial at every x that is not congruent to a grid point (in exact arithmetic); for even N also cos(Nx/2) is reproduced. At a grid point x_j the result differs from the sample f_j by at most eps*N*sum|f_k|, eps being the machine precision, whatever the data. The result is linear in the data.", "quantifier": "all N >= 1 (even and odd), all trigonometric polynomials within the frequency bound, all evaluation points, all data", "why_tests_cant": "Tests interpolate a few functions with a few grid sizes to a tolerance; the claim is exactness for every N, polynomial and evaluation point, and separates the two formulas for even and odd N and the special treatment of grid points.", "anchors": ["src/simsopt/util/fourier_interpolation.py: fourier_interpolation"]}
{"id": "C134", "title": "Framed curves give orthonormal right-handed frames turned by alpha", "statement": "At every point where gammadash and the vector from the centroid are not parallel (resp. where the curvature is not zero), rotated_frame() of FramedCurveCentroid (resp. FramedCurveFrenet) returns three unit vectors that are mutually orthogonal and right-handed, the first one being the unit tangent. Without rotation the centroid frame's normal lies in the plane spanned by the tangent and the vector from the centroid and points away from the centroid, and the Frenet frame is the Frenet frame of the curve. A rotation angle alpha turns the frame around the tangent by alpha, angles adding up. The angle of a FrameRotation is scale times the Fourier series in its dofs, has period one, alphadash is its derivative along the curve, and the pull-backs dalpha_by_dcoeff_vjp and dalphadash_by_dcoeff_vjp are exactly its gradients.", "quantifier": "all curve samples, all numbers of points, all rotation orders, scales, dofs and vectors", "why_tests_cant": "Tests check a few curves to a tolerance; the claim holds for every sampled curve and rotation, and the excluded points are named.", "anchors": ["src/simsopt/geo/framedcurve.py: rotated_centroid_frame, rotated_frenet_frame, FrameRotation, jaxrotation_pure, rotation_dcoeff"]}
{"id": "C135", "title": "Frame derivatives, frame torsion and binormal curvature", "statement": "rotated_frame_dash() of a FramedCurveFrenet is the derivative of the frame along the curve; that of a FramedCurveCentroid is, provided the samples of gammadash have mean zero (as they have for every CurveXYZFourier on more equidistant points than its order), and is not in general otherwise. frame_torsion() is the torsion of the unrotated frame minus alphadash divided by the arclength factor; for a Frenet frame it is the torsion of the curve minus that. frame_binormal_curvature() is the curvature times sin(alpha) for a Frenet frame; for a centroid frame it is the combination cos(alpha) A + sin(alpha) B of its values at alpha = 0 and pi/2, and A^2 + B^2 is the squared curvature.", "quantifier": "all curves, rotation angles, numbers of samples and points satisfying the stated non-degeneracy", "why_tests_cant": "Finite difference tests cover a few curves; the mean condition is satisfied by the usual test curves, so tests cannot show that it is needed.", "anchors": ["src/simsopt/geo/framedcurve.py: rotated_centroid_frame_dash, rotated_frenet_frame_dash, torsion_pure_frenet, torsion_pure_centroid, binormal_curvature_pure_frenet, binormal_curvature_pure_centroid"]}
{"id": "C136", "title": "Filaments of a multifilament grid and their gradients", "statement": "create_multifilament_grid returns numfilaments_n*numfilaments_b filaments, in row-major order, whose offsets in the two directions are equally spaced by the gaps and symmetric about the base curve, so that the mean of the filaments is the base curve at every point. A filament lies in the plane orthogonal to the tangent at distance sqrt(dn^2+db^2) from the base curve, and the distance of two filaments is that of their offsets. gammadash of a filament is the derivative of its gamma (with the mean condition of C135 for centroid frames). dgamma_by_dcoeff_vjp(v) and dgammadash_by_dcoeff_vjp(v) of a filament are the gradients of sum v.gamma and sum v.gammadash with respect to all dofs, given that the pull-backs of the base curve and of the rotation are.", "quantifier": "all numbers of filaments, gaps, curves, rotations, offsets, vectors v and dof directions, at non-degenerate points", "why_tests_cant": "Taylor tests sample a few grids and directions; the claim is an identity of derivatives for all of them.", "anchors": ["src/simsopt/geo/finitebuild.py: CurveFilament, create_multifilament_grid", "src/simsopt/geo/framedcurve.py: rotated_frame_dcoeff_vjp, rotated_frame_dash_dcoeff_vjp"]}
{"id": "C137", "title": "Strain penalties of HTS tapes and their gradients", "statement": "LPTorsionalStrainPenalty.J() is 1/p times the mean over the quadrature points of max(eps - threshold, 0)^p times |gammadash| with eps = tau^2 w^2/12, and LPBinormalCurvatureStrainPenalty.J() the same with eps = w |b.kappa|/2. Neither is ever negative, and each is zero exactly when the strain is at most the threshold everywhere; an unrotated Frenet frame has no binormal strain. dframe_torsion_by_dcoeff_vjp and dframe_binormal_curvature_by_dcoeff_vjp of both kinds of framed curve are the gradients of the corresponding sums with respect to all dofs, and dJ() of both penalties is the gradient of J() for every p > 1 and threshold >= 0, also at points where the strain is zero or equals the threshold.", "quantifier": "all framed curves at non-degenerate points, widths >= 0, exponents, thresholds, dofs and directions", "why_tests_cant": "Taylor tests sample a few curves and skip kinks; the claim includes the kinks of abs and max and all directions.", "anchors": ["src/simsopt/geo/strain_optimization.py: LPBinormalCurvatureStrainPenalty, LPTorsionalStrainPenalty, CoilStrain, torstrain_pure, binormstrain_pure", "src/simsopt/geo/framedcurve.py: dframe_torsion_by_dcoeff_vjp, dframe_binormal_curvature_by_dcoeff_vjp"]}
{"id": "C138", "title": "BoozerAnalytic: derivatives, quasisymmetry, setters", "statement": "For a BoozerAnalytic field, modB_derivs is the gradient of modB and K_derivs the angular derivatives of K at every point off the axis (for either sign of s psi0/Bbar), dGds, dIds, diotads are the derivatives of G, I, iota, and iota is the derivative of psip with respect to psi0 s. modB and K are the documented expressions and depend on the angles only through theta - N zeta, so orbits traced with mode 'gc' that stay off the axis keep the energy and the momentum of helicity N. After every history of setters, set_points and evaluations each array holds the values for the parameters and points last set. Exceptions, proved by the _violated theorems: G and I are linear in s where the documentation has a square root; set_psi0 does not reach the psi0 with which orbits are traced.", "quantifier": "all parameters, all points with s != 0, all histories of calls, all differentiable orbits", "why_tests_cant": "Histories and parameters are unbounded; finite difference tests check a few points for one set of parameters.", "anchors": ["src/simsopt/field/boozermagneticfield.py: BoozerMagneticField, BoozerAnalytic", "src/simsoptpp/boozermagneticfield.h: BoozerMagneticField", "src/simsoptpp/tracing.cpp"]}
{"id": "C139", "title": "BoozerRadialInterpolant: derivatives and symmetries", "statement": "For a BoozerRadialInterpolant, dmodBdtheta, dmodBdzeta and the corresponding methods of R, Z, nu and K are the exact angular derivatives of what modB, R, Z, nu and K return, whatever the radial splines, with and without stellarator symmetry; the radial derivatives are exact whenever the derivative splines are the derivatives of the value splines. With stellarator symmetry modB and R are even, Z, nu and K odd; all have the period 2 pi in theta and 2 pi/nfp in zeta; with N given modB and K depend on the angles only through theta - N zeta. The scale factors are the documented powers of s with the right derivatives, the values added at s = 0 and 1 are exact for linear profiles, and the radial differences are exact for quadratic ones at the points they are interpolated on. Exceptions, proved by the _violated theorems: rescale=True with N raises; under MPI processes that do not lead a group have no K.", "quantifier": "all mode tables, all spline functions, all points", "why_tests_cant": "Tests compare a few points of one equilibrium with finite differences.", "anchors": ["src/simsopt/field/boozermagneticfield.py: BoozerRadialInterpolant", "src/simsoptpp/boozerradialinterpolant.cpp: inverse_fourier_transform_even, inverse_fourier_transform_odd"]}
{"id": "C140", "title": "BoozerRadialInterpolant: computation of K", "statement": "What the constructor of BoozerRadialInterpolant computes for K on a surface is, at each grid point, psi0 K = B . dr/ds for B = (dr/dzeta + iota dr/dtheta)/sqrt(g), sqrt(g) = (G + iota I)/|B|^2 and the position with cylindrical coordinates (R, zeta - nu, Z); the transform to Fourier coefficients is free of aliasing for all modes of booz_xform's table, so that K() on the surface is the computed function divided by psi0 at all angles whenever that is a series in these modes.", "quantifier": "all mode tables with |m| <= mboz, |n| <= nboz, all coefficients, surfaces and points", "why_tests_cant": "Aliasing and a wrong metric element show only for particular modes; tests use one equilibrium and a loose tolerance.", "anchors": ["src/simsopt/field/boozermagneticfield.py: BoozerRadialInterpolant.compute_K", "src/simsoptpp/boozerradialinterpolant.cpp: compute_kmns, compute_kmnc_kmns"]}
{"id": "C141", "title": "SurfaceGarabedian: conversions keep the shape", "statement": "For every SurfaceGarabedian whose ranges contain the modes Delta(1,0) and Delta(0,0), to_RZFourier() returns a stellarator-symmetric surface with the same nfp whose points are the documented series R + iZ = e^{iu} sum Delta_{m,n} e^{-imu+inv} with v = nfp phi; from_RZFourier(surf) of every stellarator-symmetric surface gives coefficients whose series is the shape of surf; both round trips recover every coefficient. There is one dof for each mode, named after it, get_Delta and set_Delta address the dof with that name and nothing else, a new surface is the torus 1 + 0.1 e^{iu}, and area() and volume() are those of the current shape after every history of dof changes and evaluations. Exceptions, proved by the _violated theorems: set_dofs always raises; construction with dofs= (loading, sharing) resets Delta(1,0) and Delta(0,0); ranges without n = 0 make the constructor overwrite other modes; writing into the array returned by Delta leaves area and volume stale.", "quantifier": "all mode ranges, coefficients, nfp, angles, all histories of calls", "why_tests_cant": "The conversion is a reindexing of a double series; tests convert a few random surfaces back and forth and never compare the shape.", "anchors": ["src/simsopt/geo/surfacegarabedian.py: SurfaceGarabedian", "src/simsopt/geo/surfacerzfourier.py: SurfaceRZFourier"]}
{"id": "C142", "title": "SurfaceHenneberg: shape, derivatives, conversions", "statement": "For every SurfaceHenneberg, gamma() is the documented parametrisation with the angle m theta + nfp n phi - alpha phi in rho, gammadash1 and gammadash2 are its exact partial derivatives, and the surface is nfp-fold, poloidally periodic and stellarator symmetric for every value of the dofs. to_RZFourier() always succeeds and returns a surface with the same points. The dof vector lists the coefficients in the order of their (distinct) names; setting dofs succeeds exactly for vectors of num_dofs() entries and get_dofs() returns them. from_RZFourier of a surface that is a Henneberg surface without rho(0,n), given exact extrema and exact interpolation, recovers every coefficient when ntheta > 2 mmax and nphi > 2 nmax, which the default grid satisfies for nmax >= 1. Exceptions, proved by the _violated theorems: the documentation has -nfp n phi; from_RZFourier with nmax = 0 and the default grid always raises; to_RZFourier stores rho(0,n) in coefficients that are not dofs, so different shapes get the same dof vector; set_rhomn does not update the dof vector and is undone by setting any dof.", "quantifier": "all nfp, alpha_fac, mmax, nmax, coefficients, quadrature points, grid sizes", "why_tests_cant": "The conversion and the derivatives are identities between trigonometric series of every resolution; tests compare a few examples, and their surfaces have no rho(0,n) or set all coefficients before use.", "anchors": ["src/simsopt/geo/surfacehenneberg.py: SurfaceHenneberg", "src/simsopt/geo/surfacerzfourier.py: SurfaceRZFourier"]}
{"id": "C143", "title": "SurfaceXYZFourier: shape, derivatives, dofs", "statement": "For every SurfaceXYZFourier, gamma() is the documented series for the rotated coordinates and z with angle m theta - nfp n phi; the five derivative arrays are the exact partial derivatives; the surface is nfp-fold and poloidally periodic, and stellarator symmetric when stellsym is set; setting a dof vector and reading it back returns it, setting the current one changes nothing, and the dof vector determines the shape; each column of each d..._by_dcoeff array is the exact derivative of the array in that dof at every dof vector.", "quantifier": "all mpol, ntor, nfp, stellsym, coefficients, dof vectors, quadrature points, number of field periods", "why_tests_cant": "Identities of trigonometric series for every resolution and every real coefficient; tests use finite differences on a few surfaces.", "anchors": ["src/simsoptpp/surfacexyzfourier.h: SurfaceXYZFourier", "src/simsopt/geo/surfacexyzfourier.py: SurfaceXYZFourier"]}
{"id": "C144", "title": "SurfaceXYZTensorFourier: shape, derivatives, clamping, dofs", "statement": "For every SurfaceXYZTensorFourier without clamped dimensions, gamma() is the documented tensor-product series with the documented index ranges for stellsym; a clamped coordinate is zero at phi = theta = 0 for all dofs; gammadash1, gammadash2 and gammadash1dash2 are the exact partial derivatives always, gammadash1dash1 without clamping or for even nfp, gammadash2dash2 without clamping; the surface is nfp-fold, poloidally periodic, and stellarator symmetric when stellsym is set; the dof vector round-trips and determines the shape; the columns of the d..._by_dcoeff arrays are the exact derivatives in the dofs (dgammadash1dash1_by_dcoeff without clamping or for even nfp). Exceptions, proved by the _violated theorems: with a clamped dimension gammadash2dash2 is wrong because (1/2) is an integer division, and for odd nfp gammadash1dash1 is wrong and its Jacobian is not its derivative.", "quantifier": "all mpol, ntor, nfp, stellsym, clamped_dims, coefficients, dof vectors, quadrature points", "why_tests_cant": "Identities for every resolution, nfp and real coefficient; the repository's tests do not take second derivatives of clamped surfaces.", "anchors": ["src/simsoptpp/surfacexyztensorfourier.h: SurfaceXYZTensorFourier", "src/simsopt/geo/surfacexyztensorfourier.py: SurfaceXYZTensorFourier"]}
{"id": "C145", "title": "get_stellsym_mask selects one point per symmetry class", "statement": "On the three supported grids the mask of a stellarator-symmetric SurfaceXYZTensorFourier is True at exactly one point of each class of grid points equivalent under (phi,theta)->(-phi,-theta) and the periods, at (ntor+1)(mpol+1)+ntor*mpol points in total, and the position at every grid point follows from the position at a selected one; without stellarator symmetry the mask is all True; on any other grid it raises. Exception (_violated theorem): the second grid given in the docstring raises for mpol > 1.", "quantifier": "all mpol, ntor, nfp, coefficients, grid points", "why_tests_cant": "The counting and the exactly-one property must hold for every resolution.", "anchors": ["src/simsopt/geo/surfacexyztensorfourier.py: SurfaceXYZTensorFourier.get_stellsym_mask"]}
{"id": "C146", "title": "fourier_transform_scalar and its inverse", "statement": "On the grid of one field period and on the full torus, surface.fourier_transform_scalar returns the coefficients of every series m theta - nfp n phi that the resolution resolves (2 mpol < ntheta, and 2 ntor < nphi per period), zero cosine coefficients with stellsym, zero for m = 0 and n < 0; inverse_fourier_transform_scalar evaluates the documented series of its arguments; with mpol = ntheta//2 and ntor = nphi//2 the inverse of the transform is the original scalar at every grid point, for every scalar without stellsym and for every odd scalar with it; on the half-period grid the sine coefficients of a stellarator-symmetric series are recovered for |n| < nphi. Exception (_violated theorem): on the half-period grid the coefficients with |n| = nphi/2 come out half as large.", "quantifier": "all grids sizes, nfp, mpol, ntor, normalizations other than zero, all real scalars and coefficients", "why_tests_cant": "Discrete orthogonality, including the Nyquist corrections, must hold for every grid size; tests take a few.", "anchors": ["src/simsopt/geo/surfacerzfourier.py: SurfaceRZFourier.fourier_transform_scalar, SurfaceRZFourier.inverse_fourier_transform_scalar"]}
{"id": "C147", "title": "NormalField: modes, dofs and real-space values", "statement": "For every NormalField, the dof index is a bijection between the valid modes (vns for (m,n) > (0,0), vnc also (0,0) when not stellsym) and 0..ndof-1, and the dof names follow it; a mode out of bounds raises in every getter and setter; after construction from arrays of the stated resolution get_vns and get_vnc return the given coefficients; set_vns and set_vnc change exactly the named mode; setting x makes the getters return the vector's entries; change_resolution keeps the common modes and makes the new ones zero; get_real_space_field is minus the series of the modes with m < mpol, over the norm of the normal. Exceptions, proved by the _violated theorems: after x was set, set_vns restores the old values of all the other modes, and the arrays and get_real_space_field keep the old values; the array getters omit m = mpol, so writing an array back zeroes those modes and get_real_space_field ignores them; after change_resolution set_vns raises for the new n, or writes to the neighbouring mode; an array narrower than ntor is read with wrapped indices; set_vnc_asarray always raises for a non-stellsym field.", "quantifier": "all mpol, ntor, nfp, stellsym, coefficient arrays, dof vectors, modes, grids", "why_tests_cant": "Index arithmetic and array/dof coherence must hold for every resolution and every sequence of calls.", "anchors": ["src/simsopt/field/normal_field.py: NormalField"]}
{"id": "C148", "title": "CoilNormalField tracks the coils", "statement": "After every history of reads, changes of the coil dofs and replacements of the coilset, CoilNormalField.vns and vnc (and get_vns, get_vnc while the surface has the resolution of the first one) are the harmonics of the normal field of the present coils on the present surface; get_real_space_field returns B.n of the present coils on a fully resolved field-period grid without stellsym, and for a resolved sine series on the half-period grid with stellsym; the vector differentiated by reduce_coilset lists the harmonics in the order of a NormalField's dofs. Exceptions (_violated theorems): replacing the surface leaves the caches stale, and after replacing the coilset by one whose surface has a larger ntor, get_vns returns a different harmonic.", "quantifier": "all coil sets, fields, surfaces, histories, modes, grid points", "why_tests_cant": "Cache coherence over all histories of calls, and transform identities for all grid sizes.", "anchors": ["src/simsopt/field/normal_field.py: CoilNormalField"]}
{"id": "C149", "title": "ReducedCoilSet moves the coils along the singular vectors", "statement": "A ReducedCoilSet made from a function starts with x = 0 and the coils unchanged; after every history of assignments of x and recalculations, the coil dofs are the reference plus the sum of x_i times the i-th right singular vector; an x of the wrong length raises; recalculate_reduced_basis keeps the coils and resets x; x_i is the component of the displacement along rsv[i]; to first order the target changes by the sum of x_i s_i lsv[i]; raising nsv keeps the coils and the relation. Exceptions (_violated theorems): lowering nsv keeps the coils and breaks the relation when a dropped amplitude is not zero; without given matrices and with nsv below the number of coil dofs no x can be set; with nsv=None the zero singular values are kept, against the documentation.", "quantifier": "all numbers of coil dofs and singular values, all decompositions, histories, vectors x", "why_tests_cant": "Invariant over all histories and all matrix sizes.", "anchors": ["src/simsopt/field/coilset.py: ReducedCoilSet"]}
{"id": "C150", "title": "ToroidalFlux derivatives", "statement": "ToroidalFlux.J is the mean of A . dgamma/dtheta over the row idx; dJ_by_dsurfacecoefficients is its derivative in every dof of the surface (the field evaluated on the moving surface), d2J_by_dsurfacecoefficientsdsurfacecoefficients the derivative of that gradient and symmetric, and dJ_by_dcoils its derivative in every dof of the coils; for the field of any coils that do not pass through the row.", "quantifier": "all surfaces, rows, coils off the row, dofs, paths of dofs, directions", "why_tests_cant": "A Taylor test samples a few surfaces and directions; the chain rule must hold for all of them.", "anchors": ["src/simsopt/geo/surfaceobjectives.py: ToroidalFlux"]}
{"id": "C151", "title": "PrincipalCurvature value and gradient", "statement": "PrincipalCurvature.J is the sum over the quadrature points of the area element times exp(-(k1-kmax1)/w1) + exp(-(-k2-kmax2)/w2), k1 >= k2 the principal curvatures; dJ is its derivative in every dof wherever the normal does not vanish and k1 != k2. Exceptions, proved by the _violated theorems: the documentation says that k1 > kmax1 is penalized, but with positive weight a larger k1 always gives a smaller value; and the documented integral is not normalised by the number of quadrature points, so that repeating the grid n times multiplies the value by n.", "quantifier": "all surfaces, grids, thresholds, weights, dofs", "why_tests_cant": "The derivative and the monotonicity hold or fail for all surfaces; a Taylor test cannot see the direction of the penalty.", "anchors": ["src/simsopt/geo/surfaceobjectives.py: PrincipalCurvature"]}
{"id": "C152", "title": "QfmResidual value, range and gradient", "statement": "QfmResidual.J is the quotient of the quadratures of (B.n)^2 and B^2 over the surface, with the unit normal; it lies between 0 and 1, is zero exactly if B is tangential at every quadrature point, and does not change when the field is multiplied by a constant; dJ_by_dsurfacecoefficients is its derivative in every dof of the surface, the field evaluated on the moving surface.", "quantifier": "all surfaces with non-vanishing normal, fields not zero everywhere on the grid, grids, dofs", "why_tests_cant": "Inequalities and derivatives over all fields and surfaces.", "anchors": ["src/simsopt/geo/surfaceobjectives.py: QfmResidual"]}
{"id": "C153", "title": "QfmSurface objective, constraint and drivers", "statement": "qfm_penalty_constraints returns f + w/2 (label-target)^2 with its gradient, qfm_label_constraint returns half the squared distance of the label from the target with its gradient, never negative and zero exactly at the target; whatever the optimizer does, the surface ends at the optimizer's res.x, the values and gradients it saw are those functions at the points it asked for, and an unknown method raises. Exceptions (_violated theorems): SLSQP gets the squared distance as equality constraint, whose gradient vanishes at every surface with the target label, so its optimality conditions hold there only where the unconstrained gradient of f vanishes (a problem whose constrained minimum satisfies them for no multiplier is given), and a step satisfying the linearised constraint only halves the distance of an affine label.", "quantifier": "all objectives and labels with their gradients, dof vectors, weights, optimizers (any adaptive sequence of queries)", "why_tests_cant": "The optimizer is arbitrary; regularity of the constraint is a statement about all feasible points.", "anchors": ["src/simsopt/geo/qfmsurface.py: QfmSurface"]}
{"id": "C154", "title": "QfmResidual and ToroidalFlux evaluate the field on their own surface", "statement": "From its construction on, after every history of changes of surfaces and coils, set_points on other fields and construction of further objects, with the bells of a change in any order, J() of a QfmResidual or ToroidalFlux whose field is used by no other such object does not raise and equals the formula with the present field at the present points of its own surface. Exceptions (_violated theorems): a QfmResidual and a ToroidalFlux sharing one field and one surface with at least 2x2 points: in every state at least one raises; two objects with a common field and different points: in every state at least one is evaluated off its surface, possibly returning a wrong value silently.", "quantifier": "all histories, orders of bells, surfaces, fields, objects", "why_tests_cant": "Depends on the order of notifications and on the whole history of the shared field.", "anchors": ["src/simsopt/geo/surfaceobjectives.py: QfmResidual, ToroidalFlux", "src/simsopt/_core/optimizable.py: Optimizable.set_recompute_flag"]}
{"id": "C155", "title": "GaussianSampler draws the documented covariance", "statement": "The covariance matrix of GaussianSampler is symmetric, with block (i,j) the derivatives d^i/dx^i d^j/dy^j of the documented kernel truncated to 11 terms; if the LDL^T factorization returns a nonnegative diagonal, then the arrays of draw_sample have exactly these covariances at all pairs of points and derivatives, in equal components, and are uncorrelated in different components. The truncated kernel differs from its translate by one period by two terms only. Exception (_violated theorem): the standard deviation of the process is larger than sigma, against the documentation.", "quantifier": "all sigma, length scales, point lists, numbers of derivatives, factorizations, random variables with unit covariance", "why_tests_cant": "A statistical test cannot establish an equality of covariances for all parameters.", "anchors": ["src/simsopt/geo/curveperturbed.py: GaussianSampler"]}
{"id": "C156", "title": "CurvePerturbed is the base curve plus the sample", "statement": "With a sample of its own for each curve: after every history of changes of the base curve, resample() calls of the curves and evaluations, the k-th derivative of a CurvePerturbed is the present one of the base curve plus the present one of the sample, and a derivative that was not sampled raises; its vector-Jacobian products are those of the base curve. Exceptions (_violated theorems): of two curves sharing a sample (the documented use), resample() on one leaves the other with the old perturbation once it was evaluated; resample() does not notify the dependents of the curve, which keep the value of the old perturbation; resample() on the sample itself leaves evaluated curves stale.", "quantifier": "all histories, curves, samples, draws, derivatives", "why_tests_cant": "Cache coherence over all histories of calls.", "anchors": ["src/simsopt/geo/curveperturbed.py: PerturbationSample, CurvePerturbed"]}
{"id": "C157", "title": "mgrid files", "statement": "An MGrid to which coil groups were added with add_field_cylindrical (all with or all without potential, names of at most 30 characters), written and read again, gives back the dimensions, the padded names in order, every array, and as totals the sums over the groups; in mode S each group is multiplied by its current. _pad_string centres in 30 characters, and padding twice changes nothing. to_mgrid puts the component of B at (R_i, phi_k, Z_j) into entry [k, j, i], with R, Z including both ends and phi covering one field period without its end. Exceptions (_violated theorems): from_file always sets nfp = 2; the guards of a_phi and a_z are exchanged; with one group with and one without potential write() raises; nothing can be added to an MGrid read from a file.", "quantifier": "all grids, numbers of groups, arrays, names, files", "why_tests_cant": "The round trip must hold for every number of groups and every name; the tests use one file with nfp = 2.", "anchors": ["src/simsopt/field/mgrid.py: MGrid", "src/simsopt/field/magneticfield.py: MagneticField.to_mgrid"]}
{"id": "C158", "title": "Regularized self-field", "statement": "B_regularized_pure does not depend on the position of the coil, rotates with it, is linear in the current, scales by 1/s when coil and cross-section are scaled by s, and does not depend on the starting point or direction of the parametrization; for a planar coil it is normal to the plane; for a circular coil with any quadrature points it is exactly mu_0 I/(4 pi R) (log(8R/sqrt(reg)) - 1) along the axis, hence log(8R/a) - 3/4 for a circular conductor; for every curve and n equidistant quadrature points it converges, as n grows, to the documented integral of Hurwitz, Landreman and Antonsen. The regularizations are positive, scale as an area, and that of a rectangle is symmetric in its sides.", "quantifier": "all coils, quadrature points, currents, regularizations, rotations, scalings, parametrizations", "why_tests_cant": "Equivariance and exactness are statements about all coils; a test compares a few to reference values.", "anchors": ["src/simsopt/field/selffield.py: B_regularized_pure, B_regularized_singularity_term, regularization_circ, regularization_rect"]}
{"id": "C159", "title": "Coil forces and their objectives", "statement": "coil_force is I t x (B_self + B_others), with no component along the coil; on a circular coil the self-force is the hoop force. MeanSquaredForce.J is the documented quotient of line integrals, never negative, zero exactly if the force vanishes at all quadrature points; LpCurveForce.J is never negative and zero exactly if the force exceeds the threshold nowhere. For both, dJ is the derivative of J in every dof, with the coil, its current and all other coils moving together and the field of the others evaluated on the moving coil, provided the gradients of the pure function are right; those exist wherever gammadash does not vanish (for LpCurveForce: and the force is neither zero nor at the threshold). Exception (_violated theorems): LpCurveForce.J is the number of quadrature points times the documented integral.", "quantifier": "all coils, other coils off the quadrature points, currents, exponents, thresholds, dofs, paths", "why_tests_cant": "A Taylor test samples a direction at a configuration; the chain rule through the moving evaluation points must hold for all.", "anchors": ["src/simsopt/field/force.py: coil_force, self_force, LpCurveForce, MeanSquaredForce"]}
{"id": "C160", "title": "Drawing points uniformly on a curve or surface", "statement": "draw_uniform_on_curve and draw_uniform_on_surface return exactly nsamples indices in increasing order, the points of gamma at these indices, and only grid points with a positive length (area) element; given that the draw succeeds, the indices are distributed like the sorted list of nsamples independent grid points, each with probability proportional to its length (area) element; each attempt is accepted with probability mean/max, and a draw of at least one sample succeeds with positive probability. Exceptions (_violated theorems): if exactly nsamples attempts are accepted the draw raises; safetyfactor is ignored; zero samples can never be drawn.", "quantifier": "all curves and surfaces, all numbers of samples, all random numbers / the product measure", "why_tests_cant": "A distribution over all outcomes cannot be established by drawing; the tests plot histograms.", "anchors": ["src/simsopt/field/sampling.py: draw_uniform_on_curve, draw_uniform_on_surface"]}
{"id": "C161", "title": "Equally spaced circular coils", "statement": "create_equally_spaced_curves(n, nfp, stellsym) (or create_equally_spaced_planar_curves) followed by coils_via_symmetries with the same nfp and stellsym gives n nfp (1 + stellsym) circles of radius R1 around the ring of radius R0, exactly one at each of as many equally spaced toroidal angles, with the current flowing around all of them in the same sense (mirrored coils are traversed backwards and carry the negative current); order 0 is refused. Exception (_violated theorem): CoilSet.for_surface for a surface without stellarator symmetry makes two coils on each of n nfp circles.", "quantifier": "all n, nfp, stellsym, radii, orders, quadrature points, currents", "why_tests_cant": "The bijection between coils and angles must hold for every n and nfp.", "anchors": ["src/simsopt/geo/curve.py: create_equally_spaced_curves, create_equally_spaced_planar_curves", "src/simsopt/field/coil.py: coils_via_symmetries", "src/simsopt/field/coilset.py: CoilSet.for_surface"]}
{"id": "C162", "title": "CoilSet", "statement": "total_length of a CoilSet made from base coils is the sum of the lengths of all its coils, copies included, and its field is that of these coils; after base_coils is set the field is that of the new coils. Exceptions (_violated theorems): after base_coils is set, the attribute coils (used by to_makegrid_file and the distance penalties) is still the old list and total_length is off by the ratio of the numbers of base coils; a ReducedCoilSet keeps the old field; the penalties keep every second of their original parents.", "quantifier": "all base coils, nfp, stellsym, sequences of parents", "why_tests_cant": "Consistency after a setter must hold for every pair of coil lists.", "anchors": ["src/simsopt/field/coilset.py: CoilSet.__init__, CoilSet.base_coils, CoilSet.total_length, CoilSet.flux_penalty, CoilSet.cc_distance_penalty, ReducedCoilSet.base_coils"]}
{"id": "C163", "title": "ReducedCoilSet", "statement": "A ReducedCoilSet made from a target function starts at the given coils; setting x puts the coil dofs at the reference plus the combination of the first nsv right singular vectors, whatever was set before; the coil dofs move by the Euclidean length of x, and the first-order change of the target is the combination of left singular vectors weighted by the singular values; raising nsv keeps coils and dofs consistent, and recalculating the basis keeps the coils and makes them the reference. Exceptions (_violated theorems): without matrices and with nsv below the number of coil dofs no x can be set; lowering nsv leaves the coils where the cut-off dofs had put them; 'nonzero' keeps zero singular values.", "quantifier": "all coil dof vectors, Jacobians and their singular value decompositions, nsv, histories of x", "why_tests_cant": "Isometry and response must hold for every Jacobian and every x.", "anchors": ["src/simsopt/field/coilset.py: ReducedCoilSet"]}
{"id": "C164", "title": "Collision with ports", "statement": "collides of a circular (rectangular) port is true exactly for the points of the solid cylinder (box), walls included, enlarged by the gap; every point within the distance gap of the port collides, and a colliding point is within sqrt 2 (sqrt 3) gaps of it; the constructors normalise the axis and width vectors, refuse zero vectors and vectors that are not perpendicular, and keep all lengths; a set of ports collides iff one of its ports does, with one gap for all or one per port. Exceptions (_violated theorems): a list with one gap for a set of one port raises IndexError; a gap below minus the outer radius of a circular port accepts points again.", "quantifier": "all ports, points, gaps and sets of ports", "why_tests_cant": "Geometric containment must hold for every point of space and every port.", "anchors": ["src/simsopt/geo/ports.py: CircularPort, RectangularPort, PortSet.collides"]}
{"id": "C165", "title": "Symmetric sets of ports", "statement": "repeat_via_symmetries of a port returns nfp (1 + stell_sym) ports, the port first; a point collides with one of them iff one of its images under the symmetries collides with the port; for a set of ports, the collisions of the result are invariant under rotation by a field period and, with stell_sym, under (x, y, z) -> (x, -y, -z), and every collision with the original set remains one.", "quantifier": "all ports and sets of ports made by the constructors, all nfp, both values of stell_sym, all points and gaps", "why_tests_cant": "Symmetry must hold at every point of space for every port and nfp.", "anchors": ["src/simsopt/geo/ports.py: CircularPort.repeat_via_symmetries, RectangularPort.repeat_via_symmetries, PortSet.repeat_via_symmetries"]}
{"id": "C166", "title": "Saving and loading sets of ports", "statement": "A set of ports with at least two ports of each type it has, saved with save_ports_to_file and loaded with PortSet(file=..., port_type=...), is the circular ports and then the rectangular ports (or the other way round, as the files are listed) with all values equal; a file with the wrong number of columns raises ValueError. Exceptions (_violated theorems): a file with one port raises IndexError on loading; a file of the other type left by an earlier save under the same name is not removed and its ports are loaded again.", "quantifier": "all sets of ports made by the constructors, all contents of the disk before saving", "why_tests_cant": "The round trip must hold for every set of ports and every earlier file.", "anchors": ["src/simsopt/geo/ports.py: PortSet.save_ports_to_file, PortSet.load_circular_ports_from_file, PortSet.load_rectangular_ports_from_file, PortSet.__init__"]}
{"id": "C167", "title": "Elementary objective functions", "statement": "Identity, Adder, Rosenbrock, TestObject1 and Affine return the values their documentation states and their dJ is the derivative of these values; Rosenbrock is zero exactly at (1, 1); Beale is zero exactly at (3, 1/2); Failer raises ObjectiveFailure on exactly the evaluation fail_index. Exceptions (_violated theorems): Adder(n) without x0 has no dofs although its gradient has n entries; Rosenbrock divides by b where the documentation multiplies; TestObject1.dJ lists its own dof first while x lists the ancestors first; Rosenbrock.dterms raises IndexError; TestObject2 cannot be constructed (AttributeError).", "quantifier": "all dofs, all values of n, b, fail_index, all matrices", "why_tests_cant": "Derivatives and zeros are statements about all points.", "anchors": ["src/simsopt/objectives/functions.py: Identity, Adder, Rosenbrock, TestObject1, Affine, Failer, Beale, TestObject2"]}
{"id": "C168", "title": "Quasisymmetry residual of a VMEC equilibrium", "statement": "QuasisymmetryRatioResidual.compute returns residuals whose sum of squares is total = sum over the surfaces of weight times the flux-surface average of the squared quasisymmetry bracket over B^3, profile being the summands; the residuals are in the order of surfaces, theta, phi; total is not negative and zero exactly if the bracket vanishes at all grid points of all surfaces with a nonzero weight; it vanishes for fields whose strength depends only on m theta - n nfp phi; the derivatives of |B| are those of its Fourier series; the radial interpolation is exact at the half-grid surfaces and linear between; asymmetric equilibria and wrong numbers of weights are refused. Exceptions (_violated theorems): ntheta = 1 or nphi = 1 raises IndexError.", "quantifier": "all equilibria (Fourier data of any size), surfaces, weights, helicities and grids", "why_tests_cant": "The formula must hold for every equilibrium, surface and grid.", "anchors": ["src/simsopt/mhd/vmec_diagnostics.py: QuasisymmetryRatioResidual"]}
{"id": "C169", "title": "Iota and well objectives of a VMEC equilibrium", "statement": "IotaTargetMetric.J is not negative and zero exactly if iota is the target on all half-grid surfaces; IotaWeighted.J is an average of iota, independent of the scale of the weights; WellWeighted.J lies between -1 and 1, changes sign if the weights are exchanged and is not positive for a well; shape_gradient uses the equilibrium of the present inputs and one whose profile differs by adjoint_epsilon times the perturbation, and afterwards the inputs are as before and the next evaluation is that of the present inputs. Exceptions (_violated theorems): if the perturbed run fails, the perturbed inputs stay and later evaluations use them; a radial grid larger than VMEC's auxiliary arrays raises ValueError with these arrays overwritten and no new run asked for; with a current profile object the perturbation is overwritten, so that the second equilibrium depends neither on adjoint_epsilon nor on the objective.", "quantifier": "all equilibria, target and weight functions, solvers (partial functions of the inputs) and states of the Vmec object", "why_tests_cant": "Restoration must hold for every solver outcome and every earlier state.", "anchors": ["src/simsopt/mhd/vmec_diagnostics.py: IotaTargetMetric, IotaWeighted, WellWeighted", "src/simsopt/mhd/vmec.py: Vmec.run, Vmec.set_profile, Vmec.set_indata"]}
{"id": "C170", "title": "Magnetic field on the VMEC boundary and shape gradients", "statement": "B_cartesian returns, for every point of the chosen grid, a vector tangent to the boundary whose components along the coordinate lines are the contravariant components extrapolated to s = 1 (exactly, if they are linear in s over the last two half-grid surfaces); on a stellarator-symmetric boundary it has the symmetry of a stellarator, the components repeat after a field period, asymmetric equilibria are refused; parameter_derivatives is the quadrature of G times the normal displacement over the surface, linear in G and in the displacement, zero for displacements within the surface, and is the derivative in the dof of every objective whose gradient with respect to the points is G n.", "quantifier": "all surfaces, Fourier data, grids, shape gradients and displacements", "why_tests_cant": "Tangency, symmetry and the chain rule must hold for every surface and gradient.", "anchors": ["src/simsopt/mhd/vmec_diagnostics.py: B_cartesian", "src/simsopt/geo/surfaceobjectives.py: parameter_derivatives"]}
{"id": "C171", "title": "Fourier arrays between simsopt's and SPEC's layout", "statement": "array_translator(a, style='simsopt') accepts every array of mpol+1 rows and 2 ntor+1 columns that fits SPEC's maximal resolution, gives an array of SPEC's shape in which every mode (m, n) has its coefficient and all others are zero; as_simsopt reads the modes of the resolution of the Spec object in simsopt's layout; the round trip keeps common modes and sets new ones to zero; arrays that do not fit, or with an even number of columns, are refused. Exception (_violated theorem): the setter as_spec raises AttributeError for every array.", "quantifier": "all arrays, resolutions and maximal resolutions", "why_tests_cant": "Tests use one or two input files; offsets and slices must be right at every resolution.", "anchors": ["src/simsopt/mhd/spec.py: Spec.array_translator, Spec.SpecFourierArray"]}
{"id": "C172", "title": "Flux profiles reach SPEC with fixed entries kept", "statement": "When a pflux or tflux profile is set, each run sends the value of every free entry, keeps the difference of every fixed entry to the one before (the first keeps its value), changes nothing else, and writes what was sent into the profile; after any history of assignments to the free DOFs and runs, what is sent depends only on the first state and the last values; a profile shorter than the number of volumes makes the run raise IndexError.", "quantifier": "all profiles, choices of free entries, numbers of volumes and histories of assignments and runs", "why_tests_cant": "The inputs are updated in place from their old values, so that only an induction over the history excludes drift.", "anchors": ["src/simsopt/mhd/spec.py: Spec.run, Spec.get_profile", "src/simsopt/mhd/profiles.py: ProfileSpec"]}
{"id": "C173", "title": "Volume currents and the other profiles reach SPEC", "statement": "Volume currents: if no free entry comes after a fixed one (the first aside), free entries are sent and kept, fixed ones keep their difference to the entry before, and a vacuum region gets the current of the last plasma volume; set_profile of a cumulative profile moves all later entries along, of others changes one entry; pressure goes to every plasma volume and zero to a vacuum region; interface currents, and mu and helicity with a fixed boundary, are sent entry by entry; what activate_profile makes changes no input with a fixed boundary. Exceptions (_violated theorems): a free volume current after a fixed one is changed by the run, so that what is sent for the same DOFs depends on the runs before; mu and helicity of a vacuum region are not set to zero, the entry behind is; a profile of iota or oita makes every run with two or more volumes raise ValueError; with a free boundary the current profiles of activate_profile are too short and every run raises IndexError.", "quantifier": "all profiles, choices of free entries, numbers of volumes and histories", "why_tests_cant": "Which inputs are wrong depends on which entries are fixed and on the runs before.", "anchors": ["src/simsopt/mhd/spec.py: Spec.run, Spec.set_profile, Spec.activate_profile"]}
{"id": "C174", "title": "A SPEC evaluation belongs to the present inputs and is converged", "statement": "In every history of changes of inputs and successful evaluations, the value returned by volume() (or iota(), or a residue evaluated after a change) belongs to a result of SPEC at the inputs of that moment within the tolerances; without changes the stored result is used and nothing runs; a successful run makes its interfaces and axis the next initial guess; a crash or an unreadable file raises ObjectiveFailure and SPEC is run again next time; an unconverged result raises ObjectiveFailure and restores the boundary field of a free boundary. Exceptions (_violated theorems): the evaluation after an unconverged one, at the same inputs, returns the unconverged value without complaint (also for residues); without stellarator symmetry and with several volumes every run after the first successful one raises KeyError.", "quantifier": "all behaviours of SPEC, inputs, tolerances and histories of changes and evaluations", "why_tests_cant": "SPEC is not available to most tests, and failures and stale results depend on the history.", "anchors": ["src/simsopt/mhd/spec.py: Spec.run, Spec.volume, Spec.recompute_bell, Residue.J"]}
{"id": "C175", "title": "Replacing the profiles of a Spec object", "statement": "Assigning a profile that is used nowhere else makes it the profile and a parent of the Spec object in place of the old one, leaves the others as they are and makes the next evaluation run SPEC; any sequence of such assignments succeeds and the profiles among the parents are exactly those in use, each once. Exceptions (_violated theorems): replacing a helicity profile raises ValueError if there is no toroidal flux profile and otherwise removes that one from the parents although it is in use, while the old helicity profile stays; the announced errors for a wrong size are not raised, and None raises AttributeError.", "quantifier": "all nine kinds of profiles and all sequences of assignments", "why_tests_cant": "The parents depend on the whole sequence of assignments.", "anchors": ["src/simsopt/mhd/spec.py: Spec profile setters"]}
{"id": "C176", "title": "The effective fraction of trapped particles", "statement": "compute_trapped_fraction: <B^2> and <1/B> are averages with the Jacobian as weight; for a Jacobian of one sign and B > 0 they lie between the values at the least and greatest field, epsilon is in [0, 1) and is 0 only for a constant field, and the fraction f_t of trapped particles is in [0, 1], zero for a constant field; multiplying the field or the Jacobian by a constant changes neither epsilon nor f_t, and scales the averages as it should.", "quantifier": "all numbers of grid points, fields and Jacobians of one sign", "why_tests_cant": "The bound f_t >= 0 is an inequality between integrals for every field on every grid; tests compare a few analytic fields.", "anchors": ["src/simsopt/mhd/bootstrap.py: compute_trapped_fraction"]}
{"id": "C177", "title": "The bootstrap current of Redl's formulae", "statement": "j_dot_B_Redl: X31 is between 0 and f_t, equals it without collisions and falls with collisionality; L31 is between X31 and 1, L31 = 0 without and 1 with only trapped particles; without gradients or without trapped particles there is no current; with only a density gradient the current is -G L31 p' / (psi (iota - N)); with f_t = 1 and no collisions it is -G p' / (psi (iota - N)); it is linear in the three gradients; geometry quantities given twice are refused and the helicity is the one given or that of the geometry; of iota and N only the difference enters, and reversing the sign of that difference, of G or of psi_edge reverses the current. Exception (_violated theorem): Zeff=None, documented as the constant 1, raises TypeError.", "quantifier": "all plasma parameters with Z >= 1, trapped fractions in [0, 1] and collisionalities", "why_tests_cant": "Limits and bounds of fit formulae with many coefficients hold on a continuum of parameters.", "anchors": ["src/simsopt/mhd/bootstrap.py: j_dot_B_Redl"]}
{"id": "C178", "title": "The bootstrap-current mismatch", "statement": "VmecRedlBootstrapMismatch.J() is the sum of (v - r)^2 over that of (v + r)^2, not negative, zero exactly if the currents v of VMEC and r of Redl agree on all surfaces, at most 1 if they never have opposite signs, symmetric, and unchanged if both are scaled; each residual has the sign of v - r; the interpolation in s is exact at grid points and for linear profiles, also extrapolated, is the mean of the two neighbours at half-grid points, and VMEC's current is refused outside the grid; the geometry uses the given surfaces at every call and else the half grid of VMEC; RedlGeomBoozer's field is the part of the spectrum of the given helicity, the whole field if it is quasisymmetric; the log has one head and one row per evaluation. Exception (_violated theorem): without given surfaces the first half grid is kept if VMEC's resolution changes.", "quantifier": "all profiles, numbers of surfaces, spectra, angles and sequences of evaluations", "why_tests_cant": "Zero sets, bounds and histories are statements about all profiles; tests use one equilibrium.", "anchors": ["src/simsopt/mhd/bootstrap.py: VmecRedlBootstrapMismatch, RedlGeomVmec, RedlGeomBoozer"]}
{"id": "C179", "title": "compute_on_axis_iota returns the transform of the axis", "statement": "compute_on_axis_iota(axis, field) integrates over one field period the matrix of the linearized field-line equations: at a point off the z axis with toroidal field and without current that matrix is the derivative of the slopes dR/dphi, dZ/dphi with respect to R and Z. If in some coordinates the resulting map is the rotation by 2 pi iota / nfp, of at most half a turn, the result is the absolute value of iota; it always lies between 0 and nfp/2. Exceptions (_violated theorems): the sign of iota is lost, and transforms of more than half a turn per field period come back as others; where the curl of the field is not zero the indices of dB_by_dX are exchanged and the matrix is wrong.", "quantifier": "all differentiable fields and points, all tangent maps, transforms and numbers of field periods", "why_tests_cant": "Tests compare one vacuum configuration with a known positive transform.", "anchors": ["src/simsopt/field/magnetic_axis_helpers.py: compute_on_axis_iota"]}
{"id": "C180", "title": "Arrays of VirtualCasing.from_vmec", "statement": "The one-dimensional arrays passed to the virtual casing package hold every component of every vector exactly once in its order and unpacking undoes packing; B_external_normal_extended has the documented shape; in the first half of every field period its rows are the values of the stellarator-symmetric field at their grid points. Exceptions (_violated theorems): in the second half of every period all rows are shifted by one, so that they hold the value of the previous grid point; with use_stellsym=False the extended array has twice the rows needed and covers the torus twice, repeating a row in each block; for some fields values have the wrong sign.", "quantifier": "all resolutions, numbers of field periods and stellarator-symmetric fields", "why_tests_cant": "Tests need VMEC and the package and compare only a few rows with loose tolerances.", "anchors": ["src/simsopt/mhd/virtual_casing.py: VirtualCasing.from_vmec"]}
{"id": "C181", "title": "Sets of allowed magnet polarizations", "statement": "Every named set of polarizations consists of pairwise different unit vectors, contains all vectors with its components up to order and signs, and is mapped to itself by every symmetry of the cube; the triplets are unit vectors for all angles between 0 and 45 degrees; polarization_axes(names) joins the sets in order, whatever the case of the letters, with a type for every axis that is the number of a name whose set contains it, and refuses unknown names.", "quantifier": "all names, lists of names and angles", "why_tests_cant": "Tests count the axes; that none is missing, repeated or of the wrong length is a statement about all of them and about all angles.", "anchors": ["src/simsopt/util/polarization_project.py: face_triplet, edge_triplet, faceedge_vectors, facecorner_vectors, polarization_axes"]}
{"id": "C182", "title": "discretize_polarizations chooses the nearest allowed moment", "statement": "For every magnet the chosen polarization is the null magnet or an allowed axis in the laboratory and none of these is nearer to its moment (direction times pho**momentq); the laboratory axes are those of the magnet turned by orientation_phi about z; the recorded components and type belong to the chosen axis; the new moment is the chosen axis with density 1, or 0 for the null magnet, if the exponent is positive; discretizing twice changes nothing. Exception (_violated theorem): with the exponent 0 a null magnet counts as a full one.", "quantifier": "all magnets, orientations, exponents and lists of axes", "why_tests_cant": "Tests run one file; nearest among all and idempotence must hold for every moment.", "anchors": ["src/simsopt/util/polarization_project.py: discretize_polarizations"]}
{"id": "C183", "title": "FOCUS magnets: reading, symmetry, flipping and exponents", "statement": "stell_point_transform and stell_vector_transform are isometries with the stellarator rule (angle phi+d, height z to phi-d, -z; vectors as points and reversed) and reflecting twice gives back the original. FocusData keeps positions, moments and symmetry codes of the same magnets: every n-th of the file, without keep_Ic_zeros only those with Ic = 1. repeat_hp_to_fp on magnets of code 2 gives each a partner with reflected position and direction and the same density, leaves arrays that fit, and cannot be applied twice. flip_negative_magnets makes densities non-negative and keeps the moments for odd exponents; adjust_rho keeps the magnitudes. bnormal_grid is the full Fourier series of the file, odd if there are no cosine amplitudes and of period 1/nfp. Exceptions (_violated theorems): Ic and op are not reduced when magnets are left out and then belong to other magnets; repeat_hp_to_fp with mixed codes gives arrays that do not fit; flip_negative_magnets with an even exponent reverses moments.", "quantifier": "all files, selections, numbers of field periods, sectors, moments, exponents and Fourier amplitudes", "why_tests_cant": "Tests read one file in which all magnets have the same codes and exponent.", "anchors": ["src/simsopt/util/famus_helpers.py: FocusData, FocusPlasmaBnormal, stell_vector_transform, stell_point_transform"]}
{"id": "C184", "title": "vmec_compute_geometry: the derivatives are derivatives", "statement": "Every array of vmec_compute_geometry named as a derivative of R, Z, lambda, |B| or of a contravariant component of B with respect to s, theta_vmec or phi is that partial derivative of the array it names, and every second derivative is the derivative of both first ones; R, |B|, B_sup_theta_vmec and B_sup_phi are unchanged under (theta, phi) -> (-theta, -phi), and Z, lambda and theta_pest change the sign.", "quantifier": "all radial splines, mode numbers and numbers of modes, and all points", "why_tests_cant": "Tests compare a few arrays with finite differences or other codes at a few points.", "anchors": ["src/simsopt/mhd/vmec_diagnostics.py: vmec_compute_geometry"]}
{"id": "C185", "title": "vmec_compute_geometry: gradients, field and drifts are those of space", "statement": "The d_X, d_Y, d_Z arrays are the partial derivatives of the position, sqrt_g_vmec_alt is the Jacobian; where sqrt_g_vmec agrees with it, the gradients of s, theta, phi are dual to these, grad_psi, grad_alpha (with phi_center) and grad_B are the gradients in space of psi, alpha and |B|, the field B_X, B_Y, B_Z is grad psi x grad alpha as documented, tangent to the surfaces and straight in theta_pest; if the covariant components of the file are those of this field, both ways of computing B x grad s . grad alpha and B x grad|B| . grad alpha agree with their names, and in an equilibrium B_cross_kappa_dot_grad_alpha and ..._psi are the components of the curvature.", "quantifier": "all smooth equilibria, points with non-zero Jacobian and centers of the field-line label", "why_tests_cant": "Tests compare two formulas of the same code within tolerances on a few equilibria.", "anchors": ["src/simsopt/mhd/vmec_diagnostics.py: vmec_compute_geometry"]}
{"id": "C186", "title": "Gyrokinetic coefficients", "statement": "B_reference is positive, carries the edge flux through a circle of the minor radius, and bmag is |B| in its units; shat is (r/q) dq/dr for r = a sqrt(s), q = 1/iota; gds2 = r^2 |grad alpha|^2, gds21 = sign(psi) shat r grad alpha . grad r, gds22 = shat^2 |grad r|^2, hence gds21^2 <= gds2 gds22; cvdrift and cvdrift0 are the curvature components with the same factors as gbdrift and gbdrift0 have for |B|, and equal them without pressure gradient.", "quantifier": "all points with s > 0, |B| > 0, non-zero flux, both signs of the flux", "why_tests_cant": "Normalizations and signs are compared with one code for one equilibrium of one sign.", "anchors": ["src/simsopt/mhd/vmec_diagnostics.py: vmec_compute_geometry"]}
{"id": "C187", "title": "The grad B tensor and its scale length", "statement": "grad_B__ij is the derivative in direction j of the component i of the field with the contravariant components of the file, which is B_X, B_Y, B_Z if these are the straight-field-line components; L_grad_B is not negative and L_grad_B^2 times the sum of the squares of the entries is 2 |B|^2.", "quantifier": "all smooth equilibria and points with non-zero Jacobian", "why_tests_cant": "Nine entries with six to nine terms each, checked for a few configurations.", "anchors": ["src/simsopt/mhd/vmec_diagnostics.py: vmec_compute_geometry"]}
{"id": "C188", "title": "vmec_fieldlines returns points on the requested field lines", "statement": "Exactly one of theta1d and phi1d must be given, otherwise ValueError; nl is its length. Where the root finder succeeds, the label alpha (with phi_center) of every point is the requested one, the given angles are those of the result and theta_pest is the straight-field-line angle. The root always exists and, where theta_pest increases with theta_vmec, is unique.", "quantifier": "all equilibria, surfaces with non-zero transform, labels, centers and grids", "why_tests_cant": "Holds at every point of every line; existence and uniqueness of the root cannot be tested.", "anchors": ["src/simsopt/mhd/vmec_diagnostics.py: vmec_fieldlines"]}
{"id": "C189", "title": "Adjoint metrics leave VMEC as they found it", "statement": "The values of IotaTargetMetric, IotaWeighted and WellWeighted are the midpoint rules of the documented integrals (zero exactly on target; between the bounds of iota for weights >= 0; in [-1,1] and antisymmetric in the weights); dJ of the first two is refused with RuntimeError unless ncurr = 1; the shape gradient is the documented multiple of delta B . B, delta B being the change of the field per adjoint_epsilon under the documented perturbation of the current or pressure profile with everything else unchanged, so it does not depend on adjoint_epsilon where the field responds linearly; after a dJ or shape_gradient that returns, the inputs of VMEC are those of before and every metric has the value it had before. Exceptions (_violated theorems): with a current_profile object the perturbation is overwritten by the profile and G is zero for type line_segment_I whatever the target (constant for WellWeighted with a cubic_spline pressure_profile); when VMEC does not converge for the perturbed profile, the perturbed inputs stay and later calls of J run VMEC with them; when the profile arrays are shorter than the radial grid, they are left filled with -1.", "quantifier": "all equilibria as functions of the inputs, all targets, weights and perturbation sizes, all states of the Vmec object, converging and failing runs", "why_tests_cant": "Tests never look at the inputs after a derivative, use no profile objects and no failing runs.", "anchors": ["src/simsopt/mhd/vmec_diagnostics.py: IotaTargetMetric, IotaWeighted, WellWeighted", "src/simsopt/mhd/vmec.py: Vmec.run, set_profile, set_indata"]}
{"id": "C190", "title": "TF coils on a wireframe", "statement": "add_tfcoil_currents with n_tf coils per half period adds closed poloidal loops of the given current at positions less than one grid step behind the middles of the n_tf equal parts of the half period (neighbouring positions n_phi/n_tf apart, rounded up or down); the added currents satisfy continuity, carry no net toroidal current, and for 2 n_tf <= n_phi exactly 2 n_tf times the current in poloidal direction per field period; they are added to the currents present iff the sum meets the constraints (ValueError otherwise, also for n_tf > n_phi), which it does on a fresh wireframe, with or without the matching poloidal constraint. Exception (_violated theorem): for n_phi/2 < n_tf <= n_phi the last coil lies on the symmetry plane, where the mirror images coincide, and the poloidal current is (2 n_tf - 1) times the current.", "quantifier": "all grid sizes, all numbers of coils, all currents, all histories of constraint calls", "why_tests_cant": "Tests use a few grid sizes with n_tf dividing n_phi.", "anchors": ["src/simsopt/geo/wireframe_toroidal.py: ToroidalWireframe.add_tfcoil_currents, check_constraints"]}
{"id": "C191", "title": "Toroidal breaks and collisions of a wireframe", "statement": "After any history of constraint calls, set_toroidal_breaks with 0 < n_breaks < n_phi/2, n_breaks * width <= n_phi/2 and no constraint to a nonzero toroidal current succeeds: the breaks lie within the half period, have the given width, are separated by at least their width and are centered at the evenly spaced positions to within half a column; exactly the toroidal segments within a break and, unless allow_pol_current, the poloidal segments with the break on both sides are constrained besides those before, none on the symmetry planes; a constraint to zero toroidal current is removed; currents that meet the constraints have no toroidal current in a break and zero net toroidal current through every poloidal plane of the torus. Other parameters, or a nonzero toroidal constraint, raise ValueError and change nothing. constrain_colliding_segments constrains exactly the segments with a colliding test point besides those before; segments with a colliding end are always among them, segments without any colliding point never; pts_per_seg < 2 raises ValueError.", "quantifier": "all grid sizes, all numbers and widths of breaks, all collision functions and node positions, all histories of constraint calls, all currents meeting the constraints", "why_tests_cant": "Tests use one grid and a few break settings, and look at the number of constrained segments.", "anchors": ["src/simsopt/geo/wireframe_toroidal.py: ToroidalWireframe.set_toroidal_breaks, constrain_colliding_segments"]}
{"id": "C192", "title": "Initial guesses of SPEC's interfaces survive the way in and out", "statement": "_set_spec_initial_guess gives SPEC every mode (m, n) of its resolution (m = 0 only with n >= 0) exactly once, with the coefficients of the guess surface of each inner interface, and zeros elsewhere; it is refused when a guess is missing, has fewer modes than SPEC, or is stellarator symmetric when SPEC is not. Reading the guesses of an input file (linitialize = 0) gives one surface per inner interface, and one for a free plasma boundary, with the coefficients of all modes of the file that fit; what a run sends back for these modes are the coefficients of the file. Exception (_violated theorem): modes (0,0) and (1,0) that the file does not list come back with the radii 1 and 0.1 of a new surface instead of zero.", "quantifier": "all resolutions, numbers of volumes, guess surfaces and lists of modes without repetition", "why_tests_cant": "Tests need the SPEC wrapper and look at one input file, whose resolution is that of the run.", "anchors": ["src/simsopt/mhd/spec.py: Spec._read_initial_guess, _set_spec_initial_guess", "src/simsopt/geo/surfacerzfourier.py: SurfaceRZFourier.get_rc, set_rc"]}
{"id": "C193", "title": "An interpolated Boozer field continues every quantity with its parity", "statement": "The points of an InterpolatedBoozerField are mapped into the fundamental domain for all angles, negative ones too, and every quantity it returns is exactly periodic in theta and zeta. When the field has nfp periods and, if stellsym, even |B| and R and odd Z, nu and K, then for every quantity, derivative and component the error at any point is the interpolation error at the image of the point in the fundamental domain, whatever the interpolants: no sign is missing and none is wrong.", "quantifier": "all real points, numbers of field periods, both symmetries, all interpolants, all fields with the symmetry and all 34 quantities", "why_tests_cant": "A test compares a few quantities at random points with a tolerance that hides which symmetry each component obeys.", "anchors": ["src/simsoptpp/boozermagneticfield_interpolated.h: InterpolatedBoozerField::exploit_symmetries_points, apply_odd_symmetry, apply_even_symmetry, exploit_fluxfunction_points, _*_impl", "src/simsopt/field/boozermagneticfield.py: InterpolatedBoozerField"]}
{"id": "C194", "title": "Curves loaded from files of Fourier coefficients are the curves of the file", "statement": "load_curves_from_file(order) returns one curve per six columns of the table; its position is the Fourier series with these columns as coefficients, up to the requested order. It refuses tables that are not rectangular, have one row, a number of columns that is not a multiple of six or too few rows for the order, and calls without an order. read_focus_coils returns the Fourier series and the currents of all coils of a FOCUS file, whatever their names, types and numbers of segments, and refuses a file in which a coil has fewer harmonics than the first. Exception (_violated theorem): harmonics beyond the number of the first coil are dropped silently.", "quantifier": "all tables, orders, numbers of coils and FOCUS files in the documented format, all curve parameters", "why_tests_cant": "Tests load a few files and compare a plot or a norm; an index shifted for one coordinate or coil shows only for other files.", "anchors": ["src/simsopt/geo/curvexyzfourier.py: CurveXYZFourier.load_curves_from_file", "src/simsopt/util/permanent_magnet_helper_functions.py: read_focus_coils"]}
{"id": "C195", "title": "The magnetic axes of the zoo are those of the tables", "statement": "get_ncsx_data, get_hsx_data, get_giuliani_data and get_w7x_data return as axis, for every order Nt_ma within the table, the stellarator-symmetric curve with radial coefficients cR (from mode 0) and vertical coefficients sZ (from mode 1); a larger order is refused; the number of quadrature points is odd. Exception (_violated theorem): the table sZ of W7-X begins with the (zero) coefficient of mode 0, so the axis returned has each vertical coefficient in the wrong mode, and is planar for Nt_ma = 1.", "quantifier": "all tables, orders, field periods, points per period and angles; for the exception the table in the source", "why_tests_cant": "Tests load the configurations with the default order and do not compare the axis with anything.", "anchors": ["src/simsopt/configs/zoo.py: get_ncsx_data, get_hsx_data, get_giuliani_data, get_w7x_data"]}
{"id": "C196", "title": "fixed_range fixes exactly the modes of the range", "statement": "SurfaceRZFourier.fixed_range(mmin, mmax, nmin, nmax, fixed) makes every dof whose mode lies in the range (both ends included) fixed, or free with fixed=False, and changes no other dof, for all ranges whose modes exist; a range with a mode the surface does not have raises ValueError, and even then no dof outside the range changes. Exception (_violated theorem): a refused call leaves the modes before the missing one changed.", "quantifier": "all resolutions, both symmetries, all integer ranges (empty and negative ones too), both values of fixed and all previous states", "why_tests_cant": "Tests fix a few ranges of one small surface and look at a few names.", "anchors": ["src/simsopt/geo/surfacerzfourier.py: SurfaceRZFourier.fixed_range, _make_names", "src/simsopt/_core/optimizable.py: DOFs.fix, DOFs.unfix"]}
{"id": "C197", "title": "VMEC namelists of surfaces", "statement": "get_nml assigns every mode of the surface whose pair of coefficients (RBC/ZBS; RBS/ZBC without stellarator symmetry) is not both zero, with the values of the surface, and nothing else. from_vmec_input gives each coefficient inside the rectangle of its array the assigned value, or zero, and keeps the values of a new torus outside. So a surface with rc(0,0) and mode (1,0) present (and, without stellarator symmetry, some rs or zc that is not zero) that is written by write_nml and read by from_vmec_input has all its coefficients up to the rounding of the text, and its nfp. Exceptions (_violated theorems): a surface without stellarator symmetry whose rs and zc vanish is written to a file that cannot be read back (KeyError); a file that does not assign ZBS(0..1,0) is read with zs(1,0) = 0.1.", "quantifier": "all resolutions, numbers of field periods, coefficients and namelists (any start indices with m >= 0, ragged rows, missing entries)", "why_tests_cant": "The tests read and write a few files with complete arrays.", "anchors": ["src/simsopt/geo/surfacerzfourier.py: SurfaceRZFourier.get_nml, write_nml, from_vmec_input", "src/simsopt/_core/util.py: nested_lists_to_array"]}
