{
 "claims": [
  {
   "property": "C01",
   "status": "proved",
   "theorems": [
    "Simsopt.Dofs.C01_free_x_is_mask",
    "Simsopt.Dofs.C01_set_free_x",
    "Simsopt.Dofs.C01_set_free_x_wrong_length",
    "Simsopt.Dofs.C01_write_back"
   ],
   "note": ""
  },
  {
   "property": "C02",
   "status": "proved",
   "theorems": [
    "Simsopt.Dofs.C02_key_unambiguous",
    "Simsopt.Dofs.C02_fix",
    "Simsopt.Dofs.C02_unfix",
    "Simsopt.Dofs.C02_bad_key",
    "Simsopt.Dofs.C02_is_free",
    "Simsopt.Dofs.C02_idempotent_override",
    "Simsopt.Dofs.C02_fix_all",
    "Simsopt.Dofs.C02_unfix_all",
    "Simsopt.Graph.C02_object_fix"
   ],
   "note": ""
  },
  {
   "property": "C03",
   "status": "proved",
   "theorems": [
    "Simsopt.Dofs.C03_set_get",
    "Simsopt.Dofs.C03_get",
    "Simsopt.Dofs.C03_set_full_x",
    "Simsopt.Dofs.C03_set_full_x_wrong_length"
   ],
   "note": ""
  },
  {
   "property": "C04",
   "status": "proved",
   "theorems": [
    "Simsopt.Graph.C04_x_round_trip",
    "Simsopt.Graph.C04_x_length"
   ],
   "note": ""
  },
  {
   "property": "C05",
   "status": "proved",
   "theorems": [
    "Simsopt.Graph.C05_x_frame"
   ],
   "note": ""
  },
  {
   "property": "C06",
   "status": "proved",
   "theorems": [
    "Simsopt.Dofs.C06_init_WF",
    "Simsopt.Graph.C06_lengths",
    "Simsopt.Graph.C06_masked"
   ],
   "note": ""
  },
  {
   "property": "C07",
   "status": "proved",
   "theorems": [
    "Simsopt.Graph.C07_ancestors",
    "Simsopt.Graph.C07_lineage"
   ],
   "note": ""
  },
  {
   "property": "C08",
   "status": "proved",
   "theorems": [
    "Simsopt.Graph.C08_shared_dofs_once"
   ],
   "note": ""
  },
  {
   "property": "C09",
   "status": "proved",
   "theorems": [
    "Simsopt.Graph.C09_value_change_notifies",
    "Simsopt.Graph.C09_assignment_notifies",
    "Simsopt.Graph.C09_relink_notifies"
   ],
   "note": ""
  },
  {
   "property": "C10",
   "status": "proved",
   "theorems": [
    "Simsopt.Graph.C10_two_way",
    "Simsopt.Graph.C10_add_twice",
    "Simsopt.Graph.C10_no_cycles",
    "Simsopt.Graph.C10_append_remove",
    "Simsopt.Graph.C10_duplicate_parent_violated"
   ],
   "note": "Proved for every history in which a parent listed twice is not removed; C10_duplicate_parent_violated exhibits the failure for depends_on=[a,a]. The unconditional wording is false of the code; the exceptions named in the statement are proved by C10_duplicate_parent_violated."
  },
  {
   "property": "C11",
   "status": "proved",
   "theorems": [
    "Simsopt.Graph.C11_eq_is_identity",
    "Simsopt.Graph.C11_names_injective",
    "Simsopt.Graph.C11_make_optimizable_violated"
   ],
   "note": "Proved for all objects whose class name does not end in a digit; make_optimizable objects violate it (witness). The unconditional wording is false of the code; the exceptions named in the statement are proved by C11_make_optimizable_violated."
  },
  {
   "property": "C12",
   "status": "proved",
   "theorems": [
    "Simsopt.Dofs.C12_set_free_bounds",
    "Simsopt.Dofs.C12_set_free_bounds_wrong_length",
    "Simsopt.Dofs.C12_update_bound",
    "Simsopt.Dofs.C12_full_bounds_setter_violated",
    "Simsopt.Graph.C12_lineage_bounds",
    "Simsopt.Graph.C12_full_bounds_lineage_violated"
   ],
   "note": "Free-bounds setters proved; full-bounds setters always raise (witness). The unconditional wording is false of the code; the exceptions named in the statement are proved by C12_full_bounds_lineage_violated, C12_full_bounds_setter_violated."
  },
  {
   "property": "C13",
   "status": "proved",
   "theorems": [
    "Simsopt.MakeOpt.C13_call",
    "Simsopt.MakeOpt.C13_initial_call",
    "Simsopt.MakeOpt.C13_wrong_count_rejected",
    "Simsopt.MakeOpt.C13_wrong_mark_rejected",
    "Simsopt.MakeOpt.C13_created",
    "Simsopt.MakeOpt.C13_parent_edit_violated"
   ],
   "note": "All argument, keyword and mark lists, any later history that does not edit the object's own parents or replace its DOFs object; no hypothesis on names. C13_parent_edit_violated: add_parent on the object shifts the optimizable arguments. What func does is not modelled."
  },
  {
   "property": "C14",
   "status": "proved",
   "theorems": [
    "Simsopt.Deriv.C14_gradient_defined",
    "Simsopt.Deriv.C14_add",
    "Simsopt.Deriv.C14_sub",
    "Simsopt.Deriv.C14_iadd",
    "Simsopt.Deriv.C14_isub",
    "Simsopt.Deriv.C14_mul",
    "Simsopt.Deriv.C14_add_comm",
    "Simsopt.Deriv.C14_sum",
    "Simsopt.Deriv.C14_missing_is_zero"
   ],
   "note": "Over an arbitrary commutative ring; in-place forms included."
  },
  {
   "property": "C15",
   "status": "proved",
   "theorems": [
    "Simsopt.Deriv.C15_no_shared_arrays",
    "Simsopt.Deriv.C15_operators_pure",
    "Simsopt.Deriv.C15_inplace_changes_only_left",
    "Simsopt.Deriv.C15_call_is_read_only",
    "Simsopt.Deriv.C15_as_derivative_aliases_violated",
    "Simsopt.Deriv.C15_sum_singleton_violated"
   ],
   "note": "The stated claim is proved for all histories. Two neighbouring operations that do alias (as_derivative=True, one-element sum) are exhibited as witnesses."
  },
  {
   "property": "C16",
   "status": "proved",
   "theorems": [
    "Simsopt.Deriv.C16_gradient_aligned",
    "Simsopt.Deriv.C16_gradient_length",
    "Simsopt.Deriv.C16_all_fixed_raises",
    "Simsopt.Deriv.C16_all_fixed_violated"
   ],
   "note": "Linked to the graph model: blocks are read off any reachable store. The all-fixed case raises (witness)."
  },
  {
   "property": "C17",
   "status": "proved",
   "theorems": [
    "Simsopt.Objectives.C17_add_value",
    "Simsopt.Objectives.C17_mul_value",
    "Simsopt.Objectives.C17_weight_update",
    "Simsopt.Objectives.C17_sum_value",
    "Simsopt.Objectives.C17_add_gradient",
    "Simsopt.Objectives.C17_mul_gradient",
    "Simsopt.Objectives.C17_gradient",
    "Simsopt.Objectives.C17_gradient_assignments",
    "Simsopt.Objectives.C17_empty_sum_violated"
   ],
   "note": "Values and gradients for every expression tree over reachable stores; dJ() is the exact gradient of J with respect to x. C17_empty_sum_violated: sum of an empty list has no J. The unconditional wording is false of the code; the exceptions named in the statement are proved by C17_empty_sum_violated."
  },
  {
   "property": "C18",
   "status": "proved",
   "theorems": [
    "Simsopt.Objectives.C18_zero_iff_feasible",
    "Simsopt.Objectives.C18_bad_option",
    "Simsopt.Objectives.C18_factor_is_derivative",
    "Simsopt.Objectives.C18_gradient"
   ],
   "note": "Proved over the reals for every differentiable inner objective."
  },
  {
   "property": "C19",
   "status": "proved",
   "theorems": [
    "Simsopt.Objectives.C19_value_split",
    "Simsopt.Objectives.C19_value",
    "Simsopt.Objectives.C19_value_serial",
    "Simsopt.Objectives.C19_gradient",
    "Simsopt.Objectives.C19_idle_process_violated",
    "Simsopt.Objectives.C19_key_order_violated"
   ],
   "note": "Value proved for every split. Gradient proved when every rank has at least one objective and all ranks see the dofs in the same key order; _violated theorems show both conditions are needed (the first also by the claim itself). The unconditional wording is false of the code; the exceptions named in the statement are proved by C19_idle_process_violated, C19_key_order_violated."
  },
  {
   "property": "C20",
   "status": "proved",
   "theorems": [
    "Simsopt.Util.C20_consecutive",
    "Simsopt.Util.C20_exact_cover",
    "Simsopt.Util.C20_balanced",
    "Simsopt.Util.C20_no_comm"
   ],
   "note": ""
  },
  {
   "property": "C21",
   "status": "proved",
   "theorems": [
    "Simsopt.Util.C21_clamp",
    "Simsopt.Util.C21_groups",
    "Simsopt.Util.C21_balanced",
    "Simsopt.Util.C21_leader_is_lowest",
    "Simsopt.Util.C21_leaders"
   ],
   "note": ""
  },
  {
   "property": "C22",
   "status": "proved",
   "theorems": [
    "Simsopt.Util.C22_steps",
    "Simsopt.Util.C22_rejects",
    "Simsopt.Util.C22_abs_step_suffices"
   ],
   "note": ""
  },
  {
   "property": "C23",
   "status": "proved",
   "theorems": [
    "Simsopt.FD.C23_forward",
    "Simsopt.FD.C23_centered",
    "Simsopt.FD.C23_forward_exact",
    "Simsopt.FD.C23_centered_exact",
    "Simsopt.FD.C23_exception_violated",
    "Simsopt.FD.C23_sticky_point_violated",
    "Simsopt.FD.C23_integer_point_violated",
    "Simsopt.FD.C23_stale_size_violated"
   ],
   "note": "Columns, evaluation points, exactness and restoration of x proved for float points and a size consistent with the object. _violated theorems: exception leaves x moved; later jac() without argument uses the previous point; integer arrays truncate the step; remembered Jacobian size. The unconditional wording is false of the code; the exceptions named in the statement are proved by C23_exception_violated, C23_integer_point_violated, C23_stale_size_violated, C23_sticky_point_violated."
  },
  {
   "property": "C24",
   "status": "proved",
   "theorems": [
    "Simsopt.FD.C24_equals_serial",
    "Simsopt.FD.C24_leader_only",
    "Simsopt.FD.C24_worker_fixed_dofs_violated"
   ],
   "note": "Equality with the serial Jacobian for every partition when workers agree on the fixed dofs (or the function only uses the leader). C24_worker_fixed_dofs_violated: workers are not sent fixed dofs. The unconditional wording is false of the code; the exceptions named in the statement are proved by C24_worker_fixed_dofs_violated."
  },
  {
   "property": "C25",
   "status": "proved",
   "theorems": [
    "Simsopt.Mpi.C25_protocol",
    "Simsopt.Mpi.C25_terminates",
    "Simsopt.Mpi.C25_completes",
    "Simsopt.Mpi.C25_no_dofs_centered_violated",
    "Simsopt.Mpi.C25_exception_in_jac_violated",
    "Simsopt.Mpi.C25_exception_outside_try_violated"
   ],
   "note": "Deadlock/mismatch freedom, termination, one STOP per process and the assignment of points proved for all partitions and all sequences of normal evaluations. _violated: centered scheme without free dofs; exceptions on proc 0 inside a Jacobian or outside the try block. Exceptions on other leaders are not modelled as reachable actions (the leader then leaves the loop). The unconditional wording is false of the code; the exceptions named in the statement are proved by C25_exception_in_jac_violated, C25_exception_outside_try_violated, C25_no_dofs_centered_violated."
  },
  {
   "property": "C26",
   "status": "proved",
   "theorems": [
    "Simsopt.LSq.C26_objective_is_weighted_squares",
    "Simsopt.LSq.C26_objective_returns",
    "Simsopt.LSq.C26_objective_is_residuals_squared",
    "Simsopt.LSq.C26_objective_nonneg",
    "Simsopt.LSq.C26_negative_weight_rejected",
    "Simsopt.LSq.C26_residuals_squared_on_failure"
   ],
   "note": "For every history of one problem interleaved with arbitrary graph operations; sqrt is any function with sqrt(a)^2 = a on nonnegative numbers, arithmetic exact."
  },
  {
   "property": "C27",
   "status": "proved",
   "theorems": [
    "Simsopt.LSq.C27_funcs_in_are_evaluated",
    "Simsopt.LSq.C27_unweighted_residuals_fresh",
    "Simsopt.LSq.C27_unweighted_residuals_returns",
    "Simsopt.LSq.C27_argument_is_assignment",
    "Simsopt.LSq.C27_detached_violated"
   ],
   "note": "Soundness and completeness proved for every history in which the problem stays attached to the owners of its functions; C27_detached_violated shows staleness after remove_parent. Extra evaluation arguments (*args) are not modelled. The unconditional wording is false of the code; the exceptions named in the statement are proved by C27_detached_violated."
  },
  {
   "property": "C28",
   "status": "proved",
   "theorems": [
    "Simsopt.LSq.C28_failure_vector",
    "Simsopt.LSq.C28_failure_length",
    "Simsopt.LSq.C28_failure_propagates",
    "Simsopt.LSq.C28_length_violated"
   ],
   "note": "Failure value and propagation proved; length proved when the first evaluation does not fail; otherwise violated (witness). The unconditional wording is false of the code; the exceptions named in the statement are proved by C28_length_violated."
  },
  {
   "property": "C29",
   "status": "proved",
   "theorems": [
    "Simsopt.LSq.C29_from_sigma",
    "Simsopt.LSq.C29_zero_sigma_rejected"
   ],
   "note": ""
  },
  {
   "property": "C30",
   "status": "proved",
   "theorems": [
    "Simsopt.LSq.C30_funcs_in_blocks",
    "Simsopt.LSq.C30_sum_blocks",
    "Simsopt.LSq.C30_sum_objective",
    "Simsopt.LSq.C30_interleaved_violated",
    "Simsopt.LSq.C30_repeated_parent_violated",
    "Simsopt.LSq.C30_fail_none_violated"
   ],
   "note": "Proved when functions are listed one block per owner; witnesses for interleaved functions, nested sums with a repeated parent, and fail=None. The unconditional wording is false of the code; the exceptions named in the statement are proved by C30_fail_none_violated, C30_interleaved_violated, C30_repeated_parent_violated."
  },
  {
   "property": "C31",
   "status": "proved",
   "theorems": [
    "Simsopt.Constrained.C31_nonpositive_iff_feasible",
    "Simsopt.Constrained.C31_all_infinite_violated"
   ],
   "note": "Proved for lower bounds in R or -inf and upper bounds in R or +inf, scalar or array, over any ordered field. C31_all_infinite_violated: if no bound is finite the evaluation raises ValueError instead of returning an empty vector. The unconditional wording is false of the code; the exceptions named in the statement are proved by C31_all_infinite_violated."
  },
  {
   "property": "C32",
   "status": "proved",
   "theorems": [
    "Simsopt.Constrained.C32_failure_length_violated",
    "Simsopt.Constrained.C32_objective_fresh",
    "Simsopt.Constrained.C32_objective_returns",
    "Simsopt.Constrained.C32_constraints_fresh",
    "Simsopt.Constrained.C32_constraints_returns",
    "Simsopt.Constrained.C32_all_funcs_fresh",
    "Simsopt.Constrained.C32_no_constraints"
   ],
   "note": "Soundness of objective, nonlinear_constraints and all_funcs for every history; completeness of the first two. C32_failure_length_violated: the failure vector can have the wrong length. Extra *args and linear constraints are not modelled. The unconditional wording is false of the code; the exceptions named in the statement are proved by C32_failure_length_violated."
  },
  {
   "property": "C33",
   "status": "proved",
   "theorems": [
    "Simsopt.Gson.C33_save_load",
    "Simsopt.Gson.C33_bound_method_violated",
    "Simsopt.Gson.C33_duplicate_names_violated"
   ],
   "note": "Proved for every acyclic graph of uniquely named objects (arbitrary sharing, nested lists, tuples, dicts; tuples load as lists). _violated: bound methods duplicate their object; equal names merge objects. The unconditional wording is false of the code; the exceptions named in the statement are proved by C33_bound_method_violated, C33_duplicate_names_violated."
  },
  {
   "property": "C34",
   "status": "proved",
   "theorems": [
    "Simsopt.Gson.C34_once",
    "Simsopt.Gson.C34_cycle_violated"
   ],
   "note": "Exactly one entry per reachable object and one construction per entry. _violated: cyclic graphs exhaust the stack. The unconditional wording is false of the code; the exceptions named in the statement are proved by C34_cycle_violated."
  },
  {
   "property": "C35",
   "status": "partial",
   "theorems": [
    "Simsopt.Gson.C35_same_module_partial",
    "Simsopt.Gson.C35_other_module_violated",
    "Simsopt.Gson.C35_mixed_violated",
    "Simsopt.Gson.C35_load_violated"
   ],
   "note": "Holds within one module; _violated: redirecting to another module raises KeyError (second lookup uses the new module)."
  },
  {
   "property": "C36",
   "status": "proved",
   "theorems": [
    "Simsopt.Coils.C36_count",
    "Simsopt.Coils.C36_base_first",
    "Simsopt.Coils.C36_copies",
    "Simsopt.Coils.C36_rotation_invariant",
    "Simsopt.Coils.C36_mirror_invariant"
   ],
   "note": "Proved over the reals for every base coil set, nfp and stellsym."
  },
  {
   "property": "C37",
   "status": "proved",
   "theorems": [
    "Simsopt.Coils.C37_values",
    "Simsopt.Coils.C37_sum_value",
    "Simsopt.Coils.C37_vjp",
    "Simsopt.Coils.C37_div_zero"
   ],
   "note": "Proved for all current expressions."
  },
  {
   "property": "C38",
   "status": "proved",
   "theorems": [
    "Simsopt.Makegrid.C38_round_trip",
    "Simsopt.Makegrid.C38_blank_in_group_violated"
   ],
   "note": "Round trip of names, groups and points for every coil list whose group names contain no blank; the blank case violates it (witness). The unconditional wording is false of the code; the exceptions named in the statement are proved by C38_blank_in_group_violated."
  },
  {
   "property": "C39",
   "status": "proved",
   "theorems": [
    "Simsopt.Caches.C39_curve_values",
    "Simsopt.Caches.C39_gamma",
    "Simsopt.Caches.C39_rotated",
    "Simsopt.Caches.C39_planar_jacobian_violated",
    "Simsopt.Caches.C39_replace_dofs_violated"
   ],
   "note": "Every quantity of every modelled curve class (C++ Curve families whose Jacobian cache is persistent only when linear, RotatedCurve) for every history of graph operations and evaluations. _violated: CurvePlanarFourier's persistent dgamma_by_dcoeff is stale; replace_dofs does not refresh. The unconditional wording is false of the code; the exceptions named in the statement are proved by C39_planar_jacobian_violated, C39_replace_dofs_violated."
  },
  {
   "property": "C40",
   "status": "proved",
   "theorems": [
    "Simsopt.Caches.C40_field_values",
    "Simsopt.Caches.C40_after_set_points",
    "Simsopt.Caches.C40_dB_by_dcoilcurrents",
    "Simsopt.Caches.C40_all_fixed_violated",
    "Simsopt.Caches.C40_component_points_violated",
    "Simsopt.Caches.C40_dA_by_dcoilcurrents_violated",
    "Simsopt.Caches.C40_raise_violated"
   ],
   "note": "BiotSavart, field sums and multiples, for every history of set_points, graph operations and non-raising evaluations when at least one dof of the field is free at each change and components' points are set through the sum. _violated witnesses for the four other cases. set_points_cyl not modelled. The unconditional wording is false of the code; the exceptions named in the statement are proved by C40_all_fixed_violated, C40_component_points_violated, C40_dA_by_dcoilcurrents_violated, C40_raise_violated."
  },
  {
   "property": "C41",
   "status": "proved",
   "theorems": [
    "Simsopt.Descriptor.C41_validate_iff",
    "Simsopt.Descriptor.C41_assign",
    "Simsopt.Descriptor.C41_history",
    "Simsopt.Descriptor.C41_positive_accepts_zero_violated",
    "Simsopt.Descriptor.C41_nan_violated"
   ],
   "note": "validate characterised exactly for every class; histories of assignments. _violated: PositiveInteger/PositiveFloat accept 0 although documented as positive; NaN passes every range. The unconditional wording is false of the code; the exceptions named in the statement are proved by C41_nan_violated, C41_positive_accepts_zero_violated."
  },
  {
   "property": "C42",
   "status": "proved",
   "theorems": [
    "Simsopt.Graph.C42_mirror_in_sync",
    "Simsopt.Graph.C42_replace_dofs_violated"
   ],
   "note": "Proved for histories without replace_dofs on objects with an external setter; witness for the failure. The unconditional wording is false of the code; the exceptions named in the statement are proved by C42_replace_dofs_violated."
  },
  {
   "property": "C43",
   "status": "proved",
   "theorems": [
    "Simsopt.Graph.C43_full_x",
    "Simsopt.Graph.C43_full_x_round_trip",
    "Simsopt.Graph.C43_overlong_violated",
    "Simsopt.Graph.C43_short_partial_update_violated"
   ],
   "note": "Right-length case proved; wrong lengths violate it (two witnesses). The unconditional wording is false of the code; the exceptions named in the statement are proved by C43_overlong_violated, C43_short_partial_update_violated."
  },
  {
   "property": "C44",
   "status": "proved",
   "theorems": [
    "Simsopt.Graph.C44_fix_all",
    "Simsopt.Graph.C44_full_fix",
    "Simsopt.Graph.C44_broadcast_violated"
   ],
   "note": "Right-length flag arrays proved; a one-entry array is broadcast (witness). The unconditional wording is false of the code; the exceptions named in the statement are proved by C44_broadcast_violated."
  },
  {
   "property": "C45",
   "status": "proved",
   "theorems": [
    "Simsopt.Util.C45_unique",
    "Simsopt.Util.C45_nested_lists"
   ],
   "note": ""
  },
  {
   "property": "C46",
   "status": "proved",
   "theorems": [
    "Simsopt.FD.C46_cache_transparent",
    "Simsopt.FD.C46_in_place_violated",
    "Simsopt.FD.C46_no_argument_violated",
    "Simsopt.FD.C46_fixed_dof_violated"
   ],
   "note": "Transparent for explicit, unmodified arrays and a Jacobian depending on x only; three _violated witnesses for the other histories. The unconditional wording is false of the code; the exceptions named in the statement are proved by C46_fixed_dof_violated, C46_in_place_violated, C46_no_argument_violated."
  },
  {
   "property": "C47",
   "status": "proved",
   "theorems": [
    "Simsopt.LSq.C47_callables_selected",
    "Simsopt.LSq.C47_default_is_all",
    "Simsopt.LSq.C47_names_violated"
   ],
   "note": "Callables and the default proved; names accepted by the constructor raise TypeError on evaluation (witness). The unconditional wording is false of the code; the exceptions named in the statement are proved by C47_names_violated."
  },
  {
   "property": "C48",
   "status": "proved",
   "theorems": [
    "Simsopt.LSq.C48_least_squares_length",
    "Simsopt.Constrained.C48_constrained_length",
    "Simsopt.Constrained.C48_constrained_wrong_length_harmless",
    "Simsopt.Constrained.C48_constrained_violated"
   ],
   "note": "Proved for least-squares problems. For constrained problems proved for lengths other than one and dof_size other than one; C48_constrained_violated: a one-element vector equal to all dofs is accepted. The unconditional wording is false of the code; the exceptions named in the statement are proved by C48_constrained_violated."
  },
  {
   "property": "C49",
   "status": "proved",
   "theorems": [
    "Simsopt.Makegrid.C49_fit_exact",
    "Simsopt.Makegrid.C49_file",
    "Simsopt.Makegrid.C49_nyquist_violated",
    "Simsopt.Makegrid.C49_circle_violated"
   ],
   "note": "Exact for N > 2*order samples; violated at N = 2*order (two witnesses). The unconditional wording is false of the code; the exceptions named in the statement are proved by C49_circle_violated, C49_nyquist_violated."
  },
  {
   "property": "C50",
   "status": "proved",
   "theorems": [
    "Simsopt.Coils.C50_field_period",
    "Simsopt.Coils.C50_stellarator_symmetry"
   ],
   "note": "Over the reals, for every base coil set, nfp and stellsym."
  },
  {
   "property": "C51",
   "status": "proved",
   "theorems": [
    "Simsopt.Coils.C51_dB",
    "Simsopt.Coils.C51_ddB",
    "Simsopt.Coils.C51_dA",
    "Simsopt.Coils.C51_ddA",
    "Simsopt.Coils.C51_div_free",
    "Simsopt.Coils.C51_curl_A",
    "Simsopt.Labels.C51_path"
   ],
   "note": "All first and second derivatives of B and A by evaluation point, divergence-free B and curl A = B, over the reals, away from the quadrature points."
  },
  {
   "property": "C52",
   "status": "proved",
   "theorems": [
    "Simsopt.Curves.C52_set_get",
    "Simsopt.Curves.C52_dash",
    "Simsopt.Curves.C52_dcoeff",
    "Simsopt.Curves.C52_names"
   ],
   "note": "All orders, all dofs."
  },
  {
   "property": "C53",
   "status": "proved",
   "theorems": [
    "Simsopt.Geometry.C53_arclength",
    "Simsopt.Geometry.C53_kappa",
    "Simsopt.Geometry.C53_torsion",
    "Simsopt.Geometry.C53_kappadash",
    "Simsopt.Geometry.C53_tangent",
    "Simsopt.Geometry.C53_normal",
    "Simsopt.Geometry.C53_binormal",
    "Simsopt.Geometry.C53_orthonormal",
    "Simsopt.Geometry.C53_kappadash_is_derivative",
    "Simsopt.Geometry.C53_frenet_serret",
    "Simsopt.Geometry.C53_xyzfourier"
   ],
   "note": "For every curve given by differentiable gammadash, ...; instantiated for CurveXYZFourier for every dof (C53_xyzfourier). Hypothesis: gammadash x gammadashdash is not 0, satisfied by circles (circle_nondegenerate)."
  },
  {
   "property": "C54",
   "status": "proved",
   "theorems": [
    "Simsopt.Planar.C54_set_get",
    "Simsopt.Planar.C54_dash",
    "Simsopt.Planar.C54_dcoeff",
    "Simsopt.Planar.C54_rigid",
    "Simsopt.Planar.C54_rodrigues",
    "Simsopt.Planar.C54_quaternion_scale",
    "Simsopt.Planar.C54_series"
   ],
   "note": "All orders and dofs; the hand-written quaternion blocks are transcribed literally. Caching of the Jacobian for these curves is C39."
  },
  {
   "property": "C55",
   "status": "proved",
   "theorems": [
    "Simsopt.RZ.C55_set_get",
    "Simsopt.RZ.C55_dash",
    "Simsopt.RZ.C55_dcoeff",
    "Simsopt.RZ.C55_series",
    "Simsopt.RZ.C55_field_period",
    "Simsopt.RZ.C55_stellsym"
   ],
   "note": "All orders, nfp and both settings of stellsym."
  },
  {
   "property": "C56",
   "status": "proved",
   "theorems": [
    "Simsopt.Symm.C56_names_nodup",
    "Simsopt.Symm.C56_series",
    "Simsopt.Symm.C56_rotation",
    "Simsopt.Symm.C56_closed",
    "Simsopt.Symm.C56_nfp_symmetric",
    "Simsopt.Symm.C56_check",
    "Simsopt.Symm.C56_stellsym"
   ],
   "note": "All orders; ntor any integer. Derivatives are produced by JAX and not modelled."
  },
  {
   "property": "C57",
   "status": "proved",
   "theorems": [
    "Simsopt.Symm.C57_set_get",
    "Simsopt.Symm.C57_series",
    "Simsopt.Symm.C57_on_torus",
    "Simsopt.Symm.C57_rotation",
    "Simsopt.Symm.C57_closed",
    "Simsopt.Symm.C57_null_dof"
   ],
   "note": "All orders. Derivatives are produced by JAX and not modelled."
  },
  {
   "property": "C58",
   "status": "proved",
   "theorems": [
    "Simsopt.Distance.C58_within_collection",
    "Simsopt.Distance.C58_two_collections"
   ],
   "note": "Every schedule (results up to permutation of the pushes); cells are unbounded integers, reals instead of doubles."
  },
  {
   "property": "C59",
   "status": "proved",
   "theorems": [
    "Simsopt.Distance.C59_J_all_pairs",
    "Simsopt.Distance.C59_shortest_general",
    "Simsopt.Distance.C59_shortest",
    "Simsopt.Distance.C59_shortest_returns",
    "Simsopt.Distance.C59_surface_J",
    "Simsopt.Distance.C59_J_zero_iff",
    "Simsopt.Distance.C59_gradient",
    "Simsopt.Distance.C59_num_basecurves_violated",
    "Simsopt.Distance.C59_surface_moved_violated"
   ],
   "note": "CurveCurveDistance: J, its zero set, gradient assembly and shortest_distance proved for every history. C59_num_basecurves_violated: with num_basecurves, shortest_distance ignores closer pairs. C59_surface_moved_violated: CurveSurfaceDistance keeps candidates computed for an old surface; proved for histories in which the surface does not move after candidates are computed. The unconditional wording is false of the code; the exceptions named in the statement are proved by C59_num_basecurves_violated, C59_surface_moved_violated."
  },
  {
   "property": "C60",
   "status": "proved",
   "theorems": [
    "Simsopt.Penalties.C60_length_gradient",
    "Simsopt.Penalties.C60_curvature_gradient",
    "Simsopt.Penalties.C60_torsion_gradient",
    "Simsopt.Penalties.C60_variation_gradient",
    "Simsopt.Penalties.C60_msc_gradient",
    "Simsopt.Penalties.C60_curvature_zero_iff",
    "Simsopt.Penalties.C60_torsion_zero_iff",
    "Simsopt.Penalties.C60_msc_average",
    "Simsopt.Penalties.C60_intervals",
    "Simsopt.Penalties.C60_variation_zero_iff",
    "Simsopt.Penalties.C60_variation_full",
    "Simsopt.Penalties.C60_constant_arclength",
    "Simsopt.Penalties.C60_partial_violated",
    "Simsopt.Penalties.C60_xyzfourier"
   ],
   "note": "The unconditional wording is false of the code; the exceptions named in the statement are proved by C60_partial_violated."
  },
  {
   "property": "C61",
   "status": "proved",
   "theorems": [
    "Simsopt.Rotated.C61_invariants",
    "Simsopt.Rotated.C61_objectives",
    "Simsopt.Rotated.C61_jacobian",
    "Simsopt.Rotated.C61_vjp",
    "Simsopt.Rotated.C61_chain"
   ],
   "note": ""
  },
  {
   "property": "C62",
   "status": "proved",
   "theorems": [
    "Simsopt.Linking.C62_gauss",
    "Simsopt.Linking.C62_order",
    "Simsopt.Linking.C62_nonneg",
    "Simsopt.Linking.C62_rigid",
    "Simsopt.Linking.C62_orientation",
    "Simsopt.Linking.C62_gradient",
    "Simsopt.Linking.C62_downsample"
   ],
   "note": ""
  },
  {
   "property": "C63",
   "status": "proved",
   "theorems": [
    "Simsopt.Vjp.C63_B_vjp",
    "Simsopt.Vjp.C63_dB_vjp",
    "Simsopt.Vjp.C63_A_vjp",
    "Simsopt.Vjp.C63_dA_vjp",
    "Simsopt.Vjp.C63_B_vjp_symmetric"
   ],
   "note": ""
  },
  {
   "property": "C64",
   "status": "proved",
   "theorems": [
    "Simsopt.Flux.C64_value",
    "Simsopt.Flux.C64_nonneg",
    "Simsopt.Flux.C64_zero_iff",
    "Simsopt.Flux.C64_scale",
    "Simsopt.Flux.C64_gradient",
    "Simsopt.Flux.C64_dJ",
    "Simsopt.Flux.C64_quadratic_schedule",
    "Simsopt.Flux.C64_one_thread",
    "Simsopt.Flux.C64_race_violated",
    "Simsopt.Flux.C64_points",
    "Simsopt.Flux.C64_shared_field_violated"
   ],
   "note": "The unconditional wording is false of the code; the exceptions named in the statement are proved by C64_race_violated, C64_shared_field_violated."
  },
  {
   "property": "C65",
   "status": "proved",
   "theorems": [
    "Simsopt.RZSurf.C65_lengths",
    "Simsopt.RZSurf.C65_names_nodup",
    "Simsopt.RZSurf.C65_name_is_coefficient",
    "Simsopt.RZSurf.C65_which_modes",
    "Simsopt.RZSurf.C65_mn",
    "Simsopt.RZSurf.C65_set_get",
    "Simsopt.RZSurf.C65_get_set",
    "Simsopt.RZSurf.C65_setter",
    "Simsopt.RZSurf.C65_setter_refuses",
    "Simsopt.RZSurf.C65_shape_determined",
    "Simsopt.RZSurf.C65_hidden_mode_violated"
   ],
   "note": "Everything proved for histories through the API with modes that have a dof; C65_hidden_mode_violated: setters accept m=0, n<0. The unconditional wording is false of the code; the exceptions named in the statement are proved by C65_hidden_mode_violated."
  },
  {
   "property": "C66",
   "status": "proved",
   "theorems": [
    "Simsopt.RZSurf.C66_first_derivatives",
    "Simsopt.RZSurf.C66_second_derivatives",
    "Simsopt.RZSurf.C66_gamma"
   ],
   "note": ""
  },
  {
   "property": "C67",
   "status": "proved",
   "theorems": [
    "Simsopt.RZSurf.C67_jacobian",
    "Simsopt.RZSurf.C67_jacobian_constant",
    "Simsopt.RZSurf.C67_vjp"
   ],
   "note": ""
  },
  {
   "property": "C68",
   "status": "proved",
   "theorems": [
    "Simsopt.RZSurf.C68_field_period",
    "Simsopt.RZSurf.C68_stellsym"
   ],
   "note": ""
  },
  {
   "property": "C69",
   "status": "proved",
   "theorems": [
    "Simsopt.RZSurf.C69_change_resolution",
    "Simsopt.RZSurf.C69_enlarge",
    "Simsopt.RZSurf.C69_there_and_back",
    "Simsopt.RZSurf.C69_copy",
    "Simsopt.RZSurf.C69_shape_current",
    "Simsopt.RZSurf.C69_jacobian_current",
    "Simsopt.RZSurf.C69_stale_jacobian_violated",
    "Simsopt.RZSurf.C69_overrun_violated"
   ],
   "note": "Shape arrays: every history. Jacobians: histories without change_resolution; C69_stale_jacobian_violated and C69_overrun_violated show the failure with it. The unconditional wording is false of the code; the exceptions named in the statement are proved by C69_overrun_violated, C69_stale_jacobian_violated."
  },
  {
   "property": "C70",
   "status": "proved",
   "theorems": [
    "Simsopt.Surface.C70_normal",
    "Simsopt.Surface.C70_unitnormal",
    "Simsopt.Surface.C70_area",
    "Simsopt.Surface.C70_volume",
    "Simsopt.Surface.C70_second",
    "Simsopt.Surface.C70_second_symmetric",
    "Simsopt.Surface.C70_rzfourier"
   ],
   "note": ""
  },
  {
   "property": "C71",
   "status": "proved",
   "theorems": [
    "Simsopt.Surface.C71_principal",
    "Simsopt.Surface.C71_forms",
    "Simsopt.Surface.C71_curvatures"
   ],
   "note": ""
  },
  {
   "property": "C72",
   "status": "proved",
   "theorems": [
    "Simsopt.Surface.C72_scale",
    "Simsopt.Surface.C72_rzfourier_scale",
    "Simsopt.Surface.C72_mean_area",
    "Simsopt.Surface.C72_minor_radius",
    "Simsopt.Surface.C72_major_radius",
    "Simsopt.Surface.C72_aspect_ratio",
    "Simsopt.Surface.C72_torus"
   ],
   "note": "Derivative theorems assume the quadrature points off the axis, a toroidal parametrisation and nonzero signed area/volume (where |.| is not differentiable otherwise); C72_torus shows these hold for every circular torus and grid."
  },
  {
   "property": "C73",
   "status": "proved",
   "theorems": [
    "Simsopt.Surface.C73_theta",
    "Simsopt.Surface.C73_phi",
    "Simsopt.Surface.C73_phi_range",
    "Simsopt.Surface.C73_half_period_single_violated",
    "Simsopt.Surface.C73_deduced_range",
    "Simsopt.Surface.C73_deduced_single_violated",
    "Simsopt.Surface.C73_field_period_mean",
    "Simsopt.Surface.C73_half_period_mean",
    "Simsopt.Surface.C73_integrals"
   ],
   "note": "Violated only for single-point grids. The unconditional wording is false of the code; the exceptions named in the statement are proved by C73_deduced_single_violated, C73_half_period_single_violated."
  },
  {
   "property": "C74",
   "status": "proved",
   "theorems": [
    "Simsopt.Surface.C74_wrap",
    "Simsopt.Surface.C74_bisection_ends",
    "Simsopt.Surface.C74_bisection_root"
   ],
   "note": "The sampling step that produces the brackets is not modelled; the accuracy theorem assumes a bracket."
  },
  {
   "property": "C75",
   "status": "proved",
   "theorems": [
    "Simsopt.Surface.C75_arclength",
    "Simsopt.Surface.C75_increasing"
   ],
   "note": ""
  },
  {
   "property": "C76",
   "status": "proved",
   "theorems": [
    "Simsopt.Magnets.C76_feasible",
    "Simsopt.Magnets.C76_descent",
    "Simsopt.Magnets.C76_improves",
    "Simsopt.Magnets.C76_fixed_optimal",
    "Simsopt.Magnets.C76_step_size",
    "Simsopt.Magnets.C76_feasible_violated",
    "Simsopt.Magnets.C76_step_size_violated"
   ],
   "note": "Feasibility assumes no search direction component with 0 < |p| <= 1e-10 (C76_feasible_violated shows the failure); descent assumes the rescaled step size. The unconditional wording is false of the code; the exceptions named in the statement are proved by C76_feasible_violated, C76_step_size_violated."
  },
  {
   "property": "C77",
   "status": "proved",
   "theorems": [
    "Simsopt.Magnets.C77_prox_l1",
    "Simsopt.Magnets.C77_prox_l0",
    "Simsopt.Magnets.C77_prox_shrinks",
    "Simsopt.Magnets.C77_history_fits",
    "Simsopt.Magnets.C77_history_overflow_violated",
    "Simsopt.Magnets.C77_history_mwpgp",
    "Simsopt.Magnets.C77_modulo_zero_violated",
    "Simsopt.Magnets.C77_feasible_accepted",
    "Simsopt.Magnets.C77_accepted_nearly_feasible",
    "Simsopt.Magnets.C77_infeasible_accepted_violated"
   ],
   "note": "The unconditional wording is false of the code; the exceptions named in the statement are proved by C77_history_overflow_violated, C77_infeasible_accepted_violated, C77_modulo_zero_violated."
  },
  {
   "property": "C78",
   "status": "proved",
   "theorems": [
    "Simsopt.Magnets.C78_baseline",
    "Simsopt.Magnets.C78_baseline_greedy",
    "Simsopt.Magnets.C78_arbvec",
    "Simsopt.Magnets.C78_arbvec_greedy",
    "Simsopt.Magnets.C78_arbvec_penalty_violated"
   ],
   "note": "Assumes that all values stay below the marker 1e50 of the code. The unconditional wording is false of the code; the exceptions named in the statement are proved by C78_arbvec_penalty_violated."
  },
  {
   "property": "C79",
   "status": "proved",
   "theorems": [
    "Simsopt.Magnets.C79_nearest",
    "Simsopt.Magnets.C79_self",
    "Simsopt.Magnets.C79_beyond_violated"
   ],
   "note": "Distances below the marker 1e10 of the code. The unconditional wording is false of the code; the exceptions named in the statement are proved by C79_beyond_violated."
  },
  {
   "property": "C80",
   "status": "proved",
   "theorems": [
    "Simsopt.Magnets.C80_backtracking",
    "Simsopt.Magnets.C80_stops",
    "Simsopt.Magnets.C80_no_opposite",
    "Simsopt.Magnets.C80_no_opposite_symmetric",
    "Simsopt.Magnets.C80_stagnation_violated",
    "Simsopt.Magnets.C80_history_overflow_violated",
    "Simsopt.Magnets.C80_opposite_remains_violated"
   ],
   "note": "Assumes that all values stay below the marker 1e50 of the code. The unconditional wording is false of the code; the exceptions named in the statement are proved by C80_history_overflow_violated, C80_opposite_remains_violated, C80_stagnation_violated."
  },
  {
   "property": "C81",
   "status": "proved",
   "theorems": [
    "Simsopt.Magnets.C81_initial",
    "Simsopt.Magnets.C81_arbvec_backtracking",
    "Simsopt.Magnets.C81_angles",
    "Simsopt.Magnets.C81_limit_violated",
    "Simsopt.Magnets.C81_zero_threshold_violated",
    "Simsopt.Magnets.C81_full_guess_violated"
   ],
   "note": "Assumes that all values stay below the marker 1e50 of the code. The unconditional wording is false of the code; the exceptions named in the statement are proved by C81_full_guess_violated, C81_limit_violated, C81_zero_threshold_violated."
  },
  {
   "property": "C82",
   "status": "proved",
   "theorems": [
    "Simsopt.Magnets.C82_multi",
    "Simsopt.Magnets.C82_group",
    "Simsopt.Magnets.C82_exhausted_violated",
    "Simsopt.Magnets.C82_joint_violated"
   ],
   "note": "At most 2000 dipoles (the width of the neighbour table). The unconditional wording is false of the code; the exceptions named in the statement are proved by C82_exhausted_violated, C82_joint_violated."
  },
  {
   "property": "C83",
   "status": "proved",
   "theorems": [
    "Simsopt.Wireframe.C83_segments",
    "Simsopt.Wireframe.C83_connected",
    "Simsopt.Wireframe.C83_neighbors",
    "Simsopt.Wireframe.C83_toroidal_current",
    "Simsopt.Wireframe.C83_poloidal_current",
    "Simsopt.Wireframe.C83_unfold",
    "Simsopt.Wireframe.C83_loop",
    "Simsopt.Wireframe.C83_loop_continuous",
    "Simsopt.Wireframe.C83_continuity"
   ],
   "note": ""
  },
  {
   "property": "C84",
   "status": "proved",
   "theorems": [
    "Simsopt.Wireframe.C84_free_cells",
    "Simsopt.Wireframe.C84_check",
    "Simsopt.Wireframe.C84_terminates",
    "Simsopt.Wireframe.C84_closure",
    "Simsopt.Wireframe.C84_sound",
    "Simsopt.Wireframe.C84_matrices"
   ],
   "note": ""
  },
  {
   "property": "C85",
   "status": "partial",
   "theorems": [
    "Simsopt.Wireframe.C85_set_constrained",
    "Simsopt.Wireframe.C85_set_free",
    "Simsopt.Wireframe.C85_add_partial",
    "Simsopt.Wireframe.C85_remove",
    "Simsopt.Wireframe.C85_add_implied_violated",
    "Simsopt.Wireframe.C85_free_implied_violated",
    "Simsopt.Wireframe.C85_free_all",
    "Simsopt.Wireframe.C85_others"
   ],
   "note": "add_segment_constraints fails on implicitly constrained segments and set_segments_free does not free them (both proved); the other calls are proved."
  },
  {
   "property": "C86",
   "status": "partial",
   "theorems": [
    "Simsopt.Wireframe.C86_sound_partial",
    "Simsopt.Wireframe.C86_symmetry_plane_violated"
   ],
   "note": "Violated for loops through the fixed points of the symmetry (proved); only the inclusion of the solutions is proved in general."
  },
  {
   "property": "C87",
   "status": "proved",
   "theorems": [
    "Simsopt.Wireframe.C87_history"
   ],
   "note": "Full claim, over real arithmetic."
  },
  {
   "property": "C88",
   "status": "proved",
   "theorems": [
    "Simsopt.Wireframe.C88_user_violated",
    "Simsopt.Wireframe.C88_constraints",
    "Simsopt.Wireframe.C88_meets"
   ],
   "note": "All built-in constraints; the user's own constraints are ignored by the code (negative theorem). The unconditional wording is false of the code; the exceptions named in the statement are proved by C88_user_violated."
  },
  {
   "property": "C89",
   "status": "proved",
   "theorems": [
    "Simsopt.Wireframe.C89_max_current",
    "Simsopt.Wireframe.C89_max_count",
    "Simsopt.Wireframe.C89_steps",
    "Simsopt.Wireframe.C89_no_crossing"
   ],
   "note": "Full claim."
  },
  {
   "property": "C90",
   "status": "partial",
   "theorems": [
    "Simsopt.Wireframe.C90_greedy",
    "Simsopt.Wireframe.C90_stop_partial",
    "Simsopt.Wireframe.C90_worse_violated",
    "Simsopt.Wireframe.C90_undo_violated"
   ],
   "note": "Greedy choice in full; local minimum at early stops without match_current; negative theorems for the two ways in which the result can be worse."
  },
  {
   "property": "C91",
   "status": "proved",
   "theorems": [
    "Simsopt.Rcls.C91_exists",
    "Simsopt.Rcls.C91_full_rank",
    "Simsopt.Rcls.C91_rcls",
    "Simsopt.Rcls.C91_unique"
   ],
   "note": "Real arithmetic; scipy's routines by contract."
  },
  {
   "property": "C92",
   "status": "proved",
   "theorems": [
    "Simsopt.Rcls.C92_matrix_violated",
    "Simsopt.Rcls.C92_diagonal",
    "Simsopt.Rcls.C92_minimum"
   ],
   "note": "assume_no_crossings=False; 2d reg_W violates the documentation. The unconditional wording is false of the code; the exceptions named in the statement are proved by C92_matrix_violated."
  },
  {
   "property": "C93",
   "status": "proved",
   "theorems": [
    "Simsopt.Rcls.C93_island",
    "Simsopt.Rcls.C93_independent",
    "Simsopt.Rcls.C93_returns"
   ],
   "note": "Full rank proved for wireframes without constrained segments and user constraints; islands make it fail. Other patterns of constrained segments are not characterised."
  },
  {
   "property": "C94",
   "status": "proved",
   "theorems": [
    "Simsopt.Mhd.C94_profiles",
    "Simsopt.Mhd.C94_resample"
   ],
   "note": ""
  },
  {
   "property": "C95",
   "status": "proved",
   "theorems": [
    "Simsopt.Mhd.C95_dfds_interior",
    "Simsopt.Mhd.C95_ends_violated"
   ],
   "note": "The values and the interior interfaces are proved; the ends of the documented range of dfds are wrong in the code. The unconditional wording is false of the code; the exceptions named in the statement are proved by C95_ends_violated."
  },
  {
   "property": "C96",
   "status": "partial",
   "theorems": [
    "Simsopt.Vmec.C96_current_partial",
    "Simsopt.Vmec.C96_answers_partial",
    "Simsopt.Vmec.C96_cached",
    "Simsopt.Vmec.C96_output_file",
    "Simsopt.Vmec.C96_output_file_readable",
    "Simsopt.Vmec.C96_removed_violated",
    "Simsopt.Vmec.C96_shared_profile_violated",
    "Simsopt.Vmec.C96_two_objects_violated",
    "Simsopt.Vmec.C96_points_violated",
    "Simsopt.Vmec.C96_asymmetric_violated",
    "Simsopt.Vmec.C96_cap_violated"
   ],
   "note": "Proved for careful histories (one object from an input file, no profile removed or used twice, unchanged number of fit points while in use, stellarator symmetry, at most 101 modes); each of these restrictions is shown to be necessary. The solver and the fits are parameters; MPI, files and direct writes to vmec.indata are not modelled."
  },
  {
   "property": "C97",
   "status": "proved",
   "theorems": [
    "Simsopt.Boozer.C97_lookup",
    "Simsopt.Boozer.C97_no_repeats",
    "Simsopt.Boozer.C97_registered",
    "Simsopt.Boozer.C97_clear_violated",
    "Simsopt.Boozer.C97_resolution_violated"
   ],
   "note": "Proved for histories that leave mpol and ntor alone; the two documented actions that do not work are shown as violations. The unconditional wording is false of the code; the exceptions named in the statement are proved by C97_clear_violated, C97_resolution_violated."
  },
  {
   "property": "C98",
   "status": "proved",
   "theorems": [
    "Simsopt.Quasi.C98_zero_iff",
    "Simsopt.Quasi.C98_entries",
    "Simsopt.Quasi.C98_sign_violated",
    "Simsopt.Quasi.C98_asymmetric_violated"
   ],
   "note": "Proved for stellarator symmetry and with the sign of helicity_n that the code uses; both restrictions are shown to be necessary. The unconditional wording is false of the code; the exceptions named in the statement are proved by C98_asymmetric_violated, C98_sign_violated."
  },
  {
   "property": "C99",
   "status": "partial",
   "theorems": [
    "Simsopt.Fields.C99_poloidal_field",
    "Simsopt.Fields.C99_poloidal_dB_partial",
    "Simsopt.Fields.C99_poloidal_dB_violated",
    "Simsopt.Fields.C99_mirror_field",
    "Simsopt.Fields.C99_mirror_dB",
    "Simsopt.Fields.C99_toroidal_field",
    "Simsopt.Fields.C99_toroidal_dB",
    "Simsopt.Fields.C99_toroidal_vacuum",
    "Simsopt.Fields.C99_toroidal_A",
    "Simsopt.Fields.C99_toroidal_dA_partial",
    "Simsopt.Fields.C99_toroidal_dA_violated",
    "Simsopt.Fields.C99_toroidal_d2B_partial",
    "Simsopt.Fields.C99_toroidal_d2B_violated",
    "Simsopt.Fields.C99_toroidal_d2A_violated"
   ],
   "note": "MirrorModel and B, dB, A of ToroidalField fully; the other arrays of derivatives are refuted, with what they are instead"
  },
  {
   "property": "C100",
   "status": "partial",
   "theorems": [
    "Simsopt.Fields.C100_A_repaired",
    "Simsopt.Fields.C100_A_violated",
    "Simsopt.Fields.C100_rotation",
    "Simsopt.Fields.C100_normal",
    "Simsopt.Fields.C100_current",
    "Simsopt.Fields.C100_axis",
    "Simsopt.Fields.C100_dB_partial",
    "Simsopt.Fields.C100_regularization",
    "Simsopt.Fields.C100_dB_violated"
   ],
   "note": "axis field, rotation, current fully; dB proved without the constants 1e-31 for x ≠ 0 and refuted at x = 0; A refuted"
  },
  {
   "property": "C101",
   "status": "proved",
   "theorems": [
    "Simsopt.Fields.C101_dB",
    "Simsopt.Fields.C101_divergence_free",
    "Simsopt.Fields.C101_unperturbed",
    "Simsopt.Fields.C101_toroidal_component",
    "Simsopt.Fields.C101_toroidal_symmetry",
    "Simsopt.Fields.C101_stellarator_symmetry"
   ],
   "note": ""
  },
  {
   "property": "C102",
   "status": "proved",
   "theorems": [
    "Simsopt.Fields.C102_dB",
    "Simsopt.Fields.C102_dA_transposed",
    "Simsopt.Fields.C102_vacuum",
    "Simsopt.Fields.C102_A",
    "Simsopt.Fields.C102_dA_violated"
   ],
   "note": "dB, vacuum and curl A = B proved; dA_by_dX is proved to be the transpose of the documented array (C102_dA_transposed, C102_dA_violated). The unconditional wording is false of the code; the exceptions named in the statement are proved by C102_dA_violated."
  },
  {
   "property": "C103",
   "status": "proved",
   "theorems": [
    "Simsopt.Fields.C103_matrix",
    "Simsopt.Fields.C103_field_periods",
    "Simsopt.Fields.C103_stellarator_symmetry",
    "Simsopt.Fields.C103_copies"
   ],
   "note": ""
  },
  {
   "property": "C104",
   "status": "proved",
   "theorems": [
    "Simsopt.Fields.Dom.C104_gradient",
    "Simsopt.Fields.Dom.C104_dB",
    "Simsopt.Fields.Dom.C104_vacuum",
    "Simsopt.Fields.Dom.C104_stellarator_symmetry",
    "Simsopt.Fields.Dom.C104_field_periods"
   ],
   "note": "Over the reals; m ≥ 2, n ≥ 0 (the program returns NaN for m = 0, and for the derivatives with m = 1)."
  },
  {
   "property": "C105",
   "status": "partial",
   "theorems": [
    "Simsopt.Fields.Dom.Race.C105_one_thread_B_partial",
    "Simsopt.Fields.Dom.Race.C105_one_thread_dB_partial",
    "Simsopt.Fields.Dom.Race.C105_race_violated",
    "Simsopt.Fields.Dom.Race.C105_wrong_field_violated"
   ],
   "note": "Violated with two threads (shared variables in an OpenMP loop); proved for one thread."
  },
  {
   "property": "C106",
   "status": "proved",
   "theorems": [
    "Simsopt.Fields.Derived.C106_cartesian_to_cylindrical",
    "Simsopt.Fields.Derived.C106_cylindrical_to_cartesian",
    "Simsopt.Fields.Derived.C106_cylindrical_readback",
    "Simsopt.Fields.Derived.C106_cylindrical_reduced",
    "Simsopt.Fields.Derived.C106_angle_depends_on_setter",
    "Simsopt.Fields.Derived.C106_cylindrical_components",
    "Simsopt.Fields.Derived.C106_setter_independent",
    "Simsopt.Fields.Derived.C106_gradient_of_modulus",
    "Simsopt.Fields.Derived.C106_gradient_cylindrical"
   ],
   "note": "get_points_cyl returns a negative angle when one was set with set_points_cyl and an angle in [0,2π) otherwise (C106_angle_depends_on_setter): the documentation names no range. On the axis the components depend on the angle held."
  },
  {
   "property": "C107",
   "status": "proved",
   "theorems": [
    "Simsopt.Fields.Algebra.C107_consistency",
    "Simsopt.Fields.Algebra.C107_linear",
    "Simsopt.Fields.Algebra.C107_vjp"
   ],
   "note": "MagneticFieldMultiply has no B_vjp: a multiple with free dofs inside a sum makes sumVjp none."
  },
  {
   "property": "C108",
   "status": "proved",
   "theorems": [
    "Simsopt.Fields.Potential.C108_gradient",
    "Simsopt.Fields.Potential.C108_jacobian",
    "Simsopt.Fields.Potential.C108_vacuum",
    "Simsopt.Fields.Potential.C108_example"
   ],
   "note": "The half plane phi=π, where arctan2 jumps, is excluded."
  },
  {
   "property": "C109",
   "status": "proved",
   "theorems": [
    "Simsopt.Interp.C109_interpolation",
    "Simsopt.Interp.C109_polynomials",
    "Simsopt.Interp.C109_nodes",
    "Simsopt.Interp.C109_rules",
    "Simsopt.Interp.C109_continuous"
   ],
   "note": ""
  },
  {
   "property": "C110",
   "status": "partial",
   "theorems": [
    "Simsopt.Interp.C110_error_iff",
    "Simsopt.Interp.C110_skipped",
    "Simsopt.Interp.C110_wraps",
    "Simsopt.Interp.C110_below_violated",
    "Simsopt.Interp.C110_extrapolate_violated",
    "Simsopt.Interp.C110_undefined"
   ],
   "note": "The documented behaviour outside the domain is violated in two ways, proved by witnesses; the exact behaviour is characterised."
  },
  {
   "property": "C111",
   "status": "proved",
   "theorems": [
    "Simsopt.Interp.C111_fundamental_domain",
    "Simsopt.Interp.C111_negative_angle_violated",
    "Simsopt.Interp.C111_field",
    "Simsopt.Interp.C111_gradient",
    "Simsopt.Interp.C111_periodic",
    "Simsopt.Interp.C111_stellarator"
   ],
   "note": "Holds; the documented range of the mapped angle fails for negative angles, proved by a witness. The unconditional wording is false of the code; the exceptions named in the statement are proved by C111_negative_angle_violated."
  },
  {
   "property": "C112",
   "status": "proved",
   "theorems": [
    "Simsopt.Interp.C112_known_points",
    "Simsopt.Interp.C112_underlying_points_kept",
    "Simsopt.Interp.C112_estimate_moves_points_violated",
    "Simsopt.Interp.C112_leftovers_violated",
    "Simsopt.Interp.C112_underlying_changed_violated",
    "Simsopt.Interp.C112_raises"
   ],
   "note": "Proved for points in known cells over every history; three violations proved by witnesses. The unconditional wording is false of the code; the exceptions named in the statement are proved by C112_estimate_moves_points_violated, C112_leftovers_violated, C112_underlying_changed_violated."
  },
  {
   "property": "C113",
   "status": "proved",
   "theorems": [
    "Simsopt.BSurf.C113_value",
    "Simsopt.BSurf.C113_jacobian",
    "Simsopt.BSurf.C113_second_derivatives"
   ],
   "note": ""
  },
  {
   "property": "C114",
   "status": "proved",
   "theorems": [
    "Simsopt.BSurf.C114_same_jacobian",
    "Simsopt.BSurf.C114_field",
    "Simsopt.BSurf.C114_jacobian_field",
    "Simsopt.BSurf.C114_jacobian_gradient"
   ],
   "note": ""
  },
  {
   "property": "C115",
   "status": "proved",
   "theorems": [
    "Simsopt.BSurf.C115_rows",
    "Simsopt.BSurf.C115_value",
    "Simsopt.BSurf.C115_gradient",
    "Simsopt.BSurf.C115_hessian",
    "Simsopt.BSurf.C115_vectorized"
   ],
   "note": ""
  },
  {
   "property": "C116",
   "status": "proved",
   "theorems": [
    "Simsopt.BSurf.C116_conditions",
    "Simsopt.BSurf.C116_jacobian"
   ],
   "note": ""
  },
  {
   "property": "C117",
   "status": "proved",
   "theorems": [
    "Simsopt.BSurf.Solve.C117_penalty_newton",
    "Simsopt.BSurf.Solve.C117_constrained_newton",
    "Simsopt.BSurf.Solve.C117_exact_newton",
    "Simsopt.BSurf.Solve.C117_failed_solve_needs_to_run",
    "Simsopt.BSurf.Solve.C117_history",
    "Simsopt.BSurf.Solve.C117_second_run_code",
    "Simsopt.BSurf.Solve.C117_target_unnoticed_violated",
    "Simsopt.BSurf.Solve.C117_surface_unnoticed_violated",
    "Simsopt.BSurf.Solve.C117_exact_success_violated"
   ],
   "note": "C117_history for all histories; violated witnesses delimit it The unconditional wording is false of the code; the exceptions named in the statement are proved by C117_exact_success_violated, C117_surface_unnoticed_violated, C117_target_unnoticed_violated."
  },
  {
   "property": "C118",
   "status": "proved",
   "theorems": [
    "Simsopt.BSurf.Solve.C118_iotas",
    "Simsopt.BSurf.Solve.C118_key_error_violated",
    "Simsopt.BSurf.Solve.C118_not_solved_violated"
   ],
   "note": "positive theorem for default solvers The unconditional wording is false of the code; the exceptions named in the statement are proved by C118_key_error_violated, C118_not_solved_violated."
  },
  {
   "property": "C119",
   "status": "proved",
   "theorems": [
    "Simsopt.BSurf.C119_forward_backward",
    "Simsopt.BSurf.C119_total_derivative"
   ],
   "note": ""
  },
  {
   "property": "C120",
   "status": "proved",
   "theorems": [
    "Simsopt.BSurf.C120_least_squares",
    "Simsopt.BSurf.C120_exact",
    "Simsopt.BSurf.C120_without_symmetry_violated",
    "Simsopt.BSurf.C120_label_violated"
   ],
   "note": "exact (stellsym) and least squares proved; two cases violated The unconditional wording is false of the code; the exceptions named in the statement are proved by C120_label_violated, C120_without_symmetry_violated."
  },
  {
   "property": "C121",
   "status": "proved",
   "theorems": [
    "Simsopt.BSurf.QS.C121_value",
    "Simsopt.BSurf.QS.C121_surface",
    "Simsopt.BSurf.QS.C121_field"
   ],
   "note": ""
  },
  {
   "property": "C122",
   "status": "proved",
   "theorems": [
    "Simsopt.Tracing.C122_gc_energy",
    "Simsopt.Tracing.C122_gc_speed",
    "Simsopt.Tracing.C122_gc_parallel",
    "Simsopt.Tracing.C122_gc_documented",
    "Simsopt.Tracing.C122_gc_drifts",
    "Simsopt.Tracing.C122_full_speed",
    "Simsopt.Tracing.C122_full_force",
    "Simsopt.Tracing.C122_fieldline_surfaces",
    "Simsopt.Tracing.C122_boozer_documented",
    "Simsopt.Tracing.C122_noK_documented",
    "Simsopt.Tracing.C122_vacuum_documented",
    "Simsopt.Tracing.C122_boozer_energy",
    "Simsopt.Tracing.C122_boozer_momentum",
    "Simsopt.Tracing.C122_vacuum_energy",
    "Simsopt.Tracing.C122_gc_modes_energy",
    "Simsopt.Tracing.C122_turning_point_violated",
    "Simsopt.Tracing.C122_cartesian_documentation_violated"
   ],
   "note": "The unconditional wording is false of the code; the statement names the exceptions, which are proved by the _violated theorems."
  },
  {
   "property": "C123",
   "status": "proved",
   "theorems": [
    "Simsopt.Tracing.C123_get_phi",
    "Simsopt.Tracing.C123_nearest",
    "Simsopt.Tracing.C123_continues",
    "Simsopt.Tracing.C123_initial",
    "Simsopt.Tracing.C123_cylindrical"
   ],
   "note": ""
  },
  {
   "property": "C124",
   "status": "proved",
   "theorems": [
    "Simsopt.Tracing.C124_result",
    "Simsopt.Tracing.C124_terminates",
    "Simsopt.Tracing.C124_hits",
    "Simsopt.Tracing.C124_hits_flux",
    "Simsopt.Tracing.C124_on_plane",
    "Simsopt.Tracing.C124_count",
    "Simsopt.Tracing.C124_mpi",
    "Simsopt.Tracing.C124_hit_after_tmax_violated",
    "Simsopt.Tracing.C124_stop_after_tmax_violated"
   ],
   "note": "The unconditional wording is false of the code; the statement names the exceptions, which are proved by the _violated theorems."
  },
  {
   "property": "C125",
   "status": "proved",
   "theorems": [
    "Simsopt.Tracing.C125_reusable",
    "Simsopt.Tracing.C125_transit_forward",
    "Simsopt.Tracing.C125_transit_backward",
    "Simsopt.Tracing.C125_backward_violated",
    "Simsopt.Tracing.C125_iterations",
    "Simsopt.Tracing.C125_iteration_violated"
   ],
   "note": "The unconditional wording is false of the code; the statement names the exceptions, which are proved by the _violated theorems."
  },
  {
   "property": "C126",
   "status": "proved",
   "theorems": [
    "Simsopt.Tracing.C126_transits",
    "Simsopt.Tracing.C126_whole_turns",
    "Simsopt.Tracing.C126_flux"
   ],
   "note": ""
  },
  {
   "property": "C127",
   "status": "proved",
   "theorems": [
    "Simsopt.Tracing.C127_initial_guess",
    "Simsopt.Tracing.C127_uniform_field",
    "Simsopt.Tracing.C127_negative_charge_violated"
   ],
   "note": "The unconditional wording is false of the code; the statement names the exceptions, which are proved by the _violated theorems."
  },
  {
   "property": "C128",
   "status": "proved",
   "theorems": [
    "Simsopt.Tracing.C128_resonances",
    "Simsopt.Tracing.C128_turns",
    "Simsopt.Tracing.C128_first_return_violated"
   ],
   "note": "The unconditional wording is false of the code; the statement names the exceptions, which are proved by the _violated theorems."
  },
  {
   "property": "C129",
   "status": "proved",
   "theorems": [
    "Simsopt.WField.C129_segment_dB",
    "Simsopt.WField.C129_field",
    "Simsopt.WField.C129_dB",
    "Simsopt.WField.C129_divergence",
    "Simsopt.WField.C129_curl",
    "Simsopt.WField.C129_documented",
    "Simsopt.WField.C129_currents",
    "Simsopt.WField.C129_normal_matrix",
    "Simsopt.WField.C129_segment",
    "Simsopt.WField.C129_open_violated",
    "Simsopt.WField.C129_derivs_violated"
   ],
   "note": "The statement names the two exceptions, proved as C129_open_violated and C129_derivs_violated. Real arithmetic."
  },
  {
   "property": "C130",
   "status": "proved",
   "theorems": [
    "Simsopt.WField.C130_field_period",
    "Simsopt.WField.C130_stellsym",
    "Simsopt.WField.C130_closed",
    "Simsopt.WField.C130_vacuum"
   ],
   "note": "For the surface model of C65-C69 with stellsym=True, as the constructor makes it."
  },
  {
   "property": "C131",
   "status": "proved",
   "theorems": [
    "Simsopt.Solve.C131_log",
    "Simsopt.Solve.C131_told",
    "Simsopt.Solve.C131_result",
    "Simsopt.Solve.C131_exception_aborts",
    "Simsopt.Solve.C131_evaluation_returns",
    "Simsopt.Solve.C131_fallback_violated"
   ],
   "note": "SciPy is an arbitrary strategy; the statement names the exception (C131_exception_aborts, C131_fallback_violated). Elapsed time, header and number formatting are not modelled."
  },
  {
   "property": "C132",
   "status": "proved",
   "theorems": [
    "Simsopt.Solve.Con.C132_told",
    "Simsopt.Solve.Con.C132_log",
    "Simsopt.Solve.Con.C132_bounds",
    "Simsopt.Solve.Con.C132_result",
    "Simsopt.Solve.Con.C132_objective_abort",
    "Simsopt.Solve.Con.C132_constraint_abort",
    "Simsopt.Solve.Con.C132_lengths_violated"
   ],
   "note": "SciPy is an arbitrary strategy; the statement names the exception (C132_lengths_violated). Linear constraints are passed on unchanged and not modelled."
  },
  {
   "property": "C133",
   "status": "proved",
   "theorems": [
    "Simsopt.FourInt.C133_reproduces",
    "Simsopt.FourInt.C133_nyquist",
    "Simsopt.FourInt.C133_at_nodes",
    "Simsopt.FourInt.C133_degree_sharp",
    "Simsopt.FourInt.C133_linear"
   ],
   "note": "Exact real arithmetic; points that differ from a grid point by a nonzero multiple of 2π (where the exact formula divides by zero) are excluded."
  },
  {
   "property": "C134",
   "status": "proved",
   "theorems": [
    "Simsopt.Frames.C134_centroid_orthonormal",
    "Simsopt.Frames.C134_frenet_orthonormal",
    "Simsopt.Frames.C134_tangent",
    "Simsopt.Frames.C134_centroid_normal",
    "Simsopt.Frames.C134_frenet_unrotated",
    "Simsopt.Frames.C134_turned",
    "Simsopt.Frames.C134_alpha",
    "Simsopt.Frames.C134_alpha_periodic",
    "Simsopt.Frames.C134_alphadash",
    "Simsopt.Frames.C134_alpha_vjp"
   ],
   "note": "Exact real arithmetic; ZeroRotation is the case alpha = 0. The Jacobians of a rotation are those at its own quadrature points."
  },
  {
   "property": "C135",
   "status": "proved",
   "theorems": [
    "Simsopt.Frames.C135_frenet_dash",
    "Simsopt.Frames.C135_centroid_dash",
    "Simsopt.Frames.C135_fourier_mean",
    "Simsopt.Frames.C135_mean_needed",
    "Simsopt.Frames.C135_centroid_torsion",
    "Simsopt.Frames.C135_centroid_binormal",
    "Simsopt.Frames.C135_frenet_torsion"
   ],
   "note": "jax.jvp is modelled by the Fréchet derivative. C135_mean_needed shows the mean condition cannot be dropped."
  },
  {
   "property": "C136",
   "status": "proved",
   "theorems": [
    "Simsopt.Frames.C136_frenet_dash_vjp",
    "Simsopt.Frames.C136_centroid_dash_vjp",
    "Simsopt.Frames.C136_offset",
    "Simsopt.Frames.C136_distance",
    "Simsopt.Frames.C136_shifts",
    "Simsopt.Frames.C136_grid",
    "Simsopt.Frames.C136_mean",
    "Simsopt.Frames.C136_frenet_gammadash",
    "Simsopt.Frames.C136_centroid_gammadash",
    "Simsopt.Frames.C136_frenet_vjp",
    "Simsopt.Frames.C136_centroid_vjp"
   ],
   "note": "jax.vjp is modelled by the gradient of the paired function; the pull-backs of the base curve and rotation are hypotheses (proved for the Fourier curves and rotations in C38-C53 and C134)."
  },
  {
   "property": "C137",
   "status": "proved",
   "theorems": [
    "Simsopt.Strain.C137_torsional_value",
    "Simsopt.Strain.C137_binormal_value",
    "Simsopt.Strain.C137_zero_iff",
    "Simsopt.Strain.C137_frenet_pullback",
    "Simsopt.Strain.C137_centroid_pullback",
    "Simsopt.Strain.C137_torsional_gradient",
    "Simsopt.Strain.C137_binormal_gradient",
    "Simsopt.Strain.C137_frenet_no_bend"
   ],
   "note": "Exact real arithmetic; jax.vjp modelled by gradients; the pull-backs of the base curve and rotation are hypotheses, as in C136."
  },
  {
   "property": "C138",
   "status": "proved",
   "theorems": [
    "Simsopt.BField.C138_modB_gradient",
    "Simsopt.BField.C138_K_derivatives",
    "Simsopt.BField.C138_columns",
    "Simsopt.BField.C138_profiles",
    "Simsopt.BField.C138_documented",
    "Simsopt.BField.C138_quasisymmetric",
    "Simsopt.BField.C138_history",
    "Simsopt.BField.C138_consistent",
    "Simsopt.BField.C138_orbits",
    "Simsopt.BField.C138_G_I_documentation_violated",
    "Simsopt.BField.C138_set_psi0_violated"
   ],
   "note": "Exact real arithmetic. The statement names its exceptions, each proved by a _violated theorem."
  },
  {
   "property": "C139",
   "status": "proved",
   "theorems": [
    "Simsopt.BField.Radial.C139_even_angles",
    "Simsopt.BField.Radial.C139_odd_angles",
    "Simsopt.BField.Radial.C139_K",
    "Simsopt.BField.Radial.C139_radial",
    "Simsopt.BField.Radial.C139_parity",
    "Simsopt.BField.Radial.C139_period",
    "Simsopt.BField.Radial.C139_quasisymmetric",
    "Simsopt.BField.C139_factor",
    "Simsopt.BField.C139_factor_documented",
    "Simsopt.BField.C139_extend",
    "Simsopt.BField.C139_diffs",
    "Simsopt.BField.C139_rescale_with_N_violated",
    "Simsopt.BField.C139_mpi_K_violated",
    "Simsopt.BField.C139_mpi_noK"
   ],
   "note": "Splines are arbitrary functions; that they interpolate or differentiate exactly is a hypothesis where needed. The statement names its exceptions."
  },
  {
   "property": "C140",
   "status": "proved",
   "theorems": [
    "Simsopt.BField.C140_point",
    "Simsopt.BField.C140_transform",
    "Simsopt.BField.C140_reproduces"
   ],
   "note": "booz_xform's coefficients and mode table are inputs; that the table is as documented is the hypothesis Table."
  },
  {
   "property": "C141",
   "status": "proved",
   "theorems": [
    "Simsopt.Garab.C141_round_trip",
    "Simsopt.Garab.C141_round_trip_RZ",
    "Simsopt.Garab.C141_names",
    "Simsopt.Garab.C141_set_get",
    "Simsopt.Garab.C141_new",
    "Simsopt.Garab.C141_area_current",
    "Simsopt.Garab.C141_set_dofs_violated",
    "Simsopt.Garab.C141_shared_dofs_violated",
    "Simsopt.Garab.C141_excluded_modes_violated",
    "Simsopt.Garab.C141_view_violated",
    "Simsopt.Garab.C141_to_RZFourier",
    "Simsopt.Garab.C141_from_RZFourier"
   ],
   "note": "Exact real arithmetic. The class has no gamma(); its shape is the documented series. The statement names its exceptions, each proved by a _violated theorem."
  },
  {
   "property": "C142",
   "status": "proved",
   "theorems": [
    "Simsopt.Henne.C142_from_RZFourier",
    "Simsopt.Henne.C142_coefficients",
    "Simsopt.Henne.C142_default_grid",
    "Simsopt.Henne.C142_axisymmetric_violated",
    "Simsopt.Henne.C142_documentation_violated",
    "Simsopt.Henne.C142_hidden_modes_violated",
    "Simsopt.Henne.C142_symmetry",
    "Simsopt.Henne.C142_dofs",
    "Simsopt.Henne.C142_set_rhomn",
    "Simsopt.Henne.C142_set_rhomn_violated",
    "Simsopt.Henne.C142_gamma",
    "Simsopt.Henne.C142_derivatives",
    "Simsopt.Henne.C142_to_RZFourier"
   ],
   "note": "Exact real arithmetic. The scalar minimiser and the interpolation inside from_RZFourier are hypotheses (exact results), not modelled. The statement names its exceptions, each proved by a _violated theorem."
  },
  {
   "property": "C143",
   "status": "proved",
   "theorems": [
    "Simsopt.XYZ.C143_derivatives",
    "Simsopt.XYZ.C143_gamma",
    "Simsopt.XYZ.C143_field_period",
    "Simsopt.XYZ.C143_stellsym",
    "Simsopt.XYZ.C143_dofs",
    "Simsopt.XYZ.C143_jacobian"
   ],
   "note": "Exact real arithmetic."
  },
  {
   "property": "C144",
   "status": "proved",
   "theorems": [
    "Simsopt.XYZ.TF.C144_dofs",
    "Simsopt.XYZ.TF.C144_derivatives",
    "Simsopt.XYZ.TF.C144_gamma",
    "Simsopt.XYZ.TF.C144_clamped",
    "Simsopt.XYZ.TF.C144_field_period",
    "Simsopt.XYZ.TF.C144_stellsym",
    "Simsopt.XYZ.TF.C144_jacobian",
    "Simsopt.XYZ.TF.C144_gammadash2dash2_violated",
    "Simsopt.XYZ.TF.C144_gammadash1dash1_violated",
    "Simsopt.XYZ.TF.C144_dgammadash1dash1_violated"
   ],
   "note": "Exact real arithmetic. The statement names its exceptions, each proved by a _violated theorem."
  },
  {
   "property": "C145",
   "status": "proved",
   "theorems": [
    "Simsopt.XYZ.C145_mask",
    "Simsopt.XYZ.C145_redundant",
    "Simsopt.XYZ.C145_documented_grid_violated"
   ],
   "note": "np.allclose is modelled as equality. The statement names its exception, proved by a _violated theorem."
  },
  {
   "property": "C146",
   "status": "proved",
   "theorems": [
    "Simsopt.NField.C146_half_period",
    "Simsopt.NField.C146_half_period_nyquist_violated",
    "Simsopt.NField.C146_coefficients",
    "Simsopt.NField.C146_inverse",
    "Simsopt.NField.C146_values",
    "Simsopt.NField.C146_values_stellsym"
   ],
   "note": "Exact real arithmetic. The statement names its exception, proved by a _violated theorem."
  },
  {
   "property": "C147",
   "status": "proved",
   "theorems": [
    "Simsopt.NField.C147_construct",
    "Simsopt.NField.C147_bounds",
    "Simsopt.NField.C147_set_vns",
    "Simsopt.NField.C147_set_vnc",
    "Simsopt.NField.C147_set_x",
    "Simsopt.NField.C147_change_resolution",
    "Simsopt.NField.C147_index",
    "Simsopt.NField.C147_names",
    "Simsopt.NField.C147_stale_setter_violated",
    "Simsopt.NField.C147_stale_arrays_violated",
    "Simsopt.NField.C147_asarray_roundtrip_violated",
    "Simsopt.NField.C147_real_space",
    "Simsopt.NField.C147_real_space_violated",
    "Simsopt.NField.C147_change_resolution_set_violated",
    "Simsopt.NField.C147_change_resolution_column_violated",
    "Simsopt.NField.C147_narrow_array_violated",
    "Simsopt.NField.C147_set_vnc_asarray_violated"
   ],
   "note": "Exact real arithmetic. The statement names its exceptions, each proved by a _violated theorem."
  },
  {
   "property": "C148",
   "status": "proved",
   "theorems": [
    "Simsopt.NField.Coil.C148_coherent",
    "Simsopt.NField.Coil.C148_real_space",
    "Simsopt.NField.Coil.C148_real_space_half",
    "Simsopt.NField.Coil.C148_target",
    "Simsopt.NField.Coil.C148_surface_stale_violated",
    "Simsopt.NField.Coil.C148_resolution_violated"
   ],
   "note": "The Biot-Savart field is an arbitrary function of the coil dofs and the surface. The statement names its exceptions, each proved by a _violated theorem."
  },
  {
   "property": "C149",
   "status": "proved",
   "theorems": [
    "Simsopt.NField.Reduced.C149_set_x",
    "Simsopt.NField.Reduced.C149_wrong_length",
    "Simsopt.NField.Reduced.C149_consistent",
    "Simsopt.NField.Reduced.C149_recalculate",
    "Simsopt.NField.Reduced.C149_amplitudes",
    "Simsopt.NField.Reduced.C149_target",
    "Simsopt.NField.Reduced.C149_nsv_raise",
    "Simsopt.NField.Reduced.C149_nsv_lower_violated",
    "Simsopt.NField.Reduced.C149_default_matrices_violated",
    "Simsopt.NField.Reduced.C149_nonzero_violated"
   ],
   "note": "np.linalg.svd is not modelled; its factors are inputs. The statement names its exceptions, each proved by a _violated theorem."
  },
  {
   "property": "C150",
   "status": "proved",
   "theorems": [
    "Simsopt.Labels.C150_gradient",
    "Simsopt.Labels.C150_hessian",
    "Simsopt.Labels.C150_hessian_symmetric",
    "Simsopt.Labels.C150_coils",
    "Simsopt.Labels.C150_dcoils"
   ],
   "note": ""
  },
  {
   "property": "C151",
   "status": "proved",
   "theorems": [
    "Simsopt.Labels.C151_gradient",
    "Simsopt.Labels.C151_value",
    "Simsopt.Labels.C151_direction_violated",
    "Simsopt.Labels.C151_threshold_violated",
    "Simsopt.Labels.C151_quadrature_violated"
   ],
   "note": "The _violated theorems prove the exceptions named in the statement."
  },
  {
   "property": "C152",
   "status": "proved",
   "theorems": [
    "Simsopt.Labels.C152_value",
    "Simsopt.Labels.C152_bounds",
    "Simsopt.Labels.C152_zero_iff",
    "Simsopt.Labels.C152_scale",
    "Simsopt.Labels.C152_gradient"
   ],
   "note": ""
  },
  {
   "property": "C153",
   "status": "proved",
   "theorems": [
    "Simsopt.Labels.Qfm.C153_penalty",
    "Simsopt.Labels.Qfm.C153_constraint",
    "Simsopt.Labels.Qfm.C153_drivers",
    "Simsopt.Labels.Qfm.C153_multiplier_violated",
    "Simsopt.Labels.Qfm.C153_halving_violated",
    "Simsopt.Labels.Qfm.C153_minimum_violated"
   ],
   "note": "The _violated theorems prove the exceptions named in the statement."
  },
  {
   "property": "C154",
   "status": "proved",
   "theorems": [
    "Simsopt.Labels.C154_present",
    "Simsopt.Labels.C154_shared_violated",
    "Simsopt.Labels.C154_two_surfaces_violated",
    "Simsopt.Labels.C154_silent_violated"
   ],
   "note": "The _violated theorems prove the exceptions named in the statement."
  },
  {
   "property": "C155",
   "status": "proved",
   "theorems": [
    "Simsopt.Perturb.C155_symmetric",
    "Simsopt.Perturb.C155_kernel",
    "Simsopt.Perturb.C155_sigma_violated",
    "Simsopt.Perturb.C155_covariance"
   ],
   "note": "The _violated theorems prove the exceptions named in the statement."
  },
  {
   "property": "C156",
   "status": "proved",
   "theorems": [
    "Simsopt.Perturb.C156_value",
    "Simsopt.Perturb.C156_vjp",
    "Simsopt.Perturb.C156_shared_violated",
    "Simsopt.Perturb.C156_dependent_violated",
    "Simsopt.Perturb.C156_sample_violated",
    "Simsopt.Perturb.C156_effect"
   ],
   "note": "The _violated theorems prove the exceptions named in the statement."
  },
  {
   "property": "C157",
   "status": "proved",
   "theorems": [
    "Simsopt.MGrid.C157_pad",
    "Simsopt.MGrid.C157_roundtrip",
    "Simsopt.MGrid.C157_nfp_violated",
    "Simsopt.MGrid.C157_guard_violated",
    "Simsopt.MGrid.C157_mixed_violated",
    "Simsopt.MGrid.C157_append_violated",
    "Simsopt.MGrid.C157_to_mgrid",
    "Simsopt.MGrid.C157_total",
    "Simsopt.MGrid.C157_total_potential"
   ],
   "note": "The _violated theorems prove the exceptions named in the statement."
  },
  {
   "property": "C158",
   "status": "proved",
   "theorems": [
    "Simsopt.Force.C158_limit",
    "Simsopt.Force.C158_translation",
    "Simsopt.Force.C158_rotation",
    "Simsopt.Force.C158_current",
    "Simsopt.Force.C158_scaling",
    "Simsopt.Force.C158_parametrization",
    "Simsopt.Force.C158_planar",
    "Simsopt.Force.C158_circle",
    "Simsopt.Force.C158_circle_circ",
    "Simsopt.Force.C158_regularization"
   ],
   "note": ""
  },
  {
   "property": "C159",
   "status": "proved",
   "theorems": [
    "Simsopt.Force.C159_lorentz",
    "Simsopt.Force.C159_hoop",
    "Simsopt.Force.C159_mean_squared",
    "Simsopt.Force.C159_lp",
    "Simsopt.Force.C159_lp_violated",
    "Simsopt.Force.C159_lp_circle_violated",
    "Simsopt.Force.C159_gradient",
    "Simsopt.Force.C159_gradient_exists",
    "Simsopt.Force.C159_lp_gradient_exists"
   ],
   "note": "The _violated theorems prove the exceptions named in the statement."
  },
  {
   "property": "C160",
   "status": "proved",
   "theorems": [
    "Simsopt.Sampling.C160_law",
    "Simsopt.Sampling.C160_sorted",
    "Simsopt.Sampling.C160_output",
    "Simsopt.Sampling.C160_surface",
    "Simsopt.Sampling.C160_acceptance",
    "Simsopt.Sampling.C160_success",
    "Simsopt.Sampling.C160_exact_violated",
    "Simsopt.Sampling.C160_safety_violated"
   ],
   "note": "The _violated theorems prove the exceptions named in the statement."
  },
  {
   "property": "C161",
   "status": "proved",
   "theorems": [
    "Simsopt.Coilset.C161_evenly",
    "Simsopt.Coilset.C161_for_surface_violated",
    "Simsopt.Coilset.C161_planar",
    "Simsopt.Coilset.C161_base",
    "Simsopt.Coilset.C161_order_zero"
   ],
   "note": "The _violated theorems prove the exceptions named in the statement."
  },
  {
   "property": "C162",
   "status": "proved",
   "theorems": [
    "Simsopt.Coilset.C162_total_length",
    "Simsopt.Coilset.C162_set_base_field",
    "Simsopt.Coilset.C162_set_base_violated",
    "Simsopt.Coilset.C162_reduced_violated",
    "Simsopt.Coilset.C162_parents_violated"
   ],
   "note": "The _violated theorems prove the exceptions named in the statement."
  },
  {
   "property": "C163",
   "status": "proved",
   "theorems": [
    "Simsopt.Reduced.C163_start",
    "Simsopt.Reduced.C163_move",
    "Simsopt.Reduced.C163_history",
    "Simsopt.Reduced.C163_isometry",
    "Simsopt.Reduced.C163_response",
    "Simsopt.Reduced.C163_recalculate",
    "Simsopt.Reduced.C163_identity_violated",
    "Simsopt.Reduced.C163_grow",
    "Simsopt.Reduced.C163_nsv_violated",
    "Simsopt.Reduced.C163_nonzero_violated"
   ],
   "note": "The _violated theorems prove the exceptions named in the statement."
  },
  {
   "property": "C164",
   "status": "proved",
   "theorems": [
    "Simsopt.Ports.C164_circular",
    "Simsopt.Ports.C164_circular_gap",
    "Simsopt.Ports.C164_circular_excess",
    "Simsopt.Ports.C164_rectangular",
    "Simsopt.Ports.C164_rectangular_gap",
    "Simsopt.Ports.C164_rectangular_excess",
    "Simsopt.Ports.C164_make",
    "Simsopt.Ports.C164_set",
    "Simsopt.Ports.C164_one_gap_violated",
    "Simsopt.Ports.C164_negative_gap_violated"
   ],
   "note": "The _violated theorems prove the exceptions named in the statement."
  },
  {
   "property": "C165",
   "status": "proved",
   "theorems": [
    "Simsopt.Ports.C165_copies",
    "Simsopt.Ports.C165_symmetric"
   ],
   "note": ""
  },
  {
   "property": "C166",
   "status": "proved",
   "theorems": [
    "Simsopt.Ports.C166_round_trip",
    "Simsopt.Ports.C166_columns",
    "Simsopt.Ports.C166_single_violated",
    "Simsopt.Ports.C166_stale_violated"
   ],
   "note": "The _violated theorems prove the exceptions named in the statement."
  },
  {
   "property": "C167",
   "status": "proved",
   "theorems": [
    "Simsopt.Functions.C167_linear",
    "Simsopt.Functions.C167_adder_violated",
    "Simsopt.Functions.C167_rosenbrock",
    "Simsopt.Functions.C167_rosenbrock_violated",
    "Simsopt.Functions.C167_raises_violated",
    "Simsopt.Functions.C167_object1",
    "Simsopt.Functions.C167_object1_violated",
    "Simsopt.Functions.C167_affine",
    "Simsopt.Functions.C167_failer",
    "Simsopt.Functions.C167_beale"
   ],
   "note": "The _violated theorems prove the exceptions named in the statement."
  },
  {
   "property": "C168",
   "status": "proved",
   "theorems": [
    "Simsopt.QSRatio.C168_value",
    "Simsopt.QSRatio.C168_zero_iff",
    "Simsopt.QSRatio.C168_quasisymmetric",
    "Simsopt.QSRatio.C168_derivatives",
    "Simsopt.QSRatio.C168_interpolation",
    "Simsopt.QSRatio.C168_make",
    "Simsopt.QSRatio.C168_one_point_violated"
   ],
   "note": "The _violated theorems prove the exceptions named in the statement."
  },
  {
   "property": "C169",
   "status": "proved",
   "theorems": [
    "Simsopt.Metrics.C169_iota_target",
    "Simsopt.Metrics.C169_iota_weighted",
    "Simsopt.Metrics.C169_well",
    "Simsopt.Metrics.C169_well_sign",
    "Simsopt.Metrics.C169_perturbation",
    "Simsopt.Metrics.C169_field",
    "Simsopt.Metrics.C169_input",
    "Simsopt.Metrics.C169_adjoint",
    "Simsopt.Metrics.C169_failure_violated",
    "Simsopt.Metrics.C169_size_violated",
    "Simsopt.Metrics.C169_profile_violated"
   ],
   "note": "The _violated theorems prove the exceptions named in the statement."
  },
  {
   "property": "C170",
   "status": "proved",
   "theorems": [
    "Simsopt.BCart.C170_tangent",
    "Simsopt.BCart.C170_edge",
    "Simsopt.BCart.C170_symmetry",
    "Simsopt.BCart.C170_period",
    "Simsopt.BCart.C170_grid",
    "Simsopt.BCart.C170_integral",
    "Simsopt.BCart.C170_linear",
    "Simsopt.BCart.C170_chain"
   ],
   "note": ""
  },
  {
   "property": "C171",
   "status": "proved",
   "theorems": [
    "Simsopt.Spec.C171_layout",
    "Simsopt.Spec.C171_read",
    "Simsopt.Spec.C171_round_trip",
    "Simsopt.Spec.C171_too_big",
    "Simsopt.Spec.C171_set_spec_violated"
   ],
   "note": "The _violated theorems prove the exceptions named in the statement."
  },
  {
   "property": "C172",
   "status": "proved",
   "theorems": [
    "Simsopt.Spec.C172_flux",
    "Simsopt.Spec.C172_history",
    "Simsopt.Spec.C172_short"
   ],
   "note": ""
  },
  {
   "property": "C173",
   "status": "proved",
   "theorems": [
    "Simsopt.Spec.C173_set_cumulative",
    "Simsopt.Spec.C173_set_plain",
    "Simsopt.Spec.C173_volume_current",
    "Simsopt.Spec.C173_vacuum_current",
    "Simsopt.Spec.C173_free_dof_changed_violated",
    "Simsopt.Spec.C173_history_violated",
    "Simsopt.Spec.C173_pressure",
    "Simsopt.Spec.C173_mu",
    "Simsopt.Spec.C173_mu_violated",
    "Simsopt.Spec.C173_iota_violated",
    "Simsopt.Spec.C173_isurf",
    "Simsopt.Spec.C173_activate",
    "Simsopt.Spec.C173_activate_violated"
   ],
   "note": "The _violated theorems prove the exceptions named in the statement."
  },
  {
   "property": "C174",
   "status": "proved",
   "theorems": [
    "Simsopt.Spec.C174_run",
    "Simsopt.Spec.C174_stored",
    "Simsopt.Spec.C174_history",
    "Simsopt.Spec.C174_crash",
    "Simsopt.Spec.C174_unconverged",
    "Simsopt.Spec.C174_unconverged_returned_violated",
    "Simsopt.Spec.C174_axis_violated",
    "Simsopt.Spec.C174_residue",
    "Simsopt.Spec.C174_residue_violated"
   ],
   "note": "The _violated theorems prove the exceptions named in the statement."
  },
  {
   "property": "C175",
   "status": "proved",
   "theorems": [
    "Simsopt.Spec.C175_replace",
    "Simsopt.Spec.C175_sequence",
    "Simsopt.Spec.C175_helicity_fails_violated",
    "Simsopt.Spec.C175_helicity_parent_violated",
    "Simsopt.Spec.C175_checks_violated"
   ],
   "note": "The _violated theorems prove the exceptions named in the statement."
  },
  {
   "property": "C176",
   "status": "proved",
   "theorems": [
    "Simsopt.Bootstrap.C176_averages",
    "Simsopt.Bootstrap.C176_bounds",
    "Simsopt.Bootstrap.C176_epsilon",
    "Simsopt.Bootstrap.C176_fraction",
    "Simsopt.Bootstrap.C176_constant",
    "Simsopt.Bootstrap.C176_scaling"
   ],
   "note": ""
  },
  {
   "property": "C177",
   "status": "proved",
   "theorems": [
    "Simsopt.Bootstrap.C177_X31",
    "Simsopt.Bootstrap.C177_L31",
    "Simsopt.Bootstrap.C177_limits",
    "Simsopt.Bootstrap.C177_alpha",
    "Simsopt.Bootstrap.C177_zero",
    "Simsopt.Bootstrap.C177_density",
    "Simsopt.Bootstrap.C177_trapped",
    "Simsopt.Bootstrap.C177_linear",
    "Simsopt.Bootstrap.C177_isomorphism",
    "Simsopt.Bootstrap.C177_Zeff",
    "Simsopt.Bootstrap.C177_Zeff_violated",
    "Simsopt.Bootstrap.C177_arguments"
   ],
   "note": "The _violated theorems prove the exceptions named in the statement."
  },
  {
   "property": "C178",
   "status": "proved",
   "theorems": [
    "Simsopt.Bootstrap.C178_ratio",
    "Simsopt.Bootstrap.C178_objective",
    "Simsopt.Bootstrap.C178_residual",
    "Simsopt.Bootstrap.C178_between",
    "Simsopt.Bootstrap.C178_nodes",
    "Simsopt.Bootstrap.C178_extrapolation",
    "Simsopt.Bootstrap.C178_range",
    "Simsopt.Bootstrap.C178_surfaces",
    "Simsopt.Bootstrap.C178_surfaces_violated",
    "Simsopt.Bootstrap.C178_boozer",
    "Simsopt.Bootstrap.C178_log"
   ],
   "note": "The _violated theorems prove the exceptions named in the statement."
  },
  {
   "property": "C179",
   "status": "proved",
   "theorems": [
    "Simsopt.Axis.C179_tangent",
    "Simsopt.Axis.C179_equation",
    "Simsopt.Axis.C179_iota",
    "Simsopt.Axis.C179_range",
    "Simsopt.Axis.C179_sign_violated",
    "Simsopt.Axis.C179_current_violated"
   ],
   "note": "The _violated theorems prove the exceptions named in the statement."
  },
  {
   "property": "C180",
   "status": "proved",
   "theorems": [
    "Simsopt.VCasing.C180_pack",
    "Simsopt.VCasing.C180_shape",
    "Simsopt.VCasing.C180_first_half",
    "Simsopt.VCasing.C180_shifted_violated",
    "Simsopt.VCasing.C180_full_period",
    "Simsopt.VCasing.C180_twice_violated",
    "Simsopt.VCasing.C180_sign_violated"
   ],
   "note": "The _violated theorems prove the exceptions named in the statement."
  },
  {
   "property": "C181",
   "status": "proved",
   "theorems": [
    "Simsopt.Polar.C181_sets",
    "Simsopt.Polar.C181_edgecorner",
    "Simsopt.Polar.C181_symmetric",
    "Simsopt.Polar.C181_triplets",
    "Simsopt.Polar.C181_axes",
    "Simsopt.Polar.C181_unknown"
   ],
   "note": ""
  },
  {
   "property": "C182",
   "status": "proved",
   "theorems": [
    "Simsopt.Polar.C182_nearest",
    "Simsopt.Polar.C182_frame",
    "Simsopt.Polar.C182_record",
    "Simsopt.Polar.C182_moment",
    "Simsopt.Polar.C182_idempotent",
    "Simsopt.Polar.C182_exponent_violated"
   ],
   "note": "The _violated theorems prove the exceptions named in the statement."
  },
  {
   "property": "C183",
   "status": "proved",
   "theorems": [
    "Simsopt.Polar.C183_transform",
    "Simsopt.Polar.C183_isometry",
    "Simsopt.Polar.C183_read",
    "Simsopt.Polar.C183_op_violated",
    "Simsopt.Polar.C183_repeat",
    "Simsopt.Polar.C183_direction",
    "Simsopt.Polar.C183_mixed_violated",
    "Simsopt.Polar.C183_flip",
    "Simsopt.Polar.C183_flip_violated",
    "Simsopt.Polar.C183_adjust",
    "Simsopt.Polar.C183_bnormal"
   ],
   "note": "The _violated theorems prove the exceptions named in the statement."
  },
  {
   "property": "C184",
   "status": "proved",
   "theorems": [
    "Simsopt.VmecGeo.C184_first",
    "Simsopt.VmecGeo.C184_second",
    "Simsopt.VmecGeo.C184_symmetry"
   ],
   "note": ""
  },
  {
   "property": "C185",
   "status": "proved",
   "theorems": [
    "Simsopt.VmecGeo.C185_basis",
    "Simsopt.VmecGeo.C185_jacobian",
    "Simsopt.VmecGeo.C185_dual",
    "Simsopt.VmecGeo.C185_gradient",
    "Simsopt.VmecGeo.C185_gradients",
    "Simsopt.VmecGeo.C185_field",
    "Simsopt.VmecGeo.C185_clebsch",
    "Simsopt.VmecGeo.C185_two_ways",
    "Simsopt.VmecGeo.C185_curvature"
   ],
   "note": "That the Jacobian, the covariant components and the curvature of the file are consistent is a hypothesis on VMEC's output."
  },
  {
   "property": "C186",
   "status": "proved",
   "theorems": [
    "Simsopt.VmecGeo.C186_reference",
    "Simsopt.VmecGeo.C186_shat",
    "Simsopt.VmecGeo.C186_gds",
    "Simsopt.VmecGeo.C186_drifts"
   ],
   "note": ""
  },
  {
   "property": "C187",
   "status": "proved",
   "theorems": [
    "Simsopt.VmecGeo.C187_partials",
    "Simsopt.VmecGeo.C187_tensor",
    "Simsopt.VmecGeo.C187_field",
    "Simsopt.VmecGeo.C187_length"
   ],
   "note": ""
  },
  {
   "property": "C188",
   "status": "proved",
   "theorems": [
    "Simsopt.VmecGeo.C188_arguments",
    "Simsopt.VmecGeo.C188_on_line",
    "Simsopt.VmecGeo.C188_root"
   ],
   "note": "Convergence of scipy's newton is a hypothesis."
  },
  {
   "property": "C189",
   "status": "proved",
   "theorems": [
    "Simsopt.Adjoint.C189_restored",
    "Simsopt.Adjoint.C189_refused",
    "Simsopt.Adjoint.C189_target",
    "Simsopt.Adjoint.C189_weighted",
    "Simsopt.Adjoint.C189_well",
    "Simsopt.Adjoint.C189_gradient_target",
    "Simsopt.Adjoint.C189_gradient_weighted",
    "Simsopt.Adjoint.C189_gradient_well",
    "Simsopt.Adjoint.C189_profile_violated",
    "Simsopt.Adjoint.C189_pressure_violated",
    "Simsopt.Adjoint.C189_failure_violated",
    "Simsopt.Adjoint.C189_long_violated"
   ],
   "note": "The _violated theorems prove the exceptions named in the statement. That delta B . B gives the derivative of J is the adjoint theorem of MHD equilibria, which is not proved here."
  },
  {
   "property": "C190",
   "status": "proved",
   "theorems": [
    "Simsopt.Wireframe.C190_even",
    "Simsopt.Wireframe.C190_loops",
    "Simsopt.Wireframe.C190_totals",
    "Simsopt.Wireframe.C190_crowded_violated",
    "Simsopt.Wireframe.C190_call",
    "Simsopt.Wireframe.C190_accepted"
   ],
   "note": "The _violated theorem proves the exception named in the statement. The positions are computed in rational numbers, in the code in doubles."
  },
  {
   "property": "C191",
   "status": "proved",
   "theorems": [
    "Simsopt.Wireframe.C191_geometry",
    "Simsopt.Wireframe.C191_breaks",
    "Simsopt.Wireframe.C191_no_current",
    "Simsopt.Wireframe.C191_refused",
    "Simsopt.Wireframe.C191_colliding"
   ],
   "note": "The positions are computed in rational numbers, in the code in doubles."
  },
  {
   "property": "C192",
   "status": "proved",
   "theorems": [
    "Simsopt.Spec.C192_write",
    "Simsopt.Spec.C192_read",
    "Simsopt.Spec.C192_round_trip",
    "Simsopt.Spec.C192_missing_violated",
    "Simsopt.Spec.C192_refused"
   ],
   "note": "The _violated theorem proves the exception named in the statement."
  },
  {
   "property": "C193",
   "status": "proved",
   "theorems": [
    "Simsopt.InterpBoozer.C193_domain",
    "Simsopt.InterpBoozer.C193_periodic",
    "Simsopt.InterpBoozer.C193_error"
   ],
   "note": "Real numbers; interpolants are arbitrary functions."
  },
  {
   "property": "C194",
   "status": "proved",
   "theorems": [
    "Simsopt.CoilFile.C194_load",
    "Simsopt.CoilFile.C194_refused",
    "Simsopt.CoilFile.C194_focus",
    "Simsopt.CoilFile.C194_focus_refused",
    "Simsopt.CoilFile.C194_truncated_violated"
   ],
   "note": "The _violated theorem proves the exception named in the statement."
  },
  {
   "property": "C195",
   "status": "proved",
   "theorems": [
    "Simsopt.Zoo.C195_axis",
    "Simsopt.Zoo.C195_refused",
    "Simsopt.Zoo.C195_points",
    "Simsopt.Zoo.C195_w7x_violated"
   ],
   "note": "The _violated theorem proves the exception named in the statement."
  },
  {
   "property": "C196",
   "status": "proved",
   "theorems": [
    "Simsopt.FixRange.C196_range",
    "Simsopt.FixRange.C196_refused",
    "Simsopt.FixRange.C196_outside",
    "Simsopt.FixRange.C196_atomic_violated",
    "Simsopt.FixRange.C196_usual"
   ],
   "note": "The _violated theorem proves the exception named in the statement."
  },
  {
   "property": "C197",
   "status": "proved",
   "theorems": [
    "Simsopt.Nml.C197_read",
    "Simsopt.Nml.C197_write",
    "Simsopt.Nml.C197_round_trip",
    "Simsopt.Nml.C197_read_asym",
    "Simsopt.Nml.C197_round_trip_asym",
    "Simsopt.Nml.C197_asym_violated",
    "Simsopt.Nml.C197_missing_violated"
   ],
   "note": "Round trip for both symmetries; quadrature points not modelled. The _violated theorems prove the exceptions named in the statement."
  }
 ]
}