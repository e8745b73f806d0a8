{
 "claims": [
  {
   "property": "C01",
   "status": "proved",
   "theorems": [
    "Dedalus.Dist.owned_exactly_once",
    "Dedalus.Dist.owned_by_one_process",
    "Dedalus.Dist.elements_in_range",
    "Dedalus.Dist.local_axis_holds_all",
    "Dedalus.Dist.contiguous_run",
    "Dedalus.Dist.runs_ordered",
    "Dedalus.Dist.chunks_not_split",
    "Dedalus.Dist.local_sizes_sum",
    "Dedalus.Dist.broadcast_constant",
    "Dedalus.Dist.chunk_not_dividing_refuted"
   ],
   "note": "all sizes, chunks dividing the axis, meshes; the divisibility guard is shown necessary (odd real Fourier sizes)"
  },
  {
   "property": "C02",
   "status": "proved",
   "theorems": [
    "Dedalus.Dist.layout_chain",
    "Dedalus.Dist.transforms_indexed",
    "Dedalus.Dist.bad_mesh_rejected",
    "Dedalus.Dist.comm_cart_axis_correct"
   ],
   "note": ""
  },
  {
   "property": "C03",
   "status": "proved",
   "theorems": [
    "Dedalus.Transpose.localize_rows_correct",
    "Dedalus.Transpose.localize_columns_correct",
    "Dedalus.Transpose.localize_round_trip",
    "Dedalus.Transpose.cut_matches_layout",
    "Dedalus.Transpose.row_distributor_gathers",
    "Dedalus.Transpose.row_distributor_restricts",
    "Dedalus.Transpose.col_distributor_gathers",
    "Dedalus.Transpose.col_distributor_restricts"
   ],
   "note": "Model of the split/Alltoallv/combine transposes and the row/column distributors; for all shapes, cuts and process counts."
  },
  {
   "property": "C04",
   "status": "partial",
   "theorems": [
    "Dedalus.Transpose.fftw_blocks_match_layout",
    "Dedalus.Transpose.same_plan_across_partners",
    "Dedalus.Transpose.no_change_is_correct",
    "Dedalus.Transpose.skip_is_safe",
    "Dedalus.Transpose.mpi_blocks_match_layout_refuted",
    "Dedalus.Transpose.mpi_blocks_match_layout_partial"
   ],
   "note": "Holds for the default FFTW planner and for the planning decision (an exchange is skipped only when nothing has to move); refuted for the alternative MPI planner, which ignores chunk sizes (it also takes one argument fewer than it is given)."
  },
  {
   "property": "C05",
   "status": "partial",
   "theorems": [
    "Dedalus.Transpose.increment_group_eq_single",
    "Dedalus.Transpose.decrement_group_eq_single_refuted",
    "Dedalus.Transpose.decrement_group_eq_single_partial"
   ],
   "note": "Incrementing holds in full. Decrementing is refuted: a group without communication keeps the upper layout label; the partial theorem covers groups whose fields all communicate."
  },
  {
   "property": "C06",
   "status": "proved",
   "theorems": [
    "Dedalus.Field.field_history",
    "Dedalus.Field.layout_requests_met",
    "Dedalus.Field.changeScales_from_coeff",
    "Dedalus.Field.built_layouts_chain"
   ],
   "note": "Any history of reads, writes, scale changes and layout requests; raw data with abstract transforms and transposes (soundness of those is C03/C37); layouts from the distributor model."
  },
  {
   "property": "C07",
   "status": "partial",
   "theorems": [
    "Dedalus.Field.solver_sees_current_data_partial",
    "Dedalus.Field.solver_sees_current_data_refuted"
   ],
   "note": "Holds while all scales asked for fit in the dealias buffer; refuted in general because the solver keeps views of the first buffer."
  },
  {
   "property": "C08",
   "status": "partial",
   "theorems": [
    "Dedalus.Global.load_gives_owned_part",
    "Dedalus.Global.gather_returns_global",
    "Dedalus.Global.allgather_returns_global",
    "Dedalus.Global.load_gather_round_trip",
    "Dedalus.Global.set_global_scalar_partial",
    "Dedalus.Global.set_global_tensor_refuted"
   ],
   "note": "Loading global coefficient or grid data gives each process its owned part and gathering (root and all) returns the global array, for every tensor rank, shape, chunk size, layout and mesh. set_global_data proved for scalar fields; for tensor fields it raises (refuted). Broadcasting in numpy copyto and floating point scale rounding are not modelled."
  },
  {
   "property": "C09",
   "status": "proved",
   "theorems": [
    "Dedalus.Random.element_is_stream",
    "Dedalus.Random.elements_are_stream",
    "Dedalus.Random.fill_real_is_stream",
    "Dedalus.Random.fill_complex_is_stream",
    "Dedalus.Random.random_field_decomposition_independent"
   ],
   "note": "Element values are the sequential seeded stream at the row-major global position, for every generator, seed, chunk size, tensor rank, layout, mesh and process; real and complex fields. Assumes numpy draws values one after another whatever the call size."
  },
  {
   "property": "C10",
   "status": "proved",
   "theorems": [
    "Dedalus.Step.multistep_order",
    "Dedalus.Step.multistep_run_order",
    "Dedalus.Step.cnab1_implicit_second_order"
   ],
   "note": "All eight multistep schemes, any positive timestep history, over any ordered field (floats idealised); start-up formulas have order 1, 2, 3. Also stated for runs at the actual times."
  },
  {
   "property": "C11",
   "status": "proved",
   "theorems": [
    "Dedalus.Step.multistep_equation",
    "Dedalus.Step.multistep_run_order",
    "Dedalus.Step.multistep_run_exists"
   ],
   "note": "Runs of the stepper from arbitrary initial memory; the discrete equation holds at every step and uses only existing history."
  },
  {
   "property": "C12",
   "status": "proved",
   "theorems": [
    "Dedalus.Step.multistep_factorisation_current",
    "Dedalus.Step.rk_factorisation_current"
   ],
   "note": "Multistep and Runge-Kutta; every timestep history."
  },
  {
   "property": "C13",
   "status": "proved",
   "theorems": [
    "Dedalus.Step.rk_step_equations",
    "Dedalus.Step.rk_run_exists",
    "Dedalus.Step.rk111_order",
    "Dedalus.Step.rk222_order",
    "Dedalus.Step.rk443_order",
    "Dedalus.Step.rksmr_order",
    "Dedalus.Step.rkgfy_order",
    "Dedalus.Step.rksmr_third_order_refuted"
   ],
   "note": "Stage equations for every consistent tableau, every history; order conditions of all shipped tableaus. RKSMR is documented (3-eps): full third order is refuted, explicit third order and coupled second order are proved."
  },
  {
   "property": "C14",
   "status": "proved",
   "theorems": [
    "Dedalus.Sched.iter_cadence",
    "Dedalus.Sched.iter_cadence_consecutive",
    "Dedalus.Sched.wall_cadence",
    "Dedalus.Sched.criteria_independent",
    "Dedalus.Sched.checks_exist"
   ],
   "note": "Iteration, wall-time and independence of criteria; cadences positive."
  },
  {
   "property": "C15",
   "status": "partial",
   "theorems": [
    "Dedalus.Sched.sim_cadence_ordered",
    "Dedalus.Sched.sim_cadence_no_miss",
    "Dedalus.Sched.sim_cadence_first_fires_refuted",
    "Dedalus.Sched.sim_cadence_negative_refuted",
    "Dedalus.Sched.sim_cadence_first_fires_partial"
   ],
   "note": "No target is missed or repeated and each fires at a nearest time, for non-negative targets; the first-check claim and negative targets are false of the code and refuted."
  },
  {
   "property": "C16",
   "status": "partial",
   "theorems": [
    "Dedalus.Files.restarts_partial",
    "Dedalus.Files.layout_flatten",
    "Dedalus.Files.write_location_partial",
    "Dedalus.Files.append_keeps_files_partial",
    "Dedalus.Files.dotted_name_refuted",
    "Dedalus.Files.dotted_restart_refuted",
    "Dedalus.Files.append_after_crash_refuted",
    "Dedalus.Files.foreign_file_refuted"
   ],
   "note": "Exact file contents for any sequence of append restarts when the handler name's stem has no dot and the folder has no foreign file starting with the set prefix; dotted names, foreign files and a crash before the first write are refuted."
  },
  {
   "property": "C17",
   "status": "proved",
   "theorems": [
    "Dedalus.Perm.permutation_order",
    "Dedalus.Perm.permutation_perm",
    "Dedalus.Perm.lower_dims_at_end",
    "Dedalus.Perm.precond_pinv",
    "Dedalus.Perm.precond_length",
    "Dedalus.Perm.restricted_system",
    "Dedalus.Perm.inputRows_length"
   ],
   "note": "Model of left/right_permutation, perm_matrix, drop_empty_rows; also that the restricted, reordered system has the solutions of the original one."
  },
  {
   "property": "C18",
   "status": "partial",
   "theorems": [
    "Dedalus.Subsys.subsystems_partition",
    "Dedalus.Subsys.subsystems_error_iff",
    "Dedalus.Subsys.subproblems_partition",
    "Dedalus.Subsys.merged_iff",
    "Dedalus.Subsys.coeff_slices_exact",
    "Dedalus.Subsys.cartesian_slices_exact",
    "Dedalus.Subsys.disk_slices_exact",
    "Dedalus.Subsys.merged_sizes_refuted"
   ],
   "note": "Partition proved for any group arrays. 'Merged only if matrices coincide' refuted when variables have nested but different numbers of groups along an axis on which no matrix depends (merged_sizes_refuted): the subproblem's buffer columns then have different lengths."
  },
  {
   "property": "C19",
   "status": "proved",
   "theorems": [
    "Dedalus.Subsys.gather_scatter",
    "Dedalus.Subsys.scatter_frame",
    "Dedalus.Subsys.column_nodup",
    "Dedalus.Subsys.columns_disjoint",
    "Dedalus.Subsys.subsystems_disjoint",
    "Dedalus.Subsys.boxes_disjoint",
    "Dedalus.Subsys.coeff_system_cover",
    "Dedalus.Perm.precond_pinv"
   ],
   "note": "Buffers of a subproblem, preconditioned gather/scatter, and the solver vectors. Equal sizes of the subsystems of a subproblem is a hypothesis (see C18)."
  },
  {
   "property": "C20",
   "status": "partial",
   "theorems": [
    "Dedalus.Symb.split_parts",
    "Dedalus.Symb.split_succeeds",
    "Dedalus.Symb.split_refuted"
   ],
   "note": "values, independence of the second part and occurrence in every term of the first part for all trees on which split returns; split raises on products whose time-derivative or lock factors have no new_operand (refuted: totality); split_succeeds gives the trees on which it returns"
  },
  {
   "property": "C21",
   "status": "proved",
   "theorems": [
    "Dedalus.Symb.accepted_is_linear",
    "Dedalus.Symb.accepted_is_affine",
    "Dedalus.Symb.nonlinear_is_rejected"
   ],
   "note": "all trees, variables, values and interpretations; affine and strict"
  },
  {
   "property": "C22",
   "status": "partial",
   "theorems": [
    "Dedalus.Symb.symDiff_is_derivative_partial",
    "Dedalus.Symb.symDiff_refuted"
   ],
   "note": "all trees with functions applied to scalar arguments, on their domains; for tensor-valued arguments the product formed by the chain rule has the wrong signature (refuted)"
  },
  {
   "property": "C23",
   "status": "partial",
   "theorems": [
    "Dedalus.Symb.frechet_is_directional_derivative_partial",
    "Dedalus.Symb.frechet_refuted"
   ],
   "note": "all trees when no background mentions a later variable; sequential substitution is shown wrong otherwise (refuted)"
  },
  {
   "property": "C24",
   "status": "partial",
   "theorems": [
    "Dedalus.Symb.buildEVP_equations_partial",
    "Dedalus.Symb.buildEVP_condition_refuted",
    "Dedalus.Symb.buildEVP_default_refuted"
   ],
   "note": "number and order of equations, valid modes and the meaning of every converted equation for explicit backgrounds; conditions are dropped (refuted) and the documented default backgrounds always raise (refuted)"
  },
  {
   "property": "C25",
   "status": "partial",
   "theorems": [
    "Dedalus.Mats.expression_matrices_value_partial",
    "Dedalus.Mats.expression_matrices_exist",
    "Dedalus.Mats.assembled_matrix_value_partial",
    "Dedalus.Mats.assembled_matrix_exists",
    "Dedalus.Mats.operator_matrix_acts_along_axis",
    "Dedalus.Mats.mode_matrix_entries",
    "Dedalus.Mats.cartesian_ncc_matrix_value",
    "Dedalus.Mats.cartesian_ncc_matrix_exact"
   ],
   "note": "Expression matrices and block assembly are proved to represent the equations for all trees, sizes and vectors, given that each primitive operator's own matrix represents it; for one-axis spectral operators and Cartesian coefficients that is proved from the Kronecker construction. Curvilinear operator matrices and entry_cutoff > 0 are not covered."
  },
  {
   "property": "C26",
   "status": "proved",
   "theorems": [
    "Dedalus.Eval.tasks_together_as_alone",
    "Dedalus.Eval.evaluated_once",
    "Dedalus.Eval.evaluation_leaves_clean",
    "Dedalus.Eval.no_leak_between_evaluations",
    "Dedalus.Eval.evaluation_value",
    "Dedalus.Eval.outputs_in_coefficient_layout",
    "Dedalus.Eval.outputs_processed_independently",
    "Dedalus.Eval.interrupted_evaluation_refuted"
   ],
   "note": "Operators, transforms and moves are abstract (Lawful: up-then-down is exact, outputs carry dealias scales); force=False path, all evaluations complete. An interrupted evaluation leaks (refutation)."
  },
  {
   "property": "C27",
   "status": "partial",
   "theorems": [
    "Dedalus.Flow.cfl_cadence",
    "Dedalus.Flow.cfl_update",
    "Dedalus.Flow.cfl_bounds_partial",
    "Dedalus.Flow.cfl_frequency",
    "Dedalus.Flow.cfl_no_frequencies",
    "Dedalus.Flow.cfl_initial_refuted",
    "Dedalus.Flow.cfl_rest_refuted"
   ],
   "note": "Holds over every history for finite max_dt and an initial timestep within the bounds; refuted for an initial timestep outside the bounds (returned unclipped) and, with the default infinite max_dt, after one update at zero frequency (the timestep stays infinite for ever). An update without any frequency raises."
  },
  {
   "property": "C28",
   "status": "proved",
   "theorems": [
    "Dedalus.Flow.global_extrema",
    "Dedalus.Flow.global_mean",
    "Dedalus.Flow.data_norm",
    "Dedalus.Solver.data_max_is_maximum"
   ],
   "note": "Reductions over every way of dealing the data out to processes. The final root of the norm is not modelled."
  },
  {
   "property": "C29",
   "status": "partial",
   "theorems": [
    "Dedalus.Solver.proceed_iff",
    "Dedalus.Solver.evolve_needs_criterion",
    "Dedalus.Solver.evolve_trace",
    "Dedalus.Solver.evolve_no_step",
    "Dedalus.Solver.evolve_terminates",
    "Dedalus.Solver.evolve_normal_iff",
    "Dedalus.Solver.evolve_normal_partial",
    "Dedalus.Solver.evolve_normal_warmup_refuted",
    "Dedalus.Solver.evolve_normal_zero_refuted"
   ],
   "note": "Exact loop behaviour for all environments; normal finish is false after 0 steps and after exactly warmup_iterations steps (AttributeError in log_stats), both refuted."
  },
  {
   "property": "C30",
   "status": "partial",
   "theorems": [
    "Dedalus.Cache.cached_function_transparent_partial",
    "Dedalus.Cache.cached_method_transparent",
    "Dedalus.Cache.cached_function_transparent_refuted",
    "Dedalus.Cache.cached_function_rejects_refuted",
    "Dedalus.Cache.cache_size_partial",
    "Dedalus.Cache.cache_size_refuted"
   ],
   "note": "Memoised methods (first argument an instance) always return what the undecorated function returns on every call history and calling convention. For plain memoised functions this needs that no bound argument list is itself a pair of tuples: f(1,2) and f((1,2),()) share a key and the second call returns the first result (refuted). A call with an unknown keyword returns a cached value instead of raising (refuted). The bound on a bounded cache holds only right after a miss with one extra entry (cache_size_partial); the stated bound is refuted."
  },
  {
   "property": "C31",
   "status": "proved",
   "theorems": [
    "Dedalus.Clenshaw.scalar_clenshaw_sum",
    "Dedalus.Clenshaw.matrix_clenshaw_sum",
    "Dedalus.Clenshaw.kronecker_clenshaw_sum",
    "Dedalus.Clenshaw.kronecker_clenshaw_left_sum",
    "Dedalus.Clenshaw.jacobi_recursion_sequence",
    "Dedalus.Clenshaw.jacobi_clenshaw_sum"
   ],
   "note": "Scalar, matrix and both Kronecker variants over any commutative ring, with the cutoff on coefficients as the code applies it; the Jacobi recursion built from a tridiagonal matrix defines the sequence that is summed."
  },
  {
   "property": "C32",
   "status": "partial",
   "theorems": [
    "Dedalus.Csr.solve_upper_solves",
    "Dedalus.Csr.apply_csr_applies",
    "Dedalus.Csr.solve_upper_sparse_partial",
    "Dedalus.Csr.solve_upper_returns_refuted"
   ],
   "note": "The triangular solve (all four kernels and their dispatch, any order of the parallel loop) and the product routine are proved for every valid CSR matrix. The wrapper without an output array discards the solution and returns nothing: solve_upper_returns_refuted."
  },
  {
   "property": "C33",
   "status": "proved",
   "theorems": [
    "Dedalus.Text.equation_split",
    "Dedalus.Text.equation_without_equals",
    "Dedalus.Text.equation_with_several",
    "Dedalus.Text.accepted_equation",
    "Dedalus.Text.equation_accepted"
   ],
   "note": "For text with matching parentheses by a grammar, and for all strings through the parenthesis level."
  },
  {
   "property": "C34",
   "status": "proved",
   "theorems": [
    "Dedalus.Rotate.one_process_in_body",
    "Dedalus.Rotate.bodies_in_rank_order",
    "Dedalus.Rotate.no_deadlock",
    "Dedalus.Rotate.execution_bounded",
    "Dedalus.Rotate.same_number_of_barriers"
   ],
   "note": "All interleavings of arrivals, departures and bodies of any number of processes."
  },
  {
   "property": "C35",
   "status": "proved",
   "theorems": [
    "Dedalus.Post.writes_visited_once",
    "Dedalus.Post.visits_within_share",
    "Dedalus.Post.sets_assigned_once"
   ],
   "note": "Integers are exact: the rounding of sum(writes)/size in floating point is not modelled."
  },
  {
   "property": "C36",
   "status": "partial",
   "theorems": [
    "Dedalus.Post.merge_gives_global",
    "Dedalus.Post.merge_crash_partial",
    "Dedalus.Post.merge_retries",
    "Dedalus.Post.merge_retry_refuted",
    "Dedalus.Post.merge_writes_refuted",
    "Dedalus.Post.merge_virtual_partial",
    "Dedalus.Post.merge_virtual_retries",
    "Dedalus.Post.merge_virtual_retry_refuted"
   ],
   "note": "A completed merge gives the global array, and one run killed at any point loses nothing; without cleanup any number of killed runs is safe. With cleanup a retry can lose data, for distributed sets (killed during cleanup) and for virtual files (exception while copying): refuted. Files with a single write are silently broadcast: refuted."
  },
  {
   "property": "C37",
   "status": "proved",
   "theorems": [
    "Dedalus.Fourier.complex_backward_evaluates",
    "Dedalus.Fourier.complex_round_trip",
    "Dedalus.Fourier.complex_grid_round_trip",
    "Dedalus.Fourier.complex_libraries_agree",
    "Dedalus.Fourier.complex_resize_keeps_modes"
   ],
   "note": "Matrix transforms, scipy and FFTW implementations; round trip, evaluation, resizing. Exact complex arithmetic."
  },
  {
   "property": "C38",
   "status": "partial",
   "theorems": [
    "Dedalus.Fourier.real_backward_evaluates",
    "Dedalus.Fourier.real_round_trip",
    "Dedalus.Fourier.real_forward_libraries_agree",
    "Dedalus.Fourier.real_backward_libraries_agree",
    "Dedalus.Fourier.real_halfcomplex_backward_partial",
    "Dedalus.Fourier.real_halfcomplex_mean_refuted"
   ],
   "note": "All libraries agree with the transform matrices in both directions, except that the half-complex library reads stale buffer contents when only the mean is resolved (refuted there)."
  },
  {
   "property": "C39",
   "status": "proved",
   "theorems": [
    "Dedalus.Fourier.dealiased_grid_size",
    "Dedalus.Fourier.complex_product_dealiased",
    "Dedalus.Fourier.real_forward_exact",
    "Dedalus.Fourier.real_product_dealiased"
   ],
   "note": "Complex: truncated convolution. Real: coefficients of the product function."
  },
  {
   "property": "C40",
   "status": "partial",
   "theorems": [
    "Dedalus.Cosine.cosine_resize_forward_partial",
    "Dedalus.Cosine.cosine_resize_backward_partial",
    "Dedalus.Cosine.cosine_resize_one_point_refuted"
   ],
   "note": "Holds whenever more than one mode is resolved or the output has one entry; with one grid point and more coefficients stale memory is left (refuted there)."
  },
  {
   "property": "C41",
   "status": "partial",
   "theorems": [
    "Dedalus.Fourier.real_product_matrix",
    "Dedalus.Fourier.real_product_matrix_matches_grid",
    "Dedalus.Fourier.complex_product_matrix",
    "Dedalus.Fourier.real_product_constant_refuted",
    "Dedalus.Fourier.product_single_wavenumber_refuted"
   ],
   "note": "Holds for every non-constant operand and all modes with at least two wavenumbers; raises for a real basis times a constant operand and for bases with a single wavenumber (refuted there)."
  },
  {
   "property": "C42",
   "status": "proved",
   "theorems": [
    "Dedalus.Fourier.cov_round_trip",
    "Dedalus.Fourier.cov_names",
    "Dedalus.Fourier.cov_stretch"
   ],
   "note": "Affine map over exact reals."
  },
  {
   "property": "C43",
   "status": "partial",
   "theorems": [
    "Dedalus.Spin.coordsys_eq_refuted",
    "Dedalus.Spin.coordsys_eq_partial",
    "Dedalus.Spin.coordsys_same_eq",
    "Dedalus.Spin.coordsys_eq_one",
    "Dedalus.Spin.product_check_refuted",
    "Dedalus.Spin.product_check_partial"
   ],
   "note": "False as stated: CoordinateSystem.__eq__ compares only the first coordinate (coordsys_eq_refuted); coordsys_eq_partial says exactly what it decides. DirectProduct's check for repeated coordinates compares object identities (product_check_refuted / product_check_partial)."
  },
  {
   "property": "C44",
   "status": "proved",
   "theorems": [
    "Dedalus.Tensor.multiply_components",
    "Dedalus.Tensor.multiply_coupling",
    "Dedalus.Tensor.dot_components",
    "Dedalus.Tensor.dot_coupling",
    "Dedalus.Tensor.dot_indices",
    "Dedalus.Tensor.cross_is_cross",
    "Dedalus.Tensor.cross_orthogonal",
    "Dedalus.Tensor.cross_coupling"
   ],
   "note": "Outer, dot and cross products: grid formulas (the einsum string is modelled label by label), index handling, and agreement of the coupling arrays with the grid formulas, for all ranks, dimensions and index choices."
  },
  {
   "property": "C45",
   "status": "proved",
   "theorems": [
    "Dedalus.Field.low_pass_truncates",
    "Dedalus.Field.high_pass_complement",
    "Dedalus.Field.low_pass_idempotent",
    "Dedalus.Field.filters_twice"
   ],
   "note": "Low pass truncates along all axes at the filter scales whatever the layout, high pass is the complement, both are projections."
  },
  {
   "property": "C46",
   "status": "partial",
   "theorems": [
    "Dedalus.Bvp.linear_solve",
    "Dedalus.Bvp.builtAt_current",
    "Dedalus.Bvp.other_modes_partial",
    "Dedalus.Bvp.other_modes_refuted",
    "Dedalus.Bvp.newton_partial",
    "Dedalus.Bvp.newton_after_exception_refuted",
    "Dedalus.Bvp.equations_hold"
   ],
   "note": "Linear solves: proved for every history of calls, edits, choices of subproblems and rebuilds (matrix solvers assumed exact), down to the equations themselves; modes of other subproblems are lost if the state is in grid space (refuted). Newton iterations: proved while none has raised; after an exception the next iteration uses the stale residual (refuted)."
  },
  {
   "property": "C47",
   "status": "partial",
   "theorems": [
    "Dedalus.Solver.step_clock",
    "Dedalus.Solver.evolve_trace",
    "Dedalus.Solver.initial_time_refuted",
    "Dedalus.Solver.initial_time_partial",
    "Dedalus.Step.multistep_clock",
    "Dedalus.Step.rk_step_equations"
   ],
   "note": "Clock exact for all runs; a negative initial time is replaced by its absolute value (refuted)."
  },
  {
   "property": "C48",
   "status": "proved",
   "theorems": [
    "Dedalus.Symb.add_simplify_value",
    "Dedalus.Symb.mul_simplify_value",
    "Dedalus.Symb.product_value",
    "Dedalus.Symb.operator_value",
    "Dedalus.Symb.power_value"
   ],
   "note": "all argument lists"
  },
  {
   "property": "C49",
   "status": "proved",
   "theorems": [
    "Dedalus.Fourier.complex_derivative",
    "Dedalus.Fourier.real_derivative",
    "Dedalus.Fourier.complex_integral",
    "Dedalus.Fourier.real_integral",
    "Dedalus.Fourier.fourier_interpolation",
    "Dedalus.Fourier.fourier_constants"
   ],
   "note": "Fourier series on any interval: derivative, integral, average, interpolation and constants, against Mathlib's HasDerivAt and interval integral."
  },
  {
   "property": "C50",
   "status": "partial",
   "theorems": [
    "Dedalus.Sphere.swsh_unresolved_partial",
    "Dedalus.Sphere.swsh_unresolved_refuted",
    "Dedalus.Zernike.disk_unresolved",
    "Dedalus.Zernike.ball_unresolved"
   ],
   "note": "Sphere: unresolved degrees are dropped for every order up to the grid size or beyond the middle of (grid size, Lmax + 1]; in between the code keeps unresolved degrees (refuted). Disk and ball: proved for every order or degree, component, size and k."
  },
  {
   "property": "C51",
   "status": "partial",
   "theorems": [
    "Dedalus.Solver.forces_fresh_refuted",
    "Dedalus.Solver.forces_fresh_partial"
   ],
   "note": "True while step iterations increase; refuted after loading an earlier state."
  },
  {
   "property": "C52",
   "status": "partial",
   "theorems": [
    "Dedalus.Symb.ivp_matrices_partial",
    "Dedalus.Symb.ivp_matrices_refuted"
   ],
   "note": "equations whose coefficients contain no time derivative; dt of a coefficient is accepted and misread (refuted)"
  },
  {
   "property": "C53",
   "status": "proved",
   "theorems": [
    "Dedalus.Symb.evp_matrices"
   ],
   "note": "all accepted equations, the eigenvalue not being one of the variables"
  },
  {
   "property": "C54",
   "status": "partial",
   "theorems": [
    "Dedalus.Symb.lbvp_matrices",
    "Dedalus.Symb.nlbvp_newton_partial"
   ],
   "note": "linear problems: all accepted equations; nonlinear problems: functions applied to scalars; unlocking of locked fields not modelled"
  },
  {
   "property": "C55",
   "status": "partial",
   "theorems": [
    "Dedalus.Eval.system_fields_partial",
    "Dedalus.Eval.system_fields_refuted"
   ],
   "note": "Proved for distinct operator objects; refuted for equations sharing one right-hand side object."
  },
  {
   "property": "C56",
   "status": "proved",
   "theorems": [
    "Dedalus.Cache.same_arguments_same_object"
   ],
   "note": "For every canonicaliser of arguments and every history of instantiations and collections."
  },
  {
   "property": "C57",
   "status": "proved",
   "theorems": [
    "Dedalus.Rotate.directory_exists",
    "Dedalus.Rotate.directory_made_once"
   ],
   "note": "All interleavings."
  },
  {
   "property": "C58",
   "status": "proved",
   "theorems": [
    "Dedalus.Cosine.chebyshev_grid",
    "Dedalus.Cosine.cosine_backward_evaluates",
    "Dedalus.Cosine.cosine_forward_exact",
    "Dedalus.Cosine.chebyshev_backward_evaluates",
    "Dedalus.Cosine.chebyshev_forward_exact",
    "Dedalus.Cosine.chebyshev_round_trip",
    "Dedalus.Cosine.chebyshev_product_dealiased",
    "Dedalus.Cosine.chebyshev_convert_backward_evaluates",
    "Dedalus.Cosine.chebyshev_convert_round_trip"
   ],
   "note": "Exact real arithmetic. The conversion matrix and the triangular solver enter through their defining equations (see C32 and C59)."
  },
  {
   "property": "C59",
   "status": "proved",
   "theorems": [
    "Dedalus.Jacobi.polynomials_classical",
    "Dedalus.Jacobi.polynomials_orthonormal",
    "Dedalus.Jacobi.conversion_preserves",
    "Dedalus.Jacobi.conversion_possible",
    "Dedalus.Jacobi.differentiate_exact",
    "Dedalus.Jacobi.interpolate_exact",
    "Dedalus.Jacobi.integrate_exact",
    "Dedalus.Jacobi.average_exact",
    "Dedalus.Jacobi.convert_constant_exact",
    "Dedalus.Jacobi.jacobi_matrix_multiplies"
   ],
   "note": "All sizes, real parameters above -1, intervals and coefficients. Integration and averaging are proved up to the coefficients the code drops by its cutoff."
  },
  {
   "property": "C60",
   "status": "proved",
   "theorems": [
    "Dedalus.Jacobi.ncc_matrix_exact",
    "Dedalus.Jacobi.ncc_matrix_possible",
    "Dedalus.Jacobi.coefficients_unique",
    "Dedalus.Jacobi.product_matrix_exact"
   ],
   "note": "The matrix has as many rows as the operand has modes; rows beyond are not built by the code."
  },
  {
   "property": "C61",
   "status": "proved",
   "theorems": [
    "Dedalus.Jacobi.quadrature_grid",
    "Dedalus.Jacobi.quadrature_exact",
    "Dedalus.Jacobi.matrix_backward_evaluates",
    "Dedalus.Jacobi.matrix_round_trip",
    "Dedalus.Jacobi.matrix_forward_possible",
    "Dedalus.Jacobi.matrix_forward_projects",
    "Dedalus.Jacobi.matrix_product_dealiased",
    "Dedalus.Jacobi.fast_forward_is_matrix",
    "Dedalus.Jacobi.fast_convert_is_matrix",
    "Dedalus.Jacobi.fast_convert_round_trip"
   ],
   "note": "The eigenvalue solver behind grid_guess is specified (sorted eigenvalues of the Jacobi matrix, shown to exist), not modelled."
  },
  {
   "property": "C62",
   "status": "partial",
   "theorems": [
    "Dedalus.Jacobi.lift_partial",
    "Dedalus.Jacobi.lift_out_of_range_refuted"
   ],
   "note": "Holds for indices in range; out of range indices are not rejected (refuted)."
  },
  {
   "property": "C63",
   "status": "partial",
   "theorems": [
    "Dedalus.Spin.intertwiner_unitary",
    "Dedalus.Spin.intertwiner_order",
    "Dedalus.Spin.spin_components",
    "Dedalus.Spin.spin_round_trip_complex",
    "Dedalus.Spin.spin_real_complex",
    "Dedalus.Spin.spin_round_trip_real",
    "Dedalus.Spin.matrix_recombines",
    "Dedalus.Spin.matrix_recombines_upstream",
    "Dedalus.Spin.real_matrix_correct",
    "Dedalus.Spin.matrix_keeps_complex",
    "Dedalus.Spin.matrix_keeps_real_refuted",
    "Dedalus.Spin.matrix_keeps_real_partial"
   ],
   "note": "False as stated: spin_recombination_matrix fills the placeholders of the cached factor list in place, after which transforms of real tensors with an index over other coordinates fail (matrix_keeps_real_refuted). Everything else is proved; the radial (regularity) intertwiner of spherical coordinates is C64."
  },
  {
   "property": "C64",
   "status": "proved",
   "theorems": [
    "Dedalus.Regularity.forbidden_regularity_correct",
    "Dedalus.Regularity.allowed_vectorized_correct",
    "Dedalus.Regularity.regularity_round_trip",
    "Dedalus.Regularity.spin_round_trip",
    "Dedalus.Regularity.regularity_isometry",
    "Dedalus.Regularity.components_listed"
   ],
   "note": "All ranks and degrees, exact reals; the recombinations at one point, over all components in the code's order."
  },
  {
   "property": "C65",
   "status": "partial",
   "theorems": [
    "Dedalus.Sphere.slots_complex_partial",
    "Dedalus.Sphere.columns_complex_partial",
    "Dedalus.Sphere.slots_real_partial",
    "Dedalus.Sphere.columns_real_partial",
    "Dedalus.Sphere.slots_complex_refuted"
   ],
   "note": "Holds when the azimuthal size is at most 2(Lmax+1) (complex) or 2 Lmax + 4 (real); one size above that, which is accepted without a warning, the complex layout has a slot labelled (-1, 0), which is no mode (refuted)."
  },
  {
   "property": "C66",
   "status": "proved",
   "theorems": [
    "Dedalus.Sphere.harmonics_orthonormal",
    "Dedalus.Sphere.swsh_backward_exact",
    "Dedalus.Sphere.swsh_forward_exact",
    "Dedalus.Sphere.swsh_round_trip",
    "Dedalus.Sphere.swsh_above",
    "Dedalus.Sphere.swsh_interpolate_exact"
   ],
   "note": "All sizes, orders, spin weights and data. The Gauss grid is the one of C61."
  },
  {
   "property": "C67",
   "status": "proved",
   "theorems": [
    "Dedalus.Sphere.sphere_gradient_spin",
    "Dedalus.Sphere.sphere_gradient",
    "Dedalus.Sphere.sphere_divergence",
    "Dedalus.Sphere.sphere_laplacian_spin",
    "Dedalus.Sphere.sphere_laplacian",
    "Dedalus.Sphere.sphere_average",
    "Dedalus.Sphere.sphere_constant",
    "Dedalus.Sphere.mul_cosine_projection",
    "Dedalus.Sphere.mul_cosine_exact"
   ],
   "note": "Components of order m are F(theta) exp(i m phi); the statements are for each order and every spin weight, at every point except the poles."
  },
  {
   "property": "C68",
   "status": "partial",
   "theorems": [
    "Dedalus.Sphere.sphere_product_complex_partial",
    "Dedalus.Sphere.sphere_product_real_partial",
    "Dedalus.Sphere.sphere_product_folded_partial",
    "Dedalus.Sphere.sphere_product_real_refuted",
    "Dedalus.Sphere.sphere_product_sign_refuted"
   ],
   "note": "Complex dtype: exact for every order, degree, spin weight and coefficient when Nphi <= 2 Ntheta. Real dtype: exact for m < mmax//4, and for orders stored in decreasing degree when the coefficient has no minus sine part. The code is wrong otherwise: it reverses degrees from mmax//4 on although they are stored reversed only from Nphi/4 on (sphere_product_real_refuted), and the reversal swaps the parts and so flips the sign of imaginary components (sphere_product_sign_refuted)."
  },
  {
   "property": "C69",
   "status": "partial",
   "theorems": [
    "Dedalus.Zernike.zernike_functions",
    "Dedalus.Zernike.zernike_polynomials",
    "Dedalus.Zernike.disk_backward_evaluates",
    "Dedalus.Zernike.disk_forward_exact",
    "Dedalus.Zernike.disk_forward_dealiases",
    "Dedalus.Zernike.disk_round_trip_partial",
    "Dedalus.Zernike.disk_round_trip_dealiased",
    "Dedalus.Zernike.disk_round_trip_refuted",
    "Dedalus.Zernike.disk_backward_evaluates_refuted",
    "Dedalus.Zernike.ball_backward_evaluates",
    "Dedalus.Zernike.ball_forward_exact",
    "Dedalus.Zernike.ball_round_trip_partial",
    "Dedalus.Zernike.ball_round_trip_refuted"
   ],
   "note": "Exact values and round trips proved for every resolved coefficient. Refuted as stated: without dealiasing the transforms drop the highest coefficient of components with |m+s|//2 > |m|//2 (disk) or of raised regularity (ball), and ignore the valid order |m| = 2 Nmax + 1. The Newton polish of the grid is assumed to end at the roots, as in C61."
  },
  {
   "property": "C70",
   "status": "proved",
   "theorems": [
    "Dedalus.Zernike.disk_gradient_spin",
    "Dedalus.Zernike.disk_divergence_spin",
    "Dedalus.Zernike.disk_gradient",
    "Dedalus.Zernike.disk_divergence",
    "Dedalus.Zernike.disk_laplacian",
    "Dedalus.Zernike.disk_conversion",
    "Dedalus.Zernike.disk_interpolation",
    "Dedalus.Zernike.disk_constant",
    "Dedalus.Zernike.disk_integral",
    "Dedalus.Zernike.disk_lift"
   ],
   "note": "All matrices of the disk operators for every order and spin weight, and the physical components of gradient and divergence. Interpolation at the centre is not modelled (the code takes log(0))."
  },
  {
   "property": "C71",
   "status": "proved",
   "theorems": [
    "Dedalus.Ball.harmonic_ladder",
    "Dedalus.Ball.ball_gradient",
    "Dedalus.Ball.ball_divergence",
    "Dedalus.Ball.ball_curl",
    "Dedalus.Ball.ball_laplacian",
    "Dedalus.Ball.ball_conversion",
    "Dedalus.Ball.ball_interpolation",
    "Dedalus.Ball.ball_constant",
    "Dedalus.Ball.ball_integral",
    "Dedalus.Ball.ball_lift"
   ],
   "note": "Per azimuthal order and degree, exact arithmetic, spin components as functions of the radius. The specification of covariant derivatives is Verif/Regularity/Spec.lean; harmonic_ladder ties its angular coefficients to the spin-weighted harmonics. Interpolation at the centre (position 0, where the code takes a logarithm or power of 0) and the real-dtype storage of the curl matrix are not covered."
  },
  {
   "property": "C72",
   "status": "partial",
   "theorems": [
    "Dedalus.Contract.transpose_partial",
    "Dedalus.Contract.transpose_negative_refuted",
    "Dedalus.Contract.spherical_trace_exact",
    "Dedalus.Contract.spherical_transpose_exact",
    "Dedalus.Contract.spherical_transpose_evaluation",
    "Dedalus.Contract.trace_cartesian",
    "Dedalus.Contract.trace_polar",
    "Dedalus.Contract.trace_spherical",
    "Dedalus.Contract.trace_product",
    "Dedalus.Contract.skew_cartesian",
    "Dedalus.Contract.skew_spin",
    "Dedalus.Contract.skew_real",
    "Dedalus.Contract.skew_cartesian_matrix_partial",
    "Dedalus.Contract.skew_negative_refuted",
    "Dedalus.Contract.skew_spin_matrix_partial",
    "Dedalus.Contract.skew_spin_matrix_refuted",
    "Dedalus.Contract.component_partial",
    "Dedalus.Contract.component_signature_refuted",
    "Dedalus.Contract.selection_matrix",
    "Dedalus.Contract.cartesian_component_partial",
    "Dedalus.Contract.cartesian_component_refuted",
    "Dedalus.Contract.transpose_rejects"
   ],
   "note": "Traces in Cartesian, polar, spherical (regularity and spin) and product coordinates, transposition in frame and regularity components, the rotation by a right angle on frame, spin and real data, its matrices and components are proved for nonnegative indices. Refuted: negative indices in TransposeComponents, in the matrix of CartesianSkew and in the tensor signature of RadialComponent; CartesianComponent with index >= 1 (np.newaxis instead of a full slice); the real matrix of SpinSkew when the axis at the place of the azimuth without the rank has another size."
  },
  {
   "property": "C73",
   "status": "proved",
   "theorems": [
    "Dedalus.Shell.annulus_gradient_spin",
    "Dedalus.Shell.annulus_divergence_spin",
    "Dedalus.Shell.annulus_gradient",
    "Dedalus.Shell.annulus_divergence",
    "Dedalus.Shell.annulus_laplacian",
    "Dedalus.Shell.shell_gradient",
    "Dedalus.Shell.shell_divergence",
    "Dedalus.Shell.shell_curl",
    "Dedalus.Shell.shell_laplacian"
   ],
   "note": "Floats are real numbers. Annulus: per spin component and azimuthal order, then in azimuthal and radial components for scalars and vectors. Shell: per degree, tensors of every rank in spin components (recombination as in C71)."
  },
  {
   "property": "C74",
   "status": "partial",
   "theorems": [
    "Dedalus.Shell.grid_inside",
    "Dedalus.Shell.backward_evaluates",
    "Dedalus.Shell.transform_round_trip",
    "Dedalus.Shell.radial_conversion_partial",
    "Dedalus.Shell.radial_conversion_refuted",
    "Dedalus.Shell.radial_interpolation",
    "Dedalus.Shell.shell_interpolation",
    "Dedalus.Shell.annulus_constant",
    "Dedalus.Shell.shell_constant",
    "Dedalus.Shell.annulus_lift",
    "Dedalus.Shell.shell_lift",
    "Dedalus.Shell.annulus_integral_partial",
    "Dedalus.Shell.annulus_average_partial",
    "Dedalus.Shell.shell_integral_partial",
    "Dedalus.Shell.annulus_integral_refuted",
    "Dedalus.Shell.shell_integral_refuted",
    "Dedalus.Shell.radial_product"
   ],
   "note": "Transforms, interpolation, constants (for k < N), lifting and NCC products are exact. Conversion of order k is refuted: the matrix is the truncation of the exact expansion, so it is exact only if the top dk coefficients vanish; every basis has a field it changes. Integrals are exact for k ≤ 1 (annulus) and k ≤ 2 (shell) and refuted for k = 2 and k = 3."
  },
  {
   "property": "C75",
   "status": "partial",
   "theorems": [
    "Dedalus.Cart.gradient_exact",
    "Dedalus.Cart.divergence_partial",
    "Dedalus.Cart.laplacian_partial",
    "Dedalus.Cart.laplacian_constant_refuted",
    "Dedalus.Cart.laplacian_divergence_gradient",
    "Dedalus.Cart.curl_partial",
    "Dedalus.Cart.curl_constant_refuted",
    "Dedalus.Cart.curl_tensor_refuted",
    "Dedalus.Cart.divergence_index_refuted",
    "Dedalus.Cart.gradient_product",
    "Dedalus.Cart.divergence_product_partial",
    "Dedalus.Cart.laplacian_product_partial",
    "Dedalus.Cart.laplacian_product_refuted",
    "Dedalus.Cart.curl_product_partial",
    "Dedalus.Cart.curl_product_refuted",
    "Dedalus.Cart.divergence_product_constant_refuted",
    "Dedalus.Cart.apply_axis_exact",
    "Dedalus.Cart.derivative_axis",
    "Dedalus.Cart.integral_axis",
    "Dedalus.Cart.interpolation_axis",
    "Dedalus.Cart.conversion_axis",
    "Dedalus.Cart.axes_commute"
   ],
   "note": "Missing: constants, tensor indices other than the last for the curl, mixed direct products (see the refuted theorems)."
  },
  {
   "property": "C76",
   "status": "partial",
   "theorems": [
    "Dedalus.Cart.integrate_partial",
    "Dedalus.Cart.average_partial",
    "Dedalus.Cart.interpolate_partial",
    "Dedalus.Cart.positions_apply",
    "Dedalus.Cart.integrate_constant_refuted",
    "Dedalus.Cart.integrate_axis_refuted",
    "Dedalus.Cart.integrate_product_refuted"
   ],
   "note": "The operand must have a basis along every coordinate of the list (refuted otherwise); curvilinear bases among the factors are not modelled here (C66-C73 integrate them alone)."
  },
  {
   "property": "C77",
   "status": "partial",
   "theorems": [
    "Dedalus.Domain.unify_signature_partial",
    "Dedalus.Domain.system_eq_iff",
    "Dedalus.Domain.axis_partial",
    "Dedalus.Domain.system_eq_refuted",
    "Dedalus.Domain.unify_signature_refuted",
    "Dedalus.Domain.repeated_name_refuted",
    "Dedalus.Domain.repeated_iff"
   ],
   "note": "Holds among systems without common coordinates and for coordinates with different names; refuted in general: the comparison stops after the first coordinate, and repeated names are not detected."
  },
  {
   "property": "C78",
   "status": "partial",
   "theorems": [
    "Dedalus.Domain.domain_partial",
    "Dedalus.Domain.domain_order",
    "Dedalus.Domain.domain_rejects",
    "Dedalus.Domain.per_axis_exact",
    "Dedalus.Domain.get_basis_exact",
    "Dedalus.Domain.substitute_exact",
    "Dedalus.Domain.domain_overlap_refuted"
   ],
   "note": "Overlapping bases over a system and over one of its coordinates are accepted (refuted)."
  },
  {
   "property": "C79",
   "status": "partial",
   "theorems": [
    "Dedalus.Domain.sum_domain_partial",
    "Dedalus.Domain.sum_symmetric_partial",
    "Dedalus.Domain.product_domain_partial",
    "Dedalus.Domain.product_symmetric_partial",
    "Dedalus.Domain.sum_domain_refuted",
    "Dedalus.Domain.product_domain_refuted",
    "Dedalus.Domain.sum_overlap_refuted"
   ],
   "note": "Bases over a single coordinate of a curvilinear system, such as the edge of a disk, are lost or raise (refuted). Bases of NCC products (C51) are not part of this model."
  },
  {
   "property": "C80",
   "status": "proved",
   "theorems": [
    "Dedalus.Dispatch.dispatch_exact",
    "Dedalus.Dispatch.selection_unique",
    "Dedalus.Dispatch.dispatch_order",
    "Dedalus.Dispatch.dispatch_failures"
   ],
   "note": "Checks that raise are outside of the order theorem, which speaks about calls that make an instance."
  },
  {
   "property": "C81",
   "status": "partial",
   "theorems": [
    "Dedalus.Bvp.eigenvector_equations",
    "Dedalus.Bvp.shift_invert",
    "Dedalus.Bvp.shift_invert_left",
    "Dedalus.Bvp.set_state_equations",
    "Dedalus.Bvp.left_eigenvector",
    "Dedalus.Bvp.biorthonormal_partial",
    "Dedalus.Bvp.biorthonormal_refuted"
   ],
   "note": "Proved for finite eigenvalues, scipy's routines assumed to keep their contract. Biorthonormality holds for different eigenvalues and is refuted for repeated ones."
  },
  {
   "property": "C82",
   "status": "partial",
   "theorems": [
    "Dedalus.Matsolv.solver_exact",
    "Dedalus.Matsolv.solve_H_exact",
    "Dedalus.Matsolv.solve_H_refused",
    "Dedalus.Matsolv.banded_storage",
    "Dedalus.Matsolv.woodbury_inner",
    "Dedalus.Matsolv.woodbury_exact_partial",
    "Dedalus.Matsolv.woodbury_refuted",
    "Dedalus.Matsolv.woodbury_rank_zero",
    "Dedalus.Matsolv.select_iff",
    "Dedalus.Matsolv.woodbury_name_refuted",
    "Dedalus.Matsolv.broken_classes_refuted",
    "Dedalus.Matsolv.override_refuted",
    "Dedalus.Matsolv.named_solver_exact",
    "Dedalus.Matsolv.bvp_exact"
   ],
   "note": "All classes that can be used are exact, shape included, assuming the scipy/umfpack/pybanded routines are exact on nonsingular matrices. False of the code: SPQR_solve raises NameError, BlockInverse raises ImportError, all woodbury names raise AttributeError, and the Woodbury class fails when the matrix without borders is singular. Options required by a matrix solver raise TypeError instead of being applied."
  },
  {
   "property": "C83",
   "status": "partial",
   "theorems": [
    "Dedalus.Cfl.frequency_exact",
    "Dedalus.Cfl.spacings_positive",
    "Dedalus.Cfl.spacing_meaning",
    "Dedalus.Cfl.courant",
    "Dedalus.Cfl.timestep_courant",
    "Dedalus.Cfl.product_chebyshev_refuted",
    "Dedalus.Cfl.axisymmetric_refuted",
    "Dedalus.Cfl.reversed_bounds_refuted",
    "Dedalus.Cfl.grid_spacing_overwritten_refuted",
    "Dedalus.Cfl.coarse_grid_raises"
   ],
   "note": "Exact value and independence of the distribution (frequency_exact), positivity (spacings_positive), closed forms (spacing_meaning), Courant bound (courant) and its composition with the adaptive timestep (timestep_courant), for resolved grids with bounds in order. Missing because false of the code: a Chebyshev coordinate that is not in the first coordinate system, axisymmetric disks, annuli and spheres, bounds in reverse order; and the calculation overwrites a cached grid spacing. That Gauss points form a good grid is a hypothesis for Jacobi grids other than Chebyshev."
  },
  {
   "property": "C84",
   "status": "partial",
   "theorems": [
    "Dedalus.Maps.degree_maps_complex_partial",
    "Dedalus.Maps.degree_maps_real_partial",
    "Dedalus.Maps.own_degree",
    "Dedalus.Maps.degree_maps_complex_refuted",
    "Dedalus.Maps.degree_maps_real_refuted",
    "Dedalus.Maps.degree_maps_order_refuted"
   ],
   "note": "False in general: for even Lmax and Lmax/2+2 <= Nphi/2 <= Lmax (complex) or Lmax/2+3 <= Nphi/2 <= Lmax+1 (real) the slices for degree Lmax/2 also cover coefficients of order 1 and another degree (refuted for all those sizes). Proved for all other sizes, for every local block. The case Nphi = 1 is not modelled."
  },
  {
   "property": "C85",
   "status": "partial",
   "theorems": [
    "Dedalus.Agree.radial_operator_agrees",
    "Dedalus.Agree.coupled_operator_agrees",
    "Dedalus.Agree.shell_coupled_complex_partial",
    "Dedalus.Agree.shell_coupled_real_partial",
    "Dedalus.Agree.spherical_operator_agrees_complex_partial",
    "Dedalus.Agree.spherical_operator_agrees_real_partial",
    "Dedalus.Agree.real_curl_agrees",
    "Dedalus.Agree.real_curl_agrees_partial",
    "Dedalus.Agree.symbol_operator_agrees",
    "Dedalus.Agree.real_curl_coupled_refuted",
    "Dedalus.Agree.ball_coupled_refuted"
   ],
   "note": "False in general: the curl of real data and every operator in balls have no usable matrix when the degree is coupled (refuted), and the sizes of C84. Proved: separable degree or order for any maps that are a partition, closed for the sphere packing with complex and real data; the real curl; coupled degree in shells; symbol operators on the sphere. For disks and annuli that m_maps is a partition is a hypothesis. Interpolation, lift and MulCosine are not included."
  },
  {
   "property": "C86",
   "status": "partial",
   "theorems": [
    "Dedalus.Zncc.ball_product",
    "Dedalus.Zncc.ball_product_real",
    "Dedalus.Zncc.ball_zero",
    "Dedalus.Zncc.radial_coefficients_unique",
    "Dedalus.Zncc.disk_product_partial",
    "Dedalus.Zncc.disk_product_real_partial",
    "Dedalus.Zncc.disk_padding_refuted",
    "Dedalus.Zncc.disk_truncation_refuted",
    "Dedalus.Zncc.disk_real_refuted"
   ],
   "note": "Ball: proved for real and complex data and components of the coefficient of total regularity at most 2 (tensors up to rank 2). Disk: proved for the coefficients of the product below a bound; false of the code above it (matrices are not padded), for coefficients with more terms than the operand has, and for real data from azimuthal order 2 (cos and sine rows split at the wrong place)."
  },
  {
   "property": "C87",
   "status": "proved",
   "theorems": [
    "Dedalus.Output.gather_output",
    "Dedalus.Output.parallel_output",
    "Dedalus.Output.virtual_output",
    "Dedalus.Output.repeated_name_fails"
   ],
   "note": "All three kinds of handlers, any number of outputs, any distribution. Dimension scales, chunking, dtypes and the HDF5 library are not modelled; a virtual dataset reads the sources that cover an element."
  },
  {
   "property": "C88",
   "status": "partial",
   "theorems": [
    "Dedalus.Output.merge_task_result",
    "Dedalus.Output.merge_task_crash",
    "Dedalus.Output.merge_task_retry_refuted"
   ],
   "note": "The result and the stopping points are proved. Repeating a stopped run fails (merge_task_retry_refuted)."
  },
  {
   "property": "C89",
   "status": "partial",
   "theorems": [
    "Dedalus.Output.merge_virtual_file_refuted",
    "Dedalus.Output.merge_virtual_file_again_refuted",
    "Dedalus.Output.merge_distributed_set_refuted",
    "Dedalus.Output.merge_distributed_set_partial"
   ],
   "note": "False of the code: the attributes that the post-processing tools read (task_number, set_number of process files, start, count) are not written by the handlers, so every merge of a non-empty set raises, after replacing the joint file. Proved: the process files are kept."
  },
  {
   "property": "C90",
   "status": "proved",
   "theorems": [
    "Dedalus.BasisOps.sum_basis",
    "Dedalus.BasisOps.sum_constants",
    "Dedalus.BasisOps.sum_basis_fails",
    "Dedalus.BasisOps.sum_order",
    "Dedalus.BasisOps.sum_grouping"
   ],
   "note": "All base classes; parameters that are only compared are opaque numbers. The exception for radial bases is the hypothesis SameLibrary."
  },
  {
   "property": "C91",
   "status": "partial",
   "theorems": [
    "Dedalus.BasisOps.product_order",
    "Dedalus.BasisOps.product_resolution_partial",
    "Dedalus.BasisOps.product_resolution_refuted",
    "Dedalus.BasisOps.product_grouping_partial",
    "Dedalus.BasisOps.product_grouping_refuted",
    "Dedalus.BasisOps.ncc_product_contains_operand",
    "Dedalus.BasisOps.ncc_product_resolution_partial",
    "Dedalus.BasisOps.ncc_product_resolution_refuted",
    "Dedalus.BasisOps.product_constant"
   ],
   "note": "False of the code in part. A radial basis times a shell or ball basis, and a coefficient on a shell or ball, lose modes of one factor (product_resolution_refuted, ncc_product_resolution_refuted). In balls, and for sphere times radial bases, the result depends on the grouping (product_grouping_refuted). Proved: order, upward conversion, resolution of the other products, grouping within a class and in shells."
  },
  {
   "property": "C92",
   "status": "partial",
   "theorems": [
    "Dedalus.BasisOps.annulus_sum_partial",
    "Dedalus.BasisOps.annulus_sum_raises",
    "Dedalus.BasisOps.axisymmetric_sum_refuted"
   ],
   "note": "False of the code: basis equality ignores the shape, so no conversion is made, and for complex data numpy repeats the axisymmetric coefficients over all azimuthal modes (axisymmetric_sum_refuted, for every resolution and all data). Proved: equal bases, and an exception for the other azimuthal sizes. Only scalar fields in an annulus on one process in coefficient space, with equal k."
  },
  {
   "property": "C93",
   "status": "partial",
   "theorems": [
    "Dedalus.Orders.sphere_order_maps",
    "Dedalus.Orders.distributed_swsh",
    "Dedalus.Orders.polar_order_maps_partial",
    "Dedalus.Orders.polar_axisymmetric",
    "Dedalus.Orders.polar_no_modes_refuted",
    "Dedalus.Orders.polar_two_points_refuted",
    "Dedalus.Orders.disk_top_order_refuted"
   ],
   "note": "Proved for every accepted sphere with Nphi <= 2 Ntheta, every annulus and every disk whose orders have radial modes; real axisymmetric disks separately. False of the code for disks with Nphi = 4 Nr (complex: error; real: the highest order is dropped) and for two azimuthal points on two processes (error)."
  },
  {
   "property": "C94",
   "status": "partial",
   "theorems": [
    "Dedalus.Average.azimuthal_average_partial",
    "Dedalus.Average.azimuthal_average_refuted",
    "Dedalus.Average.polar_azimuthal_average",
    "Dedalus.Average.spherical_average"
   ],
   "note": "False of the code as it is: with the colatitude distributed and different column counts of the two bases, the boolean assignment in the azimuthal average has different numbers of entries and raises (azimuthal_average_refuted). Proved: the azimuthal average on spheres, shells and balls when the column blocks agree, on disks and annuli always, and the averages of scalars over spheres on every mesh. Vectors in SphereAverage are not covered (the slices address tensor axes)."
  },
  {
   "property": "C95",
   "status": "partial",
   "theorems": [
    "Dedalus.SphereField.sphere_values_real",
    "Dedalus.SphereField.sphere_round_trip_real",
    "Dedalus.SphereField.sphere_values_complex",
    "Dedalus.SphereField.sphere_round_trip_complex",
    "Dedalus.SphereField.spin_weights",
    "Dedalus.SphereField.sphere_scalar_part",
    "Dedalus.SphereField.sphere_vector_part",
    "Dedalus.SphereField.sphere_colatitude_round_trip_partial",
    "Dedalus.SphereField.sphere_colatitude_round_trip_refuted"
   ],
   "note": "Proved for tensors of every rank, real and complex data, on one process: grid values (sphere_values_real, sphere_values_complex; scalars and vectors spelled out), coefficients to grid and back (real data: if the part of order zero is real, as for every real field), and coefficients to the intermediate layout and back when there are orders above zero. Refuted for the intermediate layout of real axisymmetric data (Nphi = 1): both rows of the intermediate data get the real part, and going back multiplies the encoded coefficients with 1 + i. Several processes are covered by C93 (distributed_swsh) and by the transposes of C03."
  },
  {
   "property": "C96",
   "status": "partial",
   "theorems": [
    "Dedalus.Ghost.product_on_processes",
    "Dedalus.Ghost.contraction_on_processes",
    "Dedalus.Ghost.cross_on_processes",
    "Dedalus.Ghost.collectives_agree",
    "Dedalus.Ghost.bases_compatible_partial",
    "Dedalus.Ghost.products_refuted"
   ],
   "note": "Tensor products, contractions and cross products are proved for every mesh, history and tensor rank, with agreement of all collective calls, for arguments that along each axis have the grid of the product or are marked as constant with one point; bases_compatible_partial proves that domains on all bases meet this for all scales. False of the code for the average over a sphere (its colatitude is not marked as constant, so the product with a field fails on the second process) and for two azimuthal modes in a disk (marked as constant): products_refuted."
  },
  {
   "property": "C97",
   "status": "partial",
   "theorems": [
    "Dedalus.PolarField.disk_values_real_partial",
    "Dedalus.PolarField.disk_round_trip_real_partial",
    "Dedalus.PolarField.disk_values_complex_partial",
    "Dedalus.PolarField.disk_round_trip_complex_partial",
    "Dedalus.PolarField.annulus_values_real_partial",
    "Dedalus.PolarField.annulus_round_trip_real_partial",
    "Dedalus.PolarField.annulus_values_complex_partial",
    "Dedalus.PolarField.annulus_round_trip_complex_partial",
    "Dedalus.PolarField.polar_scalar_part",
    "Dedalus.PolarField.polar_vector_part",
    "Dedalus.PolarField.disk_scalar_kept",
    "Dedalus.PolarField.disk_vector_kept_refuted",
    "Dedalus.PolarField.annulus_factor_last",
    "Dedalus.PolarField.annulus_factor_axis_refuted"
   ],
   "note": "Proved for one process, both dtypes, all signatures with the polar pair and all sizes with fewer than four times as many azimuthal points as radial modes in the disk. Refuted: with an axis after the radius the annulus factor runs along that axis; on a grid of as many radii as modes vectors in the disk lose the last coefficient of spin +1 of odd orders; two azimuthal points and the top order of the disk fail already in C93."
  },
  {
   "property": "C98",
   "status": "partial",
   "theorems": [
    "Dedalus.VolumeField.ball_values_real_partial",
    "Dedalus.VolumeField.ball_values_complex_partial",
    "Dedalus.VolumeField.ball_round_trip_real_partial",
    "Dedalus.VolumeField.ball_round_trip_complex_partial",
    "Dedalus.VolumeField.shell_values_real_partial",
    "Dedalus.VolumeField.shell_values_complex_partial",
    "Dedalus.VolumeField.shell_round_trip_real_partial",
    "Dedalus.VolumeField.shell_round_trip_complex_partial",
    "Dedalus.VolumeField.other_signature_rejected",
    "Dedalus.VolumeField.ball_degree_refuted",
    "Dedalus.VolumeField.scalar_coefficient",
    "Dedalus.VolumeField.vector_coefficient"
   ],
   "note": "Proved for all ranks, sizes with separated degrees (all sizes for scalars in the shell), grids, parameters and data. Refuted for other sizes that the constructor accepts: a complex ball of shape (8, 5, Nr) ignores the coefficient of order 1, degree 1 and lowest radial function, because the slices of two degrees overlap. Real round trips assume that the part of order zero is real, as for C96 and C97."
  },
  {
   "property": "C99",
   "status": "partial",
   "theorems": [
    "Dedalus.Integral.disk_field_integral",
    "Dedalus.Integral.annulus_field_integral_partial",
    "Dedalus.Integral.annulus_field_integral_refuted",
    "Dedalus.Integral.ball_field_integral",
    "Dedalus.Integral.shell_field_integral_partial",
    "Dedalus.Integral.shell_field_integral_refuted"
   ],
   "note": "Proved for disks and balls of every order, annuli of order at most 1 and shells of order at most 2, on every mesh. False of the code for annuli of order 2 and shells of order 3, because the quadrature is not exact for the negative powers of the radius: refuted."
  },
  {
   "property": "C100",
   "status": "partial",
   "theorems": [
    "Dedalus.Interp.sphere_azimuth_real",
    "Dedalus.Interp.sphere_azimuth_complex_partial",
    "Dedalus.Interp.azimuth_interpolation_refuted",
    "Dedalus.Interp.disk_azimuth_real_partial",
    "Dedalus.Interp.disk_azimuth_complex_partial",
    "Dedalus.Interp.annulus_azimuth_real_partial",
    "Dedalus.Interp.annulus_azimuth_complex_partial",
    "Dedalus.Interp.sphere_colatitude_real_partial",
    "Dedalus.Interp.sphere_colatitude_complex_partial",
    "Dedalus.Interp.colatitude_interpolation_refuted",
    "Dedalus.Interp.ball_azimuth_real_partial",
    "Dedalus.Interp.ball_azimuth_complex_partial",
    "Dedalus.Interp.shell_azimuth_real_partial",
    "Dedalus.Interp.shell_azimuth_complex_partial"
   ],
   "note": "Proved for all resolutions whose transforms are proved (C95-C98), without complex data with two azimuths and, in colatitude, without tensors with a spin above the largest degree; for both the code raises an error (refuted). Colatitude interpolation is proved on spheres; on balls and shells the same operator acts at every radius, which is not stated."
  },
  {
   "property": "C101",
   "status": "partial",
   "theorems": [
    "Dedalus.RadialInterp.ball_radius_real_partial",
    "Dedalus.RadialInterp.ball_radius_complex_partial",
    "Dedalus.RadialInterp.ball_mode_grid",
    "Dedalus.RadialInterp.shell_radius_real_partial",
    "Dedalus.RadialInterp.shell_radius_complex_partial",
    "Dedalus.RadialInterp.disk_radius_real_partial",
    "Dedalus.RadialInterp.disk_radius_complex_partial",
    "Dedalus.RadialInterp.annulus_radius_real_partial",
    "Dedalus.RadialInterp.annulus_radius_complex_partial",
    "Dedalus.RadialInterp.radius_name_refuted",
    "Dedalus.RadialInterp.ball_radius_refuted"
   ],
   "note": "Proved: for real and complex tensor fields of any rank, in ball and shell for truncations whose slices hold one degree (and in the ball with lmax < 2 Nr), in disk and annulus for more than two azimuthal points; the grid values of the interpolated field are those of the field at that radius, independent of old output data; ball_mode_grid shows that the radial functions are those of the transforms (C98). False in the code: names of positions raise in ball, shell and annulus (radius_name_refuted); in a ball in which a degree has no radial coefficients every interpolation raises (ball_radius_refuted). Missing: several processes, radius 0 (the model of Zernike functions excludes it), axisymmetric disks and annuli."
  },
  {
   "property": "C102",
   "status": "partial",
   "theorems": [
    "Dedalus.Grids.local_grids_partial",
    "Dedalus.Grids.set_from_grids_partial",
    "Dedalus.Grids.data_points",
    "Dedalus.Grids.local_grid_eq",
    "Dedalus.Grids.local_spacing_partial",
    "Dedalus.Grids.global_spacing_values",
    "Dedalus.Grids.equidistant_spacing",
    "Dedalus.Grids.spacing_few_points",
    "Dedalus.Grids.azimuth_refuted",
    "Dedalus.Grids.colatitude_refuted"
   ],
   "note": "Proved for all meshes, processes, sizes and scales, for intervals, disks, annuli, spheres, balls and shells; false for azimuths of two points (grid of two points, data of one) and for curvilinear axes of one mode at scales above one (the first of several points is returned): both refuted with witnesses."
  },
  {
   "property": "C103",
   "status": "partial",
   "theorems": [
    "Dedalus.Modes.real_fourier_invalid_ignored",
    "Dedalus.Modes.real_fourier_valid_kept",
    "Dedalus.Modes.complex_fourier_invalid_ignored",
    "Dedalus.Modes.complex_fourier_valid_kept_partial",
    "Dedalus.Modes.complex_fourier_nyquist_refuted",
    "Dedalus.Modes.jacobi_invalid_ignored",
    "Dedalus.Modes.jacobi_valid_kept",
    "Dedalus.Modes.sphere_invalid_ignored_real",
    "Dedalus.Modes.sphere_invalid_ignored_complex",
    "Dedalus.Modes.sphere_valid_kept_real_partial",
    "Dedalus.Modes.sphere_valid_kept_complex_partial",
    "Dedalus.Modes.disk_invalid_ignored_real",
    "Dedalus.Modes.disk_invalid_ignored_complex",
    "Dedalus.Modes.disk_valid_kept_real_partial",
    "Dedalus.Modes.disk_valid_kept_complex_partial",
    "Dedalus.Modes.annulus_invalid_ignored_real",
    "Dedalus.Modes.annulus_invalid_ignored_complex",
    "Dedalus.Modes.annulus_valid_kept_real_partial",
    "Dedalus.Modes.annulus_valid_kept_complex_partial",
    "Dedalus.Modes.ball_invalid_ignored_real",
    "Dedalus.Modes.ball_invalid_ignored_complex",
    "Dedalus.Modes.shell_invalid_ignored_real",
    "Dedalus.Modes.shell_invalid_ignored_complex",
    "Dedalus.Modes.ball_valid_kept_real_partial",
    "Dedalus.Modes.ball_valid_kept_complex_partial",
    "Dedalus.Modes.shell_valid_kept_real_partial",
    "Dedalus.Modes.shell_valid_kept_complex_partial",
    "Dedalus.Modes.ball_low_modes_refuted",
    "Dedalus.Modes.sphere_sine_refuted",
    "Dedalus.Modes.disk_valid_kept_scalar",
    "Dedalus.Modes.annulus_valid_kept_scalar",
    "Dedalus.Modes.sphere_valid_kept_scalar_partial",
    "Dedalus.Modes.ball_valid_kept_scalar_partial",
    "Dedalus.Modes.shell_valid_kept_scalar_partial",
    "Dedalus.Modes.valid_on_processes"
   ],
   "note": "Coefficients at invalid modes do not change grid values: proved for real and complex Fourier, Jacobi, and for tensors of any rank on spheres, disks, annuli, balls and shells. Coefficients that vanish at invalid modes come back unchanged: proved outright for real Fourier, Jacobi and real scalars in disks and annuli; otherwise under the extra hypotheses that the code's mask should have implied: no Nyquist order (complex data), no sine parts of order zero, no ball modes below l/2. The refutations show that the code marks those valid. Local masks agree with global ones on every mesh. Not modelled: masks outside coefficient space and the Cartesian product of component axes, here one component at a time"
  },
  {
   "property": "C104",
   "status": "partial",
   "theorems": [
    "Dedalus.Hermitian.enforced_per_cadence",
    "Dedalus.Hermitian.enforced_when",
    "Dedalus.Hermitian.never_enforced",
    "Dedalus.Hermitian.always_enforced",
    "Dedalus.Hermitian.hermitian_twice",
    "Dedalus.Hermitian.hermitian_scalar",
    "Dedalus.Hermitian.hermitian_vector",
    "Dedalus.Hermitian.enforce_disk_partial",
    "Dedalus.Hermitian.enforce_disk_values",
    "Dedalus.Hermitian.enforce_disk_twice",
    "Dedalus.Hermitian.enforce_disk_scalar",
    "Dedalus.Hermitian.enforce_annulus_partial",
    "Dedalus.Hermitian.enforce_annulus_values",
    "Dedalus.Hermitian.enforce_annulus_twice",
    "Dedalus.Hermitian.enforce_sphere_partial",
    "Dedalus.Hermitian.enforce_sphere_values",
    "Dedalus.Hermitian.enforce_sphere_twice",
    "Dedalus.Hermitian.enforce_ball_partial",
    "Dedalus.Hermitian.enforce_ball_values",
    "Dedalus.Hermitian.enforce_ball_twice",
    "Dedalus.Hermitian.enforce_shell_partial",
    "Dedalus.Hermitian.enforce_shell_values",
    "Dedalus.Hermitian.enforce_shell_twice",
    "Dedalus.Hermitian.intertwiner_neg",
    "Dedalus.Hermitian.enforce_disk_loses_refuted"
   ],
   "note": "Cadence proved for all runs. Projection, unchanged grid values and idempotence proved for any real coefficients of tensor fields in disk, annulus, sphere, ball and shell. Coefficients of radial functions the dealias grid does not keep are cleared as well (refuted for vectors in the disk with dealias 1). Single Fourier axes follow from C37; products of several bases are not modelled."
  },
  {
   "property": "C105",
   "status": "partial",
   "theorems": [
    "Dedalus.Restart.gather_restart",
    "Dedalus.Restart.parallel_restart",
    "Dedalus.Restart.virtual_restart",
    "Dedalus.Restart.restored_gather",
    "Dedalus.Restart.bad_index",
    "Dedalus.Restart.missing_refused",
    "Dedalus.Restart.missing_kept",
    "Dedalus.Restart.mixed_refused",
    "Dedalus.Restart.resolution_refused",
    "Dedalus.Restart.failed_load_refuted",
    "Dedalus.Restart.double_exact",
    "Dedalus.Restart.double_grid_partial",
    "Dedalus.Restart.usual_scales",
    "Dedalus.Restart.double_grid_refuted",
    "Dedalus.Restart.double_load_refuted"
   ],
   "note": "Proved for the three kinds of handlers, composing C87 and C08, with exact scales; refusals proved. Refuted: a refused load has already changed the clock and some variables; with doubles the grid size recovered from the file can be one too large, so that the solver cannot load its own output (size 21 at scale 5/4); proved when the scale is a double. The change to dealias scales after loading grid data is not modelled; datasets with other numbers of axes are refused in the model."
  },
  {
   "property": "C106",
   "status": "partial",
   "theorems": [
    "Dedalus.Restart.rk_continues",
    "Dedalus.Restart.one_step_continues",
    "Dedalus.Restart.restarts_agree",
    "Dedalus.Restart.multistep_continues_refuted",
    "Dedalus.Restart.used_solver_refuted"
   ],
   "note": "Proved for all Runge-Kutta schemes and for multistep schemes of one step; for every multistep scheme new solvers with the same state agree. Refuted for schemes of more steps (the history is not saved) and for solvers that have made steps (the history is not reset). Forces are those of the current state (C51)."
  },
  {
   "property": "C107",
   "status": "partial",
   "theorems": [
    "Dedalus.Apply.dense_returns_partial",
    "Dedalus.Apply.dense_writes_partial",
    "Dedalus.Apply.dense_mismatch",
    "Dedalus.Apply.sparse_writes_partial",
    "Dedalus.Apply.sparse_returns_partial",
    "Dedalus.Apply.dense_and_sparse_agree",
    "Dedalus.Apply.shapes_checked",
    "Dedalus.Apply.format_checked",
    "Dedalus.Apply.strided_output_refused",
    "Dedalus.Apply.returned_is_written",
    "Dedalus.Apply.lost_output_refuted",
    "Dedalus.Apply.negative_axis_refuted",
    "Dedalus.Apply.empty_axis_refuted",
    "Dedalus.Apply.ball_backward_refuted",
    "Dedalus.Apply.ball_backward_partial"
   ],
   "note": "Dense products are right for all strided views, overlapping or not, and all axes; sparse products for outputs in C order, all settings and schedules; what returns is written when the output's axes can be merged. False for sparse products into slices of arrays with three or more axes (the result goes to a copy), for axes from the back with sparse matrices (nothing is written), and for dense products along empty axes (refused, so the backward transform in a ball with Lmax//2 >= Nr raises). Overlapping sparse products are undefined and not claimed."
  },
  {
   "property": "C108",
   "status": "partial",
   "theorems": [
    "Dedalus.Plot.mesh_encloses_partial",
    "Dedalus.Plot.vertices_halfway",
    "Dedalus.Plot.one_point_refuted",
    "Dedalus.Plot.plane_shows_partial",
    "Dedalus.Plot.plane_accepted",
    "Dedalus.Plot.third_axis_refuted",
    "Dedalus.Plot.plan2d_whole",
    "Dedalus.Plot.plan_dimensions",
    "Dedalus.Plot.plan3d_plane_partial",
    "Dedalus.Plot.last_axis_refuted",
    "Dedalus.Plot.colours_cover",
    "Dedalus.Plot.limits_contain",
    "Dedalus.Plot.figure_whole",
    "Dedalus.Plot.axes_inside",
    "Dedalus.Plot.axes_apart",
    "Dedalus.Plot.axes_shape",
    "Dedalus.Plot.axes_padding"
   ],
   "note": "Planes, limits and figures proved in full generality. Partial since the claim is false for axes of one point, which are refused or get empty cells (one_point_refuted), for selections with a third sliced axis, which are accepted (third_axis_refuted), and for the normal axis -1 of plot_bot_3d, which is refused (last_axis_refuted)."
  },
  {
   "property": "C109",
   "status": "partial",
   "theorems": [
    "Dedalus.Locked.locked_stays",
    "Dedalus.Locked.locked_move_iff",
    "Dedalus.Locked.locked_requires",
    "Dedalus.Locked.locked_scales",
    "Dedalus.Locked.axis_lock_moves",
    "Dedalus.Locked.unlock_same",
    "Dedalus.Locked.closest_nearest",
    "Dedalus.Locked.lock_value_partial",
    "Dedalus.Locked.lock_output_fixed",
    "Dedalus.Locked.step_down_partial",
    "Dedalus.Locked.lock_moves_refuted",
    "Dedalus.Locked.write_escapes_refuted",
    "Dedalus.Locked.step_below_coefficients_refuted"
   ],
   "note": "Proved for reads, moves and scale changes on any chain of layouts. Refuted: the result of Lock with several layouts cannot move at all (the list is passed as one argument); assignments in other layouts are not refused; towards_coeff_space in coefficient space wraps around."
  },
  {
   "property": "C110",
   "status": "partial",
   "theorems": [
    "Dedalus.Conditions.check_iff_ready",
    "Dedalus.Conditions.enforce_ready",
    "Dedalus.Conditions.enforce_then_check",
    "Dedalus.Conditions.layout_serves",
    "Dedalus.Conditions.enforce_idle_partial",
    "Dedalus.Conditions.gradient_idle_refuted"
   ],
   "note": "Proved for all kinds of operators and all chains of layouts. Refuted: Cartesian gradients move derivatives that are all on the grid to coefficient space although their conditions hold."
  },
  {
   "property": "C111",
   "status": "partial",
   "theorems": [
    "Dedalus.Combine.expanded_pattern",
    "Dedalus.Combine.combined_steps",
    "Dedalus.Combine.stored_agrees",
    "Dedalus.Combine.rebuild_partial",
    "Dedalus.Combine.rebuild_one_minimal",
    "Dedalus.Combine.rebuild_ignored_refuted",
    "Dedalus.Combine.rebuild_one_refuted",
    "Dedalus.Combine.empty_pattern_refuted"
   ],
   "note": "Proved: common pattern and unchanged numbers of expanded matrices; every step after a build solves with its own combination, for both schemes and both storage options; both options agree; rebuilt matrices are used when the coefficients change. False of the code: matrices built again between steps of equal coefficients are ignored; with expanded matrices stored, building one matrix again leaves its expanded copy stale; matrices without entries raise in the stored branch."
  },
  {
   "property": "C112",
   "status": "partial",
   "theorems": [
    "Dedalus.Buffers.buffer_holds_partial",
    "Dedalus.Buffers.one_buffer_partial",
    "Dedalus.Buffers.buffer_choice",
    "Dedalus.Buffers.one_buffer_refuted",
    "Dedalus.Buffers.solution_lost_refuted",
    "Dedalus.Buffers.small_numbers_refuted",
    "Dedalus.Buffers.serial_shape"
   ],
   "note": "Proved: every history succeeds and the buffer holds every layout, for numbers of a multiple of eight bytes; on one process scales up to the dealias scales share one buffer; the rule choosing the buffer; the shape of the data on one process. False of the code: on several processes scales up to the dealias scales may need more memory than the dealias scales, the field changes buffers, and a solver step writes its solution into the buffer the field has left; constant fields of four-byte numbers cannot be created."
  },
  {
   "property": "C113",
   "status": "partial",
   "theorems": [
    "Dedalus.Progress.items_partial",
    "Dedalus.Progress.messages_partial",
    "Dedalus.Progress.cadence_partial",
    "Dedalus.Progress.finished_partial",
    "Dedalus.Progress.time_text",
    "Dedalus.Progress.same_reading_refuted",
    "Dedalus.Progress.no_share_refuted",
    "Dedalus.Progress.no_period_refuted"
   ],
   "note": "Proved for iter >= 1, frac > 0, dt > 0 and readings that differ from the one at the start: all items in order, truthful messages, the exact cadence for clocks that never go back, the last message, the text of times. False of the code: if the clock reads the same after an item with a message as at the start, the loop dies with ZeroDivisionError and the remaining items (the remaining matrices of a solver) are lost; so do frac=0, iter=0 and dt=0."
  },
  {
   "property": "C114",
   "status": "proved",
   "theorems": [
    "Dedalus.Interleave.interleaved_entries",
    "Dedalus.Interleave.interleaved_apply",
    "Dedalus.Interleave.different_shapes",
    "Dedalus.Interleave.no_matrices"
   ],
   "note": "For every non-empty list of matrices of one shape: entries, shape and action on vectors; lists with a matrix of another shape are refused. An empty list gives the number 0 (no_matrices). Sparse matrices are modelled as dense ones."
  }
 ]
}