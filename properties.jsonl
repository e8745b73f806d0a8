{"id": "C01", "title": "Block distribution covers every index exactly once", "statement": "When a field axis is distributed over a process mesh, every global index along the axis (grid point or mode) is held by exactly one process coordinate; each process holds a contiguous ascending run, runs are ordered by process coordinate, no group of modes that must stay together is split, and the local shape reported to the user equals the number of indices held (also when some processes hold nothing).", "quantifier": "all axis sizes, all chunk (group) sizes dividing them, all mesh sizes and all process coordinates", "why_tests_cant": "Tests use a handful of sizes on 1-4 processes; uneven and empty blocks depend on arithmetic of arbitrary N, chunk and P.", "anchors": ["dedalus/core/distributor.py:Layout.local_chunks", "dedalus/core/distributor.py:Layout.local_elements", "dedalus/core/distributor.py:Layout.slices", "dedalus/core/distributor.py:Layout.local_shape"]}
{"id": "C02", "title": "Layout chain from coefficient space to grid space is well formed", "statement": "For every accepted dimension and mesh the distributor builds a chain of layouts that starts with all axes in coefficient space and ends with all axes in grid space, with exactly one transform per axis (taken last axis to first) and exactly one transpose per distributed mesh axis; an axis is always local when it is transformed, a transpose always exchanges a distributed axis with the local axis right after it, and the number of distributed axes never changes.", "quantifier": "all dimensions D, all meshes R < D including meshes with interior ones", "why_tests_cant": "The number of layouts and which axis is local follow from a nested loop over arbitrary D and mesh; tests only visit 1-3 D.", "anchors": ["dedalus/core/distributor.py:Distributor.__init__", "dedalus/core/distributor.py:Distributor._build_layouts"]}
{"id": "C03", "title": "All-to-all transposes move every element to its place and back", "statement": "After localising rows, the process owning a row block holds, for every column, exactly the value that the process owning that column block held before; localising columns again restores the original data bit for bit; what each process sends to each other process matches what the receiver expects.", "quantifier": "all global shapes (N0,N1,N2,N3), all process counts, all data", "why_tests_cant": "Correctness depends on pack/unpack index arithmetic for all uneven block sizes and ranks, which tests only sample.", "anchors": ["dedalus/core/transposes.pyx:AlltoallvTranspose", "dedalus/core/transposes.pyx:RowDistributor", "dedalus/core/transposes.pyx:ColDistributor"]}
{"id": "C04", "title": "Transpose planning agrees with the layouts and across processes", "statement": "The block boundaries used by a transpose are the block boundaries that the layouts on both sides promise, and all processes taking part in one exchange reach the same decision on whether to communicate, so no process waits for a partner that skips the exchange.", "quantifier": "all global shapes, chunk shapes, meshes, and process coordinates", "why_tests_cant": "A mismatch is a hang or silent corruption only at particular sizes and process counts.", "anchors": ["dedalus/core/distributor.py:Transpose._plan", "dedalus/core/distributor.py:Transpose._sub_shape", "dedalus/core/transposes.pyx:FFTWTranspose.__init__"]}
{"id": "C05", "title": "Moving fields together equals moving them one by one", "statement": "Moving a group of fields one layout step in either direction leaves each of them in the target layout with the same data as moving it alone.", "quantifier": "all groups of fields, including constant and empty ones, all steps and both directions", "why_tests_cant": "Grouped paths are only taken in parallel runs with several fields and particular shapes.", "anchors": ["dedalus/core/distributor.py:Transpose.increment", "dedalus/core/distributor.py:Transpose.decrement", "dedalus/core/distributor.py:Transpose.decrement_group", "dedalus/core/distributor.py:Transform.increment"]}
{"id": "C06", "title": "Field data survive any sequence of layout and scale changes", "statement": "Reading a field in any layout after any sequence of layout changes and grid/coeff/local requirements gives the representation, in that layout, of the last data written; every request terminates in a layout that satisfies it.", "quantifier": "all finite sequences of writes, reads, change_layout, require_grid_space, require_coeff_space, require_local on any axis", "why_tests_cant": "The state machine has unboundedly many histories; tests only try a few.", "anchors": ["dedalus/core/field.py:Field.__getitem__", "dedalus/core/field.py:Field.__setitem__", "dedalus/core/field.py:Field.change_layout", "dedalus/core/field.py:Field.require_local"]}
{"id": "C07", "title": "Solvers read and write the data the user sees", "statement": "A solver step reads the current coefficient data of every state field and the user sees the new solution in that field after the step, whatever scales or layout the user put the field in between steps.", "quantifier": "all histories of user scale/layout changes interleaved with solver steps", "why_tests_cant": "Depends on buffer identity across arbitrary histories of reallocations; tests rarely change scales between steps.", "anchors": ["dedalus/core/subsystems.py:Subproblem._input_field_views", "dedalus/core/subsystems.py:Subproblem.gather_inputs", "dedalus/core/field.py:Field.preset_scales", "dedalus/core/timesteppers.py:MultistepIMEX.step"]}
{"id": "C08", "title": "Global data round trip through any process distribution", "statement": "Setting a field from a global array and gathering (allgather or root gather) returns the same global array on every process mesh.", "quantifier": "all global arrays, tensor ranks, shapes, meshes and layouts", "why_tests_cant": "Test suites run on one process and a few shapes, where local and global data coincide.", "anchors": ["dedalus/core/field.py:Field.set_global_data", "dedalus/core/field.py:Field.allgather_data", "dedalus/core/field.py:Field.gather_data"]}
{"id": "C09", "title": "Random initial data do not depend on the parallel decomposition", "statement": "Filling a field with seeded random data gives each global element the same value, equal to the seeded sequential stream at the element's global position, for every chunk size and process distribution.", "quantifier": "all seeds/streams, shapes, chunk sizes, and selections of elements", "why_tests_cant": "Requires equality over all decompositions, tests compare a few.", "anchors": ["dedalus/tools/random_arrays.py:rng_elements", "dedalus/tools/random_arrays.py:ChunkedRandomArray", "dedalus/core/field.py:Field.fill_random"]}
{"id": "C10", "title": "Multistep IMEX schemes have their documented order for every step history", "statement": "For every sequence of positive timesteps each multistep scheme satisfies the order conditions of its documented order: the discrete equation is exact on polynomials in time up to that degree for the derivative, implicit and explicit parts.", "quantifier": "all positive real timesteps (all step ratios), all schemes, all polynomials of the given degree", "why_tests_cant": "Convergence tests sample constant steps; order for every ratio is an algebraic identity.", "anchors": ["dedalus/core/timesteppers.py:CNAB1", "dedalus/core/timesteppers.py:SBDF2", "dedalus/core/timesteppers.py:SBDF3", "dedalus/core/timesteppers.py:SBDF4", "dedalus/core/timesteppers.py:MCNAB2", "dedalus/core/timesteppers.py:CNLF2"]}
{"id": "C11", "title": "Multistep stepping uses the true history", "statement": "At every step the scheme combines the M.X, L.X and F values and the timesteps of exactly the preceding steps in order, the first steps fall back to lower-order formulas that use only data that exist, and the new state satisfies the documented discrete equation.", "quantifier": "all initial states, all forcing sequences, all finite timestep sequences and all run lengths", "why_tests_cant": "History buffers rotate in place; an error shows up only after specific run lengths and variable steps.", "anchors": ["dedalus/core/timesteppers.py:MultistepIMEX.step", "dedalus/core/timesteppers.py:MultistepIMEX.__init__"]}
{"id": "C12", "title": "Cached implicit factorisations always match the current timestep", "statement": "Every linear solve inside a timestep uses a factorisation of the left-hand side for the coefficients of that very step (and stage), for every history of timestep changes including returning to an earlier value.", "quantifier": "all finite timestep sequences, all schemes (multistep and Runge-Kutta), all numbers of subproblems", "why_tests_cant": "Cache invalidation errors depend on the history of timestep changes.", "anchors": ["dedalus/core/timesteppers.py:MultistepIMEX.step", "dedalus/core/timesteppers.py:RungeKuttaIMEX.step"]}
{"id": "C13", "title": "Runge-Kutta IMEX steps follow their tableaus, and the tableaus have the documented order", "statement": "Each Runge-Kutta step solves the documented stage equations, stage times equal the row sums of the explicit and implicit tableaus, the last stage is at the end of the step, and the order conditions up to the documented order hold including the coupling conditions.", "quantifier": "all steps sizes, states, forcings and linear operators; all registered tableaus", "why_tests_cant": "Order conditions are exact identities (one involves sqrt 2); numerical tests cannot settle them.", "anchors": ["dedalus/core/timesteppers.py:RungeKuttaIMEX.step", "dedalus/core/timesteppers.py:RK222", "dedalus/core/timesteppers.py:RK443", "dedalus/core/timesteppers.py:RKSMR"]}
{"id": "C14", "title": "Iteration and wall-time output cadences", "statement": "A handler with iteration cadence n fires on its first check and afterwards exactly when a new multiple of n has been reached, never twice for the same multiple; with consecutive iterations from 0 it fires exactly at the multiples of n. A wall-time cadence likewise fires at most once per interval for non-decreasing wall time.", "quantifier": "all cadences and all non-decreasing iteration/wall-time sequences", "why_tests_cant": "Schedules are unbounded sequences with arbitrary gaps.", "anchors": ["dedalus/core/evaluator.py:Handler.check_schedule"]}
{"id": "C15", "title": "Simulation-time output cadence", "statement": "A handler with cadence sim_dt fires at most once per output target, in increasing target order, only when the current time is strictly closer to the target than the next time will be, and does not miss a target when timesteps are small compared with the cadence; the first check always fires.", "quantifier": "all positive cadences and all sequences of positive timesteps", "why_tests_cant": "Rounding to the nearest target for arbitrary variable step sequences cannot be exhausted.", "anchors": ["dedalus/core/evaluator.py:Handler.check_schedule"]}
{"id": "C16", "title": "File handler numbering", "statement": "Writes are numbered consecutively, each set file holds at most max_writes writes and consecutive write indices from 0, sets are numbered consecutively, and a run restarted in append mode continues after the last set and write without overwriting.", "quantifier": "all max_writes, all numbers of writes, all interleavings of restarts", "why_tests_cant": "History-dependent counters over unbounded runs and restarts.", "anchors": ["dedalus/core/evaluator.py:H5FileHandlerBase.__init__", "dedalus/core/evaluator.py:H5FileHandlerBase.process"]}
{"id": "C17", "title": "Equation/variable reordering is a permutation", "statement": "The row and column reorderings applied to each subproblem matrix are permutations of all equation rows / variable columns, whatever the interleaving and boundary-condition placement options, and group lower-dimensional (boundary) equations at the configured end, so reordering never loses or duplicates an unknown.", "quantifier": "all numbers of equations, components and modes per component (including empty), all option settings", "why_tests_cant": "Nested loops with index-error skipping over ragged lists; tests cover few shapes.", "anchors": ["dedalus/core/subsystems.py:left_permutation", "dedalus/core/subsystems.py:right_permutation", "dedalus/tools/array.py:perm_matrix"]}
{"id": "C18", "title": "Subproblems partition the modes", "statement": "Every locally held mode group of the problem belongs to exactly one subsystem, and every subsystem belongs to exactly one subproblem; subsystems are merged in one subproblem only if their matrices coincide by separability.", "quantifier": "all problems' group structures, matrix dependence/coupling flags, and orders of discovery", "why_tests_cant": "Grouping depends on arbitrary flag combinations.", "anchors": ["dedalus/core/subsystems.py:build_subsystems", "dedalus/core/subsystems.py:build_subproblems", "dedalus/core/subsystems.py:Subsystem.__init__"]}
{"id": "C19", "title": "Gathering and scattering subproblem data are inverse and do not interfere", "statement": "Scattering a solution vector to the fields and gathering it back gives the same vector; different subproblems touch disjoint storage, and the solver vector storage is a disjoint cover of its buffer.", "quantifier": "all numbers and sizes of subproblems, subsystems and fields, all data", "why_tests_cant": "Aliasing between views is an all-pairs property over arbitrary sizes.", "anchors": ["dedalus/core/system.py:CoeffSystem.__init__", "dedalus/core/subsystems.py:Subproblem.gather_inputs", "dedalus/core/subsystems.py:Subproblem.scatter_inputs"]}
{"id": "C20", "title": "Splitting an expression preserves its meaning", "statement": "Splitting an expression by variables (or by an operator such as the time derivative) returns two expressions whose sum has the value of the original for every value of the fields; the second part contains none of the variables and every term of the first part does.", "quantifier": "all expression trees and all field values", "why_tests_cant": "Quantifies over all expression trees.", "anchors": ["dedalus/core/arithmetic.py:Add.split", "dedalus/core/arithmetic.py:Product.split", "dedalus/core/operators.py:LinearOperator.split", "dedalus/core/operators.py:NonlinearOperator.split"]}
{"id": "C21", "title": "Accepted left-hand sides are linear", "statement": "If the linearity check accepts an expression, its value is a linear function of the variables (affine when affine terms are allowed); left-hand sides that are not linear are rejected.", "quantifier": "all expression trees, variables and field values", "why_tests_cant": "Soundness over all trees.", "anchors": ["dedalus/core/arithmetic.py:Product.require_linearity", "dedalus/core/arithmetic.py:Add.require_linearity", "dedalus/core/operators.py:NonlinearOperator.require_linearity", "dedalus/core/operators.py:LinearOperator.require_linearity"]}
{"id": "C22", "title": "Symbolic differentiation is the true derivative", "statement": "The symbolic derivative of an expression with respect to a variable evaluates to the analytic derivative of the expression's value, for sums, products, powers, linear operators and the built-in elementary functions on their domains.", "quantifier": "all expression trees, all values in the functions' domains", "why_tests_cant": "Soundness over all trees and all real values.", "anchors": ["dedalus/core/arithmetic.py:Product.sym_diff", "dedalus/core/operators.py:Power.sym_diff", "dedalus/core/operators.py:UnaryGridFunction.sym_diff", "dedalus/core/field.py:Operand.frechet_differential"]}
{"id": "C23", "title": "Linearisation about a background", "statement": "The Frechet differential of an expression about a background equals the directional derivative of the expression, evaluated at the background, in the direction of the perturbations.", "quantifier": "all expressions, variables, perturbations and backgrounds (backgrounds may mention the variables)", "why_tests_cant": "Substitution order effects depend on which variables occur in which background.", "anchors": ["dedalus/core/field.py:Operand.frechet_differential", "dedalus/core/problems.py:InitialValueProblem.build_EVP"]}
{"id": "C24", "title": "Eigenvalue problems built from initial value problems", "statement": "Building an eigenvalue problem from an initial value problem keeps one equation per original equation with the same mode conditions, and works with the documented defaults.", "quantifier": "all initial value problems and all equation conditions", "why_tests_cant": "Quantifies over all problems and conditions.", "anchors": ["dedalus/core/problems.py:InitialValueProblem.build_EVP"]}
{"id": "C25", "title": "Problem matrices represent the equations", "statement": "The matrices built for a linear expression, applied to the coefficient vectors of the variables, give the coefficient vector of the expression's value.", "quantifier": "all linear expression trees and all coefficient vectors", "why_tests_cant": "Quantifies over all trees and vectors.", "anchors": ["dedalus/core/arithmetic.py:Add.expression_matrices", "dedalus/core/operators.py:LinearOperator.expression_matrices", "dedalus/core/field.py:Current.expression_matrices"]}
{"id": "C26", "title": "Evaluating tasks together equals evaluating them separately", "statement": "Evaluating a set of tasks together, sharing common subexpressions and visiting layouts in turn, gives every task the same value as evaluating it alone, each shared subexpression is computed once, and results never leak from one evaluation to the next.", "quantifier": "all sets of expression trees (with sharing), all field values and evaluation histories", "why_tests_cant": "Cache correctness over arbitrary sharing patterns and histories.", "anchors": ["dedalus/core/future.py:Future.evaluate", "dedalus/core/evaluator.py:Evaluator.evaluate_handlers"]}
{"id": "C27", "title": "Adaptive timestep bounds", "statement": "The timestep returned by the CFL tool lies between the configured minimum and maximum, changes by at most the configured factors per update, honours the safety factor against the current frequency, and changes only at the configured cadence.", "quantifier": "all frequency histories, all parameter settings", "why_tests_cant": "Feedback loop over unbounded histories with interacting clamps.", "anchors": ["dedalus/extras/flow_tools.py:CFL.compute_timestep"]}
{"id": "C28", "title": "Parallel reductions are independent of the decomposition", "statement": "Global minimum, maximum and mean (and data norms) equal the serial value over the concatenated data for every distribution of the data, including processes with no data.", "quantifier": "all data, all partitions into any number of (possibly empty) local blocks", "why_tests_cant": "All partitions cannot be tested.", "anchors": ["dedalus/extras/flow_tools.py:GlobalArrayReducer", "dedalus/core/field.py:Field.allreduce_data_norm"]}
{"id": "C29", "title": "Main loop stopping", "statement": "The main loop proceeds exactly while no stop criterion (simulation time, wall time, iteration) is met; the automatic loop refuses to run without a criterion, terminates when an iteration limit is set, performs no step once a criterion is met, and finishes normally.", "quantifier": "all stop settings and timestep sequences", "why_tests_cant": "Unbounded loop.", "anchors": ["dedalus/core/solvers.py:InitialValueSolver.proceed", "dedalus/core/solvers.py:InitialValueSolver.evolve"]}
{"id": "C30", "title": "Memoisation is transparent", "statement": "A memoised method or attribute returns what an uncached call with the same arguments would return, for every calling convention (positional, keyword, default) and call history; a bounded cache stays within its bound.", "quantifier": "all argument tuples, calling conventions, and call histories", "why_tests_cant": "Key collisions depend on pairs of calls.", "anchors": ["dedalus/tools/cache.py:CachedFunction.__call__", "dedalus/tools/cache.py:CachedMethod"]}
{"id": "C31", "title": "Clenshaw summation", "statement": "Clenshaw evaluation of a series in polynomials defined by a three-term recurrence equals the direct sum, for scalar arguments and for matrix arguments.", "quantifier": "all coefficient sequences of every length, all recurrences, all arguments", "why_tests_cant": "Numerical tests sample a few series.", "anchors": ["dedalus/tools/clenshaw.py:scalar_clenshaw", "dedalus/tools/clenshaw.py:matrix_clenshaw"]}
{"id": "C32", "title": "Sparse triangular solve", "statement": "The upper-triangular sparse solve returns a vector x with U x = b, in place or out of place, and the sparse product routine returns the matrix-vector product.", "quantifier": "all sizes, sorted upper-triangular sparsity patterns with nonzero diagonal, all right-hand sides", "why_tests_cant": "Back substitution over arbitrary patterns.", "anchors": ["dedalus/tools/linalg.pyx:solve_upper_csr", "dedalus/tools/linalg.pyx:apply_csr"]}
{"id": "C33", "title": "Equation strings are split at the one top-level equals sign", "statement": "An equation string with exactly one equals sign outside parentheses is split there, keyword arguments inside calls do not count; strings with none or several are rejected.", "quantifier": "all strings", "why_tests_cant": "All strings.", "anchors": ["dedalus/tools/parsing.py:split_equation"]}
{"id": "C34", "title": "Processes take turns", "statement": "Inside a rotating section processes execute their bodies one at a time in rank order, every process passes the same number of barriers, and none deadlocks.", "quantifier": "all numbers of processes and all interleavings", "why_tests_cant": "All schedules.", "anchors": ["dedalus/tools/parallel.py:RotateProcesses"]}
{"id": "C35", "title": "Post-processing assigns every write to exactly one process", "statement": "Distributing the writes of a list of sets over the post-processing processes assigns each write to exactly one process, as contiguous runs, with no process exceeding the ceiling share.", "quantifier": "all lists of write counts (including zeros) and all process counts", "why_tests_cant": "All partitions.", "anchors": ["dedalus/tools/post.py:get_assigned_writes", "dedalus/tools/post.py:visit_writes", "dedalus/tools/post.py:get_assigned_sets"]}
{"id": "C36", "title": "Merging output files never loses data", "statement": "Merging a distributed set gives the global array; if merging stops at any point, and is run again, no written data are lost.", "quantifier": "all block distributions and all crash points, including retries and cleanup", "why_tests_cant": "Crash points and retries.", "anchors": ["dedalus/tools/post.py:merge_virtual_file", "dedalus/tools/post.py:merge_distributed_set", "dedalus/tools/post.py:merge_data"]}
{"id": "C37", "title": "Fourier transforms are exact on resolved modes", "statement": "For complex Fourier series, coefficients to grid and back is the identity on all resolved modes and zero on the others, for every grid and coefficient size; the fast and matrix implementations agree; truncation and padding keep each mode at its wavenumber.", "quantifier": "all grid sizes N, coefficient sizes M, all coefficient data", "why_tests_cant": "All sizes, parity cases of N and M.", "anchors": ["dedalus/core/transforms.py:ComplexFourierMMT", "dedalus/core/transforms.py:ComplexFFT.resize_coeffs", "dedalus/core/transforms.py:ScipyComplexFFT"]}
{"id": "C38", "title": "Real Fourier coefficient packing", "statement": "Real Fourier packing and unpacking of complex, half-complex and packed-real FFT output are inverse on resolved modes, agree between libraries, and zero all unresolved modes, for every grid and coefficient size.", "quantifier": "all N, M, all data, all FFT libraries", "why_tests_cant": "All sizes; boundary cases such as only the mean mode.", "anchors": ["dedalus/core/transforms.py:RealFFT", "dedalus/core/transforms.py:FFTPACKRealFFT", "dedalus/core/transforms.py:FFTWHalfComplexFFT"]}
{"id": "C39", "title": "Dealiased products are exact", "statement": "With a grid of at least 3/2 the number of modes, the grid-space product of two Fourier fields has exactly the truncated convolution as its resolved coefficients.", "quantifier": "all coefficient data and all sizes satisfying the dealiasing rule", "why_tests_cant": "All sizes and data.", "anchors": ["dedalus/core/transforms.py:ComplexFourierTransform", "dedalus/core/basis.py:Basis.grid_shape", "dedalus/core/arithmetic.py:MultiplyFields"]}
{"id": "C40", "title": "Cosine/Chebyshev coefficient resizing", "statement": "Resizing cosine/Chebyshev coefficients between grid and coefficient sizes keeps every resolved mode with the documented scale and sets every other output entry to zero, never leaving stale memory.", "quantifier": "all N, M >= 1 and all previous buffer contents", "why_tests_cant": "Boundary sizes and stale memory contents.", "anchors": ["dedalus/core/transforms.py:FastCosineTransform", "dedalus/core/transforms.py:FastChebyshevTransform"]}
{"id": "C41", "title": "Fourier multiplication matrices", "statement": "The matrix built for multiplication by one Fourier mode, applied to the coefficients of a function, gives the coefficients of the pointwise product in all output modes.", "quantifier": "all mode numbers, sizes and coefficient vectors, for real and complex Fourier", "why_tests_cant": "All mode pairs.", "anchors": ["dedalus/core/basis.py:RealFourier.product_matrix", "dedalus/core/basis.py:ComplexFourier.product_matrix"]}
{"id": "C42", "title": "Affine coordinate maps", "statement": "Problem and native coordinates convert back and forth exactly, named positions agree with numeric ones, and the derivative scaling matches the map.", "quantifier": "all non-degenerate bounds and all coordinates", "why_tests_cant": "All reals.", "anchors": ["dedalus/core/basis.py:AffineCOV"]}
{"id": "C43", "title": "Coordinate system equality", "statement": "Two coordinate systems compare equal only if all their coordinates agree.", "quantifier": "all pairs of coordinate systems", "why_tests_cant": "All pairs.", "anchors": ["dedalus/core/coords.py:CoordinateSystem.__eq__"]}
{"id": "C44", "title": "Vector products", "statement": "Dot and cross products computed on grid data satisfy the defining identities in the right handedness, and the coupling tensors used in matrices agree with the grid-space formulas.", "quantifier": "all vectors and all index choices", "why_tests_cant": "All reals and tensor ranks.", "anchors": ["dedalus/core/arithmetic.py:CrossProduct", "dedalus/core/arithmetic.py:DotProduct"]}
{"id": "C45", "title": "Filters are complementary projections", "statement": "Low-pass and high-pass filtering with the same shape split the data exactly into two complementary parts, and applying a filter twice changes nothing more.", "quantifier": "all data, shapes and filter shapes/scales", "why_tests_cant": "All data and cutoffs.", "anchors": ["dedalus/core/field.py:Field.low_pass_filter", "dedalus/core/field.py:Field.high_pass_filter"]}
{"id": "C46", "title": "Boundary value solvers solve every subproblem", "statement": "After a linear solve every subproblem's equations hold for the new state, and a Newton iteration updates the state by the damped solution of the linearised system about the state before the iteration.", "quantifier": "all subproblem lists, operators, right-hand sides, damping, and cached factorisations over repeated solves", "why_tests_cant": "Repeated solves with caching over arbitrary histories.", "anchors": ["dedalus/core/solvers.py:LinearBoundaryValueSolver.solve", "dedalus/core/solvers.py:NonlinearBoundaryValueSolver.newton_iteration"]}
{"id": "C47", "title": "Solver clock", "statement": "The solver's simulation time starts at the value of the problem's time field, advances by exactly the timesteps taken, is equal to the time field at every force evaluation, and the iteration counter counts steps; non-finite timesteps are rejected without changing state.", "quantifier": "all initial times (of either sign), all timestep sequences", "why_tests_cant": "All histories and signs.", "anchors": ["dedalus/core/solvers.py:InitialValueSolver.__init__", "dedalus/core/solvers.py:InitialValueSolver.step"]}
{"id": "C48", "title": "Simplifications preserve meaning", "statement": "Automatic simplifications when building sums and products (dropping zeros and ones, collapsing single arguments, zero products, trivial powers) never change an expression's value.", "quantifier": "all argument lists", "why_tests_cant": "All argument lists.", "anchors": ["dedalus/core/arithmetic.py:Add._preprocess_args", "dedalus/core/arithmetic.py:Multiply._preprocess_args", "dedalus/core/field.py:Operand.__pow__"]}
{"id": "C49", "title": "Spectral differentiation matrices", "statement": "Fourier differentiation applied to coefficients gives the coefficients of the analytic derivative of the represented function; integration and averaging give the analytic integral.", "quantifier": "all coefficient vectors, sizes and domain bounds", "why_tests_cant": "All data.", "anchors": ["dedalus/core/basis.py:DifferentiateRealFourier", "dedalus/core/basis.py:DifferentiateComplexFourier", "dedalus/core/basis.py:IntegrateRealFourier"]}
{"id": "C50", "title": "Unresolved spherical and disk modes are dropped", "statement": "Harmonics of a degree that the transform grid cannot resolve are zeroed in forward and backward transforms for every azimuthal order and grid size.", "quantifier": "all orders m, truncations and grid sizes", "why_tests_cant": "All sizes including coarse grids.", "anchors": ["dedalus/core/transforms.py:SWSHColatitudeTransform", "dedalus/core/transforms.py:DiskRadialTransform"]}
{"id": "C51", "title": "Forces are recomputed at every step", "statement": "Each timestep uses right-hand sides evaluated from the state and time at the start of that step, whatever sequence of steps and state loads came before.", "quantifier": "all histories of steps and load_state calls", "why_tests_cant": "Depends on unbounded histories of iteration numbers.", "anchors": ["dedalus/core/solvers.py:InitialValueSolver.load_state", "dedalus/core/timesteppers.py:MultistepIMEX.step", "dedalus/core/evaluator.py:Handler.check_schedule"]}
{"id": "C52", "title": "Initial value problems represent their equations", "statement": "For every equation an initial value problem accepts, the stored matrix expressions represent it: the left-hand side has the value of the mass expression applied to the time derivatives of the variables plus the stiffness expression applied to the variables, both linear in the variables, and the forcing has the value of the right-hand side.", "quantifier": "all equations accepted by add_equation, all field values and all interpretations of the operators", "why_tests_cant": "Quantifies over all equation trees and all time-dependent fields.", "anchors": ["dedalus/core/problems.py:InitialValueProblem._build_matrix_expressions", "dedalus/core/problems.py:InitialValueProblem._check_equation_conditions", "dedalus/core/operators.py:TimeDerivative"]}
{"id": "C53", "title": "Eigenvalue problems represent their equations", "statement": "For every equation an eigenvalue problem accepts, whenever the eigenvalue holds a number the left-hand side has the value of that number times the mass expression plus the stiffness expression; both are linear in the variables and do not depend on the eigenvalue, and the right-hand side is zero.", "quantifier": "all equations accepted by add_equation, all field values, all eigenvalues", "why_tests_cant": "Quantifies over all equation trees, eigenvalues and fields.", "anchors": ["dedalus/core/problems.py:EigenvalueProblem._build_matrix_expressions", "dedalus/core/problems.py:EigenvalueProblem._check_equation_conditions"]}
{"id": "C54", "title": "Boundary value problems represent their equations", "statement": "For every equation a linear boundary value problem accepts, the matrix expression has the value of the left-hand side and is linear in the variables, and the forcing has the value of the right-hand side and does not depend on the variables. For nonlinear boundary value problems, the residual is the left-hand side minus the right-hand side and the Newton operator is its directional derivative at the current variables.", "quantifier": "all equations accepted by add_equation, all field values in the functions' domains", "why_tests_cant": "Quantifies over all equation trees and fields.", "anchors": ["dedalus/core/problems.py:LinearBoundaryValueProblem._build_matrix_expressions", "dedalus/core/problems.py:NonlinearBoundaryValueProblem._build_matrix_expressions"]}
{"id": "C55", "title": "Right-hand sides of equations reach the solver", "statement": "After each evaluation of the right-hand sides, the field the solver reads for equation i holds the value of the right-hand side of equation i, including when several equations have the same right-hand side object", "quantifier": "all systems of equations, including those that share right-hand side expressions", "why_tests_cant": "Tests use distinct right-hand sides; sharing depends on which simplifications return the same object.", "anchors": ["dedalus/core/evaluator.py:SystemHandler.build_system", "dedalus/core/operators.py:convert", "dedalus/core/solvers.py:InitialValueSolver"]}
{"id": "C56", "title": "One object per argument tuple", "statement": "Classes whose instances are memoised (domains, bases, coordinate transforms) return the same live object when called twice with arguments that the class treats as equal, and never the object of a call with different arguments, whatever was constructed, dropped or garbage-collected in between.", "quantifier": "all histories of constructor calls and of deletions of objects, all signatures and call styles (positional, keyword, defaults)", "why_tests_cant": "Identity comparison of bases and domains relies on it for every construction history.", "anchors": ["dedalus/tools/cache.py:CachedClass", "dedalus/tools/cache.py:serialize_call"]}
{"id": "C57", "title": "Output directories exist once their creation returns", "statement": "When the parallel directory creation returns on any process, the root process has created the directory; only the root process creates it.", "quantifier": "all numbers of processes and all interleavings", "why_tests_cant": "All schedules.", "anchors": ["dedalus/tools/parallel.py:parallel_mkdir", "dedalus/tools/parallel.py:Sync"]}
{"id": "C58", "title": "Chebyshev transforms are exact", "statement": "The backward Chebyshev transform evaluates the represented polynomial (truncated to the grid size) on the increasing zeros of the Chebyshev polynomial of the grid size; forward after backward is the identity on resolved modes and zero on the others; the same holds with conversion to other polynomial families, with and without truncation before the conversion; products on a grid of at least 3/2 the number of modes are exact.", "quantifier": "all grid and coefficient sizes above one, all coefficient data, all previous buffer contents, both dealias_before_converting settings", "why_tests_cant": "Tests compare transforms of a few sizes and functions up to rounding; exactness for every size, every polynomial and every stale buffer needs orthogonality of the cosines on the grid in general.", "anchors": ["dedalus/core/transforms.py:FastChebyshevTransform", "dedalus/core/transforms.py:FastCosineTransform", "dedalus/core/transforms.py:ScipyDCT", "dedalus/libraries/dedalus_sphere/jacobi.py:grid_guess"]}
{"id": "C59", "title": "Jacobi operators are exact", "statement": "On a Jacobi basis over [left, right] with parameters above -1: the basis functions are the classical Jacobi polynomials divided by their norm and are orthonormal for the weight; conversion to larger parameters changes the coefficients but not the function, and is refused exactly when a parameter does not grow by a natural number; differentiation returns the derivative of the represented function; interpolation returns its value at the requested number or name; integration and averaging return the integral and the mean over [left, right] up to the entries dropped as at most the documented cutoff; a constant converts to the function with this value; the Jacobi matrix multiplies by the native coordinate and is symmetric and tridiagonal.", "quantifier": "all sizes, all real parameters above -1, all intervals, all coefficients, all points", "why_tests_cant": "Tests check a handful of functions and resolutions up to rounding; the operators are built from recursions whose correctness for every degree and every real parameter is an identity of hypergeometric polynomials.", "anchors": ["dedalus/core/basis.py:ConvertJacobi", "dedalus/core/basis.py:DifferentiateJacobi", "dedalus/core/basis.py:InterpolateJacobi", "dedalus/core/basis.py:IntegrateJacobi", "dedalus/core/basis.py:AverageJacobi", "dedalus/core/basis.py:ConvertConstantJacobi", "dedalus/libraries/dedalus_sphere/jacobi.py:polynomials", "dedalus/libraries/dedalus_sphere/jacobi.py:operator", "dedalus/tools/jacobi.py:integration_vector"]}
{"id": "C60", "title": "Jacobi multiplication matrices multiply", "statement": "The matrix built for a non-constant coefficient with at most N modes, applied to the N coefficients of an operand, gives the first N coefficients, in the output basis, of the product of the two functions, where coefficients of at most the cutoff are dropped; the matrix of one basis polynomial multiplies by it; the matrix is refused exactly when the output parameters are not reachable from those of the operand.", "quantifier": "all sizes, all real parameters above -1 of the coefficient, operand and output bases, all coefficients and cutoffs", "why_tests_cant": "Tests multiply a few functions; that the Clenshaw recursion on truncated matrices has no truncation error in the kept block is a statement about all sizes.", "anchors": ["dedalus/core/basis.py:Jacobi._last_axis_component_ncc_matrix", "dedalus/core/basis.py:Jacobi.product_matrix", "dedalus/tools/clenshaw.py:matrix_clenshaw"]}
{"id": "C61", "title": "Gauss grids and matrix transforms are exact", "statement": "The grid of a Jacobi basis consists of the distinct roots of the polynomial of the grid size; its weights integrate every polynomial of degree at most 2N-1 exactly; the backward matrix transform evaluates the resolved part of the series on the grid; forward after backward keeps resolved coefficients and zeroes the others; products on a grid of at least 3/2 the number of modes equal the truncated product; for Chebyshev grids the fast transform of any grid data equals the matrix transform, with and without conversion and for both truncation settings.", "quantifier": "all grid and coefficient sizes, all real parameters above -1, all coefficients and grid data, both dealias_before_converting settings", "why_tests_cant": "Tests run some sizes and parameters up to rounding; exactness is a theorem on orthogonal polynomials for every size and parameter.", "anchors": ["dedalus/libraries/dedalus_sphere/jacobi.py:quadrature", "dedalus/libraries/dedalus_sphere/jacobi.py:grid_guess", "dedalus/core/transforms.py:JacobiMMT", "dedalus/core/transforms.py:FastChebyshevTransform", "dedalus/core/basis.py:Jacobi._native_grid"]}
{"id": "C62", "title": "Lifting selects the requested polynomial", "statement": "Lifting with index n multiplies the operand by the basis polynomial n, where negative indices count from the end, and rejects every index that names no polynomial.", "quantifier": "all sizes and all integer indices", "why_tests_cant": "Tests use -1 and -2; the behaviour for every index, in particular out of range, is not sampled.", "anchors": ["dedalus/core/basis.py:LiftJacobi.build_polynomial"]}
{"id": "C63", "title": "Spin components are a unitary change of basis", "statement": "For every tensor signature over polar, S2, spherical, Cartesian or product coordinates, converting a tensor's coordinate components to spin components and back reproduces the data exactly, for complex and for real data, whatever the work buffers contained; the real-data path computes the same components as the complex one; the matrix used in solver systems is the same map; and building that matrix does not affect later transforms.", "quantifier": "Every tensor signature, rank, array contents, buffer contents and order of matrix builds and transforms.", "why_tests_cant": "Ranks and signatures are unbounded, the alternation of two buffers depends on the parity of the number of recombined indices, and the cached factor list is shared between calls; tests fix a few signatures.", "anchors": ["dedalus/core/basis.py:SpinRecombinationBasis", "dedalus/core/coords.py:forward_intertwiner", "dedalus/core/coords.py:DirectProduct", "dedalus/libraries/spin_recombination.pyx", "dedalus/tools/array.py:kron"]}
{"id": "C64", "title": "Regularity components of tensors are an orthogonal change of basis", "statement": "For every tensor rank and every spherical degree ell, converting the spin components of a tensor to regularity components and back (and the other way round) reproduces the data exactly on the components that are allowed at that degree; the conversion preserves the sum of squares; and the components reported as allowed are exactly those whose running degree ell + partial sum never becomes negative nor takes a step with no angular momentum.", "quantifier": "Every rank, every ell, every component array.", "why_tests_cant": "The number of components grows as 3^rank and ell is unbounded; tests compare a few low ranks and degrees to tolerance.", "anchors": ["dedalus/libraries/dedalus_sphere/spin_operators.py:Intertwiner", "dedalus/core/basis.py:forward_regularity_recombination", "dedalus/core/basis.py:backward_regularity_recombination", "dedalus/core/basis.py:regularity_allowed_vectorized", "dedalus/core/coords.py:SphericalCoordinates._Q_backward"]}
{"id": "C65", "title": "Each spherical mode has one coefficient slot", "statement": "On a sphere basis whose azimuthal resolution does not exceed what the colatitude resolution resolves, the triangular coefficient layout gives every pair (order m, degree ell >= |m|) exactly one slot (two, cosine and sine, for real data), labels it with that pair, and a row's slots for one order are contiguous and cover all its degrees, in increasing order or, for folded orders, reversed.", "quantifier": "every even azimuthal size and Lmax, real and complex data", "why_tests_cant": "The packing formula depends on both sizes; a collision appears only for particular pairs, so finitely many bases cannot settle it.", "anchors": ["dedalus/core/basis.py:SphereBasis.elements_to_groups", "dedalus/core/basis.py:SphereBasis.global_shape", "dedalus/core/basis.py:SphereBasis.m_maps"]}
{"id": "C66", "title": "Spin-weighted harmonic transforms are exact", "statement": "On a sphere basis the colatitude transform uses orthonormal spin-weighted harmonics; the backward transform returns the value of the series at every grid point, the forward transform returns the projection of the grid data on the resolved harmonics, forward after backward returns the coefficients, orders beyond Lmax are left alone, and interpolation at a colatitude returns the value of the series there.", "quantifier": "every grid size, Lmax, order, spin weight, coefficient and grid data", "why_tests_cant": "Exactness is an identity between polynomials of every degree; tests check a few low modes up to rounding.", "anchors": ["dedalus/core/transforms.py:SWSHColatitudeTransform", "dedalus/libraries/dedalus_sphere/sphere.py:harmonics", "dedalus/core/basis.py:SphereBasis"]}
{"id": "C67", "title": "Vector calculus on the sphere is exact", "statement": "On a sphere of radius R: the gradient of a scalar has the components (d_phi f / (R sin theta), d_theta f / R); the divergence of a vector is (d_theta(sin theta v_theta) + d_phi v_phi) / (R sin theta); the Laplacian of a scalar is the Laplace-Beltrami operator with eigenvalues -ell(ell+1)/R^2 and that of a component of any spin weight is the trace of its second covariant derivative; averaging returns the mean over the sphere; a constant converts to the field with this value; multiplication by cos(theta) is exact up to the projection on the resolved degrees.", "quantifier": "every Lmax, order, spin weight, radius, coefficients and every colatitude away from the poles", "why_tests_cant": "Each is an identity between functions on the whole sphere for every degree, order and spin weight.", "anchors": ["dedalus/core/basis.py:SphereGradient", "dedalus/core/basis.py:SphereDivergence", "dedalus/core/basis.py:SphereLaplacian", "dedalus/core/basis.py:SphereAverage", "dedalus/core/basis.py:ConvertConstantSphere", "dedalus/core/operators.py:MulCosine"]}
{"id": "C68", "title": "Axisymmetric coefficients on the sphere multiply exactly", "statement": "Multiplying by an axisymmetric scalar or tensor coefficient on the left hand side of a problem on the sphere gives the same as multiplying the fields: for every order, every pair of resolved degrees and every pair of spin components, the matrix entry that connects the memory slots of the two degrees is the projection of the product of the two harmonics, for real and complex data.", "quantifier": "every Nphi, Lmax, order, pair of degrees, spin weights of coefficient and operand, coefficients and cutoff", "why_tests_cant": "Tests compare a few low orders on one grid; the storage order of the degrees depends on the order and entries must be right for all orders and sizes.", "anchors": ["dedalus/core/basis.py:SphereBasis._last_axis_component_ncc_matrix", "dedalus/core/basis.py:SphereBasis.sine_multiplication_matrix"]}
{"id": "C69", "title": "Disk and ball radial transforms are exact", "statement": "On disk and ball bases, the radial basis functions of every azimuthal order, spin weight, degree and regularity are smooth orthonormal functions; transforming coefficients to the grid evaluates the corresponding series at the grid radii, and transforming a resolved function back returns its coefficients, also with dealiasing and for derivative bases. Forbidden components are zero.", "quantifier": "all resolutions, dealias factors, parameters alpha and k, orders m, degrees ell, tensor components, coefficients and Gauss grids", "why_tests_cant": "Tests transform a few fields at a few resolutions; exactness is needed for every mode, component and resolution, and fails only for particular combinations of order, spin and truncation.", "anchors": ["dedalus/core/transforms.py:DiskRadialTransform", "dedalus/core/transforms.py:BallRadialTransform", "dedalus/libraries/dedalus_sphere/zernike.py:polynomials", "dedalus/core/basis.py:DiskBasis", "dedalus/core/basis.py:BallBasis"]}
{"id": "C70", "title": "Vector calculus on the disk is exact", "statement": "On a disk basis of any radius, gradient, divergence and Laplacian of scalar, vector and tensor fields give the coefficients of the exact derivatives in polar coordinates; conversions between bases do not change the function; interpolation, integrals, averages, conversion of constants and lifting act as named.", "quantifier": "all radii, resolutions, parameters, orders, spin weights, coefficients and points other than the centre", "why_tests_cant": "Tests compare a few fields against hand-written derivatives at finite resolution; the identities involve sign choices for every sign of m + s and every spin.", "anchors": ["dedalus/core/basis.py:DiskBasis.operator_matrix", "dedalus/core/operators.py:PolarGradient", "dedalus/core/operators.py:PolarDivergence", "dedalus/core/operators.py:PolarLaplacian", "dedalus/core/basis.py:IntegrateDisk", "dedalus/core/basis.py:LiftDisk"]}
{"id": "C71", "title": "Tensor calculus in the ball is exact", "statement": "For a tensor field of any rank on a ball, the gradient, divergence, curl and Laplacian evaluate to the covariant derivatives in spherical coordinates of the input field at every radius other than the centre. Conversion between bases does not change the field. Interpolation gives its value. Converting a constant gives the constant field. The integral of a scalar field is its volume integral. Lifting multiplies each component of the boundary data by the chosen radial function.", "quantifier": "all ranks, degrees, radial sizes, orders k, parameters alpha > -1, radii, coefficients and points", "why_tests_cant": "the operators combine recursively built coupling matrices and Jacobi recurrences for every degree and rank; tests sample low ranks and small sizes", "anchors": ["dedalus/core/operators.py:SphericalGradient", "dedalus/core/operators.py:SphericalDivergence", "dedalus/core/operators.py:SphericalCurl", "dedalus/core/operators.py:SphericalLaplacian", "dedalus/core/basis.py:BallRadialBasis", "dedalus/core/basis.py:IntegrateBall", "dedalus/core/basis.py:LiftBall", "dedalus/core/basis.py:ConvertConstantBall", "dedalus/core/basis.py:BallRadialInterpolate"]}
{"id": "C72", "title": "Traces, transpositions, rotations and components of tensors", "statement": "The trace of a tensor field over its first two indices, the exchange of two of its indices, the rotation of an index by a right angle and the selection of a component of an index return, in Cartesian, polar and spherical coordinates, the field that the operation gives on the components in the orthonormal frame, whether the tensor is stored in frame, spin or regularity components, and the matrices used in linear problems give the same result as the evaluation.", "quantifier": "all ranks, all tensor indices including those counted from the end, all dimensions, all field shapes, all degrees and radial resolutions, all data", "why_tests_cant": "Tests contract fields of rank 2 with positive indices on a few resolutions; the claim is for every rank, every index and every field, and the recombination in regularity components depends on the degree.", "anchors": ["dedalus/core/operators.py: Trace, SphericalTrace, PolarTrace, CartesianTrace, DirectProductTrace, TransposeComponents, SphericalTransposeComponents, Skew, CartesianSkew, SpinSkew, Component, CartesianComponent, DirectProductComponent, RadialComponent, AngularComponent, AzimuthalComponent", "dedalus/core/basis.py: S2RadialComponent, PolarRadialComponent"]}
{"id": "C73", "title": "Calculus on the annulus and in the spherical shell", "statement": "On an annulus, Gradient, Divergence and Laplacian of any field held by a basis (any parameter alpha, order k, size and radii) are the exact gradient, divergence and Laplacian of the function the coefficients stand for, in polar coordinates, component by component, for every azimuthal order and spin weight. In a shell, Gradient, Divergence, Curl and Laplacian of tensor fields of every rank are the exact operators of spherical geometry, for every degree, at every radius.", "quantifier": "every pair of radii, alpha, k, resolution, azimuthal order or degree, tensor rank, coefficients and every radius r > 0", "why_tests_cant": "Tests evaluate a few fields on one grid at one alpha and k; exactness for every alpha, k, order, degree, rank and coefficient vector, including the top modes, is an identity over a continuum.", "anchors": ["dedalus/libraries/dedalus_sphere/shell.py:operator", "dedalus/core/basis.py:AnnulusBasis.operator_matrix", "dedalus/core/basis.py:ShellRadialBasis.operator_matrix", "dedalus/core/operators.py:PolarGradient,PolarDivergence,PolarLaplacian,SphericalGradient,SphericalDivergence,SphericalCurl,SphericalLaplacian"]}
{"id": "C74", "title": "Transforms, conversion, interpolation, integrals and products on the annulus and shell", "statement": "On an annulus or in a shell: the backward transform gives the values of the represented function at the grid points and the forward transform inverts it; converting to a basis of higher order k leaves the function unchanged; interpolation gives its values; constants become constant functions; Integrate and Average give the exact integral and mean; Lift gives the stated basis function; products with a non-constant coefficient give the leading coefficients of the exact product.", "quantifier": "every pair of radii, alpha, k, resolution, dealiasing size, coefficients, radius and cutoff", "why_tests_cant": "Tests use smooth fields whose top coefficients vanish and low orders k, where truncation in conversions and quadrature errors do not show; the statements range over all coefficient vectors and all k.", "anchors": ["dedalus/core/basis.py:AnnulusBasis.conversion_matrix", "dedalus/core/basis.py:ShellRadialBasis.conversion_matrix", "dedalus/core/basis.py:AnnulusBasis.forward_transform_radius", "dedalus/core/basis.py:IntegrateAnnulus,AverageAnnulus,IntegrateShell", "dedalus/core/basis.py:ConvertConstantAnnulus,ConvertConstantShell", "dedalus/core/basis.py:LiftAnnulus,LiftShell", "dedalus/core/basis.py:ShellRadialBasis._last_axis_component_ncc_matrix"]}
{"id": "C75", "title": "Cartesian gradients, divergences, curls and Laplacians are the classical ones", "statement": "On Cartesian coordinates and direct products of them, grad, div, curl and lap of a field are the classical derivatives of the function the field stands for, component by component; the divergence of the gradient is the Laplacian; and one-dimensional spectral operators applied along one axis of a multi-dimensional field act on that coordinate only and commute along different axes.", "quantifier": "every dimension, every tensor rank, every choice of coordinates with and without bases, every function, and every number of axes", "why_tests_cant": "Tests differentiate a few functions of two or three coordinates.", "anchors": ["dedalus/core/operators.py:CartesianGradient", "dedalus/core/operators.py:CartesianDivergence", "dedalus/core/operators.py:CartesianCurl", "dedalus/core/operators.py:CartesianLaplacian", "dedalus/core/operators.py:DirectProductGradient", "dedalus/core/operators.py:DirectProductLaplacian", "dedalus/core/operators.py:DirectProductCurl", "dedalus/tools/array.py:apply_matrix"]}
{"id": "C76", "title": "Integrals, averages and interpolations over several coordinates are the iterated ones", "statement": "Integrate and Average over the default domain, a coordinate system, a direct product or a list of coordinates give the iterated integral and the integral over the volume; interpolate at several positions gives the function at these positions; the result no longer depends on these coordinates.", "quantifier": "every list of distinct coordinates, every way of giving it, every function and every tensor rank", "why_tests_cant": "Tests integrate a few functions over one or two coordinates with a basis.", "anchors": ["dedalus/core/operators.py:Integrate", "dedalus/core/operators.py:Average", "dedalus/core/operators.py:Interpolate", "dedalus/core/operators.py:interpolate", "dedalus/core/basis.py:IntegrateJacobi", "dedalus/core/basis.py:AverageJacobi"]}
{"id": "C77", "title": "Different coordinate systems are told apart", "statement": "Coordinate systems compare equal only if they have the same coordinates, so fields over different systems cannot be added; the axis of a coordinate is its position in the distributor.", "quantifier": "every pair of coordinate systems and tensor signatures, every distributor", "why_tests_cant": "Tests use one or two systems with different first names.", "anchors": ["dedalus/core/coords.py:CoordinateSystem.__eq__", "dedalus/core/coords.py:Coordinate.__eq__", "dedalus/tools/general.py:unify_attributes", "dedalus/core/distributor.py:Distributor.get_axis", "dedalus/core/coords.py:DirectProduct"]}
{"id": "C78", "title": "A domain is the set of its bases, each along its own axes", "statement": "A domain does not depend on the order or repetition of its bases; overlapping bases are rejected; along every axis the domain has the attributes (basis, constancy, mode dependence, dealias factor, shapes) of the basis that owns the axis; substituting a basis changes nothing else.", "quantifier": "every list of bases and every distributor dimension", "why_tests_cant": "Tests build a few domains.", "anchors": ["dedalus/core/domain.py:Domain", "dedalus/core/domain.py:Domain.substitute_basis", "dedalus/core/domain.py:Domain.full_bases", "dedalus/core/domain.py:Domain.get_basis"]}
{"id": "C79", "title": "The domain of a sum or product has the combined bases of both arguments, in either order", "statement": "The bases of a + b and of a * b are, coordinate system by coordinate system, the combination of the bases of a and b, constants being neutral, and do not depend on the order of the arguments.", "quantifier": "every pair of domains over the same distributor", "why_tests_cant": "Tests add and multiply fields with bases over whole coordinate systems.", "anchors": ["dedalus/core/arithmetic.py:Add._build_bases", "dedalus/core/arithmetic.py:Product._build_bases", "dedalus/core/domain.py:Domain.bases_by_coord"]}
{"id": "C80", "title": "An operator call finds the one implementation that accepts its arguments", "statement": "Calling an operator class makes an instance of a class exactly if that class has no subclasses, accepts the arguments, and every class on the way to it is the only one among its siblings that accepts them; otherwise an error is raised; the order in which implementations were registered does not matter.", "quantifier": "every tree of classes, every family of checks and every argument", "why_tests_cant": "Tests call operators for the combinations that exist; ambiguous and missing ones and import orders are not enumerated.", "anchors": ["dedalus/tools/dispatch.py:MultiClass.__call__", "dedalus/tools/exceptions.py:SkipDispatchException"]}
{"id": "C81", "title": "Eigenmodes satisfy the equations", "statement": "Every eigenvector returned by an eigenvalue solver, dense or sparse, satisfies all valid equations of the generalised problem with its eigenvalue and has no invalid modes; setting the state to a mode writes that mode into the chosen subsystem and zero elsewhere; left eigenvectors annihilate the problem from the left, and the modified left ones are biorthonormal to the eigenvectors.", "quantifier": "all matrices, valid modes, orderings, eigenvalue routines keeping their contract, shifts, subsystems, mode numbers", "why_tests_cant": "Depends on preconditioning and shift-invert algebra for all matrices; tests see a few spectra.", "anchors": ["dedalus/core/solvers.py:EigenvalueSolver.solve_dense", "dedalus/core/solvers.py:EigenvalueSolver.solve_sparse", "dedalus/core/solvers.py:EigenvalueSolver.set_state", "dedalus/tools/array.py:scipy_sparse_eigs"]}
{"id": "C82", "title": "Named matrix solvers are exact", "statement": "Choosing a matrix solver by name, in any letter case, gives solver objects that return, for every nonsingular matrix and every right-hand side of one or two dimensions, an array of the same shape that solves the system; the factorised solvers also solve the conjugate transposed system and the others refuse it; band storage and low-rank updates do not change the system.", "quantifier": "all nonsingular matrices of any size and sparsity, all right-hand sides with any number of columns, all names in the solver table, all update ranks", "why_tests_cant": "The result must hold for every matrix, bandwidth and sparsity pattern; tests use a few matrices with the default solver.", "anchors": ["dedalus/libraries/matsolvers.py:BandedSolver.sparse_to_banded", "dedalus/libraries/matsolvers.py:_SuperluFactorizedBase", "dedalus/libraries/matsolvers.py:Woodbury", "dedalus/libraries/matsolvers.py:matsolvers", "dedalus/core/solvers.py:SolverBase.__init__"]}
{"id": "C83", "title": "An adaptive timestep respects the Courant limit of the velocity at every grid point", "statement": "For a velocity added to the adaptive timestep, the frequency at each grid point is the sum, over the directions in which the flow crosses the grid, of speed divided by grid spacing there. It does not depend on how the grid is distributed. The spacings are positive, so a step not larger than the safety factor divided by the largest frequency moves the flow in every direction, at every grid point, by at most the safety factor times the spacing.", "quantifier": "all velocities, all Cartesian, polar, spherical and product coordinate systems, all sizes, dealias factors and bounds, all distributions over processes, all grid points and all settings of the adaptive timestep", "why_tests_cant": "a test fixes one grid, one flow and one number of processes; an error at one point of one process, or a spacing that is wrong in one product of coordinate systems, only shows as an instability", "anchors": ["dedalus/core/operators.py:AdvectiveCFL", "dedalus/core/basis.py:CartesianAdvectiveCFL", "dedalus/core/basis.py:PolarAdvectiveCFL", "dedalus/core/basis.py:S2AdvectiveCFL", "dedalus/core/basis.py:Spherical3DAdvectiveCFL", "dedalus/extras/flow_tools.py:CFL.add_velocity"]}
{"id": "C84", "title": "Each spherical coefficient is treated with its own degree", "statement": "On the sphere, in shells and in balls, radial operators, regularity recombinations and radial transforms are defined degree by degree. For every resolution and every distribution over processes, each stored coefficient is acted on exactly once, with the matrix of the degree of the harmonic it stores.", "quantifier": "All even azimuthal resolutions (multiples of four for real data), all Lmax, all blocks of rows and columns a process may hold, all operators", "why_tests_cant": "The slices are bounding boxes of a packed triangular array; whether a box also covers coefficients of another degree depends on the parity of Lmax and on the ratio of the resolutions, and tests use Nphi = 2 Ntheta only.", "anchors": ["dedalus/core/basis.py:SphereBasis.ell_maps", "dedalus/core/basis.py:SphereBasis.elements_to_groups", "dedalus/core/distributor.py:Layout.local_groupset_slices", "dedalus/core/operators.py:SphericalEllOperator.operate", "dedalus/core/transforms.py:BallRadialTransform"]}
{"id": "C85", "title": "Curvilinear operators mean the same on both sides of an equation", "statement": "In disks, annuli, spheres, shells and balls, the matrix that an operator contributes to a subproblem, applied to the gathered coefficients of the operand, equals the gathered coefficients of the operator evaluated on the field. So moving a linear term from the left to the right side of an equation does not change the equation.", "quantifier": "All operators given by radial matrices per degree or order, or by symbols; all tensor ranks, resolutions, process blocks, data; separable and coupled degree; real and complex data", "why_tests_cant": "Explicit evaluation and matrix assembly are separate code with separate orderings of components, rows, degrees and radial modes; a test compares a few fields at one resolution.", "anchors": ["dedalus/core/operators.py:SphericalEllOperator", "dedalus/core/operators.py:PolarMOperator", "dedalus/core/operators.py:SphericalCurl", "dedalus/core/operators.py:SeparableSphereOperator", "dedalus/core/subsystems.py:Subproblem.gather_inputs"]}
{"id": "C86", "title": "Coefficients that depend on the radius in balls and disks", "statement": "For an operand in a ball or disk and a coefficient that depends only on the radius, the matrix used on the left-hand side for a pair of tensor components gives the same coefficients as the product of the two functions of the radius, truncated to the resolution of the operand: for every coefficient (after the cutoff), every operand, resolution, azimuthal order or degree, component and order of the bases, and for real and complex data.", "quantifier": "all radial resolutions, bases (alpha, k of both factors), degrees and azimuthal orders, component regularities and spins, coefficients, operands, cutoffs; real and complex data", "why_tests_cant": "the matrices come from truncated recursions whose errors sit in the last rows; only a proof covers all sizes, orders and coefficients", "anchors": ["dedalus/core/basis.py:BallRadialBasis._last_axis_component_ncc_matrix", "dedalus/core/basis.py:DiskBasis._last_axis_component_ncc_matrix", "dedalus/core/basis.py:BallRadialBasis.radius_multiplication_matrix", "dedalus/core/basis.py:DiskBasis.radius_multiplication_matrix", "dedalus/tools/clenshaw.py:matrix_clenshaw"]}
{"id": "C87", "title": "File output holds exactly the global data of every output", "statement": "From a file handler without files from its first set on, every sequence of outputs succeeds and the files then hold exactly these outputs: output number w is in set w/max_writes, entry w mod max_writes (or in one file, entry w), with its time scales, and the entry of each task is the global array that the processes together held at that output. This holds for all three ways of writing (gather, parallel, virtual), so that they give the same data; there are no further entries or files, and files of earlier sets are unchanged.", "quantifier": "all meshes, layouts, shapes, chunks, tensor shapes and lists of tasks with different names, including processes without data; all numbers of outputs and max_writes; all data", "why_tests_cant": "errors depend on the distribution (empty processes, uneven blocks) and on the position of an output relative to the size of a file; tests fix a mesh and a few writes", "anchors": ["dedalus/core/evaluator.py:H5FileHandlerBase.process", "dedalus/core/evaluator.py:H5FileHandlerBase.get_data_distribution", "dedalus/core/evaluator.py:H5GatherFileHandler.write_task", "dedalus/core/evaluator.py:H5ParallelFileHandler.write_task", "dedalus/core/evaluator.py:H5VirtualFileHandler.create_task_dataset", "dedalus/core/evaluator.py:H5VirtualFileHandler.write_task"]}
{"id": "C88", "title": "Merging a virtual task in its file loses nothing", "statement": "merge_task replaces a virtual dataset by a plain dataset with the same entries (or puts it beside), leaves the other datasets alone, and if it is stopped at any point all entries are still in the file under the name of the task or the name with _merged; a run that was stopped can be repeated.", "quantifier": "all datasets, chunkings that cover the dataset, and stopping points", "why_tests_cant": "a crash may come between any two actions on the file; tests run to the end", "anchors": ["dedalus/core/evaluator.py:H5VirtualFileHandler.merge_task"]}
{"id": "C89", "title": "Files of the virtual handler can be merged by the post-processing tools", "statement": "merge_virtual_file and merge_distributed_set, applied to the files that a virtual file handler writes, give one file with all tasks and the time scales, and never lose data.", "quantifier": "all lists of tasks and process files, with or without cleanup", "why_tests_cant": "the reader and the writer are in different modules and agree only through attribute names; the existing tests do not merge", "anchors": ["dedalus/tools/post.py:merge_virtual_file", "dedalus/tools/post.py:merge_distributed_set", "dedalus/tools/post.py:merge_setup", "dedalus/core/evaluator.py:H5VirtualFileHandler.setup_process_file", "dedalus/core/evaluator.py:H5FileHandlerBase.setup_file"]}
{"id": "C90", "title": "The basis of a sum", "statement": "The basis of a sum of fields along a coordinate system is the smallest basis that contains the bases of all addends (number of modes in each direction, and parameters of the polynomials, so that every addend can be converted upwards). It does not depend on the order or the grouping of the addends; addends that are constant along the coordinates do not matter; a sum of bases that differ in anything else (class, coordinates, bounds or radii, alpha, dealias, dtype, libraries) raises an exception. Exception: radial bases of shells and balls that differ in dtype or transform library are added, with the dtype and library of the first.", "quantifier": "all lists of bases of all classes (Fourier, Jacobi, annulus, disk, sphere, radial bases, shell, ball) and constants, all orders and groupings", "why_tests_cant": "The number of combinations of classes, sizes, parameters and orders is unbounded; tests add a few fields on equal bases.", "anchors": ["dedalus/core/basis.py: Basis.__radd__, Jacobi.__add__, AnnulusBasis.__add__, DiskBasis.__add__, SphereBasis.__add__, ShellBasis.__add__, BallBasis.__add__", "dedalus/core/arithmetic.py: Add._build_bases"]}
{"id": "C91", "title": "The basis of a product", "statement": "The basis of a product of fields does not depend on the order or the grouping of the factors and has in each direction at least the modes of each factor; the basis of a product with a non-constant coefficient in an equation has the modes of both, and the conversion of the operand to it goes upwards in the parameters; constant factors do not matter.", "quantifier": "all pairs and triples of bases of all classes, as grid products and as products with coefficients", "why_tests_cant": "The number of combinations of classes, sizes, parameters and groupings is unbounded; tests use equal resolutions.", "anchors": ["dedalus/core/basis.py: Basis.__matmul__, Jacobi.__mul__, Jacobi.__rmatmul__, ShellRadialBasis.__mul__, ShellBasis.__mul__, ShellBasis.__rmatmul__, BallBasis.__mul__, BallBasis.__rmatmul__", "dedalus/core/arithmetic.py: Product._build_bases"]}
{"id": "C92", "title": "Sums of fields of different resolution", "statement": "Adding two fields on bases of different resolution, for example an axisymmetric field on annulus.radial_basis and a field on the annulus, gives the coefficients of the sum of the two functions, or raises.", "quantifier": "all shapes and data of the two fields, real and complex", "why_tests_cant": "Depends on all coefficients and on how arrays of different shape are combined; tests add fields of equal resolution.", "anchors": ["dedalus/core/basis.py: PolarBasis.__eq__, PolarBasis.global_shape, AnnulusBasis.radial_basis", "dedalus/core/operators.py: ConvertSame", "dedalus/core/arithmetic.py: AddFields.operate"]}
{"id": "C93", "title": "Distributed transforms pair every order with its own coefficients", "statement": "On sphere, disk and annulus bases, whatever the number of processes, every process holds the coefficients of exactly the azimuthal orders (and cosine or sine parts) whose grid rows it holds, and the colatitude or radial transform multiplies each grid row by the matrix of its own order and stores the result as the coefficients of that order and part, in increasing degree. So the transformed field does not depend on the number of processes, the grid values are those of the series, and transforming there and back returns the coefficients.", "quantifier": "every azimuthal and colatitude or radial resolution accepted by the bases with Nphi <= 2 Ntheta (sphere), real and complex data, every transform grid, every number of processes and process, every field and spin weight", "why_tests_cant": "The tests run with one or a few processes on a few resolutions; the pairing depends on the resolution, the folding of orders, the block sizes and the process.", "anchors": ["dedalus/core/basis.py:SphereBasis.m_maps", "dedalus/core/basis.py:PolarBasis.m_maps", "dedalus/core/basis.py:SphereBasis.chunk_shape", "dedalus/core/transforms.py:SWSHColatitudeTransform", "dedalus/core/transforms.py:DiskRadialTransform"]}
{"id": "C94", "title": "Averages over the azimuth and over spheres are means on any number of processes", "statement": "Averaging a field over the azimuth (on spheres, shells, balls, disks and annuli) gives the axisymmetric field whose value is the mean over the azimuth at fixed colatitude and radius, and averaging a scalar over a sphere gives the field whose value is the mean with weight sin(theta); every process computes its own part of the result whatever the number of processes, without raising an error.", "quantifier": "every accepted resolution with Nphi <= 2 Ntheta, real and complex data, every process mesh and process, every radial truncation, every coefficient array", "why_tests_cant": "Tests average a few fields on one or a few processes; which local entries are copied depends on the resolution, the folding of orders and the block sizes on every process.", "anchors": ["dedalus/core/basis.py:SphereAzimuthalAverage", "dedalus/core/basis.py:SphericalAzimuthalAverage", "dedalus/core/basis.py:PolarAzimuthalAverage", "dedalus/core/basis.py:SphericalAverage", "dedalus/core/basis.py:SphereAverage", "dedalus/core/operators.py:PolarMOperator.operate", "dedalus/core/operators.py:SphericalEllOperator.operate"]}
{"id": "C95", "title": "Tensor fields on the sphere have the values that their coefficients say, and come back from the grid", "statement": "For a scalar, vector or tensor field on a sphere, the data in grid layout are, at every grid point, the components of the field whose coefficients (by azimuthal order and degree, of spin-weighted harmonics of the spin of each component) are the data in coefficient layout. Going from coefficients to the grid and back returns the coefficients of all existing harmonics below the Nyquist order and zeros elsewhere, and so does going only from coefficients to the intermediate layout (colatitude on the grid, azimuth in orders) and back.", "quantifier": "All tensor signatures over systems that contain the pair of coordinates of the sphere or do not mention it, all allowed resolutions, real and complex data, all dealiasing scales not below one, all coefficients.", "why_tests_cant": "Tests use fixed small sizes and smooth fields; the property ranges over every tensor rank, resolution, permutation of orders and coefficient array.", "anchors": ["dedalus/core/basis.py:SphereBasis.forward_transform_azimuth", "dedalus/core/basis.py:SphereBasis.backward_transform_azimuth", "dedalus/core/basis.py:SphereBasis.forward_transform_colatitude", "dedalus/core/basis.py:SphereBasis.backward_transform_colatitude", "dedalus/core/basis.py:SpinBasis.spin_weights"]}
{"id": "C96", "title": "Products of fields do not depend on the number of processes", "statement": "When fields are multiplied (tensor product, contraction, cross product) and one of them is constant along some axes, every process obtains exactly its own part of the product of the whole fields, on every process mesh, after any number of earlier evaluations on any grids, and the processes never wait for each other forever: those that exchange data make the same collective calls in the same order.", "quantifier": "all numbers of axes, all process meshes and processes (also with empty local data), all grid sizes, tensor ranks and values, all combinations of constant axes, all sequences of earlier evaluations", "why_tests_cant": "Tests run on a few meshes; a wrong root, a stale cached buffer or a rank that skips a collective call shows only for particular meshes, sizes and histories, and a deadlock is not seen in a serial test.", "anchors": ["dedalus/core/arithmetic.py: GhostBroadcaster", "dedalus/core/arithmetic.py: MultiplyFields.operate", "dedalus/core/arithmetic.py: DotProduct.operate", "dedalus/core/arithmetic.py: CrossProduct", "dedalus/core/domain.py: Domain.constant", "dedalus/core/basis.py: SpinBasis.constant"]}
{"id": "C97", "title": "Tensor fields in the disk and the annulus have the values their coefficients describe", "statement": "Assigning coefficient data to a scalar, vector or tensor field on a DiskBasis or an AnnulusBasis and reading the grid data gives, at every azimuth and radius of the grid, the components of the field that is the sum over orders and radial functions (Zernike functions of the spin and order; powers of the radius times Jacobi polynomials) of these coefficients, and reading the coefficient data again gives back every coefficient that the grid resolves and zero for the others.", "quantifier": "every tensor signature, number of azimuthal and radial modes, dealiasing grid, weight parameter, number of derivatives k, inner and outer radius and coefficient data, real or complex", "why_tests_cant": "Tests compare a few smooth functions at one resolution; the pairing of rows with orders, of components with spins and of columns with radial functions has to be right for every mode, spin and size.", "anchors": ["core/basis.py:DiskBasis.forward_transform_radius", "core/basis.py:DiskBasis.backward_transform_radius", "core/basis.py:AnnulusBasis.forward_transform_radius", "core/basis.py:AnnulusBasis.backward_transform_radius", "core/basis.py:AnnulusBasis.radial_transform_factor", "core/transforms.py:DiskRadialTransform"]}
{"id": "C98", "title": "Tensor fields in the ball and the shell have the values their coefficients describe", "statement": "Assigning coefficient data to a scalar, vector or tensor field over a SphericalCoordinates system on a BallBasis or a ShellBasis and reading the grid data gives, at every azimuth, colatitude and radius of the grid, the components of the field that is the sum over orders, degrees, regularities and radial functions (r to a power times Jacobi polynomials in the ball, powers of the radius times Jacobi polynomials in the shell) of these coefficients, and reading the coefficient data again gives back every coefficient of an allowed regularity that the grid resolves and zero for the others.", "quantifier": "every rank, angular and radial resolution that the constructors accept, dealiasing grid, weight parameter, number of derivatives k, radii and coefficient data, real or complex", "why_tests_cant": "Tests compare a few smooth functions at one resolution; the pairing of slots with degrees, of components with regularities and spins and of columns with radial functions has to be right for every mode, rank and size.", "anchors": ["core/basis.py:BallBasis.forward_transform_radius", "core/basis.py:BallBasis.backward_transform_radius", "core/basis.py:ShellBasis.forward_transform_radius", "core/basis.py:ShellBasis.backward_transform_radius", "core/basis.py:RegularityBasis.forward_regularity_recombination", "core/basis.py:RegularityBasis.backward_regularity_recombination", "core/transforms.py:BallRadialTransform"]}
{"id": "C99", "title": "Integrals and averages of fields over disks, annuli, balls and shells", "statement": "integ(f) of a scalar field over a disk, annulus, ball or shell, and ave(f) over a disk or annulus, is the Riemann integral of the values of the field over the domain (in polar or spherical coordinates), divided by the area for ave, whatever the coefficients, the resolution, the dtype, the order of the basis and the number of processes; the result is stored once, on the first process, and the other processes hold no elements.", "quantifier": "every coefficient array, resolution, dtype, basis order k, parameters alpha, radii, number of processes per axis and process rank", "why_tests_cant": "A test integrates a few fields with known integrals on one mesh; the claim is about every coefficient array and every distribution of it.", "anchors": ["dedalus/core/basis.py:IntegrateSpinBasis", "dedalus/core/basis.py:IntegrateDisk", "dedalus/core/basis.py:AverageDisk", "dedalus/core/basis.py:IntegrateAnnulus", "dedalus/core/basis.py:AverageAnnulus", "dedalus/core/basis.py:IntegrateSpherical", "dedalus/core/basis.py:IntegrateBall", "dedalus/core/basis.py:IntegrateShell"]}
{"id": "C100", "title": "Interpolation of curvilinear fields in azimuth and colatitude", "statement": "Interpolating a tensor field on a sphere, disk, annulus, ball or shell at an azimuth, given as a number or as an end or the middle of the interval, returns the components of that field at this azimuth, at every other grid point. Interpolating a tensor field on a sphere at a colatitude strictly between the poles returns the components of the field at this colatitude, at every azimuth of the grid. Both hold for every tensor rank and for real and complex data.", "quantifier": "all accepted resolutions with dealiasing at least one, all tensor signatures and coefficients, all azimuths and all colatitudes between the poles", "why_tests_cant": "Tests compare a few fields at a few positions; the claim is for every coefficient array, resolution, rank and position, and combines the permutation of the orders, the spin recombination and the quadrature.", "anchors": ["dedalus/core/basis.py:InterpolateAzimuth", "dedalus/core/basis.py:InterpolateColatitude", "dedalus/core/basis.py:InterpolateRealFourier", "dedalus/core/basis.py:InterpolateComplexFourier"]}
{"id": "C101", "title": "Tensor fields interpolated at a radius take the values of the field there", "statement": "Evaluating a scalar, vector or tensor field of a disk, annulus, ball or shell at a radius (f(r=x), interp, or a boundary value) gives the field on the circle or sphere of that radius whose grid values in every component are those of the original field at this radius: every azimuthal order, degree, spin and regularity component is summed with its own radial functions, components a degree does not have do not enter, and what the output buffer held before has no effect. Positions may be given as a number or as 'left', 'center', 'right'.", "quantifier": "all tensor signatures, truncations, spectral parameters, positive radii, coefficient data, previous contents of the output and grids", "why_tests_cant": "A test checks one radius, one rank and one resolution; left-over output data and missing radial coefficients only show for special buffers and sizes.", "anchors": ["dedalus/core/basis.py:PolarRadialInterpolate", "dedalus/core/basis.py:BallRadialInterpolate", "dedalus/core/basis.py:ShellRadialInterpolate", "dedalus/core/basis.py:PolarBasis.S1_basis", "dedalus/core/basis.py:SphereBasis"]}
{"id": "C102", "title": "Local grids match the field data on every process", "statement": "x, y, ... = dist.local_grids(*bases, scales=s) followed by u['g'] = f(x, y, ...) works on every process of any mesh, for a field on these bases (Fourier, Jacobi, disk, annulus, sphere, ball, shell) at these scales, and sets every entry of the field to the function at the point of the global grid where that entry is sampled: each global entry is set exactly once, by the process that holds it. dist.local_grid(basis) is the same for a single interval. local_grid_spacing gives each process the differences of the global grid at its own points, also next to the edges of its block.", "quantifier": "all distributors and meshes, all processes, all bases of these kinds with any sizes, all nonzero scales (per axis, or one for all), all functions, all indices", "why_tests_cant": "tests run on one or a few processes with fixed sizes; which points a process holds depends on sizes, scales and the mesh", "anchors": ["dedalus/core/distributor.py: Distributor.local_grid, local_grids, Layout.local_elements", "dedalus/core/basis.py: local_grids, local_grid_azimuth, local_grid_colatitude, local_grid_radius, local_grid_spacing, grid_shape, global_shape", "dedalus/tools/array.py: reshape_vector"]}
{"id": "C103", "title": "Valid modes are the modes a field is made of", "statement": "The coefficients of a field that are marked valid, and enter the linear systems, are those that its values depend on: coefficients at invalid modes never change grid values, coefficients that vanish there come back unchanged from a grid, and each coefficient is judged the same way on the one process that holds it, whatever the mesh", "quantifier": "every basis of the library in one to three dimensions, every number of modes, tensor rank, grid scale, process mesh and array of coefficients", "why_tests_cant": "Tests solve problems at a few resolutions on one process, and a mode that is wrongly kept or dropped shows up only for particular degrees, components and parities", "anchors": ["dedalus/core/field.py:valid_modes", "dedalus/core/distributor.py:valid_elements", "dedalus/core/basis.py:RealFourier.valid_elements", "dedalus/core/basis.py:PolarBasis.valid_elements", "dedalus/core/basis.py:SphereBasis.valid_elements", "dedalus/core/basis.py:Spherical3DBasis.valid_elements", "dedalus/core/basis.py:regularity_allowed_vectorized"]}
{"id": "C104", "title": "Enforcing Hermitian symmetry removes only what a real field cannot hold", "statement": "In an initial value problem with real data and enforce_real_cadence=k, in any k consecutive iterations the state is passed through the grid and back in as many iterations as the timestepper has steps, after the timestepper has advanced it; with complex data or k=0 never. Each time, whatever coefficients the state had, its grid values stay what they were, coefficients of nonzero azimuthal order stay, those of order zero are replaced by the part that belongs to a real field (for each spin component the mean of it and the conjugate of the component of opposite spin), and doing it again changes nothing more.", "quantifier": "every cadence, number of steps and starting iteration; every tensor field of a disk, annulus, sphere, ball or shell, every truncation and grid that resolves it, every array of real coefficients", "why_tests_cant": "Whether round-off outside the symmetric part is removed shows only in long runs, and tests start from coefficients that are symmetric already", "anchors": ["dedalus/core/solvers.py:InitialValueSolver.enforce_hermitian_symmetry", "dedalus/core/solvers.py:InitialValueSolver.step"]}
{"id": "C105", "title": "A saved state is restored on any number of processes", "statement": "Every write that a file handler of any kind has made of the state variables can be loaded by a solver on any process mesh, by its index from the start or the end of the file: the solver gets the iteration, the time, the timestep and the write number of that output, and every variable holds on each process its part of the saved global array, as coefficients or as values on the saved grid. Indices outside the file, missing variables, data in mixed layouts and coefficients of another resolution are refused, and a refused load leaves the solver as it was.", "quantifier": "all process meshes of both runs, all numbers of outputs and files, all tensor ranks, sizes and scales, all orders of variables, all indices", "why_tests_cant": "Depends on the number of processes of two runs, on all sizes and scales including their rounding, and on the states before the load.", "anchors": ["dedalus/core/solvers.py:InitialValueSolver.load_state", "dedalus/core/field.py:Field.load_from_hdf5", "dedalus/core/field.py:Field.load_from_global_coeff_data", "dedalus/core/field.py:Field.load_from_global_grid_data", "dedalus/core/basis.py:Basis.grid_shape", "dedalus/core/evaluator.py:H5FileHandlerBase.setup_file"]}
{"id": "C106", "title": "A restarted run continues as the run that wrote the state", "statement": "A new solver that loads a state takes exactly the steps that the run that saved it takes from there, whatever the memory of the new solver; loading a state again gives the same steps; and the steps after a load depend on the loaded state only, not on what the solver did before.", "quantifier": "all problems, schemes, timestep sequences before and after the restart, and restart points", "why_tests_cant": "Ranges over all histories of steps and loads and over the content of uninitialised memory.", "anchors": ["dedalus/core/solvers.py:InitialValueSolver.load_state", "dedalus/core/timesteppers.py:MultistepIMEX.step", "dedalus/core/timesteppers.py:RungeKuttaIMEX.step"]}
{"id": "C107", "title": "Applying a matrix along an axis of an array", "statement": "apply_matrix(matrix, array, axis, out) multiplies every line of the array along the axis by the matrix, for arrays of any dimension and any axis, dense or sparse, with or without an output array, under every setting and for every order of the parallel loops; only the output changes; input and output may be any strided views of the same memory; wrong shapes, formats and in-place calls are refused rather than computed wrongly.", "quantifier": "all shapes, axes (from the front or the back), matrices, strides and base addresses of input and output, memory contents, settings and schedules", "why_tests_cant": "A test multiplies a few arrays that numpy has just made; it cannot cover every dimension, axis, stride pattern and overlap of memory, nor every order of the parallel iterations.", "anchors": ["tools/array.py:apply_matrix", "tools/array.py:apply_dense", "tools/array.py:apply_sparse", "tools/array.py:move_single_axis", "tools/array.py:csr_matvecs", "tools/linalg.pyx:apply_csr", "core/transforms.py:BallRadialTransform"]}
{"id": "C108", "title": "Plots show every value at its place", "statement": "A plane taken from a dataset or field with get_plane (as plot_bot, plot_bot_2d and plot_bot_3d do) shows every selected value in the mesh cell around its own grid point, whatever the order of the grid positions and whichever of the two plotted axes comes first in the dataset; every cell of the mesh shows one value; cell edges lie halfway between points. Padded limits contain all points and have the aspect ratio of the axes if asked to; colour limits contain all data. A MultiFigure has whole sizes, its axes lie inside the figure, axes of different rows and columns do not overlap, and images keep their aspect ratio.", "quantifier": "every dataset, selection, pair of axes, grid (in any order), number of rows and columns, image, pad, margin and scale", "why_tests_cant": "unit tests compare pictures of a few datasets; the claim is over all shapes, orders of positions and selections", "anchors": ["dedalus/extras/plot_tools.py:get_plane", "dedalus/extras/plot_tools.py:quad_mesh", "dedalus/extras/plot_tools.py:get_1d_vertices", "dedalus/extras/plot_tools.py:pad_limits", "dedalus/extras/plot_tools.py:plot_bot_3d", "dedalus/extras/plot_tools.py:MultiFigure"]}
{"id": "C109", "title": "Locked fields stay in the layouts they are locked to", "statement": "A field locked to layouts (LockedField, Grid, Coeff, Lock) never leaves them and keeps its value, scales and buffer, whatever is read or asked of it and even if requests raise; a move is granted exactly if all layouts on the way are allowed; locking an axis to the grid allows exactly the layouts with that axis on the grid; unlocking gives an independent field of the same value; the operator Lock moves its operand to a nearest layout given and its result can move among the layouts given.", "quantifier": "all chains of layouts, locks, values, scales that lose no mode and sequences of requests including those that raise", "why_tests_cant": "tests lock one field to one layout and read it; they do not try all sequences of requests, refused moves in the middle of a path, or all sets of layouts", "anchors": ["dedalus/core/field.py:LockedField", "dedalus/core/operators.py:Lock", "dedalus/core/operators.py:Grid", "dedalus/core/operators.py:Coeff"]}
{"id": "C110", "title": "Operators bring their arguments into layouts they work in", "statement": "Evaluating an operator first brings its field arguments into a layout in which it can be computed: check_conditions holds exactly for the layouts the operation needs, enforce_conditions always succeeds in reaching one, keeps the values, scales and buffers of all fields and does not touch other fields, also if a field is used several times; if the conditions hold already nothing is moved; and for every operator some layout satisfies its conditions, so that evaluation by passing through the layouts reaches it.", "quantifier": "all chains of layouts (dimensions and process meshes), all kinds of operators, axes, arguments with repetitions, layouts and values of the fields", "why_tests_cant": "tests evaluate operators on few meshes from one starting layout; they do not cover all starting layouts, meshes and shared arguments", "anchors": ["dedalus/core/operators.py:SpectralOperator.enforce_conditions", "dedalus/core/operators.py:Convert.enforce_conditions", "dedalus/core/operators.py:ConvertConstant.enforce_conditions", "dedalus/core/operators.py:GeneralFunction.enforce_conditions", "dedalus/core/operators.py:UnaryGridFunction.enforce_conditions", "dedalus/core/operators.py:CartesianGradient.enforce_conditions", "dedalus/core/arithmetic.py:Product.enforce_conditions", "dedalus/core/arithmetic.py:AddFields.enforce_conditions"]}
{"id": "C111", "title": "Combined left-hand side matrices of time steppers", "statement": "The matrix every step or stage solves with is the combination a0*M + b0*L (multistep) or M + k*H_ii*L (Runge-Kutta) of the matrices built for the subproblem, with the coefficients of that step, whatever earlier steps wrote into the shared arrays. Storing expanded matrices gives copies of one common pattern with unchanged numbers and never changes what is solved. Matrices built again are used from the next step on.", "quantifier": "every pair or list of sparse matrices with any patterns (unsorted, duplicated entries), every scheme diagonal, every sequence of step coefficients and every program of builds and steps", "why_tests_cant": "The data arrays of differently patterned matrices are combined by position and overwritten in place; whether positions agree depends on all patterns at once, and whether a solver is stale depends on the whole history of coefficients and rebuilds.", "anchors": ["dedalus/tools/array.py:zeros_with_pattern", "dedalus/tools/array.py:expand_pattern", "dedalus/core/subsystems.py:Subproblem.build_matrices", "dedalus/core/timesteppers.py:MultistepIMEX.step", "dedalus/core/timesteppers.py:RungeKuttaIMEX.step"]}
{"id": "C112", "title": "Memory of fields", "statement": "Fields can be created and moved to any layout and any scales in any order, and their buffer always holds their data in every layout at the current scales on every process. A field whose scales never exceed the dealias scales stays in one buffer, so that arrays and solver views referring to it stay valid.", "quantifier": "every mesh, process, shape, chunk size, dealias scale, number type, number of components and every history of changes of scales and layout", "why_tests_cant": "Local sizes depend on the process, and block sizes are not monotone in the global size; only uneven splits of both axes on the last process show the failure.", "anchors": ["dedalus/core/field.py:Current.preset_scales", "dedalus/core/field.py:Current.preset_layout", "dedalus/core/field.py:Current._create_buffer", "dedalus/core/distributor.py:Distributor.buffer_size", "dedalus/core/distributor.py:Layout.buffer_size", "dedalus/core/subsystems.py:Subproblem._input_field_views"]}
{"id": "C113", "title": "Loops with progress messages run over all their items", "statement": "Wrapping a loop in the progress tracker (as the solvers do when they build their matrices) does not change the loop: every item of the iterable is handed out once and in order, whatever the clock reads and whatever the cadences. After each item there is at most one message, it is written before the next item, and it states correctly how many items are done, the percentage, the elapsed time and the time remaining at the same pace. There is a message after the first item, after the last one, whenever another iter (or share frac) of the items is done and whenever a multiple of the period dt has passed, and otherwise none. Times are printed as hours, minutes and seconds that stand for the time rounded to seconds.", "quantifier": "all item lists, all cadences (iter, frac, dt, also infinite) and all histories of clock readings", "why_tests_cant": "The readings of the clock are not under the control of a test; whether a loop ends with all its items depends on every reading, and the cadence on the whole history of readings.", "anchors": ["dedalus/tools/progress.py:track", "dedalus/tools/progress.py:format_time", "dedalus/tools/progress.py:log_progress", "dedalus/core/subsystems.py:build_subproblem_matrices"]}
{"id": "C114", "title": "Matrices of many ells are interleaved", "statement": "Putting the matrices of the separate ells of a spherical operator together gives a matrix that acts on the interleaved data of all ells as each ell's matrix acts on the data of that ell, without coupling different ells, for any number of ells from one up and matrices of any one shape; matrices of different shapes are refused.", "quantifier": "all non-empty lists of matrices over any commutative ring, of any shapes, and all vectors", "why_tests_cant": "The number of ells, the shapes and the entries are unbounded; a test fixes one resolution.", "anchors": ["dedalus/tools/array.py:interleave_matrices", "dedalus/core/operators.py:SphericalTrace", "dedalus/core/operators.py:SphericalTransposeComponents", "dedalus/core/basis.py:LiftShell"]}
