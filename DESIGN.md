# Formal model of DedalusProject/dedalus in Lean 4: design

## Layout of the work

* `properties.jsonl`: the English properties C01, C02, ...
* `lean/Verif/<Area>/Model.lean` (and further files): definitions modelled on /repo, one Lean function per Python function, each with the cited file and lines.
* `lean/Verif/<Area>/Spec.lean`: small specifications written without the model's helpers, when the statement needs vocabulary beyond core Lean and Mathlib.
* `lean/Verif/<Area>/Props.lean` (and further files named in the table): the property theorems, with `example`s that meet the hypotheses. All other files of an area are helper lemmas.
* `MANIFEST.json`: property -> theorem names. `seeded/LOG.jsonl`: wrong-program experiments.

## Conventions

* Floating point numbers are exact rationals, reals or complex numbers. Rounding is out of scope, except where a comparison of floats is itself the logic.
* Python exceptions are values (`Except`/`Option`), never defaults.
* MPI: a collective is a pure function of the per-rank inputs. Scheduling properties (C34, C57) use an explicit interleaving semantics.
* numpy views and buffers are modelled with an explicit heap where aliasing matters (C07, C26, C38, C40, C55, C63), otherwise as functions or lists.
* External numerical libraries are replaced by what they are documented to compute: FFTs are the sums that define them, sparse products are sums, LAPACK's symmetric tridiagonal eigenvalues are the roots of the characteristic polynomial in increasing order, LU solves return the solution.
* When the code does not have a property, the negation is proved (theorem name ends in `_refuted`), and the strongest true version is proved with the suffix `_partial`.

## Properties: what is modelled and how it is proved

| id | property | status | model (under `lean/Verif/`) | what is modelled and how it is proved |
|---|---|---|---|---|
| C01 | Block distribution covers every index exactly once | proved | Dist | `Layout.local_chunks/local_elements/slices/local_shape` over Nat. Proof: arithmetic of ceilings; exactly-one-owner by division |
| C02 | Layout chain from coefficient space to grid space is well formed | proved | Dist | `_build_layouts` double loop over lists of Bool. Proof: loop invariant, induction on steps |
| C03 | All-to-all transposes move every element to its place and back | proved | Transpose | pack, exchange, unpack of `AlltoallvTranspose` and `RowDistributor`/`ColDistributor`, as flat buffers. Proof: refinement to a global array; round trip |
| C04 | Transpose planning agrees with the layouts and across processes | partial | Transpose | `_sub_shape`, `_plan`, block arithmetic of `FFTWTranspose.__init__`. Proof: equality of block boundaries; refutation for the `mpi` planner on chunked axes |
| C05 | Moving fields together equals moving them one by one | partial | Transpose | `Transform`/`Transpose` group moves on a list of fields. Proof: refutation for `decrement_group`; partial for the rest |
| C06 | Field data survive any sequence of layout and scale changes | proved | Field | field state machine with abstract per-step data maps that invert each other. Proof: invariant by induction over operation sequences |
| C07 | Solvers read and write the data the user sees | partial | Field | heap of buffers, field, cached views, user operations, step. Proof: refutation; partial when scales stay within dealias |
| C08 | Global data round trip through any process distribution | partial | Global | `set_global_data`, `allgather_data`, `gather_data`. Proof: refinement; refutation on tensors |
| C09 | Random initial data do not depend on the parallel decomposition | proved | Random | `ChunkedRandomArray`, `rng_elements`. Proof: equality with stream at flat index |
| C10 | Multistep IMEX schemes have their documented order for every step history | proved | Step | all coefficient functions over a field. Proof: identities by `field_simp; ring` for all positive steps |
| C100 | Interpolation of curvilinear fields in azimuth and colatitude | partial | Interp | Model (`Interp`): the interpolation vectors (Fourier modes at the position times the permuted forward matrix), the check of sizes, and the loop over the orders between the two spin recombinations. Proof: the values of the grid data are those of C95-C98; the forward matrix applied to them returns the coefficients of every order, and the permutation reorders a sum. For the colatitude each row is a sum of harmonics of its order, for which quadrature is exact. Refuted: complex data with two azimuths, and colatitude interpolation of tensors whose spin exceeds the largest degree, are errors. |
| C101 | Tensor fields interpolated at a radius take the values of the field there | partial | RadialInterp | Model the loops of the three radial interpolation operators over degree and order maps, with the old contents of the output as an argument, and the recombination to spin or coordinate components (`RadialInterp`). Prove that the result holds the spin coefficients of the field at this radius (Partition of the degree maps, vanishing of the orthogonal matrices on forbidden regularities, explicit order maps), and compose with the transforms of the sphere (C95) and the circle. |
| C102 | Local grids match the field data on every process | partial | Grids | Model the global shapes of the bases and of a domain in grid space, the block distribution (C01), the indexing of the grids by local elements, `reshape_vector` and numpy broadcasting (`Grids`). Prove that local elements along an axis are a function of the number of points of that axis only, so that the elements computed from a single basis are those of the field; then read the broadcast arrays at an index. Grid spacings: `np.gradient` and the same indexing. |
| C103 | Valid modes are the modes a field is made of | partial | Modes | Model `valid_elements` of every basis as a predicate of component and global indices, masked groups included, and `Layout.valid_elements` on local elements (`Modes`). Prove from the transforms of C01-C100 that arrays that agree at valid modes have equal grid values, that arrays that vanish at invalid modes round-trip, and by induction over axes and bases that the local mask is the global one at the global index held by exactly one process (C01); refute that all valid modes are visible |
| C104 | Enforcing Hermitian symmetry removes only what a real field cannot hold | partial | Hermitian | Model the cadence of `step` and `enforce_hermitian_symmetry` as the transforms of C95-C98 to the grid of the dealias scales and back (`Hermitian`). Count due iterations by periodicity and induction over runs. Prove for arbitrary coefficients, by conjugating the spin recombination and the intertwiner under reversal of all spins, that order zero is projected on the part of a real field and that grid values do not change; idempotence from the entrywise result |
| C105 | A saved state is restored on any number of processes | partial | Restart | Model `load_state`, `load_from_hdf5` and the loading of coefficient and grid data on one process, with the rounding of scales as a parameter (`Restart`). Compose the records of C87 with the selection of C08: the entry at the index is the saved array, the grid size is recovered from the ratio of sizes, and each process gets its part; induction over the variables. Refusals by cases. Refute atomicity and, with IEEE doubles, the recovery of grid sizes by witnesses |
| C106 | A restarted run continues as the run that wrote the state | partial | Restart | Model a load as replacing fields and clock in the worlds of the timesteppers of C11-C13 (`Restart/Continue.lean`). For Runge-Kutta and one-step schemes prove by induction over steps and stages that two solvers with valid factorisations and equal state stay equal; for all multistep schemes by strong induction with the history invariant of C11. Refute for SBDF2 by witnesses |
| C107 | Applying a matrix along an axis of an array | partial | Apply | Arrays as strided views of one memory; transposition, reshape, matmul and assignment of apply_dense, the branches of apply_csr with numpy's contiguity and merge rules, and csr_matvecs are written out. Proved by the bijection between indices and C-order numbers, and C32 for the row loops. Refuted for slices with three or more axes, negative axes and empty axes. |
| C108 | Plots show every value at its place | partial | Plot | `get_plane` with selection, transposition and sorting of both axes over lists; vertices, meshes, limits and figures over an ordered field. Proof: positions of the selection split at the two sliced axes; argsort is a sorting permutation; arithmetic for vertices, limits and rectangles |
| C109 | Locked fields stay in the layouts they are locked to | partial | Locked | State of a locked field over the model of fields (C06), operations returning state and exception. Proof: both loops over layouts end either at the request or before a layout that is not allowed (induction on the passes), then an invariant over sequences of requests |
| C11 | Multistep stepping uses the true history | proved | Step | deques, rotation, step loop. Proof: induction on steps: history invariant |
| C110 | Operators bring their arguments into layouts they work in | partial | Conditions | check_conditions and enforce_conditions of every operator class by kind, on a heap of fields with aliasing, over the model of fields (C06). Proof: each move of one field ends in the layouts it should and keeps its value (from C06), lifted to lists of arguments by induction; the full grid layout is unique in a chain |
| C111 | Combined left-hand side matrices of time steppers | partial | Combine | Area `Combine`. COO and CSR matrices as lists and arrays; `tocoo`, `tocsr` (sorting and summing duplicates), `zeros_with_pattern`, `expand_pattern`, the end of `build_matrices` and the combination of data arrays in both kinds of time steppers, with numpy and BLAS calls on bare arrays. The specification reads numbers off the three CSR arrays. Proof: strictly sorted column lists with the same members are equal, so patterns agree row by row; sums of duplicates are kept; arithmetic on data arrays of one pattern is arithmetic on matrices; induction over steps with the invariant that the stored copies keep pattern and numbers. |
| C112 | Memory of fields | partial | Buffers | Area `Buffers`. Bytes allocated and needed by a field on one process, from the element lists of `Dist`: `buffer_size`, `_create_buffer`, `preset_scales`, `preset_layout` and field creation. Proof: the maximum over layouts bounds every layout; divisibility by eight makes the rounding exact; on one process local sizes are monotone in the scales, so the maximum is. The refutations use two axes on four processes and the model of solver steps in `Field`. |
| C113 | Loops with progress messages run over all their items | partial | Progress | Model `track` as a recursion over the items paired with the clock readings, with the two remembered divisors as state and ZeroDivisionError as a value; prove by induction over the items that the remembered item divisor is that of the last item and, for clocks that never go back, the remembered time divisor too; the exact cadence, the list of items and the truth of messages follow. |
| C114 | Matrices of many ells are interleaved | proved | Interleave | Model the Kronecker products with matrices of a single one and their running sum; prove by induction over the list what the sum contains after any number of matrices, split sums over interleaved indices into blocks for the action on vectors. |
| C12 | Cached implicit factorisations always match the current timestep | proved | Step | `_LHS_params` and per-subproblem solver cache. Proof: invariant over dt histories |
| C13 | Runge-Kutta IMEX steps follow their tableaus, and the tableaus have the documented order | proved | Step | tableaus, stage loop. Proof: identities; loop unrolled by induction |
| C14 | Iteration and wall-time output cadences | proved | Sched | `check_schedule` over integers and rationals including half-even rounding. Proof: invariants over check sequences |
| C15 | Simulation-time output cadence | partial | Sched | `check_schedule` over Int/Rat incl. half-even rounding. Proof: invariants over check sequences |
| C16 | File handler numbering | partial | Files | counters of `H5FileHandlerBase`, append restarts. Proof: invariant over write/restart sequences |
| C17 | Equation/variable reordering is a permutation | proved | Perm | `left_permutation/right_permutation` loops. Proof: `List.Perm` of range |
| C18 | Subproblems partition the modes | partial | Subsys | group enumeration, dictionary of subsystem lists. Proof: partition lemma |
| C19 | Gathering and scattering subproblem data are inverse and do not interfere | proved | Perm, Subsys | slice offsets, gather/scatter. Proof: disjointness and inverse |
| C20 | Splitting an expression preserves its meaning | partial | Symb | one expression syntax, semantics in a commutative algebra with linear operators. Proof: structural induction; `HasDerivAt` for the function table |
| C21 | Accepted left-hand sides are linear | proved | Symb | one expression syntax, semantics in a commutative algebra with linear operators. Proof: structural induction; `HasDerivAt` for the function table |
| C22 | Symbolic differentiation is the true derivative | partial | Symb | one expression syntax, semantics in a commutative algebra with linear operators. Proof: structural induction; `HasDerivAt` for the function table |
| C23 | Linearisation about a background | partial | Symb | one expression syntax, semantics in a commutative algebra with linear operators. Proof: structural induction; `HasDerivAt` for the function table |
| C24 | Eigenvalue problems built from initial value problems | partial | Symb | equation records through `build_EVP`. Proof: refutation of defaults/conditions; partial |
| C25 | Problem matrices represent the equations | partial | Mats | `expression_matrices`. Proof: structural induction with `Matrix.mulVec` |
| C26 | Evaluating tasks together equals evaluating them separately | proved | Eval | `Future.evaluate` with id cache, and layout oscillation. Proof: cache invariant |
| C27 | Adaptive timestep bounds | partial | Flow | `compute_timestep`. Proof: case analysis; induction on histories |
| C28 | Parallel reductions are independent of the decomposition | proved | Flow, Solver | reducers over lists of blocks. Proof: fold lemmas |
| C29 | Main loop stopping | partial | Solver | `proceed`, `evolve`. Proof: measure; refutation when stopped at start |
| C30 | Memoisation is transparent | partial | Cache | keys of `CachedFunction`. Proof: refutation by collision; partial for one calling convention |
| C31 | Clenshaw summation | proved | Clenshaw | `scalar_clenshaw`, `matrix_clenshaw`. Proof: induction over the recurrence in any ring |
| C32 | Sparse triangular solve | partial | Csr | CSR loops. Proof: induction on rows |
| C33 | Equation strings are split at the one top-level equals sign | proved | Text | `split_equation` character loop. Proof: fold invariant |
| C34 | Processes take turns | proved | Rotate | barrier machine. Proof: invariant on all interleavings |
| C35 | Post-processing assigns every write to exactly one process | proved | Post | `get_assigned_writes`. Proof: clip arithmetic |
| C36 | Merging output files never loses data | partial | Post | file operations as a trace with crash points. Proof: refutation on retry; partial |
| C37 | Fourier transforms are exact on resolved modes | proved | Fourier | resize and DFT over the complex numbers. Proof: roots of unity |
| C38 | Real Fourier coefficient packing | partial | Fourier | slice assignments on buffers with stale contents. Proof: case analysis; refutations at the boundary sizes |
| C39 | Dealiased products are exact | proved | Fourier | resize and DFT over the complex numbers. Proof: roots of unity |
| C40 | Cosine/Chebyshev coefficient resizing | partial | Cosine | slice assignments on buffers with stale contents. Proof: case analysis; refutations at the boundary sizes |
| C41 | Fourier multiplication matrices | partial | Fourier | sparse entries as sums. Proof: trigonometric identities; derivatives |
| C42 | Affine coordinate maps | proved | Fourier | direct. Proof: algebra / induction |
| C43 | Coordinate system equality | partial | Spin | direct. Proof: algebra / induction |
| C44 | Vector products | proved | Tensor | direct. Proof: algebra / induction |
| C45 | Filters are complementary projections | proved | Field | direct. Proof: algebra / induction |
| C46 | Boundary value solvers solve every subproblem | partial | Bvp | Both boundary value solvers as state machines: cached factorisations, scheduled evaluation of right-hand sides, gather, solve, scatter per subproblem, state updates. Matrix solvers are assumed exact. Proof: invariant over histories of calls (cache matches the last rebuild, handler due), frame lemmas for disjoint subproblems; composition with C25. |
| C47 | Solver clock | partial | Solver, Step | direct. Proof: algebra / induction |
| C48 | Simplifications preserve meaning | proved | Symb | one expression syntax, semantics in a commutative algebra with linear operators. Proof: structural induction; `HasDerivAt` for the function table |
| C49 | Spectral differentiation matrices | proved | Fourier | sparse entries as sums. Proof: trigonometric identities; derivatives |
| C50 | Unresolved spherical and disk modes are dropped | partial | Sphere, Zernike | padding and truncation loops of the sphere. Proof: case analysis; refutation at sizes between |
| C51 | Forces are recomputed at every step | partial | Solver | force evaluation on iterations, step, load_state. Proof: invariant; refutation after loading an earlier state |
| C52 | Initial value problems represent their equations | partial | Symb | M and L parts of initial value equations. Proof: structural induction on expressions |
| C53 | Eigenvalue problems represent their equations | proved | Symb | eigenvalue equations split into M and L. Proof: structural induction |
| C54 | Boundary value problems represent their equations | partial | Symb | F and the Newton differential of boundary value problems. Proof: structural induction |
| C55 | Right-hand sides of equations reach the solver | partial | Eval | FieldSystem handlers: which objects are evaluated and read. Proof: heap invariant |
| C56 | One object per argument tuple | proved | Cache | `CachedClass` with weak references. Proof: invariant over histories of calls and collections |
| C57 | Output directories exist once their creation returns | proved | Rotate | `RotateProcesses` loop. Proof: invariant over interleavings of all processes |
| C58 | Chebyshev transforms are exact | proved | Cosine | cosine and fast Chebyshev transforms, resizing. Proof: orthogonality of cosines, conversion by triangular systems |
| C59 | Jacobi operators are exact | proved | Jacobi | Jacobi operators as sparse matrices, conversion, differentiation, interpolation, integration. Proof: classical Jacobi polynomials defined by their sum, identities for coefficients, orthogonality by Rodrigues-type integration |
| C60 | Jacobi multiplication matrices multiply | proved | Jacobi | Clenshaw NCC matrices and products. Proof: truncated recursions agree with exact ones where they are used |
| C61 | Gauss grids and matrix transforms are exact | proved | Jacobi | quadrature and matrix transforms. Proof: Gauss quadrature from orthogonality, roots from the characteristic polynomial |
| C62 | Lifting selects the requested polynomial | partial | Jacobi | Lift operators of Jacobi bases. Proof: direct; refutation out of range |
| C63 | Spin components are a unitary change of basis | partial | Spin | spin recombination matrices and in-place application with caches. Proof: unitary 2x2 blocks on lists of indices; heap refutation |
| C64 | Regularity components of tensors are an orthogonal change of basis | proved | Regularity | regularity intertwiner recursion. Proof: orthogonality by induction on rank from the one-index step |
| C65 | Each spherical mode has one coefficient slot | partial | Sphere | sphere coefficient layout (folded triangular truncation). Proof: arithmetic of slots |
| C66 | Spin-weighted harmonic transforms are exact | proved | Sphere | spherical harmonic transforms. Proof: spin-weighted harmonics from Jacobi functions, quadrature of C61 |
| C67 | Vector calculus on the sphere is exact | proved | Sphere | sphere gradient, divergence, Laplacian, interpolation, averages. Proof: ladder identities against `HasDerivAt` in the colatitude |
| C68 | Axisymmetric coefficients on the sphere multiply exactly | partial | Sphere | sphere NCC matrices. Proof: products of harmonics through Jacobi multiplication; refutation for the real layout |
| C69 | Disk and ball radial transforms are exact | partial | Zernike | Zernike polynomials, quadrature and transforms of the disk and ball. Proof: change of variables from C61; refutations without dealiasing |
| C70 | Vector calculus on the disk is exact | proved | Zernike | disk gradient, divergence, Laplacian, conversion, interpolation, integrals, lift. Proof: ladder identities of Zernike functions |
| C71 | Tensor calculus in the ball is exact | proved | Ball | ball gradient, divergence, curl, Laplacian of tensors of every rank, conversion, interpolation, integrals. Proof: ladder identities plus the commutation of the intertwiner with covariant derivatives, by induction on rank |
| C72 | Traces, transpositions, rotations and components of tensors | partial | Contract | trace, transposition, skew and components. Proof: index permutations and Kronecker factors; refutations for negative indices |
| C73 | Calculus on the annulus and in the spherical shell | proved | Shell | annulus and shell ladder operators and the operators built from them. Proof: derivative of `(dR/r)^k Q(z)` through the matrices of C59, then as C70, C71 |
| C74 | Transforms, conversion, interpolation, integrals and products on the annulus and shell | partial | Shell | annulus and shell transforms, conversion, interpolation, constants, integrals, lift, NCC products. Proof: C59-C61 in the native coordinate; refutations from leading coefficients and the sign of the Gauss error of `1/(z+rho)` |
| C75 | Cartesian gradients, divergences, curls and Laplacians are the classical ones | partial | Cart | Gradient, divergence, curl and Laplacian on Cartesian systems and direct products as the code composes them from Differentiate, component extraction, unit vectors, products and sums; fields are functions of the coordinates with a flag per axis saying whether there is a basis. Proof: representation invariant (signature, values, constancy along axes without basis) preserved by every operation; a separate specification with partial derivatives. apply_matrix along one axis of a tensor-product expansion is lifted from the one-dimensional theorems. |
| C76 | Integrals, averages and interpolations over several coordinates are the iterated ones | partial | Cart | Splitting of the coordinate argument of Integrate, Average and interpolate and the nesting of the one-dimensional operators. Proof: induction over the list of coordinates with the representation invariant of C75. |
| C77 | Different coordinate systems are told apart | partial | Domain | __eq__ of coordinates and coordinate systems with its early return, unify of tensor signatures, get_axis by list.index, the identity-based duplicate check. Proof: case analysis; counterexamples for the defects. |
| C78 | A domain is the set of its bases, each along its own axes | partial | Domain | Domain construction (drop None, ordered set, duplicate check, stable sort), attributes filled axis by axis, get_basis, get_basis_subaxis, substitute_basis. Proof: fold invariants, uniqueness of sorted permutations. |
| C79 | The domain of a sum or product has the combined bases of both arguments, in either order | partial | Domain | bases_by_coord as an ordered dictionary and the two _build_bases loops. Proof: dictionary invariants; counterexamples with the edge of a disk. |
| C80 | An operator call finds the one implementation that accepts its arguments | proved | Dispatch | The class tree with its hooks and MultiClass.__call__ as recursion over it. Proof: equivalence with an inductive description of the selected class, by well-founded induction; permutation invariance. |
| C81 | Eigenmodes satisfy the equations | partial | Bvp | Preconditioned pencils as matrices, unpacking of eigenvectors, shift-invert, set_state. scipy's routines are assumed to keep their contracts. Proof: matrix algebra with the preconditioner pseudoinverses. |
| C82 | Named matrix solvers are exact | partial | Matsolv | Model the solver classes with the library routines as parameters (`Matsolv`): shapes of right-hand sides, SuperLU transposes, diagonal to band storage conversion with numpy broadcasting, the Woodbury factors, the name table and option overrides. Exactness of each class by cases; band storage by induction over the diagonals; Woodbury by the determinant identity. |
| C83 | An adaptive timestep respects the Courant limit of the velocity at every grid point | partial | Cfl | Model the spacing arrays of every coordinate system as functions of the local position on one process, with the exceptions of `np.gradient` and `reshape`, and the frequency as the sum the operators accumulate. Specify directions with speed and spacing by global index. Prove equality for every distribution, positivity, and the Courant bound by comparing one term with the sum; compose with the timestep controller of C27. Refute the cases where the code raises or gives a wrong spacing. |
| C84 | Each spherical coefficient is treated with its own degree | partial | Maps | Model the degree maps of a block of the packed coefficient array with the groupset functions of C18 (`Maps`), and the three loops that use them (accumulate, in place, assign). Reduce the entries reaching a slot to the degrees whose rows in its column enclose it; prove that columns are convex by cases over the packing formulas; refute the other sizes for all of them. |
| C85 | Curvilinear operators mean the same on both sides of an equation | partial | Agree | Model `operate` and `subproblem_matrix` of the radial, curl and symbol operators separately (`Agree`), with Kronecker products and block matrices as in the code. Specify the gathered vectors with the buffers of C20. Prove `gather (operate x) = M gather x` by reducing both to sums over one radial line; use C84 for the slots and C65 for the order of the degrees. |
| C86 | Coefficients that depend on the radius in balls and disks | partial | Zncc | Model (Zncc): radius_multiplication_matrix, the Jacobi recursion and matrix_clenshaw on padded (ball) or unpadded (disk) matrices, the prefactor with conversion, the [:N, :N] cut and the bmat for real data, for one triple of components. Proof: band structure of the operators, expansion of r^q times Zernike functions, exactness of truncated recursions away from the corner, and a count of which entries reach the kept rows. Refutations for the disk use uniqueness of the coefficients. Not modelled: the sum over components with intertwiner weights Gamma, the factor 1/sqrt(2) for the degree 0 harmonic, and operands without a radial basis. |
| C87 | File output holds exactly the global data of every output | proved | Output | Model of datasets as lists of entries, of the three handlers as one interface (create, write, read) and of the process loop. Each handler is shown to keep a relation between its files and, per task, the list of arrays written; the loop is an induction over outputs with the set and entry numbers. |
| C88 | Merging a virtual task in its file loses nothing | partial | Output | merge_task as a list of actions (create, copy of a chunk, delete, move); invariant of the copies for any chunk list that covers the dataset, case analysis of the stopping point. |
| C89 | Files of the virtual handler can be merged by the post-processing tools | partial | Output | The attribute names that are written and read, and the order of actions of the two merge functions; direct computation for every list of tasks. |
| C90 | The basis of a sum | proved | BasisOps | Bases as their constructor arguments (area BasisOps), with the special methods of every class and Python's dispatch of binary operators. The sum is characterised as a least upper bound; order and grouping follow from its uniqueness. |
| C91 | The basis of a product | partial | BasisOps | Same model: `*` and `@`. Closed forms for each pair of classes; commutativity, resolution and associativity by cases; counterexamples for mixed radial and volume bases. |
| C92 | Sums of fields of different resolution | partial | BasisOps | Coefficient arrays with numpy broadcasting, the equality of bases and ConvertSame; refuted for complex data, otherwise exact sum or exception. |
| C93 | Distributed transforms pair every order with its own coefficients | partial | Orders | `SphereBasis.m_maps`, `PolarBasis.m_maps` through the group arrays and slices of `Subsys` on the blocks of `Dist`, and the loops of the transforms over the maps. Proof: closed form of the packing, each order fills one box per process, both layouts have the same number of chunks |
| C94 | Averages over the azimuth and over spheres are means on any number of processes | partial | Average | The `operate` methods of the azimuthal and spherical averages on the local blocks of `Orders` and the degree maps of `Maps`: boolean indexing in C order, cut views. Proof: closed form of the order-zero cells of a block, the visible degree maps are those of degree zero, and mean values of harmonics by integration |
| C95 | Tensor fields on the sphere have the values that their coefficients say, and come back from the grid | partial | SphereField | `Verif/SphereField`: the azimuthal transform with permuted orders, the loop over azimuthal orders, spin weights, spin recombination (complex, and real with the ping-pong buffers, on flattened rows) and the copies of rows for axisymmetric data are composed as the two transform methods compose them. The specification is the field itself: sums of modes in the azimuth of recombined sums of spin-weighted harmonics. Proof: the loops pair rows and orders (C93), the matrices are exact on harmonics (C66), recombination is unitary and real data encode complex data (C63), the permutation is a bijection that pairs rows with wavenumbers, and the Fourier transform evaluates series (C37). The intermediate layout of axisymmetric real data is refuted by computing the factor 1 + i. |
| C96 | Products of fields do not depend on the number of processes | partial | Ghost | Model `GhostBroadcaster` with sub-communicators as groups of coordinates, buffers with arbitrary contents, the per-process cache of buffers and the recorded collective calls; numpy repetition of axes of length one; the three products; flags and grid shapes of all bases. Prove by induction over axes that the data of the root of a group is what the process needs, and by induction over histories that caches of a group agree. Refute for the average over a sphere and for two azimuthal modes. |
| C97 | Tensor fields in the disk and the annulus have the values their coefficients describe | partial | PolarField | `PolarField`: the disk and annulus transforms of tensor fields, composed of the modelled azimuth transforms with permuted orders (`SphereField`), the maps of orders (`Orders`), the spin recombination (`Spin`) and the radial matrices (`Zernike`, `Jacobi`, `Shell`). Proof: a theorem for any radial plan that evaluates radial functions order by order, instantiated with the disk plan (through the maps of orders) and the annulus plan (matrix entries and the radial factor). The field is defined independently as a sum over orders of coordinate components of spin parts. |
| C98 | Tensor fields in the ball and the shell have the values their coefficients describe | partial | VolumeField | `VolumeField`: the ball and shell transforms of tensor fields, composed of the modelled maps of degrees (`Maps`), the regularity recombination (`Regularity`), the radial matrices (`Zernike`, `Jacobi`, `Shell`) and the sphere transforms at each radius (`SphereField`). Proof: a theorem for any radial plan that evaluates radial functions slot by slot, instantiated with the ball plan (through the maps of degrees) and the shell plan. The field is defined independently: the spin coefficients at a radius are the sum over regularities of the coupling matrix times the radial sums, and the values are those of the sphere with these coefficients. The hypothesis `Separated` on the sizes (rows of folded orders do not share a column range) is necessary: `ball_degree_refuted` shows a size accepted by the constructor where a coefficient has no effect. |
| C99 | Integrals and averages of fields over disks, annuli, balls and shells | partial | Integral | Model: the loops of `IntegrateSpinBasis.operate` and `IntegrateSpherical.operate` over the order and degree maps of the local coefficients, with the radial vectors of Zernike, Ball and Shell (`Verif/Integral`). Proof: the maps have one entry of order (degree) zero that starts at the first coefficient, on process 0 only (Orders, Average, Maps); the angular integrals pick the same coefficient (Fourier, Sphere orthogonality); the radial vector is the integral of the radial functions (Gauss quadrature, C50, C54, C55). For annuli of order 2 and shells of order 3 the quadrature is inexact: refuted. |

## Exactly which code is modelled

The line ranges cited by the definitions of the model, per file (the comment of each definition says what is simplified).

| file | lines in file | cited lines | model | ranges |
|---|---|---|---|---|
| `dedalus/core/arithmetic.py` | 990 | 474 | BasisOps, Cart, Domain, Ghost, Mats, Symb, Tensor | 46-48, 56-82, 87-92, 97-113, 124, 127-132, 134-137, 147-151, 153-156, 180-193, 245-250, 268-286, 296-310, 312-317, 331-352, 354-358, 360-368, 446-460, 504-516, 588-664, 673-674, 676, 681-690, 692, 706-733, 735-742, 745, 750-776, 792, 795-806, 818-862, 868-882, 884-893, 895-903, 905-906, 908-921, 954-964, 975-977 |
| `dedalus/core/basis.py` | 6208 | 3286 | Agree, Average, Ball, BasisOps, Buffers, Cart, Cfl, Contract, Fourier, Ghost, Grids, Integral, Interp, Jacobi, Maps, Modes, Orders, PolarField, RadialInterp, Regularity, Restart, Shell, Sphere, SphereField, Spin, VolumeField, Zernike, Zncc | 58-82, 84-97, 116-118, 120-127, 135-139, 141-144, 164-168, 339, 360-368, 370-372, 374-379, 381-384, 386-392, 404-406, 410-412, 440, 482-504, 519-529, 531-544, 546-560, 569-576, 602-608, 610-628, 690-698, 711-718, 731-742, 748, 756-764, 770, 778-787, 806-814, 818, 863-867, 869-873, 875-879, 884-890, 896-902, 910-913, 924-929, 931-936, 960-970, 972-995, 1006-1015, 1029-1034, 1049-1056, 1062, 1071-1082, 1087, 1096-1105, 1117-1121, 1123-1182, 1193-1203, 1217-1224, 1239-1250, 1255, 1264-1276, 1281, 1290-1300, 1563-1575, 1577-1592, 1595-1628, 1630-1663, 1680-1688, 1691-1693, 1703-1713, 1722, 1748-1770, 1780-1797, 1811-1833, 1846-1868, 1870-1881, 1883-1892, 1894-1901, 1906-1933, 1935-1940, 1942-1948, 1950-1954, 1956-1962, 1964-1990, 2006-2008, 2060-2077, 2086-2099, 2101-2110, 2112-2115, 2117-2119, 2121-2131, 2156-2160, 2166-2173, 2175-2178, 2180-2198, 2200-2226, 2228-2237, 2239-2261, 2263-2268, 2270-2274, 2276-2302, 2340-2359, 2367-2369, 2371-2380, 2382-2391, 2393-2403, 2405-2407, 2409-2418, 2433-2436, 2442-2445, 2455-2469, 2479-2507, 2509-2529, 2531-2535, 2538-2551, 2553-2588, 2629-2639, 2655-2670, 2674, 2678, 2693-2696, 2710-2742, 2748-2764, 2766-2768, 2781-2812, 2816-2835, 2843-2888, 2892-2897, 2902-2913, 2915-2926, 2928-2930, 2939-2970, 2973-2980, 2983-3011, 3013-3020, 3022-3026, 3028-3033, 3035-3037, 3039-3048, 3062-3065, 3067-3078, 3084-3095, 3108-3157, 3183-3211, 3213-3214, 3222-3233, 3246-3251, 3253-3266, 3268-3276, 3293-3296, 3336-3338, 3371-3377, 3407-3417, 3424-3430, 3446-3448, 3450-3461, 3476-3479, 3506-3509, 3511-3515, 3531-3535, 3544-3546, 3548-3551, 3557, 3583-3628, 3669-3679, 3684-3699, 3706-3712, 3717-3727, 3729-3751, 3753-3763, 3768-3773, 3786-3790, 3792-3795, 3797-3803, 3805-3812, 3814-3827, 3829-3844, 3846-3859, 3861-3866, 3868-3872, 3874-3904, 3921-3932, 3939-3945, 3950-3960, 3962-3971, 3973-3982, 3987-3995, 4002-4005, 4007-4011, 4038-4052, 4054-4060, 4066-4082, 4084-4086, 4088-4135, 4140, 4162-4163, 4166, 4193-4195, 4197-4199, 4201-4205, 4207-4210, 4212-4215, 4217-4225, 4227-4233, 4268-4277, 4279-4281, 4283-4306, 4308-4318, 4385-4403, 4406-4411, 4415-4421, 4426-4435, 4437-4449, 4451-4463, 4474-4490, 4492-4508, 4607-4629, 4632-4638, 4643-4652, 4654-4666, 4668-4678, 4688-4702, 4704-4720, 4741-4751, 4768-4779, 4804-4819, 4831-4841, 4885-4922, 4984-4990, 5036-5043, 5058-5098, 5112-5152, 5206-5211, 5217-5235, 5244-5264, 5273-5293, 5296-5321, 5331-5335, 5343-5350, 5353-5398, 5401-5419, 5422-5439, 5442-5462, 5465-5486, 5489-5531, 5534-5553, 5555-5575, 5609-5634, 5680-5705, 5708-5735, 5753-5805, 5843-5845, 5866-5889, 5896-5914, 5923-5930, 5976-5991, 5996-6003, 6010-6025, 6030-6037, 6070-6077, 6082-6106, 6108-6111, 6114-6127, 6134-6147, 6149-6153, 6160-6172, 6174-6180, 6187-6198, 6200-6204 |
| `dedalus/core/coords.py` | 414 | 198 | Cart, Domain, Regularity, Spin | 21-29, 57-59, 61-63, 66-96, 99, 101-117, 132-152, 159, 163-171, 176-177, 179-180, 192-193, 201, 218-227, 234-242, 244-252, 255, 272-281, 288-296, 298-306, 315, 325-326, 337-346, 387-399, 401-413 |
| `dedalus/core/distributor.py` | 963 | 548 | Buffers, Cart, Conditions, Dist, Domain, Field, Ghost, Global, Grids, Integral, Locked, Maps, Modes, Orders, Restart, Subsys, Transpose | 60-169, 184-186, 188-197, 202-205, 207-211, 236-255, 257-264, 294-300, 325-335, 337-343, 345-351, 357-402, 404-416, 425-433, 445-457, 460-494, 496-505, 507-512, 514-517, 611-649, 714, 718-727, 729-740, 749-768, 770-780, 782-792, 797-809, 814-826, 831-875, 880-924 |
| `dedalus/core/domain.py` | 228 | 101 | Cart, Domain, Ghost, Grids, Restart | 29-42, 61-67, 69-80, 82-88, 90-95, 97-102, 104-109, 132-140, 146-154, 172-178, 180-188, 190-198 |
| `dedalus/core/evaluator.py` | 866 | 549 | Bvp, Eval, Files, Output, Restart, Sched | 91-133, 135-142, 144-146, 148-163, 182-192, 194-204, 231-238, 241-243, 245-276, 332-337, 343-358, 400-442, 457, 460-489, 493-495, 497-510, 514-516, 523-536, 566-572, 574-595, 597-605, 617-650, 653-843, 845-865 |
| `dedalus/core/field.py` | 1044 | 488 | Buffers, Bvp, Cart, Eval, Field, Flow, Global, Grids, Locked, Mats, Random, Restart, Solver, Symb | 79-81, 86-88, 91-99, 101-107, 133-140, 147-167, 260-300, 355-362, 364-369, 371-376, 378-383, 399, 405-412, 414-416, 441-451, 476-485, 487-496, 498-537, 551-560, 573-586, 588-597, 621-649, 651-662, 664-667, 669-672, 674-681, 683-690, 692-700, 734-745, 747-763, 765-778, 782-800, 802-818, 824-829, 832-837, 841, 929-943, 945-967, 969-984, 1003-1004, 1006-1009, 1011-1018, 1020-1027, 1029-1033, 1035-1040 |
| `dedalus/core/future.py` | 289 | 98 | Eval, Interp, Locked, Symb | 99-106, 108-115, 117-129, 149-206, 208-215, 224-226 |
| `dedalus/core/operators.py` | 4420 | 1708 | Agree, Average, Ball, BasisOps, Cart, Cfl, Contract, Domain, Locked, Maps, Mats, RadialInterp, Shell, Sphere, Symb, Zernike | 259-264, 270-283, 285-291, 301-303, 305-341, 387, 395-398, 425-444, 533-556, 584-588, 594-599, 671, 675-683, 685-688, 690-702, 743-745, 747-757, 764-780, 787-823, 925-947, 999-1045, 1053-1059, 1080, 1103-1104, 1159-1183, 1186-1193, 1198-1199, 1232-1256, 1259-1266, 1271-1272, 1344-1421, 1513, 1585, 1610-1613, 1644-1656, 1728, 1774-1778, 1796-1798, 1808, 1814-1822, 1838-1841, 1854, 1868-1871, 1902-1932, 1953-1961, 1976-1982, 1993-2023, 2031-2033, 2035-2045, 2049-2078, 2102-2123, 2136-2152, 2162-2188, 2196, 2201-2205, 2245-2248, 2302-2308, 2320, 2340-2411, 2414-2488, 2735-2750, 2757-2797, 2799-2866, 2926-2952, 2954-2989, 3002, 3042-3050, 3067, 3094-3104, 3126-3205, 3207-3231, 3254, 3273-3291, 3313-3358, 3361-3409, 3422, 3438-3494, 3497-3517, 3564, 3578-3606, 3624, 3654-3662, 3689-3748, 3751-3808, 3856, 3870-3942, 3944-3978, 3986-4003, 4016-4033, 4064-4079, 4123, 4137-4153, 4231, 4394-4404 |
| `dedalus/core/problems.py` | 509 | 272 | Symb | 65-94, 142-152, 154-185, 235-266, 305-319, 321-364, 366-426, 459-469, 471-506 |
| `dedalus/core/solvers.py` | 807 | 309 | Bvp, Combine, Hermitian, Matsolv, Restart, Solver | 95-116, 203-204, 209-218, 259-260, 270-290, 311-320, 345-356, 369-409, 448-456, 470-494, 565, 570, 580-591, 597-600, 617-630, 632-673, 675-681, 683-732, 755-778 |
| `dedalus/core/subsystems.py` | 740 | 198 | Bvp, Combine, Field, Mats, Perm, Progress, Subsys | 34-53, 55-66, 80, 125-129, 131-138, 152-162, 302-330, 340-362, 364-374, 524-527, 549-552, 555-563, 570-588, 627-644, 650-667, 669-674 |
| `dedalus/core/system.py` | 157 | 15 | Subsys | 41, 44-57 |
| `dedalus/core/timesteppers.py` | 742 | 629 | Combine, Field, Solver, Step | 70-93, 95-187, 189-463, 465-499, 537-550, 552-644, 647-741 |
| `dedalus/core/transforms.py` | 1624 | 683 | Apply, Cosine, Fourier, Jacobi, Maps, Orders, PolarField, Sphere, VolumeField, Zernike | 63-84, 117-142, 144-156, 194-199, 201-208, 215-237, 243-267, 274-279, 281-289, 316-322, 324-330, 391-424, 431-447, 449-466, 472-487, 489-509, 516-521, 523-534, 551-557, 559-565, 581-597, 599-613, 615-621, 623-629, 669-674, 718-724, 726-746, 753-758, 760-769, 786-792, 794-800, 819-826, 833-838, 844-852, 854-861, 863-876, 878-894, 1260-1292, 1294-1316, 1318-1340, 1361-1391, 1405-1425, 1435-1446, 1480-1500, 1507-1563 |
| `dedalus/core/transposes.pyx` | 630 | 216 | Transpose | 74-91, 295-298, 300-308, 310-313, 318-322, 324-325, 329-342, 344-357, 360-379, 382-401, 404-423, 426-445, 483-493, 515-523, 525-537, 575-585, 607-619, 621-629 |
| `dedalus/extras/flow_tools.py` | 234 | 64 | Flow | 33-37, 39-45, 47-53, 55-61, 171-184, 191-214 |
| `dedalus/extras/plot_tools.py` | 602 | 405 | Plot | 30-51, 91-92, 129-135, 166-195, 198-242, 267-299, 301-328, 331-377, 380-424, 427-454, 457-485, 488-538, 541-578 |
| `dedalus/libraries/dedalus_sphere/jacobi.py` | 529 | 296 | Cosine, Interp, Jacobi, RadialInterp, Shell, Sphere, Zernike | 28-81, 83-186, 188-205, 207-258, 278-281, 370-392, 394-400, 402-414, 416-428, 439-446 |
| `dedalus/libraries/dedalus_sphere/operators.py` | 341 | 207 | Jacobi, Shell, Sphere, Zernike | 7-173, 296-318, 321-337 |
| `dedalus/libraries/dedalus_sphere/shell.py` | 88 | 31 | Shell | 22, 25, 29, 34, 37-42, 44-47, 51-67 |
| `dedalus/libraries/dedalus_sphere/sphere.py` | 215 | 72 | Sphere | 8-22, 25-31, 33-42, 45-66, 91-95, 133-145 |
| `dedalus/libraries/dedalus_sphere/spin_operators.py` | 380 | 48 | Agree, Regularity | 65-66, 308-309, 311-313, 315-326, 328-356 |
| `dedalus/libraries/dedalus_sphere/zernike.py` | 122 | 59 | RadialInterp, Zernike | 12-23, 25-26, 28-46, 85-110 |
| `dedalus/libraries/matsolvers.py` | 323 | 289 | Matsolv | 10-13, 19, 27-28, 31-282, 290-315, 318-321 |
| `dedalus/libraries/spin_recombination.pyx` | 58 | 44 | Spin | 9-30, 35-56 |
| `dedalus/tools/array.py` | 477 | 275 | Agree, Apply, Bvp, Cart, Combine, Contract, Csr, Fourier, Grids, Interleave, Perm, Plot, PolarField, Spin, Subsys | 13-14, 31-36, 39-44, 47-49, 52-61, 64-74, 77-130, 143-168, 171-203, 206-232, 256-281, 300-322, 325-332, 335-336, 370, 374-385, 392-395, 422-431, 447-457 |
| `dedalus/tools/cache.py` | 164 | 59 | Cache, Cfl | 57-88, 120-136, 153-162 |
| `dedalus/tools/clenshaw.py` | 105 | 87 | Clenshaw, Jacobi | 9-20, 23-38, 41-63, 66-101 |
| `dedalus/tools/dispatch.py` | 63 | 44 | Dispatch | 13-56 |
| `dedalus/tools/general.py` | 127 | 66 | BasisOps, Domain, Eval, Subsys, Symb | 11-40, 49-59, 62-86 |
| `dedalus/tools/jacobi.py` | 265 | 32 | Jacobi | 229-245, 247-248, 250-251, 253-263 |
| `dedalus/tools/linalg.pyx` | 359 | 295 | Apply, Csr | 20-82, 88-104, 110-131, 137-155, 161-184, 189-258, 264-279, 284-303, 309-328, 334-357 |
| `dedalus/tools/parallel.py` | 80 | 16 | Rotate | 34-36, 53-55, 57-59, 72-78 |
| `dedalus/tools/parsing.py` | 85 | 29 | Text | 8-36 |
| `dedalus/tools/post.py` | 393 | 197 | Output, Post | 39-44, 47-69, 90-110, 136-163, 188-222, 225-282, 317-342 |
| `dedalus/tools/progress.py` | 87 | 49 | Progress | 35-71, 74-85 |
| `dedalus/tools/random_arrays.py` | 126 | 81 | Random | 7-16, 19-29, 32-54, 57-90, 122-124 |

## What is not modelled

* Rounding, overflow and `nan` propagation in floating point arithmetic, except in the decision logic of C14, C15, C27.
* The numerical libraries themselves: FFTW, LAPACK, SuperLU, HDF5, MPI, numexpr, numpy, scipy. Their results enter as stated under Conventions.
* `core/transposes.pyx` FFTW plan execution (only the block arithmetic and the exchange pattern), `libraries/fftw`.
* `core/evaluator.py` HDF5 dataset creation and attributes, beyond names, counters, slices and assigned writes (C16, C35, C36).
* `core/basis.py`: products with non-constant coefficients in disks and balls; local grids of curvilinear bases; `SphereBasis` interpolation in the azimuth beyond C49; `ShellBasis`/`BallBasis` products with tensor coefficients.
* `core/operators.py`: `SphericalEllProduct`; `GeneralFunction`, `UnaryGridFunction` dispatch beyond C22, C26.
* `core/solvers.py`: convergence of the nonlinear solver; the eigenvalue search itself (its results enter C81 as an assumption).
* `extras/plot_tools.py`, `extras/flow_tools.py` beyond `CFL` and `GlobalArrayReducer`, `tools/config.py`, `tools/logging.py`, `tools/plot_op.py`, `tools/progress.py`.

## Where the code does not have the property

Every theorem below ends in `_refuted`: it is a proof about the model that the property, as a user would state it, fails. The theorems with the suffix `_partial` give what holds instead.

| theorem | property | what goes wrong |
|---|---|---|
| `Dedalus.Dist.chunk_not_dividing_refuted` | C01 | The divisibility guard is needed: a real Fourier basis of odd size (chunk 2) is accepted by the code, but the elements reported for it run past the end of the axis. |
| `Dedalus.Transpose.mpi_blocks_match_layout_refuted` | C04 | C04 fails for the alternative planner (`TRANSPOSE_LIBRARY = mpi`): it ignores chunks, and its blocks differ from the layout's, here for six real Fourier modes (chunks of two) on two processes. |
| `Dedalus.Transpose.decrement_group_eq_single_refuted` | C05 | C05 fails for the decrementing direction: with grouping on (the default) two fields that need no communication are left labelled with the upper layout. |
| `Dedalus.Field.solver_sees_current_data_refuted` | C07 | **C07 (refuted in general).** It is not true that after every step the field holds the solution: the solver's views of the field are made at the first step and kept; if the user asks for the field at scales above the dealias scales, the field moves to a new buffer, and later steps read and write the old one. In the witness the user sees 1 after two steps that each add one (the right-hand side does not contain the field, so that nothing moves it back). |
| `Dedalus.Global.set_global_tensor_refuted` | C08 | C08, false part. `set_global_data` on a vector field raises: the index arrays of the spatial axes are applied to the component axis. |
| `Dedalus.Interp.azimuth_interpolation_refuted` | C100 | C100 is false for complex data with two azimuthal points: the data have one row, the vector has more columns, and interpolation is an error. |
| `Dedalus.Interp.colatitude_interpolation_refuted` | C100 | C100 is false for tensors with a component whose spin exceeds the largest degree: interpolation in colatitude is an error, although the transforms of such tensors are defined. |
| `Dedalus.RadialInterp.radius_name_refuted` | C101 | Names of positions do not work in the ball, the shell and the annulus: `f(r='right')` raises for every field. |
| `Dedalus.RadialInterp.ball_radius_refuted` | C101 | Interpolation in a ball with a degree that has no radial coefficients raises at every radius, although the coefficients and the grid data of such fields are those of C98: here axisymmetric scalar fields of degree up to `2 Nr`. |
| `Dedalus.Grids.azimuth_refuted` | C102 | C102 is false for two azimuthal points: a disk of shape `(2, 4)` is accepted (its field has one azimuthal value), but its azimuth grid has two points, and setting a field from the grids is an error. |
| `Dedalus.Grids.colatitude_refuted` | C102 | C102 is false for shells of shape `(1, 1, Nr)` at dealiasing scales: a field has one value in colatitude, sampled at the one-point grid, but the colatitude returned is the first point of the two-point grid. |
| `Dedalus.Modes.complex_fourier_nyquist_refuted` | C103 | C103: false of the code for an even number of complex Fourier modes: the Nyquist mode is marked valid, and its coefficient is lost on every grid. |
| `Dedalus.Modes.ball_low_modes_refuted` | C103 | C103: false of the code in the ball: every mode below `n = l / 2` is marked valid, even of forbidden regularity components, although no grid value depends on it (`ball_invalid_ignored_real`, `ball_invalid_ignored_complex`). |
| `Dedalus.Modes.sphere_sine_refuted` | C103 | C103: false of the code for real scalar fields on the sphere: the sine part of order zero is marked valid for every degree from 1 on, and no grid value depends on it. |
| `Dedalus.Hermitian.enforce_disk_loses_refuted` | C104 | C104 fails for vectors in the disk if the dealias grid has `Nr` radii: the last coefficient of the component of spin +1 is cleared for every positive odd order, although it takes part in no symmetry. |
| `Dedalus.Restart.failed_load_refuted` | C105 | C105 refuted for exceptions: a state that is refused because a field is missing has already changed the clock and the fields before it. |
| `Dedalus.Restart.double_grid_refuted` | C105 | C105 refuted for doubles: a field of size 21 that is saved on its grid at scale 5/4 has 27 points, but the scale computed from the file gives a grid of 28 points, and loading fails. |
| `Dedalus.Restart.double_load_refuted` | C105 | The state that was saved at that scale is refused by the solver that saved it. |
| `Dedalus.Restart.multistep_continues_refuted` | C106 | C106 refuted for schemes of more steps: with SBDF2 and steps of 1/2 from 1, two steps give 7/3 and the third gives 11/3. A new solver that loads the state after two steps goes to 7/2 instead, because the history is not saved. |
| `Dedalus.Restart.used_solver_refuted` | C106 | C106 refuted for solvers that have made steps: the step after a state is loaded uses the history of the states before it. From the loaded state 5 a new solver goes to 15/2; a solver that has made a step from 1 goes to 28/3, and one that has made a step from 2 to 26/3. |
| `Dedalus.Apply.lost_output_refuted` | C107 | C107 fails for outputs that are slices of larger arrays, when the arrays have three or more axes: the call returns, the product went to a copy, and the output is what it was. Here the output is the first half of a larger array along its last axis. |
| `Dedalus.Apply.negative_axis_refuted` | C107 | C107 fails for axes counted from the back with sparse matrices: for a vector or a two-dimensional array the call returns an array whose entries were never written. The dense product takes such axes. |
| `Dedalus.Apply.empty_axis_refuted` | C107 | C107 fails for dense matrices on arrays of three or more axes that have no entries along the axis: the product, which is zero, is refused. Vectors and two-dimensional arrays are accepted. |
| `Dedalus.Apply.ball_backward_refuted` | C107 | C107, as it reaches users: the backward radial transform of a ball raises for every degree that has no radial modes, that is when `ell // 2 ≥ N3c`. Such bases are accepted. |
| `Dedalus.Plot.one_point_refuted` | C108 | **A grid of one point** — an axis along which a field is constant, or a slice of one position — cannot be plotted by default, and with its edges cut its cell has no width. |
| `Dedalus.Plot.third_axis_refuted` | C108 | **A third sliced axis** is not noticed: the data returned then has three axes, with the meshes of two. |
| `Dedalus.Plot.last_axis_refuted` | C108 | **The last axis counted from the back** is refused by `plot_bot_3d`, though the other axes may be counted from the back. |
| `Dedalus.Locked.lock_moves_refuted` | C109 | **C109 (refuted in general).** It is not true that the result of `Lock(u, *layouts)` moves among the layouts given: with both layouts of a field of one axis, taking the result from the grid to coefficients raises ValueError. |
| `Dedalus.Locked.write_escapes_refuted` | C109 | **C109 (refuted in general).** It is not true that a locked field can never get into another layout: assigning data in a layout the field is not locked to is not refused. |
| `Dedalus.Locked.step_below_coefficients_refuted` | C109 | **C109 (refuted in general).** It is not true that `towards_coeff_space` keeps the value of a field: in coefficient space the layout it asks for is `layouts[-1]`, the grid. If the field is locked to both, nothing is raised, and the coefficients are transformed as if they were grid data. |
| `Dedalus.Conditions.gradient_idle_refuted` | C110 | **C110 (refuted in general).** It is not true that enforcing conditions that hold changes nothing: a Cartesian gradient whose derivatives are all on the grid could be assembled there, but they are taken to coefficient space. |
| `Dedalus.Combine.rebuild_ignored_refuted` | C111 | Matrices built again between two steps of the same coefficients are ignored: the second step still solves with the first matrices. |
| `Dedalus.Combine.rebuild_one_refuted` | C111 | With expanded matrices stored, building one of the two matrices again leaves its expanded copy as it was: the next step solves with the old one, though the right-hand side uses the new one. Without storing it uses the new one. |
| `Dedalus.Combine.empty_pattern_refuted` | C111 | Matrices without any entry: combining the stored data arrays raises an exception, combining the minimal matrices does not. |
| `Dedalus.Buffers.one_buffer_refuted` | C112 | **C112 (refuted).** On several processes a field whose scales never exceed the dealias scales need not stay in one buffer: going to the dealias scales and back moves it to two further buffers. |
| `Dedalus.Buffers.solution_lost_refuted` | C112 | **C112 (refuted).** On this process a step of a solver whose right-hand side takes the field to the dealias scales writes its solution into a buffer the field has left: after a step that adds one the user still finds zero. No scales above the dealias scales are involved. |
| `Dedalus.Buffers.small_numbers_refuted` | C112 | **C112 (refuted).** A field of four-byte numbers that is constant along all axes cannot be created: its buffer has half a double, which is none. |
| `Dedalus.Progress.same_reading_refuted` | C113 | **C113 (refuted).** Not so if the clock reads the same after the first item as at the start: the loop ends with a division by zero, and the other items are never handed out. |
| `Dedalus.Progress.no_share_refuted` | C113 | **C113 (refuted).** A share of zero, and `iter` zero, end the loop after its first item. |
| `Dedalus.Progress.no_period_refuted` | C113 | **C113 (refuted).** A period of zero ends the loop after its first item. |
| `Dedalus.Step.rksmr_third_order_refuted` | C13 | RKSMR is not of full third order: the documented ε is not zero. |
| `Dedalus.Sched.sim_cadence_first_fires_refuted` | C15 | C15: "the first check always fires" (evaluator.py L240) is false for a simulation-time cadence: start at time 6 with cadence 10 and timestep 1. |
| `Dedalus.Sched.sim_cadence_negative_refuted` | C15 | C15: targets at negative times are never written: a run from time -5 to -3 with cadence 1. |
| `Dedalus.Files.dotted_name_refuted` | C16 | C16 refuted for handler names with two dots such as "Re1.5_Pr0.7": `with_suffix` cuts the set number off the file name, so all sets are the same file and every new set overwrites the one before. |
| `Dedalus.Files.dotted_restart_refuted` | C16 | C16 refuted: such a handler restarted in append mode also starts again at write 1 and destroys the previous run's output. |
| `Dedalus.Files.append_after_crash_refuted` | C16 | C16 refuted for a run that stopped between creating a set file and its first write: the next run in append mode fails with IndexError. |
| `Dedalus.Files.foreign_file_refuted` | C16 | C16 refuted when the folder holds another file whose name starts with "snap_s": append mode fails with ValueError, and overwrite mode deletes the file although it is not output of the handler. |
| `Dedalus.Subsys.merged_sizes_refuted` | C18 | C18, refuted in full: two Fourier variables with 4 and 2 groups. The groups are nested, so the solver is built; groups 1 and 3 share a subproblem because no matrix depends on x; but the second variable has data in group 1 and none in group 3, so the columns of the subproblem's buffer have different lengths. |
| `Dedalus.Symb.split_refuted` | C20 | C20, part that fails: splitting by a field raises on an expression with a time derivative or a lock. |
| `Dedalus.Symb.symDiff_refuted` | C22 | C22, part that fails: the derivative of a function of a vector is a product of two vectors, a tensor of rank two. |
| `Dedalus.Symb.frechet_refuted` | C23 | C23, part that fails: backgrounds are substituted one after the other, so exchanging two variables in the backgrounds does not evaluate the differential at the exchanged values. For `u * v` about the backgrounds `u = v`, `v = u`, at `u = 1`, `v = 2`, in the direction `(1, 1)`, the derivative is `2 + 1 = 3`; the expression returned has the value `1 + 1 = 2`. |
| `Dedalus.Symb.buildEVP_condition_refuted` | C24 | C24, part that fails: the condition of an equation is lost. The equation applies to all modes after the conversion. |
| `Dedalus.Symb.buildEVP_default_refuted` | C24 | C24, part that fails: with the documented default for the backgrounds, the conversion raises for every initial value problem. |
| `Dedalus.Eval.interrupted_evaluation_refuted` | C26 | C26 needs every evaluation to complete: if an evaluation is interrupted after an attempt pass (an exception in some operator, for instance), arguments stay replaced, and a later evaluation of the same task, with a new id and new field data, still uses the old value of the subexpression. Here the first pass with `f = 4` is interrupted, then `f` is set to 9: the task `(f + 1) * g + (f + 1)` with `g = 3` gives 20 instead of 40. |
| `Dedalus.Flow.cfl_initial_refuted` | C27 | C27 refuted: the initial timestep is returned as given, also above `max_dt`; the first update can then leave it above `max_dt` too (min_change 1/2 of 100 is 50). |
| `Dedalus.Flow.cfl_rest_refuted` | C27 | C27 refuted: with the default settings, one update at zero frequency (fluid at rest) makes the timestep infinite, and it stays infinite at any later frequency (inf - dt is not greater than 0*inf, which is nan). |
| `Dedalus.Solver.evolve_normal_warmup_refuted` | C29 | C29 refuted for 10 iterations with the default warmup: `evolve` does 10 steps and then raises AttributeError (`warmup_time_end` does not exist). |
| `Dedalus.Solver.evolve_normal_zero_refuted` | C29 | C29 refuted when a criterion is met at the start: `evolve` makes no step and then raises AttributeError (`start_time_end` does not exist). |
| `Dedalus.Cache.cached_function_transparent_refuted` | C30 | C30 fails for functions of two parameters called with tuples: after `f(1, 2)`, the call `f((1, 2), ())` returns the value of `f(1, 2)`, since the key of the first call as written is `((1, 2), ())`. |
| `Dedalus.Cache.cached_function_rejects_refuted` | C30 | C30 fails for calls that do not bind: after `f(1, 2)`, the call `f(1, 2, c=3)` with an unknown keyword returns the cached value instead of raising. |
| `Dedalus.Cache.cache_size_refuted` | C30 | C30, size: the bound itself is not kept. One call fills a cache of size 1 with two entries, and calls that find the resolved key add entries without any check: with bound 1, three ways to write one call leave four. |
| `Dedalus.Csr.solve_upper_returns_refuted` | C32 | C32 fails when no output array is given, as the signature allows: the right-hand side is unchanged and nothing is returned, so the solution is lost. |
| `Dedalus.Post.merge_retry_refuted` | C36 | C36 fails with cleanup: a run killed after it has removed the first process file, followed by a run that ends normally, loses the data of the first process, since the second run overwrites the joint file. |
| `Dedalus.Post.merge_writes_refuted` | C36 | C36 fails for files with different numbers of writes: if the file of one process has a single write (the run was stopped while writing), its data are repeated for all writes and no error is raised. |
| `Dedalus.Post.merge_virtual_retry_refuted` | C36 | C36 fails for virtual files: an exception after the first of two tasks leaves a valid file with one task; running again with cleanup takes that file for the virtual file and then deletes the process files. |
| `Dedalus.Fourier.real_halfcomplex_mean_refuted` | C38 | When only the mean is resolved, `fftw_hc` mixes whatever the previous transform left in its buffer into the grid values: here the forward transform of a delta function. |
| `Dedalus.Cosine.cosine_resize_one_point_refuted` | C40 | With one grid point, all coefficients but the mean keep what the array held before. |
| `Dedalus.Fourier.real_product_constant_refuted` | C41 | Multiplying a constant by a non-constant real mode raises: the matrix is built for pairs of columns although the operand has only one. |
| `Dedalus.Fourier.product_single_wavenumber_refuted` | C41 | With a single wavenumber even the multiplication by the mean mode raises. |
| `Dedalus.Spin.coordsys_eq_refuted` | C43 | Coordinate systems are not compared by their coordinates: Cartesian `(x, y)` equals Cartesian `(x, z)`. |
| `Dedalus.Spin.product_check_refuted` | C43 | Direct products accept a repeated coordinate name if the coordinate objects differ. |
| `Dedalus.Bvp.other_modes_refuted` | C46 | C46, false in general: if the state is in grid space when only some subproblems are solved, the coefficients of the other modes are lost: the grid values are relabelled as coefficients. |
| `Dedalus.Bvp.newton_after_exception_refuted` | C46 | C46, false in general: after an iteration that raised (singular matrix at 0) the right-hand side is not evaluated again, so the next iteration uses the residual of the old state: from 3 it goes to 3 + 4/6 and not to 3 - 5/6. |
| `Dedalus.Solver.initial_time_refuted` | C47 | C47 refuted for negative initial times: a time field set to -2 gives a solver whose clock and time field are both +2. |
| `Dedalus.Sphere.swsh_unresolved_refuted` | C50 | If the order exceeds the number of grid points, the start of the slice that should zero all rows is negative. The harmonic of degree `\|m\| > Ntheta` is then kept and contributes to every grid value. |
| `Dedalus.Solver.forces_fresh_refuted` | C51 | C51 refuted: after two steps, loading a state of iteration 0 and stepping again uses the old forces (they are not recomputed at that step, nor at the next). |
| `Dedalus.Symb.ivp_matrices_refuted` | C52 | C52, part that fails: a product of a variable with the time derivative of a coefficient is accepted, and becomes a term `f*dt(u)`. Here `f` is constant in time, so the left-hand side `dt(f)*u` is zero, but `M` applied to the time derivative of `u` is not. |
| `Dedalus.Eval.system_fields_refuted` | C55 | C55 fails when two equations have the same operator object as right-hand side: the first field the solver reads is no longer the output field of the operator, so nothing is ever written to it. |
| `Dedalus.Jacobi.lift_out_of_range_refuted` | C62 | An index out of range is not rejected: too large an index lifts to zero, and some too small an index lifts to a polynomial that was not asked for. |
| `Dedalus.Spin.matrix_keeps_real_refuted` | C63 | But for real data it does: the transform of a tensor with an index over another coordinate system fails after the matrix for the same tensor signature has been built. |
| `Dedalus.Sphere.slots_complex_refuted` | C65 | With more azimuthal points, slots are labelled with degrees below the order: `Nphi = 2 Ntheta + 2` complex points, for which the code does not warn, have a slot for order `-1` and degree `0`. |
| `Dedalus.Sphere.sphere_product_real_refuted` | C68 | Real data, from the order `(2 Q - 1) / 4` on, a quarter of the largest one, to the first order stored in decreasing degree, `Q`: multiplication by a multiple of the cosine of the colatitude is wrong. The degrees `m` and `m + 1` are in the first two positions, but the entry that couples them is not the one of these degrees. |
| `Dedalus.Sphere.sphere_product_sign_refuted` | C68 | In the orders stored in decreasing degree, a constant imaginary component of the coefficient has the wrong sign: the code swaps the cosine and minus sine parts when it reverses the degrees. |
| `Dedalus.Zernike.disk_round_trip_refuted` | C69 | Without dealiasing, the coefficient of order `m = 1`, spin weight `s = 1` and the highest radial index is valid and is lost in every round trip. |
| `Dedalus.Zernike.disk_backward_evaluates_refuted` | C69 | The order `\|m\| = 2 Nmax + 1` has one valid coefficient, which the backward transform ignores. |
| `Dedalus.Zernike.ball_round_trip_refuted` | C69 | Without dealiasing, the coefficient of degree `ell = 1`, regularity `+1` and the highest radial index is valid and is lost in every round trip. |
| `Dedalus.Contract.transpose_negative_refuted` | C72 | The indices `(0, -1)` of a tensor of rank 2 are valid and mean `(0, 1)`. The evaluation exchanges the first index with the last axis of the grid instead, and the matrix cannot be built. |
| `Dedalus.Contract.skew_negative_refuted` | C72 | With the index `-1` the matrix rotates the coefficients instead of the last index: for a vector with `n` coefficients the factors are an identity and the rotation. |
| `Dedalus.Contract.skew_spin_matrix_refuted` | C72 | For a vector of polar type on a domain with another axis of eight coefficients before the azimuth, the factor for the azimuth has size 8 instead of 2. |
| `Dedalus.Contract.component_signature_refuted` | C72 | With index `-1`, which means the last index, the radial component of a vector has the signature of a vector instead of a scalar. |
| `Dedalus.Contract.cartesian_component_refuted` | C72 | Evaluating a component along the second index takes it along the first one: for a tensor of shape `3 × 3` the component along `y` of the second index is the second row instead of the second column. The matrix gives the column. |
| `Dedalus.Shell.radial_conversion_refuted` | C74 | For every basis there is a field that conversion changes: the basis function of the highest index. |
| `Dedalus.Shell.annulus_integral_refuted` | C74 | For every annulus and resolution the integral of the constant-index basis function of a basis of order 2 is wrong. |
| `Dedalus.Shell.shell_integral_refuted` | C74 | For every shell and resolution the integral of the constant-index basis function of a basis of order 3 is wrong. |
| `Dedalus.Cart.laplacian_constant_refuted` | C75 | The Laplacian of a constant raises when the coordinate system is not given, although it is 0 when the same system is given. |
| `Dedalus.Cart.curl_constant_refuted` | C75 | The curl of a constant vector field raises instead of being 0. |
| `Dedalus.Cart.curl_tensor_refuted` | C75 | The curl over the first index of a tensor with a second index puts the index of the curl behind it: the signature is not the one of the operand. |
| `Dedalus.Cart.divergence_index_refuted` | C75 | The divergence over the second index takes the components along the first one: for the matrix whose only element is `y`, in the second row and first column, the first row has divergence 0, and 1 is returned. |
| `Dedalus.Cart.laplacian_product_refuted` | C75 | The Laplacian of `y ^ 2` in the product of the plane `(x, y)` and the coordinate `z`, for a field with a basis along `y` only: the number 0 is returned instead of 2. |
| `Dedalus.Cart.curl_product_refuted` | C75 | The curl raises for every vector field when the plane comes before the coordinate. |
| `Dedalus.Cart.divergence_product_constant_refuted` | C75 | The divergence of a constant vector field raises in direct products, although it is 0 in Cartesian coordinates. |
| `Dedalus.Cart.integrate_constant_refuted` | C76 | Integrating or averaging a field without bases over its domain raises, although the integral over nothing is the field itself. |
| `Dedalus.Cart.integrate_axis_refuted` | C76 | Integrals, averages and interpolations along a coordinate on which the operand does not depend raise. |
| `Dedalus.Cart.integrate_product_refuted` | C76 | Integrals over a direct product or a list with a Cartesian factor raise, for every operand, although the same factor alone is accepted. |
| `Dedalus.Domain.system_eq_refuted` | C77 | Two different coordinate systems that share the class, the dimension and the first coordinate compare equal. |
| `Dedalus.Domain.unify_signature_refuted` | C77 | Vectors over two different coordinate systems can be added: the signatures `(x, y)` and `(x, z)` are unified to the first one. |
| `Dedalus.Domain.repeated_name_refuted` | C77 | Coordinates with the same name, made separately, are accepted in a direct product and in a distributor, and the second one gets the axis of the first one. |
| `Dedalus.Domain.domain_overlap_refuted` | C78 | Bases that share an axis are accepted if one is over a system and the other over one of its coordinates, such as a disk and its edge; then the domain has the edge along the first axis and the disk along the second one. |
| `Dedalus.Domain.sum_domain_refuted` | C79 | Polar coordinates (system 0), a field on the edge of a disk (over the azimuth, key 1) and a constant: the sum with the constant first has no basis at all, the sum with the constant second has the basis of the edge. |
| `Dedalus.Domain.product_domain_refuted` | C79 | The product of the edge field with the constant is a KeyError, the product of the constant with the edge field has no basis; likewise the edge field cannot multiply a field on the disk, though the disk field can multiply it. |
| `Dedalus.Domain.sum_overlap_refuted` | C79 | The sum of a field on a disk and one on its edge, the edge first, has both bases, and the domain is accepted. |
| `Dedalus.Bvp.biorthonormal_refuted` | C81 | C81, false for repeated eigenvalues: the routine may return eigenvectors whose modified left ones are not orthogonal to the others, and the solver only rescales them. |
| `Dedalus.Matsolv.woodbury_refuted` | C82 | **C82**, refuted for every nonsingular matrix: exchanging two unknowns is a nonsingular system, but what the Woodbury solver factorises is singular. |
| `Dedalus.Matsolv.woodbury_name_refuted` | C82 | **C82**, refuted for the Woodbury solvers: every name of the table that starts with `woodbury` is found, and the construction of the solver raises `AttributeError`. |
| `Dedalus.Matsolv.broken_classes_refuted` | C82 | **C82**, refuted for two of the classes: `SPQR_solve` objects can be built but never solve anything, and `BlockInverse` objects cannot be built. |
| `Dedalus.Matsolv.override_refuted` | C82 | **C82**, refuted: options required by a matrix solver are not applied. Whatever `config` asks for, the solver either has the option already or raises `TypeError`. |
| `Dedalus.Cfl.product_chebyshev_refuted` | C83 | **C83**, refuted: in a direct product whose second factor is a Chebyshev coordinate (a cylinder, say), no process holding all four points can compute the frequency, for any velocity. |
| `Dedalus.Cfl.axisymmetric_refuted` | C83 | **C83**, refuted: on an axisymmetric disk, annulus or sphere (one azimuthal mode) the frequency cannot be computed, although the code foresees an infinite azimuthal spacing for it. |
| `Dedalus.Cfl.reversed_bounds_refuted` | C83 | **C83**, refuted without the order of the bounds: nothing rejects reversed bounds, the spacing is negative, and the contributions of two directions cancel. A uniform diagonal flow has frequency zero everywhere, so it does not limit the timestep. |
| `Dedalus.Cfl.grid_spacing_overwritten_refuted` | C83 | **C83**, refuted: adding a velocity on a disk to the timestep calculation changes what `basis.local_grid_spacing` returns afterwards, from the azimuthal grid spacing to the limit used by the frequency. |
| `Dedalus.Maps.degree_maps_complex_refuted` | C84 | C84 is false: with complex dtype, on one process, whenever `Lmax` is even and `Lmax/2 + 2 ≤ Nphi/2 ≤ Lmax` (for example `shape = (8, 5)`), the coefficient of order 1 and degree `ell = Nphi/2 - Lmax/2 - 1`, at row 1 and column `Lmax/2`, is also treated as having degree `Lmax/2`, which it has not. An operator adds the two results; a recombination applies both matrices. |
| `Dedalus.Maps.degree_maps_real_refuted` | C84 | C84 is false with real dtype on one process, whenever `Lmax` is even and `Lmax/2 + 3 ≤ Nphi/2 ≤ Lmax + 1` (for example `Nphi = 12`, `Ntheta = 8`): the same for the cosine and sine parts of order 1, at rows 2 and 3 and column `Lmax/2`. |
| `Dedalus.Maps.degree_maps_order_refuted` | C84 | The smallest case, `shape = (8, 5)` with complex dtype: the coefficient `m = 1`, `ell = 1` is visited with degree 1 and then with degree 2, so the ball's radial transform leaves the result for degree 2. |
| `Dedalus.Agree.real_curl_coupled_refuted` | C85 | C85 is false for the curl with real data if the degree is coupled (a coefficient varies with colatitude): no matrix can be built, although the curl on the right-hand side, and with complex data on either side, can be computed. |
| `Dedalus.Agree.ball_coupled_refuted` | C85 | C85 is false for balls if the degree is coupled: the radial size falls with the degree, the gathered vector has the bounding box of all degrees `\|m\|` to `Lmax`, and the matrix has too few columns for it. `m` is a stored order with `\|m\|/2 < Lmax/2 ≤ Nmax`. |
| `Dedalus.Zncc.disk_padding_refuted` | C86 | The matrices of the disk are not padded: for the third function as the coefficient and the last function as the operand the last coefficient of the product is wrong, at every resolution and every azimuthal order. |
| `Dedalus.Zncc.disk_truncation_refuted` | C86 | Functions of the coefficient beyond the number of functions of the operand are dropped: with two radial functions and order 2, the product with the second function is lost although the product is not. |
| `Dedalus.Zncc.disk_real_refuted` | C86 | For real data and azimuthal orders from 2 the rows of the coefficient are split at the wrong place: with two radial functions and order 2, the second function of the cosine part acts as a sine part, and the product with a cosine has a sine part. |
| `Dedalus.Output.merge_task_retry_refuted` | C88 | C88, what fails: a run that was stopped before its end cannot be repeated. The next run ends with an exception and changes nothing, since the new name is taken, or since the old one is gone. |
| `Dedalus.Output.merge_virtual_file_refuted` | C89 | C89, what fails. Merging the file of a virtual handler with `merge_virtual_file`: the attribute `task_number`, which is read for each task, is not written. So the run ends with an exception after the first task, for every list of tasks: the file then has only this task and no virtual datasets, and the virtual file is left under the temporary name. |
| `Dedalus.Output.merge_virtual_file_again_refuted` | C89 | C89, what fails. A second run then moves the incomplete file over the virtual file: with two tasks or more, nothing refers to the data of the others any more; with `cleanup` the run would also remove the process files if it did not end with the same exception. |
| `Dedalus.Output.merge_distributed_set_refuted` | C89 | C89, what fails. Merging the process files of a virtual handler with `merge_distributed_set`: the virtual joint file is replaced by an empty one, then the attributes of the process file are read, which were not written. The time scales of the set are lost. |
| `Dedalus.BasisOps.product_resolution_refuted` | C91 | C91 (refuted). The product of a field on a shell (or ball) with 16 radial modes and a radial field with 32 of them has 16 radial modes. |
| `Dedalus.BasisOps.product_grouping_refuted` | C91 | C91 (refuted). In a ball the parameter `k` of the product depends on the grouping; with a field on a sphere and two radial fields of a shell the number of radial modes does. |
| `Dedalus.BasisOps.ncc_product_resolution_refuted` | C91 | C91 (refuted). On shells and balls the modes of the coefficient are not kept. |
| `Dedalus.BasisOps.axisymmetric_sum_refuted` | C92 | C92 (refuted). For complex data, the sum of an axisymmetric field `u` (on `annulus.radial_basis`) and a field `v` on the annulus adds the coefficients of `u` to all azimuthal modes of `v`, not only to the azimuthal average: for every resolution the coefficient `(i, j)` of the result is wrong whenever `i > 0` and `u` has a coefficient `j`. |
| `Dedalus.Orders.polar_no_modes_refuted` | C93 | C93 is false of the code: a complex disk with `Nphi = 4 Nr` points is accepted, but its highest order has no radial mode and building the map raises the error that "should never happen". |
| `Dedalus.Orders.polar_two_points_refuted` | C93 | Two points in azimuth on two processes: process 1 has a grid row but no coefficients and raises the same error. |
| `Dedalus.Orders.disk_top_order_refuted` | C93 | A real disk with `Nphi = 4 Nr` points has a coefficient for order `2 Nr - 1` and radial mode `Nr - 1`, but the transform to the grid drops it, whatever the coefficients and matrices. |
| `Dedalus.Average.azimuthal_average_refuted` | C94 | C94 is false of the code: if the colatitude is distributed and the blocks of the operand and of the result have different sizes, the average raises an error on process `(0, 0)`. The operand has `Lmax + 1 + shift` columns, the result `Lmax + 1`. |
| `Dedalus.SphereField.sphere_colatitude_round_trip_refuted` | C95 | C95 is false without orders above zero: for the coefficients of any real tensor field, going to coefficient-grid data and back multiplies the complex numbers that the coefficients encode with `1 + i`. The data change unless they are zero. |
| `Dedalus.Ghost.products_refuted` | C96 | C96 (refuted). The product of a field on a sphere with 8 × 4 points and its average over the sphere (a basis with one azimuthal and one colatitude mode) is computed on one process, but on two processes the second one raises an exception, whatever the data: the colatitude of a sphere is never marked as constant, so the average is not sent to it. The same holds for a field with two azimuthal modes in a disk times a constant in the disk, if the azimuth is distributed: two modes are marked as constant, so the constant is not sent. |
| `Dedalus.PolarField.disk_vector_kept_refuted` | C97 | C97 fails for vectors on that grid: whatever the last coefficient of the component of spin +1 is for a positive odd order, it is cleared. |
| `Dedalus.PolarField.annulus_factor_axis_refuted` | C97 | C97 fails if another axis follows the radius: the transform raises an error unless that axis has as many points, and if it has, the data are multiplied with the factor of their position along that axis. |
| `Dedalus.VolumeField.ball_degree_refuted` | C98 | C98 is false for every size that is accepted: in a complex ball of shape `(8, 5, Nr)` the coefficient of order 1, degree 1 and lowest radial function has no effect on the grid values, although it is named and within all limits. |
| `Dedalus.Integral.annulus_field_integral_refuted` | C99 | C99 is false of annuli of order 2: some field has another integral. |
| `Dedalus.Integral.shell_field_integral_refuted` | C99 | C99 is false of shells of order 3: some field has another integral. |

## Other disagreements seen while reading (not formalised)

* `SphereBasis.k_vector` calls `dedalus_sphere.sphere.k_element`, which does not exist; `AnnulusBasis.global_radius_weights` calls the quadrature with a signature it does not have.
* `Product.expand` calls `self.new_operand` (L319-329), `FutureField.cast` imports `operators.FieldCopy`, `GeneralFunction` has no `new_operands`.
* `H5FileHandler` metadata: coefficient scales are indexed with `[subaxis]` instead of `[axis]` (evaluator.py L550-556).
* `CosineMMT` (transforms.py L680-712) is not registered and is not an inverse pair.
* `InterpolateColatitude` tests `m <= Lmax` without the absolute value; harmonics at the poles evaluate `log(0)`. It fails for tensors with a spin above
  `Lmax` (C100). `InterpolateAzimuth` fails for complex data with two azimuths (C100).
* `f(r='right')` raises in balls, shells and annuli, and interpolation at any radius raises in balls with a degree that has no radial coefficients (C101).
* Modes that no grid value depends on are marked valid: the sine parts of order zero of real scalars on spheres, balls and shells at every degree but zero; the Nyquist order of complex Fourier bases; all radial modes of a ball below `l / 2`, even of forbidden regularity components, because masked group numbers compare as unmasked ones (these belong to no group, so the solvers do not see them) (C103).
* With dealias 1, enforcing Hermitian symmetry clears the last radial coefficient of the component of spin +1 of a vector in the disk for every positive odd order, although it takes part in no symmetry: `enforce_disk_loses_refuted` (C104).
* `load_state` sets the clock and loads variable after variable before it finds that one is missing or does not fit, so a refused load leaves a solver that is partly changed: `failed_load_refuted` (C105).
* `load_from_global_grid_data` computes scales as the quotient of grid sizes in doubles and rounds the product up again: a field of size 21 saved at scale 5/4 has 27 points, but loading expects 28 and fails: `double_grid_refuted`, `double_load_refuted`. Scales that are doubles themselves, such as 1, 3/2 and 2, are safe (C105).
* The history of multistep schemes is neither saved nor reset: a restarted run of SBDF2 differs from the uninterrupted one, and a state loaded into a solver that has made steps is combined with the history of the old state: `multistep_continues_refuted`, `used_solver_refuted` (C106).
* `apply_sparse` into a slice of an array with three or more axes fills a copy and leaves the output as it was; with an axis counted from the back it writes nothing and returns uninitialised memory: `lost_output_refuted`, `negative_axis_refuted`. `apply_dense` raises along empty axes of arrays with three or more axes, so the backward transform in a ball with `Lmax // 2 >= Nr` raises although the basis is accepted: `empty_axis_refuted`, `ball_backward_refuted` (C107).
* A disk or annulus with two azimuthal points gets an azimuth grid of two points for data with one, and curvilinear axes with a single mode get, at dealiasing scales, the first point of a finer grid (C102).
  `BallRadialInterpolate` does not write components that a degree does not have; the recombination ignores them.

## Wrong programs

`seeded/LOG.jsonl` has one line per experiment: a definition of the model was edited in a scratch copy the way a bug would change the program, and the area's theorems were rebuilt. Mutations that survived led to tightened theorems or were shown to be equivalent programs; the log says which.
* `get_plane` refuses axes of one point (`diff[0]` of an empty array), accepts selections with three slices and then returns three-dimensional data, and `plot_bot_3d` refuses the normal axis -1 though -2 and -3 work (C108).
* `Lock(u, l0, l1)` passes its list of layouts as one argument to `lock_to_layouts`, so the result cannot move even between the layouts given; assigning data in another layout is not refused by a locked field; `towards_coeff_space` in coefficient space checks `layouts[-1]` and can transform coefficients as grid data (C109).
* Cartesian and direct product gradients move derivatives that are already together on the grid to coefficient space, although their conditions hold there; values are unaffected (C110).
* Matrices built again between two steps of equal coefficients are ignored: the time stepper keeps its old solvers (C111).
* With expanded matrices stored, building one of M and L again leaves its expanded copy as it was, so the left-hand side keeps the old matrix while the right-hand side uses the new one; without storing both use the new one (C111).
* With expanded matrices stored, a subproblem whose matrices have no entries raises in `axpy`; without storing it reaches the matrix solver (C111).
* On several processes the data of a field at scales one can need more memory than at the dealias scales (the last process may have rows of the small grid and none of the large one, e.g. sizes 14 x 4, dealias 3/2, four processes). The field then changes buffers at every change of scales, and the views of it a solver keeps go stale: a step whose right-hand side takes the field to the dealias scales writes its solution into a buffer the field has left (C112).
* Constant fields of four-byte numbers cannot be created: the buffer is rounded down to whole doubles (C112).
* `tools/progress.py` divides by the elapsed time: if the clock reads the same after an item with a message as at the start (coarse clocks, or a clock set back), the loop that builds the matrices of a solver dies with `ZeroDivisionError`; `frac=0`, `iter=0` and `dt=0` do the same (C113).

## Trusted base

* Lean's kernel, version 4.33.0, and the statements in Mathlib that the specifications use (`HasDerivAt`, interval integrals, `Matrix`, `Polynomial`, ...).
* The axioms `propext`, `Classical.choice`, `Quot.sound`. No theorem uses any other; there is no `sorry`, `native_decide` or `bv_decide`.
* The reading of /repo recorded in the comments of the model files, and the conventions above.
