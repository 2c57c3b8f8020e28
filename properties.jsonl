{"id": "C01", "title": "Chained dof numbering keeps variables apart and loses nothing", "statement": "When several gathering matrices are chained with the default ('silly') method, the chained dof vector of an element is the concatenation of the members' dof vectors, each shifted by the total number of dofs of the members before it. Hence dofs of different variables never share a number, two chained dofs are equal iff they come from the same variable and the same dof of it, and if every member numbers its dofs 0..n_i-1 without holes the chain numbers 0..(sum n_i)-1 without holes.", "quantifier": "for every number of chained variables, every number of elements, every dof count and every distribution of elements over cores", "why_tests_cant": "a test checks a handful of meshes and two or three variables; collisions depend on the relative sizes of all members", "anchors": ["tools/elementwiseCache/gathering/chain.py: GatheringMatrixChaining, Chain_Gathering_Matrix", "tools/elementwiseCache/gathering/regular/chain_matrix/main.py: Chain_Gathering_Matrix.__init__, __getitem__, _To_Be_Added_, global_num_dofs"]}
{"id": "C02", "title": "Sequential chain renumbering is a relabelling", "statement": "When gathering matrices are chained with method 'sequent', the result is a relabelling of the 'silly' chain: two local dofs receive the same number iff they are the same dof of the same variable, and the numbers used are exactly 0..N-1. This is expected for every admissible numbering of the members.", "quantifier": "for every list of member numberings, every element order and every split of the elements over cores", "why_tests_cant": "the renumbering uses a running counter and per-variable thresholds whose correctness depends on the order in which dofs first appear in the whole mesh", "anchors": ["tools/elementwiseCache/gathering/regular/chain_matrix/main.py: ___Pr_parse_sequent___ / sequent numbering"]}
{"id": "C03", "title": "Looking up the elements that contain a dof is complete", "statement": "For a chained gathering matrix, asking which elements contain global dof m returns every local element whose dof vector contains m and no other element.", "quantifier": "for every gathering matrix, every chain of them and every valid dof number, whatever the number of elements sharing the dof", "why_tests_cant": "the search stops after a fixed number of hits; only meshes with many elements around one dof reveal it", "anchors": ["tools/elementwiseCache/gathering/regular/chain_matrix/do/find.py: elements_contain_dof_numbered, elements_and_local_indices_of_dof", "tools/elementwiseCache/gathering/regular/matrix/do/find.py"]}
{"id": "C04", "title": "Nodal (0-form) dofs get one number per mesh node", "statement": "For a non-hybrid 0-form on a conforming structured mesh, two local dofs (in the same or different elements) get the same global number iff they sit at the same node of the mesh, and the numbers used are exactly 0..(number of nodes)-1.", "quantifier": "for every element layout, every polynomial degree in each direction, in 2D and 3D, for every element numbering the mesh generator can produce", "why_tests_cant": "the numbering is produced by an element-by-element propagation through shared sides; correctness at corner nodes depends on the global ordering of elements, so each mesh is a new case", "anchors": ["objects/CSCG/_2d/forms/standard/base/numbering/Naive.py: _0Form_Inner_no_parameters", "objects/CSCG/_3d/forms/standard/base/numbering/Naive.py: _0Form_no_parameters"]}
{"id": "C05", "title": "Side dofs get one number per mesh side", "statement": "For non-hybrid forms whose dofs sit in the interior of element sides (2D inner and outer 1-forms, 3D 2-forms), two local dofs get the same global number iff they are the two copies of one dof across a side shared by two elements, and the numbers are 0..N-1 without holes, for any mesh connectivity in which the side map is symmetric.", "quantifier": "for every conforming connectivity (any number of regions, periodic or not), every degree, every number of elements", "why_tests_cant": "connectivity is arbitrary input; a test fixes one", "anchors": ["objects/CSCG/_2d/forms/standard/base/numbering/Naive.py: _1Form_Inner_no_parameters, _1Form_Outer_no_parameters", "objects/CSCG/_3d/forms/standard/base/numbering/Naive.py: _2Form_no_parameters, _1Form_no_parameters"]}
{"id": "C06", "title": "Dof numbering does not depend on the number of cores", "statement": "The global dof numbers given to an element by the naive numbering are the same for every number of cores and every contiguous ascending distribution of elements to cores.", "quantifier": "for every number of cores and every distribution of the elements in contiguous ascending blocks", "why_tests_cant": "runs with many core counts cannot be enumerated; message order matters", "anchors": ["objects/CSCG/_2d/forms/standard/base/numbering/Naive.py: loop over range(SIZE)", "objects/CSCG/_3d/forms/standard/base/numbering/Naive.py"]}
{"id": "C07", "title": "In 2D the coboundary applied twice vanishes", "statement": "Applying the coboundary twice to any 0-form gives exactly the zero 2-form, for both the inner (grad, rot) and the outer (curl, div) de Rham complex.", "quantifier": "for all degrees p_x,p_y >= 1 and every cochain", "why_tests_cant": "holds for infinitely many degrees; a sign or index slip may only show for unequal degrees", "anchors": ["objects/CSCG/_2d/spaces/base/incidence_matrix.py", "objects/CSCG/_2d/spaces/base/local_numbering.py", "objects/CSCG/_2d/forms/standard/base/coboundary.py"]}
{"id": "C08", "title": "In 3D the coboundary applied twice vanishes", "statement": "curl(grad f)=0 and div(curl u)=0 hold exactly (in integers) for the discrete operators.", "quantifier": "for all degrees p_x,p_y,p_z >= 1 and every cochain", "why_tests_cant": "as C07, with nine sign conventions", "anchors": ["objects/CSCG/_3d/spaces/base/incidence_matrix.py", "objects/CSCG/_3d/spaces/base/local_numbering.py"]}
{"id": "C09", "title": "Local exactness of the discrete complex", "statement": "In one element a 0-form with zero coboundary is constant, every 1-form with zero coboundary is the coboundary of a 0-form, (3D) every 2-form with zero coboundary is the coboundary of a 1-form, and every top form is a coboundary.", "quantifier": "for all degrees and every cochain, 2D inner, 2D outer and 3D", "why_tests_cant": "rank statements for all sizes", "anchors": ["objects/CSCG/_2d/spaces/base/incidence_matrix.py", "objects/CSCG/_3d/spaces/base/incidence_matrix.py"]}
{"id": "C10", "title": "Local numbering enumerates the local dofs exactly once", "statement": "For each form degree the local numbering assigns every (component, i, j[, k]) position a distinct number and uses exactly 0..num.basis-1; the components are laid out one after the other in the order used by num.basis_components.", "quantifier": "for all degrees, 2D and 3D", "why_tests_cant": "infinitely many degrees", "anchors": ["objects/CSCG/_2d/spaces/base/local_numbering.py", "objects/CSCG/_2d/spaces/base/num_basis.py", "objects/CSCG/_3d/spaces/base/local_numbering.py", "objects/CSCG/_3d/spaces/base/num_basis.py"]}
{"id": "C11", "title": "Coboundary of a single-valued cochain is single-valued", "statement": "If a 0-form's local cochains agree on every dof shared by two elements, then the local cochains of its coboundary agree on the shared dofs of the resulting 1-form (and likewise for 1-forms in 3D).", "quantifier": "for every mesh connectivity, degree and cochain", "why_tests_cant": "relates two numberings and an incidence matrix over all meshes", "anchors": ["objects/CSCG/base/forms/standard/coboundary.py", "objects/CSCG/_2d/forms/standard/base/numbering/Naive.py", "objects/CSCG/_2d/spaces/base/incidence_matrix.py"]}
{"id": "C12", "title": "Element-wise cached matrices return what their generator produces", "statement": "Indexing an element-wise cached sparse matrix or column vector with element i returns the value the data generator produces for element i, whatever elements were requested before and in whatever order, provided the key generator gives equal keys only to elements with equal data and uses the reserved key for constant data only when all elements have the same data.", "quantifier": "for every sequence of accesses and every key generator that never gives one key to two different data", "why_tests_cant": "the cache is a state machine with three modes that switches on the first accesses; order of access is unbounded", "anchors": ["tools/elementwiseCache/dataStructures/objects/sparseMatrix/main.py: EWC_SparseMatrix.__getitem__, ___getitem_pre_customize___", "tools/elementwiseCache/dataStructures/objects/columnVector/main.py: EWC_ColumnVector.__getitem__"]}
{"id": "C13", "title": "Adding and subtracting element-wise vectors is element-wise", "statement": "For element-wise column vectors v1, v2, (v1+v2)[i] equals v1[i]+v2[i] and (v1-v2)[i] equals v1[i]-v2[i] for every element i.", "quantifier": "for all operands, whatever their caching, and every access order", "why_tests_cant": "wrong results occur only for certain pairs of cache modes and access orders", "anchors": ["tools/elementwiseCache/dataStructures/objects/columnVector/helpers/add.py: ___CV_ADD___", "tools/elementwiseCache/dataStructures/objects/columnVector/helpers/sub.py", "tools/elementwiseCache/dataStructures/objects/columnVector/main.py"]}
{"id": "C14", "title": "Arithmetic on element-wise matrices respects customizations", "statement": "For element-wise matrices, (c*A)[i], (-A)[i], (A+B)[i], (A-B)[i], (A@B)[i] and (A.T)[i] equal the corresponding operation on A[i], B[i] as the user sees them, including customizations applied to single elements, for every access order.", "quantifier": "for all operands, customizations and access orders", "why_tests_cant": "depends on the interplay of cache keys and per-element customizations", "anchors": ["tools/elementwiseCache/dataStructures/objects/sparseMatrix/helpers/add.py", "tools/elementwiseCache/dataStructures/objects/sparseMatrix/helpers/mul.py", "tools/elementwiseCache/dataStructures/objects/sparseMatrix/main.py", "tools/elementwiseCache/dataStructures/objects/sparseMatrix/customize.py"]}
{"id": "C15", "title": "Customizations act on the assembled matrix as documented", "statement": "Clearing a global row empties exactly that row of the assembled matrix; setting assembled entry (i,j) to v makes that entry v and changes no other entry; identifying row r makes it the r-th row of the identity.", "quantifier": "for every gathering matrix, every matrix, every row/entry and every distribution of elements over cores", "why_tests_cant": "the same global entry receives contributions from several elements on several cores", "anchors": ["tools/elementwiseCache/dataStructures/objects/sparseMatrix/customize.py: clear_global_row, set_assembled_M_ij_to, identify_global_row", "tools/elementwiseCache/dataStructures/objects/sparseMatrix/assembler.py"]}
{"id": "C16", "title": "Assembly sums all element contributions, independent of distribution", "statement": "The assembled global matrix (sum over cores) has at (r,c) the sum over all elements and local positions mapped to (r,c) of the local entries; the assembled vector likewise. The result does not depend on how elements are distributed over cores nor on their order.", "quantifier": "for every mesh, gathering matrices, local data and distribution", "why_tests_cant": "permutations and distributions are unbounded", "anchors": ["tools/elementwiseCache/dataStructures/objects/sparseMatrix/assembler.py", "tools/elementwiseCache/dataStructures/objects/columnVector/assembler.py"]}
{"id": "C17", "title": "Fixing an unknown fixes it in every solution", "statement": "After set_unknown_to(r, v) on an element-wise linear system, every solution x of the assembled system satisfies x[r] = v and all other equations are unchanged.", "quantifier": "for every system, dof r, value v and distribution", "why_tests_cant": "quantifies over all solutions of all systems", "anchors": ["tools/miLinearAlgebra/linearSystem/customize.py: set_unknown_to", "tools/elementwiseCache/dataStructures/objects/columnVector/customize.py: set_assembled_V_i_to"]}
{"id": "C18", "title": "Strong boundary conditions are imposed exactly", "statement": "After applying a strong boundary condition, every solution of the assembled system has, at each boundary dof, exactly the prescribed value, and the equations of all other dofs are unchanged.", "quantifier": "for every system, boundary, cochain and distribution", "why_tests_cant": "needs all elements sharing a dof to be treated; depends on mesh corners", "anchors": ["tools/miLinearAlgebra/linearSystem/customize.py: apply_strong_BC", "tools/elementwiseCache/dataStructures/objects/sparseMatrix/customize.py: identify_global_rows_according_to", "tools/elementwiseCache/dataStructures/objects/columnVector/customize.py: set_entries_according_to", "objects/CSCG/base/forms/base/BC/interpret/local.py"]}
{"id": "C19", "title": "Vector assembling and distributing are inverse on consistent data", "statement": "Distributing a global array to elements and assembling it back in 'replace' mode returns the original array; assembling consistent local arrays and distributing them returns the local arrays; 'add' mode gives the sum of contributions.", "quantifier": "for every gathering matrix and every array", "why_tests_cant": "gathering matrices are arbitrary", "anchors": ["components/assemblers.py: VectorAssembler", "components/distributors.py: VectorDistributor"]}
{"id": "C20", "title": "The matrix assembler returns the assembled matrix in either storage format", "statement": "MatrixAssembler called with local matrices returns the matrix whose (r,c) entry is the sum of all contributions mapped to (r,c), both for format 'csr' and for format 'csc', also for rectangular matrices.", "quantifier": "for every pair of gathering matrices and local matrices", "why_tests_cant": "only asymmetric matrices with different row/column numberings distinguish the formats", "anchors": ["components/assemblers.py: MatrixAssembler"]}
{"id": "C21", "title": "Tree reduction schedule reaches the root from every core", "statement": "The binary tree communication schedule is deadlock free (every receive is matched by exactly one send of the same round), every non-root core sends exactly once and no core sends before it has received everything addressed to it; accumulating along it yields at the root the combination of all cores' data.", "quantifier": "for every number of cores", "why_tests_cant": "a test can only run a few core counts", "anchors": ["root/config/tree.py: TREE", "tools/miLinearAlgebra/dataStructures/globalMatrix/do.py: gather_M_to_core"]}
{"id": "C22", "title": "Dispatching and chaining of tasks", "statement": "DISPATCHING executes every task exactly once, on exactly one core; the list a core returns has the results of the tasks it did, in the order of the tasks; and all cores return whatever the order of completion. CHAINING lets the cores execute the method one after the other in the order of the ranks.", "quantifier": "for every number of tasks, of cores and every order of completion", "why_tests_cant": "completion orders of concurrent cores are unbounded", "anchors": ["root/config/dispatching.py: DISPATCHING", "root/config/chaining.py: CHAINING"]}
{"id": "C23", "title": "Grouping cores is a partition", "statement": "GROUP_CORES splits all ranks into groups, each rank in exactly one group, leader first, and group sizes differ from the requested size only as documented.", "quantifier": "for every number of cores and every requested group size", "why_tests_cant": "core counts unbounded", "anchors": ["root/config/group.py: GROUP_CORES"]}
{"id": "C24", "title": "Distributed matrix-vector product is the true product", "statement": "For a global matrix A (stored as one summand per core) and a global/distributed/locally full vector b, A @ b represents the product of the represented matrix with the represented vector.", "quantifier": "for every number of cores, every distribution of the summands, both storage formats", "why_tests_cant": "the code takes different paths depending on the sparsity pattern on each core", "anchors": ["tools/miLinearAlgebra/dataStructures/globalMatrix/main.py: __matmul__, nonempty_columns, nonempty_rows", "tools/miLinearAlgebra/dataStructures/vectors/"]}
{"id": "C25", "title": "Distributed matrix-matrix product is the true product", "statement": "For global matrices A, B the product A @ B represents the product of the represented matrices.", "quantifier": "for every number of cores and every distribution", "why_tests_cant": "as C24", "anchors": ["tools/miLinearAlgebra/dataStructures/globalMatrix/main.py: __matmul__"]}
{"id": "C26", "title": "Splitting a matrix for communication loses nothing", "statement": "The cutting points computed for sending a large sparse matrix in pieces start at 0, strictly increase and end at the last column (row), so the pieces put side by side are the original matrix.", "quantifier": "for every sparsity pattern and every factor", "why_tests_cant": "patterns with very heavy or empty columns are the risky ones", "anchors": ["tools/miLinearAlgebra/dataStructures/globalMatrix/helpers/split_A.py"]}
{"id": "C27", "title": "Gathering a distributed vector to a core yields the represented vector", "statement": "Gathering a global or distributed vector to a chosen core returns, on that core, the full vector that the distributed vector represents (sum over cores).", "quantifier": "for every vector, core and distribution", "why_tests_cant": "the result depends on which core is asked and on which cores hold data", "anchors": ["tools/miLinearAlgebra/dataStructures/vectors/distributed/do.py", "tools/miLinearAlgebra/dataStructures/vectors/GLOBAL/do.py"]}
{"id": "C28", "title": "Restarted GMRES stops, and reports success only when converged", "statement": "The outer loop of the GMRES solvers stops after at most maxiter restarts, and info == 0 is returned only if the residual has reached the absolute tolerance or the requested relative reduction.", "quantifier": "for every sequence of residual norms, tolerance and maxiter", "why_tests_cant": "residual histories are unbounded", "anchors": ["tools/miLinearAlgebra/solvers/regular/GMRES/helpers/components/stop_criterion.py"]}
{"id": "C29", "title": "Newton-Raphson stopping and initial guess", "statement": "The Newton-Raphson loop stops after at most maxiter iterations (or exactly the requested number when maxiter is given as a string), info==0 is returned only when the tolerance is reached (or the forced count is done), and customised initial-guess values take effect in the first linearisation.", "quantifier": "for every sequence of error norms and every parameter choice", "why_tests_cant": "histories unbounded", "anchors": ["tools/miLinearAlgebra/nonlinearSystem/solve/NewtonRaphson/regular.py", "tools/miLinearAlgebra/nonlinearSystem/solve/NewtonRaphson/helpers/stop_criterion.py"]}
{"id": "C30", "title": "LGMRES augmentation caches never miss", "statement": "During LGMRES every augmentation vector looked up from the previous k outer iterations is present in the cache, and the cache never keeps more than the last k of them.", "quantifier": "for every k and every number of outer iterations", "why_tests_cant": "long runs with different k", "anchors": ["tools/miLinearAlgebra/solvers/regular/LGMRES/helpers/mpi_v0.py"]}
{"id": "C31", "title": "BiCGSTAB keeps its shadow residual", "statement": "Throughout the BiCGSTAB iteration the shadow residual used in all inner products is the initial residual.", "quantifier": "for every number of iterations", "why_tests_cant": "the wrong value only changes convergence, no assertion can see it", "anchors": ["tools/miLinearAlgebra/solvers/regular/BiCGSTAB/helpers/mpi_v0.py"]}
{"id": "C32", "title": "Schur complement reduction is equivalent to the full system", "statement": "For a 2x2 block system, (x,y) solves the full system iff y solves the reduced Schur system and x is the back-substitution; the right-hand side used by the code is h - C M^-1 g.", "quantifier": "for all sizes and all matrices with invertible element-wise M", "why_tests_cant": "quantifies over all systems", "anchors": ["tools/miLinearAlgebra/solvers/Schur/rank2/helpers/scipy_sparse_linalg_direct.py"]}
{"id": "C33", "title": "Time iterator: steps are taken once, in order, and runs can be resumed", "statement": "Running the iterator computes steps 1..N in order, time increases by dt each step, running step and computed step stay consistent, a shut-down stops the run, and resuming from a saved record skips exactly the recorded steps.", "quantifier": "for every number of steps, saved record and shut-down moment", "why_tests_cant": "histories unbounded", "anchors": ["tools/iterators/base/main.py", "tools/iterators/simple.py"]}
{"id": "C34", "title": "Elements are distributed to cores as a partition in contiguous blocks", "statement": "For every distribution method, each mesh element belongs to exactly one core, every core's elements form a contiguous ascending block, blocks follow the rank order.", "quantifier": "for every number of elements and every number of cores", "why_tests_cant": "the load-balancing arithmetic has many special cases", "anchors": ["objects/CSCG/base/mesh/base.py: element distribution methods"]}
{"id": "C35", "title": "Element numbering is a bijection", "statement": "For every numbering scheme of the mesh (Fortran order, chaotic C order, block-wise) the elements get the numbers 0..n-1, each exactly once, and the lookup from number to (region, local indices) is its inverse.", "quantifier": "for every set of regions and element layouts", "why_tests_cant": "layouts unbounded", "anchors": ["objects/CSCG/_2d/mesh/main.py: ___PRIVATE_generate_element_global_numbering___, do.find.region_name_and_local_indices_of_element", "objects/CSCG/_3d/mesh/main.py"]}
{"id": "C36", "title": "The element map is symmetric", "statement": "If element b is the neighbour of element a across side s then a is the neighbour of b across the opposite side (two-region interfaces and periodic boundaries included).", "quantifier": "for every layout and every conforming region map", "why_tests_cant": "layouts and region maps unbounded", "anchors": ["objects/CSCG/_2d/mesh/main.py: ___PRIVATE_generate_element_map___, ___PRIVATE_fetch_side_element___"]}
{"id": "C37", "title": "Frozen objects accept no new attributes", "statement": "After an object is frozen, assigning an attribute it does not have raises an error and leaves it unchanged, assigning an existing attribute works; melting restores the possibility.", "quantifier": "for every sequence of freeze, melt and assignments", "why_tests_cant": "sequences unbounded", "anchors": ["components/freeze/base.py: FrozenOnly", "components/freeze/main.py"]}
{"id": "C38", "title": "Global cochain and local cochain are two views of one thing", "statement": "For a form whose local cochains agree on shared dofs, reading cochain.globe and assigning it back leaves the local cochains unchanged; dofwise[i] is the value of dof i.", "quantifier": "for every mesh, distribution and cochain, hybrid or not", "why_tests_cant": "zero entries and number of sharing cores matter", "anchors": ["objects/CSCG/base/forms/standard/cochain/main.py: globe, globe.setter", "objects/CSCG/base/forms/standard/cochain/dofwise.py"]}
{"id": "C39", "title": "Interpreting a boundary condition uses the current form and boundaries", "statement": "f.BC.interpret.local returns the local dofs of f on the boundaries currently set for f.", "quantifier": "for every interleaving of setting boundaries on several forms and interpreting them", "why_tests_cant": "a module-level cache keyed by object identity is shared by all forms; failures need address reuse", "anchors": ["objects/CSCG/base/forms/base/BC/interpret/local.py: ___Pr_parse_dofs___", "objects/CSCG/base/forms/base/BC/main.py"]}
{"id": "C40", "title": "Small collection utilities", "statement": "take_closest returns an element of the sorted list at minimal distance (the smaller one on a tie); break_list_into_parts returns consecutive pieces of the requested sizes whose concatenation is the list, if the sizes add up to its length.", "quantifier": "for all lists and arguments", "why_tests_cant": "lists unbounded", "anchors": ["components/collections/take_closest.py", "components/miscellaneous/break_list.py"]}
{"id": "C41", "title": "Duration converters are mutually inverse", "statement": "Converting a number of seconds to the [dd:hh:mm:ss] text and back returns the number of (whole) seconds.", "quantifier": "for every duration", "why_tests_cant": "durations unbounded; carries at 59/60 and 23/24", "anchors": ["components/miscellaneous/timer.py"]}
{"id": "C42", "title": "Cached chain gathering matrices are the requested ones", "statement": "Requesting a chain of gathering matrices twice returns an equivalent chain, and requesting a chain of different matrices never returns an earlier, different chain.", "quantifier": "for every sequence of requests", "why_tests_cant": "cache keys are concatenated object identities; collisions need particular identities", "anchors": ["tools/elementwiseCache/gathering/chain.py: GatheringMatrixChaining"]}
{"id": "C43", "title": "Trace matrices pick boundary dofs with outward orientation", "statement": "The trace matrix applied to a local cochain returns, side by side, the dofs on the element sides with the sign of the outward orientation; across a side shared by two elements the two contributions of a single-valued cochain cancel.", "quantifier": "for all degrees and cochains", "why_tests_cant": "degrees unbounded", "anchors": ["objects/CSCG/_2d/spaces/base/trace_matrix.py", "objects/CSCG/_3d/spaces/base/trace_matrix.py"]}
{"id": "C44", "title": "The distribution flag of a global matrix is right", "statement": "If a global matrix says it is regularly distributed by rows (columns) then no row (column) has entries on two cores; this holds after claiming the distribution pattern, transposing, scaling and multiplying.", "quantifier": "for all global matrices, formats and numbers of cores", "why_tests_cant": "the flag is trusted without any check by products and solvers; wrong flags need particular distributions", "anchors": ["tools/miLinearAlgebra/dataStructures/globalMatrix/whether.py: regularly_distributed", "tools/miLinearAlgebra/dataStructures/globalMatrix/do.py: claim_distribution_pattern", "tools/miLinearAlgebra/dataStructures/globalMatrix/main.py: T, __neg__, __mul__, __matmul__, ___PRIVATE_check_row_major___, ___PRIVATE_check_col_major___"]}
{"id": "C45", "title": "Gathering a global matrix to a core yields the represented matrix", "statement": "gather_M_to_core returns on the chosen core the sum of the matrices of all cores and zero elsewhere, whatever the splitting factor; the object represents the same matrix afterwards, with or without clean_local.", "quantifier": "for all matrices, numbers of cores and splitting factors", "why_tests_cant": "number of cores and sizes unbounded; splitting only happens for matrices too large for tests", "anchors": ["tools/miLinearAlgebra/dataStructures/globalMatrix/do.py: gather_M_to_core", "tools/miLinearAlgebra/dataStructures/globalMatrix/helpers/split_A.py"]}
{"id": "C46", "title": "The residual that BiCGSTAB works with is the true residual", "statement": "In exact arithmetic, in every round of the BiCGSTAB solver the recursively updated residual equals f - A x of the current iterate, independently of the shadow residual.", "quantifier": "for all systems, initial guesses and numbers of rounds", "why_tests_cant": "the recursion drifts silently if one update is wrong; the solver may still converge on small test systems", "anchors": ["tools/miLinearAlgebra/solvers/regular/BiCGSTAB/helpers/mpi_v0.py: ___mpi_v0_BiCGSTAB___"]}
{"id": "C47", "title": "A GMRES or LGMRES cycle minimises the residual, on any number of cores", "statement": "After one restart cycle the iterate has the smallest residual norm among all vectors x0 + (Krylov space of dimension m) + (span of the k augmentation vectors), for every number of cores and every distribution of the matrix over the cores (exact arithmetic, no breakdown); in particular a cycle never increases the residual and the result does not depend on the number of cores.", "quantifier": "for all systems, restart parameters, augmentation vectors and numbers of cores", "why_tests_cant": "the orthogonalisation is distributed over the cores by index modulo number of cores; tests run one number of cores and look at the final solution only", "anchors": ["tools/miLinearAlgebra/solvers/regular/GMRES/helpers/mpi_v1.py: ___mpi_v1_gmres___", "tools/miLinearAlgebra/solvers/regular/GMRES/helpers/mpi_v0.py: ___mpi_v0_gmres___", "tools/miLinearAlgebra/solvers/regular/LGMRES/helpers/mpi_v0.py: ___mpi_v0_LGMRES___"]}
{"id": "C48", "title": "The nodal basis interpolates", "statement": "For every accepted set of nodes, the i-th node basis function is one at node i and zero at the others; a combination of node basis functions with the nodal values of a polynomial of degree at most p reproduces this polynomial at every point, and the basis functions add up to one.", "quantifier": "for all polynomial degrees, accepted nodes and evaluation points (exact arithmetic)", "why_tests_cant": "degrees, nodes and points unbounded; tests fix a few degrees and compare with tolerance", "anchors": ["objects/CSCG/base/spaces/_1d_basis/polynomials.py: node_basis, __init__"]}
{"id": "C49", "title": "The edge basis histopolates and represents the derivative", "statement": "The integral of the i-th edge basis function over the j-th interval between nodes is one if i = j and zero otherwise; the derivative of the interpolant with nodal values a is the combination of the edge functions with coefficients a_{i+1} - a_i; the edge functions with the integrals of a polynomial of degree at most p-1 reproduce it.", "quantifier": "for all polynomial degrees and accepted nodes (exact arithmetic)", "why_tests_cant": "integrals and derivatives of functions at every point; degrees unbounded", "anchors": ["objects/CSCG/base/spaces/_1d_basis/polynomials.py: edge_basis, _derivative_poly_, __derivative_poly_nodes__"]}
{"id": "C50", "title": "2D: reconstruction commutes with the exterior derivative", "statement": "In the reference element of a 2D mesh, gradient, rotated gradient, curl and divergence of a reconstructed form are, at every point, the reconstruction of the cochain multiplied by the incidence matrix; evaluating on a mesh grid returns the values in Fortran order of the grid.", "quantifier": "for all degrees per direction, nodes, cochains and points (exact arithmetic)", "why_tests_cant": "ordering of tensor products, of components and of dofs must fit together for every degree; tests compare with tolerance for few degrees", "anchors": ["objects/CSCG/_2d/spaces/base/do.py: evaluate_form_basis_at_meshgrid", "objects/CSCG/_2d/forms/standard/base/coboundary.py", "objects/CSCG/_2d/forms/standard/_1_form/inner/reconstruct.py", "objects/CSCG/_2d/forms/standard/_1_form/outer/reconstruct.py"]}
{"id": "C51", "title": "3D: reconstruction commutes with the exterior derivative", "statement": "In the reference element of a 3D mesh, gradient, curl and divergence of a reconstructed 0-, 1- and 2-form are, at every point, the reconstruction of the cochain multiplied by the incidence matrix; evaluating on a mesh grid returns the values in Fortran order of the grid.", "quantifier": "for all degrees per direction, nodes, cochains and points (exact arithmetic)", "why_tests_cant": "ordering of tensor products, of components and of dofs must fit together for every degree", "anchors": ["objects/CSCG/_3d/spaces/base/do.py: evaluate_form_basis_at_meshgrid", "objects/CSCG/_3d/forms/standard/_0s/reconstruct.py", "objects/CSCG/_3d/forms/standard/_1s/reconstruct.py", "objects/CSCG/_3d/forms/standard/_2s/reconstruct.py", "objects/CSCG/_3d/forms/standard/base/cochain/main.py: local_"]}
{"id": "C53", "title": "Metric terms of a mesh element belong to its mapping", "statement": "For a mesh element of a 2D or 3D mesh whose mapping is differentiable with an invertible derivative, `coordinate_transformation.Jacobian_matrix` is the derivative of `coordinate_transformation.mapping` (given that the region mapping reports its own derivative and that elements marked orthogonal have a diagonal one), `Jacobian` is its determinant, `inverse_Jacobian_matrix` its two-sided inverse, `inverse_Jacobian` the reciprocal of the determinant, `metric_matrix` is J^T J, `metric` its determinant and `inverse_metric_matrix` its inverse.", "quantifier": "for all region mappings, element origins and sizes, all points of the reference element, and all invertible Jacobian matrices", "why_tests_cant": "A test compares numbers for a few mappings at a few points; a wrong cofactor can vanish on symmetric or orthogonal examples.", "anchors": ["objects/CSCG/_3d/mesh/elements/element/coordinate_transformation.py:_3dCSCG_Mesh_ECT.Jacobian_matrix/Jacobian/inverse_Jacobian_matrix/metric_matrix/inverse_metric_matrix", "objects/CSCG/_2d/mesh/elements/element/coordinate_transformation/main.py"]}
{"id": "C54", "title": "Reconstructed forms have the line, surface and volume densities of the reference element", "statement": "`form.reconstruct` in physical space: the value of a 1-form dotted with the image of a reference direction is the component of the form in the reference element; the value of a 2-form dotted with the cross product of the images of two reference directions is the corresponding reference component; the value of a 3-form times the Jacobian is the reference value (and the same for inner 1-, outer 1- and 2-forms in 2D). The reconstruction matrices returned by the form, applied to the cochain, give the same values.", "quantifier": "for all elements with invertible Jacobian matrix (orthogonal or not), all node sets, all points, all cochains", "why_tests_cant": "The transformation involves all cofactors of the inverse Jacobian; tests with orthogonal meshes see only the diagonal, tests on curved meshes see only convergence.", "anchors": ["objects/CSCG/_3d/forms/standard/_1s/reconstruct.py", "objects/CSCG/_3d/forms/standard/_2s/reconstruct.py", "objects/CSCG/_3d/forms/standard/_3s/reconstruct.py", "objects/CSCG/_2d/forms/standard/_1_form/inner/reconstruct.py", "objects/CSCG/_2d/forms/standard/_1_form/outer/reconstruct.py", "objects/CSCG/_3d/forms/standard/_2s/inheriting/private.py:___PRIVATE_make_reconstruction_matrix_on_grid___"]}
{"id": "C56", "title": "Inner-product (mass) matrices integrate the dot product of the reconstructed forms", "statement": "`f.operators.inner(g)` for two forms of the same degree and orientation: for all cochains a of g and b of f, a^T M b in an element equals the quadrature sum over the mesh grid of (value of g with cochain a) . (value of f with cochain b) times the Jacobian, where the values are the ones `reconstruct` gives in physical space.", "quantifier": "for all elements with invertible Jacobian matrix (orthogonal or not), all node sets of the two forms, all quadrature points and weights, all cochains; forms of degree 0..3 in 3D and 0, 1 (inner, outer), 2 in 2D", "why_tests_cant": "The matrix is assembled from metric coefficients in blocks, with a shortcut for orthogonal elements and transposed blocks when both forms are the same object; a sign or index slip in one off-diagonal block is seen only on skewed elements.", "anchors": ["objects/CSCG/_3d/forms/standard/base/operators/main.py:inner", "objects/CSCG/_3d/forms/standard/_1s/inheriting/private.py:___PRIVATE_operator_inner___", "objects/CSCG/_3d/forms/standard/_2s/inheriting/private.py:___PRIVATE_operator_inner___", "objects/CSCG/_2d/forms/standard/_1_form/inner/main.py", "objects/CSCG/_2d/forms/standard/_1_form/outer/main.py"]}
{"id": "C57", "title": "Wedge-product matrices are metric free and integrate the product of the reconstructed forms", "statement": "`f.operators.wedge(g)`: the matrix is the same for every element, and for all cochains a of g and b of f, a^T W b equals the quadrature sum over any element of (value of g) times or dot (value of f) times the Jacobian; for 1-forms with 2-forms and 3-forms with 0-forms in 3D, and 0-forms with 2-forms and inner with outer 1-forms in 2D. Every such pair is accepted.", "quantifier": "for all elements with invertible Jacobian matrix, all node sets, all quadrature points and weights, all cochains", "why_tests_cant": "That the metric cancels is a statement about all mappings.", "anchors": ["objects/CSCG/_3d/forms/standard/base/operators/main.py:wedge", "objects/CSCG/_3d/forms/standard/_1s/inheriting/private.py:___PRIVATE_operator_wedge___", "objects/CSCG/_3d/forms/standard/_3s/inheriting/private.py:___PRIVATE_operator_wedge___", "objects/CSCG/_2d/forms/standard/_1_form/inner/main.py:___PRIVATE_operator_wedge___"]}
{"id": "C59", "title": "Mass matrices are symmetric and positive definite", "statement": "`form.matrices.mass`: the matrix of every element with positive Jacobian is symmetric, and positive definite when the quadrature has positive weights and in each direction at least as many different points as the form has nodes.", "quantifier": "for all degrees of forms, all accepted node sets, all elements with positive Jacobian (orthogonal or not), all quadrature rules with positive weights and enough points, all nonzero cochains", "why_tests_cant": "Definiteness is a statement about all cochains; it relies on unisolvence of the basis on the quadrature grid for every polynomial degree.", "anchors": ["objects/CSCG/_3d/forms/standard/base/operators/main.py:inner", "objects/CSCG/_3d/forms/standard/base/operators/helpers/inner.py", "objects/CSCG/_2d/forms/standard/base/operators/helpers/inner.py"]}
{"id": "C55", "title": "Regions have the edges and sides that were asked for, and report their true Jacobian matrix", "statement": "The mapping of a region takes the sides of the unit square (cube) to the edges (side surfaces) given by the domain input: straight edges and arcs run from the first to the second corner, `aacw` arcs turn anticlockwise and `acw` arcs clockwise by less than a full turn, with straight edges (plane sides) the mapping is bi-(tri-)linear through the corners, crazy regions keep the faces of the box. The Jacobian matrix of every interpolation (transfinite, orthogonal, crazy) is the derivative of its mapping at every point.", "quantifier": "for all corners, all centers of arcs at equal distance from the two corners, all customized edges and consistent sides, all bounds and all c, all points", "why_tests_cant": "Geometry at finitely many sample points says nothing about the curves in between; the library itself samples the edges of 3D sides at up to four points.", "anchors": ["objects/CSCG/_2d/mesh/domain/regions/region/interpolations/transfinite/mapping.py", "objects/CSCG/_2d/mesh/domain/regions/region/edge_geometries/aacw.py", "objects/CSCG/_2d/mesh/domain/regions/region/edge_geometries/acw.py", "objects/CSCG/_3d/mesh/domain/regions/region/interpolations/transfinite.py", "objects/CSCG/_3d/mesh/domain/regions/region/side_geometries/plane.py", "objects/CSCG/_2d/mesh/domain/regions/region/interpolations/crazy.py", "objects/CSCG/_3d/mesh/domain/regions/region/interpolations/crazy.py"]}
{"id": "C60", "title": "Crazy meshes are not folded", "statement": "A crazy mesh with bounds of positive length and any deformation parameter c that `random_parameters` may draw has a positive Jacobian everywhere. (In 2D this is so exactly for |c| < 1/pi; in 3D exactly for |c| < sqrt(3)/(2 pi), so it fails for some of the parameters drawn.)", "quantifier": "for all bounds, all c, all points of the region", "why_tests_cant": "The Jacobian has to be positive at all points; for c close to the limit the points where it is negative are few.", "anchors": ["objects/CSCG/_2d/mesh/domain/regions/region/interpolations/crazy.py:Jacobian_matrix", "objects/CSCG/_3d/mesh/domain/regions/region/interpolations/crazy.py:Jacobian_matrix", "objects/CSCG/_3d/mesh/domain/inputs/crazy.py:random_parameters"]}
{"id": "C58", "title": "Elements that share a metric mark share their metric, so cached matrices are right", "statement": "Elements of a mesh carry a mark of their metric, a short string; the library documents that two elements have the same mark exactly if they have the same metric, and uses the mark as the cache key of mass matrices and inner products. The matrix obtained for an element must therefore be the one of that element's own geometry, whichever elements were used before it.", "quantifier": "for all orthogonal and parallelogram elements of any size, all meshes made of such elements and all orders in which their matrices are read", "why_tests_cant": "A test uses one mesh, in which all elements have the same size or clearly different sizes. The marks are made of rounded decimals, so whether they separate elements depends on all pairs of sizes, and a wrong cache hit gives a plausible matrix of a neighbouring element without any error.", "anchors": ["objects/CSCG/_3d/mesh/elements/element/types_wrt_metric/orthogonal.py: OrthogonalElement", "objects/CSCG/_3d/mesh/elements/element/types_wrt_metric/base.py: mark", "objects/CSCG/_2d/mesh/elements/element/types_wrt_metric/orthogonal.py: OrthogonalElement", "objects/CSCG/_2d/mesh/elements/element/types_wrt_metric/parallelogram.py: ParallelogramElement", "objects/CSCG/_3d/mesh/elements/main.py: ___PRIVATE_elementwise_cache_metric_key___", "objects/CSCG/_3d/forms/standard/base/matrices/main.py: mass"]}
{"id": "C61", "title": "A triangular mesh read from a file is oriented and connected correctly", "statement": "After a triangular mesh has been constructed, every cell lists its vertices anticlockwise and keeps its first (singular) vertex, cells with collinear vertices are rejected, and the element map names for an edge of a cell exactly the other cell with the same two vertices, together with the edge of that cell and a sign that is '-' exactly if the two cells traverse the edge in opposite directions. The map is symmetric, and an edge is left for the boundaries exactly if it belongs to one cell only.", "quantifier": "all point sets, all lists of cells in which no two cells have the same three vertices and no edge belongs to three cells, all cells, all edges", "why_tests_cant": "Tests load a few meshes; the claim is about every vertex order of every pair of cells of every mesh.", "anchors": ["objects/miUsGrid/triangular/mesh/construct/main.py: miUsTriangularMeshConstruct", "objects/miUsGrid/triangular/mesh/elements/main.py: elements.map"]}
{"id": "C62", "title": "The mapping of a triangular element is a bijection onto the triangle with the stated Jacobian", "statement": "The coordinate transformation of a triangular element maps the reference square onto the triangle with the three vertices of the cell; the edges xi=1, xi=-1 and eta=1 go to the edges 0-1, 0-2 and 2-1 and the edge eta=-1 goes to vertex 0. The Jacobian matrix it reports is the matrix of partial derivatives, its determinant is positive except on the edge eta=-1, the mapping is one-to-one away from that edge, and the reported area is the integral of the determinant.", "quantifier": "all accepted cells, all points of the reference square", "why_tests_cant": "Tests compare values at sample points of sample triangles.", "anchors": ["objects/miUsGrid/triangular/mesh/elements/element/coordinate_transformation/main.py: mapping, Jacobian_matrix, Jacobian", "objects/miUsGrid/triangular/mesh/elements/element/main.py: area", "components/functions/_2dSpace/transfinite.py"]}
{"id": "C63", "title": "Dofs on triangular meshes are numbered without gaps and shared exactly along common vertices and edges", "statement": "For 0-, 1- and 2-forms on a triangular mesh the gathering matrix numbers the dofs 0, ..., N-1 without gaps. Two local dofs have the same global number exactly if they belong to the same vertex, to the same part of the same edge (whatever the directions in which the two cells traverse it), or are the same inner dof of the same cell. Nodes with the same number are the same physical point. The local numbering of the space and the gathering vectors use the same layout.", "quantifier": "all meshes as in C61, all polynomial degrees p, all cells and local dofs", "why_tests_cant": "The number of cases of relative edge positions and directions, and of orders of the cells, is unbounded.", "anchors": ["objects/miUsGrid/triangular/forms/standard/base/numbering/Naive.py: Naive", "objects/miUsGrid/triangular/space/local_numbering.py", "objects/miUsGrid/triangular/space/num_basis.py"]}
{"id": "C64", "title": "On a triangular mesh the coboundary of a cochain is single-valued and d\u2218d = 0", "statement": "On a triangular mesh, f0.coboundary() followed by coboundary() gives the zero cochain, for inner (grad, rot) and outer (curl, div) forms, whatever signs the elements' transition matrices carry. If the local cochains of a 0-form agree on shared dofs (they come from one global vector through the gathering matrix), the local cochains of its coboundary agree on shared dofs too: elements that see a common edge in opposite directions get the same value for it.", "quantifier": "for every conforming mesh of any number of triangles (for outer forms: anticlockwise, neighbours on different sides of the edge), every degree p >= 1 and every cochain", "why_tests_cant": "Tests evaluate the incidence matrices of one degree on one mesh; the sign on a shared edge depends on which local edges meet and which element is numbered first, so it needs all pairs of local edges, all degrees and all meshes.", "anchors": ["objects/miUsGrid/triangular/forms/standard/base/coboundary.py: miUsTriangular_SF_Coboundary", "objects/miUsGrid/triangular/forms/standard/_1/inner/IDT.py", "objects/miUsGrid/triangular/forms/standard/_1/outer/IDT.py", "objects/miUsGrid/triangular/space/incidence_matrix.py"]}
{"id": "C65", "title": "Discretizing a field on a triangular mesh gives a single-valued cochain", "statement": "On a triangular mesh, the cochain that discretize() computes element by element agrees on shared dofs: there is one global vector from which every element takes its values through the gathering matrix. This holds for 0-forms and for inner and outer 1-forms, with the signs of the transition matrices.", "quantifier": "for every function or vector field, every conforming mesh (for outer forms: anticlockwise, neighbours on different sides), every degree, every symmetric set of nodes and every symmetric quadrature rule", "why_tests_cant": "A wrong sign on one kind of edge pair only appears on meshes that have that pair, and discretization errors hide disagreements at the level of the tolerance of a convergence test.", "anchors": ["objects/miUsGrid/triangular/forms/standard/_0/base/discretize/scalar/standard.py", "objects/miUsGrid/triangular/forms/standard/_1/inner/discretize/vector/standard.py", "objects/miUsGrid/triangular/forms/standard/_1/outer/discretize/vector/standard.py"]}
{"id": "C66", "title": "On a triangle discretization commutes with the exterior derivative", "statement": "On every triangular element, discretizing grad f (inner) or curl f (outer) gives exactly the coboundary of the discretized f, and discretizing div v (outer) or rot v (inner) as a 2-form gives exactly the coboundary of the discretized v, as long as the fields are polynomials that the quadrature rule integrates exactly; also next to the vertex where the reference square is collapsed.", "quantifier": "for every triangle, every polynomial field, every degree p, all nodes from -1 to 1 and every quadrature rule exact to the degree of the field", "why_tests_cant": "Tests compare errors of smooth functions to a tolerance; whether the identity is exact for all polynomials, degrees and triangles (and for the dofs left out at the collapsed vertex) is an algebraic statement.", "anchors": ["objects/miUsGrid/triangular/forms/standard/_2/base/discretize/scalar/standard.py", "objects/miUsGrid/triangular/forms/standard/base/coboundary.py", "objects/miUsGrid/triangular/mesh/elements/element/coordinate_transformation/main.py"]}
{"id": "C52", "title": "In 2D discretization commutes with the exterior derivative", "statement": "On every 2D element, discretizing grad f (inner 1-form) or curl f (outer 1-form) gives exactly the incidence matrix times the discretized f, and discretizing rot v or div v as a 2-form gives exactly the incidence matrix times the discretized inner or outer 1-form v. This holds on straight and curved elements, for different degrees in the two directions, and although 1-forms and 2-forms use different default quadrature degrees, as long as the quadrature integrates the pulled-back fields exactly.", "quantifier": "for every element with a polynomial mapping, every polynomial field, all degrees p, all nodes, and all quadrature rules exact to the degree of the pulled-back field", "why_tests_cant": "Tests compare one or two smooth functions on a few meshes to a tolerance; that the index arithmetic, Jacobian terms and signs give an exact identity for all degrees, mappings and fields is an algebraic statement.", "anchors": ["objects/CSCG/_2d/forms/standard/_0_form/base/discretize/scalar/standard.py", "objects/CSCG/_2d/forms/standard/_1_form/base/main.py::___PRIVATE_discretize_preparation___", "objects/CSCG/_2d/forms/standard/_1_form/inner/discretize/vector/standard.py", "objects/CSCG/_2d/forms/standard/_1_form/outer/discretize/vector/standard.py", "objects/CSCG/_2d/forms/standard/_2_form/base/discretize/scalar/standard.py", "objects/CSCG/_2d/spaces/base/incidence_matrix.py"]}
{"id": "C67", "title": "In 3D discretization commutes with the exterior derivative", "statement": "On every 3D element, discretizing grad f as a 1-form, curl v as a 2-form and div w as a 3-form gives exactly the incidence matrices E10, E21 and E32 times the discretized f, v and w. This holds on orthogonal and curved elements and for different degrees in the three directions, as long as the quadrature integrates the pulled-back fields exactly.", "quantifier": "for every element with a polynomial mapping, every polynomial field, all degrees p, all nodes, and all quadrature rules exact to the degree of the pulled-back field", "why_tests_cant": "Tests compare a few smooth functions on a few meshes to a tolerance; the identity for all degrees, mappings and fields needs the divergence and Stokes theorems on each sub-cell together with the index arithmetic of the arrays.", "anchors": ["objects/CSCG/_3d/forms/standard/_0s/discretize/scalar/standard.py", "objects/CSCG/_3d/forms/standard/_1s/discretize/vector/standard.py", "objects/CSCG/_3d/forms/standard/_2s/discretize/vector/standard.py", "objects/CSCG/_3d/forms/standard/_3s/discretize/scalar/standard.py", "objects/CSCG/_3d/spaces/base/incidence_matrix.py"]}
{"id": "C68", "title": "Discretization gives a shared dof one value", "statement": "On a mesh whose regions coincide along the sides that are attached to each other (or that are periodic images, for a periodic field) and are cut there at the same places, discretizing a function or a vector field element by element gives every global dof the same value from every element that has it: the local cochains of 0-forms, of 2D inner and outer 1-forms and of 3D 1- and 2-forms are restrictions of one global vector, whichever element writes last. This includes curved and orthogonal regions side by side, any layout, and periodic boundaries.", "quantifier": "for all 2D and 3D meshes (any regions, mappings, layouts, periodic pairs), polynomial degrees, nodes from -1 to 1, quadrature rules inside [-1, 1], fields, distributions of elements over cores", "why_tests_cant": "Shared values are computed twice from different parametrisations; tests compare norms of errors, which hide small jumps and never cover all pairs of sides, forms, mappings and periodic gluings.", "anchors": ["objects/CSCG/_2d/forms/standard/_1_form/inner/discretize/vector/standard.py", "objects/CSCG/_2d/forms/standard/_1_form/outer/discretize/vector/standard.py", "objects/CSCG/_3d/forms/standard/_1s/discretize/vector/standard.py", "objects/CSCG/_3d/forms/standard/_2s/discretize/vector/standard.py", "objects/CSCG/_2d/forms/standard/_0_form/base/discretize", "objects/CSCG/_3d/mesh/main.py", "objects/CSCG/_3d/mesh/elements/element/coordinate_transformation.py"]}
{"id": "C69", "title": "An element layout cuts a region without gaps or overlaps", "statement": "Every accepted element layout - nothing, a number, or for each direction a number, a list of sizes or a Lobatto distribution - cuts the unit square or cube of a region into boxes of positive size with the given relative sizes such that every point belongs to exactly one element; what is accepted is exactly the positive numbers and the lists of positive sizes with one entry per direction; Lobatto layouts end elements at the mapped Lobatto nodes.", "quantifier": "for all layouts, all dimensions, all points", "why_tests_cant": "The spacing is built from partial sums and a separately stored last entry; tests use a few uniform layouts.", "anchors": ["objects/CSCG/base/mesh/base.py", "objects/CSCG/_2d/mesh/main.py: ___PRIVATE_parse_element_layout_each_region___", "objects/CSCG/_3d/mesh/main.py: ___PRIVATE_parse_element_layout_each_region___", "objects/CSCG/_2d/mesh/do/find.py", "objects/CSCG/_3d/mesh/do/find.py"]}
{"id": "C70", "title": "Quadrature rules integrate the polynomials their order promises", "statement": "For every order p the rule returned by Quadrature(p, 'Gauss') integrates all polynomials of degree up to 2p+1 over [-1, 1] exactly, Quadrature(p, 'Lobatto') those of degree up to 2p-1 and 'extended_Gauss' those of degree up to 2p-3; for Gauss and Lobatto no higher degree is possible. Lobatto nodes grow from -1 to 1, lie symmetric and have positive weights, although only the nodes and not the weights are put in reversed order. The raveled tensor products for several directions integrate, over the cube, all polynomials with these degrees in each variable. (Numbers are exact; the Newton iteration for the Lobatto nodes is assumed to end in the zeros it looks for, and if it only comes close, the sums come close.)", "quantifier": "for all orders, all polynomials up to the stated degree, any number of directions", "why_tests_cant": "The tests use a few orders and compare matrices or errors to a tolerance; exactness for every order and every polynomial of the degree cannot be enumerated.", "anchors": ["components/quadrature.py:Quadrature.quad", "components/quadrature.py:Quadrature.quad_ndim_ravel", "components/quadrature.py:Quadrature.___PRIVATE_compute_Lobatto___", "components/quadrature.py:Quadrature.___PRIVATE_newton_method___"]}
{"id": "C71", "title": "Cross-product matrices represent the inner product with the cross product", "statement": "For forms w, u and e the matrix returned by w.special.cross_product_...(u, e) satisfies, for all cochains of u and e, e^T M u = the sum over the quadrature nodes of weight times Jacobian determinant times (w x u) . e, with the fields reconstructed at those nodes and w by its cochain; the three-axis output gives the same number. For u and e in the same space the matrix is skew, so u^T M u = 0 and the term does no work. The '2-M-0' output, which eliminates the second axis with u's cochain, gives the matrix that acts on w's cochain with the same result. In 2D, with w a scalar, likewise. The curl of the cross product (inner_curl_cross) solves the mass system with this right hand side.", "quantifier": "for all form degrees, polynomial degrees, element maps, quadrature rules and cochains", "why_tests_cant": "The tests compare a few numbers on one or two meshes that are mostly orthogonal; a wrong matrix on bent elements passes them.", "anchors": ["objects/CSCG/_3d/forms/standard/_1s/special/helpers/cross_product_1__ip_1.py", "objects/CSCG/_3d/forms/standard/_1s/special/helpers/cross_product_2__ip_2.py", "objects/CSCG/_3d/forms/standard/_1s/special/helpers/curl1_cross_product_1__ip_2.py", "objects/CSCG/_3d/forms/standard/_2s/special/helpers/cross_product_2__ip_2.py", "objects/CSCG/_3d/forms/standard/_2s/special/helpers/cross_product_2__ip_2_2M0.py", "objects/CSCG/_3d/forms/standard/_2s/special/helpers/cross_product_2__ip_1.py", "objects/CSCG/_3d/forms/standard/_2s/special/helpers/cross_product_1__ip_2.py", "objects/CSCG/_3d/forms/standard/_2s/special/helpers/inner_curl_cross_2f2f.py", "objects/CSCG/_2d/forms/standard/_0_form/outer/special/main.py", "objects/CSCG/_2d/forms/standard/_2_form/inner/special/main.py"]}
{"id": "C72", "title": "The Newton-Raphson solver linearises the nonlinear system correctly", "statement": "A nonlinear term given as a MultiDimMatrix stands for a multilinear form, one argument for each form of its correspondence. evaluate, reduce_to_vector, eliminate and derivative_contribution_to all compute values of this form, whatever the order of its axes. The residual evaluated by the nonlinear system is the linear blocks applied to the unknowns plus the terms tested with each basis function minus the right hand side; and the matrix assembled in each iteration is the derivative of the assembled residual at the current iterate. So after an exactly solved step the residual is quadratic in the update, and a system without nonlinear terms is solved in one step. A dof fixed with set_no_evaluation or set_fixed_solution has its value in the result, and info == 0 then means that the other equations hold. Every system that the constructor accepts can be solved this way; None and 0 both stand for no right hand side.", "quantifier": "for all systems of three-axis terms, all cochains, all meshes, numberings and directions", "why_tests_cant": "The tests solve one or two systems and look at convergence; a Jacobian with a wrong or missing term often still converges, only slower.", "anchors": ["tools/elementwiseCache/dataStructures/objects/multiDimMatrix/do/main.py:MDM_Do", "tools/elementwiseCache/dataStructures/objects/multiDimMatrix/whether.py", "tools/miLinearAlgebra/nonlinearSystem/main.py:NonLinearSystem", "tools/miLinearAlgebra/nonlinearSystem/do.py:nLS_DO.evaluate_f", "tools/miLinearAlgebra/nonlinearSystem/customize.py", "tools/miLinearAlgebra/nonlinearSystem/solve/NewtonRaphson/regular.py:nLS_Solve_NR_regular"]}
{"id": "C73", "title": "Manufactured solutions satisfy the equations they are named after", "statement": "The fields of an exact solution object belong together: the body force derived from velocity and pressure makes them a solution of the momentum equation (convective form), vorticity is the curl of velocity, divergence of vorticity is zero, curl of vorticity is the negative Laplacian, total pressure gradient is the gradient of total pressure; hand-written derivatives and sources of the solutions shipped with the library are the true ones; velocities declared incompressible and magnetic fields have no divergence.", "quantifier": "For every solution object, every viscosity, Reynolds number or other parameter the constructor accepts, every time and every point of space.", "why_tests_cant": "Tests compare errors of a few discretizations at a few times; a body force inconsistent with the fields shows only as a slightly wrong convergence order, and no finite set of points shows that an identity between functions holds.", "anchors": ["objects/CSCG/_3d/exactSolutions/incompressibleNavierStokes/base.py:fx, ___m_laplace_u___, _tp_x_", "objects/CSCG/_3d/exactSolutions/incompressibleMHD/base.py:fx, rx, Ex", "objects/CSCG/_2d/exactSolutions/incompressibleNavierStokes/dipole_collision.py:omega", "objects/CSCG/_2d/exactSolutions/incompressibleNavierStokes/Taylor_Green_vortex.py:u, v, p"]}
{"id": "C74", "title": "Numerical derivatives converge with second order, and the derivative check accepts exactly what is close", "statement": "The numerical derivative with step h differs from the true one by at most h^2/6 times a bound of the third derivative, is exact for quadratic functions, and tends to the derivative of any differentiable function. check_derivative and check_partial_x/y/t return True exactly when all absolute differences to the numerical derivative, or all relative ones, are below the tolerance; they raise only for empty arrays. So a True answer bounds the distance of the given derivative from the true one, and a true derivative is accepted if the tolerance exceeds the discretization error.", "quantifier": "For every three times differentiable function, every step, tolerance and non-empty list of points.", "why_tests_cant": "A test checks one function at some points; that the check never accepts a wrong derivative and never rejects a right one is a statement about all functions.", "anchors": ["components/numerical/_1dSpace/derivative.py:NumericalDerivative_fx", "components/numerical/_2dSpace/partial_derivative.py:check_partial_x", "components/numerical/_3dSpace/partial_derivative.py:check_partial_z", "components/numerical/timePlus3dSpace/partial_derivative.py:check_total"]}
{"id": "C75", "title": "The calculus on wrapped functions is vector calculus and can be iterated", "statement": "gradient, curl, rot, divergence, time_derivative and convection_by of the wrapped scalar and vector functions evaluate to the expressions of vector calculus in the numerical derivatives; curl of gradient and divergence of curl vanish, div of gradient is the Laplacian; sums, products, dot and cross products obey the vector identities. Every result is again a wrapped function to which all operations apply.", "quantifier": "For every wrapped function in 2D and 3D, smooth or not, and every chain of operations.", "why_tests_cant": "A test evaluates a few operations of a few functions; chains of operations, and the identities between them, range over all functions.", "anchors": ["components/functions/timePlus3dSpace/wrappers/scalar.py:t3dScalar", "components/functions/timePlus3dSpace/wrappers/vector.py:t3dVector", "components/functions/timePlus2dSpace/wrappers/scalar.py:t2dScalar", "components/functions/timePlus2dSpace/wrappers/vector.py:t2dVector", "components/numerical/timePlus3dSpace/partial_derivative_as_functions.py:NumericalPartialDerivative_txyz_Functions"]}
{"id": "C76", "title": "Error norms and energies are norms of the difference, on any number of cores", "statement": "`form.error.L(n)` is the L^n norm, by quadrature, of the difference between a form and its target: not negative, zero exactly if the two agree at all quadrature points, and `compute_Ln_diff_from` between forms is symmetric and obeys the triangle inequality. `error.L('infinity')` is the largest error over all sample points of the mesh, `error.H` the root of the sum of squares. `compute_L2_energy_with(other)` is the integral of the dot product of the two fields. All values are independent of the number of cores and of which core holds an element, and the fast paths for cores whose elements have the same metric give the same values as the element-wise ones.", "quantifier": "for all n, numbers of components, points and elements, all weights, Jacobians, values and cochains, all distributions of elements to cores", "why_tests_cant": "tests use n = 2 and one form at a time; a sum of signed odd powers, a matrix used with its two sides exchanged or a flag that is wrong for one core give plausible numbers", "anchors": ["objects/CSCG/_2d/forms/standard/base/error.py:L", "objects/CSCG/_3d/forms/standard/base/error.py:L,H", "objects/miUsGrid/triangular/forms/standard/base/error.py:L,H", "objects/CSCG/_2d/forms/standard/base/do.py:compute_L2_energy_with,compute_Ln_energy,compute_Ln_norm", "objects/CSCG/_3d/forms/standard/base/do.py:compute_L2_energy_with,compute_Ln_diff_from,compute_Ln_norm", "objects/CSCG/_2d/fields/vector/do/main.py:compute_Ln_norm", "objects/CSCG/_2d/mesh/elements/whether.py:homogeneous_according_to_types_wrt_metric"]}
{"id": "C77", "title": "Caches never change results", "statement": "A value from a memoized method, from `BC.interpret.local`, from `BC.interpret.boundary_cochain`, from the cross-product helpers or from a field evaluated at a time is the one that would be computed afresh from the present objects, whatever objects the program has made, changed, used and dropped before. A mesh can be asked where an element is at any time after it has been made.", "quantifier": "for all programs: all sequences of making, changing, assigning, dropping and using objects, all choices of addresses by the allocator, all functions", "why_tests_cant": "a stale entry needs an object to be freed and another one to be put at the same address, or an object to be changed in place between two uses; tests make each object once", "anchors": ["components/decorators/memoize/memoize_1.py:memoize1", "components/decorators/memoize/memoize_5.py:memoize5", "objects/CSCG/base/forms/base/BC/main.py:boundaries", "objects/CSCG/base/forms/base/BC/interpret/local.py:___Pr_parse_dofs___", "objects/CSCG/base/forms/base/BC/interpret/helpers/boundary_cochain.py", "objects/CSCG/_3d/forms/standard/_2s/special/helpers/cross_product_2__ip_1.py", "objects/CSCG/_3d/forms/standard/_2s/special/helpers/inner_curl_cross_2f2f.py", "objects/CSCG/_3d/fields/scalar/main.py:___DO_evaluate_func_at_time___", "objects/CSCG/_3d/fields/vector/main.py:___DO_evaluate_func_at_time___"]}
{"id": "C78", "title": "Fields are evaluated only at times at which they are valid", "statement": "A field made without `valid_time` can be evaluated at any time. With 'valid_only_at_its_first_instant' the first time it is asked for fixes its time: every later value is at that time, and asking for another time raises and changes nothing. With a number it gives values at that time only. Evaluating without a time gives the value at the current time and raises if there is none.", "quantifier": "for all fields, all sequences of setting the time, evaluating with and without a time and changing the function", "why_tests_cant": "the outcome depends on the whole history of accepted and rejected times; tests set one time", "anchors": ["objects/base/fields/base.py:current_time,valid_time,___PRIVATE_check_ct_in_vt___", "objects/CSCG/_3d/fields/scalar/main.py:___DO_evaluate_func_at_time___", "objects/CSCG/_3d/fields/vector/main.py:___DO_evaluate_func_at_time___", "objects/CSCG/_2d/fields/vector/main.py:___DO_evaluate_func_at_time___"]}
{"id": "C79", "title": "What is read from a file is what was saved", "statement": "A form saved with save() and read with read(), on any number of cores and with any numbering of the elements of the same mesh, has in every element the cochain it had; a list of objects comes back in its order, each with its parameters, objects switched off by read_individuals are skipped and a list of flags of the wrong length is refused; forms saved on one mesh are on one mesh again; the file is found under the name it was saved with; a form without cochain cannot be saved.", "quantifier": "for all region names, layouts, element numberings of the saving and of the reading session, distributions of elements over cores, cochains, lists of objects, sessions and file names", "why_tests_cant": "tests save and read with one number of cores, one numbering and small lists; keys, caches and shared dictionaries go wrong only for other distributions, other lists, or another session", "anchors": ["root/save.py:save", "root/read/main.py:read", "root/read/helpers/_3dCSCG/mesh.py", "root/read/helpers/_3dCSCG/form.py", "root/read/helpers/_3dCSCG/ADF.py", "objects/CSCG/base/forms/standard/cochain/main.py:___PRIVATE_do_gather_to_master_and_make_them_region_wise_local_index_grouped___,___PRIVATE_do_distribute_region_wise_local_index_grouped_cochain_to_local___", "components/miscellaneous/checks/check_filename_mi.py:check_filename_mi"]}
{"id": "C80", "title": "The region map attaches every region side to its boundary or to its neighbour", "statement": "For a domain (2D or 3D) that is accepted: every region side that is listed in a boundary is attached to it, and it is listed exactly once; every other side is attached to exactly one other region, this region is attached back at its opposite side, and the corners of the two sides are the same points (up to the tolerance). Corners at the same place get the same number in all regions. The periodic pairs use each region side at most once and only sides on the boundary. For the rectangle and cuboid domains, whatever the numbers of regions, the domain is accepted, the map is the grid of regions with boundaries Upper/Down/Left/Right (North/South/West/East/Back/Front) at its border, and the generated region names are valid and different.", "quantifier": "all region names and corner points, any number of regions, all lists of boundary sides and periodic pairs, every tolerance relation that is reflexive, all region layouts of rectangles and cuboids with points that are not close to each other", "why_tests_cant": "tests build a few named domains; the map is the result of a comparison of all pairs of sides followed by a check that modifies it while running, and a wrong attachment shows only in the solution", "anchors": ["objects/CSCG/_3d/mesh/domain/base.py: ___PRIVATE_generate_region_map___, ___PRIVATE_check_duplicated_corner___, ___PRIVATE_found_side_corner_global_numbering___", "objects/CSCG/_2d/mesh/domain/regions/main.py", "objects/CSCG/_3d/mesh/domain/inputs/base.py: boundary_region_sides, ___PRIVATE_periodic_boundary_requirement_checker___, ___PRIVATE_region_name_requirement_checker___", "objects/CSCG/_3d/mesh/domain/inputs/cuboid.py", "objects/CSCG/_2d/mesh/domain/inputs/rectangle.py", "objects/CSCG/_3d/mesh/periodicSetting/main.py"]}
{"id": "C81", "title": "Edge unknowns make the hybrid constraints of 0- and 1-forms independent without changing them", "statement": "For a hybrid 0- or 1-form paired with a trace form and an edge form: every edge element that is not on a Dirichlet boundary is represented in one mesh element by exactly the dofs on that corner edge, through the trace dofs of one side, in the same order and with the same sign as in the trace matrix. If the edge unknowns have the values of the form on the edges, every constraint has the same value as without them. For 1-forms exactly these entries of the matrix are moved and nothing else changes. Around an internal edge with any number of elements the constraints were redundant before; afterwards they are independent, and they hold exactly when all elements have the same value, which is that of the edge unknown. Along an edge on the boundary, and at an internal node of a structured mesh (0-forms), the same. The used edge unknowns are numbered 0, 1, 2, ... without gaps, with the same numbers on every core; unused ones get 0.", "quantifier": "all polynomial degrees, all twelve corner edges, all meshes (trace map and edge positions arbitrary), any number of elements around an edge and any non-zero signs, all lists of Dirichlet boundaries, all distributions to cores", "why_tests_cant": "tests solve small hybrid problems and look at the condition number or an error; a wrong index or a missed edge makes a singular or a slightly wrong system only for some meshes and core counts", "anchors": ["objects/CSCG/_3d/forms/standard/_0s/special/main.py: ___PRIVATE_overcoming_hybrid_singularity___", "objects/CSCG/_3d/forms/standard/_1s/special/main.py: hybrid_pairing, ___PRIVATE_overcoming_hybrid_singularity___, ___PRIVATE_1ef_hybrid_GM___", "objects/CSCG/_3d/mesh/edge/elements/do/find/helpers/SOS.py", "objects/CSCG/_3d/spaces/base/local_numbering.py"]}
{"id": "C82", "title": "Edge and node elements list all their positions and boundaries, and the sequence around an edge is complete", "statement": "Every edge element of a mesh lists exactly the corner edges of mesh elements where it is (a node element the corners), in the order of the mesh elements, and the mesh elements that share it, each once. On every core its boundaries are exactly those on a side of one of these positions, each once, whichever cores hold the mesh elements. Every core finds the amounts of edge elements of each direction numbered before each of its own. For an internal edge the sequence of surrounding objects starts at the first mesh element and goes once around the edge through every mesh element and every side between them; for an edge on the boundary it goes from one boundary side to the other through all mesh elements.", "quantifier": "all element maps, any number of mesh elements and cores, any distribution, rings and paths of any length, any order in which sides and pairs are found", "why_tests_cant": "tests look at a few structured meshes where exactly four elements meet at an internal edge; what happens elsewhere or with other distributions is not visible there", "anchors": ["objects/CSCG/_3d/mesh/edge/elements/main.py: ___PRIVATE_generating_edge_locations___, ___PRIVATE_find_type_and_amount_numbered_before___", "objects/CSCG/_3d/mesh/node/elements/main.py: ___PRIVATE_generating_node_elements___", "objects/CSCG/_3d/mesh/edge/elements/element/main.py: positions, shared_by_mesh_elements, on_mesh_boundaries", "objects/CSCG/_3d/mesh/edge/elements/do/find/helpers/internal_surrounding.py", "objects/CSCG/_3d/mesh/edge/elements/do/find/helpers/boundary_surrounding.py"]}
{"id": "C83", "title": "Trace and edge forms give each degree of freedom one number, and a number leads back to its places", "statement": "In a hybrid trace form two places of two mesh elements have the same global number exactly when they are the same place of the same trace element (in an edge form: of the same edge element), the numbers are 0 to n - 1, and each core counts exactly its own. In a non-hybrid trace form two places have the same number exactly when the form it is the trace of has the same dof there, so the trace elements of a mesh element share numbers along edges, and the numbers are again 0 to n - 1 without a hole. The positions of a global number on a core are exactly the places in the local vectors of the core where it is; the trace-element position names the trace element, the component and the indices of the dof there.", "quantifier": "all polynomial degrees, all meshes and distributions over any number of cores, all three kinds of trace forms, every global number", "why_tests_cant": "a mistake in the numbering of an edge or of one side merges or splits unknowns only on meshes with particular neighbours and degrees; a test of one mesh with equal degrees in all directions does not see exchanged axes or sides", "anchors": ["objects/CSCG/_3d/forms/trace/base/numbering/Naive.py", "objects/CSCG/_3d/forms/edge/base/numbering/Naive.py", "objects/CSCG/_3d/forms/localTrace/base/numbering/Naive.py", "objects/CSCG/_2d/forms/trace/base/numbering/Naive.py", "objects/CSCG/_3d/spaces/base/local_gathering.py", "objects/CSCG/_3d/spaces/base/internal_local_dofs.py", "objects/CSCG/_3d/forms/trace/base/dofs/dof/main.py: positions, trace_element_position", "objects/CSCG/_3d/mesh/trace/elements/main.py: ___PRIVATE_find_type_and_amount_numbered_before___"]}
{"id": "C84", "title": "Discretizing a field on trace elements gives the trace of the discretized form", "statement": "Discretizing a function or vector field directly as a 0-, 1- or 2-form on a trace element gives, place by place, the values that the discretized 0-, 1- or 2-form of the mesh element has on that side; so the trace matrix applied to the discretized form gives the values on the six trace elements, with a minus sign on N, W and B, and it does not matter from which of its two elements a trace element is looked at. The normal component and the component along the surface add up to the field; discretizing the latter as a 1-form, or the former as a 2-form, gives the same as the field itself. A field given boundary by boundary has values exactly on the trace elements of these boundaries, those of the field it agrees with there.", "quantifier": "all polynomial degrees, nodes and quadrature rules, all mappings of the element (curved too), all six sides, all fields, all choices of boundaries", "why_tests_cant": "exchanged axes, tile instead of repeat, or a wrong sign of the normal on one pair of sides cancel on cubes with equal degrees in all directions, which is what tests use; agreement of two programs for all mappings cannot be sampled", "anchors": ["objects/CSCG/_3d/forms/trace/_0tr/discretize/scalar/standard.py", "objects/CSCG/_3d/forms/trace/_0tr/discretize/vector/standard/flux.py", "objects/CSCG/_3d/forms/trace/_1tr/discretize/vector/standard/T_para.py", "objects/CSCG/_3d/forms/trace/_1tr/discretize/vector/trace_element_wise.py", "objects/CSCG/_3d/forms/trace/_2tr/discretize/vector/standard.py", "objects/CSCG/_3d/forms/trace/_2tr/discretize/vector/boundary_wise.py", "objects/CSCG/_3d/mesh/trace/elements/element/coordinate_transformation/main.py:unit_normal_vector", "objects/CSCG/_3d/fields/vector/components/helpers/T_para.py"]}
{"id": "C85", "title": "Reconstructing a trace form gives the trace of the reconstructed form", "statement": "If the values of a 0-, 1- or 2-trace form on a trace element are those that a form of the mesh element has on that side, then reconstructing the trace form at a point of the side gives the value of the reconstructed form there: the value for 0-forms, the component along the surface for 1-forms, the component along the unit normal vector for 2-forms; and the reconstruction does not depend on which of the two elements at the trace element is taken as the characteristic one. The same holds for local trace forms.", "quantifier": "all polynomial degrees and nodes, all reconstruction grids, all cochains, all regular mappings (curved and skewed too), all six sides, both elements at a side", "why_tests_cant": "on cubes and on all orthogonal meshes the normal part vanishes and opposite sides have the same metric, so tests on such meshes pass whichever row of the inverse Jacobian or whichever face the metric is taken from", "anchors": ["objects/CSCG/_3d/forms/trace/_0tr/main.py:reconstruct", "objects/CSCG/_3d/forms/trace/_1tr/main.py:reconstruct", "objects/CSCG/_3d/forms/trace/_2tr/main.py:reconstruct", "objects/CSCG/_3d/forms/localTrace/_2ltf/reconstruct.py", "objects/CSCG/_3d/forms/localTrace/_0ltf/reconstruct.py", "objects/CSCG/_3d/spaces/base/do.py:evaluate_trace_basis_at_meshgrid", "objects/CSCG/_3d/mesh/trace/elements/element/coordinate_transformation/main.py"]}
{"id": "C86", "title": "Mass matrices on trace elements are the inner products over the surface", "statement": "The mass matrix of a 0-, 1- or 2-trace form on a trace element, applied to two sets of values, gives the quadrature over the surface of the product of the two reconstructed trace forms; so it is symmetric and, with enough quadrature points, positive definite; it does not depend on which of the two elements at the trace element is looked at. The matrix of a local trace form on a side of an element is the same matrix, by the direct and by the reference computation, and the matrix of an element is the block matrix of its six sides.", "quantifier": "all polynomial degrees, nodes and quadrature rules, all regular mappings, all six sides, all values", "why_tests_cant": "a wrong weight order, wrong entry of the inverse metric on W and E, or a metric taken at the wrong face give the right matrix on cubes; positive definiteness for all degrees and mappings cannot be sampled", "anchors": ["objects/CSCG/_3d/forms/trace/_0tr/main.py:___PRIVATE_generate_TEW_mass_matrices___", "objects/CSCG/_3d/forms/trace/_1tr/main.py:___PRIVATE_generate_TEW_mass_matrices___", "objects/CSCG/_3d/forms/trace/_2tr/main.py:___PRIVATE_generate_TEW_mass_matrices___", "objects/CSCG/_3d/forms/localTrace/_0ltf/main.py", "objects/CSCG/_3d/forms/localTrace/_2ltf/main.py", "objects/CSCG/_3d/ADF/trace/base/main.py"]}
{"id": "C87", "title": "Marks of trace elements decide when mass matrices are shared and what the constant Jacobian is", "statement": "Trace elements with the same metric mark are perpendicular to the same axis and have the same shape, so a matrix computed for one can be used for all of them; elements of deformed regions are never mixed with others; the constant Jacobian of a trace element, where it has one, is its area element (3D) or half the length of its edge (2D).", "quantifier": "all element spacings, all sides, all region types and region lengths, all polynomial degrees and quadrature rules, all orders of the trace elements", "why_tests_cant": "marks are strings built from rounded numbers and are read back from the string; a collision shows only on meshes with several regions or nearly equal sizes, and then only as a slightly wrong matrix", "anchors": ["objects/CSCG/_3d/mesh/trace/elements/element/main.py:type_wrt_metric", "objects/CSCG/_3d/mesh/trace/elements/element/types_wrt_metric/orthogonal.py", "objects/CSCG/_3d/mesh/domain/regions/region/types_wrt_metric/orthogonal.py:___CLASSIFY_TRACE_ELEMENT_of_spacing___", "objects/CSCG/_3d/mesh/trace/elements/element/coordinate_transformation/constant.py:Jacobian", "objects/CSCG/_2d/mesh/trace/elements/element/coordinate_transformation/constant.py", "objects/CSCG/_3d/forms/trace/_0tr/main.py", "objects/CSCG/_3d/forms/trace/_1tr/main.py", "objects/CSCG/_3d/forms/trace/_2tr/main.py"]}
{"id": "C88", "title": "The error of a trace form is the greatest difference from its function", "statement": "Asking a trace form for its maximum error gives the greatest absolute difference between the reconstructed form and its function over all components, all points of the given grid and all trace elements of all processes; the result is the same number on every process.", "quantifier": "all degrees of trace forms, all values and functions, all grids, all distributions of the trace elements over processes, including processes without trace elements", "why_tests_cant": "a component left out, or a process without trace elements that spoils the maximum, shows only for particular data and particular numbers of processes", "anchors": ["objects/CSCG/_3d/forms/trace/base/error.py:L"]}
{"id": "C89", "title": "Boundary integrals of forms against given functions are the surface integrals", "statement": "Integrating a form over boundaries against functions given boundary by boundary produces, for every element, a vector; its product with the values of a form is the quadrature over the element's sides on those boundaries of the product of form and function at the points of these sides; elements without such sides give zero.", "quantifier": "all polynomial degrees and quadrature rules, all box elements and constant Jacobians, all sets of boundary names and functions, all values of the form", "why_tests_cant": "functions that are constant on a boundary, equal degrees and unit Jacobians give the right integral also with wrong points, exchanged weights or doubled Jacobians", "anchors": ["objects/CSCG/_3d/forms/standard/_1s/boundary_integration/main.py", "objects/CSCG/_3d/forms/standard/_1s/boundary_integration/helpers/V_helper.py", "objects/CSCG/_2d/forms/standard/_0_form/outer/boundary_integrate/main.py", "objects/CSCG/_2d/forms/standard/_0_form/outer/boundary_integrate/helpers/ipS_helper.py", "objects/CSCG/base/forms/base/BC/interpret/helpers/boundary_integration.py"]}
{"id": "C90", "title": "A boundary's constant outward normal is the outward normal of all its faces", "statement": "If a mesh boundary reports a constant outward unit normal vector, this vector is the outward unit normal at every point of every face of the boundary, however the faces are distributed over processes; a boundary of faces with different outward normals reports none. The tangential parts of a vector given on the boundary are those that the vector field has on the trace elements there.", "quantifier": "all meshes of box and other elements, all sides, all distributions of the faces over processes including idle ones, all vectors", "why_tests_cant": "the answer is put together from per-process answers; a wrong sign or a skipped process shows only for particular boundaries and process counts", "anchors": ["objects/CSCG/_3d/mesh/boundaries/boundary/coordinate_transformation/constant.py:outward_unit_normal_vector", "objects/CSCG/_3d/mesh/trace/elements/element/coordinate_transformation/constant.py:unit_normal_vector", "components/functions/_3dSpace/angle.py:angle_between_two_vectors", "objects/CSCG/_3d/fields/vector/components/helpers/T_para_BoundaryWise.py", "objects/CSCG/_3d/fields/vector/components/helpers/T_perp_BoundaryWise.py"]}
{"id": "C91", "title": "The equations of a hybrid pairing hold exactly for glued forms that satisfy both boundary conditions", "statement": "When a hybrid form is paired with its dual trace form and every boundary of the mesh is given to exactly one of them, the returned matrices and right-hand side, assembled over all elements, are satisfied by values of the form and of the dual trace form exactly when the form has the same values on both sides of every inner side, its prescribed values on its own boundaries, and the dual form has the values of the prescribed cochain multiplied by the mass matrix on its boundaries. Nothing is returned if a boundary is given to both or to none.", "quantifier": "all meshes with any connections of facing sides (periodic ones too), all polynomial degrees, all divisions of the boundaries, all prescribed functions, all values of form and dual form", "why_tests_cant": "a row set for the wrong side or in the wrong order still gives a solvable system; tests use one mesh and smooth fields for which many wrong rows give nearly the same values", "anchors": ["objects/CSCG/_3d/forms/standard/_2s/special/main.py:hybrid_pairing", "objects/CSCG/_3d/forms/standard/_1s/special/main.py:hybrid_pairing", "objects/CSCG/_3d/forms/standard/_0s/special/main.py:hybrid_pairing", "tools/elementwiseCache/dataStructures/objects/sparseMatrix/adjust.py", "tools/elementwiseCache/dataStructures/objects/columnVector/adjust.py:set_entries_according_to", "objects/CSCG/base/forms/base/BC/interpret/local.py", "objects/CSCG/base/ADF/base/BC/interpret/local.py"]}
{"id": "C92", "title": "Assembling a block system is the same as putting together the assembled blocks", "statement": "If element-wise matrices are put together with bmat and element-wise vectors with concatenate, the assembled matrix consists of the assembled blocks (zero where a block is None) and the assembled vector of the assembled vectors, in the order given and with the sizes of the variables of the rows and columns. A vector solves the assembled system exactly when its parts satisfy, row by row, the equations with the assembled blocks. The part A.blocks[i0:i1, j0:j1] (b.blocks[i0:i1]) assembles to the corresponding part of the assembled matrix (vector).", "quantifier": "all numbers of blocks, all patterns of None blocks, all gathering matrices (also chains of several variables), all meshes and numbers of cores, all local matrices and vectors", "why_tests_cant": "a wrong shift of one variable is only seen for particular numbers of dofs of the others; tests use one or two systems with fixed shapes and compare the final solution only", "anchors": ["tools/elementwiseCache/dataStructures/operators/bmat/main.py:bmat", "tools/elementwiseCache/dataStructures/operators/bmat/sparse_matrix/main.py", "tools/elementwiseCache/dataStructures/operators/bmat/sparse_matrix/helpers/DG.py", "tools/elementwiseCache/dataStructures/operators/concatenate/main.py:concatenate", "tools/elementwiseCache/dataStructures/objects/sparseMatrix/blocks/main.py:EWC_SpaMat_Blocks", "tools/elementwiseCache/dataStructures/objects/columnVector/blocks/main.py:EWC_ColVec_Blocks", "tools/elementwiseCache/gathering/regular/chain_matrix/main.py:Chain_Gathering_Matrix"]}
{"id": "C93", "title": "Topological connections glue a hybrid form, selective matrices select, side dofs are the dofs of the side", "statement": "For a hybrid 0- or 2-form, a non-hybrid local trace form and a non-hybrid trace form of the same degree on the same mesh and space, `space.topological_connection(...)` gives, in whatever order the forms are passed, two matrices T_ltf_sf and T_ltf_tf such that values x of the hybrid form in all elements satisfy `T_ltf_sf x = T_ltf_tf t` for some trace form t exactly if x takes, on all sides of all elements, the values of one continuous (non-hybrid) form of that degree; row by row the condition is the equality of one dof of the form and one dof of the trace, and the rows of T_ltf_sf are independent. Any other arguments are refused. `matrices.selective` of a trace form lists the dofs of the form on the sides, unsigned, in the order of the gathering; that of an edge form lists, edge by edge and with growing numbers, exactly the dofs the form has on both sides that meet in the edge. The dofs of a local trace form on a side of an element are the part of its numbering that belongs to that side, however often and in whatever order one asks.", "quantifier": "all polynomial degrees, all meshes on which the form is numbered (any number of elements and cores), all values in any ring; all orders and numbers of queries of side dofs", "why_tests_cant": "A test glues one small mesh for one degree; that the constraint is equivalent to continuity is a statement about all values on all meshes, and the query cache goes wrong only for particular orders of calls.", "anchors": ["objects/CSCG/_3d/spaces/base/topological_connection/main.py:_3dCSCG_SpaceTopologicalConnections", "objects/CSCG/_3d/spaces/base/selective_matrix.py:SelectiveMatrix", "objects/CSCG/_3d/forms/trace/base/matrices.py", "objects/CSCG/_3d/forms/edge/base/matrices.py", "objects/CSCG/_3d/forms/localTrace/base/numbering/do/find.py", "objects/CSCG/_3d/spaces/base/local_gathering.py"]}
{"id": "C94", "title": "Dual forms: setting and reading cochains are inverse, the dual coboundary is integration by parts", "statement": "The dual cochain of a form is its mass matrix applied to the cochain of the prime form. After `dual.cochain.local = v` reading `dual.cochain.local[i]` gives back v in every element, and the cochain of the prime form is the only one with these dual values; setting what was read changes nothing. Setting works exactly if there are as many vectors as elements and each element has one. For dual trace forms set from one global vector the prime form has the same values on a shared side in both elements. `dual.coboundary(dual_trace)` works exactly for dual 1-, 2- and 3-forms with a dual trace form of one degree less on the same mesh and space. Its result u pairs with every cochain v like \u00b1(\u27e8f, dv\u27e9 \u2212 \u27e8t, trace v\u27e9) with the derivative d of the prime forms: if f and t are the integrals (moments) of a smooth function or field and of its trace against the basis functions, u holds exactly the moments of its gradient, curl or divergence. Applied twice, nothing of the first form is left: the result depends on the two dual traces only.", "quantifier": "all polynomial degrees and nodes, all quadratures exact enough, all positively oriented elements (mass matrices), all cochains, all continuously differentiable functions and fields on the reference element", "why_tests_cant": "A test compares errors for one smooth field under refinement; a wrong sign of a trace block or a wrong transpose may vanish for fields with zero trace, and the exact identity for all fields and degrees is an integration by parts.", "anchors": ["objects/CSCG/_3d/ADF/standard/base/coboundary.py", "objects/CSCG/_3d/ADF/standard/base/cochain/main.py", "objects/CSCG/_3d/ADF/standard/base/cochain/local.py", "objects/CSCG/_3d/ADF/trace/base/cochain/main.py", "objects/CSCG/_3d/ADF/trace/base/coboundary.py", "objects/CSCG/base/ADF/base/main.py"]}
{"id": "C95", "title": "Projection of 1-forms to 2-forms and to components; Q and lambda_2 of the velocity gradient", "statement": "`f1.project.to.standard_2form()` gives the L2 projection: the inner product of the new 2-form with every 2-form v of the same space equals the integral of v against the values of the 1-form. On affine elements it is exact: the 2-form, whose degrees are one higher, has at every point the values of the 1-form. `project.to.vector_of_3_standard_0forms()` of a 1- or 2-form gives three 0-forms with the values of the three components at the nodes, and at every point of affine elements; the tensor computed from them is the gradient of the velocity. `special.vortex_detection.Q_and_lambda2` gives Q = (|Omega|^2 - |S|^2)/2 and the second eigenvalue of S^2 + Omega^2 of the symmetric and antisymmetric part of the gradient, so that Q > 0 and lambda_2 < 0 in vortices. (The last part is false: the code squares S and Omega entry by entry, Q then is minus half the sum of the squares of the diagonal of the gradient and never positive; and the calls always raise.)", "quantifier": "all degrees and nodes, all cochains, all Jacobian matrices with positive determinant (projection) or constant ones (exactness), all gradients", "why_tests_cant": "A test projects one smooth field on one mesh and sees a small error; that the projection is exact for every 1-form on affine elements needs exactness of every quadrature involved. Criteria for vortices are looked at in pictures; that Q is never positive is a statement on all gradients.", "anchors": ["objects/CSCG/_3d/forms/standard/_1s/project/to.py", "objects/CSCG/_3d/forms/standard/_2s/project/to.py", "objects/CSCG/_3d/forms/standard/_1s/special/vortex_detection.py", "objects/CSCG/_3d/forms/standard/_2s/special/vortex_detection.py"]}
{"id": "C96", "title": "VTK files of triangular meshes", "statement": "`export.vtk.triangle_and_quad(p)` and `quadratic_triangle()` of fields and forms on triangular meshes write a conforming grid: points of different elements have the same number exactly if they are the same point of the mesh, the numbers are 0, ..., N - 1, every element has p triangles at its singular vertex and p(p - 1) quadrilaterals, connections, offsets and types fit together, the corners of every cell are in counterclockwise order, the cells fill the triangle, and (for scalar fields) the file holds at every point its place and the value of the field there, in whatever order the elements come from the cores. (For vector fields, 1-forms and 2-forms the last part is false: the code evaluates at -0.99 instead of -1 next to the singular vertex, so points are displaced and the place of a shared point depends on the order of the elements.)", "quantifier": "all triangulations, all degrees p, all orders of the elements, all scalar fields", "why_tests_cant": "A test exports one mesh and at most compares numbers of points; the displaced vertices cannot be seen in a picture, and the order of the elements depends on the number of cores.", "anchors": ["objects/miUsGrid/triangular/mesh/miscellaneous/main.py", "objects/miUsGrid/triangular/fields/scalar/export/vtk/main.py", "objects/miUsGrid/triangular/fields/vector/export/vtk/main.py", "objects/miUsGrid/triangular/forms/standard/_0/base/export/vtk/main.py", "objects/miUsGrid/triangular/forms/standard/_1/outer/export/vtk/main.py", "objects/miUsGrid/triangular/forms/standard/_1/inner/export/vtk/main.py", "objects/miUsGrid/triangular/forms/standard/_2/base/export/vtk/main.py"]}
{"id": "C97", "title": "Reconstruction on triangular meshes", "statement": "On triangular meshes, reconstruct interpolates: a 0-form has its dofs as values at the nodes, polynomials of degree at most p are reproduced, the value at the singular vertex is one number. Reconstructed 0-forms are continuous, inner 1-forms have continuous tangential and outer 1-forms continuous normal components across shared edges, whatever the two numberings of the edge; in an exported file a shared point has the value of all its elements. Reconstruction commutes with the coboundary: the reconstruction of the discrete gradient, curl, divergence or rot is the gradient, curl, divergence or rot (in physical coordinates) of the reconstruction. The integral of a reconstructed 2-form over a cell is the dof. Reconstruction matrices give the same values as reconstruct. (Constant densities are not reproduced for p = 1.)", "quantifier": "all triangulations, degrees p, accepted symmetric nodes, cochains, transition matrices, grids and points away from the singular vertex", "why_tests_cant": "Tests reconstruct few fields and compare errors with a tolerance; continuity holds only for the right combination of transition signs and numberings at all edges, and commuting with derivatives is a statement about all points.", "anchors": ["objects/miUsGrid/triangular/space/evaluation.py", "objects/miUsGrid/triangular/forms/standard/base/do.py", "objects/miUsGrid/triangular/forms/standard/base/cochain/main.py", "objects/miUsGrid/triangular/forms/standard/_0/base/reconstruct/main.py", "objects/miUsGrid/triangular/forms/standard/_1/inner/reconstruct/main.py", "objects/miUsGrid/triangular/forms/standard/_1/outer/reconstruct/main.py", "objects/miUsGrid/triangular/forms/standard/_2/base/reconstruct/main.py"]}
{"id": "C98", "title": "Mass matrices on triangular meshes", "statement": "On triangular meshes the local mass matrices of 0-forms and of inner and outer 1-forms give exactly the L2 product of the reconstructed fields: a.M.b is the integral over the physical triangle of the product of the fields reconstructed from a and b (the quadrature of degree p + 1 is exact, in spite of the singular vertex). All mass matrices, also of 2-forms, are symmetric, positive definite and do not change if the triangle is moved. Read through the cache, every element gets the matrix of its own vertices and transition edges, whatever was read before. (2-forms: exact if one of the densities vanishes on the singular side; otherwise the product does not exist. Caches: false for elements that differ by less than the four printed decimals; values from intermediate data of the coordinate transformation raise TypeError when elements are alike.)", "quantifier": "all degrees p, accepted symmetric nodes, triangles of positive orientation, transition signs, pairs of cochains; all meshes whose elements are translates or differ by more than 0.0001 in some offset, all histories of reads", "why_tests_cant": "Tests compare matrices with sums over few elements to a tolerance; exactness of a quadrature of a rational integrand, definiteness and the absence of collisions of keys are statements about all triangles, degrees and reads.", "anchors": ["objects/miUsGrid/triangular/forms/standard/_0/base/matrices/helpers/inner.py", "objects/miUsGrid/triangular/forms/standard/_1/inner/matrices/helpers/inner.py", "objects/miUsGrid/triangular/forms/standard/_1/outer/matrices/helpers/inner.py", "objects/miUsGrid/triangular/forms/standard/_2/base/matrices/helpers/inner.py", "objects/miUsGrid/triangular/mesh/elements/main.py", "objects/miUsGrid/triangular/mesh/elements/element/main.py: shape_indicator", "objects/miUsGrid/triangular/forms/standard/base/main.py", "objects/miUsGrid/triangular/mesh/elements/coordinate_transformation/helpers/cache.py"]}
{"id": "C99", "title": "Energies, errors and products of forms on triangular meshes", "statement": "On triangular meshes: compute_Ln_energy of a 0- or 1-form is the integral of the n-th powers of its components over the triangles (if n p is at most twice the quadrature degree, so for n = 2 with default settings), and compute_Ln_norm for even n is zero exactly for the zero form. operators.inner and compute_L2_energy_with give the integral of the product of two 0-forms or of two 1-forms of the same orientation, whose degree may differ, the same from both sides, and for a form with itself its mass matrix and energy. cross_inner (the product of a 0-form w with two 1-forms u, e) gives the integral of (w x u).e in both forms of the matrix, and exactly 0 for e = u. The norm of the coboundary of a 0-form is the norm of its gradient; L and H errors are zero exactly if the values agree at the quadrature points, so for polynomials of degree at most p. Nothing depends on the distribution of the elements over the cores. (False: products of an inner with an outer 1-form; cached products of a 0-form with 1-forms of different orientation; odd n, where the norm can be nan.)", "quantifier": "all degrees p, accepted symmetric nodes, triangles of positive orientation, transition signs, cochains, even exponents, distributions over cores, histories of reads", "why_tests_cant": "Tests compare energies of few smooth functions with a tolerance; exactness of the quadratures, definiteness and skew symmetry are statements about all triangles, degrees and cochains, and wrong cached tensors appear only in meshes with particular orders of the elements.", "anchors": ["objects/miUsGrid/triangular/forms/standard/base/do.py: compute_Ln_energy, compute_Ln_norm, compute_L2_energy_with, compute_Ln_norm_of_coboundary", "objects/miUsGrid/triangular/forms/standard/base/error.py: L, H", "objects/miUsGrid/triangular/forms/standard/_0/base/operators/helpers/inner.py", "objects/miUsGrid/triangular/forms/standard/_1/inner/operators/helpers/inner.py", "objects/miUsGrid/triangular/forms/standard/_1/outer/operators/helpers/inner.py", "objects/miUsGrid/triangular/forms/standard/_2/base/operators/helpers/inner.py", "objects/miUsGrid/triangular/forms/standard/_0/base/do/helpers/_0x1_ip_1.py"]}
{"id": "C100", "title": "Operations on fields", "statement": "Fields may be added, subtracted, negated, multiplied with numbers and scalar fields, combined by cross and inner products and differentiated (time_derivative, gradient, curl, rot, divergence). Whatever expression is built this way, the value of the resulting field at any time and point is the value of the expression, by the definitions of vector calculus (with the numerical partial derivatives as derivatives); it is known which expressions are accepted, and the result may be evaluated at the times at which all operands may. The numerical curl of a gradient and, in 2D, the divergence of a curl vanish exactly. A vector field tested with the basis functions of a 1- or 2-form (inner_product_with_space_of) gives a vector whose pairing with every cochain is the quadrature of the field times the reconstructed form; for a field that is such a form it is the mass matrix times the cochain.", "quantifier": "all expressions of any depth, all fields, times and points, all differentiation operators (identities: all step sizes), all mesh elements with nonzero Jacobian, nodes, weights and cochains", "why_tests_cant": "Tests evaluate a handful of sums and products of sample functions; the claims concern arbitrarily nested expressions, all functions and all elements.", "anchors": ["objects/CSCG/_3d/fields/scalar/main.py: _3dCSCG_ScalarField.__add__, __sub__, __neg__, __mul__, __rmul__", "objects/CSCG/_3d/fields/vector/main.py: _3dCSCG_VectorField", "objects/CSCG/_3d/fields/tensor/main.py: _3dCSCG_TensorField", "objects/CSCG/_3d/fields/vector/numerical/main.py", "objects/CSCG/_3d/fields/vector/do/cross_product/main.py", "objects/CSCG/_3d/fields/vector/do/inner_product/main.py", "objects/CSCG/_3d/fields/vector/helpers/inner_product_with_1form.py: _VF_InnerWith1Form", "objects/CSCG/_3d/fields/vector/helpers/inner_product_with_2form.py: _VF_InnerWith2Form", "objects/CSCG/_2d/fields/scalar/main.py", "objects/CSCG/_2d/fields/vector/main.py", "objects/miUsGrid/triangular/fields/vector/do/inner_product.py"]}
{"id": "C101", "title": "Vectors made of forms, forms filled from vectors, and direct solving", "statement": "LocallyFullVector(forms) holds the coefficients of the forms one after the other, zeros for a form without cochain. x.do.distributed_to(*forms) gives every form its coefficients back, on all cores; the two are inverse to each other. A vector that is too short is refused; one None in the list of forms skips the dofs that are left; two are refused. With a chain as method every form receives the entries at the numbers the chain gives its dofs. A linear system whose matrix and vector have equal gathering matrices numbers dofs in the same way. The direct solver returns a vector that satisfies the assembled system, whatever is done with the old data, and so do the forms it is distributed to.", "quantifier": "all lists of forms (any numbering without gaps, any distribution to cores), all coefficients, all vectors, all assembled systems and all solvers of the gathered system", "why_tests_cant": "Tests solve a few systems on one or four cores and look at errors of the result; the claims concern all numberings, distributions and vectors, and every position of an entry.", "anchors": ["tools/miLinearAlgebra/dataStructures/vectors/locallyFull/main.py: LocallyFullVector", "tools/miLinearAlgebra/dataStructures/vectors/locallyFull/do.py: LocallyFullVectorDo.distributed_to", "tools/miLinearAlgebra/dataStructures/vectors/GLOBAL/do.py: gather_V_to_core", "tools/miLinearAlgebra/solvers/regular/direct/main.py", "tools/miLinearAlgebra/solvers/regular/direct/helpers/scipy_sparse_linalg_v0.py: ___scipy_sparse_linalg_v0___", "tools/miLinearAlgebra/linearSystem/main.py: LinearSystem", "tools/miLinearAlgebra/linearSystem/solve/helpers/routine_2b_run.py: RoutineToBeRun", "objects/CSCG/base/forms/standard/cochain/main.py: globe, local (setters)"]}
{"id": "C102", "title": "Calling the linear solvers, and preconditioners", "statement": "solve(name, routine=...) followed by a call with x0, tolerances, maxiter, preconditioner and COD returns a result exactly for the documented combinations: known names and routines; positive tolerances, maxiter at least 1 (an int, or a str of an int for the library's own routines), restart and m at least 3; an x0 that is 0 or a vector of the right size (a form or forms for LGMRES); no preconditioner, 'Jacobi' with the library's own routines or 'spiLU' with those of scipy. The result depends on x0 only through the vector it stands for. Jacobi divides every row of the assembled system by its diagonal entry, however the matrix is distributed, so the solutions are the same. If the iterations report success only for residuals that pass their test, success of the solver means that the assembled system passes it (with Jacobi: after division by the diagonal). With COD=False system and guess stay as they were; otherwise the system cannot be solved again.", "quantifier": "all solvers, routines and arguments, all square systems and all distributions to cores, all initial guesses, all iterations", "why_tests_cant": "Tests call a few combinations on one system that can be solved; the claims concern all combinations of arguments, all systems, and what later calls see.", "anchors": ["tools/miLinearAlgebra/linearSystem/solve/main.py", "tools/miLinearAlgebra/solvers/regular/allocator.py: RegularSolverDistributor", "tools/miLinearAlgebra/solvers/regular/GMRES/main.py", "tools/miLinearAlgebra/solvers/regular/LGMRES/main.py", "tools/miLinearAlgebra/solvers/regular/BiCGSTAB/main.py", "tools/miLinearAlgebra/solvers/regular/TFQMR/main.py", "tools/miLinearAlgebra/solvers/regular/GCROTmk/main.py", "tools/miLinearAlgebra/solvers/regular/direct/main.py", "tools/miLinearAlgebra/solvers/regular/GMRES/helpers/mpi_v0.py", "tools/miLinearAlgebra/solvers/regular/GMRES/helpers/scipy_sparse_linalg_gmres.py", "tools/miLinearAlgebra/preconditioners/allocator.py", "tools/miLinearAlgebra/preconditioners/Jacobi.py: JacobiPreconditioner", "tools/miLinearAlgebra/preconditioners/spiLU.py: spiLU"]}
{"id": "C103", "title": "The monitor of an iterator: the file on the disk, counts, estimates and reports", "statement": "Whatever the settings of the monitor are, however long the steps take and whichever attempts to write fail: the record file is at any time what it was before the run or the record of the run up to some computed step, so a new iterator that starts from it after a crash ends with the record of a run without interruption. With automatic saving, the file is at most the save time old. monitor_factor f gives reports and saves every 600/f seconds but at least a minute apart; 0 gives no reports. The monitor counts every step; the times of the steps add up to the time of the run; the estimate of the remaining time is the mean of the long steps times the number of steps left, and 0 at the end. No report is later than the report time after the last one, and there is a last report if there were others. Reports select rows in order, without repetition, with the first and the last ones.", "quantifier": "all settings of the monitor, all sequences of steps with any durations, skipped steps and failing writes, all solvers", "why_tests_cant": "Crashes, full disks and runs of hours do not occur in tests; the claims concern all sequences of durations and failures, and every moment at which a run may break off.", "anchors": ["tools/iterators/base/monitor/main.py: IteratorMonitor", "tools/iterators/base/monitor/do.py: IteratorMonitorDo", "tools/iterators/base/monitor/whether.py", "tools/iterators/base/main.py: Iterator.run"]}
{"id": "C104", "title": "Sums, differences and multiples of forms; dofs on boundaries; dofs at the same place", "statement": "An expression made of forms with +, - (3D) and multiplication by numbers gives a form whose coefficients are, one by one, the same expression of the coefficients, so that reconstruction, derivatives and integrals of the result are the same expression of theirs, and values shared by elements stay shared. It is refused if the forms are of different classes, meshes or spaces, or if coefficients are missing. The result is of the kind of the leftmost form. The dofs on a boundary (3D) are exactly the numbers of the local dofs on the element sides lying on it, each once, however the elements are distributed. The dofs of a hybrid form at the same place are grouped exactly by the number which the form without hybridization has there; asking for them does not change the form; forms can be saved and read.", "quantifier": "all expressions, all coefficients, all meshes and numberings given by maps and gathering matrices, all distributions to cores", "why_tests_cant": "Tests add two particular forms and compare one norm; expressions, numberings and distributions are unbounded, and the effects on saved files only show later.", "anchors": ["objects/CSCG/_3d/forms/base.py: _3dCSCG_FORM_BASE.__add__, __sub__, __rmul__", "objects/CSCG/_2d/forms/base.py: __add__, __rmul__", "objects/CSCG/_3d/forms/standard/base/numbering/main.py: boundary_dofs, global_boundary_dofs, global_boundary_dofs_ravel, sharing_physical_locations", "objects/CSCG/_3d/mesh/boundaries/main.py: ___PRIVATE_parse_boundaries___"]}
{"id": "C105", "title": "Angles and quality of triangular cells", "statement": "For a cell of a triangular mesh with three distinct vertices `element.angles` are the angles in degrees at the vertices 0, 1, 2: between 0 and 180, with sum 180. `element.quality` is between 0 and 1; it is 1 exactly for equilateral cells and 0 exactly for cells whose vertices are on a line. Both depend on the shape alone: moving, turning, reflecting or scaling a cell does not change them. With two coinciding vertices there are no angles.", "quantifier": "all triangles in the plane, all similar copies of them", "why_tests_cant": "A test looks at a few triangles; that the quality is 1 or 0 for no other triangle is a statement about all of them.", "anchors": ["objects/miUsGrid/triangular/mesh/elements/element/main.py: angles, quality", "components/functions/_2dSpace/angles_of_triangle.py: angles_of_triangle"]}
{"id": "C106", "title": "Planar domains with a circular hole are the domains drawn in their documentation", "statement": "For the channel with a cylinder (`cic`) and the two plates with a hole (`chp1`, `chp2`): with the parameters r, h, li, lo, hx, hy the boundary `Internal` is exactly the circle with radius r and centre (0, 0); the boundaries Upper, Down, Left, Right are exactly the sides of the channel or plate; the hole is inside; the regions are joined as drawn, every edge being attached to one neighbouring region or to one boundary; parameters that describe no such domain are refused.", "quantifier": "all parameters (real numbers)", "why_tests_cant": "The tests use the default parameters; the first plate is right only for these.", "anchors": ["objects/CSCG/_2d/mesh/domain/inputs/cic.py: CylinderInChannel", "objects/CSCG/_2d/mesh/domain/inputs/chp1.py: CircleHolePlate1", "objects/CSCG/_2d/mesh/domain/inputs/chp2.py: CircleHolePlate2", "objects/CSCG/_2d/mesh/domain/regions/main.py"]}
{"id": "C107", "title": "Functions given in pieces take the value of the right piece at every point", "statement": "A call of `genpiecewise` with conditions and one function or number for each condition, perhaps with one more, gives an array of the shape of the conditions; at every point its entry is the value, at this point, of the piece of the last condition that is true there; where no condition is true it is the value of the additional piece, or else the fill value; with another number of pieces the call is refused. So the velocity of the shear layer is tanh((y-pi/2)/delta) up to the middle and tanh((3pi/2-y)/delta) beyond it, continuous there and across the periodic boundary; and the boundary velocity of the flow around a cylinder is the inlet velocity on the inlet and 0 on the cylinder, the outlet and the walls.", "quantifier": "all arrays of arguments, all conditions (also overlapping ones), all numbers of pieces; all points and parameters of the two flows; all times", "why_tests_cant": "The tests compare a few flows at a few points; which piece is used at a point, and where the values extracted and placed end up, depends on the pattern of all conditions over all points.", "anchors": ["components/miscellaneous/generalized_piecewise_function.py: genpiecewise", "objects/CSCG/_2d/exactSolutions/Euler/shear_layer_rollup.py", "objects/CSCG/_2d/exactSolutions/incompressibleNavierStokes/flow_round_cylinder.py"]}
{"id": "C108", "title": "Decorated functions are called exactly with arguments of the documented types", "statement": "For a function decorated with `@accepts(...)` and any call: the function is called, with the same arguments and result, exactly when every argument is as the documentation of its requirement says: an instance of the class, of a class with the name, a natural, positive or negative int, a sparse matrix, one of several of these, with the required number of dimensions and shape ((4,x): two dimensions, the first of depth 4; (4,x,...): two or more); otherwise there is an exception and the function is not called.", "quantifier": "all functions, all lists of requirements in the documented form, all arguments (any classes, subclasses, names, integers, shapes)", "why_tests_cant": "The tests call decorated functions with right arguments; how classes, names, keys and shapes in one tuple act together, and what slips through, is not tried.", "anchors": ["components/decorators/accepts.py: accepts", "components/decorators/all.py"]}
{"id": "C109", "title": "Attached edge, trace and node elements are exactly those that touch", "statement": "In a 3-D mesh, on any number of cores: the edge elements (trace elements) attached to a node element are exactly those that have it as an end (corner); the trace elements attached to an edge element are exactly those with it in their boundary; the edge elements surrounding a trace element are the four in its boundary; the node elements of a trace element are its four corners in order; the mesh element shared by two trace elements has both as sides, and None means that there is none. All cores get the same result.", "quantifier": "all meshes (numberings of node, edge and trace elements, with or without periodic sides), all distributions of the mesh elements over cores, all elements asked for", "why_tests_cant": "The tests call these functions on a small mesh and few cores; which core holds which mesh element, and so what each core can find, varies.", "anchors": ["objects/CSCG/_3d/mesh/node/elements/do/find/main.py: edge_elements_attached_to_element, trace_elements_attached_to_element", "objects/CSCG/_3d/mesh/edge/elements/do/find/main.py: trace_elements_attached_to_element", "objects/CSCG/_3d/mesh/trace/elements/do/find.py: edge_elements_surrounding_element, node_elements_of_element, mesh_element_shared_by_elements"]}
{"id": "C110", "title": "The setting at an internal node ties the edge dofs together without a redundant condition", "statement": "The setting that overcomes the singularity of hybrid 0-forms at an internal node succeeds for every distribution of the mesh over cores; after assembly the rows of the four trace dofs in the plane of the node say exactly that the dofs of the edges above and below and of three of the four edges of the plane have the same value at the node; the dof of the fourth edge is the one reported as skipped and its column is empty; these rows of the trace matrix are empty and other rows are as before.", "quantifier": "all internal nodes, all distributions of the eight mesh elements, four trace elements and four edge elements over cores (so all orders of the dictionaries), all numberings of the dofs, all trace and complement matrices whose rows of these trace dofs only refer to edges next to them", "why_tests_cant": "Which trace dof comes first depends on the distribution over cores; a test sees one or two of the 576 orders of the two dictionaries.", "anchors": ["objects/CSCG/_3d/forms/standard/_0s/special/main.py: ___PRIVATE_overcoming_hybrid_singularity_INTERNAL_NODE___", "objects/CSCG/_3d/mesh/node/elements/do/find/helpers/SOS_internal.py: _3dCSCG_InternalNodeSOS"]}
{"id": "C111", "title": "The portion of a discrete field in a rectangle has exactly the data in the rectangle", "statement": "df.portion.xy_range((x0, x1), (y0, y1)) of a structured discrete scalar or vector keeps, region by region, exactly those data points whose coordinates lie in the closed rectangle [x0, x1] x [y0, y1], with their values and in the same order; regions without such points are left out.", "quantifier": "all regions with sides along the axes and increasing coordinates, all grids (increasing, in [0, 1]), all rectangles, all values", "why_tests_cant": "The tests look at a plot of one rectangle in one domain; the clipping and the four searches meet many relative positions of grid, region and rectangle, and the mapping is only looked at along two sides.", "anchors": ["objects/CSCG/_2d/discreteFields/base/portion.py: ___PRIVATE_parse_region_wise_structured_data_indices___", "objects/CSCG/_2d/discreteFields/scalar/portion.py: xy_range", "objects/CSCG/_2d/discreteFields/vector/portion.py: xy_range"]}
{"id": "C112", "title": "Values of the coordinate transformation of all elements are those of each element", "statement": "mesh.elements.coordinate_transformation.Jacobian(xi, eta, sigma, J=...) and the other quantities give an object whose i-th item is what element i itself gives for these coordinates, whatever other objects exist, whichever intermediate objects were passed, and in whatever order elements were read before; an object is refused exactly if the intermediate object has other coordinates or is not the quantity that is needed.", "quantifier": "all meshes in which elements with the same metric type have the same values, all quantities, all sequences of making and reading objects, all sharing of intermediate objects", "why_tests_cant": "Values are kept by metric type and not by element, and objects share intermediate objects; a wrong value appears only for a particular order of reading, on meshes with several elements of the same type. A test reads each object once.", "anchors": ["objects/CSCG/_3d/mesh/elements/coordinate_transformation/helpers/value_cache.py: ElementsCTValuesCache", "objects/CSCG/_2d/mesh/elements/coordinate_transformation/helpers/value_cache.py: ElementsCTValuesCache", "objects/CSCG/_3d/mesh/elements/coordinate_transformation/main.py: Jacobian, metric, metric_matrix, inverse_Jacobian_matrix, inverse_Jacobian, inverse_metric_matrix"]}
{"id": "C113", "title": "Chains of irregular gathering matrices join all vectors and find every dof", "statement": "A chain gathering matrix of irregular gathering matrices and chains (in any nesting) gives for each cell the concatenation of the vectors of all matrices, each raised by the numbers of dofs of the matrices before; its number of dofs is the sum; asking for a dof returns exactly the local cells whose vector has it, with its positions, and None if there are none; two chains are equal exactly if they have the same matrices.", "quantifier": "all lists of irregular gathering matrices and chains, all vectors of any lengths, all dof numbers (also negative)", "why_tests_cant": "Tests chain three matrices and compare a few numbers; chains of chains, lists of one chain, cores whose cells have only some dofs, and comparison of chains made in different ways do not occur.", "anchors": ["tools/elementwiseCache/gathering/irregular/ir_chain_matrix/main.py: iR_Chain_Gathering_Matrix", "tools/elementwiseCache/gathering/irregular/ir_chain_matrix/do/find.py: elements_contain_dof_numbered, elements_and_local_indices_of_dof", "tools/elementwiseCache/gathering/irregular/ir_matrix/main.py: iR_Gathering_Matrix"]}
{"id": "C114", "title": "VTK files show the coordinates and values of the objects at every grid point", "statement": "Exporting objects to VTK on a grid writes files from which a VTK reader finds, at each corner of each cell, the coordinates of the grid point and the values of every object there, whether cells are written as pixels or quadrilaterals (voxels or hexahedra), for any number of objects, any domain and any distribution over cores; objects with equal names get different variable names. Region-wise export writes for each region a file with the coordinates and values of that region.", "quantifier": "all grids, domains with any number of regions, numbers of objects, names, and distributions of cells over cores", "why_tests_cant": "The tests export always four objects on non-periodic domains and only check that files can be written; nobody reads them back; one object, periodic domains, discontinuous values and several regions on a core are not looked at.", "anchors": ["objects/CSCG/tools/unstructuredGridToVTK.py: unstructuredGridToVTK, _2dCSCG_unstructuredGridToVTK, _3dCSCG_unstructuredGridToVTK", "objects/CSCG/tools/gridToVTK.py: gridToVTK"]}
{"id": "C115", "title": "Assembled matrices are up to date unless locked, and locks are safe", "statement": "The assembled matrix of an element-wise sparse matrix is the sum of the present local matrices in the present numbering, however much of the assembling was saved by locking the sparsity before; once the assembled matrix is locked, the first assembled matrix is returned until it is unlocked, no customization is accepted meanwhile, and after unlocking the assembled matrix is the present one again.", "quantifier": "all local matrices, numberings, customizations and all sequences of locking, unlocking, customizing, clearing, changing entries, setting gathering matrices and assembling", "why_tests_cant": "One flow solver test locks two systems in one order and compares the final fields; other sequences of operations, unlocking, and setting of gathering matrices under a lock are not tested, and there are arbitrarily many sequences.", "anchors": ["tools/elementwiseCache/dataStructures/objects/sparseMatrix/do.py: EWC_SparseMatrix_Do", "tools/elementwiseCache/dataStructures/objects/sparseMatrix/assembler.py: EWC_SparseMatrix_Assembler", "tools/elementwiseCache/dataStructures/objects/sparseMatrix/customize.py: SpaMat_Customize", "tools/elementwiseCache/dataStructures/objects/sparseMatrix/main.py: EWC_SparseMatrix.gathering_matrices"]}
{"id": "C116", "title": "Field files have every sample point once, in place, with its coordinates and values", "statement": "Exporting the reconstruction of a 3-D form to files writes for each region a file with exactly one line (or array place) for each sample point of each element of the region, in the order of the region-wise array, and this line has the coordinates of the point and the value of the form there, for any numbering of elements and any distribution over cores; asking for some of the regions writes the files of these regions only.", "quantifier": "all layouts, numbers of sample points, numberings of elements, distributions over cores, choices of regions", "why_tests_cant": "There is no test of this export; stacking is only seen in plots of small symmetric cases.", "anchors": ["objects/CSCG/_3d/mesh/do/main.py: _3dCSCG_Mesh_Do.regionwsie_stack", "objects/CSCG/_3d/forms/standard/base/export/field.py: _3dCSC_SF_Export_Field.to_file"]}
{"id": "C117", "title": "The check of hybrid pairings accepts exactly systems with right boundary rows", "statement": "The check of the hybrid pairing of a 2-form passes exactly if each row of the pairing system is either a cancelling pair with nothing else, the identity for one dof on the Neumann boundary, or the identity for a dof on the Dirichlet boundary, and every dof of both boundaries has exactly one row.", "quantifier": "all assembled matrices, vectors and sets of boundary dofs", "why_tests_cant": "The check itself is only run on systems the library made, with boundary values that are not zero; whether it refuses wrong systems and accepts all right ones is not tested.", "anchors": ["objects/CSCG/_3d/forms/standard/base/dofs/do/main.py: hybrid_pairing_check", "objects/CSCG/_3d/forms/standard/base/dofs/do/helpers/_2f_hybrid_pairing_check_.py: _2f_hybrid_pairing_check_"]}
{"id": "C118", "title": "Perpendicular slices of a mesh consist of the elements that meet them", "statement": "A slice of a 3-D mesh perpendicular to an axis of a region, at one position and between two bounds in each of the other two directions, consists of exactly the elements that have the position (the right one of two neighbours, the last one at the end of the region) and have points strictly between the bounds; the reference coordinate of the slice in each of these elements is in [-1, 1] and gives back the position. Positions outside of the region are refused.", "quantifier": "all increasing element layouts, all positions and bounds in the region", "why_tests_cant": "Tests slice uniform meshes at a few positions inside elements; positions at nodes, at the end of the region and in stretched layouts are decided by separate branches.", "anchors": ["objects/CSCG/_3d/mesh/subGeometry/mesh_perpendicular_slice.py: ___PRIVATE_generate_element_slices_from_A_RegionPerpendicularSlice__, ___PRIVATE_locate_index_in_spacing___"]}
{"id": "C119", "title": "Simplified matrices have the same solutions and show dependent rows", "statement": "Simplifying a matrix keeps the solutions of its homogeneous system. If large enough entries are found for all rows of an augmented matrix, the last column becomes the one solution of the system. A row that becomes zero shows that the rows are linearly dependent, and the last row becomes zero if they are. The result has rows with leading ones, further to the right in each row.", "quantifier": "all matrices, all tolerances from 0 to below 1", "why_tests_cant": "Row operations with moved rows and a tolerance are exact on the one example in the file; that no sequence of moves loses or doubles a row is a statement about all matrices.", "anchors": ["components/miscellaneous/matrix_simplify.py: rsmat", "objects/CSCG/_3d/forms/standard/base/dofs/visualize/matplot/_0sf.py: use of rsmat to find singularities"]}
{"id": "C120", "title": "Names of exported files keep their extension and different names stay different", "statement": "For an accepted name of an export file the extension is what follows the last dot and the other dots become underscores; exactly the names without special characters, of at most 64 characters, with a letter or digit in the first part, not beginning with a digit, without spaces and with an extension that is not all digits are accepted. The parts put together are accepted and have the same parts. Different names give different files.", "quantifier": "all strings", "why_tests_cant": "Doctests show two names; strings are unbounded and the treatment of several dots, empty parts and digits is spread over several branches.", "anchors": ["components/miscellaneous/checks/check_filename.py: check_filename", "components/miscellaneous/checks/check_no_splcharacter.py: check_no_splcharacter", "objects/CSCG/_3d/forms/standard/base/export/field.py: to_file"]}
{"id": "C121", "title": "Triangular meshes of squares cover the square without overlap", "statement": "The triangular mesh made of a square with K times K small squares has 2K\u00b2 triangles, each row of its connectivity is written once, and all triangles are positively oriented with the area of half a small square. Each point of the square is in a triangle and none is strictly inside of two. Each edge is shared by at most two triangles, which pass it in opposite directions; an edge belongs to one triangle only exactly if it lies on one of the four named boundaries.", "quantifier": "all K from 1 on and all sizes d above 0, all points of the square and all edges", "why_tests_cant": "Tests use a few K; cover, overlap and orientation are about all points and all numbers of small squares, and an exchanged corner still gives a mesh that can be read.", "anchors": ["objects/miUsGrid/triangular/mesh/instances/realtime/square.py: square", "objects/miUsGrid/triangular/mesh/instances/samples/structured_square.py: Generating_Structured_Square_Mesh"]}
{"id": "C122", "title": "A domain is called regular exactly if its boundaries go on across regions", "statement": "The distribution of the boundaries of a 3-D domain is called regular exactly if, wherever a boundary is at a side of a region, each region next to it across a perpendicular side has the same boundary at the same side. In such domains a boundary is at the same side of all regions reached from one of its regions across perpendicular sides, over any number of regions.", "quantifier": "all numbers of regions and all maps of regions and boundaries that are closed", "why_tests_cant": "Domains in the tests have few regions; the loops with early exits decide for all maps, and the spread over any number of regions is a statement by induction.", "anchors": ["objects/CSCG/_3d/mesh/domain/boundaries.py: distribution_regularities, ___PRIVATE_if_is_Regular__one_region_corner_interface___"]}
{"id": "C123", "title": "Dofs of 1-edge-forms are drawn on their edges", "statement": "The plot data of a dof of a 1-edge-form are on the edge the dof belongs to: the l-th dof of each of the twelve edges of an element, numbered edge by edge, is found to be the l-th of that edge, the points drawn lie on both sides in the name of the edge and run along it. Numbers that are no dofs of the element are refused.", "quantifier": "all polynomial degrees in the three directions, all edges and all dofs", "why_tests_cant": "Plots are looked at, if at all; degrees that differ in the three directions move all limits in the nested branches.", "anchors": ["objects/CSCG/_3d/forms/edge/_1eg/special.py: generate_plot_data_for_dof", "objects/CSCG/_3d/spaces/base/num_basis.py: _3dCSCG_1Edge"]}
{"id": "C124", "title": "The intersection of two lines is their only common point", "statement": "The point found as intersection of two lines is on both of them and is the only such point. No point is given exactly if the lines have the same direction, also if they are the same line.", "quantifier": "all four points that define the lines, with two different points for the first line", "why_tests_cant": "Doctests show four cases; that formulas with determinants give a point of both lines is an identity over all coordinates.", "anchors": ["components/functions/_2dSpace/line_intersection.py: find_line_intersection"]}
