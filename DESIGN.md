# Design of the Lean model of mifem

Subject: `mathischeap/mifem` (Python, /repo). Properties: `properties.jsonl`. Status per property: `MANIFEST.json`.
Model and proofs: `lean/Verif/**`; bug-seeding log: `seeded/LOG.jsonl`.

## 1. Conventions

* **Model files** `Verif/Model/*.lean` hold definitions only: small, total, computable functions, written function by
  function after the Python, with a comment giving file and lines, and every simplification stated at the definition.
* **Lemma files** `Verif/Lemmas/*.lean` hold helper lemmas.
* **Property files** `Verif/Props/*.lean` hold the specification (a few independent definitions, stated in terms of
  the mathematical meaning and not of the model's helpers), the property theorems and, beside each, an `example` that a
  concrete non-trivial case meets the hypotheses.
* Python exceptions / failed `assert`s are values (`Option`/`Except`), never silently totalised.
* Numbers: dof numbers, element numbers, ranks are `Nat`/`Int`. Matrix and cochain entries live in an arbitrary
  commutative ring (or field when the code divides); floating point rounding is **not** modelled.
* Sparse matrices (scipy csr/csc/lil) are modelled by what they denote: a function `row → col → value`, or as
  triplet lists where the code manipulates triplets (assembly). Explicit zeros are modelled only where the code looks
  at the stored pattern (`.indices`).
* MPI: a parallel run is modelled by the list of per-rank local states; `gather`/`bcast`/`allreduce` become functions
  on that list; point-to-point protocols (TREE, CHAINING, DISPATCHING) are modelled as explicit send/receive events.
* A property that is false of the code as it stands gets (a) a theorem with the negation and a concrete witness,
  (b) a `_partial` theorem under the exact extra hypothesis, (c) an entry in section 4.

## 2. Trusted base

* The Lean 4.33.0 kernel. Every theorem depends on at most `propext`, `Classical.choice`, `Quot.sound`
  (checked with `#print axioms`; no `native_decide`, no `bv_decide`, no axioms of our own, no `sorry`).
* Mathlib modules imported one by one.
* The reading of the Python source: nothing ties model to code except the cited lines.
* Assumed behaviour of libraries: numpy/scipy indexing, slicing, `reshape(order='F')`, fancy assignment, duplicate
  summation in `csc_matrix((data,(row,col)))`; mpi4py message matching (per source/tag FIFO, `gather` in rank order).
* Not modelled: floating point, quadrature and geometry (coordinate mappings, mass matrices), visualisation, file
  formats of pickle, scipy solvers, timing, memory.

## 3. Properties: what is modelled and how it is proved

| id | modelled | proof idea |
|----|----------|------------|
| C01 | `Chain_Gathering_Matrix` (silly): flattening, `_To_Be_Added_`, `__getitem__`, `global_num_dofs` | prefix sums; disjoint intervals; induction on the member list |
| C02 | the sequent renumbering loop over ranks/elements/members with filters and sparse caches | invariant of the loop: counter, filters = dofs seen; true for numberings that introduce dofs in blocks; the naive numbering of every form does (Props/NaiveChain: `c02_naive`, from the invariant of the naive loop), where no element repeats a dof; counterexample otherwise |
| C03 | `elements_contain_dof_numbered`, `elements_and_local_indices_of_dof`, `where`-search, truncation N | refinement to `filter`; negation witness for > N sharing elements; `_partial` for ≤ N |
| C04 | naive 0-form numbering loop (number free slots, pass sides to higher neighbours) on the grid, all degrees | general theorem on "slots and links": correct iff each class has one local minimum; instantiate to grids; counterexample for a bad element order |
| C05 | same loop, side-interior slots | classes have ≤ 2 slots, so the general theorem applies to any symmetric map |
| C06 | loop over ranks concatenates element lists | fold over concatenation |
| C07, C08 | local numbering (F order) + entries of the incidence matrices, as functions | index arithmetic, cell-wise cancellation |
| C09 | same | explicit potentials by summation along axes |
| C10 | local numbering, num_basis | mixed radix bijection |
| C11 | incidence stencil restricted to a side depends only on the side values | side restriction lemma + C05/C04 |
| C12 | EWC cache state machine (`___getitem_pre_customizing___`), keys as strings | invariant over access sequences |
| C13 | column vector `+`, `-` with the code's key generator | witness for failure (key of the first operand used twice), `_partial` |
| C14 | unary/binary matrix operations with the operand's key generator, customizations | witness for failure; `_partial` without customizations/with faithful keys |
| C15 | customization list executor, `clear_global_row`, `set_assembled_M_ij_to`, `identify_global_row` over ranks | sums over elements; find returns all sharing elements |
| C16 | assembler triplets, sum over ranks | sums over lists, permutation invariance |
| C17 | `set_unknown_to` = identify row + `set_assembled_V_i_to` | from C15 |
| C18 | `apply_strong_BC` local identification | row = multiplicity * unit row |
| C19, C20 | `VectorAssembler`, `MatrixAssembler`, `VectorDistributor` | folds over elements; negation witness for csc |
| C21 | TREE(2) rounds | invariant on KEYS list for every SIZE |
| C22 | DISPATCHING / CHAINING event protocol | invariants over event sequences |
| C23 | GROUP_CORES | div/mod arithmetic |
| C24, C25 | GlobalMatrix `__matmul__`, nonempty columns/rows | linearity of sums over ranks; negation witness for csc + distributed vector |
| C26 | split_A | loop invariant |
| C27 | gather_V_to_core | sums; witness for non-master core |
| C28, C29 | stop criteria and outer loops | loop bound; negation witness for info = 0 |
| C30 | cache dictionaries of LGMRES | invariant on key set |
| C31 | buffer aliasing of `hr0` | heap model, witness |
| C32 | Schur rank-2 formulas, reduced system assembled with the given row and column numbering | block elimination over a field (Mathlib matrices): equivalence with the full system when rows and columns are numbered alike; witness otherwise |
| C33 | iterator state machine | invariant over steps |
| C34 | element distribution arithmetic | prefix sums |
| C35 | element numbering | mixed radix, prefix sums |
| C36 | side-element lookup in a region grid and across regions | case analysis |
| C37 | FrozenOnly | invariant over op lists |
| C38 | globe getter/setter over ranks | sums / counts; witness for `np.empty` |
| C39 | identity-keyed module cache with address reuse | state machine, witness; `_partial` without reuse |
| C40, C41 | utilities | list/number lemmas |
| C42 | chain cache of size 3 keyed by concatenated stamps | invariant; witness for key ambiguity |
| C43 | trace matrices | index arithmetic |
| C44 | distribution flag of global matrices | invariant of the operations; witnesses |
| C45 | gather_M_to_core with splitting over the tree | slices put together; simulation of the tree of C21 |
| C46 | BiCGSTAB loop with buffers on a heap | invariant of the rounds, linearity |
| C47 | one GMRES/LGMRES cycle, orthogonalisation distributed over the cores | Arnoldi relation, orthonormality by induction, least squares |
| C48 | node basis, the product loop over the nodes | Lagrange interpolation of Mathlib |
| C49 | edge basis via the nodal derivative matrix, as in the code | derivative of the interpolant = telescoping sum; fundamental theorem of calculus |
| C50 | Kronecker products, component slices, einsum in 2D | summation by parts in each direction, derivative taken with `HasDerivAt` |
| C51 | the same in 3D | the same |
| C53 | `Jacobian_matrix`, `Jacobian`, inverse and metric matrices of 2D and 3D elements (`Model/Metric`) | compared with `Matrix.det`, `*`, `transpose`; the Jacobian matrix is the Fréchet derivative of the element mapping by the chain rule |
| C54 | values of reconstructed forms in physical space, reconstruction matrices | dot products with images of reference directions (`crossProduct` for fluxes); Piola identity |
| C55 | edge geometries, transfinite, orthogonal and crazy interpolations of regions (`Model/Region`) | arcs as rotations of the first corner; boundary values by algebra; Jacobian matrices as Fréchet derivatives with a small calculus of gradients |
| C56 | inner-product matrices, all degrees, orthogonal shortcut and transposed blocks | the bilinear form of the matrix is a quadrature sum of dot products of reconstructed values |
| C57 | wedge-product matrices and which pairs are accepted | the same with a metric-free matrix; acceptance of 3-forms fails |
| C58 | marks of orthogonal and parallelogram elements as strings of rounded decimals; a cached matrix with the mark as key | decimals determine the rounded numbers, rounding is near; C12 for the cache; fails for small elements |
| C59 | the mass matrices of C56 with `other is self` | C56 turns definiteness into: a form that is zero at all quadrature points has zero cochain; unisolvence of node and edge polynomials, Kronecker products |
| C60 | the crazy interpolations | determinant in closed form, sharp bound of its trigonometric part |
| C61 | `construct/main.py`: orientation of the cells, the double loop over pairs of cells that fills the element map | invariant over the pairs compared so far: an entry is there exactly if the pair shares that edge in that direction |
| C62 | edges, mapping, Jacobian matrix, determinant and Heron area of a triangular element | closed forms; inverse by barycentric coordinates; derivatives and integral over the reals |
| C63 | the numbering loops of 0-, 1- and 2-forms (parts of a cell in the order of the steps), gathering vectors, local numbering | refinement: numbers are places in the list of entities in the order they are met; invariant over cells and steps; then arithmetic of the layouts |
| C64 | incidence matrices as lists of assignments, transition matrices, `coboundary()` | rows of the matrices in closed form; d∘d by cancellation; single-valued: the raw value on an edge is odd under reversal, and the sign of the transition matrix compensates it (case split over pairs of local edges, with the geometric fact which pairs occur for outer forms) |
| C65 | `discretize()` of 0-forms and inner/outer 1-forms with any quadrature rule | an edge dof is a line integral over the straight edge; the line integral is odd under reversal for symmetric nodes and rules; then as C64 |
| C66 | `discretize()` of 2-forms as well | polynomials along the lines of the reference square, chain rule, exactness of the rule for powers; divergence theorem on a cell from the pointwise (Piola) identity; the left-out dofs at the collapsed vertex are zero |
| C52 | `discretize()` of the 2D standard forms: the arrays of quadrature nodes (tile/repeat/reshape as index functions), weights, Jacobian terms, the branch for orthogonal marks | dofs equal line and cell quadratures of the pulled-back field; chain rule for `bind₁`, commuting partial derivatives, fundamental theorem along lines for exact rules; incidence rows of C01 |
| C67 | `discretize()` of the 3D standard forms, in the same way | as C52, with Stokes on faces and the divergence theorem on sub-cells |
| C68 | Element layouts and cut elements (`Model/Layout`), discretization (`Model/Discretize`), gathering vectors (`Model/GatheringVector`). A side shared by two elements is the same curve or surface (up to a translation the field does not see); the tangent columns of the Jacobians agree by uniqueness of derivatives, so the integrals over shared edges and faces agree (`SharedDofs`); with the naive numbering every local vector is a restriction of one global vector (`SharedDofsGlobal`); region sides put together by the map of the regions or by periodic pairs, and neighbours inside a region, satisfy this (`SharedDofsMesh`). |
| C69 | `parse` of layouts: partial sums, last entry 1. Cells tile `[0, 1)^d`: existence and uniqueness of element and place. |
| C70 | `Model/Quadrature`: Newton iteration, Lobatto nodes and weights, tensor products, ravel order. Legendre polynomials by recursion over any field of characteristic 0: derivative identities, Legendre's equation, orthogonality, norm. Interpolation plus orthogonality gives exactness; each weight from one test polynomial. Existence of the real zeros by interlacing and Rolle. Trusted: documented results of scipy/numpy for Gauss rules and `legendre`; Newton ends in the zeros (or close to them, `c70_lobatto_limit`). |
| C71 | `Model/CrossProduct`: all cross-product helpers in 2D and 3D, with the order in which the arrays are raveled. The specification is the quadrature sum of weight, Jacobian determinant and (w × u)·e with the fields of C57 at the nodes. `c71_3d_partial` (Jacobian determinant the same at the two node orders), `c71_3d_fails` (bent element, all five helpers), `c71_curl1`, `c71_2d` in full; skew symmetry; `c71_inner_curl`. |
| C72 | `Model/NonlinearSystem`: multi-dimensional matrices with any number of axes, the nonlinear system, its residual and its linearised blocks; the loop is that of C29. The specification is the multilinear form; `c72_global` states that the assembled residual along `X + tD` is the one at `X`, plus `t` times the assembled matrix applied to `D`, plus `t²` times the terms at `D`. Two negations with witnesses. Assembly is here the sum over elements (that the code computes it is C04). |
| C73 | Model/ExactSolution | Base classes of the manufactured solutions (Navier–Stokes 2D/3D, Stokes, Poisson, wave, Schrödinger, port-Hamiltonian, MHD, Laplace) over an abstract differentiation operator, and the concrete solutions. Vector calculus is proved once for operators that are linear and commute (`FieldCalculus`, `RegularField`), which holds for the central differences of the code on all functions and for true derivatives of C² functions (Schwarz). Hand-written derivatives are checked by differentiation. Falsified for MHD:as1 and for the dipole with a negative first vortex. |
| C74 | Model/NumericalDerivative: the central difference and the checks of given derivatives, with numpy's maximum and quotient by zero | Taylor bound by monotonicity of auxiliary functions, three times (`grow_le`); maximum as a fold; soundness and completeness from the two |
| C75 | Model/Wrappers: wrapped scalar and vector functions in 2D and 3D, with the kind of callable (function, method, object) that the derivative classes test | case analysis of the kinds; the identities by `ring` for central differences, or from commuting derivatives (`RegularField`); false in 3D (§4) |
| C76 | Model/Norms: errors, norms and energies per element, the sums over elements and cores, the vectorized reconstruction, the statistics of metric marks; values at quadrature points are given, matrices are those of C56 | sums over the flattened list of elements; Minkowski (`Real.Lp_add_le`) for the triangle inequality; folds for the maximum; C56 for energies; false for odd n, `upon`, 2D vector fields and some 3D energies (§4) |
| C77 | Model/Caches: a heap of objects at addresses that may be used again once free; memoize1, memoize5, the `_global_cache` keys, the one-slot caches of `BC.interpret` and of fields; the cached computations are arbitrary functions | invariants over all programs: every cached entry belongs to live objects with the contents that give it; false where entries outlive their objects (§4) |
| C78 | Model/Caches: the setter of `current_time`, `valid_time`, `evaluate_func_at_time` | invariant: the current time is the last (first, only) time asked for; times are compared with `=` |
| C79 | Model/SaveRead: keys `name=\|=(i, j, k)`, gathering of the cochain over cores and regions, distribution; the loop of `read` with its caches of one mesh and one space and the dictionaries emptied by `pop`; file names. Parameters and their text (`str`) are arbitrary | keys are injective, then C35's numbering twice; invariant of the session over the list; false for shared dictionaries and equal texts (§4) |
| C80 | Model/Domain: numbering of region corners with a pool and a tolerance, search for sides with the same corners, lists of boundary sides, the check that replaces lists by their entry (with cracks) and the check of the pairing; periodic pairs; the rectangle and cuboid inputs and their names. Corner points are of any type with a reflexive `close` | numbers are `findIdx` in the final pool; invariant of the check (`Ok`): each entry is its list, its one entry or the boundary of a crack; the pairing check at three sides gives opposite sides; rectangles and cuboids by injectivity of the lattice; false without a condition on the listed sides (§4) |
| C81 | Model/Hybrid: the look-up tables of dofs on corner edges (form, trace form, edge form), the choice of element, side and edge for an edge element, the replacement `V = T[tf, sf]; T[tf, sf] = 0; C[tf, ef] = V` one edge after the other, skipped edges, and both numberings of the edge unknowns (0-forms by counts, 1-forms by subtracting skipped ones, with the merged dictionary of the cores) | tables against the trace matrices of C43 entry by entry; value of a row as an invariant of the replacements (`foldl_value`); moved entries by disjointness of the corner edges; around an edge a cyclic chain, on the boundary an open chain, both solved explicitly; the node by its 12 rows; numberings by induction over sorted lists. Partial: see the manifest |
| C82 | Model/EdgeEl: the two dictionaries of positions, the boundaries found by a core and those sent back by the others, the pool of amounts passed from core to core with its assertions, the dictionary of links between pairs and the walk along them | positions: invariant with `drop`/`take` of full groups; boundaries by membership; pool invariant (`PoolOk`); links as a permutation of the ring or path whatever the order of pairs, then the walk by induction along it. Partial: false beyond four (eight) positions (§4) |
| C83 | Model/TraceNum: the blocks of trace and edge elements, the pool of amounts passed from core to core, the two-pass renumbering of non-hybrid forms with its filters and assertions, the local numbering written side by side, the internal local dofs, `positions` and `trace_element_position` | blocks: counting of directions; non-hybrid: invariant of the renumbering for any side layout (`SideLayout`), the layouts of 0-, 1- and 2-traces for all degrees, and their composition with the naive numbering (`NumbersSurfaces`); positions by `count`/`idxOf`; trace-element position by tiling of the sides. Partial: see §4 |
| C84 | Model/TraceDisc: points, Jacobian, metric and unit normal of a trace element, the 0-, 1- and 2-form discretizations on it with their loops, `tile`/`repeat`/`kron` and einsums, components of a vector, boundary-wise dispatch | the loops are rewritten to quadratures over lines and faces (`edge3`, `face3`) and compared with those of C67; Lagrange's identity for metric and normal; both elements by C68; trace matrices by C43, hence Gauss' theorem on the trace elements for polynomial fields |
| C85 | Model/TraceRec: grids and basis functions of the sides, Jacobian, metric and inverse of a trace element at three coordinates, reconstruction of 0-, 1-, 2-traces and of local traces | partial: basis functions at -1 and 1 are Kronecker deltas, so the 3D sums collapse to the side (C48); the normal of a side is a row of the inverse (`crossJ_row`); false for 1-traces on skewed elements and for local 2-traces, see section 4 |
| C86 | Model/TraceRec: weights of the sides, mass matrices of 0-, 1-, 2-traces, matrices of local traces (direct and reference computation), block matrix of the six sides, cache by marks | partial: einsums as Gram matrices (C56), rows of the inverse for 1-traces, unisolvence of tensor bases (C59) for definiteness; false for 1-traces on skewed elements and for local traces |
| C87 | Model/TraceMark: spacing, classification of trace elements by region type, marks as strings, constant Jacobians read back from the marks, trace elements of boxes with their mass matrices (Model/TraceRec) | partial: prefix argument for formatted numbers (Props/Marks), parsing of decimals as inverse of formatting up to rounding; false for regions of different lengths |
| C88 | Model/TraceRec: `errorAt`, `localError`, `globalError` | partial: fold of `max` as greatest element, over components, trace elements and processes; false for 1- and 2-traces |
| C89 | Model/BoundaryInt: boundary vectors of 1-forms (3D), outer 0-forms (2D), local traces | partial: einsums exchanged with the sums over sides; false for functions that are not constant on the boundaries |
| C90 | Model/BoundaryNormal: constant normals of faces, loops of the processes, choice and orientation of the vector, `T_para`, `T_perp` of boundary-wise vectors | partial: loop invariants; the angle is acute exactly if the product is positive; false when a process has faces without constant normal |
| C91 | Model/HybridPairing: dictionaries of boundary dofs and values, clearing and identifying rows, setting entries, `hybrid_pairing`; numbering of Model/TraceNum, trace matrices of Model/Sides | partial: each row of the result is computed, then the rows with the same number are collected (one on a boundary, two inside); edge unknowns through C81 |
| C92 | Model/BlockSystem: comparison of gathering matrices, `bmat` (local matrices, choice of gathering matrices), `concatenate`, `blocks` with zero blocks, slices; chains of Model/Gathering, assembly of Model/Assembly | partial: the gathering vector of a chain of chains is the shifted vectors of its members, so each contribution falls into one block; parts by applying the same theorem to the sliced blocks |
| C93 | Model/TopoConn: selective matrices of trace and edge forms, `topological_connection` (fancy assignments, the call and its assertions), side dofs of local trace forms with their cache | partial: each row of the matrices has one entry ±1, the same sign in both; with C83 (numbering of non-hybrid traces) the constraint is equality of numbered values; queries by induction over the sequence of calls |
| C94 | Model/DualForm: setters and readers of dual cochains, dual coboundary (checks, signs, transposes); Lemmas/Stokes: smoothness of the basis functions, divergence theorem on the cube | proved: positive definite mass matrices (C59, C86) make setting and reading inverse; adjointness by exchanging sums; moments by the divergence theorem of Mathlib with C51 (derivatives) and C43/C85 (traces) |
| C95 | Model/Vortex: projection of a 1-form to a 2-form (mass matrix, wedge matrix, their quadrature degrees), to three 0-forms, gradient tensor, `S`, `Omega`, Q and lambda_2 | partial: projection by positive definite mass matrices (C59) and exactness of Gauss rules (C70), polynomials in three variables as an inductive predicate; gradient by C51 and C54; criteria by coefficients and roots of characteristic polynomials. The criteria are false (c95_never, c95_rotation) |
| C96 | Model/TriVtk: cells, offsets and types of `triangle_and_quad_data(p)` and `quadratic_triangle_data`, gathering rows, arrays of the exports filled element by element | partial: numbers by the numbering theorem of C63, cells by lists, arrays by induction on elements and entries, places by C62/C63, areas by the shoelace formula. False for vector fields, 1- and 2-forms (c96_vector_fails) |
| C97 | Model/TriRec: basis functions with merged singular row, transition signs, `reconstruct` of 0-, inner/outer 1- and 2-forms, reconstruction matrices | partial: sums over nodes; polynomials along lines (C48); continuity by the numbering theorems and symmetry of the nodes; derivatives by the Piola identity with the inverse of the mapping; integrals by C49. Densities are not reproduced for p = 1 (c97_density_fails) |
| C98 | Model/TriMass: the four local mass matrices, keys of elements and of 1-forms, similarity, cache of the coordinate transformation | partial: the products of reconstructions times the determinant are polynomials in the reference element (the factor y + 1 cancels), Gauss of degree p + 1 is exact (C70), change of variables to the triangle; definite since the bases are unisolvent on the Gauss grid; keys by prefixes of printed numbers (C58), caches by C12. Disagreements for 2-forms, small elements and intermediate data |
| C99 | Model/TriEnergy: energies and norms, inner products with other forms, triple products and the cache of their tensors, L and H errors | partial: as C98, contraction of reconstruction matrices with cochains (C97) turns all matrices into quadratures of products of fields, which are polynomials; definite by unisolvence; skew symmetry entry by entry; H error by the chain rule through the mapping. Disagreements for mixed orientations, cached tensors, odd exponents |
| C100 | Model/Fields: fields with type, components (function, method or object) and valid times; all operations of 3D, 2D and triangular fields; syntax trees of expressions; the helpers of inner_product_with_space_of | partial: induction over expressions against a denotational semantics; acceptance as a condition on the syntax; identities because central differences commute; testing: the cofactors are Jacobian times inverse, sums exchanged, then the inner products of C56. Disagreements for valid times, triangular inner products, the check of class names |
| C101 | Model/FormVector: forms as gathering matrix, counts and local cochains on all cores; LocallyFullVector of forms (silly and sequent), distributed_to with all methods and None, `==` of chains, the direct solver with cleaning of data | partial: inverse pair by induction over the forms; chains: the vector of an element is the members' vectors mapped by the numbering (C01, C02), slices by induction; sequent: sum over elements exchanged, perm of element orders; direct: C45 and C27. Disagreements for the sequent constructor and `==` of chains |
| C102 | Model/Solver: names, routines, arguments and checks of the six solvers, initial guesses, preconditioners Jacobi and spiLU, the beginning and end of the library's and scipy's routines with clearing of data; iterations are parameters | partial: acceptance as an iff with a table of combinations; Jacobi by sums over parts; success and state through C45, C27. Disagreements: documented example, cleared x0 |
| C103 | Model/Monitor: checks of the arguments, `update`, `auto_save` (with failing writes), when `generate_graph_report` acts, selection of rows and filter of times, the rounds of `run` as the monitor sees them | partial: induction over sequences of rounds; crash and resume through C33. Disagreements: saving every n steps, real-time saving, open iterators |
| C104 | Model/FormOps: `+`, `-`, multiples of forms (with numpy broadcasting and the setter of the cochain), define parameters, saving and reading, boundaries of the mesh, dofs on them, dofs at the same place | partial: induction over expressions; characterization of the sets of dofs on all cores. Disagreements: saving results, mixing hybrid and other forms, a query that changes the form |
| C105 | Model/CellShape: angles (law of cosines, `acos`) and quality of a triangular cell, in real numbers | refinement to the angles of Mathlib's Euclidean plane; the extreme values of the quality characterize equilateral and flat triangles |
| C106 | Model/Plates: the domain inputs `cic`, `chp1`, `chp2` with the edges of Model/Region and the region map of Model/Domain, in real numbers | partial: sets of points of the boundaries computed for all parameters (polar angles of the corners, union of the arcs); the region map depends on the equality of corners only, so it is computed once for the numbered corners. Disagreements: radius of the hole, parameters that should be refused |
| C107 | Model/Piecewise: `genpiecewise` with `np.extract` and `np.place` as loops over lists; velocity of the shear layer and boundary velocity of the flow around a cylinder in real numbers | partial: a masked fill with the values of a pointwise piece changes exactly the masked entries to the values there (induction over the mask with a counter), then induction over the pieces from the end; the flows follow with two complementary conditions; the boundaries are those of C106. The statement on the walls is false |
| C108 | Model/Accepts: `accepts` with classes, names, keys, `isinstance` of tuples with its TypeError, and the loop over shape and ndim requirements; strings of shapes as read | partial: induction over the entries of the requirement and over the arguments, against the documented meaning; exact meaning of shape requirements; the statement on shapes, on ndim after a shape and on keyword arguments is false |
| C109 | Model/Attached: the find functions of node, edge and trace elements with the maps of all mesh elements, cores as lists of mesh elements, `allgather` as a list over cores; characteristic places of trace elements | partial: membership in the folded sets against the unit cube by coordinates (tables compared by `decide`), for all distributions; node elements that are not on all cores lead to an exception |
| C110 | Model/NodeSOS: what each core contributes to the traces and edges of the node, the two dictionaries (update over cores), the choice of pairs by `DICT3` with `for … break`, emptying of columns and rows, assertions on empty rows, entries ±1 in the mesh elements above and below | proved: dictionaries are permutations of the four names; all orders of names by kernel evaluation; then closed form of the rows by induction over the pairs, for all matrices and dof numbers, and the solution set of the assembled rows |
| C111 | Model/Portion: bounds of indices of one region (clipping to the limits of the region, four searches, assertions), slices of the arrays of coordinates and values | partial: flattened result = filter of all data by the rectangle, over any ordered numbers, for monotone separable mappings; witnesses where it is false |
| C112 | Model/ValueCache: objects with mesh, quantity, coordinates and intermediate object; reading with the store by marks; programs that make and read objects | invariant of all stores under any program; all legal programs give all values; which intermediate objects are accepted |
| C113 | Model/IrChain: making of chains from matrices and chains, offsets, vectors, `==`, local ranges, search of a dof and its positions | partial: offsets are prefix sums, ranges are ordered so that the search meets exactly one; cells agree by counting; witnesses where it is false |
| C114 | Model/VtkGrid: rows of nodes on cores and their union, connectivity, cell types, offsets, names of variables, files of regions | partial: value at a node is one of a corner there (induction over cells and cores), corners in the order of the VTK types, sum over cores has one term; pigeonhole for names; witnesses where it is false |
| C115 | Model/Locks: assembling in parts, with saved places or a saved matrix, locks, customizing, clearing, setting of gathering matrices | partial: invariant over histories (saved places are those of the present local matrices), sums of coordinate lists by induction; witnesses for unchecked operations |
| C116 | Model/FieldFile: region-wise stacking by slices, flattening, lines of a text file, collection of the data of all cores | partial: blocks of different elements do not meet (induction over the loops), index arithmetic of flattening, collection for any distribution; false for some of the regions |
| C117 | Model/PairCheck: the loop over the rows with the two sets of dofs that are left | partial: accepted exactly if right and all boundary numbers nonzero (two inductions over rows); witnesses for zero values and Neumann rows |
| C118 | Model/MeshSlice: search of positions among nodes, reference coordinate, index ranges, choice of elements | proved over rational positions: search characterised by induction over the nodes; exactly the elements that meet the slice, for each of the three directions |
| C119 | Model/Simplify: moves of rows over the old column, elimination, row counter, last row | partial: solutions and dependence kept by each step (induction over columns and moves), identity when pivots are found in all rows; witnesses where the result is not reduced |
| C120 | Model/FileName: split at dots, join with underscores, checks of the two parts | partial: result for every string with and without last dot (inductions over the string), fixed point, injective for at most one dot; witness for more dots |
| C121 | Model/TriSquare: coordinates of the numbered points, loops that write the connectivity, boundary functions | proved over rational coordinates: rows by two inductions; area, cover and no overlap through the position in small squares; edges through the six kinds of edges |
| C122 | Model/BoundaryReg: loops over regions, sides and perpendicular directions with early exits | proved: answer equals the independent condition for every closed map (inductions over the loops); spread over paths of regions by induction |
| C123 | Model/EdgePlot: nested branches from dof to edge and index, table of the points | proved: inverse of the numbering edge by edge for all degrees; refused exactly from the number of dofs on; points on both sides of the name |
| C124 | Model/LineCut: the determinants and the two quotients | proved over rational coordinates: parameters on both lines given, uniqueness through the determinant of a line, none exactly for equal directions |

## 4. Disagreements between expected property and code

Each line: property, what the code does instead, the theorem that proves it (in `Mifem.Props`).

* C02 sequent chain: a dof that is met only after a larger dof of its member in an earlier position of the loop is never
  renumbered and collides with number 0 (`c02_counterexample`).
* C03 search of elements containing a dof: stops after N local elements (4 in 2D, 8 in 3D), more are dropped
  (`c03_counterexample`).
* C04 several regions: a node shared by elements that are not linked through earlier ones gets two numbers; nine one-element
  regions in winding order suffice (`c04_not_always`).
* C05 the numbering raises KeyError when an element has two smaller, not yet complete neighbours in another order than the
  loop expects; three one-element regions left, right, middle (`c05_not_always`).
* C12 a key generator that returns the reserved constant key for some elements only mixes the elements
  (`c12_mixed_constant_key`).
* C13 sum and difference of column vectors: the key of the result is the key of the first operand twice.
* C14 a customized operand of a cached object; concatenated keys can be ambiguous.
* C15 a dof in more local elements than the limit of C03 is not fully cleared / set (`c15_counterexample`).
* C16 locked sparsity: a later matrix with another pattern is assembled wrongly (proviso in the documentation).
* C18 an element touching the boundary in a corner only keeps its contribution (`c18_counterexample`).
* C19 mode 'add' with a number repeated in one vector of the gathering matrix (`c19_counterexample`).
* C20 format 'csc' gives the transpose (`c20_counterexample`); repeated column numbers (`c20_counterexample_repeat`).
* C22 a task that compares equal to the stop message is lost and the master waits for ever (`c22_counterexample`).
* C24 csc matrix on several cores times a global/distributed vector is zero: `np.argwhere(_ is True)` is always empty
  (`c24_counterexample`).
* C27 distributed vector with all data on the master gathered to another core gives zeros (`c27_counterexample`); indices
  stored twice are overwritten, not added (`c27_counterexample_twice`).
* C28 the relative criterion is true when the residual has *not* been reduced enough; success is reported without
  convergence (`c28_counterexample`, `c28_inverted`).
* C29 the customised initial guess is applied after the first residual has been evaluated (`c29_counterexample`).
* C30 with k = 0 all corrections are kept (`c30_counterexample`).
* C31 the shadow residual is overwritten in the second round (`c31_later`, `c31_counterexample`).
* C32 the right hand side of the reduced system is assembled with the gathering matrix of the columns; wrong result when rows
  and columns are numbered differently (`c32_counterexample`).
* C33 the record of a run stopped by its solver is resumed past the stop (`c33_resume_after_stop`); a text as reason raises
  AssertionError (`c33_text_reason`); a second call of the iterator resets the time but not the step, so that a second run
  computes nothing (`c33_call_again`).
* C36 a periodic pair whose first side has fewer elements is accepted and the rest stays boundary
  (`c36_periodic_short_side`); sides of 2 x 3 and 3 x 2 elements are paired wrongly (`c36_periodic_transposed_side`).
* C37 the reserved property `signature` can be neither read nor assigned, as its attribute is made after freezing
  (`c37_signature`).
* C38 a hybrid form (or form of the highest degree) on several cores: assigning to it its own global cochain replaces zeros by
  uninitialised memory (`np.empty`, `c38_counterexample`).
* C39 the dofs of an earlier setting of boundaries are returned when the address of a released list is used again
  (`c39_counterexample`); boundary cochains are stale when the same list object is changed and assigned again
  (`c39_cache_counterexample`).
* C40 sizes not adding up to the length are accepted: the rest is dropped (`c40_break_list_any`).
* C41 a negative duration with milliseconds comes back as another one (`c41_dhmsm_negative`).
* C42 different chains with the same concatenated stamps; reuse of object addresses.
* C43 2D: signs on the sides U and D are not outward; three of the four 2D trace matrices raise AttributeError.
* C44 any csc matrix is called column-distributed, since a tuple is returned by the check (`c44_counterexample_column`);
  every product is flagged regular (`c44_counterexample_product`).
* C56 2D inner products do not look at the orientation: an inner and an outer 1-form are accepted and the result is not
  the integral of the dot product (`c56_mixed_orientation_fails`).
* C57 the wedge product of a 3D 3-form refuses every standard form: it looks for the class name `_0Form`
  (`c57_3form_refused`); in 2D an inner 1-form may be wedged with itself and the result is not zero
  (`c57_self_wedge_fails`).
* C55 the consistency of 3D sides is checked at two to four points of each edge; sides differing in between are accepted and
  not reproduced (`c55_check_incomplete`).
* C60 3D crazy meshes are folded for |c| ≥ √3/(2π) = 0.2757, which `random_parameters` may draw (`c60_folds`).
* C58 elements whose sizes differ by less than about 0.001 (all cubes with sides below 0.0004) share a mark and a cached matrix.
* C68 only the numbers of elements of attached regions are compared, not the sizes. With layouts `[1, [1, 2]]` and `[1, [2, 1]]` of two neighbouring squares a mesh is made in which glued element sides are different intervals, and a 0-form gets two values (1/3 and 2/3 for the function y) for one dof (`c68_layouts_differ`). The theorems assume equal cuts.
* C71: the 3D cross-product helpers except `curl1_cross_product_1f__ip_2f` evaluate the Jacobian determinant at
  `xi.ravel()` in C order, while the weights and the reconstruction matrices are in F order. On an element whose
  Jacobian determinant varies the matrix is wrong (`c71_3d_fails`).
* C71: `cross_product_1__ip_1.py` makes its '2-M-0' output by `einsum('ijk, i -> ki')`, with `i` the axis of w, not of
  u; the result has the wrong columns (`c71_1_1_1_columns_fail`).
* C71: `cross_product_2__ip_1.py` and `inner_curl_cross_2f2f.py` keep tensors in a dictionary of the module with keys
  made of `id()`s. Once a form is deleted its id can be used again, and the old tensor is returned. The `cache`
  argument of `cross_product_2__ip_2_2M0.py` is read but never filled. (Not modelled.)
* C72: `NonLinearSystem` accepts 0 for an entry of the right hand side but only `None` is skipped in `evaluate_f`
  (do.py 51); `-0` is then added to vectors and raises (`c72_zero_rhs_fails`).
* C72: `set_fixed_solution(i, value)` is applied to the iterate after matrix and residual of the first iteration have
  been made. If the initial guess solves the system with its own value of dof i, the first update is 0 and the solver
  returns info 0, with dof i changed and the other equations violated (`c72_fixed_solution_fails`). It also writes
  into the caller's `x0`.
* C73: `incompressible_MHD_Base.fx/fy/fz` use `-(1/Rf) Δu` where the documented equation has `(1/Rf) curl(ω)`. The difference is `(1/Rf) grad(div u)`. It is not zero for `MHD:as1`, whose velocity has a mass source (`c73_mhd_as1_fails`).
* C73: `DipoleCollision` builds the velocity from `|we1|` and the vorticity from `we1`. With `we1 < 0` (accepted) the vorticity is minus the curl of the velocity (`c73_dipole_fails`).
* C75: `NumericalPartialDerivative_txyz_Functions` accepts functions and bound methods only. The results of `curl`, `divergence`, sums and products are callable objects, so `v.curl.divergence`, `v.curl.curl`, `v.divergence.gradient`, `(a + b).divergence` raise `NotImplementedError` (`c75_closed_3d_fails`). The 2D class has the missing branch.
* C76: `error.L(n)` sums `(v - f) ** n` without the absolute value. For n = 1 errors of both signs cancel and a wrong form gets error 0 (`c76_odd_cancels`); for n = 3 the result can be nan, or AssertionError in 3D (`c76_odd_nan`).
* C76: `error.L(upon=True)` asks forms for an attribute `func` that they do not have (`c76_upon`).
* C76: `compute_Ln_norm` of a 2D vector field reads a third component and raises IndexError (`c76_vector_field_2d`).
* C76: `compute_L2_energy_with` in 3D computes `self @ M @ other` with the matrix whose rows belong to `other`. It raises for forms with different numbers of dofs (`c76_energy_3d_raises`) and gives a wrong number for spaces with equal numbers of dofs but different nodes (`c76_energy_3d_wrong`). The 2D method has the right order.
* C77: `memoize1` and the `_global_cache` of the cross-product helpers are keyed by `id` and keep entries of objects that are gone; a new object at the same address gets the values of the old one (`c77_memoize1_fails`). `_global_cache` keys are digits written one after another, so different objects can share a key if their addresses differ in length (`c77_cross_key_collides`).
* C77: `BC.interpret.local` remembers the `id` of the list of element parts only. If boundaries are set twice without interpreting in between, or another form is deleted, the dofs can be those of an earlier list or of another form (`c77_bc_local_fails`, `c77_bc_local_deleted_fails`).
* C77: `BC.interpret.boundary_cochain` compares the `id` of the user's list of names: changing the list in place and assigning it again gives the old cochain (`c77_boundary_cochain_fails`, `c77_boundary_cochain_dropped_fails`).
* C77: boundary-wise vector fields and trace-element-wise fields keep the user's dictionary; after a change they give the old functions at the last time and the new ones at any other (`c77_field_shared_fails`).
* C79: restoring a mesh or space pops its parameters from the loaded dictionary, and objects that share a dictionary share it in the file. A mesh, space or form that is twice in a list, and an algebraic dual form saved with its prime, cannot be read in a new session: `KeyError` (`c79_twice_false`).
* C79: only the last mesh is cached: with forms on meshes A, B, A the first and the last form are on different mesh objects after reading (`c79_shared_mesh_false`). The cache compares `str(parameters)`; arrays with equal first 8 digits (or long ones) have equal texts, and the first mesh is used for both (`c79_tags_false`).
* C79: `1-e` and the local trace forms are not in the list of classes of `read` (`c79_readable`). A dual form made with a name comes back as `AD_PRIME_...` (`c79_dual_name`). `save('a.b')` writes `a_b.mi`, `read('a.b')` opens `a.b.mi` (`c79_filename_false`).
* C80: two regions that meet at two sides (`U`–`L` and `R`–`D`), with one of the two sides of each listed in a common boundary: the check of a crack looks at the opposite side only and takes `R` and `L` for the two faces of one crack, and the pairing check then sees only `U` and `D`, which do not coincide; the domain is accepted (`c80_listing_needed`). A ring of two regions, which meet at both ends, is refused although it is a valid domain: `index` finds the first of two sides (example in Props/Domain).
* C82: when an edge element has four positions its list is put aside and deleted; a fifth position starts a new list, which then replaces the first (`c82_locations`, `c82_positions_lost`). Where five or more mesh elements meet at an edge (or more than eight at a node) positions are missing, and with them shared elements and boundaries.
* C83: a 2d trace form's number of local dofs stays 0 (`c83_local_num_2d_counterexample`); the numbering of a non-hybrid 2-trace form raises when all degrees are 1, as there is no internal dof to remove (`c83_degree_one_counterexample`); asking for the positions of a dof that occurs twice in an element raises (`c83_positions_counterexample`); `trace_element_position` assumes that the sides share no dof, so it is wrong for non-hybrid forms (`c83_te_position_counterexample`).
* C85: 1-trace forms use two rows of the inverse Jacobian matrix of the 3D element to reconstruct and to build mass matrices. On elements
  whose third direction is not orthogonal to the side the reconstructed vector has a normal part, and this part depends on which of
  the two elements is the characteristic one (`c85_1_counterexample`: two affine elements).
* C85: Local trace forms (`_0ltf`, `_2ltf`) call the metric of a trace element with the three coordinates of the element's own side. The
  trace element evaluates it in its characteristic element, which may be the neighbour; then the metric is taken at the far side of
  the neighbour. On a tapered neighbour the 2-form on the side is wrong by a factor 3 (`c85_local_counterexample`). The test in the
  repository compares on a mesh where all elements are equal cubes.
* C86: the same two causes make the mass matrices wrong: those of 1-traces differ by a factor 2 between the two elements of a side
  (`c86_1_counterexample`); on a side whose characteristic element is a tapered neighbour the direct matrices of local 0- and
  2-traces are off by 1/3 and 3, the reference computation of 2-traces by 9 (`c86_local_counterexample`).
* C87: marks of trace elements of orthogonal regions contain their sizes in the region, not the lengths of the region.  With a unit
  cube and a cube of side 2 as regions, the trace mass matrices of the second are those of the first, a quarter of the right ones
  (`c87_cached_counterexample`); the constant Jacobian in a cube of side 2 is 1/4 instead of 1 (`c87_jacobian_counterexample`).
  In transfinite regions trace elements have no mark at all (`c87_kinds`).
* C88: the error of a 2-trace fails with an index error (`c88_2_counterexample`), that of a 1-trace ignores the third component
  (`c88_1_counterexample`); without trace elements the error is -1.
* C89: boundary integrals of 1-forms (3D) and outer 0-forms (2D) evaluate the functions at the points of the reference element
  (`c89_1_counterexample`, `c89_0_counterexample`); in 2D the weights of the sides are exchanged, an exception for different
  degrees (`c89_0_degrees`); those of local 2-traces contain the Jacobian twice (`c89_lt2_counterexample`).
* C90: a process whose faces have no constant normal is passed over, so the vector may be wrong on its faces
  (`c90_cores_counterexample`).  `T_perp` of a boundary-wise vector and of a standard vector have opposite signs on the sides N, W,
  B (`c90_perp_counterexample`).
* C91: the conditions of the dual trace form are also worked out on the boundaries of the form, so a boundary-wise function given
  only on the boundaries of the dual form raises (`c91_dual_everywhere`).
* C92: the zero blocks of `A.blocks` take their sizes from the flattened list of variables, so they are wrong if one row of blocks
  has several variables (`c92_nested_counterexample`); customizations of `A` (strong boundary conditions) are not in the blocks
  (`c92_customized_counterexample`), and the Schur solver of rank 2 reads the blocks; a part with a row of None blocks only cannot
  be assembled (`c92_unnumbered`).
* C93: `local_dofs_on_element_side` and `dofs_on_element_side` of a hybrid local trace form share one cache per side but store
  different things in it (all local numbers; first and past-the-last). After the first, the second raises unless the side has two
  dofs (then it gives a wrong slice); after the second, the first answers with two numbers (`c93_side_cache_counterexample`).
* C94: the setter of `cochain.globe` of dual trace forms always raises for a `DistributedVector` (`globe.IS_master_dominating` and
  `self._dt_.numbering` do not exist); both setters start from `np.empty` when gathering (as C38).
* C94: `error.dH(dt, dfunc, time=t)` of a dual form sets the time of `dfunc` only; the first part of the norm uses the current time of
  the form's own function.
* C95: `_1s` and `_2s/special/vortex_detection.py` compute `S**2 + Omega**2` entry by entry instead of the matrix products, so `Q` is minus
  half the sum of the squared diagonal entries of the gradient: never positive, and 0 for a rigid rotation, where it should be 1.
* C95: `project.to.vector_of_3_standard_0forms` uses `self._sf_.IS_hybrid`, which does not exist (`_1s/project/to.py` 58, 65, 72; `_2s` 22, 27,
  32, which also pass an unknown keyword); both and `Q_and_lambda2` always raise. They are modelled behind these calls.
* C96: the exports of vector fields, 1-forms and 2-forms on triangular meshes evaluate at `np.linspace(-0.99, 1, p+1)` (to stay away from the
  singular vertex) but write the points of the mesh grid: points are displaced by up to 1/200 of the height of an element, and the place and value
  written for a point shared by elements are those of the element that comes last in the merged dictionary.
* C97: with p = 1 the reconstruction of the 2-form of a constant density on a triangle is not constant: it is c/(y + 1) in the reference
  coordinate y, unbounded towards the singular vertex.
* C98: the L2 norm of a reconstructed 2-form on a triangle does not exist unless its density vanishes on the singular side (the integrand behaves
  like 1/(y + 1)); the mass matrix gives a number that depends on the quadrature (c98_two_forms_fails).
* C98: keys of triangles are four offsets printed with four decimals. In a mesh with sides of 0.00001 all elements have the same key, and the mass
  matrix (and the inverse Jacobian matrix used in reconstruct) of one element is used for another (c98_cache_fails).
* C98: `cache.py` line 83 calls the method with the keyword `item`, which does not exist (`itmD` is meant): TypeError as soon as intermediate data
  are used in a mesh with keys (c98_intermediate_fails). No caller in the repository does so.
* C99: `operators.inner` of an inner with an outer 1-form multiplies the components of the two bases without the turn of the outer basis: for the
  triangle (0,0), (2,0), (0,1) two fields that are orthogonal everywhere get the product -1/4 (c99_mixed_fails).
* C99: `_0x1_ip_1.py` keeps its tensors under the keys of `u` and says that orientations do not matter. The transition edges of `e` are part of the tensor: with
  `u` inner and `e` outer, in a mesh of two cut squares, element 3 gets the tensor of element 1, with the opposite sign (c99_triple_cache_fails).
* C99: for odd n the n-th powers are taken without absolute values: the energy of the constant -1 is negative, its norm nan (c99_odd_fails).
* C100: the result of an operation on two fields takes the `valid_time` of one of them: the sum of a field valid always and one valid at time 1 is
  evaluated at time 2 (c100_time_fails).
* C100: `do.inner_product` of two vector fields on a triangular mesh returns the vector of the two products instead of their sum (c100_tri_inner_fails).
* C100: `inner_product_with_space_of` compares the class name with `_2Form` and `_1Form`; the classes are called `_3dCSCG_2Form` and so on, so that every
  form is refused (c100_test_refused_fails).
* C100: in 3D the results of sums, products, curls and divergences are objects that the differentiation refuses (in 2D it accepts them); `numpy.float64`
  numbers are refused as factors (c100_not_closed, c100_float64).
* C101: `LocallyFullVector(forms, chain_method='sequent')` assembles the local cochains, so the value of a dof shared by two elements is doubled; the
  method 'silly' does not do this (c101_sequent_fails).
* C101: `==` of chains of gathering matrices does not compare the methods, so `LinearSystem(A, b)` accepts `A` numbered by 'sequent' and `b` by 'silly'
  (c101_accepted_system_fails).
* C101: `distributed_to` accepts vectors that are too long without a word (c101_accepted); by default the solving routine made by `solve('direct')` can be
  called only once, because it removes `b` (c101_direct).
* C102: the example in the documentation of `solve` (`solve('gmres', routine='auto')`, then a call with `preconditioner='spiLU'` and without `x0`) fails: the
  name is 'GMRES', `x0` is required, and the routines chosen by 'auto' refuse spiLU (c102_documented_fails).
* C102: by default (`COD=True`) the library's own routines also clear the vector the user gave as `x0` (c102_guess_cleared). `COD=None` means True for the
  direct solver and False for the others (c102_kept, c102_cleared).
* C103: `auto_save_frequency=n` does not save every n steps: the step is skipped if less than a tenth of the save time has passed (c103_every_fails). With
  real-time monitoring and no other saving, the time of the last save is set at every step whether it was saved or not, so a run of steps of less than ten
  seconds is never saved before its end (c103_realtime_never). An iterator of which only `dt` is given (9999999 steps) raises after its first step
  (c103_open_fails). Names like './run' are refused, because a name with a dot has to end with '.csv' (c103_filename).
* C104: the result of `+`, `-` or a multiple has no define parameters, so it cannot be saved (c104_save_fails). Forms with and without hybridization can be
  added; the result has the flag of the left one, and a form without hybridization then has different values in elements sharing a dof (c104_mixed_fails).
  `sharing_physical_locations` sets `hybrid` to False in the define parameters of the form, so a hybrid form that is saved later is read without
  hybridization (c104_sharing_fails).
* C106: `chp1.py` 47 places the corners at `0.5 * sqrt(r)`, so the hole of `CircleHolePlate1` has radius `sqrt(r/2)`; this is `r` for the default `r = 0.5`
  only (c106_plate1_fails). Both plates check `r < min(hx, hy)` instead of half of it, so holes that stick out of the plate are accepted
  (c106_plate2_fails). `cic.py` 51-52 check `r > 0` where `li > 0` and `lo > 0` are meant (c106_lengths_fails); building the regions stops later for negative ones.
* C107: `flow_round_cylinder.py` 55-65: the inlet velocity is given for all points with x < -(r + l_inlet), but the channel begins at x = -h/2 - l_inlet; on the walls between the two the boundary velocity is the inlet velocity (`c107_walls_fails`)
* C108: `accepts.py` 152-158: `x` in a shape requires nothing and extra dimensions are not noticed, so `shape=(4,x)` accepts arrays of shape (4,) and (4,5,6); the `break` in 164 skips an `ndim` after a shape; keyword arguments are not checked (76) (`c108_shape_fails`, `c108_ndim_fails`, `c108_keywords_fails`)
* C109: `node/elements/do/find/main.py` 129-130 and 176-177: the results of all cores are merged with `update(EE)`, but a core without the node element sends `None`: `TypeError` on all cores as soon as one core lacks the node (`c109_cores_fails`); the function for edge elements has the missing test
* C110: `_0s/special/main.py` 129-130: `hybrid_pairing` does not call the setting at nodes (commented out), and line 755 ff. (corner without Dirichlet boundary) announces skipped edge dofs but skips none; the column emptied there is left unnumbered by the numbering of edge dofs, so no wrong result follows
* C111: `discreteFields/base/portion.py` 38-41, 59-60: limits and grid are taken along `s = 0` and `r = 0` only and assumed increasing: turned regions (x decreasing with r) give no data (`c111_turned_fails`), slanted or curved ones give data outside the rectangle (`c111_slanted_fails`); regions that touch the rectangle lose their points on the common side (`c111_touch_fails`)
* C112: `coordinate_transformation/helpers/value_cache.py` 63-64, 72-73: the intermediate data are passed as a further positional argument, but the methods of the elements take `J`, `detJ`, `iJ` by keyword only; so they land in `*evaluationPoints` and are never used: the values are right, but everything is computed again (and intermediate data of another mesh are accepted without effect)
* C113: `ir_chain_matrix/main.py` 27: a comma inside `'iR_Chain_Gathering_Matrix,'` makes a single chain refused (`c113_single_fails`); 48, 115: `___NUM___` counts the list before chains are opened, so a list of one chain returns the vectors of its first matrix only (`c113_wrapped_fails`); 144-149: `==` compares `___NUM___`, so [a, b] equals [chain(a, b), c], the reverse is an IndexError, and the same matrices given in two ways differ (`c113_equal_fails`)
* C114: `unstructuredGridToVTK.py` 78: `del _xyz` raises UnboundLocalError for one object (`c114_single_fails`); 208-209, 412-414: in periodic domains nodes of opposite sides have one number, so the coordinates of one side are overwritten (`c114_periodic_fails`); `gridToVTK.py` 90-91: coordinates are only taken for the first region of a core and used for all its files (`c114_regions_fails`)
* C115: `sparseMatrix/customize.py` 23-25: `clear` does not look at the locks that all other methods respect (`c115_clear_fails`, `c115_clear_sparsity_fails`); `sparseMatrix/main.py` 263-330: the setter of gathering matrices keeps the saved places, so the matrix is assembled in the old numbering (`c115_gather_fails`)
* C116: `export/field.py` 69-73: the master looks up all its elements also if only some regions were reconstructed (KeyError), and `regionwsie_stack` needs all elements, so `to_file(regions=...)` with a proper part of the regions writes nothing (`c116_subset_fails`)
* C117: `_2f_hybrid_pairing_check_.py` 59, 65: `ba[i] != 0` refuses right systems with a zero boundary value (`c117_zero_fails`); 56-62: the row of `D` is not looked at for Neumann rows (`c117_neumann_fails`)
* C119: `matrix_simplify.py` 15, 18: only as many columns as rows are looked at, so `[[0,0,1,0],[0,0,1,1]]` is not reduced (`c119_wide_fails`) and two equal rows `[0,0,1,-1]` leave the last row nonzero, which `_0sf.py` 507-510, 532-535 takes as "not singular" (`c119_singular_fails`; whether the callers can make such matrices is not settled); 9-13: one row that begins with zero is not scaled (`c119_row_fails`)
* C120: `check_filename.py` 21-26: `a.b.txt` and `a_b.txt` are exported to the same file (`c120_dots_fails`)

Found by reading, outside the properties: the derivative checks divide by the numerical
derivative, so one point where it is zero switches the relative test off for all points (`c74_zero_node`), and
`check_partial_z` divides by the given derivative instead; a bare chain passed to the chaining function is rejected because of a misspelt
class name; `shared_rows` of a csr global matrix is always empty (same cause as C24); `reset_cache` of sparse matrices
raises AttributeError; `customize.clear` works on locked objects; on triangular meshes `cochain.globe` asks for
`num.global_dofs`, which does not exist (only `GLOBAL_dofs`), the cached coordinate transformation is called with an unknown
keyword, and the mass matrices of triangles are shared by a key that is rounded to four decimals (as in C58); `edge_elements_attached_to_element`
and `trace_elements_attached_to_element` of node elements update a set with `None` (TypeError) when a core does not hold the
node; the walk from a boundary side never ends if no link touches the current side; `do.p_refine` of
a local trace form does not pass `hybrid` on, so a non-hybrid one becomes hybrid, and names every result a 0-form.