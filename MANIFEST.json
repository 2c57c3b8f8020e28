{
 "claims": [
  {
   "property": "C01",
   "status": "proved",
   "theorems": [
    "Mifem.Props.c01_silly_chain",
    "Mifem.Props.c01_total",
    "Mifem.Props.c01_flatten"
   ],
   "note": "For every accepted list of gathering matrices/chains on any number of cores."
  },
  {
   "property": "C02",
   "status": "partial",
   "theorems": [
    "Mifem.Props.c02_sequent_partial",
    "Mifem.Props.c02_naive",
    "Mifem.Props.c02_naive_grows",
    "Mifem.Props.noRepeat_of_labels",
    "Mifem.Props.noRepeat_all",
    "Mifem.Props.c02_counterexample"
   ],
   "note": "Proved when every member introduces its dofs in increasing blocks along the elements, and for every chain of naively numbered forms on one mesh where no element repeats a dof (c02_naive); false otherwise (c02_counterexample: dofs never renumbered collide at 0)."
  },
  {
   "property": "C03",
   "status": "partial",
   "theorems": [
    "Mifem.Props.c03_search",
    "Mifem.Props.c03_find_elements_partial",
    "Mifem.Props.c03_local_indices",
    "Mifem.Props.c03_scan",
    "Mifem.Props.c03_counterexample"
   ],
   "note": "Exact result of the search characterised (first N holders); complete when at most N local elements share the dof; c03_counterexample shows that the default limit drops elements otherwise. Full scans are exact (c03_scan)."
  },
  {
   "property": "C04",
   "status": "partial",
   "theorems": [
    "Mifem.Props.c04_grid_partial",
    "Mifem.Props.c04_region_is_grid",
    "Mifem.Props.c04_one_region_partial",
    "Mifem.Props.c04_any_mesh",
    "Mifem.Props.c04_not_always"
   ],
   "note": "all forms on one-region meshes with any periodic directions, degree and numbering scheme, and any mesh whose numbers follow the grid; false for some multi-region meshes (c04_not_always)"
  },
  {
   "property": "C05",
   "status": "partial",
   "theorems": [
    "Mifem.Props.c05_side_dofs_partial",
    "Mifem.Props.c05_exception",
    "Mifem.Props.c05_not_always",
    "Mifem.Props.meshMap_conforming",
    "Mifem.Props.sideDofs_2d1i",
    "Mifem.Props.sideDofs_2d1o",
    "Mifem.Props.sideDofs_3d2"
   ],
   "note": "2D 1-forms and 3D 2-forms on every conforming map for which the numbering succeeds; the numbering raises KeyError on some valid meshes (c05_not_always)"
  },
  {
   "property": "C06",
   "status": "proved",
   "theorems": [
    "Mifem.Props.c06_independent_of_ranks"
   ],
   "note": "numbering depends only on the concatenation of the elements of the cores"
  },
  {
   "property": "C07",
   "status": "proved",
   "theorems": [
    "Mifem.Props.c07_rot_grad_eq_zero",
    "Mifem.Props.c07_div_curl_eq_zero"
   ],
   "note": "integer matrix product is the zero matrix for all degrees"
  },
  {
   "property": "C08",
   "status": "proved",
   "theorems": [
    "Mifem.Props.c08_curl_grad_eq_zero",
    "Mifem.Props.c08_div_curl_eq_zero"
   ],
   "note": "all degrees"
  },
  {
   "property": "C09",
   "status": "proved",
   "theorems": [
    "Mifem.Props.c09_2d_grad_kernel",
    "Mifem.Props.c09_2d_rot_kernel",
    "Mifem.Props.c09_2d_rot_onto",
    "Mifem.Props.c09_2d_curl_kernel",
    "Mifem.Props.c09_2d_div_kernel",
    "Mifem.Props.c09_2d_div_onto",
    "Mifem.Props.c09_3d_grad_kernel",
    "Mifem.Props.c09_3d_curl_kernel",
    "Mifem.Props.c09_3d_div_kernel",
    "Mifem.Props.c09_3d_div_onto"
   ],
   "note": "kernel = image at every step, over any coefficient ring"
  },
  {
   "property": "C10",
   "status": "proved",
   "theorems": [
    "Mifem.Props.c10_2d_form0",
    "Mifem.Props.c10_2d_form2",
    "Mifem.Props.c10_2d_inner1",
    "Mifem.Props.c10_2d_outer1",
    "Mifem.Props.c10_3d_form0",
    "Mifem.Props.c10_3d_form1",
    "Mifem.Props.c10_3d_form2",
    "Mifem.Props.c10_3d_form3"
   ],
   "note": "bijection of the disjoint union of the components onto 0..num_basis-1"
  },
  {
   "property": "C11",
   "status": "proved",
   "theorems": [
    "Mifem.Props.c11_2d_grad",
    "Mifem.Props.c11_2d_curl",
    "Mifem.Props.c11_3d_grad",
    "Mifem.Props.c11_3d_curl"
   ],
   "note": "for every list of gluings of parallel sides; shared dofs are the equivalence closure of the side gluing"
  },
  {
   "property": "C12",
   "status": "proved",
   "theorems": [
    "Mifem.Props.c12_cache_faithful",
    "Mifem.Props.c12_out_of_range",
    "Mifem.Props.c12_mixed_constant_key"
   ],
   "note": "any history of reads and customizations of one object; reserved keys handled as the code does; c12_mixed_constant_key shows the condition on the reserved key is needed"
  },
  {
   "property": "C13",
   "status": "partial",
   "theorems": [
    "Mifem.Props.c13_partial",
    "Mifem.Props.c13_sum_of_constant_and_varying",
    "Mifem.Props.c13_swapped"
   ],
   "note": "false of the code: the key of v1+v2 is the key of v1 twice; counterexample proved; holds when v1 is no_cache (default) or v2 constant or v2 is v1"
  },
  {
   "property": "C14",
   "status": "partial",
   "theorems": [
    "Mifem.Props.c14_partial",
    "Mifem.Props.c14_binary_partial",
    "Mifem.Props.c14_customized_operand",
    "Mifem.Props.c14_customized_after_read",
    "Mifem.Props.c14_ambiguous_keys"
   ],
   "note": "false of the code when an operand of a cached object is customized, or when concatenated keys are ambiguous; counterexamples proved; proved for all programs of unary/binary/sum/bmat/concatenate objects otherwise, for all histories"
  },
  {
   "property": "C15",
   "status": "partial",
   "theorems": [
    "Mifem.Props.c15_clear_row_partial",
    "Mifem.Props.c15_set_entry_partial",
    "Mifem.Props.c15_identify_row_partial",
    "Mifem.Props.c15_counterexample"
   ],
   "note": "Proved for any number of cores for chains of both methods, if the dof is in no more local elements than the search limit (4 in 2D, 8 in 3D; method 'silly') or the condition of C02 holds ('sequent'). Counterexample: a dof in five elements of a 2D mesh is not fully cleared."
  },
  {
   "property": "C16",
   "status": "proved",
   "theorems": [
    "Mifem.Props.c16_assembly",
    "Mifem.Props.c16_distribution",
    "Mifem.Props.c16_vector",
    "Mifem.Props.c16_vector_distribution",
    "Mifem.Props.c16_locked",
    "Mifem.Props.c16_locked_pattern_changes"
   ],
   "note": "For any chunk size, formats, and distribution. With locked sparsity, under the documented proviso that the pattern does not change; a witness shows the proviso is needed."
  },
  {
   "property": "C17",
   "status": "partial",
   "theorems": [
    "Mifem.Props.c17_set_unknown_partial",
    "Mifem.Props.silly_ascending"
   ],
   "note": "Equivalence of the solution sets; same limits as C15."
  },
  {
   "property": "C18",
   "status": "partial",
   "theorems": [
    "Mifem.Props.c18_diagonal_partial",
    "Mifem.Props.c18_off_diagonal_partial",
    "Mifem.Props.parseDofs_spec",
    "Mifem.Props.parseCochains_spec",
    "Mifem.Props.c18_counterexample"
   ],
   "note": "Proved when every element having a boundary dof has it on one of its boundary sides. Counterexample: re-entrant corner of an L-shaped domain."
  },
  {
   "property": "C19",
   "status": "partial",
   "theorems": [
    "Mifem.Props.c19_replace",
    "Mifem.Props.c19_distribute_assemble",
    "Mifem.Props.c19_assemble_distribute",
    "Mifem.Props.c19_add_partial",
    "Mifem.Props.c19_counterexample"
   ],
   "note": "Both round trips in full. Mode 'add' only when no vector of the gathering matrix repeats a number; with repeats the sum is wrong (counterexample)."
  },
  {
   "property": "C20",
   "status": "partial",
   "theorems": [
    "Mifem.Props.c20_add_partial",
    "Mifem.Props.c20_counterexample",
    "Mifem.Props.c20_counterexample_repeat"
   ],
   "note": "Formats 'array' and 'csr' give the sum of contributions if column numbers are not repeated within one vector; format 'csc' returns the transpose (counterexample)."
  },
  {
   "property": "C21",
   "status": "proved",
   "theorems": [
    "Mifem.Props.c21_matched",
    "Mifem.Props.c21_send_once",
    "Mifem.Props.c21_reduction",
    "Mifem.Props.c21_completes"
   ],
   "note": "All interleavings of the cores, with sends that wait and that do not; ordered sum on the root in any additive monoid, progress and termination."
  },
  {
   "property": "C22",
   "status": "partial",
   "theorems": [
    "Mifem.Props.c22_small",
    "Mifem.Props.c22_dispatch_partial",
    "Mifem.Props.c22_completes",
    "Mifem.Props.c22_counterexample",
    "Mifem.Props.c22_chaining"
   ],
   "note": "Dispatching for tasks that do not compare equal to the stop message; a task equal to it is not executed and the master waits forever (counterexample). Chaining in full."
  },
  {
   "property": "C23",
   "status": "proved",
   "theorems": [
    "Mifem.Props.c23_groups",
    "Mifem.Props.c23_size"
   ],
   "note": "Every number of cores, every requested size (any integer) or number of groups from 1 to the number of cores."
  },
  {
   "property": "C24",
   "status": "partial",
   "theorems": [
    "Mifem.Props.c24_matvec_partial",
    "Mifem.Props.c24_counterexample"
   ],
   "note": "Proved for csr matrices, for matrices on the master only and for locally full vectors. False for csc matrices spread over cores: nonempty_columns is always empty, so the product is zero."
  },
  {
   "property": "C25",
   "status": "proved",
   "theorems": [
    "Mifem.Props.c25_matmul"
   ],
   "note": "Also characterises when an error is raised."
  },
  {
   "property": "C26",
   "status": "proved",
   "theorems": [
    "Mifem.Props.c26_split"
   ],
   "note": "Every sparsity pattern and positive splitting factor."
  },
  {
   "property": "C27",
   "status": "partial",
   "theorems": [
    "Mifem.Props.c27_global",
    "Mifem.Props.c27_distributed_partial",
    "Mifem.Props.c27_counterexample",
    "Mifem.Props.c27_counterexample_twice"
   ],
   "note": "Global and locally full vectors: complete. Distributed vectors: not when all data is on the master and another core is chosen (zeros are returned), nor when a core stores an index twice (values are overwritten)."
  },
  {
   "property": "C28",
   "status": "partial",
   "theorems": [
    "Mifem.Props.c28_partial",
    "Mifem.Props.c28_forced",
    "Mifem.Props.c28_counterexample",
    "Mifem.Props.c28_inverted"
   ],
   "note": "The loop stops after at most maxiter restarts and info 0 implies that one of the coded criteria holds; the relative criterion of the code is inverted, so success can be reported without convergence (counterexample)."
  },
  {
   "property": "C29",
   "status": "partial",
   "theorems": [
    "Mifem.Props.c29_stop",
    "Mifem.Props.c29_forced",
    "Mifem.Props.c29_guess_partial",
    "Mifem.Props.c29_counterexample"
   ],
   "note": "Stopping proved for every history; the customised initial guess is only applied after the first linearisation when it changes the guess (counterexample)."
  },
  {
   "property": "C30",
   "status": "partial",
   "theorems": [
    "Mifem.Props.c30_caches",
    "Mifem.Props.c30_bounded_partial",
    "Mifem.Props.c30_counterexample"
   ],
   "note": "No lookup fails and the right products are used for every k; the bound on the cache fails for k = 0 (counterexample), proved for k > 0."
  },
  {
   "property": "C31",
   "status": "partial",
   "theorems": [
    "Mifem.Props.c31_first_partial",
    "Mifem.Props.c31_later",
    "Mifem.Props.c31_counterexample"
   ],
   "note": "The shadow residual is an alias of the residual buffer; from the second round on it is the residual after the first round (proved), not the initial one (counterexample)."
  },
  {
   "property": "C32",
   "status": "partial",
   "theorems": [
    "Mifem.Props.c32_schur_partial",
    "Mifem.Props.c32_counterexample"
   ],
   "note": "Equivalence of the reduced and the full system (solutions correspond, including the recovered blocks) for any field, any number of elements and sizes, when rows and columns of the remaining blocks share a gathering matrix. With different gathering matrices the right hand side is assembled with the wrong one: counterexample."
  },
  {
   "property": "C33",
   "status": "partial",
   "theorems": [
    "Mifem.Props.c33_run_partial",
    "Mifem.Props.c33_each_step_once",
    "Mifem.Props.c33_resume",
    "Mifem.Props.c33_resume_after_stop",
    "Mifem.Props.c33_text_reason",
    "Mifem.Props.c33_call_again",
    "Mifem.Props.c33_enough_steps"
   ],
   "note": "Steps are computed once and in order, time advances by dt, a shut-down stops the run, resuming skips the recorded steps. Partial: false for three situations, each proved as a counterexample (record of a stopped run resumes past the stop; a text as shut-down reason raises; calling the iterator again computes nothing). Times are exact numbers instead of floats."
  },
  {
   "property": "C34",
   "status": "proved",
   "theorems": [
    "Mifem.Props.c34_default",
    "Mifem.Props.c34_chaotic",
    "Mifem.Props.c34_whole_regions",
    "Mifem.Props.c34_swv0",
    "Mifem.Props.c34_optimized",
    "Mifem.Props.c34_numbering_agrees"
   ],
   "note": "all four methods and the 3D optimisation, any number of cores, regions and elements; rounding of the load factors is arbitrary (downwards)"
  },
  {
   "property": "C35",
   "status": "proved",
   "theorems": [
    "Mifem.Props.c35_element_numbering",
    "Mifem.Props.c35_monotone"
   ],
   "note": "all numbering schemes of the 2D and 3D meshes, any contents of uninitialised arrays; lookup is the inverse of the numbering"
  },
  {
   "property": "C36",
   "status": "proved",
   "theorems": [
    "Mifem.Props.c36_symmetric",
    "Mifem.Props.c36_neighbour",
    "Mifem.Props.c36_periodic",
    "Mifem.Props.c36_periodic_short_side",
    "Mifem.Props.c36_periodic_transposed_side"
   ],
   "note": "symmetry for every mesh whose element map can be made; position of the neighbours; findings on periodic pairs whose sides have different layouts"
  },
  {
   "property": "C37",
   "status": "proved",
   "theorems": [
    "Mifem.Props.c37_rejects_new",
    "Mifem.Props.c37_accepts_existing",
    "Mifem.Props.c37_names_fixed",
    "Mifem.Props.c37_melt",
    "Mifem.Props.c37_standard_properties",
    "Mifem.Props.c37_signature"
   ],
   "note": "Invariant over all sequences of assignments and freezes. c37_signature: the reserved property signature can be neither read nor assigned (finding)."
  },
  {
   "property": "C38",
   "status": "partial",
   "theorems": [
    "Mifem.Props.c38_globe",
    "Mifem.Props.c38_roundtrip",
    "Mifem.Props.c38_roundtrip_direct_partial",
    "Mifem.Props.c38_counterexample",
    "Mifem.Props.c38_locally_full",
    "Mifem.Props.c38_dofwise"
   ],
   "note": "Round trip proved for forms sharing dofs on any number of cores, with or without zeros; for hybrid forms and forms of the highest degree only without zeros or on one core, as zeros come back as uninitialised memory (counterexample). Exact arithmetic."
  },
  {
   "property": "C39",
   "status": "partial",
   "theorems": [
    "Mifem.Props.c39_interpret_partial",
    "Mifem.Props.c39_counterexample",
    "Mifem.Props.c39_cache",
    "Mifem.Props.c39_cache_counterexample",
    "Mifem.Props.c39_boundary_cochain"
   ],
   "note": "Proved for all interleavings in which no address is used twice; with an address used again (by an allocator that respects live objects) stale dofs are returned (counterexample). The cache of boundary cochains is correct if identities determine contents, and is stale when the same list object is changed and assigned again."
  },
  {
   "property": "C40",
   "status": "proved",
   "theorems": [
    "Mifem.Props.c40_take_closest",
    "Mifem.Props.c40_take_closest_empty",
    "Mifem.Props.c40_break_list",
    "Mifem.Props.c40_break_list_any"
   ],
   "note": "Binary search modelled as bisect_left; numbers from any linearly ordered commutative group."
  },
  {
   "property": "C41",
   "status": "proved",
   "theorems": [
    "Mifem.Props.c41_hms",
    "Mifem.Props.c41_dhms",
    "Mifem.Props.c41_text",
    "Mifem.Props.c41_dhmsm_partial",
    "Mifem.Props.c41_dhmsm_negative"
   ],
   "note": "Texts as lists of characters, seconds exact rationals. The variant with milliseconds holds for durations that are not negative and is shown wrong for a negative one."
  },
  {
   "property": "C42",
   "status": "partial",
   "theorems": [
    "Mifem.Props.c42_chain_cache_partial",
    "Mifem.Props.c42_bounded",
    "Mifem.Props.c42_counterexample_key",
    "Mifem.Props.c42_counterexample_reuse"
   ],
   "note": "Proved for stamps of equal length without id reuse; both conditions are necessary (counterexamples)."
  },
  {
   "property": "C43",
   "status": "partial",
   "theorems": [
    "Mifem.Props.c43_3d_trace0",
    "Mifem.Props.c43_3d_trace1",
    "Mifem.Props.c43_3d_trace2",
    "Mifem.Props.c43_3d_cancel",
    "Mifem.Props.c43_3d_gauss",
    "Mifem.Props.c43_2d_trace_partial",
    "Mifem.Props.c43_2d_cancel",
    "Mifem.Props.c43_2d_not_outward"
   ],
   "note": "proved in 3D; in 2D the signs on U and D are not outward (negation proved), and three of four 2D trace matrices raise AttributeError"
  },
  {
   "property": "C44",
   "status": "partial",
   "theorems": [
    "Mifem.Props.c44_transpose",
    "Mifem.Props.c44_scale",
    "Mifem.Props.c44_claim_row_partial",
    "Mifem.Props.c44_product_partial",
    "Mifem.Props.c44_counterexample_product",
    "Mifem.Props.c44_counterexample_column"
   ],
   "note": "Right for transposing, scaling, the row pattern and products with a row-distributed left operand. Wrong for csc matrices (always called 'column') and for other products."
  },
  {
   "property": "C45",
   "status": "proved",
   "theorems": [
    "Mifem.Props.c45_gather"
   ],
   "note": "All formats equal on the cores (csr or csc), which is what the tree gathering needs. Rounds of the tree are executed together; C21 shows that the order does not matter."
  },
  {
   "property": "C46",
   "status": "proved",
   "theorems": [
    "Mifem.Props.c46_residual"
   ],
   "note": "Exact arithmetic, linear A, preconditioner not modelled."
  },
  {
   "property": "C47",
   "status": "proved",
   "theorems": [
    "Mifem.Props.c47_minimal",
    "Mifem.Props.c47_never_increases",
    "Mifem.Props.c47_cores"
   ],
   "note": "Exact arithmetic, square root as a function with sqrt x * sqrt x = x, normal equations solved exactly, no division by zero."
  },
  {
   "property": "C48",
   "status": "proved",
   "theorems": [
    "Mifem.Props.c48_kronecker",
    "Mifem.Props.c48_reproduces",
    "Mifem.Props.c48_sum_one",
    "Mifem.Props.c48_degree_sharp"
   ],
   "note": "over any linearly ordered field; exact arithmetic; c48_degree_sharp shows that degree p+1 is not reproduced"
  },
  {
   "property": "C49",
   "status": "proved",
   "theorems": [
    "Mifem.Props.c49_derivative",
    "Mifem.Props.c49_integral",
    "Mifem.Props.c49_reproduces"
   ],
   "note": "over the reals; exact arithmetic"
  },
  {
   "property": "C50",
   "status": "proved",
   "theorems": [
    "Mifem.Props.c50_grad",
    "Mifem.Props.c50_rot",
    "Mifem.Props.c50_curl",
    "Mifem.Props.c50_div",
    "Mifem.Props.c50_meshgrid"
   ],
   "note": "reference element, exact arithmetic, with the incidence matrices of the model of C03-C06"
  },
  {
   "property": "C51",
   "status": "proved",
   "theorems": [
    "Mifem.Props.c51_grad",
    "Mifem.Props.c51_curl",
    "Mifem.Props.c51_div",
    "Mifem.Props.c51_meshgrid"
   ],
   "note": "reference element, exact arithmetic"
  },
  {
   "property": "C53",
   "status": "proved",
   "theorems": [
    "Mifem.Props.c53_metric_3d",
    "Mifem.Props.c53_metric_2d",
    "Mifem.Props.c53_derivative_3d",
    "Mifem.Props.c53_derivative_2d"
   ],
   "note": "Exact arithmetic. That the region mapping reports its own derivative is a hypothesis here (see C55)."
  },
  {
   "property": "C54",
   "status": "proved",
   "theorems": [
    "Mifem.Props.c54_line_3d",
    "Mifem.Props.c54_flux_3d",
    "Mifem.Props.c54_volume_3d",
    "Mifem.Props.c54_line_2d",
    "Mifem.Props.c54_flux_2d",
    "Mifem.Props.c54_area_2d",
    "Mifem.Props.c54_matrix_3d",
    "Mifem.Props.c54_matrix_2d"
   ],
   "note": "Exact arithmetic; the Jacobian matrix of an element is an arbitrary invertible one per point."
  },
  {
   "property": "C56",
   "status": "proved",
   "theorems": [
    "Mifem.Props.c56_0form_3d",
    "Mifem.Props.c56_1form_3d",
    "Mifem.Props.c56_2form_3d",
    "Mifem.Props.c56_3form_3d",
    "Mifem.Props.c56_0form_2d",
    "Mifem.Props.c56_inner_1form_2d",
    "Mifem.Props.c56_outer_1form_2d",
    "Mifem.Props.c56_2form_2d",
    "Mifem.Props.c56_mixed_orientation_fails"
   ],
   "note": "Exact arithmetic, arbitrary quadrature points and weights. c56_mixed_orientation_fails: in 2D the code accepts an inner and an outer 1-form and returns another number."
  },
  {
   "property": "C57",
   "status": "partial",
   "theorems": [
    "Mifem.Props.c57_wedge_12_3d",
    "Mifem.Props.c57_wedge_30_3d_partial",
    "Mifem.Props.c57_wedge_11_2d",
    "Mifem.Props.c57_wedge_11_swap_2d",
    "Mifem.Props.c57_wedge_02_2d",
    "Mifem.Props.c57_1form_accepted",
    "Mifem.Props.c57_3form_refused",
    "Mifem.Props.c57_self_wedge_fails"
   ],
   "note": "The matrices are right for every pair; acceptance is false of the code: a 3D 3-form refuses every standard form because it looks for the class name `_0Form` (c57_3form_refused). In 2D the orientation is not checked (c57_self_wedge_fails)."
  },
  {
   "property": "C59",
   "status": "proved",
   "theorems": [
    "Mifem.Props.c59_0form_3d",
    "Mifem.Props.c59_1form_3d",
    "Mifem.Props.c59_2form_3d",
    "Mifem.Props.c59_3form_3d",
    "Mifem.Props.c59_0form_2d",
    "Mifem.Props.c59_inner_1form_2d",
    "Mifem.Props.c59_outer_1form_2d",
    "Mifem.Props.c59_2form_2d",
    "Mifem.Props.c59_symmetric_3d",
    "Mifem.Props.c59_symmetric_2d"
   ],
   "note": "Exact arithmetic; any linearly ordered field."
  },
  {
   "property": "C55",
   "status": "proved",
   "theorems": [
    "Mifem.Props.c55_edges",
    "Mifem.Props.c55_arcs",
    "Mifem.Props.c55_transfinite_edges_2d",
    "Mifem.Props.c55_transfinite_derivative_2d",
    "Mifem.Props.c55_bilinear_2d",
    "Mifem.Props.c55_transfinite_sides_3d",
    "Mifem.Props.c55_transfinite_derivative_3d",
    "Mifem.Props.c55_planes_3d",
    "Mifem.Props.c55_orthogonal_3d",
    "Mifem.Props.c55_crazy_derivative_2d",
    "Mifem.Props.c55_crazy_derivative_3d",
    "Mifem.Props.c55_crazy_boundary",
    "Mifem.Props.c55_check_incomplete"
   ],
   "note": "Real arithmetic in place of floats. 3D sides have to agree on their common edges at all points; the library checks this at up to four points per edge only (c55_check_incomplete)."
  },
  {
   "property": "C60",
   "status": "partial",
   "theorems": [
    "Mifem.Props.c60_regular_2d",
    "Mifem.Props.c60_regular_3d",
    "Mifem.Props.c60_random_2d",
    "Mifem.Props.c60_random_3d_partial",
    "Mifem.Props.c60_folds"
   ],
   "note": "Exact thresholds in 2D and 3D. For 3D the claim fails for c in [0.276, 0.3): c60_folds."
  },
  {
   "property": "C58",
   "status": "partial",
   "theorems": [
    "Mifem.Props.c58_marks_3d",
    "Mifem.Props.c58_marks_2d",
    "Mifem.Props.c58_marks_parallelogram",
    "Mifem.Props.c58_cached_partial",
    "Mifem.Props.c58_leaf_ok",
    "Mifem.Props.c58_small_cubes",
    "Mifem.Props.c58_counterexample"
   ],
   "note": "False as documented: marks are rounded decimals, so all cubes with sides below 0.0004 share a mark and read each other's matrices (c58_counterexample). Proved: the same mark means sides equal up to 0.001001 (3D), 0.00011 (2D), 0.000011 (parallelograms); no mark is a proper prefix of another (what C14 needs of keys); cached reads are right whenever any two elements have equal sizes or differ by more than 0.001001 in some side."
  },
  {
   "property": "C61",
   "status": "proved",
   "theorems": [
    "Mifem.Props.c61_orientation",
    "Mifem.Props.c61_element_map",
    "Mifem.Props.c61_construct"
   ],
   "note": "orientation and symmetric element map for every conforming list of cells"
  },
  {
   "property": "C62",
   "status": "proved",
   "theorems": [
    "Mifem.Props.c62_onto",
    "Mifem.Props.c62_edges",
    "Mifem.Props.c62_not_folded",
    "Mifem.Props.c62_jacobian",
    "Mifem.Props.c62_area"
   ],
   "note": "onto, edges, positive determinant and injectivity away from the singular vertex over ordered fields; derivatives, Heron area and integral over the reals"
  },
  {
   "property": "C63",
   "status": "proved",
   "theorems": [
    "Mifem.Props.c63_numbering",
    "Mifem.Props.c63_gathering0",
    "Mifem.Props.c63_gathering1_outer",
    "Mifem.Props.c63_gathering1_inner",
    "Mifem.Props.c63_zero_forms",
    "Mifem.Props.c63_one_forms_outer",
    "Mifem.Props.c63_one_forms_inner",
    "Mifem.Props.c63_two_forms",
    "Mifem.Props.c63_points"
   ],
   "note": "refinement to the order in which the entities of the mesh are met; gap-free numbers shared exactly by equal entities; equal numbers are equal points for symmetric nodes"
  },
  {
   "property": "C64",
   "status": "proved",
   "theorems": [
    "Mifem.Props.c64_div_curl",
    "Mifem.Props.c64_rot_grad",
    "Mifem.Props.c64_grad_single_valued",
    "Mifem.Props.c64_curl_single_valued"
   ],
   "note": "Incidence matrices as the assignments of incidence_matrix.py, transition matrices as in IDT.py. Single-valued for every cochain that comes from a global vector through the gathering vectors of C63."
  },
  {
   "property": "C65",
   "status": "proved",
   "theorems": [
    "Mifem.Props.c65_zero_forms",
    "Mifem.Props.c65_inner",
    "Mifem.Props.c65_outer"
   ],
   "note": "Symmetric nodes and symmetric quadrature; exact arithmetic."
  },
  {
   "property": "C66",
   "status": "proved",
   "theorems": [
    "Mifem.Props.c66_grad",
    "Mifem.Props.c66_curl",
    "Mifem.Props.c66_div",
    "Mifem.Props.c66_rot"
   ],
   "note": "Polynomial fields, quadrature exact to the degree of the field; any transition signs."
  },
  {
   "property": "C52",
   "status": "proved",
   "theorems": [
    "Mifem.Props.c52_grad",
    "Mifem.Props.c52_curl",
    "Mifem.Props.c52_rot",
    "Mifem.Props.c52_div"
   ],
   "note": "polynomial mappings and fields; quadrature rules exact for the degrees that occur; the rules of 1- and 2-forms may differ"
  },
  {
   "property": "C67",
   "status": "proved",
   "theorems": [
    "Mifem.Props.c67_grad",
    "Mifem.Props.c67_curl",
    "Mifem.Props.c67_div"
   ],
   "note": "polynomial mappings and fields; quadrature rules exact for the degrees that occur; the rules of the two forms may differ"
  },
  {
   "property": "C68",
   "status": "proved",
   "theorems": [
    "Mifem.Props.c68_2d_0",
    "Mifem.Props.c68_2d_inner",
    "Mifem.Props.c68_2d_outer",
    "Mifem.Props.c68_3d_0",
    "Mifem.Props.c68_3d_1",
    "Mifem.Props.c68_3d_2",
    "Mifem.Props.c68_2d_0_global",
    "Mifem.Props.c68_2d_inner_global",
    "Mifem.Props.c68_2d_outer_global",
    "Mifem.Props.c68_3d_0_global",
    "Mifem.Props.c68_3d_1_global",
    "Mifem.Props.c68_3d_2_global",
    "Mifem.Props.c68_mesh_2d_0",
    "Mifem.Props.c68_mesh_2d_inner",
    "Mifem.Props.c68_mesh_2d_outer",
    "Mifem.Props.c68_mesh_3d_0",
    "Mifem.Props.c68_mesh_3d_1",
    "Mifem.Props.c68_mesh_3d_2",
    "Mifem.Props.c68_layouts_differ"
   ],
   "note": "Exact arithmetic over the reals; the numbering is the naive one. c68_layouts_differ: the mesh does not check that attached regions are cut at the same places, and without that the values differ."
  },
  {
   "property": "C69",
   "status": "proved",
   "theorems": [
    "Mifem.Props.c69_tiles",
    "Mifem.Props.c69_accepts",
    "Mifem.Props.c69_sizes",
    "Mifem.Props.c69_lobatto",
    "Mifem.Props.c69_cover",
    "Mifem.Props.c69_region"
   ],
   "note": "Any ordered field; in floating point the last partial sum and 1 can differ by rounding."
  },
  {
   "property": "C70",
   "status": "proved",
   "theorems": [
    "Mifem.Props.c70_gauss",
    "Mifem.Props.c70_lobatto",
    "Mifem.Props.c70_lobatto_sharp",
    "Mifem.Props.c70_lobatto_nodes",
    "Mifem.Props.c70_lobatto_limit",
    "Mifem.Props.c70_lobatto_zeros",
    "Mifem.Props.c70_newton_step",
    "Mifem.Props.c70_newton_found",
    "Mifem.Props.c70_prime",
    "Mifem.Props.c70_legendre",
    "Mifem.Props.c70_extended",
    "Mifem.Props.c70_gauss_exists",
    "Mifem.Props.c70_ndim",
    "Mifem.Props.c70_quad",
    "Mifem.Props.c70_exact"
   ],
   "note": "Exact numbers. scipy.special.legendre, roots_legendre and numpy's leggauss are taken to return what they document. That Newton's method ends in the zeros of the derivative is a hypothesis (found without error for p = 1, 2); c70_lobatto_limit covers points that are only close. 'Chebyshev' rules are not covered."
  },
  {
   "property": "C71",
   "status": "partial",
   "theorems": [
    "Mifem.Props.c71_3d_partial",
    "Mifem.Props.c71_curl1",
    "Mifem.Props.c71_skew_3d",
    "Mifem.Props.c71_2m0",
    "Mifem.Props.c71_3d_fails",
    "Mifem.Props.straight_eight",
    "Mifem.Props.c71_1_1_1_columns_fail",
    "Mifem.Props.c71_2d",
    "Mifem.Props.c71_skew_2d",
    "Mifem.Props.c71_inner_curl"
   ],
   "note": "In 2D, for curl1_cross_product and for the skew symmetry proved in full. The other five 3D helpers take the Jacobian determinant at the nodes in C order while weights and fields are in F order: the matrix is right where the two agree (c71_3d_partial) and wrong on a bent element (c71_3d_fails). The '2-M-0' output of cross_product_1f__ip_1f contracts the wrong axis (c71_1_1_1_columns_fail)."
  },
  {
   "property": "C72",
   "status": "partial",
   "theorems": [
    "Mifem.Props.c72_evaluate",
    "Mifem.Props.c72_evaluate_all",
    "Mifem.Props.c72_reduce",
    "Mifem.Props.eliminate_multi",
    "Mifem.Props.c72_derivative",
    "Mifem.Props.c72_residual",
    "Mifem.Props.c72_newton",
    "Mifem.Props.c72_global",
    "Mifem.Props.c72_step",
    "Mifem.Props.c72_linear",
    "Mifem.Props.c72_fixed",
    "Mifem.Props.c72_zero_rhs_fails",
    "Mifem.Props.c72_fixed_solution_fails"
   ],
   "note": "The linearisation is proved in full for three-axis terms. Two claims are false: a right hand side 0 is accepted but every evaluation raises (c72_zero_rhs_fails), and a fixed value is set only after the first linearisation, so info == 0 can come with a wrong solution (c72_fixed_solution_fails)."
  },
  {
   "property": "C73",
   "status": "partial",
   "theorems": [
    "Mifem.Props.c73_momentum",
    "Mifem.Props.c73_vorticity",
    "Mifem.Props.c73_derivatives",
    "Mifem.Props.c73_first_derivatives",
    "Mifem.Props.c73_divergence_free",
    "Mifem.Props.c73_stokes_divergence",
    "Mifem.Props.c73_dissipative",
    "Mifem.Props.c73_conservative",
    "Mifem.Props.c73_total_pressure",
    "Mifem.Props.c73_densities",
    "Mifem.Props.c73_stokes_force",
    "Mifem.Props.c73_stokes",
    "Mifem.Props.c73_poisson",
    "Mifem.Props.c73_wave",
    "Mifem.Props.c73_schrodinger",
    "Mifem.Props.c73_eigen",
    "Mifem.Props.c73_laplace",
    "Mifem.Props.c73_irrotational",
    "Mifem.Props.c73_mhd_force",
    "Mifem.Props.c73_mhd_divergence",
    "Mifem.Props.c73_mhd",
    "Mifem.Props.c73_mhd_as1_fails",
    "Mifem.Props.c73_magnetic",
    "Mifem.Props.c73_faraday",
    "Mifem.Props.c73_mass",
    "Mifem.Props.c73_ohm",
    "Mifem.Props.c73_momentum_2d",
    "Mifem.Props.c73_tgv2",
    "Mifem.Props.c73_dipole_partial",
    "Mifem.Props.c73_dipole_fails"
   ],
   "note": "False of the code in two places, proved with witnesses: the body force of MHD:as1 misses the documented momentum equation by grad(div u)/Rf, and the vorticity of the dipole collision with a negative first vortex is minus the curl of its velocity. Everything else is proved for the true derivatives and, where it holds, for the numerical ones."
  },
  {
   "property": "C74",
   "status": "proved",
   "theorems": [
    "Mifem.Props.c74_quadratic",
    "Mifem.Props.c74_error",
    "Mifem.Props.c74_limit",
    "Mifem.Props.c74_check",
    "Mifem.Props.c74_sound",
    "Mifem.Props.c74_complete",
    "Mifem.Props.c74_zero_node"
   ],
   "note": "Real arithmetic with an exact step; a quotient by zero has no value and no comparison with it succeeds."
  },
  {
   "property": "C75",
   "status": "partial",
   "theorems": [
    "Mifem.Props.c75_values_3d",
    "Mifem.Props.c75_scalar_3d",
    "Mifem.Props.c75_gradient_3d",
    "Mifem.Props.c75_curl_3d_partial",
    "Mifem.Props.c75_closed_3d_fails",
    "Mifem.Props.c75_algebra_3d",
    "Mifem.Props.c75_pointwise_3d",
    "Mifem.Props.c75_closed_2d",
    "Mifem.Props.c75_values_2d",
    "Mifem.Props.c75_pointwise_2d",
    "Mifem.Props.c75_identities_2d"
   ],
   "note": "Holds in 2D. In 3D derivatives of anything but plain functions, methods and gradients raise NotImplementedError, so curl().divergence() and derivatives of sums do not exist (c75_closed_3d_fails); the values obey the identities where they exist."
  },
  {
   "property": "C76",
   "status": "partial",
   "theorems": [
    "Mifem.Props.c76_even",
    "Mifem.Props.c76_definite",
    "Mifem.Props.c76_distribution",
    "Mifem.Props.c76_distance",
    "Mifem.Props.c76_norm",
    "Mifem.Props.c76_field",
    "Mifem.Props.c76_infinity",
    "Mifem.Props.c76_infinity_zero",
    "Mifem.Props.c76_samples",
    "Mifem.Props.c76_h_error",
    "Mifem.Props.c76_energy_2d",
    "Mifem.Props.c76_energy_2d_integral",
    "Mifem.Props.c76_energy_3d_partial",
    "Mifem.Props.c76_energy_3d_integral",
    "Mifem.Props.c76_energy_3d_raises",
    "Mifem.Props.c76_energy_3d_wrong",
    "Mifem.Props.c76_vectorized_inner1",
    "Mifem.Props.c76_vectorized_outer1",
    "Mifem.Props.c76_vectorized_top",
    "Mifem.Props.c76_amount",
    "Mifem.Props.c76_homogeneous",
    "Mifem.Props.c76_odd_cancels",
    "Mifem.Props.c76_odd_nan",
    "Mifem.Props.c76_upon",
    "Mifem.Props.c76_vector_field_2d"
   ],
   "note": "Even n, the infinity norm, H errors, 2D energies and the vectorized paths are proved. False for odd n (signed errors cancel: c76_odd_cancels, c76_odd_nan), for `upon` (c76_upon), for 2D vector fields (c76_vector_field_2d) and for 3D energies of forms in different spaces (c76_energy_3d_raises, c76_energy_3d_wrong)."
  },
  {
   "property": "C77",
   "status": "partial",
   "theorems": [
    "Mifem.Props.c77_memoize1_pinned",
    "Mifem.Props.c77_memoize1_partial",
    "Mifem.Props.c77_memoize1_fails",
    "Mifem.Props.c77_cross_key",
    "Mifem.Props.c77_cross_key_collides",
    "Mifem.Props.c77_memoize5",
    "Mifem.Props.c77_mesh_initialised",
    "Mifem.Props.c77_parse_dofs",
    "Mifem.Props.c77_bc_local_partial",
    "Mifem.Props.c77_bc_local_fails",
    "Mifem.Props.c77_bc_local_deleted_fails",
    "Mifem.Props.c77_boundary_cochain_partial",
    "Mifem.Props.c77_boundary_cochain_fails",
    "Mifem.Props.c77_boundary_cochain_dropped_fails",
    "Mifem.Props.c77_field_partial",
    "Mifem.Props.c77_field_shared_fails"
   ],
   "note": "memoize5, memoize1 of methods whose values keep the objects alive, and fields with private functions are right for all programs. Dictionaries keyed by id are right only if no object is dropped, BC.interpret.local only if each condition is interpreted right after it is set, boundary_cochain only if lists of names are neither changed in place nor dropped; counterexamples are proved."
  },
  {
   "property": "C78",
   "status": "proved",
   "theorems": [
    "Mifem.Props.c78_evaluate",
    "Mifem.Props.c78_evaluate_now",
    "Mifem.Props.c78_outputs_valid",
    "Mifem.Props.c78_first_instant"
   ],
   "note": "Exact outcome of every evaluation after every program, and validity of the times of all values."
  },
  {
   "property": "C79",
   "status": "partial",
   "theorems": [
    "Mifem.Props.c79_cochain",
    "Mifem.Props.c79_no_cochain",
    "Mifem.Props.c79_list_partial",
    "Mifem.Props.c79_flags",
    "Mifem.Props.c79_shared_mesh_partial",
    "Mifem.Props.c79_shared_mesh_false",
    "Mifem.Props.c79_twice_false",
    "Mifem.Props.c79_tags_false",
    "Mifem.Props.c79_readable",
    "Mifem.Props.c79_dual_name",
    "Mifem.Props.c79_filename",
    "Mifem.Props.c79_filename_plain",
    "Mifem.Props.c79_filename_false"
   ],
   "note": "cochains: full statement. Lists: proved for different objects whose parameters have different texts. False: an object twice in a list (also a dual form with its prime), meshes A, B, A in turn, parameters with equal text, 1-e and local trace forms, names of dual forms, file names with a dot"
  },
  {
   "property": "C80",
   "status": "partial",
   "theorems": [
    "Mifem.Props.c80_region_map_partial",
    "Mifem.Props.c80_neighbour",
    "Mifem.Props.c80_corners",
    "Mifem.Props.c80_corners_exact",
    "Mifem.Props.c80_symmetric",
    "Mifem.Props.c80_listed_once",
    "Mifem.Props.c80_listed",
    "Mifem.Props.c80_periodic",
    "Mifem.Props.c80_listing_needed",
    "Mifem.Props.c80_cuboid",
    "Mifem.Props.c80_rectangle",
    "Mifem.Props.c80_names_differ",
    "Mifem.Props.c80_names_ok"
   ],
   "note": "Everything is proved except that the two attached sides coincide when a side is listed in a boundary while a side that coincides with it is not: such a domain can be accepted with sides attached that do not coincide (c80_listing_needed). With c80_symmetric and c80_periodic the hypotheses of C36 on the region map follow from acceptance of the domain."
  },
  {
   "property": "C81",
   "status": "partial",
   "theorems": [
    "Mifem.Props.c81_tables0",
    "Mifem.Props.c81_tables1",
    "Mifem.Props.c81_tables1_other",
    "Mifem.Props.c81_tables0_other",
    "Mifem.Props.c81_edge_blocks",
    "Mifem.Props.c81_corner0",
    "Mifem.Props.c81_corner1",
    "Mifem.Props.c81_setting0",
    "Mifem.Props.c81_setting1",
    "Mifem.Props.c81_value0",
    "Mifem.Props.c81_value1",
    "Mifem.Props.c81_moved1",
    "Mifem.Props.c81_around_before",
    "Mifem.Props.c81_around",
    "Mifem.Props.c81_around_independent",
    "Mifem.Props.c81_chain_unique",
    "Mifem.Props.c81_chain_solvable",
    "Mifem.Props.c81_node",
    "Mifem.Props.c81_node_independent",
    "Mifem.Props.c81_number0",
    "Mifem.Props.c81_unused",
    "Mifem.Props.c81_number1",
    "Mifem.Props.c81_number1_all",
    "Mifem.Props.c81_merge"
   ],
   "note": "The independence is proved edge by edge (internal edges, edges on the boundary) and for the internal nodes of a structured mesh. Missing: nodes on the boundary and of unstructured meshes for 0-forms (several edges meet there and move the same entry), and putting the edges of a whole mesh together; for 0-forms which entries end up in the matrices is proved only through the values of the constraints."
  },
  {
   "property": "C82",
   "status": "partial",
   "theorems": [
    "Mifem.Props.c82_locations",
    "Mifem.Props.c82_positions_partial",
    "Mifem.Props.c82_positions_lost",
    "Mifem.Props.c82_places",
    "Mifem.Props.c82_shared",
    "Mifem.Props.c82_boundaries",
    "Mifem.Props.c82_amounts",
    "Mifem.Props.c82_walk_sound",
    "Mifem.Props.c82_internal",
    "Mifem.Props.c82_between",
    "Mifem.Props.c82_boundary"
   ],
   "note": "False for edges at more than four corner edges (nodes at more than eight corners): the list of positions is replaced each time it is full, so positions are always lost (c82_positions_lost, exact result in c82_locations); proved up to that number. Boundaries and shared elements are proved for the positions that are listed. The sequences are proved for rings of at least three elements and for paths."
  },
  {
   "property": "C83",
   "status": "partial",
   "theorems": [
    "Mifem.Props.c83_blocks",
    "Mifem.Props.c83_hybrid_entry",
    "Mifem.Props.c83_hybrid_same",
    "Mifem.Props.c83_hybrid_counts",
    "Mifem.Props.c83_blocks2",
    "Mifem.Props.c83_local_trace",
    "Mifem.Props.c83_amounts",
    "Mifem.Props.c83_nonhybrid",
    "Mifem.Props.c83_layout0",
    "Mifem.Props.c83_layout1",
    "Mifem.Props.c83_layout2",
    "Mifem.Props.c83_of_naive",
    "Mifem.Props.c83_nonhybrid_0trace",
    "Mifem.Props.c83_nonhybrid_1trace",
    "Mifem.Props.c83_nonhybrid_2trace",
    "Mifem.Props.c83_positions",
    "Mifem.Props.c83_te_position",
    "Mifem.Props.c83_side_arrays",
    "Mifem.Props.c83_local_num_2d_counterexample",
    "Mifem.Props.c83_degree_one_counterexample",
    "Mifem.Props.c83_positions_counterexample",
    "Mifem.Props.c83_te_position_counterexample"
   ],
   "note": "Numbering proved for hybrid and non-hybrid forms (non-hybrid on top of the naive numbering of the form, for meshes where no element repeats a dof). False: a 2d trace form never counts its local dofs; a non-hybrid 2-trace with degree 1 raises; positions of a dof that an element has twice raise; the trace-element position of a non-hybrid form is wrong (proved for hybrid ones)."
  },
  {
   "property": "C84",
   "status": "proved",
   "theorems": [
    "Mifem.Props.c84_0",
    "Mifem.Props.c84_1",
    "Mifem.Props.c84_2",
    "Mifem.Props.c84_unit",
    "Mifem.Props.c84_split",
    "Mifem.Props.c84_para",
    "Mifem.Props.c84_norm",
    "Mifem.Props.c84_both_0",
    "Mifem.Props.c84_both_1",
    "Mifem.Props.c84_both_2",
    "Mifem.Props.c84_normal_both",
    "Mifem.Props.c84_outward",
    "Mifem.Props.c84_matrix",
    "Mifem.Props.c84_gauss",
    "Mifem.Props.c84_boundary_wise",
    "Mifem.Props.c84_boundary_wise_fails",
    "Mifem.Props.c84_boundary_wise_flux"
   ],
   "note": "Over exact reals; components need sides with independent tangents; agreement of the two elements of a trace element needs that their sides are the same surface with the same parameters."
  },
  {
   "property": "C85",
   "status": "partial",
   "theorems": [
    "Mifem.Props.c85_0",
    "Mifem.Props.c85_1_partial",
    "Mifem.Props.c85_1_orth",
    "Mifem.Props.c85_1_counterexample",
    "Mifem.Props.c85_2",
    "Mifem.Props.c85_both",
    "Mifem.Props.c85_local_partial",
    "Mifem.Props.c85_local_counterexample"
   ],
   "note": "False for 1-traces on skewed elements (the vector has a normal part that depends on the element) and for local traces of 2-forms (metric of the neighbour taken at its opposite side); both shown by examples. Proved: 0- and 2-traces in general, 1-traces up to the normal part and completely where the third direction is orthogonal to the side, local traces where the metric is the same on both sides."
  },
  {
   "property": "C86",
   "status": "partial",
   "theorems": [
    "Mifem.Props.c86_0",
    "Mifem.Props.c86_1",
    "Mifem.Props.c86_2",
    "Mifem.Props.c86_pos_0",
    "Mifem.Props.c86_pos_1",
    "Mifem.Props.c86_pos_2",
    "Mifem.Props.c86_symm",
    "Mifem.Props.c86_quadrature",
    "Mifem.Props.c86_both",
    "Mifem.Props.c86_1_counterexample",
    "Mifem.Props.c86_local_partial",
    "Mifem.Props.c86_local_counterexample",
    "Mifem.Props.c86_brutal_0",
    "Mifem.Props.c86_brutal_2_partial",
    "Mifem.Props.c86_sides",
    "Mifem.Props.c86_cached"
   ],
   "note": "Inner product, symmetry and definiteness proved for all three degrees. False: 1-trace matrices depend on the element on skewed meshes; matrices of local traces use the metric of the neighbour's far side; both with examples. Local traces proved where that metric is the same."
  },
  {
   "property": "C87",
   "status": "partial",
   "theorems": [
    "Mifem.Props.c87_marks",
    "Mifem.Props.c87_kinds",
    "Mifem.Props.c87_constant",
    "Mifem.Props.c87_same",
    "Mifem.Props.c87_cached_partial",
    "Mifem.Props.c87_cached_counterexample",
    "Mifem.Props.c87_jacobian_partial",
    "Mifem.Props.c87_jacobian_counterexample",
    "Mifem.Props.c87_two"
   ],
   "note": "Proved for regions of the same lengths and sizes that are equal or differ visibly. False across regions of different lengths: marks ignore them, so matrices of another region are used, and the constant Jacobian is wrong; both with examples. Transfinite regions have no mark for trace elements."
  },
  {
   "property": "C88",
   "status": "partial",
   "theorems": [
    "Mifem.Props.c88_0",
    "Mifem.Props.c88_1_partial",
    "Mifem.Props.c88_1_counterexample",
    "Mifem.Props.c88_2_counterexample",
    "Mifem.Props.c88_none"
   ],
   "note": "Proved for 0-traces. For 1-traces the third component is ignored; for 2-traces the computation fails."
  },
  {
   "property": "C89",
   "status": "partial",
   "theorems": [
    "Mifem.Props.c89_1_values",
    "Mifem.Props.c89_1_partial",
    "Mifem.Props.c89_1_none",
    "Mifem.Props.c89_1_counterexample",
    "Mifem.Props.c89_0_partial",
    "Mifem.Props.c89_0_degrees",
    "Mifem.Props.c89_0_counterexample",
    "Mifem.Props.c89_lt0",
    "Mifem.Props.c89_lt2_partial",
    "Mifem.Props.c89_lt2_counterexample"
   ],
   "note": "Proved for local 0-traces, and for 1-forms (3D) and 0-forms (2D) if the functions do not distinguish reference points from mapped points. False otherwise: functions are evaluated at reference points; different degrees in 2D fail; local 2-traces are multiplied by the Jacobian once too often; examples given."
  },
  {
   "property": "C90",
   "status": "partial",
   "theorems": [
    "Mifem.Props.c90_serial",
    "Mifem.Props.c90_cores_partial",
    "Mifem.Props.c90_cores_same",
    "Mifem.Props.c90_cores_counterexample",
    "Mifem.Props.c90_parallel",
    "Mifem.Props.c90_perpendicular",
    "Mifem.Props.c90_para_same",
    "Mifem.Props.c90_perp_same_partial",
    "Mifem.Props.c90_perp_counterexample"
   ],
   "note": "Proved on one process for all faces, and for all distributions if all faces are orthogonal. False otherwise: processes whose faces have no constant normal are passed over. T_para agrees with the trace-element version; T_perp has the opposite sign on N, W, B."
  },
  {
   "property": "C91",
   "status": "partial",
   "theorems": [
    "Mifem.Props.c91_two_form",
    "Mifem.Props.c91_one_form_partial",
    "Mifem.Props.c91_zero_form_partial",
    "Mifem.Props.c91_one_edges_partial",
    "Mifem.Props.c91_zero_edges_partial",
    "Mifem.Props.c91_defined",
    "Mifem.Props.c91_dual_everywhere"
   ],
   "note": "Proved in full for 2-forms. For 0- and 1-forms proved for the matrices before the edge unknowns are brought in, and for the final matrices if the edge unknowns have the values of the form on the edges; that the equations enforce this is proved edge by edge only (C81). The cache of the boundary dofs is not part of this model (see C39, C77)."
  },
  {
   "property": "C92",
   "status": "partial",
   "theorems": [
    "Mifem.Props.c92_block",
    "Mifem.Props.c92_vector",
    "Mifem.Props.c92_system",
    "Mifem.Props.c92_vslice",
    "Mifem.Props.c92_slices_partial",
    "Mifem.Props.c92_unnumbered",
    "Mifem.Props.c92_nested_counterexample",
    "Mifem.Props.c92_customized_counterexample"
   ],
   "note": "Block matrix, block vector and block system proved in full. Parts of a block matrix: proved if every row and column of blocks belongs to one variable; false for chains inside chains, undefined if a row of the part has only None blocks, and without the customizations of the matrix. A part accessed with one index and one slice (a 1d array, for which bmat raises) is not modelled."
  },
  {
   "property": "C93",
   "status": "partial",
   "theorems": [
    "Mifem.Props.c93_connection",
    "Mifem.Props.c93_local",
    "Mifem.Props.c93_independent",
    "Mifem.Props.c93_glue0",
    "Mifem.Props.c93_glue2",
    "Mifem.Props.c93_trace2",
    "Mifem.Props.c93_call",
    "Mifem.Props.c93_call_ok",
    "Mifem.Props.c93_trace_selective",
    "Mifem.Props.c93_edge_dofs",
    "Mifem.Props.c93_edge_sorted",
    "Mifem.Props.c93_edge_selective",
    "Mifem.Props.c93_side_dofs_partial",
    "Mifem.Props.c93_local_side_dofs_partial",
    "Mifem.Props.c93_side_dofs_nonhybrid",
    "Mifem.Props.c93_side_cache_counterexample"
   ],
   "note": "Connections, the call, and selective matrices proved. Gluing proved for forms numbered by the Naive scheme with no dof twice in an element; for 2-forms unless all degrees are 1 (then the trace form cannot be numbered, C83). Side dofs of hybrid local trace forms proved if only one of the two queries is used; false if both are used on one side, because they share a cache with different contents."
  },
  {
   "property": "C94",
   "status": "proved",
   "theorems": [
    "Mifem.Props.c94_set_ok",
    "Mifem.Props.c94_set_get",
    "Mifem.Props.c94_get_set",
    "Mifem.Props.c94_mass",
    "Mifem.Props.c94_trace_mass",
    "Mifem.Props.c94_trace_sides",
    "Mifem.Props.c94_coboundary_ok",
    "Mifem.Props.c94_adjoint",
    "Mifem.Props.c94_twice",
    "Mifem.Props.c94_grad",
    "Mifem.Props.c94_curl",
    "Mifem.Props.c94_div",
    "Mifem.Props.c94_moments"
   ],
   "note": "Real numbers instead of floating point, scipy's inverse as the matrix inverse. Moments are stated in the reference element (products of forms with the pulled back field do not depend on the metric). Trace mass matrices: positive definite if those of the six sides are; equal values on a shared side if both elements use the same matrix for it (for 1-traces this can fail on curved meshes, C86)."
  },
  {
   "property": "C95",
   "status": "partial",
   "theorems": [
    "Mifem.Props.c95_moments",
    "Mifem.Props.c95_exact",
    "Mifem.Props.c95_components_partial",
    "Mifem.Props.c95_gradient_partial",
    "Mifem.Props.c95_parts",
    "Mifem.Props.c95_eig_exists",
    "Mifem.Props.c95_never",
    "Mifem.Props.c95_q_partial",
    "Mifem.Props.c95_lambda2_partial",
    "Mifem.Props.c95_rotation"
   ],
   "note": "Real numbers; numpy's eigenvalues as the roots of the characteristic polynomial, Gauss rules as in C70. c95_never and c95_rotation show that the criteria are wrong: Q is never positive and a rigid rotation gives 0 for both. c95_q_partial: Q is right exactly if the off-diagonal products of the gradient sum to zero; c95_lambda2_partial: lambda_2 is right for diagonal gradients (the general condition is missing). The projections to 0-forms and the criteria are modelled behind the constructor calls that always raise (DESIGN)."
  },
  {
   "property": "C96",
   "status": "partial",
   "theorems": [
    "Mifem.Props.c96_numbers",
    "Mifem.Props.c96_numbers_quadratic",
    "Mifem.Props.c96_cells",
    "Mifem.Props.c96_some",
    "Mifem.Props.c96_export",
    "Mifem.Props.c96_field",
    "Mifem.Props.c96_quadratic",
    "Mifem.Props.c96_quadratic_cells",
    "Mifem.Props.c96_area",
    "Mifem.Props.c96_vector_fails",
    "Mifem.Props.c96_vector_partial"
   ],
   "note": "Exact numbers; the writer of the file (pyevtk) is outside. c96_vector_fails: for vector fields (and 1- and 2-forms) places of points are displaced and depend on the order of the elements; c96_vector_partial: the values belong to the places in the file, and the displacement is at most 1/200 of the distance to the side opposite to the singular vertex. c96_export covers forms as soon as their values are single-valued (C97)."
  },
  {
   "property": "C97",
   "status": "partial",
   "theorems": [
    "Mifem.Props.c97_meshgrid",
    "Mifem.Props.c97_matrices",
    "Mifem.Props.c97_interpolates",
    "Mifem.Props.c97_reproduces",
    "Mifem.Props.c97_continuous",
    "Mifem.Props.c97_tangential",
    "Mifem.Props.c97_normal",
    "Mifem.Props.c97_export",
    "Mifem.Props.c97_file",
    "Mifem.Props.c97_grad",
    "Mifem.Props.c97_curl",
    "Mifem.Props.c97_div",
    "Mifem.Props.c97_rot",
    "Mifem.Props.c97_cells",
    "Mifem.Props.c97_density_fails"
   ],
   "note": "Real numbers instead of floats; everything away from the singular vertex (the Jacobian matrix vanishes there). c97_density_fails: for p = 1 the 2-form of the density 1 is reconstructed as 1/(y + 1), unbounded towards the singular vertex. Missing: which densities and vector fields of degree p - 1 are reproduced for p > 1."
  },
  {
   "property": "C98",
   "status": "partial",
   "theorems": [
    "Mifem.Props.c98_exact",
    "Mifem.Props.c98_zero_forms",
    "Mifem.Props.c98_one_forms",
    "Mifem.Props.c98_two_forms_partial",
    "Mifem.Props.c98_two_forms_fails",
    "Mifem.Props.c98_symmetric",
    "Mifem.Props.c98_positive",
    "Mifem.Props.c98_translation",
    "Mifem.Props.c98_key",
    "Mifem.Props.c98_one_key",
    "Mifem.Props.c98_cached_partial",
    "Mifem.Props.c98_cache_fails",
    "Mifem.Props.c98_transform_partial",
    "Mifem.Props.c98_intermediate_fails"
   ],
   "note": "Real numbers instead of floats in the matrices, rational vertices in the keys. c98_two_forms_fails: where the density does not vanish on the singular side the square of a reconstructed 2-form is not integrable, so that the mass matrix of 2-forms is not its norm. c98_cache_fails: keys have four decimals, so in a mesh with sides of 0.00001 an element gets the matrix of another one, half as big. c98_intermediate_fails: cache.py passes the intermediate data as a keyword `item` that no method has."
  },
  {
   "property": "C99",
   "status": "partial",
   "theorems": [
    "Mifem.Props.c99_energy",
    "Mifem.Props.c99_definite",
    "Mifem.Props.c99_distribution",
    "Mifem.Props.c99_inner_partial",
    "Mifem.Props.c99_self",
    "Mifem.Props.c99_exchange",
    "Mifem.Props.c99_energy_with",
    "Mifem.Props.c99_with_self",
    "Mifem.Props.c99_mixed_fails",
    "Mifem.Props.c99_triple",
    "Mifem.Props.c99_skew",
    "Mifem.Props.c99_triple_cache_partial",
    "Mifem.Props.c99_triple_cache_fails",
    "Mifem.Props.c99_error",
    "Mifem.Props.c99_error_zero",
    "Mifem.Props.c99_H",
    "Mifem.Props.c99_gradient",
    "Mifem.Props.c99_odd_fails"
   ],
   "note": "Real numbers instead of floats; rational vertices in the keys. c99_inner_partial: other degree at most p + 2 (the quadrature is chosen from self alone), 0-forms and 1-forms of one orientation; c99_mixed_fails: for an inner and an outer 1-form the matrix is not that of the product of the fields. c99_triple_cache_fails: the tensors are kept under the keys of u alone, so that with e of the other orientation an element can get the tensor of another with opposite sign. c99_odd_fails: no absolute values are taken for odd n."
  },
  {
   "property": "C100",
   "status": "partial",
   "theorems": [
    "Mifem.Props.Fld100.c100_values_3d",
    "Mifem.Props.Fld100.c100_defined_3d",
    "Mifem.Props.Fld100.c100_time",
    "Mifem.Props.Fld100.c100_time_partial",
    "Mifem.Props.Fld100.c100_time_fails",
    "Mifem.Props.Fld100.c100_not_closed",
    "Mifem.Props.Fld100.c100_curl_grad",
    "Mifem.Props.Fld100.c100_laplace",
    "Mifem.Props.Fld100.c100_float64",
    "Mifem.Props.Fld100.c100_values_2d",
    "Mifem.Props.Fld100.c100_defined_2d",
    "Mifem.Props.Fld100.c100_time_2d",
    "Mifem.Props.Fld100.c100_zero_2d",
    "Mifem.Props.Fld100.c100_rot_curl_2d",
    "Mifem.Props.Fld100.c100_inner_2d",
    "Mifem.Props.Fld100.c100_tri_inner_partial",
    "Mifem.Props.Fld100.c100_tri_inner_fails",
    "Mifem.Props.Fld100.c100_tri_scalar",
    "Mifem.Props.Fld100.c100_component_3d",
    "Mifem.Props.Fld100.c100_component_2d",
    "Mifem.Props.Fld100.c100_component_arguments",
    "Mifem.Props.Fld100.c100_test_1form",
    "Mifem.Props.Fld100.c100_test_2form",
    "Mifem.Props.Fld100.c100_test_mass_1form",
    "Mifem.Props.Fld100.c100_test_mass_2form",
    "Mifem.Props.Fld100.c100_test_cache",
    "Mifem.Props.Fld100.c100_test_refused_fails"
   ],
   "note": "Real numbers instead of floats; the differentiation operator is a parameter. c100_time_partial: operands with the same valid_time only; c100_time_fails: the result keeps the valid_time of one operand. c100_not_closed: in 3D sums, products, curls and divergences cannot be differentiated. c100_tri_inner_fails: the inner product of two vectors on triangular meshes is a vector field. c100_test_refused_fails: the method for testing with forms compares class names that no form has and always raises; the theorems on its helpers hold for these helpers called directly."
  },
  {
   "property": "C101",
   "status": "partial",
   "theorems": [
    "Mifem.Props.FV101.c101_vector_of_forms",
    "Mifem.Props.FV101.c101_distributed",
    "Mifem.Props.FV101.c101_roundtrip_forms",
    "Mifem.Props.FV101.c101_roundtrip_vector",
    "Mifem.Props.FV101.c101_accepted",
    "Mifem.Props.FV101.c101_placeholder",
    "Mifem.Props.FV101.c101_two_placeholders",
    "Mifem.Props.FV101.c101_placeholder_accepted",
    "Mifem.Props.FV101.c101_silly_chain",
    "Mifem.Props.FV101.c101_sequent_partial",
    "Mifem.Props.FV101.c101_sequent_roundtrip_partial",
    "Mifem.Props.FV101.c101_sequent_fails",
    "Mifem.Props.FV101.c101_accepted_system_partial",
    "Mifem.Props.FV101.c101_accepted_system_fails",
    "Mifem.Props.FV101.c101_direct",
    "Mifem.Props.FV101.c101_direct_accepted",
    "Mifem.Props.FV101.c101_solved_forms"
   ],
   "note": "The method 'silly' and the direct solver are proved without restriction. For the method 'sequent' (c101_sequent_partial, members as in C02) distributing is right, but the constructor adds up the values of a shared dof over all places where it is (c101_sequent_fails). Equality of chains ignores the method (c101_accepted_system_fails); it is enough for 'silly' (c101_accepted_system_partial). The routine of scipy is a parameter that is assumed to solve."
  },
  {
   "property": "C102",
   "status": "partial",
   "theorems": [
    "Mifem.Props.Sol102.c102_accepted",
    "Mifem.Props.Sol102.c102_square",
    "Mifem.Props.Sol102.c102_documented_fails",
    "Mifem.Props.Sol102.c102_jacobi",
    "Mifem.Props.Sol102.c102_success",
    "Mifem.Props.Sol102.c102_solution",
    "Mifem.Props.Sol102.c102_kept",
    "Mifem.Props.Sol102.c102_cleared",
    "Mifem.Props.Sol102.c102_guess_cleared",
    "Mifem.Props.Sol102.c102_same_guess",
    "Mifem.Props.Sol102.c102_auto"
   ],
   "note": "Proved for all iterations, which are parameters: those of scipy are not modelled, and for those of the library C28 shows when they report success. The example in the documentation of solve is refused for three reasons (c102_documented_fails). A vector given as x0 is destroyed by default by the library's routines (c102_guess_cleared). The reciprocal of a zero diagonal entry (inf in Python) is outside the model; c102_solution assumes that there is none."
  },
  {
   "property": "C103",
   "status": "partial",
   "theorems": [
    "Mifem.Props.Mon103.c103_factor",
    "Mifem.Props.Mon103.c103_filename",
    "Mifem.Props.Mon103.c103_frequency",
    "Mifem.Props.Mon103.c103_prefix",
    "Mifem.Props.Mon103.c103_lag",
    "Mifem.Props.Mon103.c103_every_partial",
    "Mifem.Props.Mon103.c103_every_fails",
    "Mifem.Props.Mon103.c103_realtime_never",
    "Mifem.Props.Mon103.c103_realtime_never_case",
    "Mifem.Props.Mon103.c103_off",
    "Mifem.Props.Mon103.c103_open_fails",
    "Mifem.Props.Mon103.c103_final",
    "Mifem.Props.Mon103.c103_crash_resume",
    "Mifem.Props.Mon103.c103_counts",
    "Mifem.Props.Mon103.c103_estimate",
    "Mifem.Props.Mon103.c103_report_lag",
    "Mifem.Props.Mon103.c103_last_report",
    "Mifem.Props.Mon103.c103_silent",
    "Mifem.Props.Mon103.c103_select",
    "Mifem.Props.Mon103.c103_filter"
   ],
   "note": "Proved for all sequences of steps. Saving every n steps is skipped when steps are quick (c103_every_fails; c103_every_partial gives the condition); real-time monitoring never saves when every step takes less than ten seconds (c103_realtime_never, c103_realtime_never_case); an iterator without an end raises after its first step (c103_open_fails). Each function reads the clock once; the pictures and e-mails of the reports and a crash in the middle of writing a file are not modelled."
  },
  {
   "property": "C104",
   "status": "partial",
   "theorems": [
    "Mifem.Props.Ops104.c104_value",
    "Mifem.Props.Ops104.c104_accepted",
    "Mifem.Props.Ops104.c104_no_difference",
    "Mifem.Props.Ops104.c104_linear",
    "Mifem.Props.Ops104.c104_single",
    "Mifem.Props.Ops104.c104_save",
    "Mifem.Props.Ops104.c104_save_fails",
    "Mifem.Props.Ops104.c104_mixed_fails",
    "Mifem.Props.Ops104.c104_sharing",
    "Mifem.Props.Ops104.c104_sharing_partial",
    "Mifem.Props.Ops104.c104_sharing_fails",
    "Mifem.Props.Ops104.c104_boundary",
    "Mifem.Props.Ops104.c104_boundary_found",
    "Mifem.Props.Ops104.c104_boundary_distribution",
    "Mifem.Props.Ops104.c104_ravel",
    "Mifem.Props.Ops104.c104_boundary_volume",
    "Mifem.Props.Ops104.c104_side0",
    "Mifem.Props.Ops104.c104_side1",
    "Mifem.Props.Ops104.c104_side2"
   ],
   "note": "Values of expressions, refusals, linear functionals, shared values, dofs on boundaries and groups of dofs are proved. False of the code, with witnesses: results of operations cannot be saved; forms with and without hybridization can be added, and the result is a form without hybridization whose elements do not agree; asking for the dofs at the same place makes a hybrid form be read back without hybridization."
  },
  {
   "property": "C105",
   "status": "proved",
   "theorems": [
    "Mifem.Props.Shape105.c105_angles",
    "Mifem.Props.Shape105.c105_degenerate",
    "Mifem.Props.Shape105.c105_quality",
    "Mifem.Props.Shape105.c105_similar"
   ],
   "note": "Real arithmetic; the angles are compared with the angles of the Euclidean plane of Mathlib."
  },
  {
   "property": "C106",
   "status": "partial",
   "theorems": [
    "Mifem.Props.Plate106.c106_cylinder",
    "Mifem.Props.Plate106.c106_cylinder_regions",
    "Mifem.Props.Plate106.c106_plate1",
    "Mifem.Props.Plate106.c106_plate1_partial",
    "Mifem.Props.Plate106.c106_plate1_fails",
    "Mifem.Props.Plate106.c106_plate1_regions",
    "Mifem.Props.Plate106.c106_plate2_hole",
    "Mifem.Props.Plate106.c106_plate2_partial",
    "Mifem.Props.Plate106.c106_plate2_fails",
    "Mifem.Props.Plate106.c106_plate2_regions",
    "Mifem.Props.Plate106.c106_accepted",
    "Mifem.Props.Plate106.c106_lengths_fails"
   ],
   "note": "Proved for the channel with positive lengths and for the second plate with a hole inside the plate. False of the code: the hole of the first plate has radius sqrt(r/2), which is r for r = 1/2 only; holes that stick out of the plate are accepted; lengths of inlet and outlet that are not positive are accepted by the domain input. Corners that differ are assumed to be told apart by the test of closeness (1e-9)."
  },
  {
   "property": "C107",
   "status": "partial",
   "theorems": [
    "Mifem.Props.Piece107.c107_value",
    "Mifem.Props.Piece107.c107_refused",
    "Mifem.Props.Piece107.c107_shear",
    "Mifem.Props.Piece107.c107_shear_continuous",
    "Mifem.Props.Piece107.c107_inlet",
    "Mifem.Props.Piece107.c107_inlet_boundaries",
    "Mifem.Props.Piece107.c107_walls_fails"
   ],
   "note": "Proved: the pieces, for functions that act pointwise on their arrays; the shear layer; the inlet velocity on inlet, outlet and cylinder. False of the code: on the walls near the inlet (x < -(r+li), a strip of length h/2 - r) the boundary velocity is the inlet velocity and not 0."
  },
  {
   "property": "C108",
   "status": "partial",
   "theorems": [
    "Mifem.Props.Accept108.c108_calls_partial",
    "Mifem.Props.Accept108.c108_shape_meaning",
    "Mifem.Props.Accept108.c108_shape_fails",
    "Mifem.Props.Accept108.c108_ndim_fails",
    "Mifem.Props.Accept108.c108_keywords_fails",
    "Mifem.Props.Accept108.c108_several_refused",
    "Mifem.Props.Accept108.c108_dots_refused"
   ],
   "note": "Proved: calls with arguments by position, for requirements with classes before names and shapes whose number of dimensions is fixed by the last number or by an ndim before. False of the code: shape=(4,x) accepts any number of dimensions, shape=(4,x,...) accepts one dimension; an ndim after a shape is not checked; arguments given by keyword are not checked at all. The strings of shapes are modelled as read."
  },
  {
   "property": "C109",
   "status": "partial",
   "theorems": [
    "Mifem.Props.Attached109.c109_node_edges_partial",
    "Mifem.Props.Attached109.c109_node_traces_partial",
    "Mifem.Props.Attached109.c109_cores_fails",
    "Mifem.Props.Attached109.c109_edge_traces",
    "Mifem.Props.Attached109.c109_trace_edges",
    "Mifem.Props.Attached109.c109_trace_nodes",
    "Mifem.Props.Attached109.c109_shared"
   ],
   "note": "Proved for all distributions: trace elements at edge elements, edges and nodes of trace elements, shared mesh elements. Edge and trace elements at a node element: proved for node elements that every core has; false otherwise, the call then ends with an exception (set.update(None)). That the sides at the two places of a trace element have the same nodes and edges is a hypothesis."
  },
  {
   "property": "C110",
   "status": "proved",
   "theorems": [
    "Mifem.Props.Node110.c110_connects"
   ],
   "note": "Internal nodes only (not corner nodes). The eight mesh elements at the node are different (no periodic mesh with fewer than two elements in a direction). The call of this setting in hybrid_pairing is commented out at present."
  },
  {
   "property": "C111",
   "status": "partial",
   "theorems": [
    "Mifem.Props.Portion111.c111_rectangle_partial",
    "Mifem.Props.Portion111.c111_touch_fails",
    "Mifem.Props.Portion111.c111_turned_fails",
    "Mifem.Props.Portion111.c111_slanted_fails"
   ],
   "note": "Proved for regions with sides along the axes, x increasing with r and y with s, that have more than boundary points in common with the rectangle. False otherwise: points on a touching side are lost; turned regions lose all data; in slanted regions data outside the rectangle are returned (the mapping is only looked at along two sides)."
  },
  {
   "property": "C112",
   "status": "proved",
   "theorems": [
    "Mifem.Props.Values112.c112_values",
    "Mifem.Props.Values112.c112_given",
    "Mifem.Props.Values112.c112_made"
   ],
   "note": "For any program that makes and reads objects (shared intermediate objects, any order), the values read are those of the elements; hypothesis: elements with the same mark have the same values (C58 says when). The intermediate values are passed but never used, so the result is right even with intermediate objects of another mesh."
  },
  {
   "property": "C113",
   "status": "partial",
   "theorems": [
    "Mifem.Props.Ir113.c113_vector_partial",
    "Mifem.Props.Ir113.c113_total",
    "Mifem.Props.Ir113.c113_find_partial",
    "Mifem.Props.Ir113.c113_indices_partial",
    "Mifem.Props.Ir113.c113_wrapped_fails",
    "Mifem.Props.Ir113.c113_single_fails",
    "Mifem.Props.Ir113.c113_equal_fails"
   ],
   "note": "Proved for lists of at least two matrices or chains, and for one matrix. False for a list of one chain (only the vectors of its first matrix are returned), for one chain by itself (refused because of a comma in a name), and for ==, which compares the lengths of the lists that were given."
  },
  {
   "property": "C114",
   "status": "partial",
   "theorems": [
    "Mifem.Props.Vtk114.c114_cells2_partial",
    "Mifem.Props.Vtk114.c114_cells3_partial",
    "Mifem.Props.Vtk114.c114_some_value",
    "Mifem.Props.Vtk114.c114_offsets",
    "Mifem.Props.Vtk114.c114_names",
    "Mifem.Props.Vtk114.c114_objects_partial",
    "Mifem.Props.Vtk114.c114_refused",
    "Mifem.Props.Vtk114.c114_files_partial",
    "Mifem.Props.Vtk114.c114_periodic_fails",
    "Mifem.Props.Vtk114.c114_single_fails",
    "Mifem.Props.Vtk114.c114_regions_fails"
   ],
   "note": "Proved for all grids and distributions when corners with the same node have the same data, and for two or more objects. False for coordinates in periodic domains (opposite sides share nodes), for one object (a variable that was never bound is deleted), and for region files of cores with several regions (all have the coordinates of the first)."
  },
  {
   "property": "C115",
   "status": "partial",
   "theorems": [
    "Mifem.Props.Lock115.c115_assembled_partial",
    "Mifem.Props.Lock115.c115_saved",
    "Mifem.Props.Lock115.c115_locked",
    "Mifem.Props.Lock115.c115_refused",
    "Mifem.Props.Lock115.c115_customized",
    "Mifem.Props.Lock115.c115_unlocked",
    "Mifem.Props.Lock115.c115_gather_fails",
    "Mifem.Props.Lock115.c115_clear_sparsity_fails",
    "Mifem.Props.Lock115.c115_clear_fails"
   ],
   "note": "Proved for all histories in which places of entries and numbering stay while the sparsity is locked. The code does not see to that: gathering matrices may be set and customizations cleared under a lock, and then the assembled matrix is wrong or cannot be made."
  },
  {
   "property": "C116",
   "status": "partial",
   "theorems": [
    "Mifem.Props.Field116.c116_stacked",
    "Mifem.Props.Field116.c116_places",
    "Mifem.Props.Field116.c116_file",
    "Mifem.Props.Field116.c116_length",
    "Mifem.Props.Field116.c116_collect_partial",
    "Mifem.Props.Field116.c116_subset_fails"
   ],
   "note": "Stacking and lines of files are proved in general, the collection of data for all regions. False for some of the regions: the master reads data of all its elements, and elements left out cannot be stacked, so nothing is written. Sample positions and float formatting are not modelled."
  },
  {
   "property": "C117",
   "status": "partial",
   "theorems": [
    "Mifem.Props.Pair117.c117_check_partial",
    "Mifem.Props.Pair117.c117_boundaries",
    "Mifem.Props.Pair117.c117_zero_fails",
    "Mifem.Props.Pair117.c117_neumann_fails"
   ],
   "note": "The exact set of accepted systems is characterised. It is not that of the right systems: a zero boundary value makes a right system refused, and entries of the second matrix in Neumann rows are not looked at."
  },
  {
   "property": "C118",
   "status": "proved",
   "theorems": [
    "Mifem.Props.Slice118.c118_plane",
    "Mifem.Props.Slice118.c118_between",
    "Mifem.Props.Slice118.c118_first",
    "Mifem.Props.Slice118.c118_second",
    "Mifem.Props.Slice118.c118_third",
    "Mifem.Props.Slice118.c118_outside"
   ],
   "note": "Exact elements, reference coordinate and refusal for every layout, position and bounds and all three directions; positions are rational numbers (float rounding is in the trusted base)."
  },
  {
   "property": "C119",
   "status": "partial",
   "theorems": [
    "Mifem.Props.Simp119.c119_solutions",
    "Mifem.Props.Simp119.c119_identity_partial",
    "Mifem.Props.Simp119.c119_system_partial",
    "Mifem.Props.Simp119.c119_zero_row_partial",
    "Mifem.Props.Simp119.c119_wide_fails",
    "Mifem.Props.Simp119.c119_row_fails",
    "Mifem.Props.Simp119.c119_singular_fails"
   ],
   "note": "Solutions are kept for every matrix and tolerance; leading identity, solution of systems with pivots in all rows, zero rows show dependence. The result is not always in the simplest form, and dependent rows need not make the last row zero (witnesses). Rational entries."
  },
  {
   "property": "C120",
   "status": "partial",
   "theorems": [
    "Mifem.Props.Name120.c120_extension",
    "Mifem.Props.Name120.c120_plain",
    "Mifem.Props.Name120.c120_normal",
    "Mifem.Props.Name120.c120_different_partial",
    "Mifem.Props.Name120.c120_dots_fails"
   ],
   "note": "The result is determined for every string, and is a fixed point. Different names with at most one dot stay different; with more dots a.b.txt and a_b.txt are the same file (witness)."
  },
  {
   "property": "C121",
   "status": "proved",
   "theorems": [
    "Mifem.Props.Tri121.c121_rows",
    "Mifem.Props.Tri121.c121_area",
    "Mifem.Props.Tri121.c121_cover",
    "Mifem.Props.Tri121.c121_disjoint",
    "Mifem.Props.Tri121.c121_edges",
    "Mifem.Props.Tri121.c121_boundary"
   ],
   "note": "For every K and d, over rational coordinates: rows, area and orientation, cover, no overlap, opposite directions of shared edges, boundary edges."
  },
  {
   "property": "C122",
   "status": "proved",
   "theorems": [
    "Mifem.Props.Reg122.c122_regular",
    "Mifem.Props.Reg122.c122_spread"
   ],
   "note": "The answer is decided for every closed map of regions, also for one region; spread of boundaries by induction over paths."
  },
  {
   "property": "C123",
   "status": "proved",
   "theorems": [
    "Mifem.Props.Edge123.c123_decode",
    "Mifem.Props.Edge123.c123_refused",
    "Mifem.Props.Edge123.c123_place"
   ],
   "note": "Edge and index for every dof and all degrees, refusal of other numbers, points on the edge in reference coordinates. The mapping to physical coordinates is that of C112 and others."
  },
  {
   "property": "C124",
   "status": "proved",
   "theorems": [
    "Mifem.Props.Cut124.c124_on",
    "Mifem.Props.Cut124.c124_only",
    "Mifem.Props.Cut124.c124_none",
    "Mifem.Props.Cut124.c124_same"
   ],
   "note": "For all rational coordinates: common point, only one, none exactly for equal directions; a witness shows that no point does not mean no common point (same lines)."
  }
 ]
}