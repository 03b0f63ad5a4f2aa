{
 "claims": [
  {
   "property": "C01",
   "status": "proved",
   "theorems": [
    "NS.Props.Sparse.C01_at_returns_last_set",
    "NS.Props.Sparse.C01_linear_at"
   ],
   "note": ""
  },
  {
   "property": "C02",
   "status": "proved",
   "theorems": [
    "NS.Props.Sparse.C02_stores_exactly_nonzeros"
   ],
   "note": ""
  },
  {
   "property": "C03",
   "status": "proved",
   "theorems": [
    "NS.Props.Sparse.C03_iteration"
   ],
   "note": ""
  },
  {
   "property": "C04",
   "status": "proved",
   "theorems": [
    "NS.Props.Sparse.C04_row_iteration"
   ],
   "note": ""
  },
  {
   "property": "C05",
   "status": "partial",
   "theorems": [
    "NS.Props.Sparse.C05_column_iteration_partial",
    "NS.Props.Sparse.C05_fails_on_empty_column",
    "NS.Props.Sparse.C05_witness"
   ],
   "note": "The full claim is false of the code: column_begin(c) aborts when column c of a non-zero matrix is empty (proved). Proved for columns with an entry and for zero matrices."
  },
  {
   "property": "C06",
   "status": "partial",
   "theorems": [
    "NS.Props.Sparse.C06_erase_content",
    "NS.Props.Sparse.C06_set_iterator",
    "NS.Props.Sparse.C06_erase_successor_partial",
    "NS.Props.Sparse.C06_erase_returns_wrong_iterator"
   ],
   "note": "Contents proved in full; the returned iterator is wrong in some cases (witness), the exact condition is proved."
  },
  {
   "property": "C07",
   "status": "proved",
   "theorems": [
    "NS.Props.Sparse.C07_add_sub",
    "NS.Props.Sparse.C07_add_no_zero_stored"
   ],
   "note": ""
  },
  {
   "property": "C08",
   "status": "partial",
   "theorems": [
    "NS.Props.Sparse.C08_hadamard_partial",
    "NS.Props.Sparse.C08_full_rows_partial",
    "NS.Props.Sparse.C08_hadamard_wrong"
   ],
   "note": "The full claim is false of the code (witness); proved when every erased entry has a later entry in its row, or only zero rows below, or its row keeps an entry and the next row is not zero; in particular when no row of the product is zero."
  },
  {
   "property": "C09",
   "status": "proved",
   "theorems": [
    "NS.Props.Sparse.C09_scale",
    "NS.Props.Sparse.C09_neg"
   ],
   "note": ""
  },
  {
   "property": "C10",
   "status": "proved",
   "theorems": [
    "NS.Props.Sparse.C10_transpose",
    "NS.Props.Sparse.C10_conjugate_adjugate"
   ],
   "note": ""
  },
  {
   "property": "C11",
   "status": "proved",
   "theorems": [
    "NS.Props.Sparse.C11_mul"
   ],
   "note": ""
  },
  {
   "property": "C12",
   "status": "proved",
   "theorems": [
    "NS.Props.Sparse.C12_mul_vector"
   ],
   "note": ""
  },
  {
   "property": "C13",
   "status": "proved",
   "theorems": [
    "NS.Props.Sparse.C13_equality"
   ],
   "note": ""
  },
  {
   "property": "C14",
   "status": "partial",
   "theorems": [
    "NS.Props.Sparse.C14_sum_trace",
    "NS.Props.Sparse.C14_max_partial",
    "NS.Props.Sparse.C14_min",
    "NS.Props.Sparse.C14_max_wrong"
   ],
   "note": "max() starts at numeric_limits<T>::min(), which is positive for floating types: false there (proved); proved for start values that are lower bounds."
  },
  {
   "property": "C15",
   "status": "partial",
   "theorems": [
    "NS.Props.Sparse.C15_swap_partial",
    "NS.Props.Sparse.C15_swap_wrong"
   ],
   "note": "swap does not exchange the column count: false for different column counts (proved), proved for equal ones."
  },
  {
   "property": "C16",
   "status": "proved",
   "theorems": [
    "NS.Props.Sparse.C16_out_of_range",
    "NS.Props.Dense.C16_dense_range"
   ],
   "note": ""
  },
  {
   "property": "C17",
   "status": "proved",
   "theorems": [
    "NS.Props.Sparse.C17_initializer_list"
   ],
   "note": ""
  },
  {
   "property": "C18",
   "status": "proved",
   "theorems": [
    "NS.Props.Dense.C18_at_returns_last_set",
    "NS.Props.Dense.C18_linear_at",
    "NS.Props.Dense.C18_initializer_list"
   ],
   "note": ""
  },
  {
   "property": "C19",
   "status": "proved",
   "theorems": [
    "NS.Props.Dense.C19_same_history",
    "NS.Props.Dense.C19_operations",
    "NS.Props.Dense.C19_hypotheses_met"
   ],
   "note": ""
  },
  {
   "property": "C20",
   "status": "proved",
   "theorems": [
    "NS.Props.Dense.C20_iteration",
    "NS.Props.Dense.C20_row_column",
    "NS.Props.Dense.C20_set_through_iterator"
   ],
   "note": ""
  },
  {
   "property": "C21",
   "status": "partial",
   "theorems": [
    "NS.Props.Dense.C21_entrywise_partial",
    "NS.Props.Dense.C21_fails_on_equal_size",
    "NS.Props.Dense.C21_scale"
   ],
   "note": "The code compares only size() = rows*columns, so shapes that differ with equal element count are accepted (witness proved). There is no /= for dense matrices in the code."
  },
  {
   "property": "C22",
   "status": "proved",
   "theorems": [
    "NS.Props.Dense.C22_mul",
    "NS.Props.Dense.C22_mul_vector",
    "NS.Props.Dense.C22_transpose",
    "NS.Props.Dense.C22_observers",
    "NS.Props.Dense.C22_eq_swap"
   ],
   "note": ""
  },
  {
   "property": "C23",
   "status": "proved",
   "theorems": [
    "NS.Props.Vector.C23_at",
    "NS.Props.Vector.C23_set",
    "NS.Props.Vector.C23_entrywise",
    "NS.Props.Vector.C23_scalar",
    "NS.Props.Vector.C23_eq",
    "NS.Props.Vector.C23_has",
    "NS.Props.Vector.C24_dot"
   ],
   "note": ""
  },
  {
   "property": "C24",
   "status": "proved",
   "theorems": [
    "NS.Props.Vector.C24_dot",
    "NS.Props.Vector.C24_symm",
    "NS.Props.Vector.C24_bilinear",
    "NS.Props.Vector.C24_magSqr"
   ],
   "note": ""
  },
  {
   "property": "C25",
   "status": "partial",
   "theorems": [
    "NS.Props.Vector.C25_scalar_division_partial",
    "NS.Props.Vector.C25_rdiv",
    "NS.Props.Vector.C25_fails_for_integers"
   ],
   "note": "False for integral element types (witness proved); proved for fields."
  },
  {
   "property": "C26",
   "status": "proved",
   "theorems": [
    "NS.Props.Vector.C26_resize",
    "NS.Props.Vector.C26_constructors"
   ],
   "note": ""
  },
  {
   "property": "C27",
   "status": "proved",
   "theorems": [
    "NS.Props.LU.C27_doolittle_dense",
    "NS.Props.LU.C27_doolittle_sparse",
    "NS.Props.LU.C27_dirty_output_negation"
   ],
   "note": "Proved with the proviso of the statement (outputs zero on entry for the dense overload); a witness shows the proviso is needed."
  },
  {
   "property": "C28",
   "status": "proved",
   "theorems": [
    "NS.Props.LU.C27_doolittle_dense",
    "NS.Props.LU.C27_doolittle_sparse",
    "NS.Props.LU.C28_notSquare_dense",
    "NS.Props.LU.C28_notSquare_sparse",
    "NS.Props.LU.C28_invalidOutput"
   ],
   "note": "The multiplier bound and the singular-only-if clause are conjuncts of the C27 theorems."
  },
  {
   "property": "C29",
   "status": "proved",
   "theorems": [
    "NS.Props.LU.C29_determinant_dense",
    "NS.Props.LU.C29_determinant_sparse",
    "NS.Props.LU.C29_determinant_any_threshold",
    "NS.Props.LU.C29_determinant_nonsquare"
   ],
   "note": ""
  },
  {
   "property": "C30",
   "status": "proved",
   "theorems": [
    "NS.Props.LU.C30_solve",
    "NS.Props.LU.C30_shape_errors",
    "NS.Props.LU.C30_factor_and_solve",
    "NS.Props.LU.C30_no_spurious_failure"
   ],
   "note": ""
  },
  {
   "property": "C31",
   "status": "proved",
   "theorems": [
    "NS.Props.LU.C31_cholesky",
    "NS.Props.LU.C31_positive_definite"
   ],
   "note": "L zero on entry, as the code requires; a zero pivot (0/0) is an outcome of its own"
  },
  {
   "property": "C32",
   "status": "proved",
   "theorems": [
    "NS.Props.LU.C32_ilu0",
    "NS.Props.LU.C32_notSquare"
   ],
   "note": ""
  },
  {
   "property": "C33",
   "status": "partial",
   "theorems": [
    "NS.Props.LU.C33_ainv_lower_partial",
    "NS.Props.LU.C33_ainv_upper_partial",
    "NS.Props.LU.C33_ainv_upper_negation"
   ],
   "note": "The lower factor is inverted correctly; the upper one is not (witness U=[2]): only the left half of the columns, for unit diagonals, is."
  },
  {
   "property": "C34",
   "status": "partial",
   "theorems": [
    "NS.Props.LU.C34_inverse_sparse",
    "NS.Props.LU.C34_inverse_LUP",
    "NS.Props.LU.C34_inverse_LU_partial",
    "NS.Props.LU.C34_inverse_dense_negation",
    "NS.Props.LU.C34_inverse_LU_negation"
   ],
   "note": "Sparse inverse and inverse(L,U,P) proved in full; the dense inverse and inverse(L,U) are wrong in the code (witnesses proved); inverse(L,U) is right for unit diagonals."
  },
  {
   "property": "C35",
   "status": "partial",
   "theorems": [
    "NS.Props.CG.C35_pcg_partial",
    "NS.Props.CG.C35_pcg_exact_partial",
    "NS.Props.CG.C35_pcg_residual",
    "NS.Props.CG.C35_cg_residual",
    "NS.Props.CG.C35_cg_two_partial",
    "NS.Props.CG.C35_cg_negation",
    "NS.Props.CG.C35_start_at_solution",
    "NS.Props.CG.C35_start_at_solution_negation",
    "NS.Props.CG.C35_notSquare"
   ],
   "note": "pcg: finite termination in at most n steps proved for all SPD A, C and n, from any start vector that is not already the solution (0/0 there, proved) and non-zero tolerance. cg: residual property for all matrices; termination only for n <= 2; for n = 3 the code violates the property (witness proved)."
  },
  {
   "property": "C36",
   "status": "proved",
   "theorems": [
    "NS.Props.CG.C36_jacobi",
    "NS.Props.CG.C36_jacobi_diagonal",
    "NS.Props.CG.C36_shape",
    "NS.Props.CG.C36_dirty_output_negation"
   ],
   "note": ""
  },
  {
   "property": "C37",
   "status": "partial",
   "theorems": [
    "NS.Props.Iter.C37_jacobi",
    "NS.Props.Iter.C37_fixed_point_iff_solution",
    "NS.Props.Iter.C37_exact_convergence",
    "NS.Props.Iter.C37_zero_diagonal_partial",
    "NS.Props.Iter.C37_zero_diagonal_negation",
    "NS.Props.Iter.C37_shape"
   ],
   "note": "All clauses proved except the zero-diagonal one, which the code violates: the exception is thrown only when a zero-diagonal row happens to be satisfied (exact characterisation and witness proved)."
  },
  {
   "property": "C38",
   "status": "partial",
   "theorems": [
    "NS.Props.Iter.C38_sor",
    "NS.Props.Iter.C38_exact_convergence_partial",
    "NS.Props.Iter.C38_negation",
    "NS.Props.Iter.C38_zero_diagonal"
   ],
   "note": "The first sweep relaxes against 0 instead of x0; a return after one iteration can be wrong (witness). Proved for >= 2 iterations, weight 1 or x0 = 0."
  },
  {
   "property": "C39",
   "status": "partial",
   "theorems": [
    "NS.Props.Order.C39_permutation_partial",
    "NS.Props.Order.C39_general",
    "NS.Props.Order.C39_reverse",
    "NS.Props.Order.C39_notSquare",
    "NS.Props.Order.C39_empty_row_negation"
   ],
   "note": "Proved when every row has a non-zero entry; the code returns zeros in place of empty rows (witness and general characterisation proved)."
  },
  {
   "property": "C40",
   "status": "partial",
   "theorems": [
    "NS.Props.Order.C40_permutation_matrix",
    "NS.Props.Order.C40_inverse_permutation",
    "NS.Props.Order.C40_permutate_matrix",
    "NS.Props.Order.C40_permutate_vector",
    "NS.Props.Order.C40_permutate_vector_partial",
    "NS.Props.Order.C40_permutate_inverse",
    "NS.Props.Order.C40_workflow",
    "NS.Props.Order.C40_out_of_range",
    "NS.Props.Order.C40_permutate_vector_negation",
    "NS.Props.Order.C40_permutate_matrix_shape",
    "NS.Props.Order.C40_permutate_vector_shape"
   ],
   "note": "permutate(v,p) computes P^T*v, not P*v (witness); it is P*v for involutions; with inverse_permutation the reordering workflow is proved correct for all permutations."
  },
  {
   "property": "C41",
   "status": "proved",
   "theorems": [
    "NS.Props.Construct.C41_eye",
    "NS.Props.Construct.C41_eye_square",
    "NS.Props.Construct.C41_zero_dimension",
    "NS.Props.Construct.C41_diag_of_vector",
    "NS.Props.Construct.C41_diag_of_matrix",
    "NS.Props.Construct.C41_diag_diag",
    "NS.Props.Construct.C41_tril",
    "NS.Props.Construct.C41_triu",
    "NS.Props.Construct.C41_tril_triu_split"
   ],
   "note": ""
  },
  {
   "property": "C42",
   "status": "partial",
   "theorems": [
    "NS.Props.Construct.C42_hilbert",
    "NS.Props.Construct.C42_inv_hilbert_partial",
    "NS.Props.Construct.C42_inv_hilbert_exact",
    "NS.Props.Construct.C42_word64",
    "NS.Props.Construct.C42_overflow_negation"
   ],
   "note": "The inverse identity is proved for every n in unbounded integers and for n <= 14 in 64-bit words; for n = 15 the size_t product overflows and the result is wrong (witness)."
  },
  {
   "property": "C43",
   "status": "proved",
   "theorems": [
    "NS.Props.Construct.C43_checks",
    "NS.Props.Construct.C43_nonsquare"
   ],
   "note": ""
  },
  {
   "property": "C44",
   "status": "proved",
   "theorems": [
    "NS.Props.Construct.C44_sign_pow",
    "NS.Props.Construct.C44_factorial",
    "NS.Props.Construct.C44_binom",
    "NS.Props.Construct.C44_binom_overflow",
    "NS.Props.Construct.C44_binom_out_of_range",
    "NS.Props.Construct.C44_binom_real",
    "NS.Props.Construct.C44_binom_real_nat"
   ],
   "note": ""
  },
  {
   "property": "C45",
   "status": "proved",
   "theorems": [
    "NS.Props.Simplex.C45_normal",
    "NS.Props.Simplex.C45_dependent"
   ],
   "note": "exact arithmetic; determinant threshold 0; sqrt any function with sqrt(x)^2=x for x>=0"
  },
  {
   "property": "C46",
   "status": "partial",
   "theorems": [
    "NS.Props.Simplex.C46_maps",
    "NS.Props.Simplex.C46_matrices",
    "NS.Props.Simplex.C46_unprepared",
    "NS.Props.Simplex.C46_degenerate",
    "NS.Props.Simplex.C46_prepare_fresh"
   ],
   "note": "proved except \"prepare() reports degenerate triangles\", which is false: C46_degenerate shows it divides by zero and throws nothing. Determinant threshold 0."
  },
  {
   "property": "C47",
   "status": "proved",
   "theorems": [
    "NS.Props.Simplex.C47_volume",
    "NS.Props.Simplex.C47_volume_permute",
    "NS.Props.Simplex.C47_volume_translate",
    "NS.Props.Simplex.C47_gradient",
    "NS.Props.Simplex.C47_diameter"
   ],
   "note": "exact arithmetic, determinant threshold 0"
  },
  {
   "property": "C48",
   "status": "partial",
   "theorems": [
    "NS.Props.Simplex.C48_center_partial",
    "NS.Props.Simplex.C48_center_unit_partial",
    "NS.Props.Simplex.C48_center_wrong",
    "NS.Props.Simplex.C48_faceCenter",
    "NS.Props.Simplex.C48_faceNormal",
    "NS.Props.Simplex.C48_faceNormal_range"
   ],
   "note": "face part proved in full; center()/outerRadius() are wrong in the code (witness C48_center_wrong); what they do compute is C48_center_partial"
  },
  {
   "property": "C49",
   "status": "partial",
   "theorems": [
    "NS.Props.MeshHandle.C49_handles",
    "NS.Props.MeshHandle.C49_forbidden",
    "NS.Props.MeshHandle.C49_self_assign_negation",
    "NS.Props.MeshHandle.C49_moved_from_negation",
    "NS.Props.MeshHandle.C49_leak_negation"
   ],
   "note": "proved for all histories without self-assignment of an only handle and without reading moved-from handles; those are undefined behaviour in the code (characterised by C49_forbidden, witnesses proved); edge objects leak (witness)"
  },
  {
   "property": "C50",
   "status": "proved",
   "theorems": [
    "NS.Props.Mesh.C50_history",
    "NS.Props.Mesh.C50_incidence",
    "NS.Props.Mesh.C50_coordinates",
    "NS.Props.Mesh.C50_addVertex",
    "NS.Props.Mesh.C50_addElement"
   ],
   "note": "histories in which no object is added twice"
  },
  {
   "property": "C51",
   "status": "partial",
   "theorems": [
    "NS.Props.Mesh.C51_setupNeighbors",
    "NS.Props.Mesh.C51_idempotent",
    "NS.Props.Mesh.C51_stale_edge"
   ],
   "note": "proved in full for setupNeighbors() on every mesh built by addVertex/addElement (both the normal and the exception case); false for a second call after more elements were added at an existing face (witness C51_stale_edge)"
  },
  {
   "property": "C52",
   "status": "proved",
   "theorems": [
    "NS.Props.Mesh.C52_setupBoundaries"
   ],
   "note": ""
  },
  {
   "property": "C53",
   "status": "partial",
   "theorems": [
    "NS.Props.HyperCube.C53_count",
    "NS.Props.HyperCube.C53_generate",
    "NS.Props.HyperCube.C53_validate",
    "NS.Props.HyperCube.C53_extent_actual",
    "NS.Props.HyperCube.C53_extent_partial",
    "NS.Props.HyperCube.C53_extent_negation"
   ],
   "note": "all clauses proved for every n0, n1 >= 1 and size except the extents, which the code violates for every n0 != n1 (spacing computed with the element counts swapped): C53_extent_negation; proved for n0 = n1"
  },
  {
   "property": "C54",
   "status": "partial",
   "theorems": [
    "NS.Props.Shape.C54_kronecker",
    "NS.Props.Shape.C54_reproduce",
    "NS.Props.Shape.C54_partition",
    "NS.Props.Shape.C54_gradient",
    "NS.Props.Shape.C54_gradient_partial",
    "NS.Props.Shape.C54_gradient_negation",
    "NS.Props.Shape.C54_line_order_negation",
    "NS.Props.Shape.C54_tables",
    "NS.Props.Shape.C54_cubic_partial",
    "NS.Props.Shape.C54_cubic_negation",
    "NS.Props.Shape.C54_tetrahedra"
   ],
   "note": "all clauses proved for (1,1), (1,2), (2,1), (2,2), (3,1) and all points; with explicit node values the gradient of linear triangles is not the derivative (witness); quadratic lines number the middle node 1 instead of the documented 2 (witness); (2,3) and (3,2) abort, see C55; with as many node values as components their tables are Lagrange functions and their gradients the derivatives, except for the second y-derivative of cubic triangles, which multiplies the coefficient of x y^2 by y instead of x (witness)"
  },
  {
   "property": "C55",
   "status": "partial",
   "theorems": [
    "NS.Props.Shape.C55_dof_partial",
    "NS.Props.Shape.C55_total_partial",
    "NS.Props.Shape.C55_abort_negation",
    "NS.Props.Shape.C55_component_range"
   ],
   "note": "false in the code for (1,2) (DOF 4, dimension 3), (2,3) and (3,2) (DOF too small, every evaluation aborts); exact characterisation and totality for all others proved"
  },
  {
   "property": "C56",
   "status": "proved",
   "theorems": [
    "NS.Props.Shape.C56_order1",
    "NS.Props.Shape.C56_order2",
    "NS.Props.Shape.C56_nodes",
    "NS.Props.Shape.C56_validate",
    "NS.Props.Shape.C56_not_idempotent"
   ],
   "note": "for every triangle mesh (K = 2, like the whole mesh model) built by an addVertex/addElement history and set up with setupNeighbors and any number of setupBoundaries/prepare calls; a second prepareMesh call duplicates the DOFs (C56_not_idempotent)"
  },
  {
   "property": "C57",
   "status": "proved",
   "theorems": [
    "NS.Props.Quadrature.C57_polynomial",
    "NS.Props.Quadrature.C57_weighted_sum",
    "NS.Props.Quadrature.C57_inside",
    "NS.Props.Quadrature.C57_sharp",
    "NS.Props.Quadrature.C57_not_exact"
   ],
   "note": "error bound 1e-13 times the sum of absolute coefficients, exact real arithmetic with the decimal literals; integral = Mathlib interval integrals"
  },
  {
   "property": "C58",
   "status": "partial",
   "theorems": [
    "NS.Props.Loader.C58_node_line",
    "NS.Props.Loader.C58_element_line",
    "NS.Props.Loader.C58_space",
    "NS.Props.Loader.C58_lines",
    "NS.Props.Loader.C58_digit",
    "NS.Props.Loader.C58_index_number",
    "NS.Props.Loader.C58_int_number",
    "NS.Props.Loader.C58_too_large",
    "NS.Props.Loader.C58_no_number",
    "NS.Props.Loader.C58_node_header",
    "NS.Props.Loader.C58_element_header",
    "NS.Props.Loader.C58_short_one_partial",
    "NS.Props.Loader.C58_short_two_partial",
    "NS.Props.Loader.C58_short_negation",
    "NS.Props.Loader.C58_node_bounds_partial",
    "NS.Props.Loader.C58_element_bounds_partial",
    "NS.Props.Loader.C58_bounds_negation"
   ],
   "note": "first clause proved for all lines; second clause only when something follows the last token: a coordinate that ends the line is read twice (C58_short_negation, all such lines); third clause except for lines that begin with a number ending the line (C58_bounds_negation: the line \"1\" reads before the buffer)"
  },
  {
   "property": "C59",
   "status": "partial",
   "theorems": [
    "NS.Props.Loader.C59_load",
    "NS.Props.Loader.C59_mesh",
    "NS.Props.Loader.C59_node_header",
    "NS.Props.Loader.C59_element_header",
    "NS.Props.Loader.C59_node_sequence",
    "NS.Props.Loader.C59_element_sequence",
    "NS.Props.Loader.C59_reference_negation"
   ],
   "note": "all clauses but the last; references outside the node range are not rejected but undefined behaviour (C59_reference_negation); the number in the header is not compared with the rows"
  },
  {
   "property": "C60",
   "status": "proved",
   "theorems": [
    "NS.Props.Fem.C60_solutions",
    "NS.Props.Fem.C60_constrain",
    "NS.Props.Fem.C60_numbered",
    "NS.Props.Fem.C60_avgMid",
    "NS.Props.Fem.C60_spd"
   ],
   "note": "for every mesh with positional vertex numbers (proved to be every mesh from prepareMesh), matrix, right-hand side and boundary function; exact arithmetic"
  },
  {
   "property": "C61",
   "status": "proved",
   "theorems": [
    "NS.Props.Iter.C61_jacobi_converges"
   ],
   "note": ""
  },
  {
   "property": "C62",
   "status": "proved",
   "theorems": [
    "NS.Props.Iter.C62_sor_converges"
   ],
   "note": ""
  },
  {
   "property": "C63",
   "status": "proved",
   "theorems": [
    "NS.Props.Order.C39_general",
    "NS.Props.Order.C63_unique",
    "NS.Props.Order.C63_breadth_first",
    "NS.Props.Order.C39_permutation_partial"
   ],
   "note": "For matrices with empty rows the statement concerns the listed (non-empty) rows."
  },
  {
   "property": "C64",
   "status": "proved",
   "theorems": [
    "NS.Props.Mesh.C64_validate_iff",
    "NS.Props.Mesh.C64_prepare",
    "NS.Props.Mesh.C64_pipeline"
   ],
   "note": "determinant threshold of prepare() 0; exact arithmetic"
  },
  {
   "property": "C65",
   "status": "proved",
   "theorems": [
    "NS.Props.Fem.C65_assemble",
    "NS.Props.Fem.C65_semidefinite"
   ],
   "note": "every mesh from an addVertex/addElement history whose corners are all mesh vertices, through setupNeighbors, optional setupBoundaries, prepare and prepareMesh of order 1 or 2; exact arithmetic; the element matrix is specified with the factor J^-1 the code uses, see C66"
  },
  {
   "property": "C66",
   "status": "partial",
   "theorems": [
    "NS.Props.Fem.C66_exact_iff",
    "NS.Props.Fem.C66_rectangle",
    "NS.Props.Fem.C66_negation",
    "NS.Props.Fem.C66_order2_partial",
    "NS.Props.Fem.C66_order2_only",
    "NS.Props.Fem.C66_order2_negation"
   ],
   "note": "false in the code: gradients are multiplied with J^-1 instead of its transpose; C66_exact_iff proves that the matrix is right exactly for triangles whose edge matrix is symmetric or a scaled rotation, C66_negation is a witness; for order 2 (over the reals, exact integrals as integrals, gradients as derivatives along the edges) C66_order2_partial bounds the error for those triangles by the rounding of the constants, C66_order2_only is the quantitative converse, C66_order2_negation a witness"
  },
  {
   "property": "C67",
   "status": "partial",
   "theorems": [
    "NS.Props.Fem.C67_system",
    "NS.Props.Fem.C119_system",
    "NS.Props.Fem.C67_solve_partial"
   ],
   "note": "system part proved in full (C67_system if nothing is dropped, which for quadratic elements and the EPS of the program never holds; C119_system covers it); the solver part excludes diagonal entries below the threshold of the preconditioner (SingularException) and right-hand side zero, where pcg divides by zero; exact arithmetic"
  },
  {
   "property": "C68",
   "status": "proved",
   "theorems": [
    "NS.Props.Fem.C68_grid"
   ],
   "note": "all N, square sizes, offsets and thresholds below half the rounding factor; exact arithmetic"
  },
  {
   "property": "C69",
   "status": "proved",
   "theorems": [
    "NS.Props.Iter.C69_sor_spd",
    "NS.Props.Iter.C69_weight_needed",
    "NS.Props.Fem.C69_fem_sor"
   ],
   "note": "exact arithmetic; the residual bound needs two sweeps, weight 1 or a zero start (the first sweep of the code relaxes with the start vector); iteration limit large enough, the bound is not made explicit"
  },
  {
   "property": "C70",
   "status": "proved",
   "theorems": [
    "NS.Props.Iter.C70_sor_levels",
    "NS.Props.Iter.C70_sor_spd"
   ],
   "note": "exact arithmetic; same restriction of the error bound as C69"
  },
  {
   "property": "C71",
   "status": "proved",
   "theorems": [
    "NS.Props.Fdm.C71_fdm_system",
    "NS.Props.Fdm.C71_fdm_poisson",
    "NS.Props.Fdm.C71_maximum",
    "NS.Props.Fdm.C71_minimum",
    "NS.Props.Fdm.C71_fdm_solve"
   ],
   "note": "exact arithmetic; Dirichlet boundary (BOUNDARY_MODE 0)"
  },
  {
   "property": "C72",
   "status": "proved",
   "theorems": [
    "NS.Props.Heat.C72_heat_system",
    "NS.Props.Heat.C72_heat_euler",
    "NS.Props.Heat.C72_maximum",
    "NS.Props.Heat.C72_minimum",
    "NS.Props.Heat.C72_heat_solve"
   ],
   "note": "exact arithmetic; Dirichlet boundary"
  },
  {
   "property": "C73",
   "status": "partial",
   "theorems": [
    "NS.Props.Norm.C73_max_norm",
    "NS.Props.Norm.C73_max_norm_eq",
    "NS.Props.Norm.C73_definite",
    "NS.Props.Norm.C73_homogeneous",
    "NS.Props.Norm.C73_triangle",
    "NS.Props.Norm.C73_entries",
    "NS.Props.Norm.C73_action",
    "NS.Props.Norm.C73_min_norm_sparse",
    "NS.Props.Norm.C73_min_norm_dense",
    "NS.Props.Norm.C73_cond_sparse",
    "NS.Props.Norm.C73_cond_dense",
    "NS.Props.Norm.C73_cond_scale",
    "NS.Props.Norm.C73_not_class_independent",
    "NS.Props.Norm.C73_not_condition"
   ],
   "note": "exact arithmetic, exact sqrt; numeric_limits::max() assumed to bound the entries and its square taken as exact; cond is proved not to be class independent and not to be a condition number"
  },
  {
   "property": "C74",
   "status": "proved",
   "theorems": [
    "NS.Props.Rounding.C74_constant",
    "NS.Props.Rounding.C74_dot",
    "NS.Props.Rounding.C74_dot_error",
    "NS.Props.Rounding.C74_self",
    "NS.Props.Rounding.C74_sum"
   ],
   "note": "standard model of rounding (no overflow, underflow); real scalars"
  },
  {
   "property": "C75",
   "status": "proved",
   "theorems": [
    "NS.Props.Rounding.C75_mulVec_sparse",
    "NS.Props.Rounding.C75_mulVec_dense",
    "NS.Props.Rounding.C75_mul_dense",
    "NS.Props.Rounding.C75_mul_sparse",
    "NS.Props.Rounding.C75_mulLeft_dense",
    "NS.Props.Rounding.C75_mulLeft_sparse"
   ],
   "note": "standard model of rounding; real scalars"
  },
  {
   "property": "C76",
   "status": "proved",
   "theorems": [
    "NS.Props.Rounding.C76_solve"
   ],
   "note": "standard model of rounding; real scalars"
  },
  {
   "property": "C77",
   "status": "proved",
   "theorems": [
    "NS.Props.Rounding.C77_doolittle_dense",
    "NS.Props.Rounding.C77_doolittle_sparse",
    "NS.Props.Rounding.C77_upper_negation"
   ],
   "note": "standard model of rounding; real scalars; dense overload with zero L and P on entry"
  },
  {
   "property": "C78",
   "status": "proved",
   "theorems": [
    "NS.Props.Rounding.C78_solve_sparse",
    "NS.Props.Rounding.C78_solve_dense",
    "NS.Props.Rounding.C78_inverse_sparse"
   ],
   "note": "standard model of rounding; real scalars; dense inverse starts from a dirty P (see C34) and is not covered"
  },
  {
   "property": "C79",
   "status": "proved",
   "theorems": [
    "NS.Props.Rounding.C79_determinant_dense",
    "NS.Props.Rounding.C79_determinant_sparse"
   ],
   "note": "standard model of rounding; real scalars"
  },
  {
   "property": "C80",
   "status": "proved",
   "theorems": [
    "NS.Props.Rounding.C80_cholesky",
    "NS.Props.Rounding.C80_a_priori",
    "NS.Props.Rounding.C80_sqrt_exists"
   ],
   "note": "standard model of rounding; real scalars; zero L on entry; a pivot that is computed as zero gives 0/0, an outcome of its own"
  },
  {
   "property": "C81",
   "status": "proved",
   "theorems": [
    "NS.Props.ObjLoader.C81_load",
    "NS.Props.ObjLoader.C81_mesh",
    "NS.Props.ObjLoader.C81_other",
    "NS.Props.ObjLoader.C81_degenerate_accepted"
   ],
   "note": "the result of tinyobj::LoadObj is a parameter; adjacency for triangles with three different corners"
  },
  {
   "property": "C82",
   "status": "partial",
   "theorems": [
    "NS.Props.Vtk.C82_read",
    "NS.Props.Vtk.C82_valid",
    "NS.Props.Vtk.C82_mesh",
    "NS.Props.Vtk.C82_point",
    "NS.Props.Vtk.C82_cells_need",
    "NS.Props.Vtk.C82_no_point_data",
    "NS.Props.Vtk.C82_unnumbered",
    "NS.Props.Vtk.C82_quadratic_flag",
    "NS.Props.Vtk.C82_gradient",
    "NS.Props.Vtk.decimal_showNat"
   ],
   "note": "K = 2; the code violates validity with ElementGradient, without prepareMesh and with mismatched IsQuadratic (proved as negations); file I/O not modelled; the format of numbers is a parameter"
  },
  {
   "property": "C83",
   "status": "proved",
   "theorems": [
    "NS.Props.Print.C83_vector",
    "NS.Props.Print.C83_vector_injective",
    "NS.Props.Print.C83_matrix",
    "NS.Props.Print.C83_matrix_injective",
    "NS.Props.Print.C83_sparse",
    "NS.Props.Print.C83_sparse_injective",
    "NS.Props.Print.C83_sparse_shape"
   ],
   "note": "the format of numbers is a parameter: words without blanks, for matrices not equal to \"|\""
  },
  {
   "property": "C84",
   "status": "proved",
   "theorems": [
    "NS.Props.Fdm.C84_poisson_error",
    "NS.Props.Fdm.C84_poisson_program",
    "NS.Props.Heat.C84_heat_error",
    "NS.Props.Heat.C84_heat_program"
   ],
   "note": "exact arithmetic over the reals"
  },
  {
   "property": "C85",
   "status": "partial",
   "theorems": [
    "NS.Props.VecMore.C85_mag",
    "NS.Props.VecMore.C85_cauchy_schwarz",
    "NS.Props.VecMore.C85_triangle",
    "NS.Props.VecMore.C85_scale",
    "NS.Props.VecMore.C85_normalized",
    "NS.Props.VecMore.C85_complex_negation"
   ],
   "note": "exact arithmetic, any exact square root; false for complex element types (witness)"
  },
  {
   "property": "C86",
   "status": "partial",
   "theorems": [
    "NS.Props.VecMore.C86_vector",
    "NS.Props.VecMore.C86_vector_complex",
    "NS.Props.VecMore.C86_sparse",
    "NS.Props.VecMore.C86_dense",
    "NS.Props.VecMore.C86_avg",
    "NS.Props.VecMore.C86_matrix_avg",
    "NS.Props.VecMore.C86_extrema_partial",
    "NS.Props.VecMore.C86_max_wrong",
    "NS.Props.VecMore.C86_complex_extrema_partial",
    "NS.Props.VecMore.C86_complex_max_wrong",
    "NS.Props.VecMore.C86_iteration",
    "NS.Props.VecMore.C86_iterator",
    "NS.Props.VecMore.C86_slices_partial",
    "NS.Props.VecMore.C86_slices_negation"
   ],
   "note": "the code violates the property for max() (start value) and for left/right/mid of DynamicVector (abort); everything else proved in full"
  },
  {
   "property": "C87",
   "status": "partial",
   "theorems": [
    "NS.Props.CxIterative.C87_jacobi",
    "NS.Props.CxIterative.C87_sor",
    "NS.Props.CxIterative.C87_fixed_point",
    "NS.Props.CxIterative.C87_error",
    "NS.Props.CxIterative.C87_sor_error_partial",
    "NS.Props.CxIterative.C87_negation"
   ],
   "note": "the code violates the stopping clause (unconjugated sum of squares, witness) and the first sor sweep relaxes against 0; the updates, fixed point and contraction are proved"
  },
  {
   "property": "C88",
   "status": "proved",
   "theorems": [
    "NS.Props.Fem.C88_equations",
    "NS.Props.Fem.C88_error",
    "NS.Props.Fem.C88_sor",
    "NS.Props.Fem.C88_pcg",
    "NS.Props.Fem.C88_example",
    "NS.Props.Fem.C88_example_pcg"
   ],
   "note": "exact arithmetic over the reals; linear elements on the generated square grid; solver 1 (cg) is excluded: it is wrong (C35)"
  },
  {
   "property": "C89",
   "status": "partial",
   "theorems": [
    "NS.Props.Fem.C89_exact",
    "NS.Props.Fem.C89_post",
    "NS.Props.Fem.C89_post_linear",
    "NS.Props.Fem.C89_files",
    "NS.Props.Fem.C89_example",
    "NS.Props.Fem.C89_post_negation",
    "NS.Props.Fem.C89_cell_negation"
   ],
   "note": "the code violates two clauses (witnesses): the printed number is no bound of |grad(e)|, and the cell residual of quadratic elements uses the number of the quadrature point as shape function; the rest is proved in full"
  },
  {
   "property": "C90",
   "status": "partial",
   "theorems": [
    "NS.Props.Dense.C90_has",
    "NS.Props.Dense.C90_default",
    "NS.Props.Dense.C90_iterator_eq",
    "NS.Props.Dense.C90_extrema_partial",
    "NS.Props.Dense.C90_max_wrong",
    "NS.Props.Dense.C90_sparse_default",
    "NS.Props.Dense.C90_sparse_iterator_eq",
    "NS.Props.Dense.C90_simplex_default"
   ],
   "note": "max() is wrong when all entries are below its start value (proved); everything else proved in full"
  },
  {
   "property": "C91",
   "status": "proved",
   "theorems": [
    "NS.Props.Obj.C91_number",
    "NS.Props.Obj.C91_field",
    "NS.Props.Obj.C91_garbage",
    "NS.Props.Obj.C91_missing",
    "NS.Props.Obj.C91_cases",
    "NS.Props.Obj.C91_every",
    "NS.Props.Obj.C91_reads",
    "NS.Props.Obj.C91_unique"
   ],
   "note": "exact arithmetic; the conversion to float is a parameter; C91_every and C91_reads together give the result for every word"
  },
  {
   "property": "C92",
   "status": "proved",
   "theorems": [
    "NS.Props.Obj.C92_parse",
    "NS.Props.Obj.C92_space",
    "NS.Props.Obj.C92_mesh",
    "NS.Props.Obj.C92_empty",
    "NS.Props.Obj.C92_example",
    "NS.Props.Obj.C92_split_by_normals",
    "NS.Props.Obj.C92_split_by_material",
    "NS.Props.Obj.C92_material_loses_faces"
   ],
   "note": "what a material file defines is a parameter (readMtl, arbitrary; C106 gives it for the real reader); tag lines with all three counts are covered; known materials split a group into parts that share no vertices, and a group whose last part is empty is lost"
  },
  {
   "property": "C93",
   "status": "partial",
   "theorems": [
    "NS.Props.Obj.C93_ends",
    "NS.Props.Obj.C93_unsafe",
    "NS.Props.Obj.C93_lines",
    "NS.Props.Obj.C93_safe_partial"
   ],
   "note": "safety for any text whatsoever fails (witnesses); proved for texts of at most 10^8 characters made of safe lines; material files are a parameter there, C106_obj_ends and C106_obj_safe give the same for the real ones"
  },
  {
   "property": "C94",
   "status": "proved",
   "theorems": [
    "NS.Props.Envelope.C94_reverse",
    "NS.Props.Envelope.C94_fill",
    "NS.Props.Envelope.C94_pipeline"
   ],
   "note": "matrices without zero rows, as the renumbering requires (see C39)"
  },
  {
   "property": "C95",
   "status": "proved",
   "theorems": [
    "NS.Props.Rounding.C95_growth_dense",
    "NS.Props.Rounding.C95_growth_sparse",
    "NS.Props.Rounding.C95_solve_dense",
    "NS.Props.Rounding.C95_solve_sparse"
   ],
   "note": "floating point: standard model of rounding, as C74-C80"
  },
  {
   "property": "C96",
   "status": "proved",
   "theorems": [
    "NS.Props.Rounding.C96_jacobi",
    "NS.Props.Rounding.C96_jacobi_stops",
    "NS.Props.Rounding.C96_sor",
    "NS.Props.Rounding.C96_sor_stops"
   ],
   "note": "standard model of rounding, real scalars, non-zero diagonal; sor for weights in [0,1]"
  },
  {
   "property": "C97",
   "status": "partial",
   "theorems": [
    "NS.Props.Alias.C97_vector_partial",
    "NS.Props.Alias.C97_vector_div_partial",
    "NS.Props.Alias.C97_vector_scalar_partial",
    "NS.Props.Alias.C97_vector_negation",
    "NS.Props.Alias.C97_dense_partial",
    "NS.Props.Alias.C97_dense_scale_partial",
    "NS.Props.Alias.C97_sparse_add_partial",
    "NS.Props.Alias.C97_sparse_hadamard_partial",
    "NS.Props.Alias.C97_sparse_sub_partial",
    "NS.Props.Alias.C97_sparse_sub_negation",
    "NS.Props.Alias.C97_sparse_scale_partial",
    "NS.Props.Alias.C97_sparse_scale_negation",
    "NS.Props.Alias.C97_jacobi_partial",
    "NS.Props.Alias.C97_cholesky_negation",
    "NS.Props.Alias.C97_ilu0_negation",
    "NS.Props.Alias.C97_doolittle_negation"
   ],
   "note": "the property fails: v += v[k], v -= v[k], v *= v[k] and m *= *it use the changed entry for the later ones, sparse m -= m erases from the matrix it iterates over (right for at most one entry only), cholesky(m, m) always has 1 at (0,0); proved are the operators for which it holds and the exact conditions for the others; ilu0 and doolittle with an output aliased to A keep old content of A in it; ainv_lu with aliased arguments is not modelled"
  },
  {
   "property": "C98",
   "status": "proved",
   "theorems": [
    "NS.Props.LU.C98_dominant_sparse",
    "NS.Props.LU.C98_dominant_dense",
    "NS.Props.LU.C98_weak_negation"
   ],
   "note": "exact arithmetic; the strictness is needed, since the last of equal pivots is taken (C98_weak_negation)"
  },
  {
   "property": "C99",
   "status": "proved",
   "theorems": [
    "NS.Props.Checked.C99_cholesky",
    "NS.Props.Checked.C99_cholesky_sizes",
    "NS.Props.Checked.C99_cholesky_real",
    "NS.Props.Checked.C99_cg",
    "NS.Props.Checked.C99_pcg",
    "NS.Props.Checked.C99_cg_sizes",
    "NS.Props.Checked.C99_unchecked_negation"
   ],
   "note": "The checked build; C99_unchecked_negation is the wrong factor of a non-symmetric matrix in the build without checks."
  },
  {
   "property": "C100",
   "status": "partial",
   "theorems": [
    "NS.Props.Checked.C100_partial",
    "NS.Props.Checked.C100_real_partial",
    "NS.Props.Checked.C100_negation"
   ],
   "note": "The code squares where it should take absolute squares, so for Hermitian positive definite A the factor is right exactly when A is real: C100_partial (right implies real), C100_real_partial (real positive definite implies right), C100_negation (witness)."
  },
  {
   "property": "C101",
   "status": "partial",
   "theorems": [
    "NS.Props.FemMain.C101_number",
    "NS.Props.FemMain.C101_arguments",
    "NS.Props.FemMain.C101_arguments_negation"
   ],
   "note": "C101_arguments characterises every outcome for every command line; the code violates the property in three ways (C101_arguments_negation): numbers modulo 2^32, ignored trailing characters, uncaught exception for the number of cells"
  },
  {
   "property": "C102",
   "status": "partial",
   "theorems": [
    "NS.Props.FemMain.C102_output",
    "NS.Props.FemMain.C102_solver",
    "NS.Props.FemMain.C102_handle",
    "NS.Props.FemMain.C102_grid",
    "NS.Props.FemMain.C102_run",
    "NS.Props.FemMain.C102_invalid",
    "NS.Props.FemMain.C102_one_cell_negation",
    "NS.Props.FemMain.C102_missing_negation"
   ],
   "note": "exact arithmetic; the code violates the property for one cell with solver 2 (0/0) and for missing Triangle files (abort); accuracy for solver 2 on 2..31 cells here and on up to 256 cells in C109, solver 1 may divide by zero (C35)"
  },
  {
   "property": "C103",
   "status": "proved",
   "theorems": [
    "NS.Props.FemMain.C103_rejected",
    "NS.Props.FemMain.C103_finished",
    "NS.Props.FemMain.C103_linear",
    "NS.Props.FemMain.C103_text",
    "NS.Props.FemMain.C103_flat"
   ],
   "note": "exact arithmetic; what the threshold of the program drops must be small (Tame; implied by Coarse for linear elements, for quadratic elements see C119); solver 1 (cg) may divide by zero (C35), solver 2 needs a non-zero right-hand side; C103_text goes from the text of an obj file (C92) to points and triangles; C103_flat: a triangulation drawn in the plane of the first two coordinates is never calculated, because the program reads the first and the third"
  },
  {
   "property": "C104",
   "status": "proved",
   "theorems": [
    "NS.Props.Fdm.C104_decay",
    "NS.Props.Fdm.C104_slow",
    "NS.Props.Fdm.C104_program"
   ],
   "note": "exact arithmetic; the existence of one inner point with a large error is shown, not the error at every point"
  },
  {
   "property": "C105",
   "status": "partial",
   "theorems": [
    "NS.Props.GridFile.C105_poisson",
    "NS.Props.GridFile.C105_heat",
    "NS.Props.GridFile.C105_reader_partial",
    "NS.Props.GridFile.C105_reader_fails"
   ],
   "note": "the layout is proved in full; the reader returns the values for equal numbers of points in x and y direction only (C105_reader_fails: otherwise an error); number format is a parameter, the reader works on words"
  },
  {
   "property": "C106",
   "status": "proved",
   "theorems": [
    "NS.Props.Obj.C106_names",
    "NS.Props.Obj.C106_missing",
    "NS.Props.Obj.C106_library",
    "NS.Props.Obj.C106_without_files",
    "NS.Props.Obj.C106_ends",
    "NS.Props.Obj.C106_obj_ends",
    "NS.Props.Obj.C106_safe",
    "NS.Props.Obj.C106_obj_safe",
    "NS.Props.Obj.C106_example",
    "NS.Props.Obj.C106_depends",
    "NS.Props.Obj.C106_unsafe"
   ],
   "note": "colours, numbers and textures of materials are read but not stored in the model, as the mesh loader ignores them; fewer than 2^31 materials"
  },
  {
   "property": "C107",
   "status": "proved",
   "theorems": [
    "NS.Props.Levels.C107_levels",
    "NS.Props.Levels.C107_bandwidth",
    "NS.Props.Levels.C107_tridiagonal",
    "NS.Props.Levels.C107_diagonal_negation",
    "NS.Props.Levels.C107_minimal_negation"
   ],
   "note": "a symmetric pattern is assumed (the code follows rows only); for a zero diagonal entry and for minimal bandwidth there are witnesses that more cannot be claimed"
  },
  {
   "property": "C108",
   "status": "proved",
   "theorems": [
    "NS.Props.Iter.C108_sor_rate",
    "NS.Props.Fdm.C108_fdm",
    "NS.Props.Fdm.C108_program"
   ],
   "note": "exact arithmetic; the bound of the number of sweeps is not sharp (7 N^2 against about N^2/3); together with C104 it shows that the order N^2 is right"
  },
  {
   "property": "C109",
   "status": "proved",
   "theorems": [
    "NS.Props.CG.C109_pcg_rate",
    "NS.Props.Fem.C109_grid",
    "NS.Props.Fem.C109_error",
    "NS.Props.FemMain.C109_run"
   ],
   "note": "exact arithmetic; the constant in the rate for the grid is not sharp (5/7 N against about 2/pi N)"
  },
  {
   "property": "C110",
   "status": "proved",
   "theorems": [
    "NS.Props.Obj.C110_exact",
    "NS.Props.Obj.C110_number",
    "NS.Props.Obj.C110_integer",
    "NS.Props.Obj.C110_field"
   ],
   "note": "standard model of rounding with unbounded exponents: no overflow or underflow of intermediate results (pow(5.0, e) overflows for e > 441)"
  },
  {
   "property": "C111",
   "status": "proved",
   "theorems": [
    "NS.Props.Rounding.C111_sor"
   ],
   "note": "standard model of rounding with unbounded exponents; start vector 0 (as in all programs of the repository); matrix and right-hand side are the stored numbers"
  },
  {
   "property": "C112",
   "status": "proved",
   "theorems": [
    "NS.Props.Fdm.C112_accuracy",
    "NS.Props.Fdm.C112_slow",
    "NS.Props.Fdm.C112_program"
   ],
   "note": "standard model of rounding with unbounded exponents; XC = YC = N + 1 and H = K are given (the shipped constants give 201)"
  },
  {
   "property": "C113",
   "status": "partial",
   "theorems": [
    "NS.Props.Mesh.C113_same",
    "NS.Props.Mesh.C113_keep",
    "NS.Props.Mesh.C113_next",
    "NS.Props.Mesh.C113_accepts",
    "NS.Props.Mesh.C113_validate",
    "NS.Props.Mesh.C113_negation"
   ],
   "note": "false in the code: the edge object is stored before the exception is thrown, so a repeated call skips that face; exactly one exception per crowded face of an element, then setupNeighbors() and validate() accept the mesh (C113_accepts, C113_validate, witness C113_negation); the last clause holds (C113_keep)"
  },
  {
   "property": "C114",
   "status": "proved",
   "theorems": [
    "NS.Props.Fem.C114_same",
    "NS.Props.FemMain.C114_fast",
    "NS.Props.FemMain.C114_slow"
   ],
   "note": "exact arithmetic; between 11 and 219 cells per side nothing is claimed about the accuracy"
  },
  {
   "property": "C115",
   "status": "proved",
   "theorems": [
    "NS.Props.Heat.C115_bound",
    "NS.Props.Heat.C115_program",
    "NS.Props.Heat.shipped_solvable"
   ],
   "note": "exact arithmetic; the time steps before 0.3 are not judged"
  },
  {
   "property": "C116",
   "status": "proved",
   "theorems": [
    "NS.Props.Heat.C116_heat",
    "NS.Props.Heat.C116_enough",
    "NS.Props.Heat.C116_limit"
   ],
   "note": "exact arithmetic; non-vacuity: enough_conditions are the hypotheses for the constants of the program"
  },
  {
   "property": "C117",
   "status": "partial",
   "theorems": [
    "NS.Props.FemMain.C117_affine_partial",
    "NS.Props.FemMain.C117_program_partial",
    "NS.Props.FemMain.C117_negation"
   ],
   "note": "proved when the edge matrix of every triangle is symmetric or a rotation with scaling (C66); false otherwise, because the example multiplies gradients by the inverse of the edge matrix instead of its transpose (witness C117_negation)"
  },
  {
   "property": "C118",
   "status": "partial",
   "theorems": [
    "NS.Props.Reuse.C118_doolittle",
    "NS.Props.Reuse.C118_doolittle_iff",
    "NS.Props.Reuse.C118_solve_with_used_L",
    "NS.Props.Reuse.C118_used_P_negation",
    "NS.Props.Reuse.C118_cholesky",
    "NS.Props.Reuse.C118_cholesky_upper",
    "NS.Props.Reuse.C118_cholesky_twice",
    "NS.Props.Reuse.C118_cholesky_twice_negation",
    "NS.Props.Reuse.C118_ainv_lower",
    "NS.Props.Reuse.C118_ainv_twice_negation"
   ],
   "note": "true for U, the pivot count and the strict lower triangle of L of doolittle; false for P and the upper triangle of L of doolittle, for cholesky and for invL of ainv_lu (exact conditions and witnesses proved)"
  },
  {
   "property": "C119",
   "status": "proved",
   "theorems": [
    "NS.Props.Fem.C119_system",
    "NS.Props.Fem.C119_dropped",
    "NS.Props.Fem.C119_unmet",
    "NS.Props.FemMain.C119_lattice",
    "NS.Props.Fem.C119_diagonal",
    "NS.Props.FemMain.C119_nodes",
    "NS.Props.FemMain.C119_load",
    "NS.Props.FemMain.C119_grid",
    "NS.Props.FemMain.C119_run"
   ],
   "note": "exact arithmetic; C103_finished is stated with this condition, so it holds for the program with quadratic elements; C119_nodes: the numbers of the grid are the (2N+1)^2 points of the grid of half the width; C119_run: the program on the generated grid with 1 to 200 cells per side ends with its files (the right-hand side is not zero by C119_load), with the residual below the tolerance up to 15 cells"
  },
  {
   "property": "C120",
   "status": "proved",
   "theorems": [
    "NS.Props.Obj.C120_contents",
    "NS.Props.Obj.C120_refines",
    "NS.Props.Obj.C120_safe"
   ],
   "note": "exact arithmetic with a conversion cast as in C91; the mesh loader ignores the materials, but a user of LoadObj does not"
  },
  {
   "property": "C121",
   "status": "proved",
   "theorems": [
    "NS.Props.Rounding.C121_stop",
    "NS.Props.Heat.C121_heat",
    "NS.Props.Heat.C121_sweeps",
    "NS.Props.Heat.system_fl"
   ],
   "note": "no overflow, underflow or NaN; the shipped program itself stops by the limit of 1024 sweeps (C115), for larger limits the theorem applies"
  },
  {
   "property": "C122",
   "status": "proved",
   "theorems": [
    "NS.Props.Heat.C122_program",
    "NS.Props.Heat.C122_shipped",
    "NS.Props.Heat.program_pert",
    "NS.Props.Heat.mat_near"
   ],
   "note": "no overflow, underflow or NaN; the accuracy of std::exp is a hypothesis"
  }
 ]
}