D='NS.Props.Dense.'; V='NS.Props.Vector.'
M['C16']=('proved',[S+'C16_out_of_range',D+'C16_dense_range'],'')
M['C18']=('proved',[D+'C18_at_returns_last_set',D+'C18_linear_at',D+'C18_initializer_list'],'')
M['C19']=('proved',[D+'C19_same_history',D+'C19_operations',D+'C19_hypotheses_met'],'')
M['C20']=('proved',[D+'C20_iteration',D+'C20_row_column',D+'C20_set_through_iterator'],'')
M['C21']=('partial',[D+'C21_entrywise_partial',D+'C21_fails_on_equal_size',D+'C21_scale'],'The code compares only size() = rows*columns, so shapes that differ with equal element count are accepted (witness proved). There is no /= for dense matrices in the code.')
M['C22']=('proved',[D+'C22_mul',D+'C22_mul_vector',D+'C22_transpose',D+'C22_observers',D+'C22_eq_swap'],'')
M['C23']=('proved',[V+'C23_at',V+'C23_set',V+'C23_entrywise',V+'C23_scalar',V+'C23_eq',V+'C23_has',V+'C24_dot'],'')
M['C24']=('proved',[V+'C24_dot',V+'C24_symm',V+'C24_bilinear',V+'C24_magSqr'],'')
M['C25']=('partial',[V+'C25_scalar_division_partial',V+'C25_rdiv',V+'C25_fails_for_integers'],'False for integral element types (witness proved); proved for fields.')
M['C26']=('proved',[V+'C26_resize',V+'C26_constructors'],'')
LUP='NS.Props.LU.'
M['C27']=('proved',[LUP+'C27_doolittle_dense',LUP+'C27_doolittle_sparse',LUP+'C27_dirty_output_negation'],'Proved with the proviso of the statement (outputs zero on entry for the dense overload); a witness shows the proviso is needed.')
M['C28']=('proved',[LUP+'C27_doolittle_dense',LUP+'C27_doolittle_sparse',LUP+'C28_notSquare_dense',LUP+'C28_notSquare_sparse',LUP+'C28_invalidOutput'],'The multiplier bound and the singular-only-if clause are conjuncts of the C27 theorems.')
M['C29']=('proved',[LUP+'C29_determinant_dense',LUP+'C29_determinant_sparse',LUP+'C29_determinant_any_threshold',LUP+'C29_determinant_nonsquare'],'')
M['C30']=('proved',[LUP+'C30_solve',LUP+'C30_shape_errors',LUP+'C30_factor_and_solve',LUP+'C30_no_spurious_failure'],'')
M['C31']=('proved',[LUP+'C31_cholesky',LUP+'C31_positive_definite'],'L zero on entry, as the code requires; a zero pivot (0/0) is an outcome of its own')
M['C33']=('partial',[LUP+'C33_ainv_lower_partial',LUP+'C33_ainv_upper_partial',LUP+'C33_ainv_upper_negation'],'The lower factor is inverted correctly; the upper one is not (witness U=[2]): only the left half of the columns, for unit diagonals, is.')
M['C34']=('partial',[LUP+'C34_inverse_sparse',LUP+'C34_inverse_LUP',LUP+'C34_inverse_LU_partial',LUP+'C34_inverse_dense_negation',LUP+'C34_inverse_LU_negation'],'Sparse inverse and inverse(L,U,P) proved in full; the dense inverse and inverse(L,U) are wrong in the code (witnesses proved); inverse(L,U) is right for unit diagonals.')
M['C32']=('proved',[LUP+'C32_ilu0',LUP+'C32_notSquare'],'')
CGP='NS.Props.CG.'
M['C35']=('partial',[CGP+'C35_pcg_partial',CGP+'C35_pcg_exact_partial',CGP+'C35_pcg_residual',CGP+'C35_cg_residual',CGP+'C35_cg_two_partial',CGP+'C35_cg_negation',CGP+'C35_start_at_solution',CGP+'C35_start_at_solution_negation',CGP+'C35_notSquare'],'pcg: finite termination in at most n steps proved for all SPD A, C and n, from any start vector that is not already the solution (0/0 there, proved) and non-zero tolerance. cg: residual property for all matrices; termination only for n <= 2; for n = 3 the code violates the property (witness proved).')
M['C36']=('proved',[CGP+'C36_jacobi',CGP+'C36_jacobi_diagonal',CGP+'C36_shape',CGP+'C36_dirty_output_negation'],'')
IT='NS.Props.Iter.'
M['C37']=('partial',[IT+'C37_jacobi',IT+'C37_fixed_point_iff_solution',IT+'C37_exact_convergence',IT+'C37_zero_diagonal_partial',IT+'C37_zero_diagonal_negation',IT+'C37_shape'],'All clauses proved except the zero-diagonal one, which the code violates: the exception is thrown only when a zero-diagonal row happens to be satisfied (exact characterisation and witness proved).')
M['C38']=('partial',[IT+'C38_sor',IT+'C38_exact_convergence_partial',IT+'C38_negation',IT+'C38_zero_diagonal'],'The first sweep relaxes against 0 instead of x0; a return after one iteration can be wrong (witness). Proved for >= 2 iterations, weight 1 or x0 = 0.')
M['C61']=('proved',[IT+'C61_jacobi_converges'],'')
M['C62']=('proved',[IT+'C62_sor_converges'],'')
OR='NS.Props.Order.'
M['C39']=('partial',[OR+'C39_permutation_partial',OR+'C39_general',OR+'C39_reverse',OR+'C39_notSquare',OR+'C39_empty_row_negation'],'Proved when every row has a non-zero entry; the code returns zeros in place of empty rows (witness and general characterisation proved).')
M['C40']=('partial',[OR+'C40_permutation_matrix',OR+'C40_inverse_permutation',OR+'C40_permutate_matrix',OR+'C40_permutate_vector',OR+'C40_permutate_vector_partial',OR+'C40_permutate_inverse',OR+'C40_workflow',OR+'C40_out_of_range',OR+'C40_permutate_vector_negation',OR+'C40_permutate_matrix_shape',OR+'C40_permutate_vector_shape'],'permutate(v,p) computes P^T*v, not P*v (witness); it is P*v for involutions; with inverse_permutation the reordering workflow is proved correct for all permutations.')
M['C63']=('proved',[OR+'C39_general',OR+'C63_unique',OR+'C63_breadth_first',OR+'C39_permutation_partial'],'For matrices with empty rows the statement concerns the listed (non-empty) rows.')
CO='NS.Props.Construct.'
M['C41']=('proved',[CO+'C41_eye',CO+'C41_eye_square',CO+'C41_zero_dimension',CO+'C41_diag_of_vector',CO+'C41_diag_of_matrix',CO+'C41_diag_diag',CO+'C41_tril',CO+'C41_triu',CO+'C41_tril_triu_split'],'')
M['C42']=('partial',[CO+'C42_hilbert',CO+'C42_inv_hilbert_partial',CO+'C42_inv_hilbert_exact',CO+'C42_word64',CO+'C42_overflow_negation'],'The inverse identity is proved for every n in unbounded integers and for n <= 14 in 64-bit words; for n = 15 the size_t product overflows and the result is wrong (witness).')
M['C43']=('proved',[CO+'C43_checks',CO+'C43_nonsquare'],'')
M['C44']=('proved',[CO+'C44_sign_pow',CO+'C44_factorial',CO+'C44_binom',CO+'C44_binom_overflow',CO+'C44_binom_out_of_range',CO+'C44_binom_real',CO+'C44_binom_real_nat'],'')

SX='NS.Props.Simplex.'
M['C45']=('proved',[SX+x for x in ['C45_normal','C45_dependent']],'exact arithmetic; determinant threshold 0; sqrt any function with sqrt(x)^2=x for x>=0')
M['C46']=('partial',[SX+x for x in ['C46_maps','C46_matrices','C46_unprepared','C46_degenerate','C46_prepare_fresh']],'proved except "prepare() reports degenerate triangles", which is false: C46_degenerate shows it divides by zero and throws nothing. Determinant threshold 0.')
M['C47']=('proved',[SX+x for x in ['C47_volume','C47_volume_permute','C47_volume_translate','C47_gradient','C47_diameter']],'exact arithmetic, determinant threshold 0')
M['C48']=('partial',[SX+x for x in ['C48_center_partial','C48_center_unit_partial','C48_center_wrong','C48_faceCenter','C48_faceNormal','C48_faceNormal_range']],'face part proved in full; center()/outerRadius() are wrong in the code (witness C48_center_wrong); what they do compute is C48_center_partial')
ME='NS.Props.Mesh.'
M['C50']=('proved',[ME+x for x in ['C50_history','C50_incidence','C50_coordinates','C50_addVertex','C50_addElement']],'histories in which no object is added twice')
M['C51']=('partial',[ME+x for x in ['C51_setupNeighbors','C51_idempotent','C51_stale_edge']],'proved in full for setupNeighbors() on every mesh built by addVertex/addElement (both the normal and the exception case); false for a second call after more elements were added at an existing face (witness C51_stale_edge)')
M['C52']=('proved',[ME+'C52_setupBoundaries'],'')
M['C64']=('proved',[ME+x for x in ['C64_validate_iff','C64_prepare','C64_pipeline']],'determinant threshold of prepare() 0; exact arithmetic')
MH='NS.Props.MeshHandle.'
M['C49']=('partial',[MH+x for x in ['C49_handles','C49_forbidden','C49_self_assign_negation','C49_moved_from_negation','C49_leak_negation']],'proved for all histories without self-assignment of an only handle and without reading moved-from handles; those are undefined behaviour in the code (characterised by C49_forbidden, witnesses proved); edge objects leak (witness)')
HC='NS.Props.HyperCube.'
M['C53']=('partial',[HC+x for x in ['C53_count','C53_generate','C53_validate','C53_extent_actual','C53_extent_partial','C53_extent_negation']],'all clauses proved for every n0, n1 >= 1 and size except the extents, which the code violates for every n0 != n1 (spacing computed with the element counts swapped): C53_extent_negation; proved for n0 = n1')
SH='NS.Props.Shape.'
M['C54']=('partial',[SH+x for x in ['C54_kronecker','C54_reproduce','C54_partition','C54_gradient','C54_gradient_partial','C54_gradient_negation','C54_line_order_negation','C54_tables','C54_cubic_partial','C54_cubic_negation','C54_tetrahedra']],'all clauses proved for (1,1), (1,2), (2,1), (2,2), (3,1) and all points; with explicit node values the gradient of linear triangles is not the derivative (witness); quadratic lines number the middle node 1 instead of the documented 2 (witness); (2,3) and (3,2) abort, see C55; with as many node values as components their tables are Lagrange functions and their gradients the derivatives, except for the second y-derivative of cubic triangles, which multiplies the coefficient of x y^2 by y instead of x (witness)')
M['C55']=('partial',[SH+x for x in ['C55_dof_partial','C55_total_partial','C55_abort_negation','C55_component_range']],'false in the code for (1,2) (DOF 4, dimension 3), (2,3) and (3,2) (DOF too small, every evaluation aborts); exact characterisation and totality for all others proved')
M['C56']=('proved',[SH+x for x in ['C56_order1','C56_order2','C56_nodes','C56_validate','C56_not_idempotent']],'for every triangle mesh (K = 2, like the whole mesh model) built by an addVertex/addElement history and set up with setupNeighbors and any number of setupBoundaries/prepare calls; a second prepareMesh call duplicates the DOFs (C56_not_idempotent)')
QU='NS.Props.Quadrature.'
M['C57']=('proved',[QU+x for x in ['C57_polynomial','C57_weighted_sum','C57_inside','C57_sharp','C57_not_exact']],'error bound 1e-13 times the sum of absolute coefficients, exact real arithmetic with the decimal literals; integral = Mathlib interval integrals')
LO='NS.Props.Loader.'
M['C58']=('partial',[LO+x for x in ['C58_node_line','C58_element_line','C58_space','C58_lines','C58_digit','C58_index_number','C58_int_number','C58_too_large','C58_no_number','C58_node_header','C58_element_header','C58_short_one_partial','C58_short_two_partial','C58_short_negation','C58_node_bounds_partial','C58_element_bounds_partial','C58_bounds_negation']],'first clause proved for all lines; second clause only when something follows the last token: a coordinate that ends the line is read twice (C58_short_negation, all such lines); third clause except for lines that begin with a number ending the line (C58_bounds_negation: the line "1" reads before the buffer)')
M['C59']=('partial',[LO+x for x in ['C59_load','C59_mesh','C59_node_header','C59_element_header','C59_node_sequence','C59_element_sequence','C59_reference_negation']],'all clauses but the last; references outside the node range are not rejected but undefined behaviour (C59_reference_negation); the number in the header is not compared with the rows')
FE='NS.Props.Fem.'
M['C60']=('proved',[FE+x for x in ['C60_solutions','C60_constrain','C60_numbered','C60_avgMid','C60_spd']],'for every mesh with positional vertex numbers (proved to be every mesh from prepareMesh), matrix, right-hand side and boundary function; exact arithmetic')

M['C65']=('proved',[FE+x for x in ['C65_assemble','C65_semidefinite']],'every mesh from an addVertex/addElement history whose corners are all mesh vertices, through setupNeighbors, optional setupBoundaries, prepare and prepareMesh of order 1 or 2; exact arithmetic; the element matrix is specified with the factor J^-1 the code uses, see C66')
M['C66']=('partial',[FE+x for x in ['C66_exact_iff','C66_rectangle','C66_negation','C66_order2_partial','C66_order2_only','C66_order2_negation']],'false in the code: gradients are multiplied with J^-1 instead of its transpose; C66_exact_iff proves that the matrix is right exactly for triangles whose edge matrix is symmetric or a scaled rotation, C66_negation is a witness; for order 2 (over the reals, exact integrals as integrals, gradients as derivatives along the edges) C66_order2_partial bounds the error for those triangles by the rounding of the constants, C66_order2_only is the quantitative converse, C66_order2_negation a witness')
M['C67']=('partial',[FE+x for x in ['C67_system','C119_system','C67_solve_partial']],'system part proved in full (C67_system if nothing is dropped, which for quadratic elements and the EPS of the program never holds; C119_system covers it); the solver part excludes diagonal entries below the threshold of the preconditioner (SingularException) and right-hand side zero, where pcg divides by zero; exact arithmetic')

M['C68']=('proved',[FE+'C68_grid'],'all N, square sizes, offsets and thresholds below half the rounding factor; exact arithmetic')

M['C69']=('proved',[IT+'C69_sor_spd',IT+'C69_weight_needed',FE+'C69_fem_sor'],'exact arithmetic; the residual bound needs two sweeps, weight 1 or a zero start (the first sweep of the code relaxes with the start vector); iteration limit large enough, the bound is not made explicit')
M['C70']=('proved',[IT+'C70_sor_levels',IT+'C70_sor_spd'],'exact arithmetic; same restriction of the error bound as C69')
FD='NS.Props.Fdm.'
M['C71']=('proved',[FD+x for x in ['C71_fdm_system','C71_fdm_poisson','C71_maximum','C71_minimum','C71_fdm_solve']],'exact arithmetic; Dirichlet boundary (BOUNDARY_MODE 0)')
HE='NS.Props.Heat.'
M['C72']=('proved',[HE+x for x in ['C72_heat_system','C72_heat_euler','C72_maximum','C72_minimum','C72_heat_solve']],'exact arithmetic; Dirichlet boundary')
NO='NS.Props.Norm.'
M['C73']=('partial',[NO+x for x in ['C73_max_norm','C73_max_norm_eq','C73_definite','C73_homogeneous','C73_triangle','C73_entries','C73_action','C73_min_norm_sparse','C73_min_norm_dense','C73_cond_sparse','C73_cond_dense','C73_cond_scale','C73_not_class_independent','C73_not_condition']],'exact arithmetic, exact sqrt; numeric_limits::max() assumed to bound the entries and its square taken as exact; cond is proved not to be class independent and not to be a condition number')

RO='NS.Props.Rounding.'
M['C74']=('proved',[RO+x for x in ['C74_constant','C74_dot','C74_dot_error','C74_self','C74_sum']],'standard model of rounding (no overflow, underflow); real scalars')
M['C75']=('proved',[RO+x for x in ['C75_mulVec_sparse','C75_mulVec_dense','C75_mul_dense','C75_mul_sparse','C75_mulLeft_dense','C75_mulLeft_sparse']],'standard model of rounding; real scalars')
M['C76']=('proved',[RO+x for x in ['C76_solve']],'standard model of rounding; real scalars')
M['C77']=('proved',[RO+x for x in ['C77_doolittle_dense','C77_doolittle_sparse','C77_upper_negation']],'standard model of rounding; real scalars; dense overload with zero L and P on entry')
M['C78']=('proved',[RO+x for x in ['C78_solve_sparse','C78_solve_dense','C78_inverse_sparse']],'standard model of rounding; real scalars; dense inverse starts from a dirty P (see C34) and is not covered')
M['C79']=('proved',[RO+x for x in ['C79_determinant_dense','C79_determinant_sparse']],'standard model of rounding; real scalars')
M['C80']=('proved',[RO+x for x in ['C80_cholesky','C80_a_priori','C80_sqrt_exists']],'standard model of rounding; real scalars; zero L on entry; a pivot that is computed as zero gives 0/0, an outcome of its own')

OL='NS.Props.ObjLoader.'
M['C81']=('proved',[OL+x for x in ['C81_load','C81_mesh','C81_other','C81_degenerate_accepted']],'the result of tinyobj::LoadObj is a parameter; adjacency for triangles with three different corners')
VT='NS.Props.Vtk.'
M['C82']=('partial',[VT+x for x in ['C82_read','C82_valid','C82_mesh','C82_point','C82_cells_need','C82_no_point_data','C82_unnumbered','C82_quadratic_flag','C82_gradient','decimal_showNat']],'K = 2; the code violates validity with ElementGradient, without prepareMesh and with mismatched IsQuadratic (proved as negations); file I/O not modelled; the format of numbers is a parameter')

PR='NS.Props.Print.'
M['C83']=('proved',[PR+x for x in ['C83_vector','C83_vector_injective','C83_matrix','C83_matrix_injective','C83_sparse','C83_sparse_injective','C83_sparse_shape']],'the format of numbers is a parameter: words without blanks, for matrices not equal to "|"')
M['C84']=('proved',['NS.Props.Fdm.C84_poisson_error','NS.Props.Fdm.C84_poisson_program','NS.Props.Heat.C84_heat_error','NS.Props.Heat.C84_heat_program'],'exact arithmetic over the reals')

VM='NS.Props.VecMore.'
M['C85']=('partial',[VM+x for x in ['C85_mag','C85_cauchy_schwarz','C85_triangle','C85_scale','C85_normalized','C85_complex_negation']],'exact arithmetic, any exact square root; false for complex element types (witness)')
M['C86']=('partial',[VM+x for x in ['C86_vector','C86_vector_complex','C86_sparse','C86_dense','C86_avg','C86_matrix_avg','C86_extrema_partial','C86_max_wrong','C86_complex_extrema_partial','C86_complex_max_wrong','C86_iteration','C86_iterator','C86_slices_partial','C86_slices_negation']],'the code violates the property for max() (start value) and for left/right/mid of DynamicVector (abort); everything else proved in full')

CX='NS.Props.CxIterative.'
M['C87']=('partial',[CX+x for x in ['C87_jacobi','C87_sor','C87_fixed_point','C87_error','C87_sor_error_partial','C87_negation']],'the code violates the stopping clause (unconjugated sum of squares, witness) and the first sor sweep relaxes against 0; the updates, fixed point and contraction are proved')

FE='NS.Props.Fem.'
M['C88']=('proved',[FE+x for x in ['C88_equations','C88_error','C88_sor','C88_pcg','C88_example','C88_example_pcg']],'exact arithmetic over the reals; linear elements on the generated square grid; solver 1 (cg) is excluded: it is wrong (C35)')
M['C89']=('partial',[FE+x for x in ['C89_exact','C89_post','C89_post_linear','C89_files','C89_example','C89_post_negation','C89_cell_negation']],'the code violates two clauses (witnesses): the printed number is no bound of |grad(e)|, and the cell residual of quadratic elements uses the number of the quadrature point as shape function; the rest is proved in full')
M['C90']=('partial',['NS.Props.Dense.'+x for x in ['C90_has','C90_default','C90_iterator_eq','C90_extrema_partial','C90_max_wrong','C90_sparse_default','C90_sparse_iterator_eq','C90_simplex_default']],'max() is wrong when all entries are below its start value (proved); everything else proved in full')
M['C91']=('proved',['NS.Props.Obj.'+x for x in ['C91_number','C91_field','C91_garbage','C91_missing','C91_cases','C91_every','C91_reads','C91_unique']],'exact arithmetic; the conversion to float is a parameter; C91_every and C91_reads together give the result for every word')
M['C92']=('proved',['NS.Props.Obj.'+x for x in ['C92_parse','C92_space','C92_mesh','C92_empty','C92_example','C92_split_by_normals','C92_split_by_material','C92_material_loses_faces']],'what a material file defines is a parameter (readMtl, arbitrary; C106 gives it for the real reader); tag lines with all three counts are covered; known materials split a group into parts that share no vertices, and a group whose last part is empty is lost')
M['C93']=('partial',['NS.Props.Obj.'+x for x in ['C93_ends','C93_unsafe','C93_lines','C93_safe_partial']],'safety for any text whatsoever fails (witnesses); proved for texts of at most 10^8 characters made of safe lines; material files are a parameter there, C106_obj_ends and C106_obj_safe give the same for the real ones')
M['C94']=('proved',['NS.Props.Envelope.'+x for x in ['C94_reverse','C94_fill','C94_pipeline']],'matrices without zero rows, as the renumbering requires (see C39)')
M['C95']=('proved',['NS.Props.Rounding.'+x for x in ['C95_growth_dense','C95_growth_sparse','C95_solve_dense','C95_solve_sparse']],'floating point: standard model of rounding, as C74-C80')
M['C96']=('proved',['NS.Props.Rounding.'+x for x in ['C96_jacobi','C96_jacobi_stops','C96_sor','C96_sor_stops']],'standard model of rounding, real scalars, non-zero diagonal; sor for weights in [0,1]')
M['C97']=('partial',['NS.Props.Alias.'+x for x in ['C97_vector_partial','C97_vector_div_partial','C97_vector_scalar_partial','C97_vector_negation','C97_dense_partial','C97_dense_scale_partial','C97_sparse_add_partial','C97_sparse_hadamard_partial','C97_sparse_sub_partial','C97_sparse_sub_negation','C97_sparse_scale_partial','C97_sparse_scale_negation','C97_jacobi_partial','C97_cholesky_negation','C97_ilu0_negation','C97_doolittle_negation']],'the property fails: v += v[k], v -= v[k], v *= v[k] and m *= *it use the changed entry for the later ones, sparse m -= m erases from the matrix it iterates over (right for at most one entry only), cholesky(m, m) always has 1 at (0,0); proved are the operators for which it holds and the exact conditions for the others; ilu0 and doolittle with an output aliased to A keep old content of A in it; ainv_lu with aliased arguments is not modelled')
M['C98']=('proved',['NS.Props.LU.'+x for x in ['C98_dominant_sparse','C98_dominant_dense','C98_weak_negation']],'exact arithmetic; the strictness is needed, since the last of equal pivots is taken (C98_weak_negation)')
M['C99'] = ('proved', ['NS.Props.Checked.C99_cholesky', 'NS.Props.Checked.C99_cholesky_sizes', 'NS.Props.Checked.C99_cholesky_real', 'NS.Props.Checked.C99_cg', 'NS.Props.Checked.C99_pcg', 'NS.Props.Checked.C99_cg_sizes', 'NS.Props.Checked.C99_unchecked_negation'], 'The checked build; C99_unchecked_negation is the wrong factor of a non-symmetric matrix in the build without checks.')
M['C100'] = ('partial', ['NS.Props.Checked.C100_partial', 'NS.Props.Checked.C100_real_partial', 'NS.Props.Checked.C100_negation'], 'The code squares where it should take absolute squares, so for Hermitian positive definite A the factor is right exactly when A is real: C100_partial (right implies real), C100_real_partial (real positive definite implies right), C100_negation (witness).')
FM='NS.Props.FemMain.'
M['C101']=('partial',[FM+x for x in ['C101_number','C101_arguments','C101_arguments_negation']],'C101_arguments characterises every outcome for every command line; the code violates the property in three ways (C101_arguments_negation): numbers modulo 2^32, ignored trailing characters, uncaught exception for the number of cells')
M['C102']=('partial',[FM+x for x in ['C102_output','C102_solver','C102_handle','C102_grid','C102_run','C102_invalid','C102_one_cell_negation','C102_missing_negation']],'exact arithmetic; the code violates the property for one cell with solver 2 (0/0) and for missing Triangle files (abort); accuracy for solver 2 on 2..31 cells here and on up to 256 cells in C109, solver 1 may divide by zero (C35)')
M['C103']=('proved',[FM+x for x in ['C103_rejected','C103_finished','C103_linear','C103_text','C103_flat']],'exact arithmetic; what the threshold of the program drops must be small (Tame; implied by Coarse for linear elements, for quadratic elements see C119); solver 1 (cg) may divide by zero (C35), solver 2 needs a non-zero right-hand side; C103_text goes from the text of an obj file (C92) to points and triangles; C103_flat: a triangulation drawn in the plane of the first two coordinates is never calculated, because the program reads the first and the third')
M['C104']=('proved',['NS.Props.Fdm.'+x for x in ['C104_decay','C104_slow','C104_program']],'exact arithmetic; the existence of one inner point with a large error is shown, not the error at every point')
M['C105']=('partial',['NS.Props.GridFile.'+x for x in ['C105_poisson','C105_heat','C105_reader_partial','C105_reader_fails']],'the layout is proved in full; the reader returns the values for equal numbers of points in x and y direction only (C105_reader_fails: otherwise an error); number format is a parameter, the reader works on words')
M['C106']=('proved',['NS.Props.Obj.'+x for x in ['C106_names','C106_missing','C106_library','C106_without_files','C106_ends','C106_obj_ends','C106_safe','C106_obj_safe','C106_example','C106_depends','C106_unsafe']],'colours, numbers and textures of materials are read but not stored in the model, as the mesh loader ignores them; fewer than 2^31 materials')
M['C107']=('proved',['NS.Props.Levels.'+x for x in ['C107_levels','C107_bandwidth','C107_tridiagonal','C107_diagonal_negation','C107_minimal_negation']],'a symmetric pattern is assumed (the code follows rows only); for a zero diagonal entry and for minimal bandwidth there are witnesses that more cannot be claimed')
M['C108']=('proved',['NS.Props.Iter.C108_sor_rate', 'NS.Props.Fdm.C108_fdm', 'NS.Props.Fdm.C108_program'],'exact arithmetic; the bound of the number of sweeps is not sharp (7 N^2 against about N^2/3); together with C104 it shows that the order N^2 is right')
M['C109']=('proved',['NS.Props.CG.C109_pcg_rate', 'NS.Props.Fem.C109_grid', 'NS.Props.Fem.C109_error', 'NS.Props.FemMain.C109_run'],'exact arithmetic; the constant in the rate for the grid is not sharp (5/7 N against about 2/pi N)')
M['C110']=('proved',['NS.Props.Obj.C110_exact', 'NS.Props.Obj.C110_number', 'NS.Props.Obj.C110_integer', 'NS.Props.Obj.C110_field'],'standard model of rounding with unbounded exponents: no overflow or underflow of intermediate results (pow(5.0, e) overflows for e > 441)')
M['C111']=('proved',['NS.Props.Rounding.C111_sor'],'standard model of rounding with unbounded exponents; start vector 0 (as in all programs of the repository); matrix and right-hand side are the stored numbers')
M['C112']=('proved',['NS.Props.Fdm.C112_accuracy', 'NS.Props.Fdm.C112_slow', 'NS.Props.Fdm.C112_program'],'standard model of rounding with unbounded exponents; XC = YC = N + 1 and H = K are given (the shipped constants give 201)')
M['C113']=('partial',['NS.Props.Mesh.C113_same', 'NS.Props.Mesh.C113_keep', 'NS.Props.Mesh.C113_next', 'NS.Props.Mesh.C113_accepts', 'NS.Props.Mesh.C113_validate', 'NS.Props.Mesh.C113_negation'],'false in the code: the edge object is stored before the exception is thrown, so a repeated call skips that face; exactly one exception per crowded face of an element, then setupNeighbors() and validate() accept the mesh (C113_accepts, C113_validate, witness C113_negation); the last clause holds (C113_keep)')
M['C114']=('proved',['NS.Props.Fem.C114_same', 'NS.Props.FemMain.C114_fast', 'NS.Props.FemMain.C114_slow'],'exact arithmetic; between 11 and 219 cells per side nothing is claimed about the accuracy')
M['C115']=('proved',['NS.Props.Heat.C115_bound', 'NS.Props.Heat.C115_program', 'NS.Props.Heat.shipped_solvable'],'exact arithmetic; the time steps before 0.3 are not judged')
M['C116']=('proved',['NS.Props.Heat.C116_heat', 'NS.Props.Heat.C116_enough', 'NS.Props.Heat.C116_limit'],'exact arithmetic; non-vacuity: enough_conditions are the hypotheses for the constants of the program')
M['C117']=('partial',['NS.Props.FemMain.C117_affine_partial', 'NS.Props.FemMain.C117_program_partial', 'NS.Props.FemMain.C117_negation'],'proved when the edge matrix of every triangle is symmetric or a rotation with scaling (C66); false otherwise, because the example multiplies gradients by the inverse of the edge matrix instead of its transpose (witness C117_negation)')
M['C118']=('partial',['NS.Props.Reuse.C118_doolittle', 'NS.Props.Reuse.C118_doolittle_iff', 'NS.Props.Reuse.C118_solve_with_used_L', 'NS.Props.Reuse.C118_used_P_negation', 'NS.Props.Reuse.C118_cholesky', 'NS.Props.Reuse.C118_cholesky_upper', 'NS.Props.Reuse.C118_cholesky_twice', 'NS.Props.Reuse.C118_cholesky_twice_negation', 'NS.Props.Reuse.C118_ainv_lower', 'NS.Props.Reuse.C118_ainv_twice_negation'],'true for U, the pivot count and the strict lower triangle of L of doolittle; false for P and the upper triangle of L of doolittle, for cholesky and for invL of ainv_lu (exact conditions and witnesses proved)')
M['C119']=('proved',['NS.Props.Fem.C119_system', 'NS.Props.Fem.C119_dropped', 'NS.Props.Fem.C119_unmet', 'NS.Props.FemMain.C119_lattice', 'NS.Props.Fem.C119_diagonal', 'NS.Props.FemMain.C119_nodes', 'NS.Props.FemMain.C119_load', 'NS.Props.FemMain.C119_grid', 'NS.Props.FemMain.C119_run'],'exact arithmetic; C103_finished is stated with this condition, so it holds for the program with quadratic elements; C119_nodes: the numbers of the grid are the (2N+1)^2 points of the grid of half the width; C119_run: the program on the generated grid with 1 to 200 cells per side ends with its files (the right-hand side is not zero by C119_load), with the residual below the tolerance up to 15 cells')
M['C120']=('proved',['NS.Props.Obj.C120_contents', 'NS.Props.Obj.C120_refines', 'NS.Props.Obj.C120_safe'],'exact arithmetic with a conversion cast as in C91; the mesh loader ignores the materials, but a user of LoadObj does not')
M['C121']=('proved',['NS.Props.Rounding.C121_stop', 'NS.Props.Heat.C121_heat', 'NS.Props.Heat.C121_sweeps', 'NS.Props.Heat.system_fl'],'no overflow, underflow or NaN; the shipped program itself stops by the limit of 1024 sweeps (C115), for larger limits the theorem applies')
M['C122']=('proved',['NS.Props.Heat.C122_program', 'NS.Props.Heat.C122_shipped', 'NS.Props.Heat.program_pert', 'NS.Props.Heat.mat_near'],'no overflow, underflow or NaN; the accuracy of std::exp is a hypothesis')
