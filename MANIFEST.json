{
 "claims": [
  {
   "property": "C01",
   "status": "proved",
   "theorems": [
    "EF.C01_matmul",
    "EF.C01_matvec",
    "EF.C01_mismatch_throws",
    "EF.C01_zero_dimension_aborts"
   ],
   "note": "All positive dimensions; with a zero dimension BLAS rejects the leading dimension (C01_zero_dimension_aborts). Exact field arithmetic instead of double; reference BLAS loop as the model of dgemm/dgemv."
  },
  {
   "property": "C02",
   "status": "proved",
   "theorems": [
    "EF.C02_solve_vec",
    "EF.C02_solve_mat",
    "EF.C02_bad_shape_throws",
    "EF.C02_singular_returns_rhs"
   ],
   "note": "LAPACK dgesv is a contract (solves nonsingular systems, leaves B for singular ones; an instance is shown to exist). Order at least 1. A and the right-hand side are values in the model, copies in the code."
  },
  {
   "property": "C03",
   "status": "proved",
   "theorems": [
    "EF.C03_transpose",
    "EF.C03_involution",
    "EF.C03_mul_transpose"
   ],
   "note": ""
  },
  {
   "property": "C04",
   "status": "proved",
   "theorems": [
    "EF.C04_set_get_block",
    "EF.C04_get_block",
    "EF.C04_misfit_throws"
   ],
   "note": "The size tests precede the first write, so a throwing setBlock leaves the matrix unchanged."
  },
  {
   "property": "C05",
   "status": "proved",
   "theorems": [
    "EF.C05_matrix",
    "EF.C05_vector",
    "EF.C05_vector_throws"
   ],
   "note": "Dimensions below 2^64; bad indices are those strictly larger than the size (index = size is C09)."
  },
  {
   "property": "C06",
   "status": "proved",
   "theorems": [
    "EF.C06_blocks",
    "EF.C06_matrix_blocks",
    "EF.C06_inverse_restores",
    "EF.C06_commutes",
    "EF.C06_bad_sizes_throw"
   ],
   "note": "Sizes below 2^64."
  },
  {
   "property": "C07",
   "status": "proved",
   "theorems": [
    "EF.C07_segment",
    "EF.C07_get_segment",
    "EF.C07_misfit_throws",
    "EF.C07_concatenate",
    "EF.C07_append"
   ],
   "note": ""
  },
  {
   "property": "C08",
   "status": "proved",
   "theorems": [
    "EF.C08_entries",
    "EF.C08_acts_blockwise"
   ],
   "note": "The product statement needs at least one block with at least one column each (see C01)."
  },
  {
   "property": "C09",
   "status": "partial",
   "theorems": [
    "EF.C09_access_partial",
    "EF.C09_vector_index_eq_size_ub",
    "EF.C09_matrix_column_eq_ncols_wrong_entry"
   ],
   "note": "False as stated: index = size is undefined behaviour for vectors and reads/writes the next row for matrix columns. The negations are proved for every vector/matrix; C09_access_partial is the part that holds."
  },
  {
   "property": "C10",
   "status": "partial",
   "theorems": [
    "EF.C10_vector_entrywise",
    "EF.C10_matrix_entrywise_partial",
    "EF.C10_mismatch_throws",
    "EF.C10_algebra",
    "EF.C10_mul_assign_adds",
    "EF.C10_mul_assign_not_scaling"
   ],
   "note": "Everything holds except Matrix operator*=, which adds the scalar (negation proved)."
  },
  {
   "property": "C11",
   "status": "partial",
   "theorems": [
    "EF.C11_get_row",
    "EF.C11_set_row",
    "EF.C11_set_column",
    "EF.C11_get_col_actual",
    "EF.C11_get_col_partial",
    "EF.C11_get_col_wrong"
   ],
   "note": "getCol is wrong for non-square matrices (exact behaviour and negation proved); everything else holds."
  },
  {
   "property": "C12",
   "status": "partial",
   "theorems": [
    "EF.C12_matrix_range",
    "EF.C12_vector_range_returns_indices",
    "EF.C12_vector_range_wrong",
    "EF.C12_vector_range_size_partial",
    "EF.C12_index_range"
   ],
   "note": "False for vectors (returns indices instead of entries, negation proved); proved for matrices."
  },
  {
   "property": "C13",
   "status": "proved",
   "theorems": [
    "EF.C13_averages",
    "EF.C13_conserves",
    "EF.C13_linear",
    "EF.C13_constant"
   ],
   "note": "All n >= 1, exact arithmetic over a field (characteristic 0 where a division by two is used)."
  },
  {
   "property": "C14",
   "status": "proved",
   "theorems": [
    "EF.C14_linear_exact",
    "EF.C14_row_sums",
    "EF.C14_ends_quadratic"
   ],
   "note": "All m >= 3, exact arithmetic; the decimal literals of the code are dyadic and therefore exact."
  },
  {
   "property": "C15",
   "status": "proved",
   "theorems": [
    "EF.C15_roundtrip_linear",
    "EF.C15_roundtrip_general_wrong"
   ],
   "note": "All m >= 3, all linear samples; C15_roundtrip_general_wrong shows linearity cannot be dropped."
  },
  {
   "property": "C16",
   "status": "proved",
   "theorems": [
    "EF.C16_merge_glues",
    "EF.C16_interface_matrix"
   ],
   "note": "Merging is characterised for every family whose child operators are arbitrary: the merged flux operator is the one of the glued problem, stated with edge data and independent of the block code."
  },
  {
   "property": "C17",
   "status": "proved",
   "theorems": [
    "EF.C17_split"
   ],
   "note": "Splitting returns the edge data of the glued problem, for every family that was merged and swept."
  },
  {
   "property": "C18",
   "status": "proved",
   "theorems": [
    "EF.C18_global_finite_volume",
    "EF.C18_global_finite_volume_functions",
    "EF.C18_independent_of_cut"
   ],
   "note": "For every depth, patch size at least 2, elliptic coefficients, load and Dirichlet data (callbacks: C18_global_finite_volume; functions: C18_global_finite_volume_functions), cache-operators off, homogeneous-rhs off (C24 relates it to zero load). Independence of the cut: C18_independent_of_cut. Exact arithmetic."
  },
  {
   "property": "C19",
   "status": "proved",
   "theorems": [
    "EF.C19_nonsingular"
   ],
   "note": "Interface systems of build and upwards stage and all leaf systems, patch size at least 2, cache-operators off. Exact arithmetic."
  },
  {
   "property": "C20",
   "status": "proved",
   "theorems": [
    "EF.C20_leaves_in_place",
    "EF.C20_stages_succeed",
    "EF.C20_stages_succeed_functions"
   ],
   "note": "All trees, all option combinations, any leaf solver with the documented object sizes; leaf size at least 3, or any positive size on uniform trees (the sizes the interpolation operators support, C52). Functions variant excludes homogeneous-rhs, where the analytic solve stage throws (C24)."
  },
  {
   "property": "C21",
   "status": "proved",
   "theorems": [
    "EF.C21_rerun"
   ],
   "note": "Unconditional: any tree, any leaf solver, any history of requests; whole result tree (or exception) is equal."
  },
  {
   "property": "C22",
   "status": "partial",
   "theorems": [
    "EF.C22_rebuild_uniform_partial",
    "EF.C22_rebuild_partial",
    "EF.C22_rebuild_adaptive_wrong"
   ],
   "note": "On a tree where the first build coarsened nothing (all uniform meshes, C22_rebuild_uniform_partial) a second build, after any history of requests, succeeds and leaves every later result unchanged (C22_rebuild_partial). On adaptive meshes the property is false of the code: C22_rebuild_adaptive_wrong proves that on the mesh with one refined corner the second build reads outside a matrix, because the coarsening count of a patch is never reset. Exact field arithmetic instead of double."
  },
  {
   "property": "C23",
   "status": "proved",
   "theorems": [
    "EF.C23_linear",
    "EF.C23_linear_finite_volume"
   ],
   "note": "All trees and options, including singular interface systems; leaf solver linear on the leaf grids (proved for the finite volume solver on elliptic problems)."
  },
  {
   "property": "C24",
   "status": "partial",
   "theorems": [
    "EF.C24_homogeneous_partial",
    "EF.C24_homogeneous_functions_wrong"
   ],
   "note": "True for boundary data given through patch callbacks (C24_homogeneous_partial). False for boundary conditions given as functions: the analytic solve stage throws on every refined tree because the root flux vector is empty (C24_homogeneous_functions_wrong)."
  },
  {
   "property": "C25",
   "status": "partial",
   "theorems": [
    "EF.C25_cached_actual",
    "EF.C25_same_iff",
    "EF.C25_uniform_constant_partial",
    "EF.C25_laplace_iff_uniform",
    "EF.C25_pure_optimisation_wrong",
    "EF.C25_stale_iff"
   ],
   "note": "False of the code (C25_pure_optimisation_wrong: Laplace, one refined quarter). Proved: what the option does (C25_cached_actual), the exact criterion (C25_same_iff), for the finite volume solver with constant coefficients and no zeroth order term nothing changes iff the mesh is uniform (C25_laplace_iff_uniform), the cache is wrong after the mesh is refined again (C25_stale_iff)."
  },
  {
   "property": "C26",
   "status": "proved",
   "theorems": [
    "EF.C26_root_condition",
    "EF.C26_dirichlet"
   ],
   "note": "Robin relation at every boundary cell whenever the boundary system is nonsingular; Dirichlet corollary unconditional. The flux is the derivative in coordinate direction (see C32)."
  },
  {
   "property": "C27",
   "status": "partial",
   "theorems": [
    "EF.C27_constant_exact_partial",
    "EF.C27_constant_exact_uniform"
   ],
   "note": "Proved on uniformly refined meshes of any depth (C27_constant_exact_uniform) and on every adaptive mesh under the hypothesis that the interface systems of the build stage are nonsingular (C27_constant_exact_partial); any variable alpha and beta. The hypothesis cannot be dropped: C54_constant_wrong is a counterexample without it."
  },
  {
   "property": "C28",
   "status": "partial",
   "theorems": [
    "EF.C28_linear_exact_damped",
    "EF.C28_linear_exact_partial",
    "EF.C28_linear_exact_data_partial",
    "EF.C28_linear_exact_uniform"
   ],
   "note": "Proved on uniformly refined meshes of any depth (C28_linear_exact_uniform), on adaptive meshes when the reaction term dominates (C28_linear_exact_damped), and on every adaptive mesh under the hypothesis that the interface systems of the build stage are nonsingular; constant beta, any alpha and lambda with the matching load. Missing: nonsingularity on adaptive meshes without a large reaction term."
  },
  {
   "property": "C29",
   "status": "partial",
   "theorems": [
    "EF.C29_flux_conserved_damped",
    "EF.C29_flux_conserved_partial"
   ],
   "note": "Proved for all data and all adaptive trees on which the interface systems are nonsingular; this holds when the reaction term dominates (C29_flux_conserved_damped), is otherwise a hypothesis on adaptive trees and does not always hold (C54_nonsingular_wrong). The flux is the normal derivative, without the factor beta."
  },
  {
   "property": "C30",
   "status": "partial",
   "theorems": [
    "EF.C30_leaf_solves",
    "EF.C30_leaf_solves_nonsquare_wrong"
   ],
   "note": "Square grids with at least two cells per side, any coefficients for which the discrete problem has at most one solution; PETSc's LU is a contract. On a 2 x 3 grid solve reads past the end of its boundary data (C30_leaf_solves_nonsquare_wrong). FISHPACK branch: C57."
  },
  {
   "property": "C31",
   "status": "proved",
   "theorems": [
    "EF.C31_unique_solvability",
    "EF.C31_maximum_principle",
    "EF.C31_solve_returns_the_solution"
   ],
   "note": "Any grid size and any ordered field; beta positive, alpha nonzero, lambda/alpha non-positive on the patch."
  },
  {
   "property": "C32",
   "status": "proved",
   "theorems": [
    "EF.C32_operator_represents_solver",
    "EF.C32_columns"
   ],
   "note": "Square grids with at least two cells per side. Fluxes are derivatives in coordinate direction (East and North outward, West and South inward)."
  },
  {
   "property": "C33",
   "status": "proved",
   "theorems": [
    "EF.C33_numbering",
    "EF.C33_centres",
    "EF.C33_load_sampled"
   ],
   "note": "Exact arithmetic; the numbering is also what the sampled load uses (C33_load_sampled)."
  },
  {
   "property": "C34",
   "status": "proved",
   "theorems": [
    "EF.C34_children_tile",
    "EF.C34_merge_restores_domain",
    "EF.C34_leaves_tile"
   ],
   "note": "Children tile the parent rectangle in Z order, the merged grid restores the parent's rectangle, and every point of the root rectangle (half-open) lies in exactly one leaf; any field with order, any forest."
  },
  {
   "property": "C35",
   "status": "proved",
   "theorems": [
    "EF.C35_path_injective",
    "EF.C35_path_child",
    "EF.C35_prefix_iff_contains"
   ],
   "note": "Paths are injective, extend by the child digit, and the prefix relation is containment, for all quadrants on the integer grid of any depth M."
  },
  {
   "property": "C36",
   "status": "proved",
   "theorems": [
    "EF.C36_node_map"
   ],
   "note": "For every forest with sorted owners and every rank. p4est's searches are contracts: p4est_search_all visits all quadrants except those below one that belongs to a single other rank, p4est_search_reorder those with a leaf of the rank. Communicators: C60."
  },
  {
   "property": "C37",
   "status": "partial",
   "theorems": [
    "EF.C37_preorder",
    "EF.C37_postorder",
    "EF.C37_data_traversals",
    "EF.C37_preorder_paths",
    "EF.C37_postorder_paths",
    "EF.C37_merge_order",
    "EF.C37_split_order",
    "EF.C37_first_use_wrong"
   ],
   "note": "Traversal order and visit counts proved for all forests and ranks. Missing because false: the first traversal function used after construction must be traversePreOrder with a node callback; any other one reads a stale user pointer (C37_first_use_wrong)."
  },
  {
   "property": "C38",
   "status": "partial",
   "theorems": [
    "EF.C38_merge_partial",
    "EF.C38_split_partial",
    "EF.C38_empty_rank_wrong",
    "EF.C38_new_holds",
    "EF.C38_build_partial",
    "EF.C38_merge_fails_partial",
    "EF.C38_split_fails_partial"
   ],
   "note": "Merge, split and the uncached build equal the serial run for every schedule when every rank of the range has a leaf; if the serial run fails, the parallel run is bound to fail the same way (C38_merge_fails_partial, C38_split_fails_partial). Missing: it is false when a rank inside a range has no leaf (deadlock, C38_empty_rank_wrong); the broadcast of one node is one step, which C40 shows to hold of the code only for patches without empty members and receivers with long enough paths; callbacks are deterministic."
  },
  {
   "property": "C39",
   "status": "partial",
   "theorems": [
    "EF.C39_receive_as_sent_partial",
    "EF.C39_empty_wrong"
   ],
   "note": "Proved for all sequences of primitives, vectors, matrices, strings and nodes without empty vectors, with or without buffering by MPI; with empty vectors too if the compiler forms the address of the first element of an empty vector (a Dialect with emptyFront). Missing because false by the C++ standard: an empty vector is undefined behaviour (front() of an empty vector, C39_empty_wrong). Patches have no send in the code."
  },
  {
   "property": "C40",
   "status": "partial",
   "theorems": [
    "EF.C40_broadcast_partial",
    "EF.C40_broadcast_patch_partial",
    "EF.C40_broadcast_node_partial",
    "EF.C40_empty_wrong",
    "EF.C40_leaf_patch_wrong",
    "EF.C40_string_wrong",
    "EF.C40_new_node_wrong"
   ],
   "note": "Proved for all values without empty vectors when the receivers' strings are not more than one shorter, and for all values with a compiler that forms addresses of elements of empty vectors and finds characters behind strings (Dialect). Missing because false by the C++ standard: empty vectors (C40_empty_wrong; every patch one of whose members is empty, C40_leaf_patch_wrong) and shorter receiver strings (C40_string_wrong; every node created for the broadcast, C40_new_node_wrong). MPI_Bcast itself is one synchronous step."
  },
  {
   "property": "C41",
   "status": "partial",
   "theorems": [
    "EF.C41_levels",
    "EF.C41_refined",
    "EF.C41_untouched_partial",
    "EF.C41_mesh_partial",
    "EF.C41_centres_wrong"
   ],
   "note": "Levels within [min_level,max_level] proved for all functions, grids and balanced trees (p4est_balance by contract, existence proved); before balancing, refined leaves obey the function. False as stated: leaves made by balancing may have a true centre below max_level (C41_centres_wrong)."
  },
  {
   "property": "C42",
   "status": "partial",
   "theorems": [
    "EF.C42_cleared",
    "EF.C42_arrays_partial",
    "EF.C42_new_mesh_partial",
    "EF.C42_offsets_actual",
    "EF.C42_offsets_wrong",
    "EF.C42_count",
    "EF.C42_cell_number",
    "EF.C42_appended_data",
    "EF.C42_iterate_cells",
    "EF.C42_mesh_function"
   ],
   "note": "Cells, points, connectivity and the offset/type of every cell proved for all trees; cell data lines up with cells. False as stated: four offsets and types per cell (C42_offsets_wrong)."
  },
  {
   "property": "C43",
   "status": "partial",
   "theorems": [
    "EF.C43_rebuild_actual",
    "EF.C43_rebuild_wrong",
    "EF.C43_first_refinement_partial",
    "EF.C43_refine_again_wrong"
   ],
   "note": "First build or refinement of an empty mesh describes the tree; a second call appends to the old arrays (C43_rebuild_wrong, C43_refine_again_wrong)."
  },
  {
   "property": "C44",
   "status": "proved",
   "theorems": [
    "EF.C44_history",
    "EF.C44_vector",
    "EF.C44_chord",
    "EF.C44_node",
    "EF.C44_succeeds",
    "EF.C44_short"
   ],
   "note": "History independence holds for every weakly sorted table of either direction and every interpolation order; chord and node values for strictly sorted tables. Exact arithmetic; the tables are assumed to outlive the interpolant (the code keeps pointers)."
  },
  {
   "property": "C45",
   "status": "partial",
   "theorems": [
    "EF.C45_new",
    "EF.C45_api",
    "EF.C45_exists_actual",
    "EF.C45_ini_partial",
    "EF.C45_lost_actual",
    "EF.C45_throws_actual",
    "EF.C45_ini_wrong",
    "EF.C45_missing_file_actual",
    "EF.C45_long_option_partial",
    "EF.C45_short_option_actual",
    "EF.C45_switch_actual"
   ],
   "note": "True for the API (C45_api) and for booleans, unsigned integers that fit and decimals, in files with any legal layout (C45_ini_partial) and as long options. False otherwise: negative integers and words become the empty string (C45_lost_actual, C45_ini_wrong), words with a point, empty values and large integers throw (C45_throws_actual), short options are always text (C45_short_option_actual). std::stod is a contract without rounding."
  },
  {
   "property": "C46",
   "status": "proved",
   "theorems": [
    "EF.C46_history",
    "EF.C46_intervals",
    "EF.C46_elapsed",
    "EF.C46_stop_returns",
    "EF.C46_double_stop_actual",
    "EF.C46_named",
    "EF.C46_stage_actual"
   ],
   "note": "C46_history covers every call sequence, C46_intervals the alternating ones. Exact arithmetic for the accumulated seconds; the clock readings are inputs. C46_double_stop_actual and C46_stage_actual record what calls out of order and repeated stages do."
  },
  {
   "property": "C47",
   "status": "proved",
   "theorems": [
    "EF.C47_attributes",
    "EF.C47_roundtrip",
    "EF.C47_exact",
    "EF.C47_injective",
    "EF.C47_null_actual"
   ],
   "note": "For trees with legal names, no repeated attributes, and no markup characters in values and data (the writer does not escape); exact when data have no white space at their ends. The stack must hold the depth of the tree."
  },
  {
   "property": "C48",
   "status": "partial",
   "theorems": [
    "EF.C48_first_partial",
    "EF.C48_rectilinear_first_partial",
    "EF.C48_again_wrong",
    "EF.C48_rectilinear_again_wrong",
    "EF.C48_parallel_again_wrong",
    "EF.C48_incomplete",
    "EF.C48_empty_actual",
    "EF.C48_mesh"
   ],
   "note": "The claim is false of the code: a second write with the same writer follows pointers to nodes that ended with the first call, proved undefined behaviour for all three writers. Proved: the first file is the document of the mesh and data; Mesh::toVTK, which makes a new writer per call, repeats. A rank without cells cannot write."
  },
  {
   "property": "C49",
   "status": "proved",
   "theorems": [
    "EF.C49_l2_norm",
    "EF.C49_l2_norm_triangle",
    "EF.C49_inf_norm",
    "EF.C49_inf_norm_triangle",
    "EF.C49_matrix_inf_norm",
    "EF.C49_matrix_inf_norm_triangle",
    "EF.C49_mismatch_throws"
   ],
   "note": "vectorL2Norm over an exact ordered field with an exact square root."
  },
  {
   "property": "C50",
   "status": "partial",
   "theorems": [
    "EF.C50_cache",
    "EF.C50_contains",
    "EF.C50_instance_partial",
    "EF.C50_lazy",
    "EF.C50_default_wrong",
    "EF.C50_destroyed_wrong"
   ],
   "note": "The cache part is proved for all histories (C50_cache, C50_contains). The singleton part holds while the latest application built with arguments is alive; it is false for the default constructor (C50_default_wrong) and after destruction (C50_destroyed_wrong)."
  },
  {
   "property": "C51",
   "status": "partial",
   "theorems": [
    "EF.C51_own_entry_actual",
    "EF.C51_own_last_entry_partial",
    "EF.C51_own_entry_wrong"
   ],
   "note": "False unless the argument is the last entry: exact behaviour for every entry and a counterexample are proved."
  },
  {
   "property": "C52",
   "status": "partial",
   "theorems": [
    "EF.C52_two_coarse_cells_wrong",
    "EF.C52_one_coarse_cell_partial"
   ],
   "note": "False of the code: with two coarse cells the constructor returns a matrix with a zero last row (C52_two_coarse_cells_wrong). Proved part: one coarse cell throws."
  },
  {
   "property": "C53",
   "status": "partial",
   "theorems": [
    "EF.C53_pieces_partial",
    "EF.C53_directory_wrong",
    "EF.C53_truncated_wrong",
    "EF.C53_format_wrong",
    "EF.C53_type_wrong"
   ],
   "note": "The claim is false of the code for relative names with a directory, for names of 255 characters or more, for names with a percent sign, and the header declares the type of a serial file. Proved: names without directory or absolute, up to 240 characters, without percent sign and markup, up to 10^10 ranks. File system and VTK reader are outside; names are resolved as VTK documents it."
  },
  {
   "property": "C54",
   "status": "partial",
   "theorems": [
    "EF.C54_nonsingular_partial",
    "EF.C54_nonsingular_wrong",
    "EF.C54_constant_wrong"
   ],
   "note": "False of the code: for an elliptic problem with beta one except at three face centres, on the unit square with one refined quarter and three cells per patch side, the root interface system is exactly singular (C54_nonsingular_wrong), and the run reports no error but does not reproduce the constant one (C54_constant_wrong). Proved on uniformly refined meshes of any depth (C54_nonsingular_partial, from C19). Exact arithmetic; in floating point the system is ill-conditioned instead."
  },
  {
   "property": "C55",
   "status": "partial",
   "theorems": [
    "EF.C55_unstructured",
    "EF.C55_parallel",
    "EF.C55_rectilinear_partial",
    "EF.C55_rectilinear_actual",
    "EF.C55_rectilinear_wrong",
    "EF.C55_incomplete",
    "EF.C55_lifetime_actual"
   ],
   "note": "False for rectilinear writers: buildMesh appends coordinates, so after a second buildMesh the file has the coordinates of the first mesh first (C55_rectilinear_wrong; C55_rectilinear_actual says what is written). Proved for unstructured and parallel writers for all call sequences, and for rectilinear writers given one mesh. Arrays are followed at the time of the write (C55_lifetime_actual)."
  },
  {
   "property": "C56",
   "status": "partial",
   "theorems": [
    "EF.C56_value_partial",
    "EF.C56_exact_iff",
    "EF.C56_int",
    "EF.C56_vector_partial",
    "EF.C56_vector_int",
    "EF.C56_range",
    "EF.C56_markup",
    "EF.C56_file_partial",
    "EF.C56_small_wrong",
    "EF.C56_same_wrong"
   ],
   "note": "False: std::to_string writes six decimals, so powers of two from 2^-21 down become zero (C56_small_wrong) and every value shares its text with another (C56_same_wrong). Proved: values are read back within half a millionth, exactly iff they are whole millionths, ints exactly, entries in order, ranges right, and the whole way through the file. Infinities, NaNs and the sign of negative zero are not modelled."
  },
  {
   "property": "C57",
   "status": "partial",
   "theorems": [
    "EF.C57_fishpack_solves_partial",
    "EF.C57_same_leaf_results_partial",
    "EF.C57_same_run_partial",
    "EF.C57_ignores_coefficients_actual",
    "EF.C57_beta_wrong",
    "EF.C57_lambda_wrong",
    "EF.C57_small_leaf_wrong"
   ],
   "note": "False for the user's coefficients: FISHPACK90 uses only lambda(0,0) (actual), proved wrong for every constant beta other than one, for lambda = -x, and for leaves with fewer than three cells per side. Partial: for alpha*beta = 1 and constant lambda both types agree on leaves and whole runs. hstcrt is a parameter with the contract of its manual; warnings, PERTRB and IERROR are not modelled."
  },
  {
   "property": "C58",
   "status": "partial",
   "theorems": [
    "EF.C58_same_operator_partial",
    "EF.C58_same_run_partial",
    "EF.C58_not_square_wrong",
    "EF.C58_variable_wrong"
   ],
   "note": "False on rectangles that are not squares (all n, constant coefficients) and for variable coefficients (witness). Partial: constant coefficients on squares, operators and whole runs, by mirror symmetries and reciprocity from the discrete Green identity. The flag is defined nowhere in the repository, so the default build is the unoptimised one."
  },
  {
   "property": "C59",
   "status": "proved",
   "theorems": [
    "EF.C59_interchangeable_leaf_solvers",
    "EF.C59_interchangeable_leaf_solvers_functions"
   ],
   "note": "For data callbacks of the documented sizes and for functions."
  },
  {
   "property": "C60",
   "status": "partial",
   "theorems": [
    "EF.C60_several_ranks_wrong",
    "EF.C60_one_rank_partial",
    "EF.C60_lenient_partial"
   ],
   "note": "False for leaves on two or more ranks: a rank outside a quadrant's range names MPI_COMM_NULL, which the MPI standard calls erroneous (C60_several_ranks_wrong). Holds when all leaves are on one rank, and for an MPI library that ignores naming a null communicator; C36-C38 are for such a library."
  },
  {
   "property": "C61",
   "status": "partial",
   "theorems": [
    "EF.C61_leak_wrong",
    "EF.C61_leak_serial_wrong",
    "EF.C61_new_tree_partial"
   ],
   "note": "False: the destructor and the move assignment of Quadtree delete nothing (C61_leak_wrong gives the exact number of nodes and communicators left). The part that holds: after a rebuild the mesh has exactly the tree just constructed and the temporary one holds no node."
  },
  {
   "property": "C62",
   "status": "partial",
   "theorems": [
    "EF.C62_allgather_partial",
    "EF.C62_allgatherv_partial",
    "EF.C62_empty_wrong",
    "EF.C62_mpi_allows_empty",
    "EF.C62_no_room_wrong"
   ],
   "note": "Holds when every rank contributes at least one element (and, for allgather, all contribute equally many). False otherwise: the wrapper reads element zero of an empty vector (undefined), although MPI itself allows empty contributions. The generic allgatherv for non-vector types passes its arguments in an order that does not compile and has no model."
  },
  {
   "property": "C63",
   "status": "partial",
   "theorems": [
    "EF.C63_careful_partial",
    "EF.C63_patches_partial",
    "EF.C63_copy_wrong",
    "EF.C63_move_assign_wrong",
    "EF.C63_to_comm_wrong"
   ],
   "note": "False: copying a variable with an object destroys it twice, move assignment onto a matrix with an object and the constructor to another communicator leave an object forever. Holds for programs that copy and overwrite only variables without an object, and for all use the library itself makes in patches."
  },
  {
   "property": "C64",
   "status": "partial",
   "theorems": [
    "EF.C64_entries_partial",
    "EF.C64_copy_actual",
    "EF.C64_assign_actual",
    "EF.C64_name_wrong",
    "EF.C64_attributes_wrong"
   ],
   "note": "False: only size and entries are copied; exact criterion in C64_copy_actual and C64_assign_actual."
  },
  {
   "property": "C65",
   "status": "partial",
   "theorems": [
    "EF.C65_adaptive_partial",
    "EF.C65_as_serial_partial",
    "EF.C65_finite_volume_partial",
    "EF.C65_requests_partial",
    "EF.C65_no_leaf_actual",
    "EF.C65_cache_depends_on_ranks_wrong"
   ],
   "note": "Holds when every rank of the communicator owns a leaf and the cache is off or the leaves of a rank share their operator (C65_as_serial_partial for every mesh, C65_finite_volume_partial for uniform meshes, C65_adaptive_partial for adaptive meshes with a dominating reaction term, C65_requests_partial for sequences of requests). False otherwise: a rank without leaves dereferences a null pointer in root() (C65_no_leaf_actual), and with the cache on the operators depend on how leaves are dealt to ranks (C65_cache_depends_on_ranks_wrong). Exact arithmetic; the broadcast of one node inside merge and split is one step that delivers the node, C66 replaces that step by the code's calls; naming of null communicators ignored (C60); output files and the functions added after u and f not part of the model program."
  },
  {
   "property": "C66",
   "status": "partial",
   "theorems": [
    "EF.C66_adaptive_partial",
    "EF.C66_as_serial_partial",
    "EF.C66_undefined_wrong",
    "EF.C66_finite_volume_partial",
    "EF.C66_requests_partial"
   ],
   "note": "Proved on one rank by the C++ standard, and on any number of ranks if addresses of elements of empty vectors and characters behind strings are harmless (Dialect), for every mesh and every leaf solver with operators of the right sizes (C66_as_serial_partial), for the finite volume solution on uniform meshes (C66_finite_volume_partial) and on adaptive meshes with a dominating reaction term (C66_adaptive_partial) and for sequences of requests (C66_requests_partial). False by the standard on two or more ranks: every run comes to undefined behaviour in the first broadcast (C66_undefined_wrong), because a member of every patch is an empty vector. Other limits as in C65: every rank owns a leaf, exact arithmetic, null communicators (C60)."
  },
  {
   "property": "C67",
   "status": "partial",
   "theorems": [
    "EF.C67_boundary_conditions_partial",
    "EF.C67_condition_solved",
    "EF.C67_bounds_partial",
    "EF.C67_west_neumann_wrong",
    "EF.C67_west_robin_wrong",
    "EF.C67_boundary_system"
   ],
   "note": "False on the West and South sides: the flux the operators give is the derivative in coordinate direction, so the condition solved there is a u - b du/dn = r (C67_condition_solved). C67_west_neumann_wrong: with any nonzero Neumann data on the West side the result never solves the documented problem; C67_west_robin_wrong: with a = b = 1 the assembled boundary system is singular at every resolution although the problem is well posed. Proved where b = 0 on West and South (C67_boundary_conditions_partial), with bounds; uniform meshes. For adaptive meshes see the C100_mixed theorems."
  },
  {
   "property": "C68",
   "status": "partial",
   "theorems": [
    "EF.C68_adaptive_actual",
    "EF.C68_adaptive_partial",
    "EF.C68_steps_return",
    "EF.C68_implicit_euler_partial",
    "EF.C68_south_flux_wrong",
    "EF.C68_first_output_wrong",
    "EF.C68_bounds_partial",
    "EF.C68_monotone_in_time_partial",
    "EF.C68_stable_partial",
    "EF.C68_steady_state_partial"
   ],
   "note": "False in two points: the flux on the South side has the wrong sign (C68_south_flux_wrong, consequence of C67) and the array labelled with the start time is already one step after the zero initial condition (C68_first_output_wrong). Proved: the loop returns on every mesh after any number of passes (C68_steps_return); on uniform meshes, without South flux, every pass is an implicit Euler step (C68_implicit_euler_partial); bounds, monotonicity in time, stability for every step length and geometric decay to the solver's own steady solution (the _partial theorems). On adaptive meshes with steps short enough for the mesh every pass is the one and only implicit Euler step of the composite discretisation (C68_adaptive_actual; C68_adaptive_partial without South flux). Missing: longer steps on meshes that are not uniform, floating point. Several ranks and the files: C74."
  },
  {
   "property": "C69",
   "status": "proved",
   "theorems": [
    "EF.C69_second_order",
    "EF.C69_converges",
    "EF.C69_fishpack",
    "EF.C69_no_better"
   ],
   "note": "Over the real numbers instead of double, so the rounding error of the computed values is not in the bound. Uniformly refined meshes (any depth, any patch size from 2); options cache-operators and homogeneous-rhs off. Adaptive meshes are not covered: C54 shows that the interface systems can be singular there. The bound is explicit in the proof: (2/b0 + (1+L)^3 top/drop) B M (hx^2+hy^2). C69_fishpack: the same with FISHPACK90 for u_xx + u_yy + lambda(0,0) u = f, whatever the coefficient functions are otherwise. C69_no_better: when the second derivative of the solution across the West side is bounded away from zero there, the order is exactly two."
  },
  {
   "property": "C70",
   "status": "partial",
   "theorems": [
    "EF.C70_fishpack_partial",
    "EF.C70_each_rank_actual",
    "EF.C70_one_rank_partial",
    "EF.C70_ranks_wrong",
    "EF.C70_mean_wrong",
    "EF.C70_patch_error",
    "EF.C70_second_order_partial",
    "EF.C70_patch_study"
   ],
   "note": "False on several ranks: every rank reports only its own leaves against the area of the whole domain; on two or more ranks the number of degrees of freedom is too small for every mesh and problem, and the mean error leaves out the other ranks (C70_ranks_wrong, C70_mean_wrong); what each rank reports is C70_each_rank_actual. Proved: one rank, every mesh; second order bounds on every rank for uniformly refined meshes, also with FISHPACK90 (C70_fishpack_partial); the single patch study. Idealised: exact field and sqrt instead of floating point. The reported size is C79, the times and the file are C80."
  },
  {
   "property": "C71",
   "status": "partial",
   "theorems": [
    "EF.C71_one_piece_partial",
    "EF.C71_any_ranks_partial",
    "EF.C71_not_both",
    "EF.C71_stages_are_passes"
   ],
   "note": "Holds for every type of data and every deterministic callback when every rank owns a leaf: two distributions end with the same leaf data in rank order or are bound to fail the same way (C71_any_ranks_partial), both being the serial passes (C71_one_piece_partial), and the stages are such passes (C71_stages_are_passes). Missing because false: ranks without leaves (C38_empty_rank_wrong, C65_no_leaf_actual) and the operator cache (C65_cache_depends_on_ranks_wrong). The broadcast of one node is one step that copies the node; that leaf solvers and LAPACK return the same bits for the same input is assumed (they are functions). A rank that fails does so by itself; what the others do then (wait, or be killed by the launcher) is not part of the claim."
  },
  {
   "property": "C72",
   "status": "proved",
   "theorems": [
    "EF.C72_entries",
    "EF.C72_neutral",
    "EF.C72_scales",
    "EF.C72_zero_on_diagonal_actual"
   ],
   "note": "All sizes from one on (with size zero the products abort, C01_zero_dimension_aborts). C72_zero_on_diagonal_actual records what a solve does with a zero on the diagonal. Exact field arithmetic."
  },
  {
   "property": "C73",
   "status": "partial",
   "theorems": [
    "EF.C73_adaptive_partial",
    "EF.C73_as_serial_partial",
    "EF.C73_finite_volume_partial"
   ],
   "note": "Proved for exact rationals in place of doubles, on every mesh (solution as in a serial run without operator cache) and on uniform meshes (solution of the global finite volume problem) and on adaptive meshes with a dominating reaction term and any proper boundary conditions (C73_adaptive_partial: the one and only solution of the composite discretisation). Missing: processes without leaves (undefined behaviour, see C65), the operator cache on leaves with different operators, floating point, adaptive meshes without a large reaction term for the finite volume claim, the file p4est writes, the memory of the mesh functions (held by value in the model)."
  },
  {
   "property": "C74",
   "status": "partial",
   "theorems": [
    "EF.C74_adaptive_partial",
    "EF.C74_as_serial_partial",
    "EF.C74_implicit_euler_partial",
    "EF.C74_no_interval_actual"
   ],
   "note": "Proved for exact rationals in place of doubles, on every mesh (passes as in a serial loop) and on uniform meshes (implicit Euler steps, with the sign of the South flux as in C68); C74_adaptive_partial: implicit Euler steps of the composite discretisation on adaptive meshes when the steps are short enough for the mesh. C74_no_interval_actual: with n-vtk = 0 and output on no process gets to its end. Missing: processes without leaves (see C65), floating point, longer steps on adaptive meshes for the Euler claim, nt that is not an integer, the file p4est writes."
  },
  {
   "property": "C75",
   "status": "partial",
   "theorems": [
    "EF.C75_stationary_partial",
    "EF.C75_converges_actual",
    "EF.C75_heat_equation_partial",
    "EF.C75_converges_partial"
   ],
   "note": "Proved for solutions without flux through the South side on uniformly refined meshes, exact arithmetic (C75_heat_equation_partial, C75_converges_partial); constant and rate hold for all passes at once. C75_stationary_partial: with data that do not depend on time and constant diffusivity the loop ends within C/m^2 + eps of the stationary temperature for every step length, also from the cold start of the example. False for South fluxes: the loop converges, at the same rate, to the solution with the opposite flux there (C75_converges_actual, consequence of C67). Missing: adaptive meshes, errors at early times for solutions that are not smooth up to the start (boundary values that do not start from zero), floating point."
  },
  {
   "property": "C76",
   "status": "partial",
   "theorems": [
    "EF.C76_second_order_actual",
    "EF.C76_second_order_partial",
    "EF.C76_converges_partial",
    "EF.C76_west_flux_wrong"
   ],
   "note": "False when derivatives are given on the West or South side (consequence of C67): C76_west_flux_wrong has u = x as solution of the stated problem and shows that the leaf values tend to 2 - x. C76_second_order_actual: second order for the condition the code does solve (sign of the derivative flipped on West and South, kappa with the matching sign), every choice of sides with at least one value side. In the outward convention proved where West and South carry values or zero fluxes (C76_second_order_partial, C76_converges_partial). Exact arithmetic; uniformly refined meshes; conditions without any value side are not covered."
  },
  {
   "property": "C77",
   "status": "partial",
   "theorems": [
    "EF.C77_shows",
    "EF.C77_ended_actual",
    "EF.C77_enough",
    "EF.C77_memory_actual",
    "EF.C77_example",
    "EF.C77_time_loop",
    "EF.C77_time_loop_memory_actual",
    "EF.C77_memory_wrong"
   ],
   "note": "Proved: what is shown and with which values (C77_shows; the number of entries is not checked against the number of cells), that the vectors need to exist when the file is written and nothing else (C77_enough, C77_ended_actual: undefined behaviour otherwise), that both example programs give with pointers the files of C73 and C74 (C77_example, C77_time_loop; equal programs, failures included). False: the vectors made for functions of x and y are never deleted (C77_memory_wrong, C77_memory_actual); the time loop loses three per output (C77_time_loop_memory_actual)."
  },
  {
   "property": "C78",
   "status": "partial",
   "theorems": [
    "EF.C78_mesh_partial",
    "EF.C78_mesh_wrong",
    "EF.C78_leaf_partial",
    "EF.C78_leaf_wrong",
    "EF.C78_receive_as_sent_partial",
    "EF.C78_broadcast_partial",
    "EF.C78_broadcast_node_partial",
    "EF.C78_long_vector_wrong",
    "EF.C78_truncated_vector_wrong"
   ],
   "note": "False as stated: with 2^27 cells or more on a rank the mesh arrays overflow, on leaf grids larger than 46340 by 46340 the number of unknowns overflows, vectors of 2^31 to 2^32-1 elements are sent with a negative count, and of 2^32+c elements only c arrive without any error (C78_*_wrong). Below these sizes everything is as with unbounded integers (C78_*_partial). The integers inside LAPACK, PETSc and p4est are not modelled; nor are other numbers of bits."
  },
  {
   "property": "C79",
   "status": "partial",
   "theorems": [
    "EF.C79_each_rank_actual",
    "EF.C79_one_rank_partial",
    "EF.C79_uniform_partial",
    "EF.C79_ranks_wrong"
   ],
   "note": "On one rank, for every mesh and problem: the exact number of stored values by recursion over the mesh, the bound in leaves and depths, and the closed form on uniform meshes. On several ranks the property is false (C79_ranks_wrong): a rank reports only the nodes it has a leaf below of, exactly as C79_each_rank_actual says, and the sum over the ranks counts shared branches several times. Not covered: rounding of the sum, the homogeneous-rhs option, memory of the objects themselves."
  },
  {
   "property": "C80",
   "status": "partial",
   "theorems": [
    "EF.C80_fishpack_partial",
    "EF.C80_shipped_partial",
    "EF.C80_digits",
    "EF.C80_file_actual",
    "EF.C80_fields",
    "EF.C80_one_rank_partial",
    "EF.C80_ranks_wrong",
    "EF.C80_second_order_partial"
   ],
   "note": "Proved for all lists, meshes, ranks and clocks: the program ends, the table has exactly the rows of the runs in order, each with what C70 and C79 say and the times of the run alone (C80_file_actual); every double reads back (C80_digits, C80_fields); on one rank the numbers are those of the whole mesh (C80_one_rank_partial); second order in the uniform rows with the finite volume solver (C80_second_order_partial), with FISHPACK90 (C80_fishpack_partial) and for the program with the problem, options, sizes and levels it is shipped with (C80_shipped_partial). False on several ranks: unknowns and size in each rank's rows are less than those of the mesh (C80_ranks_wrong). With several solves the upwards and solve times are those of the last solve. Idealised: exact arithmetic before the numbers are stored as doubles; the clock is an arbitrary function. Not modelled: console output, plots, vtk output (switched off in the program)."
  },
  {
   "property": "C81",
   "status": "partial",
   "theorems": [
    "EF.C81_start_actual",
    "EF.C81_library_actual",
    "EF.C81_study_actual",
    "EF.C81_command_line_wrong",
    "EF.C81_ignored_actual",
    "EF.C81_other_options_partial",
    "EF.C81_empty_value_actual"
   ],
   "note": "False: main stores its own values after the command line was parsed, so for each of the three programs no option it knows depends on the command line (C81_command_line_wrong, C81_ignored_actual), the library always sees cache-operators and homogeneous-rhs off (C81_library_actual) and every run of a study reads the values written in the program, without an error (C81_study_actual). An argument --key= ends the program (C81_empty_value_actual). Holds for options the program does not store (C81_other_options_partial)."
  },
  {
   "property": "C82",
   "status": "partial",
   "theorems": [
    "EF.C82_same_as_study",
    "EF.C82_errors",
    "EF.C82_error_determined",
    "EF.C82_order_of_last_two",
    "EF.C82_one_size_wrong",
    "EF.C82_errors_between",
    "EF.C82_order_partial",
    "EF.C82_shipped"
   ],
   "note": "Proved over the real numbers instead of double: what the sweep reports for any elliptic problem and any sizes from 2 (C82_errors, C82_order_of_last_two), that the errors lie between c/n^2 and C/n^2 (C82_errors_between; the shipped problem meets the hypotheses, C82_shipped), and that the reported order misses two by at most a constant over the logarithm of the ratio of the last two sizes (C82_order_partial). Missing: with the fixed ratio 2 of the shipped sizes the order tends to two; this needs an asymptotic expansion of the error. With fewer than two sizes the program reads outside the vector of errors (C82_one_size_wrong); the shipped list has five."
  },
  {
   "property": "C83",
   "status": "proved",
   "theorems": [
    "EF.C83_monotone",
    "EF.C83_range",
    "EF.C83_stable"
   ],
   "note": "Over an ordered field (C83_monotone, C83_range) and the real numbers (C83_stable) instead of double; uniformly refined meshes, operator cache and homogeneous load off. C83_range takes a positive lower bound or a negative upper bound only for lambda = 0. In C83_stable the changes are measured on the whole rectangle for every side; the constant depends on the rectangle, the lower bound of beta and its Lipschitz constant only."
  },
  {
   "property": "C84",
   "status": "proved",
   "theorems": [
    "EF.C84_root_flux",
    "EF.C84_flux_converges"
   ],
   "note": "uniform meshes, exact arithmetic; the convergence part with Dirichlet conditions, real numbers, first order uniformly up to the corners"
  },
  {
   "property": "C85",
   "status": "partial",
   "theorems": [
    "EF.C85_adaptive_damped",
    "EF.C85_flux_balances_load",
    "EF.C85_adaptive_partial"
   ],
   "note": "uniform meshes: proved for every beta; adaptive meshes: constant beta, and either the reaction term dominates (C85_adaptive_damped) or the interface systems are assumed to be nonsingular; exact arithmetic"
  },
  {
   "property": "C86",
   "status": "proved",
   "theorems": [
    "EF.C86_nonsingular",
    "EF.C86_constant_exact"
   ],
   "note": "Any tree shape; cache-operators off; patch size at least 3. Leaves that differ by d >= 2 levels need a patch size divisible by 2^d. Exact arithmetic."
  },
  {
   "property": "C87",
   "status": "partial",
   "theorems": [
    "EF.C87_plain_actual",
    "EF.C87_verbatim_partial",
    "EF.C87_verbatim_wrong",
    "EF.C87_percent_wrong",
    "EF.C87_arguments",
    "EF.C87_head",
    "EF.C87_shipped",
    "EF.C87_results",
    "EF.C87_fields",
    "EF.C87_type_wrong",
    "EF.C87_examples"
   ],
   "note": "False of the code for messages with a percent sign (C87_verbatim_wrong, C87_percent_wrong); what happens without arguments is described exactly (C87_plain_actual). The words of a results line can be read back (C87_fields). A directive whose argument is missing or of another type is undefined behaviour (C87_type_wrong). Proved for messages without percent signs (C87_verbatim_partial), for messages with suitable arguments (C87_arguments), and for the calls that exist (C87_shipped, C87_results, C87_examples). Strings as arguments, `*` widths and length modifiers are not modelled; no call uses them."
  },
  {
   "property": "C88",
   "status": "proved",
   "theorems": [
    "EF.C88_bound_values",
    "EF.C88_bound",
    "EF.C88_stable"
   ],
   "note": "For loads and Dirichlet data given as functions (C88_bound, C88_stable) or per cell (C88_bound_values), without cached operators and without the homogeneous-rhs option; exact arithmetic."
  },
  {
   "property": "C89",
   "status": "proved",
   "theorems": [
    "EF.C89_vector",
    "EF.C89_matrix",
    "EF.C89_vector_int",
    "EF.C89_matrix_int",
    "EF.C89_zero_wrong",
    "EF.C89_wide_wrong"
   ],
   "note": "For entries that are finite doubles (as rational numbers) or 32 bit ints, any size. C89_zero_wrong: an entry that is not zero can be shown as 0 (below 1e-14), as the statement allows. C89_wide_wrong: for 64 bit integers, outside of the quantifier, entries run into each other. Negative zero, infinities and NaN are not modelled."
  },
  {
   "property": "C90",
   "status": "partial",
   "theorems": [
    "EF.C90_wrong",
    "EF.C90_actual",
    "EF.C90_partial"
   ],
   "note": "False: C90_wrong, a number written after a vector to a stream of precision six has four digits. C90_actual: the precision is four afterwards whatever it was. C90_partial: it is unchanged if it was four or if there are no entries."
  },
  {
   "property": "C91",
   "status": "partial",
   "theorems": [
    "EF.C91_partial",
    "EF.C91_type_wrong",
    "EF.C91_lines_wrong"
   ],
   "note": "C91_partial: proved for names and texts without line ends. Telling options apart is false: C91_type_wrong (true, 1, 1.0 and \"1\" are listed alike) and C91_lines_wrong (a text with a line end looks like another option)."
  },
  {
   "property": "C92",
   "status": "partial",
   "theorems": [
    "EF.C92_explicit_partial",
    "EF.C92_object_partial",
    "EF.C92_identity_partial",
    "EF.C92_serial_wrong",
    "EF.C92_decide_wrong",
    "EF.C92_determine_wrong",
    "EF.C92_setSizes_wrong"
   ],
   "note": "Proved for explicit sizes (C92_explicit_partial), matrices taken over from PETSc or cut out by index sets (C92_object_partial) and identity matrices (C92_identity_partial). False otherwise: from a serial matrix or with PETSC_DECIDE the local sizes are -1 on every rank (C92_serial_wrong, C92_decide_wrong), a total PETSc is to add up is -1 (C92_determine_wrong), after create() and setSizes() zero is reported (C92_setSizes_wrong)."
  },
  {
   "property": "C93",
   "status": "proved",
   "theorems": [
    "EF.C93_set",
    "EF.C93_serial",
    "EF.C93_get",
    "EF.C93_owner",
    "EF.C93_ranks_wrong",
    "EF.C93_unassembled_wrong"
   ],
   "note": "For all ranks, blocks and outcomes of assembly that PETSc's contract allows. C93_ranks_wrong shows that the ranks have to pass the same serial matrix; C93_unassembled_wrong that the constructor leaves assembly to the caller."
  },
  {
   "property": "C94",
   "status": "partial",
   "theorems": [
    "EF.C94_square_partial",
    "EF.C94_wide_wrong",
    "EF.C94_tall_wrong",
    "EF.C94_several_wrong",
    "EF.C94_sizes_wrong"
   ],
   "note": "Proved for square matrices of one rank each (C94_square_partial). False otherwise: columns are cut by the row numbers, so wide matrices lose columns (C94_wide_wrong), tall ones fail (C94_tall_wrong), shared ones keep only their diagonal blocks (C94_several_wrong), and the sizes reported are those from before (C94_sizes_wrong)."
  },
  {
   "property": "C95",
   "status": "proved",
   "theorems": [
    "EF.Rounded.C95_places",
    "EF.Rounded.C95_touch",
    "EF.Rounded.C95_parent"
   ],
   "note": "For an arbitrary rounding function, in particular IEEE double; both the bounds as functions of the place and the statement for two touching patches; parents and merges take bounds over unchanged."
  },
  {
   "property": "C96",
   "status": "partial",
   "theorems": [
    "EF.Rounded.C96_ordered",
    "EF.Rounded.C96_separate_partial",
    "EF.Rounded.C96_empty_wrong"
   ],
   "note": "False as stated: a unit square at 2^52 refined once has patches of zero width (C96_empty_wrong). Proved: bounds are always doubles in order inside the domain; widths are positive and centres in strict order and inside if the domain is wide enough for depth and cell count."
  },
  {
   "property": "C97",
   "status": "proved",
   "theorems": [
    "EF.Rounded.C97_near",
    "EF.Rounded.C97_finite"
   ],
   "note": "IEEE double with gradual underflow, round to nearest even, defined and not assumed; operations as written in the code without fused operations."
  },
  {
   "property": "C98",
   "status": "proved",
   "theorems": [
    "EF.Rounded.C98_exact"
   ],
   "note": "All of bounds, spacing, centres, corners, on every node of every rank."
  },
  {
   "property": "C99",
   "status": "partial",
   "theorems": [
    "EF.Rounded.C99_corners_wrong",
    "EF.Rounded.C99_near_partial",
    "EF.Rounded.C99_same_partial"
   ],
   "note": "False as stated: 49 cells per side on the unit square (C99_corners_wrong). Proved: the points differ by at most 12 roundoffs, and coincide on the domains of C98."
  },
  {
   "property": "C100",
   "status": "partial",
   "theorems": [
    "EF.C100_any_condition_partial",
    "EF.C100_solution_partial",
    "EF.C100_uniform",
    "EF.C100_damped",
    "EF.C100_singular_wrong",
    "EF.C100_mixed_partial",
    "EF.C100_mixed_uniform",
    "EF.C100_mixed_damped",
    "EF.C100_singular_iff"
   ],
   "note": "False as stated: on a mesh with one refined quarter there are elliptic problems with a singular merge system, where the constant one solves the composite system and the run leaves something else (C100_singular_wrong). Proved whenever the merge systems are nonsingular, for prescribed boundary values and for any boundary conditions with the values the run determines; nonsingular is shown to mean exactly that zero data leave only zero interface values on every cut square (C100_singular_iff). Mixed, Neumann and Robin conditions are part of the system in the C100_mixed theorems (derivative in coordinate direction, because of C67). Unconditional on uniform meshes (C100_uniform, C100_mixed_uniform) and on adaptive ones with a dominating reaction term (C100_damped, C100_mixed_damped)."
  },
  {
   "property": "C101",
   "status": "partial",
   "theorems": [
    "EF.C101_mixed_partial",
    "EF.C101_units_partial",
    "EF.C101_uniform",
    "EF.C101_damped"
   ],
   "note": "Proved whenever the merge systems of one of the two runs are nonsingular (those of the other then are), and unconditionally on uniform meshes and with a dominating reaction term, for prescribed boundary values and for mixed conditions (C101_mixed_partial, C102_mixed_uniform and C102_mixed_damped with the turn keep). Missing: nonsingularity on every adaptive mesh."
  },
  {
   "property": "C102",
   "status": "partial",
   "theorems": [
    "EF.C102_mixed_partial",
    "EF.C102_mixed_uniform",
    "EF.C102_mixed_damped",
    "EF.C102_normal_wrong",
    "EF.C102_mirror_partial",
    "EF.C102_transpose_partial",
    "EF.C102_uniform",
    "EF.C102_damped"
   ],
   "note": "As C101, for the mirror image and the transposed problem, which generate the eight symmetries; C102_uniform, C102_damped and the mixed versions also allow other units at the same time. For conditions with the derivative in coordinate direction; with the outward derivative the documentation promises, the claim is false (C102_normal_wrong), because of C67. Missing: nonsingularity on every adaptive mesh."
  },
  {
   "property": "C103",
   "status": "proved",
   "theorems": [
    "EF.C103_rounds",
    "EF.C103_agreed",
    "EF.C103_last",
    "EF.C103_kept",
    "EF.C103_serial",
    "EF.C103_short_wrong",
    "EF.C103_modes_wrong",
    "EF.C103_ranks_wrong"
   ],
   "note": "For all ranks, calls, rounds and outcomes of assembly that PETSc's contract allows; sums in exact arithmetic. The theorems named _wrong show what the conditions are for: fewer values than indices is undefined behaviour, which the code does not check (C103_short_wrong), and inserting and adding without assembly in between fails on one rank (C103_modes_wrong) or between ranks (C103_ranks_wrong)."
  },
  {
   "property": "C104",
   "status": "partial",
   "theorems": [
    "EF.C104_patch_partial",
    "EF.C104_same",
    "EF.C104_matrix_wrong",
    "EF.C104_bounds_wrong",
    "EF.C104_node",
    "EF.C104_nodes"
   ],
   "note": "False as stated: the text leaves out the matrix H (C104_matrix_wrong), and a patch of positive width may be shown with equal bounds (C104_bounds_wrong). Everything the text does name reads back for every patch (C104_patch_partial, C104_same), and nodes completely (C104_node for paths without a comma, which the paths of the quadtree never have; C104_nodes). Coordinates are rational numbers; infinities and NaN are left out."
  },
  {
   "property": "C105",
   "status": "partial",
   "theorems": [
    "EF.C105_unequal_cached_wrong",
    "EF.C105_unequal_wrong",
    "EF.C105_stages_wrong",
    "EF.C105_one_rank_partial",
    "EF.C105_one_leaf_partial",
    "EF.C105_build_cached_partial",
    "EF.C105_order_cached_wrong",
    "EF.C105_order_wrong",
    "EF.C105_upwards_order_wrong",
    "EF.C105_quadrant_each_partial"
   ],
   "note": "False of the code: FiniteVolumeSolver::solve makes two index sets on MPI_COMM_WORLD for every solve, a collective call of all ranks, so ranks with different numbers of leaves never all end (C105_unequal_wrong for the whole program without operator cache, any N, any problem, any order of collectives; C105_unequal_cached_wrong with it, for at least one solve; C105_stages_wrong for the upwards and solve stages with any options). On one rank the calls change nothing (C105_one_rank_partial). If every rank owns exactly one leaf, the program ends on all ranks with what a serial run has, with or without the cache (C105_one_leaf_partial, under the hypotheses of C65_as_serial_partial). Equal numbers of leaves are not enough: the program ends on two ranks only if both come to the operations of the first merge that concern them both in the same order (C105_order_wrong; C105_upwards_order_wrong for the upwards stage with any options; the example is a mesh of ten leaves, five on each of two ranks). If the leaves of every rank are those of one quadrant, equally many on each, the program ends on all ranks, with or without the cache, with what a serial run has (C105_quadrant_each_partial; the example has sixteen leaves on four ranks). The build alone with the cache ends on all ranks on every partition with the tree of a serial build (C105_build_cached_partial), but the whole program with it does not end on two ranks that come to the common operations of the first upwards stage in different orders (C105_order_cached_wrong; the example has sixteen leaves on three ranks). Missing: that the program ends on the remaining partitions where the orders agree. ISCreateGeneral being collective is PETSc's manual, an assumption."
  },
  {
   "property": "C106",
   "status": "partial",
   "theorems": [
    "EF.Petsc.C106_solve_actual",
    "EF.Petsc.C106_count",
    "EF.Petsc.C106_leak_actual",
    "EF.Petsc.C106_leak_wrong",
    "EF.Petsc.C106_modes_wrong"
   ],
   "note": "False of the code: the two index sets of every solve are never destroyed, so k solves leave exactly 2 k objects (C106_leak_wrong, C106_leak_actual, any grids, any other objects), and in the first cell a value is inserted and one added without assembly in between, against PETSc's manual (C106_modes_wrong). The rest holds: apart from that rule, which PETSc does not check for sequential vectors, every call is allowed, and the matrix and both vectors are destroyed (C106_solve_actual). PETSc's rules are a contract from its manual; VecGetArray without restore is not part of the rules modelled."
  },
  {
   "property": "C107",
   "status": "partial",
   "theorems": [
    "EF.Plot.C107_actual",
    "EF.Plot.C107_wrong",
    "EF.Plot.C107_column_wrong",
    "EF.Plot.C107_symmetric_partial",
    "EF.Plot.C107_shows_partial"
   ],
   "note": "False of the code: the mark of row i and column j is at horizontal position i and height (number of rows - j), so rows and columns are exchanged (C107_actual, any matrix and tolerance; one mark per large entry, and the call always returns). If some row has two large entries and no column has, or the other way round, no scale makes it a picture of the matrix (C107_wrong, C107_column_wrong). It is right, one step per row and column, exactly if the large entries lie symmetrically to the diagonal (C107_symmetric_partial, C107_shows_partial). scatter of matplotlibcpp is a contract; size of the figure, shape and colour of marks are not modelled."
  },
  {
   "property": "C108",
   "status": "partial",
   "theorems": [
    "EF.C108_partial",
    "EF.C108_same_partial",
    "EF.C108_spacing_wrong"
   ],
   "note": "Holds except for the spacings being positive: cells exactly, bounds and spacings within half a millionth (C108_partial), texts of different grids differ (C108_same_partial). False of the code: every grid with spacing below half a millionth is shown with spacing zero (C108_spacing_wrong). Rational coordinates, as in C56 and C104."
  },
  {
   "property": "C109",
   "status": "partial",
   "theorems": [
    "EF.CommName.C109_partial",
    "EF.CommName.C109_tree",
    "EF.CommName.C109_nodes_differ",
    "EF.CommName.C109_long_wrong",
    "EF.CommName.C109_buffer_wrong",
    "EF.CommName.C109_set_iff"
   ],
   "note": "False of the code for chains of subsets: whatever MPI keeps (up to what the buffer of 255 characters holds), from some depth on every further subset has the name of the one before (C109_long_wrong), and with a library that keeps 255 characters or more sixteen subsets within one another write past the buffer (C109_buffer_wrong). Holds as long as the whole name is shorter than what is kept (C109_partial), for all nodes of a quadtree and all ranks an int can be with libraries that keep 63 to 254 characters (C109_tree, C109_nodes_differ); set and get agree exactly if the name has no null character and fits (C109_set_iff). What MPI does with names is a contract from its standard."
  },
  {
   "property": "C110",
   "status": "partial",
   "theorems": [
    "EF.C110_actual",
    "EF.C110_colours_wrong",
    "EF.C110_axis_wrong",
    "EF.C110_one_rank_partial"
   ],
   "note": "False of the code: the vertical axis of the first figure says Inf-Norm Error but the heights are the mean errors. For every case, mesh, number of ranks and run there is a function to compare with, equal to the given one except in one point, for which the point of the run lies strictly below the largest error the run reports (C110_axis_wrong). With more than six patch sizes rank 0 reads behind the end of the list of colours after all runs are done (C110_colours_wrong). The rest holds: figures, curves, names, styles, resolutions and times, for any number of ranks and at most six sizes (C110_actual); on one rank the heights are the means over all cells of the mesh (C110_one_rank_partial). matplotlib is a contract; ticks, legend and grid lines are left out; exact arithmetic."
  },
  {
   "property": "C111",
   "status": "proved",
   "theorems": [
    "EF.GridPlot.C111_shows",
    "EF.GridPlot.C111_same"
   ],
   "note": "Any grid on a rectangle of positive width and height with at least one cell in each direction, any parts, texts and colours (C111_shows); grids are told apart by the calls of the full picture, without any assumption (C111_same). Exact arithmetic; matplotlib is a contract (plot puts the points of two equally long vectors into the picture)."
  }
 ]
}