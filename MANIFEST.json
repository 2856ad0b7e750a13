{
 "claims": [
  {
   "property": "C01",
   "status": "proved",
   "theorems": [
    "Fdapde.BinMtx.C01_history",
    "Fdapde.BinMtx.C01_set_other",
    "Fdapde.BinMtx.C01_bug_negative_index",
    "Fdapde.BinMtx.C01_ones",
    "Fdapde.BinMtx.C01_ofDense",
    "Fdapde.BinMtx.C01_identity"
   ],
   "note": "Histories of set/clear over all shapes, by refinement; also Ones/Identity/dense construction. Negative indices pass the assertion (C01_bug_negative_index); the property is stated for non-negative ones."
  },
  {
   "property": "C02",
   "status": "proved",
   "theorems": [
    "Fdapde.BinMtx.C02_coeff",
    "Fdapde.BinMtx.C02_materialise",
    "Fdapde.BinMtx.C02_mismatch",
    "Fdapde.BinMtx.C02_operators"
   ],
   "note": "All nested expressions of ~ & | ^, lazily and after pack-wise copy."
  },
  {
   "property": "C03",
   "status": "partial",
   "theorems": [
    "Fdapde.BinMtx.C03_all_partial",
    "Fdapde.BinMtx.C03_all_complete_partial",
    "Fdapde.BinMtx.C03_bug_false_negative",
    "Fdapde.BinMtx.C03_bug_false_positive",
    "Fdapde.BinMtx.C03_answer",
    "Fdapde.BinMtx.C03_when_right"
   ],
   "note": "Holds below 64 coefficients and for multiples of 64; the trailing partial pack is tested with the wrong mask, refuted by C03_bug_*. C03_answer gives the answer for every size and content, C03_when_right the sizes for which it is right (below 64, multiples of 32)."
  },
  {
   "property": "C04",
   "status": "partial",
   "theorems": [
    "Fdapde.BinMtx.C04_any_partial",
    "Fdapde.BinMtx.C04_any_small_partial",
    "Fdapde.BinMtx.C04_clean_after_writes",
    "Fdapde.BinMtx.C04_bug_false_negative",
    "Fdapde.BinMtx.C04_bug_false_positive",
    "Fdapde.BinMtx.C04_answer",
    "Fdapde.BinMtx.C04_when_right"
   ],
   "note": "Holds from 64 coefficients on and for small clean matrices; otherwise refuted by C04_bug_*. C04_answer gives the answer for every size and content, C04_when_right the sizes for which it is right (all but 33 to 63)."
  },
  {
   "property": "C05",
   "status": "proved",
   "theorems": [
    "Fdapde.BinMtx.C05_count"
   ],
   "note": "All shapes and contents, all expressions whose blocks are aligned (see C07)."
  },
  {
   "property": "C06",
   "status": "partial",
   "theorems": [
    "Fdapde.BinMtx.C06_eq_partial",
    "Fdapde.BinMtx.C06_shape_mismatch",
    "Fdapde.BinMtx.C06_bug_multiple_of_64"
   ],
   "note": "Holds when the number of coefficients is not a multiple of 64; for every multiple of 64 the comparison is undefined behaviour (C06_bug_multiple_of_64)."
  },
  {
   "property": "C07",
   "status": "partial",
   "theorems": [
    "Fdapde.BinMtx.C07_block_coeff",
    "Fdapde.BinMtx.C07_block_out_of_range",
    "Fdapde.BinMtx.C07_block_copy_partial",
    "Fdapde.BinMtx.C07_aligned_small",
    "Fdapde.BinMtx.C07_aligned_dvd",
    "Fdapde.BinMtx.C07_aligned_pow",
    "Fdapde.BinMtx.C07_aligned_row",
    "Fdapde.BinMtx.C07_aligned_col",
    "Fdapde.BinMtx.C07_row_col_copy",
    "Fdapde.BinMtx.C07_row_to_vector",
    "Fdapde.BinMtx.C07_bug_copy",
    "Fdapde.BinMtx.C07_bug_rounding",
    "Fdapde.BinMtx.C07_row_offset",
    "Fdapde.BinMtx.C07_when_right",
    "Fdapde.BinMtx.C07_whole_rows"
   ],
   "note": "Reading is always right; copying is right for aligned blocks (all rows, columns, small blocks); refuted in general by C07_bug_copy. C07_when_right gives the exact condition on the block."
  },
  {
   "property": "C08",
   "status": "partial",
   "theorems": [
    "Fdapde.BinMtx.C08_assign_effect",
    "Fdapde.BinMtx.C08_assign_partial",
    "Fdapde.BinMtx.C08_assign_throws",
    "Fdapde.BinMtx.C08_bug_no_clear",
    "Fdapde.BinMtx.C08_block_set_clear",
    "Fdapde.BinMtx.C08_block_set_clear_throws"
   ],
   "note": "Assignment ORs into the block: right when the block is false beforehand; refuted by C08_bug_no_clear."
  },
  {
   "property": "C09",
   "status": "partial",
   "theorems": [
    "Fdapde.BinMtx.C09_range_square_partial",
    "Fdapde.BinMtx.C09_range_vector",
    "Fdapde.BinMtx.C09_bug_wide",
    "Fdapde.BinMtx.C09_bug_tall",
    "Fdapde.BinMtx.C09_bug_short_range",
    "Fdapde.BinMtx.C09_answer",
    "Fdapde.BinMtx.C09_when_right"
   ],
   "note": "Right for square matrices and vectors; refuted for non-square shapes. C09_answer gives the outcome for every shape and range, C09_when_right shows that only square and empty shapes are right."
  },
  {
   "property": "C10",
   "status": "proved",
   "theorems": [
    "Fdapde.BinMtx.C10_repeat",
    "Fdapde.BinMtx.C10_reshape",
    "Fdapde.BinMtx.C10_which",
    "Fdapde.BinMtx.C10_which_not",
    "Fdapde.BinMtx.C10_select"
   ],
   "note": "repeat, reshape, which, select for all shapes."
  },
  {
   "property": "C11",
   "status": "proved",
   "theorems": [
    "Fdapde.BinTree.C11_dfs",
    "Fdapde.BinTree.C11_dfs_terminates",
    "Fdapde.BinTree.C11_bfs",
    "Fdapde.BinTree.C11_each_once"
   ],
   "note": "All trees; exact number of steps, no undefined behaviour."
  },
  {
   "property": "C12",
   "status": "partial",
   "theorems": [
    "Fdapde.BinTree.C12_leaves_partial",
    "Fdapde.BinTree.C12_bug_single",
    "Fdapde.BinTree.C12_empty"
   ],
   "note": "Holds from two nodes on; refuted for the one-node tree (C12_bug_single)."
  },
  {
   "property": "C13",
   "status": "partial",
   "theorems": [
    "Fdapde.BinTree.C13_push",
    "Fdapde.BinTree.C13_sorted",
    "Fdapde.BinTree.C13_find_sound",
    "Fdapde.BinTree.C13_find_internal_partial",
    "Fdapde.BinTree.C13_find_no_ub_partial",
    "Fdapde.BinTree.C13_bug_leaf",
    "Fdapde.BinTree.C13_bug_leaf_general",
    "Fdapde.BinTree.C13_bug_empty",
    "Fdapde.BinTree.C13_bug_null",
    "Fdapde.BinTree.C13_push_list",
    "Fdapde.BinTree.C13_find_pushed",
    "Fdapde.BinTree.C13_bug_some_key_missed",
    "Fdapde.BinTree.C13_find_absent",
    "Fdapde.BinTree.C13_bug_smaller_key"
   ],
   "note": "Size, contents, order and soundness of find proved for all histories; find misses leaves and dereferences null pointers (C13_bug_*). C13_find_pushed and C13_find_absent say what it does for every pushed key and for every other key: for a key that was never pushed it finds nothing, or dereferences a null pointer exactly when pushing the key would add a leaf."
  },
  {
   "property": "C14",
   "status": "partial",
   "theorems": [
    "Fdapde.BinTree.C14_erase_root_partial",
    "Fdapde.BinTree.C14_clear",
    "Fdapde.BinTree.C14_bug_erase_always_empties",
    "Fdapde.BinTree.C14_outside_spec",
    "Fdapde.BinTree.C14_bug_erase"
   ],
   "note": "Holds for the root/clear; refuted at every other position (C14_bug_erase)."
  },
  {
   "property": "C15",
   "status": "proved",
   "theorems": [
    "Fdapde.BinTree.C15_built_wf",
    "Fdapde.BinTree.C15_copy",
    "Fdapde.BinTree.C15_assign",
    "Fdapde.BinTree.C15_move",
    "Fdapde.BinTree.C15_bug_empty",
    "Fdapde.BinTree.C15_bug_assign_empty",
    "Fdapde.BinTree.C15_bug_self_assign",
    "Fdapde.BinTree.C15_push_at_counts"
   ],
   "note": "All non-empty trees that can be built, plus move; empty source and self assignment recorded as C15_bug_*. Memory independence of the copies is C144."
  },
  {
   "property": "C16",
   "status": "proved",
   "theorems": [
    "Fdapde.KDTree.C16_build",
    "Fdapde.KDTree.C16_range_search",
    "Fdapde.KDTree.C16_range_search_tree",
    "Fdapde.KDTree.C16_bug_empty_build",
    "Fdapde.KDTree.C16_bug_empty_search"
   ],
   "note": "All dimensions, non-empty point sets, boxes and behaviours of nth_element allowed by its contract (the permutation part is all that is needed); empty point sets are undefined behaviour (C16_bug_*)."
  },
  {
   "property": "C17",
   "status": "partial",
   "theorems": [
    "Fdapde.KDTree.C17_best_on_path_partial",
    "Fdapde.KDTree.C17_dim_one_partial",
    "Fdapde.KDTree.C17_exact_partial",
    "Fdapde.KDTree.C17_no_ub_partial",
    "Fdapde.KDTree.C17_bug_null",
    "Fdapde.KDTree.C17_bug_wrong",
    "Fdapde.KDTree.C17_answer",
    "Fdapde.KDTree.C17_when_right",
    "Fdapde.KDTree.C17_bug_even"
   ],
   "note": "The search is wrong in general (C17_bug_wrong) and dereferences null pointers (C17_bug_null); proved: best on the descent path, nearest in dimension one, exact matches, no undefined behaviour on full trees. C17_answer and C17_when_right say exactly what it does: the nearest of the points on the descent if that ends at a leaf, a null pointer otherwise; C17_bug_even: some query is undefined for every even number of points with distinct coordinates."
  },
  {
   "property": "C18",
   "status": "proved",
   "theorems": [
    "Fdapde.Triang.C18_edges_once",
    "Fdapde.Triang.C18_edges_traversal",
    "Fdapde.Triang.C18_bug_three_triangles",
    "Fdapde.Triang.C18_cells_traversal"
   ],
   "note": "All manifold 2D cell tables; without the manifold hypothesis it is false (C18_bug_three_triangles)."
  },
  {
   "property": "C19",
   "status": "proved",
   "theorems": [
    "Fdapde.Triang.C19_neighbours"
   ],
   "note": "All manifold 2D cell tables."
  },
  {
   "property": "C20",
   "status": "proved",
   "theorems": [
    "Fdapde.Triang.C20_boundary_edges",
    "Fdapde.Triang.C20_boundary_edges_traversal"
   ],
   "note": "All manifold 2D cell tables, tables and traversal."
  },
  {
   "property": "C21",
   "status": "partial",
   "theorems": [
    "Fdapde.Triang.C21_bug_interior",
    "Fdapde.Triang.C21_bug_never_right",
    "Fdapde.Triang.C21_increasing_partial"
   ],
   "note": "The iterator test is inverted, so the property is false (C21_bug_*); proved: termination, order, range and exactly what is yielded."
  },
  {
   "property": "C22",
   "status": "partial",
   "theorems": [
    "Fdapde.Triang.C22_bug_last_missing",
    "Fdapde.Triang.C22_yields",
    "Fdapde.Triang.C22_complete_partial"
   ],
   "note": "The last index is never yielded (C22_bug_last_missing); proved: exactly what is yielded, and completeness when the last entity does not pass the filter."
  },
  {
   "property": "C23",
   "status": "proved",
   "theorems": [
    "Fdapde.Triang.C23_faces"
   ],
   "note": "All manifold 3D cell tables."
  },
  {
   "property": "C24",
   "status": "partial",
   "theorems": [
    "Fdapde.Mesh1D.C24_locate_partial",
    "Fdapde.Mesh1D.C24_unique",
    "Fdapde.Mesh1D.C24_bug_last"
   ],
   "note": "Proved for every point but the last node, where the code reads past the end (C24_bug_last)."
  },
  {
   "property": "C25",
   "status": "partial",
   "theorems": [
    "Fdapde.Mesh1D.C25_neighbours_partial",
    "Fdapde.Mesh1D.C25_bug_one_cell"
   ],
   "note": "Proved with two or more cells; with one cell the right neighbour is wrong (C25_bug_one_cell)."
  },
  {
   "property": "C26",
   "status": "partial",
   "theorems": [
    "Fdapde.Mesh1D.C26_adjacent_partial",
    "Fdapde.Mesh1D.C26_symmetric",
    "Fdapde.Mesh1D.C26_node_patch",
    "Fdapde.Mesh1D.C26_bug_neighbors"
   ],
   "note": "Adjacency, symmetry and node_patch proved for all cell tables; cell.neighbors() always reads out of bounds (C26_bug_neighbors)."
  },
  {
   "property": "C27",
   "status": "proved",
   "theorems": [
    "Fdapde.Blocks.C27_block",
    "Fdapde.Blocks.C27_write",
    "Fdapde.Blocks.C27_read_after_write",
    "Fdapde.Blocks.C27_range_concat",
    "Fdapde.Blocks.C27_head_tail",
    "Fdapde.Blocks.C27_zero",
    "Fdapde.Blocks.C27_history",
    "Fdapde.Blocks.C27_write_range"
   ],
   "note": "All sizes, contents and write histories."
  },
  {
   "property": "C28",
   "status": "partial",
   "theorems": [
    "Fdapde.Blocks.C28_get",
    "Fdapde.Blocks.C28_columns",
    "Fdapde.Blocks.C28_dirty",
    "Fdapde.Blocks.C28_insert_throws",
    "Fdapde.Blocks.C28_rows_partial",
    "Fdapde.Blocks.C28_stack",
    "Fdapde.Blocks.C28_stack_get",
    "Fdapde.Blocks.C28_bug_remove_other_type",
    "Fdapde.Blocks.C28_bug_zero_rows",
    "Fdapde.Blocks.C28_bug_remove_absent",
    "Fdapde.Blocks.C28_bug_col",
    "Fdapde.Blocks.C28_given_rows",
    "Fdapde.Blocks.C28_given_content",
    "Fdapde.Blocks.C28_given_callable"
   ],
   "note": "Contents, column list, dirty flags, row check and stack proved for all histories; equal numbers of rows only when no empty block is inserted (C28_bug_zero_rows); storage and column list disagree after removal with another type, removal of an absent key is undefined, col() never works (C28_bug_*)."
  },
  {
   "property": "C29",
   "status": "proved",
   "theorems": [
    "Fdapde.Blocks.C29_unique"
   ],
   "note": "All blocks and all iteration orders of the hash set."
  },
  {
   "property": "C30",
   "status": "proved",
   "theorems": [
    "Fdapde.Blocks.C30_view_rows",
    "Fdapde.Blocks.C30_head_tail",
    "Fdapde.Blocks.C30_extract",
    "Fdapde.Blocks.C30_view_multi",
    "Fdapde.Blocks.C30_view_multi_callable",
    "Fdapde.Blocks.C30_shuffle"
   ],
   "note": "All frames and in-range index lists; extraction for frames whose stored keys are all listed."
  },
  {
   "property": "C31",
   "status": "proved",
   "theorems": [
    "Fdapde.Threads.C31_linearizable",
    "Fdapde.Threads.C31_mutual_exclusion",
    "Fdapde.Threads.C31_fifo",
    "Fdapde.Threads.C31_pop_fails_iff_empty",
    "Fdapde.Threads.C31_bug_unlocked_empty"
   ],
   "note": "push/emplace/pop/clear, any number of threads and schedules; size() and empty() take no lock (C31_bug_unlocked_empty)."
  },
  {
   "property": "C32",
   "status": "proved",
   "theorems": [
    "Fdapde.Threads.C32_at_most_once",
    "Fdapde.Threads.C32_one_worker_per_task",
    "Fdapde.Threads.C32_taken_in_order",
    "Fdapde.Threads.C32_no_lost_wakeup",
    "Fdapde.Threads.C32_all_run_when_quiescent"
   ],
   "note": "Any numbers of workers and clients, any schedule, spurious wake-ups included; also order, no lost wake-up, and completion at rest."
  },
  {
   "property": "C33",
   "status": "partial",
   "theorems": [
    "Fdapde.Threads.C33_started_before_sync_partial",
    "Fdapde.Threads.C33_all_but_window_partial",
    "Fdapde.Threads.C33_bug_returns_early",
    "Fdapde.Threads.C33_bug_two_syncs",
    "Fdapde.Threads.C33_single_client_not_forgotten"
   ],
   "note": "False (C33_bug_returns_early, C33_bug_two_syncs); proved: all tasks already started are done, and at most one task per worker, taken but not marked BUSY, can be missed; with one client the notification is never missed."
  },
  {
   "property": "C34",
   "status": "partial",
   "theorems": [
    "Fdapde.Threads.C34_workers_exited",
    "Fdapde.Threads.C34_nothing_after_shutdown",
    "Fdapde.Threads.C34_fate_partial",
    "Fdapde.Threads.C34_workers_terminate",
    "Fdapde.Threads.C34_shutdown_progress",
    "Fdapde.Threads.C34_bug_lost_task",
    "Fdapde.Threads.C34_bug_popped_task_dropped",
    "Fdapde.Threads.C34_bug_data_race"
   ],
   "note": "Workers exit, nothing runs afterwards, every worker terminates; tasks left in the queue are lost (C34_bug_lost_task), popped ones can be dropped, kill_ and state_ are data races."
  },
  {
   "property": "C35",
   "status": "proved",
   "theorems": [
    "Fdapde.LinAlg.C35_coefficients",
    "Fdapde.LinAlg.C35_is_kronecker",
    "Fdapde.LinAlg.C35_mixed_product"
   ],
   "note": "All dense matrices, exact scalar arithmetic."
  },
  {
   "property": "C36",
   "status": "partial",
   "theorems": [
    "Fdapde.LinAlg.C36_column_partial",
    "Fdapde.LinAlg.C36_increasing",
    "Fdapde.LinAlg.C36_values",
    "Fdapde.LinAlg.C36_entries_partial",
    "Fdapde.LinAlg.C36_bug_empty_column",
    "Fdapde.LinAlg.C36_when_right",
    "Fdapde.LinAlg.C36_bug_last_column"
   ],
   "note": "Every column whose left column does not start at the end of the storage, and empty columns elsewhere; an empty left column at the end of storage is an out-of-bounds read (C36_bug_empty_column, C36_bug_last_column for every left operand with an empty last column). C36_when_right: a column can be iterated exactly when the left column or a later one is not empty."
  },
  {
   "property": "C37",
   "status": "proved",
   "theorems": [
    "Fdapde.LinAlg.C37_constructor",
    "Fdapde.LinAlg.C37_coefficients",
    "Fdapde.LinAlg.C37_covers",
    "Fdapde.LinAlg.C37_out_of_range"
   ],
   "note": "All numbers and shapes of blocks."
  },
  {
   "property": "C38",
   "status": "partial",
   "theorems": [
    "Fdapde.LinAlg.C38_iteration_partial",
    "Fdapde.LinAlg.C38_two_block_rows",
    "Fdapde.LinAlg.C38_values_partial",
    "Fdapde.LinAlg.C38_bug_offsets",
    "Fdapde.LinAlg.C38_when_right"
   ],
   "note": "Entries of each column in order with values, for any heights (C38_values_partial); row indices proved when all block rows but the last have the same height, in particular for two block rows, and wrong otherwise (C38_bug_offsets). C38_when_right says exactly for which columns they are right."
  },
  {
   "property": "C39",
   "status": "proved",
   "theorems": [
    "Fdapde.LinAlg.C39_solves"
   ],
   "note": "All sizes, exact arithmetic, exact solvers; A left-invertible."
  },
  {
   "property": "C40",
   "status": "proved",
   "theorems": [
    "Fdapde.LinAlg.C40_dense",
    "Fdapde.LinAlg.C40_sparse"
   ],
   "note": "Dense and sparse, all sizes."
  },
  {
   "property": "C41",
   "status": "proved",
   "theorems": [
    "Fdapde.Combinatorics.C41_combinations",
    "Fdapde.Combinatorics.C41_binomial",
    "Fdapde.Combinatorics.C41_factorial",
    "Fdapde.Combinatorics.C41_array_sum",
    "Fdapde.Combinatorics.C41_factorial_int",
    "Fdapde.Combinatorics.C41_combinations_int",
    "Fdapde.Combinatorics.C41_bug_overflow"
   ],
   "note": "Over the naturals for all K <= N, and with 32-bit ints exactly for N <= 12 (C41_combinations_int); for N >= 13 the factorial overflows (C41_bug_overflow)."
  },
  {
   "property": "C42",
   "status": "proved",
   "theorems": [
    "Fdapde.Geometry.C42_sum_one",
    "Fdapde.Geometry.C42_unique",
    "Fdapde.Geometry.C42_reconstruct",
    "Fdapde.Geometry.C42_reconstruct_full",
    "Fdapde.Geometry.C42_vertex",
    "Fdapde.Geometry.C42_barycenter",
    "Fdapde.Geometry.C42_projection"
   ],
   "note": "All non-degenerate simplices of any order and embedding, real arithmetic."
  },
  {
   "property": "C43",
   "status": "proved",
   "theorems": [
    "Fdapde.Geometry.C43_outside_seg2",
    "Fdapde.Geometry.C43_outside_seg3",
    "Fdapde.Geometry.C43_outside_tri3",
    "Fdapde.Geometry.C43_vertex_seg2",
    "Fdapde.Geometry.C43_vertex_seg3",
    "Fdapde.Geometry.C43_vertex_tri3",
    "Fdapde.Geometry.C43_tolerance",
    "Fdapde.Geometry.C43_outside",
    "Fdapde.Geometry.C43_vertex",
    "Fdapde.Geometry.C43_interior",
    "Fdapde.Geometry.C43_bug_tet_edge"
   ],
   "note": "Real arithmetic, zero tolerance: full-dimensional simplices of any dimension, segments in 2D/3D, triangles in 3D; points on an edge of a tetrahedron are reported INSIDE (C43_bug_tet_edge)."
  },
  {
   "property": "C44",
   "status": "proved",
   "theorems": [
    "Fdapde.Geometry.C44_segment",
    "Fdapde.Geometry.C44_full",
    "Fdapde.Geometry.C44_triangle"
   ],
   "note": "Segments, triangles in space, full-dimensional simplices of any dimension; real arithmetic."
  },
  {
   "property": "C45",
   "status": "partial",
   "theorems": [
    "Fdapde.Geometry.C45_point_or_vertex_partial",
    "Fdapde.Geometry.C45_inside_partial",
    "Fdapde.Geometry.C45_inside_tri3_partial",
    "Fdapde.Geometry.C45_interval",
    "Fdapde.Geometry.C45_bug_not_nearest",
    "Fdapde.Geometry.C45_nearest_vertex_partial",
    "Fdapde.Geometry.C45_bug_far_end"
   ],
   "note": "False for triangles (C45_bug_not_nearest); proved for interval cells and for points inside. For simplices of order at least two in the plane or in space the result is p or a vertex no other vertex is nearer than (C45_nearest_vertex_partial). For segments in the plane or in space it can be the farther end (C45_bug_far_end)."
  },
  {
   "property": "C46",
   "status": "partial",
   "theorems": [
    "Fdapde.Geometry.C46_line2_partial",
    "Fdapde.Geometry.C46_line3",
    "Fdapde.Geometry.C46_plane3",
    "Fdapde.Geometry.C46_general",
    "Fdapde.Geometry.C46_eval",
    "Fdapde.Geometry.C46_bug_line_normal",
    "Fdapde.Geometry.C46_first_point",
    "Fdapde.Geometry.C46_bug_second_point",
    "Fdapde.Geometry.C46_bug_not_unit"
   ],
   "note": "project/distance proved for lines in 2D/3D and planes in 3D, eval for planes; eval of a line is wrong (C46_bug_line_normal). The constructor for M > 2 is proved for all dimensions (C46_general) although its code does not compile as written, and its normal vanishes."
  },
  {
   "property": "C47",
   "status": "partial",
   "theorems": [
    "Fdapde.Voronoi.C47_cells",
    "Fdapde.Voronoi.C47_measure",
    "Fdapde.Voronoi.C47_consecutive",
    "Fdapde.Voronoi.C47_partition",
    "Fdapde.Voronoi.C47_locate_partial",
    "Fdapde.Voronoi.C47_bug_last"
   ],
   "note": "Cells, measures and partition proved; locate proved for every point but the last node, where the code reads past the end (C47_bug_last)."
  },
  {
   "property": "C48",
   "status": "partial",
   "theorems": [
    "Fdapde.Geometry.C48_doubles",
    "Fdapde.Geometry.C48_locate_doubles",
    "Fdapde.Geometry.C48_bug_flat",
    "Fdapde.Geometry.C48_all_locate",
    "Fdapde.Geometry.C48_all_locate_exact",
    "Fdapde.Geometry.C48_locate",
    "Fdapde.Geometry.C48_locate_exact",
    "Fdapde.Geometry.C48_locate_surface"
   ],
   "note": "Proved for all meshes of full-dimensional simplices (any dimension) and of triangles in space whose range is not flat in a direction; any tolerance >= 0. False on surface meshes of more than seven cells flat in a coordinate direction (C48_bug_flat): the scaled coordinates are NaN, most cells are unreachable and their points are reported outside."
  },
  {
   "property": "C49",
   "status": "partial",
   "theorems": [
    "Fdapde.Splines.C49_partition_of_unity_partial",
    "Fdapde.Splines.C49_bug_short_last_span",
    "Fdapde.Splines.C49_answer",
    "Fdapde.Splines.C49_when_right"
   ],
   "note": "All orders, strictly increasing knots and points, provided the last span is not shorter than the end-point tolerance; false otherwise (C49_bug_short_last_span). C49_answer gives the sum for every strictly increasing knot vector and point, C49_when_right exactly when it is one everywhere."
  },
  {
   "property": "C50",
   "status": "partial",
   "theorems": [
    "Fdapde.Splines.C50_local_support_partial",
    "Fdapde.Splines.C50_bug_past_the_end",
    "Fdapde.Splines.C50_expansion",
    "Fdapde.Splines.C50_bug_every_basis",
    "Fdapde.Splines.C50_when_right"
   ],
   "note": "All points but those past the last knot by less than the tolerance, where the last functions are non-zero (C50_bug_past_the_end; for every basis, C50_bug_every_basis; C50_when_right is the equivalence); at most R + 1 consecutive functions non-zero; expansions."
  },
  {
   "property": "C51",
   "status": "partial",
   "theorems": [
    "Fdapde.Splines.C51_derivative_partial",
    "Fdapde.Splines.C51_bug_short_last_span",
    "Fdapde.Splines.C51_derive_zero"
   ],
   "note": "derive<k+1> is the derivative of derive<k> inside every knot span, in real arithmetic, when the last span is not shorter than the tolerance (at the knots themselves: C128). Without that hypothesis the claim is false: C51_bug_short_last_span."
  },
  {
   "property": "C52",
   "status": "partial",
   "theorems": [
    "Fdapde.Splines.C52_symmetric",
    "Fdapde.Splines.C52_operators_partial",
    "Fdapde.Splines.C52_bug_nonsymmetric"
   ],
   "note": "Symmetric operators: every entry is the composite quadrature over all spans; non-symmetric operators read past the end (C52_bug_nonsymmetric)."
  },
  {
   "property": "C53",
   "status": "proved",
   "theorems": [
    "Fdapde.FEM.C53_table"
   ],
   "note": "All dimensions and orders."
  },
  {
   "property": "C54",
   "status": "proved",
   "theorems": [
    "Fdapde.FEM.C54_value",
    "Fdapde.FEM.C54_gradient"
   ],
   "note": "All monomials, coefficients and points; gradient as formal derivative over the reals."
  },
  {
   "property": "C55",
   "status": "proved",
   "theorems": [
    "Fdapde.FEM.C55_nodal",
    "Fdapde.FEM.C55_reproduces",
    "Fdapde.FEM.C55_sum_one",
    "Fdapde.FEM.C55_general"
   ],
   "note": "The seven supported dimension/order pairs and, for any unisolvent node set, in general; exact linear solver."
  },
  {
   "property": "C56",
   "status": "partial",
   "theorems": [
    "Fdapde.FEM.C56_edge_nodes_partial",
    "Fdapde.FEM.C56_bug_dimension_three",
    "Fdapde.FEM.C56_barycentric"
   ],
   "note": "Dimensions 1 and 2; the code of dimension 3 order 2 pairs nodes and edges wrongly (C56_bug_dimension_three)."
  },
  {
   "property": "C57",
   "status": "proved",
   "theorems": [
    "Fdapde.FEM.C57_numbering",
    "Fdapde.FEM.C57_first_order",
    "Fdapde.FEM.C57_bijection"
   ],
   "note": "All 2D manifold triangulations; edge iteration in the order of the edge tables."
  },
  {
   "property": "C58",
   "status": "partial",
   "theorems": [
    "Fdapde.FEM.C58_pointwise",
    "Fdapde.FEM.C58_rows_sum_one",
    "Fdapde.FEM.C58_expansion_partial",
    "Fdapde.FEM.C58_bug_outside",
    "Fdapde.FEM.C58_bug_order_two",
    "Fdapde.FEM.C58_areal",
    "Fdapde.FEM.C58_no_locations"
   ],
   "note": "Pointwise and areal evaluation proved for all meshes and locations; the expansion only for order 1 and points inside (C58_bug_outside, C58_bug_order_two)."
  },
  {
   "property": "C59",
   "status": "proved",
   "theorems": [
    "Fdapde.Quadrature.C59_simplex",
    "Fdapde.Quadrature.C59_legendre",
    "Fdapde.Quadrature.C59_weights"
   ],
   "note": "Every table and Legendre rule, all monomials up to the documented degree, exact rational arithmetic on the printed digits."
  },
  {
   "property": "C60",
   "status": "partial",
   "theorems": [
    "Fdapde.PDE.C60_same_matrix_partial",
    "Fdapde.PDE.C60_symmetric",
    "Fdapde.PDE.C60_flag",
    "Fdapde.PDE.C60_operators_partial",
    "Fdapde.PDE.C60_bug_diffusion"
   ],
   "note": "Holds for operators whose local form is symmetric, in particular for every flagged operator with symmetric diffusion tensors; false for non-symmetric tensors (C60_bug_diffusion)."
  },
  {
   "property": "C61",
   "status": "proved",
   "theorems": [
    "Fdapde.PDE.C61_operator",
    "Fdapde.PDE.C61_cell_order",
    "Fdapde.PDE.C61_forcing",
    "Fdapde.PDE.C61_forcing_cell_order"
   ],
   "note": "All meshes, dof tables and local integrals."
  },
  {
   "property": "C62",
   "status": "partial",
   "theorems": [
    "Fdapde.PDE.C62_rows",
    "Fdapde.PDE.C62_boundary_rows_partial",
    "Fdapde.PDE.C62_idempotent",
    "Fdapde.PDE.C62_uninitialized",
    "Fdapde.PDE.C62_solution_partial",
    "Fdapde.PDE.C62_bug_dof_zero"
   ],
   "note": "Exact effect proved for every system and marking; the stated one only if dof 0 is a boundary dof, since dof 0 is always treated as one (C62_bug_dof_zero)."
  },
  {
   "property": "C63",
   "status": "partial",
   "theorems": [
    "Fdapde.PDE.C63_recursion",
    "Fdapde.PDE.C63_implicit_euler_partial",
    "Fdapde.PDE.C63_bug_no_boundary_data",
    "Fdapde.PDE.C63_bug_dof_zero"
   ],
   "note": "Recursion proved for all systems and numbers of steps, relative to an exact linear solver; dof 0 is always treated as boundary (C63_bug_dof_zero) and boundary data is required whenever there is a dof (C63_bug_no_boundary_data)."
  },
  {
   "property": "C64",
   "status": "proved",
   "theorems": [
    "Fdapde.Optim.C64_visited",
    "Fdapde.Optim.C64_minimum",
    "Fdapde.Optim.C64_empty"
   ],
   "note": "All grids, objectives and callbacks."
  },
  {
   "property": "C65",
   "status": "partial",
   "theorems": [
    "Fdapde.Optim.C65_gradient_descent",
    "Fdapde.Optim.C65_newton",
    "Fdapde.Optim.C65_bfgs_partial",
    "Fdapde.Optim.C65_returns"
   ],
   "note": "Gradient descent and Newton in full; BFGS except for its exit on a vanishing new gradient, where the returned point is the previous iterate (see C66)."
  },
  {
   "property": "C66",
   "status": "partial",
   "theorems": [
    "Fdapde.Optim.C66_start_partial",
    "Fdapde.Optim.C66_bug_returns_old"
   ],
   "note": "Only for a starting point that is already stationary; otherwise false (C66_bug_returns_old)."
  },
  {
   "property": "C67",
   "status": "proved",
   "theorems": [
    "Fdapde.Optim.C67_update",
    "Fdapde.Optim.C67_history",
    "Fdapde.Optim.C67_wolfe"
   ],
   "note": "All dimensions and histories satisfying the curvature condition; the curvature condition from the Wolfe line search."
  },
  {
   "property": "C68",
   "status": "proved",
   "theorems": [
    "Fdapde.Optim.C68_descent",
    "Fdapde.Optim.C68_armijo",
    "Fdapde.Optim.C68_decrease",
    "Fdapde.Optim.C68_terminates"
   ],
   "note": "Over ordered fields; termination over the reals for differentiable objectives."
  },
  {
   "property": "C69",
   "status": "proved",
   "theorems": [
    "Fdapde.Optim.C69_bracket",
    "Fdapde.Optim.C69_wolfe",
    "Fdapde.Optim.C69_terminates"
   ],
   "note": "Over ordered fields; termination over the reals for differentiable objectives bounded below."
  },
  {
   "property": "C70",
   "status": "proved",
   "theorems": [
    "Fdapde.Fields.C70_gradient",
    "Fdapde.Fields.C70_diagonal",
    "Fdapde.Fields.C70_mixed",
    "Fdapde.Fields.C70_symmetric"
   ],
   "note": "All polynomials within the stated degrees, points and steps; exact arithmetic."
  },
  {
   "property": "C71",
   "status": "proved",
   "theorems": [
    "Fdapde.IO.C71_split",
    "Fdapde.IO.C71_fields",
    "Fdapde.IO.C71_remove",
    "Fdapde.IO.C71_empty_separator"
   ],
   "note": "All strings and non-empty separators."
  },
  {
   "property": "C72",
   "status": "proved",
   "theorems": [
    "Fdapde.IO.C72_dense",
    "Fdapde.IO.C72_bug_empty_field",
    "Fdapde.IO.C72_bug_carriage_return"
   ],
   "note": "All well-formed files; number parsing is a parameter. Outside: empty fields stay unwritten (C72_bug_empty_field), NA before a carriage return is read as 0 (C72_bug_carriage_return)."
  },
  {
   "property": "C73",
   "status": "proved",
   "theorems": [
    "Fdapde.IO.C73_sparse",
    "Fdapde.IO.C73_header",
    "Fdapde.IO.C73_bug_stale_value",
    "Fdapde.IO.C73_bug_zero_based"
   ],
   "note": "All well-formed one-based files; number parsing is a parameter. Outside: empty values repeat the previous one (C73_bug_stale_value), zero-based files are undefined behaviour (C73_bug_zero_based)."
  },
  {
   "property": "C74",
   "status": "proved",
   "theorems": [
    "Fdapde.IO.C74_little",
    "Fdapde.IO.C74_big",
    "Fdapde.IO.C74_typed",
    "Fdapde.IO.C74_no_bound_check"
   ],
   "note": "Little and big-endian reads of any width decode every value at every position; reads past the end of the buffer are undefined behaviour."
  },
  {
   "property": "C75",
   "status": "partial",
   "theorems": [
    "Fdapde.IO.C75_points",
    "Fdapde.IO.C75_polygons_partial",
    "Fdapde.IO.C75_polylines_partial",
    "Fdapde.IO.C75_multipoints_partial",
    "Fdapde.IO.C75_count",
    "Fdapde.IO.C75_terminates",
    "Fdapde.IO.C75_bug_multipoint_zm",
    "Fdapde.IO.C75_bug_long_file",
    "Fdapde.IO.C75_bug_no_ring",
    "Fdapde.IO.C75_bug_null_shape",
    "Fdapde.IO.C75_bug_optional_measures"
   ],
   "note": "Points proved in full. Polygons and polylines need at least one ring and present measures; multipoints lose z and m (bug); null shapes are not handled (bug)."
  },
  {
   "property": "C76",
   "status": "partial",
   "theorems": [
    "Fdapde.IO.C76_rings_partial",
    "Fdapde.IO.C76_single_ring",
    "Fdapde.IO.C76_bug_last_point"
   ],
   "note": "Rings are visited in order; the last point of every ring but the last one is skipped (bug proved); single rings are visited in full."
  },
  {
   "property": "C77",
   "status": "partial",
   "theorems": [
    "Fdapde.IO.C77_columns_partial",
    "Fdapde.IO.C77_numeric",
    "Fdapde.IO.C77_integers",
    "Fdapde.IO.C77_bug_stale",
    "Fdapde.IO.C77_bug_padded",
    "Fdapde.IO.C77_bug_long_field",
    "Fdapde.IO.C77_bug_no_record"
   ],
   "note": "Columns proved for fields up to 127 bytes and at least one record; longer fields throw, padded numbers repeat the previous value (bugs proved)."
  },
  {
   "property": "C78",
   "status": "partial",
   "theorems": [
    "Fdapde.Utils.C78_histories_partial",
    "Fdapde.Utils.C78_no_leak_partial",
    "Fdapde.Utils.C78_bug_self_assignment",
    "Fdapde.Utils.C78_bug_self_move"
   ],
   "note": "All histories of construction, copy, move, assignment and destruction, except self-assignment and self-move, which are undefined behaviour (bugs proved). Shared and non-owning storages: C106."
  },
  {
   "property": "C79",
   "status": "proved",
   "theorems": [
    "Fdapde.Utils.C79_dispatch",
    "Fdapde.Utils.C79_bug_many_methods",
    "Fdapde.Utils.C79_unknown_interface"
   ],
   "note": "All interface lists with at most 2^15 methods in all; beyond that the offsets overflow and a call through the wrapper fails (C79_bug_many_methods)."
  },
  {
   "property": "C80",
   "status": "partial",
   "theorems": [
    "Fdapde.Utils.C80_wrapper_partial",
    "Fdapde.Utils.C80_bug_moved_from",
    "Fdapde.Utils.C80_bug_copy_of_empty",
    "Fdapde.Utils.C80_assign"
   ],
   "note": "A wrapper that was never moved from; the moved-from wrapper still converts to true, and copying an empty wrapper is undefined (bugs proved)."
  },
  {
   "property": "C81",
   "status": "proved",
   "theorems": [
    "Fdapde.Utils.C81_has_type",
    "Fdapde.Utils.C81_unique_types",
    "Fdapde.Utils.C81_index_of",
    "Fdapde.Utils.C81_bug_index_of_repeated",
    "Fdapde.Utils.C81_split",
    "Fdapde.Utils.C81_switch",
    "Fdapde.Utils.C81_get",
    "Fdapde.Utils.C81_merge",
    "Fdapde.Utils.C81_has_instance_of",
    "Fdapde.Utils.C81_is_instance_of",
    "Fdapde.Utils.C81_bug_two_arguments"
   ],
   "note": "All type lists; index_of with repeated types and has_instance_of with several template arguments are wrong (bugs proved)."
  },
  {
   "property": "C82",
   "status": "partial",
   "theorems": [
    "Fdapde.PDE.C82_remove_partial",
    "Fdapde.PDE.C82_bug_minus",
    "Fdapde.PDE.C82_bug_scaled",
    "Fdapde.PDE.C82_bug_negated"
   ],
   "note": "Sums with the time derivative as a summand, at any depth; false for dt - L, scaled and negated sums (C82_bug_minus, C82_bug_scaled, C82_bug_negated)."
  },
  {
   "property": "C83",
   "status": "partial",
   "theorems": [
    "Fdapde.Fields.C83_scalar_partial",
    "Fdapde.Fields.C83_vector_partial",
    "Fdapde.Fields.C83_matrix_partial",
    "Fdapde.Fields.C83_static_partial",
    "Fdapde.Fields.C83_bug_unary",
    "Fdapde.Fields.C83_bug_dot_row",
    "Fdapde.Fields.C83_bug_row_row",
    "Fdapde.Fields.C83_bug_mulVec_row",
    "Fdapde.Fields.C83_bug_row_truncated",
    "Fdapde.Fields.C83_bug_row_overrun"
   ],
   "note": "All expression trees and forward histories, except: sin/cos/tan/exp/log of discretised fields (C83_bug_unary), matrix rows as right operands of products (C83_bug_dot_row, C83_bug_row_row, C83_bug_mulVec_row), rows of non-square matrices (C83_bug_row_truncated, C83_bug_row_overrun). Static sizes."
  },
  {
   "property": "C84",
   "status": "proved",
   "theorems": [
    "Fdapde.Utils.C84_meaning",
    "Fdapde.Utils.C84_relation",
    "Fdapde.Utils.C84_not_transitive"
   ],
   "note": "Over ordered fields: rounding and NaN are not modelled."
  },
  {
   "property": "C85",
   "status": "partial",
   "theorems": [
    "Fdapde.Splines.C85_evaluation_matrix",
    "Fdapde.Splines.C85_bug_dofs_coords"
   ],
   "note": "Evaluation matrix proved for all sizes; dofs_coords returns one row too many (C85_bug_dofs_coords)."
  },
  {
   "property": "C86",
   "status": "partial",
   "theorems": [
    "Fdapde.Quadrature.C86_documented_degree",
    "Fdapde.Quadrature.C86_products_partial",
    "Fdapde.Quadrature.C86_bug_tetrahedra"
   ],
   "note": "Degree R+1 for every rule; products of two order-R polynomials except order 2 on tetrahedra, where it is false (C86_bug_tetrahedra)."
  },
  {
   "property": "C87",
   "status": "proved",
   "theorems": [
    "Fdapde.Quadrature.C87_quadrature_nodes",
    "Fdapde.Quadrature.C87_sampled_field",
    "Fdapde.Quadrature.C87_weak_form",
    "Fdapde.Quadrature.C87_mesh",
    "Fdapde.Quadrature.C87_cell",
    "Fdapde.Quadrature.C87_interval"
   ],
   "note": "All meshes, fields and intervals; exact arithmetic on the printed digits."
  },
  {
   "property": "C88",
   "status": "proved",
   "theorems": [
    "Fdapde.Utils.C88_branches",
    "Fdapde.Utils.C88_relative_error"
   ],
   "note": "Over the reals: rounding of exp and log1p is not modelled."
  },
  {
   "property": "C89",
   "status": "proved",
   "theorems": [
    "Fdapde.Utils.C89_lexicographic",
    "Fdapde.Utils.C89_strict_total"
   ],
   "note": "Over linear orders: NaN is excluded."
  },
  {
   "property": "C90",
   "status": "partial",
   "theorems": [
    "Fdapde.Utils.C90_solve",
    "Fdapde.Utils.C90_info",
    "Fdapde.Utils.C90_bool_partial",
    "Fdapde.Utils.C90_bug_stale_flag"
   ],
   "note": "Solutions and info proved for all histories; the conversion to bool is stale after a failed factorization that follows a successful one (bug proved). Eigen's factorization is a parameter."
  },
  {
   "property": "C91",
   "status": "proved",
   "theorems": [
    "Fdapde.PDE.C91_form",
    "Fdapde.PDE.C91_constants",
    "Fdapde.PDE.C91_energy"
   ],
   "note": "All operator expressions whose diffusion tensors are symmetric or that contain a transport term (FlagRight); gradients of the local functions are parameters (their sum to zero is a hypothesis of C91_constants)."
  },
  {
   "property": "C92",
   "status": "partial",
   "theorems": [
    "Fdapde.PDE.C92_mass",
    "Fdapde.PDE.C92_positive_weights",
    "Fdapde.PDE.C92_total_mass",
    "Fdapde.PDE.C92_bug_indefinite_mass"
   ],
   "note": "Total mass for all supported dimensions and orders; positive semidefinite for all but second order tetrahedra, where it is false (C92_bug_indefinite_mass)."
  },
  {
   "property": "C93",
   "status": "partial",
   "theorems": [
    "Fdapde.Geometry.C93_found",
    "Fdapde.Geometry.C93_found_exact",
    "Fdapde.Geometry.C93_bug_outside",
    "Fdapde.Geometry.C93_convex_inner",
    "Fdapde.Geometry.C93_delaunay_partial",
    "Fdapde.Geometry.C93_bug_nonconvex"
   ],
   "note": "A returned id is the one of a containing cell, on all meshes; on Delaunay meshes of convex domains, in any dimension, every point of the domain is found within as many steps as cells (strict empty circumsphere property between neighbours). Points outside are never reported (bug), and the walk leaves the mesh on domains that are not convex (bug). Exact arithmetic."
  },
  {
   "property": "C94",
   "status": "proved",
   "theorems": [
    "Fdapde.Geometry.C94_polar",
    "Fdapde.Geometry.C94_strict_total"
   ],
   "note": "Over the reals."
  },
  {
   "property": "C95",
   "status": "partial",
   "theorems": [
    "Fdapde.Voronoi2.C95_cells",
    "Fdapde.Voronoi2.C95_interior",
    "Fdapde.Voronoi2.C95_locate",
    "Fdapde.Voronoi2.C95_bug_contains",
    "Fdapde.Voronoi2.C95_locate_all",
    "Fdapde.Voronoi2.C95_boundary_partial",
    "Fdapde.Voronoi2.C95_bug_boundary",
    "Fdapde.Voronoi2.C95_nearest_partial",
    "Fdapde.Voronoi2.C95_bug_nearest"
   ],
   "note": "Vertices, order and markers of all cells on consistent meshes; nearest site under the Delaunay and Gabriel conditions on the located triangle; without the latter it is false (C95_bug_nearest). contains always throws (C95_bug_contains). Circumcenters and projections are parameters here (C44, C45). Cells of boundary sites are reported on the boundary when most of their vertices are boundary vertices, not in general (C95_bug_boundary)."
  },
  {
   "property": "C96",
   "status": "proved",
   "theorems": [
    "Fdapde.Voronoi2.C96_diagram_edges",
    "Fdapde.Voronoi2.C96_fan",
    "Fdapde.Voronoi2.C96_star",
    "Fdapde.Voronoi2.C96_translate",
    "Fdapde.Voronoi2.C96_edges"
   ],
   "note": "Over the reals; area as the sum of triangles of a fan."
  },
  {
   "property": "C97",
   "status": "partial",
   "theorems": [
    "Fdapde.Triang.C97_edges",
    "Fdapde.Triang.C97_face_edges",
    "Fdapde.Triang.C97_cell_edges",
    "Fdapde.Triang.C97_markers",
    "Fdapde.Triang.C97_boundary_partial",
    "Fdapde.Triang.C97_bug_interior_edge"
   ],
   "note": "All meshes whose faces are in at most two cells. Edges of boundary faces are marked; interior edges with both ends on the boundary are marked too (C97_bug_interior_edge). The order of the edges of a cell (iteration of a hash set) is not modelled."
  },
  {
   "property": "C98",
   "status": "partial",
   "theorems": [
    "Fdapde.Triang.C98_boundary_cell_partial",
    "Fdapde.Triang.C98_iff",
    "Fdapde.Triang.C98_bug_inner_cell"
   ],
   "note": "Cells with a boundary facet are reported; so are others (C98_bug_inner_cell)."
  },
  {
   "property": "C99",
   "status": "partial",
   "theorems": [
    "Fdapde.Triang.C99_bug_last_face",
    "Fdapde.Triang.C99_surface_partial",
    "Fdapde.Triang.C99_bug_tetrahedron"
   ],
   "note": "Correct when the last face is interior; otherwise always undefined (C99_bug_last_face)."
  },
  {
   "property": "C100",
   "status": "partial",
   "theorems": [
    "Fdapde.Geometry.C100_exact",
    "Fdapde.Geometry.C100_nearest_vertex_partial",
    "Fdapde.Geometry.C100_inside_partial",
    "Fdapde.Geometry.C100_inside_surface_partial",
    "Fdapde.Geometry.C100_interval_partial",
    "Fdapde.Geometry.C100_bug_vertex_or_point",
    "Fdapde.Geometry.C100_bug_vertex",
    "Fdapde.Geometry.C100_approx_partial",
    "Fdapde.Geometry.C100_bug_undefined"
   ],
   "note": "Exact: points of the mesh are fixed and intervals are right; elsewhere, on triangles and tetrahedra, it returns the point itself or the node of the cells nearest to it (C100_nearest_vertex_partial; bug inherited from C45). Default: best among the cells around the node returned by the kd-tree, which may be undefined (C100_bug_undefined). Real arithmetic."
  },
  {
   "property": "C101",
   "status": "partial",
   "theorems": [
    "Fdapde.LinAlg.C101_compute",
    "Fdapde.LinAlg.C101_optimal",
    "Fdapde.LinAlg.C101_exact_inverse",
    "Fdapde.LinAlg.C101_diagonal",
    "Fdapde.LinAlg.C101_bug_single_candidate",
    "Fdapde.LinAlg.C101_bug_no_step",
    "Fdapde.LinAlg.C101_bug_never_full",
    "Fdapde.LinAlg.C101_bug_never_exact",
    "Fdapde.LinAlg.C101_gain",
    "Fdapde.LinAlg.C101_selection"
   ],
   "note": "Triangular factor, unit diagonal, orthogonality and optimality for all matrices, parameters and histories; exact on full patterns and diagonal matrices. Patterns never become full, so convergence to the inverse is false (C101_bug_never_full, C101_bug_never_exact, C101_bug_single_candidate); alpha = 0 gives the zero factor. Cholesky solves by contract, exact arithmetic."
  },
  {
   "property": "C102",
   "status": "partial",
   "theorems": [
    "Fdapde.PDE.C102_init",
    "Fdapde.PDE.C102_init_callable",
    "Fdapde.PDE.C102_galerkin_partial",
    "Fdapde.PDE.C102_natural",
    "Fdapde.PDE.C102_parabolic_partial"
   ],
   "note": "Initialization proved without restriction, natural conditions too; with Dirichlet data when dof 0 is on the boundary (otherwise false, C62_bug_dof_zero, C63_bug_dof_zero), parabolic problems when boundary data are given (otherwise undefined, C63_bug_no_boundary_data). Integrals are the quadrature sums; Eigen's SparseLU is exact by contract; exact arithmetic."
  },
  {
   "property": "C103",
   "status": "partial",
   "theorems": [
    "Fdapde.PDE.C103_rigid",
    "Fdapde.PDE.C103_elements",
    "Fdapde.PDE.C103_quadratic_tetrahedra",
    "Fdapde.PDE.C103_coercive",
    "Fdapde.PDE.C103_definite_unique",
    "Fdapde.PDE.C103_unique",
    "Fdapde.PDE.C103_definite_partial",
    "Fdapde.PDE.C103_solve_partial",
    "Fdapde.PDE.C103_energy",
    "Fdapde.PDE.C103_laplacian",
    "Fdapde.PDE.C103_diffusion",
    "Fdapde.PDE.C103_compose",
    "Fdapde.PDE.C103_linear_elements",
    "Fdapde.PDE.C103_exists"
   ],
   "note": "Uniqueness and least energy without restriction; success of solve when dof 0 is on the boundary (see C62_bug_dof_zero). The hypotheses on the elements are proved for all the elements of the library with their standard quadrature rules (C103_rigid, C103_elements; C103_quadratic_tetrahedra for operators with coefficients constant on the cells, the rule having a negative weight). Exact arithmetic. C103_exists: the discrete solution exists for every marking on which the form is definite; C140_error says how far from it the computed one is when dof 0 is not on the boundary."
  },
  {
   "property": "C104",
   "status": "partial",
   "theorems": [
    "Fdapde.PDE.C104_mass_definite",
    "Fdapde.PDE.C104_stable_partial",
    "Fdapde.PDE.C104_nonsingular_partial",
    "Fdapde.PDE.C104_succeeds_partial"
   ],
   "note": "When dof 0 is on the boundary (see C63_bug_dof_zero). Definiteness of the mass matrix is proved for all the elements but quadratic tetrahedra (C104_mass_definite; see C92_bug_indefinite_mass). Exact arithmetic. Without the restriction on dof 0, for right values given there: C140_stable."
  },
  {
   "property": "C105",
   "status": "partial",
   "theorems": [
    "Fdapde.Splines.C105_init",
    "Fdapde.Splines.C105_semidefinite",
    "Fdapde.Splines.C105_bug_sign",
    "Fdapde.Splines.C105_reference",
    "Fdapde.Splines.C105_reference_interval",
    "Fdapde.Splines.C105_bug_no_forcing",
    "Fdapde.Splines.C105_not_initialised",
    "Fdapde.Splines.C105_bug_dirichlet",
    "Fdapde.Splines.C105_bug_dof_coords",
    "Fdapde.Splines.C105_eval_basis"
   ],
   "note": "Matrices, semidefiniteness and the reference basis are proved; the bilaplacian has the opposite sign (C105_bug_sign), the forcing is never assembled so that solve is undefined (C105_bug_no_forcing), boundary data are ignored (C105_bug_dirichlet) and dofs_coords has too few rows (C105_bug_dof_coords). Integrals are quadrature sums; exact arithmetic."
  },
  {
   "property": "C106",
   "status": "partial",
   "theorems": [
    "Fdapde.Utils.C106_shared",
    "Fdapde.Utils.C106_non_owning_partial",
    "Fdapde.Utils.C106_non_owning_quiet",
    "Fdapde.Utils.C106_non_owning_dangling",
    "Fdapde.Utils.C106_bug_nonconst_copy"
   ],
   "note": "Shared storage in full. Non-owning storage when copied from const storages, as the wrapper does; copying a storage that is not const selects the wrong constructor (C106_bug_nonconst_copy). std::shared_ptr by its specification."
  },
  {
   "property": "C107",
   "status": "proved",
   "theorems": [
    "Fdapde.Optim.C107_gradient_descent",
    "Fdapde.Optim.C107_backtracking",
    "Fdapde.Optim.C107_rate",
    "Fdapde.Optim.C107_newton_quadratic",
    "Fdapde.Optim.C107_newton_rate",
    "Fdapde.Optim.C107_lipschitz"
   ],
   "note": "Exact arithmetic over ordered fields. Gradient descent with fixed step and with backtracking, Newton's method on quadratic functions and its quadratic convergence near a stationary point. No rate for BFGS."
  },
  {
   "property": "C108",
   "status": "proved",
   "theorems": [
    "Fdapde.Geometry.C108_measure",
    "Fdapde.Geometry.C108_segment",
    "Fdapde.Geometry.C108_triangle",
    "Fdapde.Geometry.C108_cell",
    "Fdapde.Geometry.C108_mesh",
    "Fdapde.Geometry.C108_domain"
   ],
   "note": "Real arithmetic. The area of triangles in space is characterised by congruence with plane triangles."
  },
  {
   "property": "C109",
   "status": "partial",
   "theorems": [
    "Fdapde.PDE.C109_order_partial"
   ],
   "note": "When dof 0 is on the boundary (see C63_bug_dof_zero) and the factorization succeeds (C104_succeeds_partial). Real arithmetic."
  },
  {
   "property": "C110",
   "status": "partial",
   "theorems": [
    "Fdapde.PDE.C110_galerkin",
    "Fdapde.PDE.C110_solve_partial"
   ],
   "note": "Without restriction for the discrete problem; for what solve returns when dof 0 is on the boundary (see C62_bug_dof_zero). Eigen's SparseLU is exact by contract; exact arithmetic. Without the restriction on dof 0, for right values given there: C140_patch."
  },
  {
   "property": "C111",
   "status": "partial",
   "theorems": [
    "Fdapde.PDE.C111_nonneg",
    "Fdapde.PDE.C111_bounds",
    "Fdapde.PDE.C111_solve_partial",
    "Fdapde.PDE.C111_triangles",
    "Fdapde.PDE.C111_intervals"
   ],
   "note": "Without restriction for the discrete problem; for what solve returns when dof 0 is on the boundary (see C62_bug_dof_zero). Eigen's SparseLU is exact by contract; exact arithmetic. Without the restriction on dof 0, for right values given there: C140_maximum."
  },
  {
   "property": "C112",
   "status": "partial",
   "theorems": [
    "Fdapde.PDE.C112_best",
    "Fdapde.PDE.C112_interpolation",
    "Fdapde.PDE.C112_order",
    "Fdapde.PDE.C112_smooth",
    "Fdapde.PDE.C112_solve_partial",
    "Fdapde.PDE.C112_consistent",
    "Fdapde.PDE.C112_poisson_partial"
   ],
   "note": "Without restriction for the discrete problem; for what solve returns when dof 0 is on the boundary (see C62_bug_dof_zero). The error of the quadrature is proved for Lipschitz forcings; the weak equation of the exact solution and the constant of Friedrichs of the domain are hypotheses. Exact arithmetic, integrals are those of Lebesgue."
  },
  {
   "property": "C113",
   "status": "partial",
   "theorems": [
    "Fdapde.BinMtx.C113_row",
    "Fdapde.BinMtx.C113_col",
    "Fdapde.BinMtx.C113_vector_row_partial",
    "Fdapde.BinMtx.C113_bug_vector_row",
    "Fdapde.BinMtx.C113_block",
    "Fdapde.BinMtx.C113_edges",
    "Fdapde.BinMtx.C113_block_write",
    "Fdapde.BinMtx.C113_bug_block_write",
    "Fdapde.BinMtx.C113_dense_dynamic",
    "Fdapde.BinMtx.C113_dense_vector",
    "Fdapde.BinMtx.C113_dense_static_partial",
    "Fdapde.BinMtx.C113_bug_dense_static",
    "Fdapde.BinMtx.C113_bug_resize",
    "Fdapde.BinMtx.C113_resize_partial",
    "Fdapde.BinMtx.C113_static_mismatch",
    "Fdapde.BinMtx.C113_assign",
    "Fdapde.BinMtx.C113_assign_row",
    "Fdapde.BinMtx.C113_bug_matrix_to_vector",
    "Fdapde.BinMtx.C113_bug_vector_sizes"
   ],
   "note": "Views of matrices, blocks and edges, writes inside a block, dynamic targets and expressions of the same shape without restriction. The code contradicts the rest: rows of column vectors (C113_bug_vector_row), writes outside a block (C113_bug_block_write), dense sources of matrices with static sizes (C113_bug_dense_static), resize with one static size (C113_bug_resize), sources of another shape (C113_bug_matrix_to_vector, C113_bug_vector_sizes)."
  },
  {
   "property": "C114",
   "status": "proved",
   "theorems": [
    "Fdapde.Utils.C114_ranges",
    "Fdapde.Utils.C114_equal",
    "Fdapde.Utils.C114_last",
    "Fdapde.Utils.C114_pairs"
   ],
   "note": "std::size_t has 64 bits; std::hash is a parameter."
  },
  {
   "property": "C115",
   "status": "partial",
   "theorems": [
    "Fdapde.Triang.C115_cells_ends",
    "Fdapde.Triang.C115_cells_steps",
    "Fdapde.Triang.C115_cells_history",
    "Fdapde.Triang.C115_cells_backward",
    "Fdapde.Triang.C115_cells_forward",
    "Fdapde.Triang.C115_cells_jump",
    "Fdapde.Triang.C115_bug_plus",
    "Fdapde.Triang.C115_all_partial",
    "Fdapde.Triang.C115_bug_faces",
    "Fdapde.Triang.C115_bug_edges_end",
    "Fdapde.Triang.C115_bug_decrement",
    "Fdapde.Triang.C115_bug_backward"
   ],
   "note": "Cell iterators in both directions and jumps without restriction (except that it + i also moves it: C115_bug_plus); faces and edges of a 3D mesh forwards while the packs stored for the edges cover the faces. The code contradicts the rest: C115_bug_faces, C115_bug_edges_end, C115_bug_decrement, C115_bug_backward."
  },
  {
   "property": "C116",
   "status": "partial",
   "theorems": [
    "Fdapde.Mesh1D.C116_nodes",
    "Fdapde.Mesh1D.C116_locate_partial",
    "Fdapde.Mesh1D.C116_boundary",
    "Fdapde.Mesh1D.C116_boundary_cells",
    "Fdapde.Mesh1D.C116_segment",
    "Fdapde.Mesh1D.C116_bug_network_range"
   ],
   "note": "Nodes, boundary nodes and boundary cells without restriction; locate except at the right end (see C24_bug_last); the range of a network is refuted by C116_bug_network_range. Exact arithmetic."
  },
  {
   "property": "C117",
   "status": "partial",
   "theorems": [
    "Fdapde.PDE.C117_before_init",
    "Fdapde.PDE.C117_elliptic",
    "Fdapde.PDE.C117_parabolic",
    "Fdapde.PDE.C117_natural",
    "Fdapde.PDE.C117_galerkin_partial",
    "Fdapde.PDE.C117_again",
    "Fdapde.PDE.C117_bug_conditions_stay",
    "Fdapde.PDE.C117_bug_stale_solution",
    "Fdapde.PDE.C117_bug_more_columns"
   ],
   "note": "Which data a solve uses is settled for every history with boundary data (C117_elliptic, C117_parabolic) and without (C117_natural); that the solution is the Galerkin solution when dof 0 is on the boundary (see C62_bug_dof_zero). The code contradicts the property when boundary data are taken away (C117_bug_conditions_stay), when a factorization fails (C117_bug_stale_solution) and when the forcing gets more columns after init (C117_bug_more_columns). Exact arithmetic; the direct solver is a parameter."
  },
  {
   "property": "C118",
   "status": "partial",
   "theorems": [
    "Fdapde.IO.C118_name",
    "Fdapde.IO.C118_open",
    "Fdapde.IO.C118_gcs",
    "Fdapde.IO.C118_print_partial",
    "Fdapde.IO.C118_bug_trailing_slash",
    "Fdapde.IO.C118_bug_prj",
    "Fdapde.IO.C118_bug_file_size",
    "Fdapde.IO.C118_bug_no_fields",
    "Fdapde.IO.C118_bug_type_name",
    "Fdapde.IO.C118_bug_print_overflow"
   ],
   "note": "Names, paths and well-formed .prj files without restriction; printing but for the size. The code contradicts the rest: C118_bug_trailing_slash, C118_bug_prj, C118_bug_file_size, C118_bug_no_fields, C118_bug_type_name. std::size_t has 64 bits and strings are shorter than npos."
  },
  {
   "property": "C119",
   "status": "partial",
   "theorems": [
    "Fdapde.Fields.Dyn.C119_build",
    "Fdapde.Fields.Dyn.C119_scalar",
    "Fdapde.Fields.Dyn.C119_vector_partial",
    "Fdapde.Fields.Dyn.C119_vector_mismatch",
    "Fdapde.Fields.Dyn.C119_dot",
    "Fdapde.Fields.Dyn.C119_dot_const",
    "Fdapde.Fields.Dyn.C119_hessian",
    "Fdapde.Fields.Dyn.C119_matrix_partial",
    "Fdapde.Fields.Dyn.C119_coefficients_partial",
    "Fdapde.Fields.Dyn.C119_constants",
    "Fdapde.Fields.Dyn.C119_assign_range",
    "Fdapde.Fields.Dyn.C119_bug_store",
    "Fdapde.Fields.Dyn.C119_bug_callable",
    "Fdapde.Fields.Dyn.C119_bug_constant",
    "Fdapde.Fields.Dyn.C119_bug_dot_size",
    "Fdapde.Fields.Dyn.C119_bug_negation",
    "Fdapde.Fields.Dyn.C119_bug_from_list",
    "Fdapde.Fields.Dyn.C119_bug_from_expression",
    "Fdapde.Fields.Dyn.C119_bug_component",
    "Fdapde.Fields.Dyn.C119_bug_matrix_sum",
    "Fdapde.Fields.Dyn.C119_bug_matrix_vector"
   ],
   "note": "Scalar expressions, gradients and Hessians without restriction; sums, differences, multiples and dot products of vector fields; evaluation of matrix fields. The code contradicts the rest: sizes are lost when an expression or a callable is stored (C119_bug_store, C119_bug_callable, C119_bug_component), by constants and dot products (C119_bug_constant, C119_bug_dot_size), by negations (C119_bug_negation), by two constructors (C119_bug_from_list, C119_bug_from_expression) and by all operations on matrices (C119_bug_matrix_sum, C119_bug_matrix_vector). All sizes are Dynamic; exact arithmetic."
  },
  {
   "property": "C120",
   "status": "partial",
   "theorems": [
    "Fdapde.PDE.C120_assemble",
    "Fdapde.PDE.C120_form_partial",
    "Fdapde.PDE.C120_flag",
    "Fdapde.PDE.C120_missing",
    "Fdapde.PDE.C120_bug_closed_form",
    "Fdapde.PDE.C120_bug_function_of_data"
   ],
   "note": "The assembler equals the loop with fresh coefficients for every operator, coefficient expression, mesh and rule (C120_assemble); the bilinear form for operators with symmetric diffusion tensors or a transport term (see C60_bug_diffusion). The code contradicts the rest: coefficients given by formulas are evaluated on the reference element (C120_bug_closed_form), functions of sampled coefficients are frozen (C120_bug_function_of_data). Exact arithmetic."
  },
  {
   "property": "C121",
   "status": "partial",
   "theorems": [
    "Fdapde.Threads.C121_every_task_runs",
    "Fdapde.Threads.C121_shutdown_returns",
    "Fdapde.Threads.C121_sync_returns",
    "Fdapde.Threads.C121_bug_two_syncs",
    "Fdapde.Threads.C121_bug_sync_during_shutdown"
   ],
   "note": "Under a fair scheduler every task is executed (C121_every_task_runs, any number of clients), sync() returns with one client (C121_sync_returns) and shutdown() returns (C121_shutdown_returns). False for several clients: a second sync() may wait for ever (C121_bug_two_syncs), and a sync() during shutdown() never returns if a task is left (C121_bug_sync_during_shutdown). The claims are for a sequentially consistent memory, tasks that terminate and strong fairness of the mutexes."
  },
  {
   "property": "C122",
   "status": "partial",
   "theorems": [
    "Fdapde.Splines.C122_exact_partial",
    "Fdapde.Splines.C122_needs_nodes",
    "Fdapde.Splines.C122_bug_cubic_mass"
   ],
   "note": "For every rule which is exact for the degree of the integrand (C122_exact_partial, every order and knot vector). The code contradicts the rest: the default rule has three nodes for every order and no rule with three nodes is exact for degree 6 (C122_needs_nodes), hence the mass matrix of cubic splines is not the Gram matrix (C122_bug_cubic_mass). The decimal nodes of the library are themselves only accurate to 15 digits. Exact arithmetic."
  },
  {
   "property": "C123",
   "status": "proved",
   "theorems": [
    "Fdapde.FEM.C123_first_order",
    "Fdapde.FEM.C123_second_order",
    "Fdapde.FEM.C123_linear",
    "Fdapde.FEM.C123_quadratic"
   ],
   "note": "Order one for segments, triangles and tetrahedra in any embedding dimension; order two for triangles (the library does not compile order two elsewhere). The cell reported for a location is assumed to contain it (C43, C48, C93). Exact arithmetic."
  },
  {
   "property": "C124",
   "status": "partial",
   "theorems": [
    "Fdapde.Geometry.C124_history_partial",
    "Fdapde.Geometry.C124_bug_copy",
    "Fdapde.Geometry.C124_bug_move",
    "Fdapde.Geometry.C124_bug_self_assign",
    "Fdapde.Geometry.C124_locate_partial",
    "Fdapde.Geometry.C124_bug_reassigned",
    "Fdapde.Geometry.C124_bug_patch"
   ],
   "note": "For all programs in which a mesh that has been asked is not moved, and is not destroyed, moved or assigned while copies made of it afterwards are still used (C124_history_partial for any search, C124_locate_partial for triangulations with the tree search: locate and node_patch). The code contradicts the rest: the copy keeps the address of the original, so a copy that outlives it, a moved mesh and a self-assigned one are undefined (C124_bug_copy, C124_bug_move, C124_bug_self_assign), and a copy whose original is assigned another mesh answers for the wrong one (C124_bug_reassigned). Exact arithmetic, zero tolerance."
  },
  {
   "property": "C125",
   "status": "partial",
   "theorems": [
    "Fdapde.Triang.C125_boundary",
    "Fdapde.Triang.C125_frontier",
    "Fdapde.Triang.C125_triangle",
    "Fdapde.Triang.C125_tetrahedron",
    "Fdapde.Triang.C125_face_edges",
    "Fdapde.Triang.C125_tet_edges",
    "Fdapde.Triang.C125_unit_partial",
    "Fdapde.Triang.C125_bug_unit"
   ],
   "note": "Proved for all simplices and all manifold meshes of triangles and tetrahedra, except the unit simplex of a dimension less than that of the space, which writes out of the bounds of its coordinates (C125_bug_unit). neighbors()(j) is beyond edge(2-j) or face(3-j), not beyond edge(j) or face(j)."
  },
  {
   "property": "C126",
   "status": "partial",
   "theorems": [
    "Fdapde.PDE.C126_call_partial",
    "Fdapde.PDE.C126_bug_forcing_data",
    "Fdapde.PDE.C126_bug_setters",
    "Fdapde.PDE.C126_empty",
    "Fdapde.PDE.C126_program_partial",
    "Fdapde.PDE.C126_history"
   ],
   "note": "For all programs in which no wrapper is assigned to itself or called after a move, and what is passed to set_forcing and set_differential_operator has the type of the problem (C126_call_partial, C126_program_partial, C126_history). The code contradicts the rest: forcing_data() of a problem whose forcing is a field, and setters called with another type, are undefined behaviour (C126_bug_forcing_data, C126_bug_setters)."
  },
  {
   "property": "C127",
   "status": "partial",
   "theorems": [
    "Fdapde.Splines.C127_reproduces_partial",
    "Fdapde.Splines.C127_greville_partial",
    "Fdapde.Splines.C127_hull_partial",
    "Fdapde.Splines.C127_ends_partial",
    "Fdapde.Splines.C127_local_unique_partial",
    "Fdapde.Splines.C127_unique_partial"
   ],
   "note": "For every order and knot vector whose last span is not shorter than the tolerance of the code; without that the functions do not even sum to one (C49_bug_short_last_span). Marsden's identity by induction on the order, uniqueness by inverting the matrix between monomials and active functions. Exact arithmetic."
  },
  {
   "property": "C128",
   "status": "partial",
   "theorems": [
    "Fdapde.Splines.C128_smooth_partial",
    "Fdapde.Splines.C128_right_derivative_partial",
    "Fdapde.Splines.C128_expansion_partial",
    "Fdapde.Splines.C128_sharp"
   ],
   "note": "For every order and knot vector whose last span is not shorter than the tolerance of the code (C49_bug_short_last_span). Inner knots are simple because only the end knots are repeated. Exact arithmetic."
  },
  {
   "property": "C129",
   "status": "partial",
   "theorems": [
    "Fdapde.Splines.C129_mass_definite_partial",
    "Fdapde.Splines.C129_bug_singular_mass",
    "Fdapde.Splines.C129_cubic_definite_partial",
    "Fdapde.Splines.C129_penalty_kernel_partial",
    "Fdapde.Splines.C129_smoothing_partial",
    "Fdapde.Splines.C129_library_partial",
    "Fdapde.Splines.C129_bug_cubic_two_knots"
   ],
   "note": "With R + 1 nodes per span for the mass matrix and R - 1 for the penalty (C129_mass_definite_partial, C129_penalty_kernel_partial, C129_smoothing_partial); with the three nodes of the library for orders up to 2 and for cubic splines on at least three knots (C129_library_partial). The code contradicts the rest: with fewer nodes than functions, as for cubic splines on two knots, the mass matrix is singular (C129_bug_singular_mass, C129_bug_cubic_two_knots). The sign of the bilaplacian is that of C105_bug_sign. Exact arithmetic."
  },
  {
   "property": "C130",
   "status": "partial",
   "theorems": [
    "Fdapde.BinMtx.C130_text_partial",
    "Fdapde.BinMtx.C130_read_back_partial",
    "Fdapde.BinMtx.C130_bug_no_rows",
    "Fdapde.BinMtx.C130_select_sparse"
   ],
   "note": "The text is right for every expression with at least one row whose blocks are copied correctly (C07), and it determines the matrix; printing an expression with columns but no rows is undefined behaviour (C130_bug_no_rows), which refutes the last clause of the text part. The part on sparse selection is proved in full."
  },
  {
   "property": "C131",
   "status": "partial",
   "theorems": [
    "Fdapde.PDE.C131_manifold",
    "Fdapde.PDE.C131_first_order",
    "Fdapde.PDE.C131_second_order",
    "Fdapde.PDE.C131_solve_first_partial",
    "Fdapde.PDE.C131_solve_second_partial",
    "Fdapde.PDE.C131_patch_partial",
    "Fdapde.PDE.C131_maximum_partial"
   ],
   "note": "Assembly and hypotheses of the theory are proved in full from the geometry of the mesh (C131_manifold, C131_first_order, C131_second_order); the solution theorems need dof 0 on the boundary (C62_bug_dof_zero) and no bare number standing for an operator, and second order elements on surfaces need at most two cells at an edge, which in the plane is proved. Without the restriction on dof 0, for right values given there: C140_patch and C140_maximum."
  },
  {
   "property": "C132",
   "status": "partial",
   "theorems": [
    "Fdapde.PDE.C132_poisson_partial",
    "Fdapde.PDE.C132_order_partial"
   ],
   "note": "For -Laplacian and first order elements, the hypotheses concern the geometry of the mesh and the smoothness of the solution only (C112 without its hypotheses on the weak equation and on the constant of Friedrichs). Partial because dof 0 must be on the boundary (C62_bug_dof_zero) and the factorization is exact. Exact arithmetic; integrals are those of Lebesgue. In dimensions 2 and 3 the squared mean error of the values is bounded at first order, the second order one of the theory needs regularity of the dual problem, which is not modelled."
  },
  {
   "property": "C133",
   "status": "partial",
   "theorems": [
    "Fdapde.Optim.C133_rate_partial",
    "Fdapde.Optim.C133_returns",
    "Fdapde.Optim.C133_bfgs_partial",
    "Fdapde.Optim.C133_gradient_descent"
   ],
   "note": "Termination and rate are proved for every run (C133_returns, C133_rate_partial: geometric decrease with an explicit factor, number of iterations). Partial because BFGS gives back the point before the last one when the last one has exactly zero gradient (C66_bug_returns_old): the bound on the gradient holds otherwise. Exact arithmetic."
  },
  {
   "property": "C134",
   "status": "partial",
   "theorems": [
    "Fdapde.Splines.C134_relative_error_partial",
    "Fdapde.Splines.C134_outside",
    "Fdapde.Splines.C134_partition_partial",
    "Fdapde.Splines.C134_expansion_partial",
    "Fdapde.Splines.C134_derivative_partial",
    "Fdapde.Splines.C134_binary64_partial"
   ],
   "note": "Rounding is any monotone odd map of bounded relative error, of which binary64 round-to-nearest-even with unbounded exponent is proved to be one (Float/Round.lean); knots, points and coefficients are exact. Partial because the last span must not be shorter than the tolerance (as in C49: near the last knot the code is wrong otherwise) and because overflow and underflow are not modelled."
  },
  {
   "property": "C135",
   "status": "proved",
   "theorems": [
    "Fdapde.Geometry.C135_candidates",
    "Fdapde.Geometry.C135_bary",
    "Fdapde.Geometry.C135_locate",
    "Fdapde.Geometry.C135_all_locate"
   ],
   "note": "Binary64 rounding with unbounded exponent. No cell is lost by the box search (C135_candidates), for every mesh of positive extent; the statement on locate is for cells of full dimension, the stored inverse of the Jacobian is arbitrary and its error enters the bound."
  },
  {
   "property": "C136",
   "status": "proved",
   "theorems": [
    "Fdapde.Quadrature.C136_mesh",
    "Fdapde.Quadrature.C136_relative",
    "Fdapde.Quadrature.C136_cell",
    "Fdapde.Quadrature.C136_interval"
   ],
   "note": "Every rounding of bounded relative error, rounded weights, any error of the values of the integrand. Overflow and underflow are not modelled: such roundings are not of bounded relative error."
  },
  {
   "property": "C137",
   "status": "partial",
   "theorems": [
    "Fdapde.BinMtx.C137_expressions_partial",
    "Fdapde.BinMtx.C137_visits_partial",
    "Fdapde.BinMtx.C137_writes",
    "Fdapde.BinMtx.C137_rejected",
    "Fdapde.BinMtx.C137_bug_constructor",
    "Fdapde.BinMtx.C137_bug_count",
    "Fdapde.BinMtx.C137_bug_any"
   ],
   "note": "Every int of the code is checked (BinMtx/IntModel.lean): below 2^31 - 64 coefficients nothing overflows and the results are those of the unbounded model. Partial because count and any overflow for every larger matrix (C137_bug_count, C137_bug_any), and because the constructor multiplies rows and columns in an int without a check (C137_bug_constructor)."
  },
  {
   "property": "C138",
   "status": "partial",
   "theorems": [
    "Fdapde.PDE.C138_heat_partial",
    "Fdapde.PDE.C138_order_partial"
   ],
   "note": "For dt - Laplacian and first order elements, under hypotheses on the geometry of the mesh and the smoothness of the solution only; no relation between time step and size of the cells. Partial as C132: dof 0 must be on the boundary (C62_bug_dof_zero, C63_bug_dof_zero) and the factorization is exact. Exact arithmetic. In space the order is one, the second order of the theory needs regularity of the dual problem, which is not modelled."
  },
  {
   "property": "C139",
   "status": "partial",
   "theorems": [
    "Fdapde.PDE.C139_elliptic_partial",
    "Fdapde.PDE.C139_order_partial",
    "Fdapde.PDE.C139_operators"
   ],
   "note": "For every operator that is a sum of a diffusion with minus sign, a transport and a reaction, with coefficients carrying the values of functions at the quadrature nodes; the smallest eigenvalue of the diffusion must exceed the length of the transport times the width of the domain plus the negative part of the reaction times the square of the width (for larger transport the theory needs small cells relative to the coefficients, not modelled). Diffusion tensors symmetric unless there is a transport term. Partial as C132: dof 0 must be on the boundary (C62_bug_dof_zero) and the factorization is exact. Exact arithmetic."
  },
  {
   "property": "C140",
   "status": "proved",
   "theorems": [
    "Fdapde.PDE.C140_elliptic",
    "Fdapde.PDE.C140_parabolic",
    "Fdapde.PDE.C140_galerkin",
    "Fdapde.PDE.C140_solve",
    "Fdapde.PDE.C140_right_value",
    "Fdapde.PDE.C140_wrong_value",
    "Fdapde.PDE.C140_poisson_order",
    "Fdapde.PDE.C140_elliptic_order",
    "Fdapde.PDE.C140_heat_order",
    "Fdapde.PDE.C140_error",
    "Fdapde.PDE.C140_parabolic_galerkin",
    "Fdapde.PDE.C140_stable",
    "Fdapde.PDE.C140_patch",
    "Fdapde.PDE.C140_maximum",
    "Fdapde.PDE.C140_maximum_time_triangles",
    "Fdapde.PDE.C140_maximum_time_intervals",
    "Fdapde.PDE.C140_parabolic_order",
    "Fdapde.PDE.C140_inexact_elliptic",
    "Fdapde.PDE.C140_inexact_parabolic",
    "Fdapde.PDE.C140_elliptic_rounded",
    "Fdapde.PDE.C140_parabolic_rounded",
    "Fdapde.PDE.C140_rounding_elliptic",
    "Fdapde.PDE.C140_rounding_parabolic",
    "Fdapde.PDE.C140_quadratic_order"
   ],
   "note": "Equality of outcomes for every linear solver, also when the factorization fails, in exact arithmetic (C140_elliptic, C140_parabolic) and in floating point with any rounding (C140_elliptic_rounded, C140_parabolic_rounded). The corollaries remove the restriction on dof 0 from C102, C103, C132, C138, C139, C142, C143, C146, C147, C151 and C152 at the price of a hypothesis on the value given at dof 0. C140_error gives the error exactly: the value given at dof 0 minus the right one, times a fixed function; C140_parabolic_galerkin and C140_stable remove the restriction from the parabolic part of C102 and from C104."
  },
  {
   "property": "C141",
   "status": "partial",
   "theorems": [
    "Fdapde.LinAlg.C141_history_partial",
    "Fdapde.LinAlg.C141_last_write",
    "Fdapde.LinAlg.C141_bug_resize",
    "Fdapde.LinAlg.C141_poke_outside",
    "Fdapde.LinAlg.C141_bug_default",
    "Fdapde.LinAlg.C141_default"
   ],
   "note": "For every history in which a block is only replaced by a matrix of its size. The code contradicts the rest: a block of another size is accepted and leaves dimensions and offsets as they were (C141_bug_resize), block() of a default constructed matrix subscripts an empty vector (C141_bug_default). Sparse storage of the blocks is modelled by their coefficients."
  },
  {
   "property": "C142",
   "status": "partial",
   "theorems": [
    "Fdapde.PDE.C142_parabolic_partial",
    "Fdapde.PDE.C142_order_partial",
    "Fdapde.PDE.C142_operators"
   ],
   "note": "For every operator that is a sum of the derivative in time, a diffusion with minus sign, a transport and a reaction, with coefficients carrying the values of functions at the quadrature nodes; explicit bounds (C142_parabolic_partial) and order (C142_order_partial). Diffusion tensors symmetric unless there is a transport term. Partial as C138: dof 0 must be on the boundary (C62_bug_dof_zero, C63_bug_dof_zero) and the factorization is exact. Exact arithmetic. Dof 0 may be anywhere when the datum given there is the value of the solution (C140_parabolic_order)."
  },
  {
   "property": "C143",
   "status": "partial",
   "theorems": [
    "Fdapde.PDE.C143_poisson_partial",
    "Fdapde.PDE.C143_order_partial"
   ],
   "note": "Explicit bounds (C143_poisson_partial) and order (C143_order_partial), under hypotheses on the geometry of the mesh and the smoothness of the solution only; the defect of the stored quadrature rule is in the bound. Partial as C132: dof 0 must be on the boundary (C62_bug_dof_zero) and the factorization is exact. Exact arithmetic. The order of the values is that of the gradient: one more power of h needs regularity of the dual problem, which is not modelled. Dof 0 may be anywhere when the datum given there is the value of the solution (C140_quadratic_order)."
  },
  {
   "property": "C144",
   "status": "partial",
   "theorems": [
    "Fdapde.BinTree.C144_histories_partial",
    "Fdapde.BinTree.C144_no_leak_partial",
    "Fdapde.BinTree.C144_bug_self_assign",
    "Fdapde.BinTree.C144_bug_copy_empty",
    "Fdapde.BinTree.C144_bug_parent"
   ],
   "note": "Nodes live in a heap with deletion; all programs over any number of trees, except those that copy an empty tree (the library throws, C144_bug_copy_empty) or assign a tree to itself by copy (undefined behaviour, C144_bug_self_assign). erase below the root is excluded as well (C14). Addresses are not reused. Parent pointers are not part of the value: they dangle after a move (C144_bug_parent), and the library never reads them."
  },
  {
   "property": "C145",
   "status": "partial",
   "theorems": [
    "Fdapde.Threads.C145_race_free_partial",
    "Fdapde.Threads.C145_argument_visible",
    "Fdapde.Threads.C145_result_visible",
    "Fdapde.Threads.C145_bug_sync",
    "Fdapde.Threads.C145_bug_sync_result",
    "Fdapde.Threads.C145_bug_sync_queue",
    "Fdapde.Threads.C145_bug_shutdown"
   ],
   "note": "Every reachable state of a model that records each access and each synchronisation of any number of workers and clients. Partial: for clients that keep to the stated rules. Without them there are races, each shown by an execution: sync() against the workers (C145_bug_sync), against another client (C145_bug_sync_queue), results read after sync() (C145_bug_sync_result), shutdown() while a task is being taken (C145_bug_shutdown). The destruction of a task's copies of its arguments by the worker is not recorded."
  },
  {
   "property": "C146",
   "status": "partial",
   "theorems": [
    "Fdapde.PDE.C146_residual_partial",
    "Fdapde.PDE.C146_elliptic_partial",
    "Fdapde.PDE.C146_order_partial"
   ],
   "note": "Any linear solver whose residual in each equation is at most ε times the sum of the absolute values of its terms and that factorizes every non-singular matrix. Partial as C139 (dof 0 on the boundary, see C62_bug_dof_zero); the assembly of the system is exact here, its rounding is the subject of C151; the bound refers to the largest computed nodal value. Dof 0 may be anywhere when the datum given there is the value of the solution (C140_inexact_elliptic)."
  },
  {
   "property": "C147",
   "status": "partial",
   "theorems": [
    "Fdapde.PDE.C147_residual_partial",
    "Fdapde.PDE.C147_rounding_partial",
    "Fdapde.PDE.C147_parabolic_partial",
    "Fdapde.PDE.C147_order_partial"
   ],
   "note": "Any linear solver whose residual in each equation of each step is at most ε times the sum of the absolute values of its terms and that factorizes every non-singular matrix. Partial as C142 (dof 0 on the boundary, see C62_bug_dof_zero); the assembly and the right hand sides of the steps are exact here, C152 rounds them as well; the bound refers to the largest computed nodal value. Dof 0 may be anywhere when the datum given there is the value of the solution (C140_inexact_parabolic)."
  },
  {
   "property": "C148",
   "status": "partial",
   "theorems": [
    "Fdapde.Optim.Flt.C148_backtracking_returns",
    "Fdapde.Optim.Flt.C148_backtracking_first",
    "Fdapde.Optim.Flt.C148_wolfe_partial",
    "Fdapde.Optim.Flt.C148_gradient_descent_returns",
    "Fdapde.Optim.Flt.C148_backtracking_decrease_partial",
    "Fdapde.Optim.Flt.C148_wolfe_decrease_partial",
    "Fdapde.Optim.Flt.C148_bug_nan",
    "Fdapde.Optim.Flt.C148_bug_backtracking_hangs",
    "Fdapde.Optim.Flt.C148_bug_wolfe_hangs"
   ],
   "note": "binary64 with gradual underflow, infinities and NaN (Float/Ieee.lean); the two zeros are not told apart and no operation is contracted. Partial because the code contradicts the rest: a step to a point where objective and gradient are NaN is accepted (C148_bug_nan), backtracking never returns with factors from 3/4 on (C148_bug_backtracking_hangs), the Wolfe search never returns near the minimum of 1 + v^2 with the default parameters (C148_bug_wolfe_hangs). The slope must be finite for the decrease."
  },
  {
   "property": "C149",
   "status": "partial",
   "theorems": [
    "Fdapde.Optim.Flt.C149_grid_partial",
    "Fdapde.Optim.Flt.C149_bug_grid",
    "Fdapde.Optim.Flt.C149_descent_partial",
    "Fdapde.Optim.Flt.C149_bug_gradient_descent"
   ],
   "note": "Doubles as in C148. Grid search when the first value is a number; gradient descent when the objective is a number everywhere and the computed slopes are finite and less than zero. The code contradicts the rest: a grid whose first value is NaN (C149_bug_grid), gradient descent that leaves the domain of the objective with the first step (C149_bug_gradient_descent)."
  },
  {
   "property": "C150",
   "status": "partial",
   "theorems": [
    "Fdapde.Geometry.C150_locate_partial",
    "Fdapde.Geometry.C150_all_locate_partial",
    "Fdapde.Geometry.C150_first_vertex",
    "Fdapde.Geometry.C150_bug_vertex",
    "Fdapde.Geometry.C150_bug_interior"
   ],
   "note": "binary64 to nearest even without overflow or underflow, operations not contracted, Eigen's closed formula for the inverse of a matrix with two rows. Proved for cells that are wide at their first vertex (10 + 6 rho <= 18.9 sin alpha, alpha the angle and rho the ratio of the sides there). For other cells the code contradicts the claim: a node of the mesh (C150_bug_vertex) and a point in the interior of the domain (C150_bug_interior) are not found."
  },
  {
   "property": "C151",
   "status": "partial",
   "theorems": [
    "Fdapde.PDE.C151_assembly",
    "Fdapde.PDE.C151_residual_partial",
    "Fdapde.PDE.C151_elliptic_partial",
    "Fdapde.PDE.C151_triangles",
    "Fdapde.PDE.C151_elliptic_triangles_partial",
    "Fdapde.PDE.C151_tetrahedra",
    "Fdapde.PDE.C151_intervals",
    "Fdapde.PDE.C151_elliptic_intervals_partial",
    "Fdapde.PDE.C151_elliptic_tetrahedra_partial"
   ],
   "note": "Roundings with relative error (no overflow, no underflow), operations not contracted, sums in any order and grouping. C151_assembly holds for every operator tree, any elements and any computed data of the cells; C151_intervals, C151_triangles and C151_tetrahedra show that what the program computes from the coordinates of intervals, planar triangles and tetrahedra of first order is such data, the values of the reference basis being given up to kb roundings. The bounds of the solve are partial as C139 and C146 (dof 0 on the boundary; the bound refers to the largest computed nodal value); they are not derived for surfaces, linear networks and second order elements unless the errors of the data are given, nor for coefficients that were rounded before. Time stepping is C152. Dof 0 may be anywhere when the datum given there is the value of the solution (C140_rounding_elliptic)."
  },
  {
   "property": "C152",
   "status": "partial",
   "theorems": [
    "Fdapde.PDE.C152_parabolic_intervals_partial",
    "Fdapde.PDE.C152_parabolic_tetrahedra_partial",
    "Fdapde.PDE.C152_residual_partial",
    "Fdapde.PDE.C152_rounding_partial",
    "Fdapde.PDE.C152_parabolic_partial",
    "Fdapde.PDE.C152_parabolic_triangles_partial"
   ],
   "note": "Roundings with relative error (no overflow, no underflow), operations not contracted, sums in any order and grouping. Partial as C142 and C147 (dof 0 on the boundary, see C62_bug_dof_zero; the bound refers to the largest computed nodal value); the instants and the data of the problem (forcing, boundary and initial values, coefficients) are those of the equation, not rounded versions of them; the data of the cells is derived from the coordinates for intervals, planar triangles and tetrahedra of first order, for other cells its errors are hypotheses. Dof 0 may be anywhere when the datum given there is the value of the solution (C140_rounding_parabolic)."
  },
  {
   "property": "C153",
   "status": "partial",
   "theorems": [
    "Fdapde.Geometry.Dp.C153_interval_partial",
    "Fdapde.Geometry.Dp.C153_bug_interval",
    "Fdapde.Geometry.Dp.C153_bug_contains",
    "Fdapde.Geometry.Dp.C153_tree_returns",
    "Fdapde.Geometry.Dp.C153_tree_infinite_partial",
    "Fdapde.Geometry.Dp.C153_bug_tree",
    "Fdapde.Geometry.Dp.C153_bug_walk",
    "Fdapde.Geometry.Dp.C153_bug_nearest",
    "Fdapde.Geometry.Dp.C153_bug_infinite"
   ],
   "note": "Proved for every input: locate on triangulations ends, without undefined behaviour, with -1 or a cell whose contains() accepts the location (C153_tree_returns); infinite coordinates give -1 on triangulations (C153_tree_infinite_partial; sides of the bounding box between 2^-1022 and 2^1022) and on intervals. False for NaN: locate never returns on any interval mesh, and returns a cell on every triangulation, with the tree and with the walk; contains() says INSIDE for every cell; the nearest neighbour search returns an iterator to no node of the tree or dereferences a null pointer. False for infinite coordinates in contains() and in the walk (C153_bug_infinite)."
  },
  {
   "property": "C154",
   "status": "partial",
   "theorems": [
    "Fdapde.Fields.C154_gradient",
    "Fdapde.Fields.C154_diagonal",
    "Fdapde.Fields.C154_mixed",
    "Fdapde.Fields.C154_gradient_rounded",
    "Fdapde.Fields.C154_diagonal_rounded",
    "Fdapde.Fields.C154_mixed_rounded",
    "Fdapde.Fields.C154_bug_large"
   ],
   "note": "Exact arithmetic: C154_gradient, C154_mixed (order two), C154_diagonal (order four), with explicit constants. Floating point: C154_gradient_rounded, C154_mixed_rounded, C154_diagonal_rounded for any rounding with a relative error (no overflow or underflow). The last part of the statement is false: the step is absolute, so that at coordinates of size 2^46 and more every derivative is computed to be zero (C154_bug_large)."
  },
  {
   "property": "C155",
   "status": "proved",
   "theorems": [
    "Fdapde.Geometry.C155_tables",
    "Fdapde.Geometry.C155_load",
    "Fdapde.Geometry.C155_cell",
    "Fdapde.Geometry.C155_mesh",
    "Fdapde.Geometry.C155_refine",
    "Fdapde.Geometry.C155_digits",
    "Fdapde.Geometry.C155_forcing"
   ],
   "note": "All tables; meshes whose cells have disjoint interiors and are not flat; derivatives bounded on the domain. C155_digits shows that the 1e-14 of the printed digits cannot be dropped. Rounding of the sums is not in this property."
  },
  {
   "property": "C156",
   "status": "partial",
   "theorems": [
    "Fdapde.Optim.Objects.C156_fresh",
    "Fdapde.Optim.Objects.C156_model",
    "Fdapde.Optim.Objects.C156_ledger",
    "Fdapde.Optim.Objects.C156_history_partial",
    "Fdapde.Optim.Objects.C156_bug_copy",
    "Fdapde.Optim.Objects.C156_bug_assign",
    "Fdapde.Optim.Objects.C156_bug_wrapper",
    "Fdapde.Optim.Objects.C156_bug_default",
    "Fdapde.Optim.Objects.C156_bug_argument"
   ],
   "note": "Proved for every program: what optimize finds does not depend on the history of the object (C156_fresh), every program sees what it would see with objects that hold parameters and the result of their last call, except that copies have no result and assignments do not transfer it (C156_ledger); programs that ask for results only after a call of optimize that follows the last copy or assignment see values (C156_history_partial). Copies, assignments and wrappers lose the results: value() and optimum() of a copy read memory that was never written (C156_bug_copy, C156_bug_wrapper), those of an assigned object are its old ones (C156_bug_assign). Default constructed optimizers and wrappers called with a start of another type are undefined."
  },
  {
   "property": "C157",
   "status": "partial",
   "theorems": [
    "Fdapde.IO.C157_dense_any",
    "Fdapde.IO.C157_texts",
    "Fdapde.IO.C157_bug_blank_line",
    "Fdapde.IO.C157_number",
    "Fdapde.IO.C157_digitText",
    "Fdapde.IO.C157_scientific",
    "Fdapde.IO.C157_digits",
    "Fdapde.IO.C157_write17",
    "Fdapde.IO.C157_file",
    "Fdapde.IO.C157_bug_word",
    "Fdapde.IO.C157_bug_infinite",
    "Fdapde.IO.C157_bug_overflow",
    "Fdapde.IO.C157_bug_digits",
    "Fdapde.IO.C157_index"
   ],
   "note": "Proved: the outcome for every text (C157_dense_any, C157_texts), with undefined behaviour for lines longer than the first; the value of decimal numbers; every finite double written with 17 digits is read back (C157_digits, C157_write17), and so are matrices of finite doubles and not-a-numbers (C157_file); indices of 64 bits. False for infinite values, which are read as 0 (C157_bug_infinite), for other words, which are 0 and not missing (C157_bug_word), for numbers out of range, and for blank lines, which give rows that are not written. The conversion by operator>> is that of the standard library, modelled from its specification."
  },
  {
   "property": "C158",
   "status": "partial",
   "theorems": [
    "Fdapde.Splines.C158_order_partial",
    "Fdapde.Splines.C158_greville_partial",
    "Fdapde.Splines.C158_dense_partial",
    "Fdapde.Splines.C158_monotone_partial",
    "Fdapde.Splines.C158_convex_partial"
   ],
   "note": "Proved for all orders and knots, in real arithmetic, when the last span is not shorter than the tolerance (without it the values at the end of the interval are wrong: C50_bug_*, C51_bug_short_last_span): the order of approximation, with its constant, of the values and of the derivatives (C158_order_partial), the error with the values at the Greville abscissae (C158_greville_partial), density in the continuous functions (C158_dense_partial), monotone (C158_monotone_partial) and convex (C158_convex_partial) splines. Missing: rounding."
  },
  {
   "property": "C159",
   "status": "partial",
   "theorems": [
    "Fdapde.Triang.C159_edges_listed",
    "Fdapde.Triang.C159_faces_listed",
    "Fdapde.Triang.C159_count2",
    "Fdapde.Triang.C159_count3",
    "Fdapde.Triang.C159_boundary_curves",
    "Fdapde.Triang.C159_boundary_surface",
    "Fdapde.Triang.C159_surface_closed",
    "Fdapde.Triang.C159_surface_call_partial"
   ],
   "note": "Proved for every table of cells with distinct nodes: how often every edge and face is listed and marked (C159_edges_listed, C159_faces_listed), the counts (C159_count2, C159_count3), boundaries that meet every node, respectively pair of nodes, an even number of times (C159_boundary_curves, C159_boundary_surface), surfaces without boundary (C159_surface_closed). The call surface() itself is undefined when the last face is on the boundary (C99), so that C159_surface_call_partial assumes that it is not."
  },
  {
   "property": "C160",
   "status": "partial",
   "theorems": [
    "Fdapde.PDE.C160_mesh_triangles_partial",
    "Fdapde.PDE.C160_mesh_intervals_partial",
    "Fdapde.PDE.C160_step_nonneg",
    "Fdapde.PDE.C160_solve_partial",
    "Fdapde.PDE.C160_condition",
    "Fdapde.PDE.C160_triangles",
    "Fdapde.PDE.C160_intervals",
    "Fdapde.PDE.C160_bug_small_step"
   ],
   "note": "Proved for diffusions and first order elements in every dimension (C160_step_nonneg, C160_solve_partial), with the condition on the step in terms of the gradients (C160_condition), of the coordinates for triangles (C160_triangles) and intervals (C160_intervals), and on meshes with hypotheses on nodes, cells and step only (C160_mesh_triangles_partial, C160_mesh_intervals_partial). Without the condition it is false: a rod heated at one end gets colder than all the data (C160_bug_small_step). Partial because dof 0 must be on the boundary (C63_bug_dof_zero) and the factorization is exact. Exact arithmetic. Without the restriction on dof 0, for right values given there: C140_maximum_time_triangles and C140_maximum_time_intervals."
  },
  {
   "property": "C161",
   "status": "partial",
   "theorems": [
    "Fdapde.Splines.C161_fit_partial",
    "Fdapde.Splines.C161_lines_partial",
    "Fdapde.Splines.C161_residuals_partial",
    "Fdapde.Splines.C161_monotone_partial",
    "Fdapde.Splines.C161_stable_partial",
    "Fdapde.Splines.C161_accuracy_partial"
   ],
   "note": "The program of the user is in SmoothingSpec.lean. Minimum and uniqueness (C161_fit_partial), lines (C161_lines_partial), residuals (C161_residuals_partial), dependence on lambda (C161_monotone_partial) and on the data (C161_stable_partial), accuracy (C161_accuracy_partial). Partial because the factorization is exact, the last span must not be shorter than the tolerance, and the penalty is a quadrature sum (exact for order 2 to 4 up to the digits of the rule); the penalty is that of the negated bilaplacian because of C105_bug_sign. Exact arithmetic. Floating point: C170_smoothing_partial."
  },
  {
   "property": "C162",
   "status": "partial",
   "theorems": [
    "Fdapde.PDE.C162_fit_partial",
    "Fdapde.PDE.C162_exact_partial",
    "Fdapde.PDE.C162_residuals_partial",
    "Fdapde.PDE.C162_monotone_partial",
    "Fdapde.PDE.C162_stable_partial",
    "Fdapde.PDE.C162_interpolates_partial",
    "Fdapde.PDE.C162_mesh_partial",
    "Fdapde.PDE.C162_mesh_constants_partial",
    "Fdapde.PDE.C162_mesh_residuals_partial",
    "Fdapde.PDE.C162_quadratic_partial",
    "Fdapde.PDE.C162_quadratic_constants_partial",
    "Fdapde.PDE.C162_quadratic_residuals_partial"
   ],
   "note": "Exact factorization and real arithmetic; first order elements for the mesh versions in all dimensions, second order ones on triangles (C162_quadratic_partial and following), any Lagrangian element of the library but quadratic tetrahedra for the general ones (C162_fit_partial and following, on FitData)."
  },
  {
   "property": "C163",
   "status": "partial",
   "theorems": [
    "Fdapde.KDTree.C163_height_partial",
    "Fdapde.KDTree.C163_bug_repeated",
    "Fdapde.KDTree.C163_bug_split"
   ],
   "note": "Minimal height proved for points of the line with distinct coordinates, for every size and every nth_element within its contract. Shown false of the code for repeated points (a list of height n for every n) and in the plane (12 points get height 5 instead of 4)."
  },
  {
   "property": "C164",
   "status": "partial",
   "theorems": [
    "Fdapde.PDE.C164_quadratic_partial",
    "Fdapde.PDE.C164_quadratic_recovers_partial",
    "Fdapde.PDE.C164_monotone_partial",
    "Fdapde.PDE.C164_stable_partial",
    "Fdapde.PDE.C164_fit_partial",
    "Fdapde.PDE.C164_exact_partial",
    "Fdapde.PDE.C164_orthogonal_partial",
    "Fdapde.PDE.C164_equivariant_partial",
    "Fdapde.PDE.C164_intercept",
    "Fdapde.PDE.C164_mesh_partial",
    "Fdapde.PDE.C164_mesh_recovers_partial"
   ],
   "note": "Exact factorizations and real arithmetic; the program of the user is in SemiSpec.lean. First order elements for the mesh versions in all dimensions, second order ones on triangles (C164_quadratic_partial, C164_quadratic_recovers_partial), any problem with FitData for the general ones (C164_fit_partial, C164_exact_partial, C164_orthogonal_partial, C164_equivariant_partial, C164_monotone_partial, C164_stable_partial). C164_intercept shows why the covariates must be independent of the constant. Inexact solvers: C168_covariates_partial. Floating point: C169_covariates."
  },
  {
   "property": "C165",
   "status": "partial",
   "theorems": [
    "Fdapde.PDE.C165_quadratic_partial",
    "Fdapde.PDE.C165_quadratic_residuals_partial",
    "Fdapde.PDE.C165_monotone_partial",
    "Fdapde.PDE.C165_stable_partial",
    "Fdapde.PDE.C165_fit_partial",
    "Fdapde.PDE.C165_exact_partial",
    "Fdapde.PDE.C165_residuals_partial",
    "Fdapde.PDE.C165_mesh_partial",
    "Fdapde.PDE.C165_mesh_lines_partial",
    "Fdapde.PDE.C165_mesh_residuals_partial"
   ],
   "note": "Exact factorization, real arithmetic, no forcing; the program of the user is in SpaceTimeSpec.lean. The mass matrix in time must be definite (more than R nodes per span, or the rule of the library with cubic splines on three knots or more: C129_bug_cubic_two_knots shows why). First order elements for the mesh versions in all dimensions, second order ones on triangles (C165_quadratic_partial, C165_quadratic_residuals_partial), any problem with FitData for the general ones (C165_fit_partial, C165_exact_partial, C165_residuals_partial, C165_monotone_partial, C165_stable_partial)."
  },
  {
   "property": "C166",
   "status": "partial",
   "theorems": [
    "Fdapde.BinMtx.C166_programs",
    "Fdapde.BinMtx.C166_tables_partial",
    "Fdapde.BinMtx.C166_stored",
    "Fdapde.BinMtx.C166_bug_block",
    "Fdapde.BinMtx.C166_bug_repeat",
    "Fdapde.BinMtx.C166_bug_rows",
    "Fdapde.BinMtx.C166_bug_overlap",
    "Fdapde.BinMtx.C166_bug_stored"
   ],
   "note": "C166_programs: every program in which no statement overwrites a matrix it reads through a block or a repetition behaves as if right-hand sides were evaluated first; C166_tables_partial gives its meaning on Boolean tables (blocks must be copyable, see C07). Shown false of the code for blocks and repetitions of the destination (wrong coefficients, or reads out of the storage) and for overlapping blocks. Matrices with static sizes are not in the program model."
  },
  {
   "property": "C167",
   "status": "proved",
   "theorems": [
    "Fdapde.LinAlg.C167_kronecker",
    "Fdapde.LinAlg.C167_lump_dense",
    "Fdapde.LinAlg.C167_lump_sparse",
    "Fdapde.LinAlg.C167_smw",
    "Fdapde.LinAlg.C167_smw_limit"
   ],
   "note": "C167_kronecker, C167_lump_dense, C167_lump_sparse and C167_smw, for every rounding of bounded relative error (no overflow, no underflow, no fused multiply-additions) and every order of summation; the sparse and dense solvers are any functions of bounded relative backward error at the matrices they are used with. C167_smw_limit: the number in the bound is needed, a system with A + U C V = 1 may be solved with any error when A is small."
  },
  {
   "property": "C168",
   "status": "partial",
   "theorems": [
    "Fdapde.PDE.C168_smoothing_partial",
    "Fdapde.PDE.C168_spatial_partial",
    "Fdapde.PDE.C168_space_time_partial",
    "Fdapde.PDE.C168_mesh_partial",
    "Fdapde.PDE.C168_quadratic_partial",
    "Fdapde.PDE.C168_covariates_partial",
    "Fdapde.PDE.C168_covariates_mesh_partial",
    "Fdapde.PDE.C168_covariates_quadratic_partial"
   ],
   "note": "C168_smoothing_partial (splines), C168_spatial_partial (any problem with FitData), C168_mesh_partial (first order elements, at every point of the domain), C168_space_time_partial. Partial because the matrices and right hand sides are exact: only the solution of the linear systems has errors. Solvers with errors exist (exists_inflatedLU). C168_quadratic_partial: second order elements on triangles, at every point of the domain. C168_covariates_partial and C168_covariates_mesh_partial: covariates, with errors in the sparse and in the dense solves of the Sherman-Morrison-Woodbury formula, whose small matrix is itself computed with errors. C168_covariates_quadratic_partial: covariates with second order elements on triangles. Rounded matrices: C169."
  },
  {
   "property": "C169",
   "status": "proved",
   "theorems": [
    "Fdapde.PDE.C169_regression",
    "Fdapde.PDE.C169_mesh",
    "Fdapde.PDE.C169_intervals",
    "Fdapde.PDE.C169_triangles",
    "Fdapde.PDE.C169_tetrahedra",
    "Fdapde.PDE.C169_covariates",
    "Fdapde.PDE.C169_covariates_mesh",
    "Fdapde.PDE.C169_covariates_intervals",
    "Fdapde.PDE.C169_covariates_triangles",
    "Fdapde.PDE.C169_covariates_tetrahedra"
   ],
   "note": "Roundings with relative error (no overflow, no underflow), operations not contracted, sums in any order and grouping. C169_regression: any elements and any computed data of the cells; C169_mesh: piecewise affine functions at every point of the domain; C169_intervals, C169_triangles and C169_tetrahedra: measures, gradients and values of the basis as computed from the coordinates, the coefficients and values of the reference basis being given up to kb roundings. The location of the points is exact (the hypothesis Located says that each point lies in the cell found for it), the values of the forcing and of the coefficients of the operator are those of the problem. C169_covariates, C169_covariates_mesh, C169_covariates_intervals, C169_covariates_triangles and C169_covariates_tetrahedra: the same with covariates, through the formula of Sherman, Morrison and Woodbury with every product and difference rounded. Exact solver and arithmetic: C162 and, with covariates, C164, which say that the exact result is the minimizer."
  },
  {
   "property": "C170",
   "status": "partial",
   "theorems": [
    "Fdapde.PDE.C170_optimal_partial",
    "Fdapde.PDE.C170_smoothing_partial",
    "Fdapde.PDE.C170_lines_partial",
    "Fdapde.PDE.C170_matrices_partial"
   ],
   "note": "C170_smoothing_partial; C170_lines_partial: data on a line are reproduced up to such errors; C170_optimal_partial: the penalized sum of squares of the computed spline exceeds the minimum by at most C times the square of such an error; C170_matrices_partial: the entries of the matrices of the solver, for all operators with Lipschitz coefficients (evaluated exactly at the computed nodes). Missing: the last span shorter than the tolerance (as in C49), overflow and underflow. Roundings with relative error, operations not contracted, sums of products in any order and grouping, the tolerance of the library a number of the arithmetic; the tables of the quadrature rule hold the rounded nodes and weights. The number C is not explicit. Exact arithmetic: C161, which says that the exact result is the minimizer; inexact solvers only: C168_smoothing_partial; values of the basis alone: C134."
  }
 ]
}