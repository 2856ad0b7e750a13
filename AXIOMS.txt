# Axioms each property theorem depends on (output of #print axioms)
Fdapde.BinMtx.C01_history                            propext, Classical.choice, Quot.sound
Fdapde.BinMtx.C01_set_other                          propext, Classical.choice, Quot.sound
Fdapde.BinMtx.C01_bug_negative_index                 propext, Quot.sound
Fdapde.BinMtx.C01_ones                               propext, Classical.choice, Quot.sound
Fdapde.BinMtx.C01_ofDense                            propext, Classical.choice, Quot.sound
Fdapde.BinMtx.C01_identity                           propext, Classical.choice, Quot.sound
Fdapde.BinMtx.C02_coeff                              propext, Classical.choice, Quot.sound
Fdapde.BinMtx.C02_materialise                        propext, Classical.choice, Quot.sound
Fdapde.BinMtx.C02_mismatch                           propext, Classical.choice, Quot.sound
Fdapde.BinMtx.C02_operators                          propext, Quot.sound
Fdapde.BinMtx.C03_all_partial                        propext, Classical.choice, Quot.sound
Fdapde.BinMtx.C03_all_complete_partial               propext, Classical.choice, Quot.sound
Fdapde.BinMtx.C03_bug_false_negative                 propext, Quot.sound
Fdapde.BinMtx.C03_bug_false_positive                 propext, Quot.sound
Fdapde.BinMtx.C04_any_partial                        propext, Classical.choice, Quot.sound
Fdapde.BinMtx.C04_any_small_partial                  propext, Classical.choice, Quot.sound
Fdapde.BinMtx.C04_clean_after_writes                 propext, Classical.choice, Quot.sound
Fdapde.BinMtx.C04_bug_false_negative                 propext, Quot.sound
Fdapde.BinMtx.C04_bug_false_positive                 propext, Quot.sound
Fdapde.BinMtx.C05_count                              propext, Classical.choice, Quot.sound
Fdapde.BinMtx.C06_eq_partial                         propext, Classical.choice, Quot.sound
Fdapde.BinMtx.C06_shape_mismatch                     propext, Quot.sound
Fdapde.BinMtx.C06_bug_multiple_of_64                 propext, Classical.choice, Quot.sound
Fdapde.BinMtx.C07_block_coeff                        propext, Classical.choice, Quot.sound
Fdapde.BinMtx.C07_block_out_of_range                 propext, Classical.choice, Quot.sound
Fdapde.BinMtx.C07_block_copy_partial                 propext, Classical.choice, Quot.sound
Fdapde.BinMtx.C07_aligned_small                      propext, Classical.choice, Quot.sound
Fdapde.BinMtx.C07_aligned_dvd                        propext, Classical.choice, Quot.sound
Fdapde.BinMtx.C07_aligned_pow                        propext, Classical.choice, Quot.sound
Fdapde.BinMtx.C07_aligned_row                        propext, Classical.choice, Quot.sound
Fdapde.BinMtx.C07_aligned_col                        propext, Classical.choice, Quot.sound
Fdapde.BinMtx.C07_row_col_copy                       propext, Classical.choice, Quot.sound
Fdapde.BinMtx.C07_row_to_vector                      propext, Classical.choice, Quot.sound
Fdapde.BinMtx.C07_bug_copy                           propext, Quot.sound
Fdapde.BinMtx.C07_bug_rounding                       propext, Quot.sound
Fdapde.BinMtx.C07_row_offset                         propext, Classical.choice, Quot.sound
Fdapde.BinMtx.C08_assign_effect                      propext, Classical.choice, Quot.sound
Fdapde.BinMtx.C08_assign_partial                     propext, Classical.choice, Quot.sound
Fdapde.BinMtx.C08_assign_throws                      propext, Quot.sound
Fdapde.BinMtx.C08_bug_no_clear                       propext, Quot.sound
Fdapde.BinMtx.C08_block_set_clear                    propext, Classical.choice, Quot.sound
Fdapde.BinMtx.C08_block_set_clear_throws             propext, Quot.sound
Fdapde.BinMtx.C09_range_square_partial               propext, Classical.choice, Quot.sound
Fdapde.BinMtx.C09_range_vector                       propext, Classical.choice, Quot.sound
Fdapde.BinMtx.C09_bug_wide                           propext, Quot.sound
Fdapde.BinMtx.C09_bug_tall                           propext, Quot.sound
Fdapde.BinMtx.C09_bug_short_range                    propext, Quot.sound
Fdapde.BinMtx.C10_repeat                             propext, Classical.choice, Quot.sound
Fdapde.BinMtx.C10_reshape                            propext, Classical.choice, Quot.sound
Fdapde.BinMtx.C10_which                              propext, Classical.choice, Quot.sound
Fdapde.BinMtx.C10_which_not                          propext, Classical.choice, Quot.sound
Fdapde.BinMtx.C10_select                             propext, Classical.choice, Quot.sound
Fdapde.BinMtx.C166_programs                          propext, Quot.sound
Fdapde.BinMtx.C166_tables_partial                    propext, Classical.choice, Quot.sound
Fdapde.BinMtx.C166_stored                            propext, Classical.choice, Quot.sound
Fdapde.BinMtx.C166_bug_block                         propext, Quot.sound
Fdapde.BinMtx.C166_bug_repeat                        propext, Quot.sound
Fdapde.BinMtx.C166_bug_rows                          propext, Quot.sound
Fdapde.BinMtx.C166_bug_overlap                       propext, Quot.sound
Fdapde.BinMtx.C166_bug_stored                        propext, Quot.sound
Fdapde.BinMtx.C07_when_right                         propext, Classical.choice, Quot.sound
Fdapde.BinMtx.C07_whole_rows                         propext, Classical.choice, Quot.sound
Fdapde.BinMtx.C03_answer                             propext, Classical.choice, Quot.sound
Fdapde.BinMtx.C04_answer                             propext, Classical.choice, Quot.sound
Fdapde.BinMtx.C03_when_right                         propext, Classical.choice, Quot.sound
Fdapde.BinMtx.C04_when_right                         propext, Classical.choice, Quot.sound
Fdapde.BinMtx.C09_answer                             propext, Classical.choice, Quot.sound
Fdapde.BinMtx.C09_when_right                         propext, Classical.choice, Quot.sound
Fdapde.BinMtx.C137_expressions_partial               propext, Classical.choice, Quot.sound
Fdapde.BinMtx.C137_visits_partial                    propext, Classical.choice, Quot.sound
Fdapde.BinMtx.C137_writes                            propext, Quot.sound
Fdapde.BinMtx.C137_rejected                          propext, Quot.sound
Fdapde.BinMtx.C137_bug_constructor                   propext
Fdapde.BinMtx.C137_bug_count                         propext, Classical.choice, Quot.sound
Fdapde.BinMtx.C137_bug_any                           propext, Quot.sound
Fdapde.BinMtx.C113_row                               propext, Quot.sound
Fdapde.BinMtx.C113_col                               propext, Quot.sound
Fdapde.BinMtx.C113_vector_row_partial                propext, Classical.choice, Quot.sound
Fdapde.BinMtx.C113_bug_vector_row                    propext, Quot.sound
Fdapde.BinMtx.C113_block                             propext, Quot.sound
Fdapde.BinMtx.C113_edges                             propext, Quot.sound
Fdapde.BinMtx.C113_block_write                       propext, Classical.choice, Quot.sound
Fdapde.BinMtx.C113_bug_block_write                   propext, Quot.sound
Fdapde.BinMtx.C113_dense_dynamic                     propext, Classical.choice, Quot.sound
Fdapde.BinMtx.C113_dense_vector                      propext, Classical.choice, Quot.sound
Fdapde.BinMtx.C113_dense_static_partial              propext, Classical.choice, Quot.sound
Fdapde.BinMtx.C113_bug_dense_static                  propext, Quot.sound
Fdapde.BinMtx.C113_bug_resize                        propext, Quot.sound
Fdapde.BinMtx.C113_resize_partial                    propext, Classical.choice, Quot.sound
Fdapde.BinMtx.C113_static_mismatch                   propext, Quot.sound
Fdapde.BinMtx.C113_assign                            propext, Classical.choice, Quot.sound
Fdapde.BinMtx.C113_assign_row                        propext, Classical.choice, Quot.sound
Fdapde.BinMtx.C113_bug_matrix_to_vector              propext, Quot.sound
Fdapde.BinMtx.C113_bug_vector_sizes                  propext, Quot.sound
Fdapde.BinMtx.C130_text_partial                      propext, Classical.choice, Quot.sound
Fdapde.BinMtx.C130_read_back_partial                 propext, Classical.choice, Quot.sound
Fdapde.BinMtx.C130_bug_no_rows                       propext, Classical.choice, Quot.sound
Fdapde.BinMtx.C130_select_sparse                     propext, Classical.choice, Quot.sound
Fdapde.BinTree.C11_dfs                               propext, Quot.sound
Fdapde.BinTree.C11_dfs_terminates                    propext, Quot.sound
Fdapde.BinTree.C11_bfs                               propext, Quot.sound
Fdapde.BinTree.C11_each_once                         propext, Classical.choice, Quot.sound
Fdapde.BinTree.C12_leaves_partial                    propext, Classical.choice, Quot.sound
Fdapde.BinTree.C12_bug_single                        propext
Fdapde.BinTree.C12_empty                             none
Fdapde.BinTree.C13_push                              propext, Quot.sound
Fdapde.BinTree.C13_sorted                            propext, Quot.sound
Fdapde.BinTree.C13_find_sound                        propext, Quot.sound
Fdapde.BinTree.C13_find_internal_partial             propext, Quot.sound
Fdapde.BinTree.C13_find_no_ub_partial                propext, Quot.sound
Fdapde.BinTree.C13_bug_leaf                          propext
Fdapde.BinTree.C13_bug_leaf_general                  propext
Fdapde.BinTree.C13_bug_empty                         none
Fdapde.BinTree.C13_bug_null                          none
Fdapde.BinTree.C13_push_list                         propext
Fdapde.BinTree.C14_erase_root_partial                propext, Quot.sound
Fdapde.BinTree.C14_clear                             propext, Classical.choice, Quot.sound
Fdapde.BinTree.C14_bug_erase_always_empties          propext, Quot.sound
Fdapde.BinTree.C14_outside_spec                      propext
Fdapde.BinTree.C14_bug_erase                         propext, Quot.sound
Fdapde.BinTree.C15_built_wf                          propext, Quot.sound
Fdapde.BinTree.C15_copy                              propext, Classical.choice, Quot.sound
Fdapde.BinTree.C15_assign                            propext, Classical.choice, Quot.sound
Fdapde.BinTree.C15_move                              propext, Classical.choice, Quot.sound
Fdapde.BinTree.C15_bug_empty                         propext
Fdapde.BinTree.C15_bug_assign_empty                  propext
Fdapde.BinTree.C15_bug_self_assign                   propext, Classical.choice, Quot.sound
Fdapde.BinTree.C15_push_at_counts                    propext, Classical.choice, Quot.sound
Fdapde.BinTree.C13_find_pushed                       propext, Quot.sound
Fdapde.BinTree.C13_bug_some_key_missed               propext, Quot.sound
Fdapde.BinTree.C13_find_absent                       propext, Quot.sound
Fdapde.BinTree.C13_bug_smaller_key                   propext, Quot.sound
Fdapde.BinTree.C144_histories_partial                propext, Classical.choice, Quot.sound
Fdapde.BinTree.C144_no_leak_partial                  propext, Classical.choice, Quot.sound
Fdapde.BinTree.C144_bug_self_assign                  propext, Classical.choice, Quot.sound
Fdapde.BinTree.C144_bug_copy_empty                   propext
Fdapde.BinTree.C144_bug_parent                       propext
Fdapde.Blocks.C27_block                              propext, Quot.sound
Fdapde.Blocks.C27_write                              propext, Quot.sound
Fdapde.Blocks.C27_read_after_write                   propext, Classical.choice, Quot.sound
Fdapde.Blocks.C27_range_concat                       propext, Classical.choice, Quot.sound
Fdapde.Blocks.C27_head_tail                          propext
Fdapde.Blocks.C27_zero                               propext, Quot.sound
Fdapde.Blocks.C27_history                            propext, Classical.choice, Quot.sound
Fdapde.Blocks.C27_write_range                        propext, Quot.sound
Fdapde.Blocks.C28_get                                propext, Classical.choice, Quot.sound
Fdapde.Blocks.C28_columns                            propext, Classical.choice, Quot.sound
Fdapde.Blocks.C28_dirty                              propext, Classical.choice, Quot.sound
Fdapde.Blocks.C28_insert_throws                      propext, Classical.choice, Quot.sound
Fdapde.Blocks.C28_rows_partial                       propext, Classical.choice, Quot.sound
Fdapde.Blocks.C28_stack                              propext, Quot.sound
Fdapde.Blocks.C28_stack_get                          propext, Classical.choice, Quot.sound
Fdapde.Blocks.C28_bug_remove_other_type              none
Fdapde.Blocks.C28_bug_zero_rows                      none
Fdapde.Blocks.C28_bug_remove_absent                  propext
Fdapde.Blocks.C28_bug_col                            propext, Quot.sound
Fdapde.Blocks.C29_unique                             propext, Classical.choice, Quot.sound
Fdapde.Blocks.C30_view_rows                          propext, Classical.choice, Quot.sound
Fdapde.Blocks.C30_head_tail                          propext, Quot.sound
Fdapde.Blocks.C30_extract                            propext, Classical.choice, Quot.sound
Fdapde.Blocks.C30_view_multi                         propext, Quot.sound
Fdapde.Blocks.C30_view_multi_callable                propext, Classical.choice, Quot.sound
Fdapde.Blocks.C30_shuffle                            propext, Classical.choice, Quot.sound
Fdapde.Blocks.C28_given_rows                         propext, Classical.choice, Quot.sound
Fdapde.Blocks.C28_given_content                      propext, Classical.choice, Quot.sound
Fdapde.Blocks.C28_given_callable                     propext, Classical.choice, Quot.sound
Fdapde.Combinatorics.C41_combinations                propext, Classical.choice, Quot.sound
Fdapde.Combinatorics.C41_binomial                    propext, Classical.choice, Quot.sound
Fdapde.Combinatorics.C41_factorial                   propext
Fdapde.Combinatorics.C41_array_sum                   propext
Fdapde.Combinatorics.C41_factorial_int               propext, Quot.sound
Fdapde.Combinatorics.C41_combinations_int            propext, Classical.choice, Quot.sound
Fdapde.Combinatorics.C41_bug_overflow                propext, Quot.sound
Fdapde.FEM.C57_numbering                             propext, Classical.choice, Quot.sound
Fdapde.FEM.C57_first_order                           propext
Fdapde.FEM.C57_bijection                             propext, Classical.choice, Quot.sound
Fdapde.FEM.C58_pointwise                             propext, Classical.choice, Quot.sound
Fdapde.FEM.C58_rows_sum_one                          propext, Classical.choice, Quot.sound
Fdapde.FEM.C58_expansion_partial                     propext, Classical.choice, Quot.sound
Fdapde.FEM.C58_bug_outside                           propext, Quot.sound
Fdapde.FEM.C58_bug_order_two                         propext, Quot.sound
Fdapde.FEM.C58_areal                                 propext, Classical.choice, Quot.sound
Fdapde.FEM.C58_no_locations                          propext, Quot.sound
Fdapde.FEM.C55_nodal                                 propext, Classical.choice, Quot.sound
Fdapde.FEM.C55_reproduces                            propext, Classical.choice, Quot.sound
Fdapde.FEM.C55_sum_one                               propext, Classical.choice, Quot.sound
Fdapde.FEM.C55_general                               propext, Classical.choice, Quot.sound
Fdapde.FEM.C56_edge_nodes_partial                    propext, Classical.choice, Quot.sound
Fdapde.FEM.C56_bug_dimension_three                   propext, Classical.choice, Quot.sound
Fdapde.FEM.C56_barycentric                           propext, Classical.choice, Quot.sound
Fdapde.FEM.C53_table                                 propext, Classical.choice, Quot.sound
Fdapde.FEM.C54_value                                 propext, Classical.choice, Quot.sound
Fdapde.FEM.C54_gradient                              propext, Classical.choice, Quot.sound
Fdapde.FEM.C123_first_order                          propext, Classical.choice, Quot.sound
Fdapde.FEM.C123_second_order                         propext, Classical.choice, Quot.sound
Fdapde.FEM.C123_linear                               propext, Classical.choice, Quot.sound
Fdapde.FEM.C123_quadratic                            propext, Classical.choice, Quot.sound
Fdapde.Fields.C154_gradient                          propext, Classical.choice, Quot.sound
Fdapde.Fields.C154_diagonal                          propext, Classical.choice, Quot.sound
Fdapde.Fields.C154_mixed                             propext, Classical.choice, Quot.sound
Fdapde.Fields.C154_gradient_rounded                  propext, Classical.choice, Quot.sound
Fdapde.Fields.C154_diagonal_rounded                  propext, Classical.choice, Quot.sound
Fdapde.Fields.C154_mixed_rounded                     propext, Classical.choice, Quot.sound
Fdapde.Fields.C154_bug_large                         propext, Classical.choice, Quot.sound
Fdapde.Fields.C70_gradient                           propext, Classical.choice, Quot.sound
Fdapde.Fields.C70_diagonal                           propext, Classical.choice, Quot.sound
Fdapde.Fields.C70_mixed                              propext, Classical.choice, Quot.sound
Fdapde.Fields.C70_symmetric                          propext, Classical.choice, Quot.sound
Fdapde.Fields.Dyn.C119_build                         propext, Quot.sound
Fdapde.Fields.Dyn.C119_scalar                        propext, Quot.sound
Fdapde.Fields.Dyn.C119_vector_partial                propext, Classical.choice, Quot.sound
Fdapde.Fields.Dyn.C119_vector_mismatch               propext, Classical.choice, Quot.sound
Fdapde.Fields.Dyn.C119_dot                           propext, Classical.choice, Quot.sound
Fdapde.Fields.Dyn.C119_dot_const                     propext, Classical.choice, Quot.sound
Fdapde.Fields.Dyn.C119_hessian                       propext, Classical.choice, Quot.sound
Fdapde.Fields.Dyn.C119_matrix_partial                propext, Classical.choice, Quot.sound
Fdapde.Fields.Dyn.C119_coefficients_partial          propext, Classical.choice, Quot.sound
Fdapde.Fields.Dyn.C119_constants                     propext, Quot.sound
Fdapde.Fields.Dyn.C119_assign_range                  propext, Quot.sound
Fdapde.Fields.Dyn.C119_bug_store                     propext, Quot.sound
Fdapde.Fields.Dyn.C119_bug_callable                  propext, Quot.sound
Fdapde.Fields.Dyn.C119_bug_constant                  propext, Quot.sound
Fdapde.Fields.Dyn.C119_bug_dot_size                  propext, Classical.choice, Quot.sound
Fdapde.Fields.Dyn.C119_bug_negation                  propext, Quot.sound
Fdapde.Fields.Dyn.C119_bug_from_list                 propext, Quot.sound
Fdapde.Fields.Dyn.C119_bug_from_expression           propext, Quot.sound
Fdapde.Fields.Dyn.C119_bug_component                 propext, Classical.choice, Quot.sound
Fdapde.Fields.Dyn.C119_bug_matrix_sum                propext, Quot.sound
Fdapde.Fields.Dyn.C119_bug_matrix_vector             propext, Quot.sound
Fdapde.Fields.C83_scalar_partial                     propext, Classical.choice, Quot.sound
Fdapde.Fields.C83_vector_partial                     propext, Classical.choice, Quot.sound
Fdapde.Fields.C83_matrix_partial                     propext, Classical.choice, Quot.sound
Fdapde.Fields.C83_static_partial                     propext, Classical.choice, Quot.sound
Fdapde.Fields.C83_bug_unary                          propext, Quot.sound
Fdapde.Fields.C83_bug_dot_row                        propext, Classical.choice, Quot.sound
Fdapde.Fields.C83_bug_row_row                        propext, Classical.choice, Quot.sound
Fdapde.Fields.C83_bug_mulVec_row                     propext, Classical.choice, Quot.sound
Fdapde.Fields.C83_bug_row_truncated                  propext, Quot.sound
Fdapde.Fields.C83_bug_row_overrun                    propext, Quot.sound
Fdapde.Geometry.C94_polar                            propext, Classical.choice, Quot.sound
Fdapde.Geometry.C94_strict_total                     propext, Classical.choice, Quot.sound
Fdapde.Geometry.C155_tables                          propext, Classical.choice, Quot.sound
Fdapde.Geometry.C155_load                            propext, Classical.choice, Quot.sound
Fdapde.Geometry.C155_cell                            propext, Classical.choice, Quot.sound
Fdapde.Geometry.C155_mesh                            propext, Classical.choice, Quot.sound
Fdapde.Geometry.C155_refine                          propext, Classical.choice, Quot.sound
Fdapde.Geometry.C155_digits                          propext, Classical.choice, Quot.sound
Fdapde.Geometry.C155_forcing                         propext, Classical.choice, Quot.sound
Fdapde.Geometry.C48_doubles                          propext, Classical.choice, Quot.sound
Fdapde.Geometry.C48_locate_doubles                   propext, Classical.choice, Quot.sound
Fdapde.Geometry.C48_bug_flat                         propext, Classical.choice, Quot.sound
Fdapde.Geometry.C135_candidates                      propext, Classical.choice, Quot.sound
Fdapde.Geometry.C135_bary                            propext, Classical.choice, Quot.sound
Fdapde.Geometry.C135_locate                          propext, Classical.choice, Quot.sound
Fdapde.Geometry.C135_all_locate                      propext, Classical.choice, Quot.sound
Fdapde.Geometry.C150_locate_partial                  propext, Classical.choice, Quot.sound
Fdapde.Geometry.C150_all_locate_partial              propext, Classical.choice, Quot.sound
Fdapde.Geometry.C150_first_vertex                    propext, Classical.choice, Quot.sound
Fdapde.Geometry.C150_bug_vertex                      propext, Classical.choice, Quot.sound
Fdapde.Geometry.C150_bug_interior                    propext, Classical.choice, Quot.sound
Fdapde.Geometry.C108_measure                         propext, Classical.choice, Quot.sound
Fdapde.Geometry.C108_segment                         propext, Classical.choice, Quot.sound
Fdapde.Geometry.C108_triangle                        propext, Classical.choice, Quot.sound
Fdapde.Geometry.C108_cell                            propext, Classical.choice, Quot.sound
Fdapde.Geometry.C108_mesh                            propext, Classical.choice, Quot.sound
Fdapde.Geometry.C108_domain                          propext, Classical.choice, Quot.sound
Fdapde.Geometry.C124_history_partial                 propext, Classical.choice, Quot.sound
Fdapde.Geometry.C124_bug_copy                        propext, Quot.sound
Fdapde.Geometry.C124_bug_move                        propext, Quot.sound
Fdapde.Geometry.C124_bug_self_assign                 propext, Quot.sound
Fdapde.Geometry.C124_locate_partial                  propext, Classical.choice, Quot.sound
Fdapde.Geometry.C124_bug_reassigned                  propext, Classical.choice, Quot.sound
Fdapde.Geometry.C124_bug_patch                       propext, Classical.choice, Quot.sound
Fdapde.Geometry.Dp.C153_interval_partial             propext, Classical.choice, Quot.sound
Fdapde.Geometry.Dp.C153_bug_interval                 propext, Classical.choice, Quot.sound
Fdapde.Geometry.Dp.C153_bug_contains                 propext, Classical.choice, Quot.sound
Fdapde.Geometry.Dp.C153_tree_returns                 propext, Classical.choice, Quot.sound
Fdapde.Geometry.Dp.C153_tree_infinite_partial        propext, Classical.choice, Quot.sound
Fdapde.Geometry.Dp.C153_bug_tree                     propext, Classical.choice, Quot.sound
Fdapde.Geometry.Dp.C153_bug_walk                     propext, Classical.choice, Quot.sound
Fdapde.Geometry.Dp.C153_bug_nearest                  propext, Classical.choice, Quot.sound
Fdapde.Geometry.Dp.C153_bug_infinite                 propext, Classical.choice, Quot.sound
Fdapde.Geometry.C45_point_or_vertex_partial          propext, Classical.choice, Quot.sound
Fdapde.Geometry.C45_inside_partial                   propext, Classical.choice, Quot.sound
Fdapde.Geometry.C45_inside_tri3_partial              propext, Classical.choice, Quot.sound
Fdapde.Geometry.C45_interval                         propext, Classical.choice, Quot.sound
Fdapde.Geometry.C45_bug_not_nearest                  propext, Classical.choice, Quot.sound
Fdapde.Geometry.C45_nearest_vertex_partial           propext, Classical.choice, Quot.sound
Fdapde.Geometry.C45_bug_far_end                      propext, Classical.choice, Quot.sound
Fdapde.Geometry.C46_line2_partial                    propext, Classical.choice, Quot.sound
Fdapde.Geometry.C46_line3                            propext, Classical.choice, Quot.sound
Fdapde.Geometry.C46_plane3                           propext, Classical.choice, Quot.sound
Fdapde.Geometry.C46_general                          propext, Classical.choice, Quot.sound
Fdapde.Geometry.C46_eval                             propext, Classical.choice, Quot.sound
Fdapde.Geometry.C46_bug_line_normal                  propext, Classical.choice, Quot.sound
Fdapde.Geometry.C46_first_point                      propext, Classical.choice, Quot.sound
Fdapde.Geometry.C46_bug_second_point                 propext, Classical.choice, Quot.sound
Fdapde.Geometry.C46_bug_not_unit                     propext, Classical.choice, Quot.sound
Fdapde.Geometry.C43_outside_seg2                     propext, Classical.choice, Quot.sound
Fdapde.Geometry.C43_outside_seg3                     propext, Classical.choice, Quot.sound
Fdapde.Geometry.C43_outside_tri3                     propext, Classical.choice, Quot.sound
Fdapde.Geometry.C43_vertex_seg2                      propext, Classical.choice, Quot.sound
Fdapde.Geometry.C43_vertex_seg3                      propext, Classical.choice, Quot.sound
Fdapde.Geometry.C43_vertex_tri3                      propext, Classical.choice, Quot.sound
Fdapde.Geometry.C43_tolerance                        propext, Classical.choice, Quot.sound
Fdapde.Geometry.C100_exact                           propext, Classical.choice, Quot.sound
Fdapde.Geometry.C100_nearest_vertex_partial          propext, Classical.choice, Quot.sound
Fdapde.Geometry.C100_inside_partial                  propext, Classical.choice, Quot.sound
Fdapde.Geometry.C100_inside_surface_partial          propext, Classical.choice, Quot.sound
Fdapde.Geometry.C100_interval_partial                propext, Classical.choice, Quot.sound
Fdapde.Geometry.C100_bug_vertex_or_point             propext, Classical.choice, Quot.sound
Fdapde.Geometry.C100_bug_vertex                      propext, Classical.choice, Quot.sound
Fdapde.Geometry.C100_approx_partial                  propext, Classical.choice, Quot.sound
Fdapde.Geometry.C100_bug_undefined                   propext, Classical.choice, Quot.sound
Fdapde.Geometry.C48_all_locate                       propext, Classical.choice, Quot.sound
Fdapde.Geometry.C48_all_locate_exact                 propext, Classical.choice, Quot.sound
Fdapde.Geometry.C48_locate                           propext, Classical.choice, Quot.sound
Fdapde.Geometry.C48_locate_exact                     propext, Classical.choice, Quot.sound
Fdapde.Geometry.C48_locate_surface                   propext, Classical.choice, Quot.sound
Fdapde.Geometry.C42_sum_one                          propext, Classical.choice, Quot.sound
Fdapde.Geometry.C42_unique                           propext, Classical.choice, Quot.sound
Fdapde.Geometry.C42_reconstruct                      propext, Classical.choice, Quot.sound
Fdapde.Geometry.C42_reconstruct_full                 propext, Classical.choice, Quot.sound
Fdapde.Geometry.C42_vertex                           propext, Classical.choice, Quot.sound
Fdapde.Geometry.C42_barycenter                       propext, Classical.choice, Quot.sound
Fdapde.Geometry.C42_projection                       propext, Classical.choice, Quot.sound
Fdapde.Geometry.C43_outside                          propext, Classical.choice, Quot.sound
Fdapde.Geometry.C43_vertex                           propext, Classical.choice, Quot.sound
Fdapde.Geometry.C43_interior                         propext, Classical.choice, Quot.sound
Fdapde.Geometry.C43_bug_tet_edge                     propext, Classical.choice, Quot.sound
Fdapde.Geometry.C44_segment                          propext, Classical.choice, Quot.sound
Fdapde.Geometry.C44_full                             propext, Classical.choice, Quot.sound
Fdapde.Geometry.C44_triangle                         propext, Classical.choice, Quot.sound
Fdapde.Voronoi.C47_cells                             propext, Classical.choice, Quot.sound
Fdapde.Voronoi.C47_measure                           propext, Classical.choice, Quot.sound
Fdapde.Voronoi.C47_consecutive                       propext, Classical.choice, Quot.sound
Fdapde.Voronoi.C47_partition                         propext, Classical.choice, Quot.sound
Fdapde.Voronoi.C47_locate_partial                    propext, Classical.choice, Quot.sound
Fdapde.Voronoi.C47_bug_last                          propext, Quot.sound
Fdapde.Voronoi2.C95_cells                            propext, Classical.choice, Quot.sound
Fdapde.Voronoi2.C95_interior                         propext, Classical.choice, Quot.sound
Fdapde.Voronoi2.C95_locate                           propext, Classical.choice, Quot.sound
Fdapde.Voronoi2.C95_bug_contains                     propext, Quot.sound
Fdapde.Voronoi2.C95_locate_all                       propext, Classical.choice, Quot.sound
Fdapde.Voronoi2.C96_diagram_edges                    propext, Classical.choice, Quot.sound
Fdapde.Voronoi2.C95_boundary_partial                 propext, Classical.choice, Quot.sound
Fdapde.Voronoi2.C95_bug_boundary                     propext, Classical.choice, Quot.sound
Fdapde.Voronoi2.C95_nearest_partial                  propext, Classical.choice, Quot.sound
Fdapde.Voronoi2.C95_bug_nearest                      propext, Classical.choice, Quot.sound
Fdapde.Voronoi2.C96_fan                              propext, Classical.choice, Quot.sound
Fdapde.Voronoi2.C96_star                             propext, Classical.choice, Quot.sound
Fdapde.Voronoi2.C96_translate                        propext, Classical.choice, Quot.sound
Fdapde.Voronoi2.C96_edges                            propext, Classical.choice, Quot.sound
Fdapde.Geometry.C93_found                            propext, Classical.choice, Quot.sound
Fdapde.Geometry.C93_found_exact                      propext, Classical.choice, Quot.sound
Fdapde.Geometry.C93_bug_outside                      propext, Classical.choice, Quot.sound
Fdapde.Geometry.C93_convex_inner                     propext, Classical.choice, Quot.sound
Fdapde.Geometry.C93_delaunay_partial                 propext, Classical.choice, Quot.sound
Fdapde.Geometry.C93_bug_nonconvex                    propext, Classical.choice, Quot.sound
Fdapde.IO.C74_little                                 propext, Classical.choice, Quot.sound
Fdapde.IO.C74_big                                    propext, Classical.choice, Quot.sound
Fdapde.IO.C74_typed                                  propext, Classical.choice, Quot.sound
Fdapde.IO.C74_no_bound_check                         propext, Quot.sound
Fdapde.IO.C71_split                                  propext, Classical.choice, Quot.sound
Fdapde.IO.C71_fields                                 propext, Classical.choice, Quot.sound
Fdapde.IO.C71_remove                                 propext, Quot.sound
Fdapde.IO.C71_empty_separator                        propext
Fdapde.IO.C72_dense                                  propext, Classical.choice, Quot.sound
Fdapde.IO.C72_bug_empty_field                        propext, Classical.choice, Quot.sound
Fdapde.IO.C72_bug_carriage_return                    propext, Classical.choice, Quot.sound
Fdapde.IO.C73_sparse                                 propext, Classical.choice, Quot.sound
Fdapde.IO.C73_header                                 propext, Classical.choice, Quot.sound
Fdapde.IO.C73_bug_stale_value                        propext, Classical.choice, Quot.sound
Fdapde.IO.C73_bug_zero_based                         propext, Classical.choice, Quot.sound
Fdapde.IO.C77_columns_partial                        propext, Classical.choice, Quot.sound
Fdapde.IO.C77_numeric                                none
Fdapde.IO.C77_integers                               propext, Classical.choice, Quot.sound
Fdapde.IO.C77_bug_stale                              propext
Fdapde.IO.C77_bug_padded                             propext
Fdapde.IO.C77_bug_long_field                         propext, Classical.choice, Quot.sound
Fdapde.IO.C77_bug_no_record                          propext, Classical.choice, Quot.sound
Fdapde.IO.C157_dense_any                             propext, Classical.choice, Quot.sound
Fdapde.IO.C157_texts                                 propext, Classical.choice, Quot.sound
Fdapde.IO.C157_bug_blank_line                        propext, Classical.choice, Quot.sound
Fdapde.IO.C157_number                                propext, Classical.choice, Quot.sound
Fdapde.IO.C157_digitText                             propext, Classical.choice, Quot.sound
Fdapde.IO.C157_scientific                            propext, Classical.choice, Quot.sound
Fdapde.IO.C157_digits                                propext, Classical.choice, Quot.sound
Fdapde.IO.C157_write17                               propext, Classical.choice, Quot.sound
Fdapde.IO.C157_file                                  propext, Classical.choice, Quot.sound
Fdapde.IO.C157_bug_word                              propext, Classical.choice, Quot.sound
Fdapde.IO.C157_bug_infinite                          propext, Classical.choice, Quot.sound
Fdapde.IO.C157_bug_overflow                          propext, Classical.choice, Quot.sound
Fdapde.IO.C157_bug_digits                            propext, Classical.choice, Quot.sound
Fdapde.IO.C157_index                                 propext, Classical.choice, Quot.sound
Fdapde.IO.C118_name                                  propext, Classical.choice, Quot.sound
Fdapde.IO.C118_open                                  propext, Classical.choice, Quot.sound
Fdapde.IO.C118_gcs                                   propext, Classical.choice, Quot.sound
Fdapde.IO.C118_print_partial                         propext, Classical.choice, Quot.sound
Fdapde.IO.C118_bug_trailing_slash                    propext, Classical.choice, Quot.sound
Fdapde.IO.C118_bug_prj                               propext, Classical.choice, Quot.sound
Fdapde.IO.C118_bug_file_size                         propext, Classical.choice, Quot.sound
Fdapde.IO.C118_bug_no_fields                         propext, Classical.choice, Quot.sound
Fdapde.IO.C118_bug_type_name                         propext, Classical.choice, Quot.sound
Fdapde.IO.C118_bug_print_overflow                    propext, Classical.choice, Quot.sound
Fdapde.IO.C75_points                                 propext, Classical.choice, Quot.sound
Fdapde.IO.C75_polygons_partial                       propext, Classical.choice, Quot.sound
Fdapde.IO.C75_polylines_partial                      propext, Classical.choice, Quot.sound
Fdapde.IO.C75_multipoints_partial                    propext, Classical.choice, Quot.sound
Fdapde.IO.C75_count                                  propext, Classical.choice, Quot.sound
Fdapde.IO.C75_terminates                             propext, Quot.sound
Fdapde.IO.C75_bug_multipoint_zm                      propext, Classical.choice, Quot.sound
Fdapde.IO.C75_bug_long_file                          propext, Classical.choice, Quot.sound
Fdapde.IO.C75_bug_no_ring                            propext, Classical.choice, Quot.sound
Fdapde.IO.C75_bug_null_shape                         propext
Fdapde.IO.C75_bug_optional_measures                  propext
Fdapde.IO.C76_rings_partial                          propext, Classical.choice, Quot.sound
Fdapde.IO.C76_single_ring                            propext, Classical.choice, Quot.sound
Fdapde.IO.C76_bug_last_point                         propext, Classical.choice, Quot.sound
Fdapde.KDTree.C16_build                              propext, Classical.choice, Quot.sound
Fdapde.KDTree.C16_range_search                       propext, Classical.choice, Quot.sound
Fdapde.KDTree.C16_range_search_tree                  propext, Classical.choice, Quot.sound
Fdapde.KDTree.C16_bug_empty_build                    propext
Fdapde.KDTree.C16_bug_empty_search                   propext
Fdapde.KDTree.C17_best_on_path_partial               propext, Classical.choice, Quot.sound
Fdapde.KDTree.C17_dim_one_partial                    propext, Classical.choice, Quot.sound
Fdapde.KDTree.C17_exact_partial                      propext, Classical.choice, Quot.sound
Fdapde.KDTree.C17_no_ub_partial                      propext, Classical.choice, Quot.sound
Fdapde.KDTree.C17_bug_null                           propext, Classical.choice, Quot.sound
Fdapde.KDTree.C17_bug_wrong                          propext, Classical.choice, Quot.sound
Fdapde.KDTree.C163_height_partial                    propext, Classical.choice, Quot.sound
Fdapde.KDTree.C163_bug_repeated                      propext, Classical.choice, Quot.sound
Fdapde.KDTree.C163_bug_split                         propext, Classical.choice, Quot.sound
Fdapde.KDTree.C17_answer                             propext, Classical.choice, Quot.sound
Fdapde.KDTree.C17_when_right                         propext, Classical.choice, Quot.sound
Fdapde.KDTree.C17_bug_even                           propext, Classical.choice, Quot.sound
Fdapde.LinAlg.C37_constructor                        propext, Classical.choice, Quot.sound
Fdapde.LinAlg.C37_coefficients                       propext, Classical.choice, Quot.sound
Fdapde.LinAlg.C37_covers                             propext, Quot.sound
Fdapde.LinAlg.C37_out_of_range                       propext
Fdapde.LinAlg.C38_iteration_partial                  propext, Classical.choice, Quot.sound
Fdapde.LinAlg.C38_two_block_rows                     propext, Classical.choice, Quot.sound
Fdapde.LinAlg.C38_values_partial                     propext, Classical.choice, Quot.sound
Fdapde.LinAlg.C38_bug_offsets                        propext, Classical.choice, Quot.sound
Fdapde.LinAlg.C38_when_right                         propext, Classical.choice, Quot.sound
Fdapde.LinAlg.C141_history_partial                   propext, Classical.choice, Quot.sound
Fdapde.LinAlg.C141_last_write                        propext, Quot.sound
Fdapde.LinAlg.C141_bug_resize                        propext, Classical.choice, Quot.sound
Fdapde.LinAlg.C141_poke_outside                      propext, Classical.choice, Quot.sound
Fdapde.LinAlg.C141_bug_default                       propext, Classical.choice, Quot.sound
Fdapde.LinAlg.C141_default                           propext, Quot.sound
Fdapde.LinAlg.C167_kronecker                         propext, Classical.choice, Quot.sound
Fdapde.LinAlg.C167_lump_dense                        propext, Classical.choice, Quot.sound
Fdapde.LinAlg.C167_lump_sparse                       propext, Classical.choice, Quot.sound
Fdapde.LinAlg.C167_smw                               propext, Classical.choice, Quot.sound
Fdapde.LinAlg.C167_smw_limit                         propext, Classical.choice, Quot.sound
Fdapde.LinAlg.C101_compute                           propext, Classical.choice, Quot.sound
Fdapde.LinAlg.C101_optimal                           propext, Classical.choice, Quot.sound
Fdapde.LinAlg.C101_exact_inverse                     propext, Classical.choice, Quot.sound
Fdapde.LinAlg.C101_diagonal                          propext, Classical.choice, Quot.sound
Fdapde.LinAlg.C101_bug_single_candidate              propext, Classical.choice, Quot.sound
Fdapde.LinAlg.C101_bug_no_step                       propext, Classical.choice, Quot.sound
Fdapde.LinAlg.C101_bug_never_full                    propext, Classical.choice, Quot.sound
Fdapde.LinAlg.C101_bug_never_exact                   propext, Classical.choice, Quot.sound
Fdapde.LinAlg.C101_gain                              propext, Classical.choice, Quot.sound
Fdapde.LinAlg.C101_selection                         propext, Classical.choice, Quot.sound
Fdapde.LinAlg.C35_coefficients                       propext, Quot.sound
Fdapde.LinAlg.C35_is_kronecker                       propext, Classical.choice, Quot.sound
Fdapde.LinAlg.C35_mixed_product                      propext, Classical.choice, Quot.sound
Fdapde.LinAlg.C36_column_partial                     propext, Classical.choice, Quot.sound
Fdapde.LinAlg.C36_increasing                         propext, Quot.sound
Fdapde.LinAlg.C36_values                             propext, Classical.choice, Quot.sound
Fdapde.LinAlg.C36_entries_partial                    propext, Classical.choice, Quot.sound
Fdapde.LinAlg.C36_bug_empty_column                   propext
Fdapde.LinAlg.C36_when_right                         propext, Classical.choice, Quot.sound
Fdapde.LinAlg.C36_bug_last_column                    propext, Classical.choice, Quot.sound
Fdapde.LinAlg.C39_solves                             propext, Classical.choice, Quot.sound
Fdapde.LinAlg.C40_dense                              propext, Classical.choice, Quot.sound
Fdapde.LinAlg.C40_sparse                             propext, Classical.choice, Quot.sound
Fdapde.Mesh1D.C24_locate_partial                     propext, Classical.choice, Quot.sound
Fdapde.Mesh1D.C24_unique                             propext, Quot.sound
Fdapde.Mesh1D.C24_bug_last                           propext, Quot.sound
Fdapde.Mesh1D.C25_neighbours_partial                 propext, Classical.choice, Quot.sound
Fdapde.Mesh1D.C25_bug_one_cell                       none
Fdapde.Mesh1D.C26_adjacent_partial                   propext, Classical.choice, Quot.sound
Fdapde.Mesh1D.C26_symmetric                          propext, Quot.sound
Fdapde.Mesh1D.C26_node_patch                         propext, Quot.sound
Fdapde.Mesh1D.C26_bug_neighbors                      propext, Quot.sound
Fdapde.Mesh1D.C116_nodes                             propext, Classical.choice, Quot.sound
Fdapde.Mesh1D.C116_locate_partial                    propext, Classical.choice, Quot.sound
Fdapde.Mesh1D.C116_boundary                          propext, Classical.choice, Quot.sound
Fdapde.Mesh1D.C116_boundary_cells                    propext, Classical.choice, Quot.sound
Fdapde.Mesh1D.C116_segment                           propext, Classical.choice, Quot.sound
Fdapde.Mesh1D.C116_bug_network_range                 propext
Fdapde.Optim.C67_update                              propext, Classical.choice, Quot.sound
Fdapde.Optim.C67_history                             propext, Classical.choice, Quot.sound
Fdapde.Optim.C67_wolfe                               propext, Classical.choice, Quot.sound
Fdapde.Optim.C66_start_partial                       propext, Classical.choice, Quot.sound
Fdapde.Optim.C66_bug_returns_old                     propext, Classical.choice, Quot.sound
Fdapde.Optim.C68_descent                             propext, Classical.choice, Quot.sound
Fdapde.Optim.C133_rate_partial                       propext, Classical.choice, Quot.sound
Fdapde.Optim.C133_returns                            propext, Classical.choice, Quot.sound
Fdapde.Optim.C133_bfgs_partial                       propext, Classical.choice, Quot.sound
Fdapde.Optim.C133_gradient_descent                   propext, Classical.choice, Quot.sound
Fdapde.Optim.C107_gradient_descent                   propext, Classical.choice, Quot.sound
Fdapde.Optim.C107_backtracking                       propext, Classical.choice, Quot.sound
Fdapde.Optim.C107_rate                               propext, Classical.choice, Quot.sound
Fdapde.Optim.C107_newton_quadratic                   propext, Classical.choice, Quot.sound
Fdapde.Optim.C107_newton_rate                        propext, Classical.choice, Quot.sound
Fdapde.Optim.C107_lipschitz                          propext, Classical.choice, Quot.sound
Fdapde.Optim.Flt.C148_backtracking_returns           propext, Classical.choice, Quot.sound
Fdapde.Optim.Flt.C148_backtracking_first             propext, Classical.choice, Quot.sound
Fdapde.Optim.Flt.C148_wolfe_partial                  propext, Classical.choice, Quot.sound
Fdapde.Optim.Flt.C148_gradient_descent_returns       propext, Classical.choice, Quot.sound
Fdapde.Optim.Flt.C148_backtracking_decrease_partial  propext, Classical.choice, Quot.sound
Fdapde.Optim.Flt.C148_wolfe_decrease_partial         propext, Classical.choice, Quot.sound
Fdapde.Optim.Flt.C148_bug_nan                        propext, Classical.choice, Quot.sound
Fdapde.Optim.Flt.C148_bug_backtracking_hangs         propext, Classical.choice, Quot.sound
Fdapde.Optim.Flt.C148_bug_wolfe_hangs                propext, Classical.choice, Quot.sound
Fdapde.Optim.C64_visited                             propext, Classical.choice, Quot.sound
Fdapde.Optim.C64_minimum                             propext, Classical.choice, Quot.sound
Fdapde.Optim.C64_empty                               propext, Quot.sound
Fdapde.Optim.C68_armijo                              propext, Classical.choice, Quot.sound
Fdapde.Optim.C68_decrease                            propext, Classical.choice, Quot.sound
Fdapde.Optim.C68_terminates                          propext, Classical.choice, Quot.sound
Fdapde.Optim.C69_bracket                             propext, Classical.choice, Quot.sound
Fdapde.Optim.C69_wolfe                               propext, Classical.choice, Quot.sound
Fdapde.Optim.C69_terminates                          propext, Classical.choice, Quot.sound
Fdapde.Optim.Flt.C149_grid_partial                   propext, Classical.choice, Quot.sound
Fdapde.Optim.Flt.C149_bug_grid                       propext, Classical.choice, Quot.sound
Fdapde.Optim.Flt.C149_descent_partial                propext, Classical.choice, Quot.sound
Fdapde.Optim.Flt.C149_bug_gradient_descent           propext, Classical.choice, Quot.sound
Fdapde.Optim.Objects.C156_fresh                      propext, Classical.choice, Quot.sound
Fdapde.Optim.Objects.C156_model                      propext, Classical.choice, Quot.sound
Fdapde.Optim.Objects.C156_ledger                     propext, Classical.choice, Quot.sound
Fdapde.Optim.Objects.C156_history_partial            propext, Classical.choice, Quot.sound
Fdapde.Optim.Objects.C156_bug_copy                   propext, Classical.choice, Quot.sound
Fdapde.Optim.Objects.C156_bug_assign                 propext, Classical.choice, Quot.sound
Fdapde.Optim.Objects.C156_bug_wrapper                propext, Classical.choice, Quot.sound
Fdapde.Optim.Objects.C156_bug_default                propext, Classical.choice, Quot.sound
Fdapde.Optim.Objects.C156_bug_argument               propext, Classical.choice, Quot.sound
Fdapde.Optim.C65_gradient_descent                    propext, Classical.choice, Quot.sound
Fdapde.Optim.C65_newton                              propext, Classical.choice, Quot.sound
Fdapde.Optim.C65_bfgs_partial                        propext, Classical.choice, Quot.sound
Fdapde.Optim.C65_returns                             propext, Classical.choice, Quot.sound
Fdapde.PDE.C61_operator                              propext, Classical.choice, Quot.sound
Fdapde.PDE.C61_cell_order                            propext, Classical.choice, Quot.sound
Fdapde.PDE.C61_forcing                               propext, Classical.choice, Quot.sound
Fdapde.PDE.C61_forcing_cell_order                    propext, Classical.choice, Quot.sound
Fdapde.PDE.C60_same_matrix_partial                   propext, Classical.choice, Quot.sound
Fdapde.PDE.C60_symmetric                             propext, Classical.choice, Quot.sound
Fdapde.PDE.C132_poisson_partial                      propext, Classical.choice, Quot.sound
Fdapde.PDE.C132_order_partial                        propext, Classical.choice, Quot.sound
Fdapde.PDE.C103_rigid                                propext, Classical.choice, Quot.sound
Fdapde.PDE.C103_elements                             propext, Classical.choice, Quot.sound
Fdapde.PDE.C103_quadratic_tetrahedra                 propext, Classical.choice, Quot.sound
Fdapde.PDE.C104_mass_definite                        propext, Classical.choice, Quot.sound
Fdapde.PDE.C139_elliptic_partial                     propext, Classical.choice, Quot.sound
Fdapde.PDE.C139_order_partial                        propext, Classical.choice, Quot.sound
Fdapde.PDE.C139_operators                            propext, Classical.choice, Quot.sound
Fdapde.PDE.C112_best                                 propext, Classical.choice, Quot.sound
Fdapde.PDE.C112_interpolation                        propext, Classical.choice, Quot.sound
Fdapde.PDE.C112_order                                propext, Classical.choice, Quot.sound
Fdapde.PDE.C112_smooth                               propext, Classical.choice, Quot.sound
Fdapde.PDE.C112_solve_partial                        propext, Classical.choice, Quot.sound
Fdapde.PDE.C112_consistent                           propext, Classical.choice, Quot.sound
Fdapde.PDE.C112_poisson_partial                      propext, Classical.choice, Quot.sound
Fdapde.PDE.C109_order_partial                        propext, Classical.choice, Quot.sound
Fdapde.PDE.C164_quadratic_partial                    propext, Classical.choice, Quot.sound
Fdapde.PDE.C164_quadratic_recovers_partial           propext, Classical.choice, Quot.sound
Fdapde.PDE.C165_quadratic_partial                    propext, Classical.choice, Quot.sound
Fdapde.PDE.C165_quadratic_residuals_partial          propext, Classical.choice, Quot.sound
Fdapde.PDE.C168_smoothing_partial                    propext, Classical.choice, Quot.sound
Fdapde.PDE.C168_spatial_partial                      propext, Classical.choice, Quot.sound
Fdapde.PDE.C168_space_time_partial                   propext, Classical.choice, Quot.sound
Fdapde.PDE.C168_mesh_partial                         propext, Classical.choice, Quot.sound
Fdapde.PDE.C168_quadratic_partial                    propext, Classical.choice, Quot.sound
Fdapde.PDE.C164_monotone_partial                     propext, Classical.choice, Quot.sound
Fdapde.PDE.C164_stable_partial                       propext, Classical.choice, Quot.sound
Fdapde.PDE.C165_monotone_partial                     propext, Classical.choice, Quot.sound
Fdapde.PDE.C165_stable_partial                       propext, Classical.choice, Quot.sound
Fdapde.PDE.C169_regression                           propext, Classical.choice, Quot.sound
Fdapde.PDE.C169_mesh                                 propext, Classical.choice, Quot.sound
Fdapde.PDE.C169_intervals                            propext, Classical.choice, Quot.sound
Fdapde.PDE.C169_triangles                            propext, Classical.choice, Quot.sound
Fdapde.PDE.C169_tetrahedra                           propext, Classical.choice, Quot.sound
Fdapde.PDE.C91_form                                  propext, Classical.choice, Quot.sound
Fdapde.PDE.C91_constants                             propext, Classical.choice, Quot.sound
Fdapde.PDE.C91_energy                                propext, Classical.choice, Quot.sound
Fdapde.PDE.C92_mass                                  propext, Classical.choice, Quot.sound
Fdapde.PDE.C92_positive_weights                      propext, Classical.choice, Quot.sound
Fdapde.PDE.C92_total_mass                            propext, Classical.choice, Quot.sound
Fdapde.PDE.C92_bug_indefinite_mass                   propext, Classical.choice, Quot.sound
Fdapde.PDE.C138_heat_partial                         propext, Classical.choice, Quot.sound
Fdapde.PDE.C138_order_partial                        propext, Classical.choice, Quot.sound
Fdapde.PDE.C117_before_init                          propext, Classical.choice, Quot.sound
Fdapde.PDE.C117_elliptic                             propext, Classical.choice, Quot.sound
Fdapde.PDE.C117_parabolic                            propext, Classical.choice, Quot.sound
Fdapde.PDE.C117_natural                              propext, Classical.choice, Quot.sound
Fdapde.PDE.C117_galerkin_partial                     propext, Classical.choice, Quot.sound
Fdapde.PDE.C117_again                                propext, Classical.choice, Quot.sound
Fdapde.PDE.C117_bug_conditions_stay                  propext, Classical.choice, Quot.sound
Fdapde.PDE.C117_bug_stale_solution                   propext, Classical.choice, Quot.sound
Fdapde.PDE.C117_bug_more_columns                     propext, Classical.choice, Quot.sound
Fdapde.PDE.C146_residual_partial                     propext, Classical.choice, Quot.sound
Fdapde.PDE.C146_elliptic_partial                     propext, Classical.choice, Quot.sound
Fdapde.PDE.C146_order_partial                        propext, Classical.choice, Quot.sound
Fdapde.PDE.C147_residual_partial                     propext, Classical.choice, Quot.sound
Fdapde.PDE.C147_rounding_partial                     propext, Classical.choice, Quot.sound
Fdapde.PDE.C147_parabolic_partial                    propext, Classical.choice, Quot.sound
Fdapde.PDE.C147_order_partial                        propext, Classical.choice, Quot.sound
Fdapde.PDE.C102_init                                 propext, Classical.choice, Quot.sound
Fdapde.PDE.C102_init_callable                        propext, Classical.choice, Quot.sound
Fdapde.PDE.C102_galerkin_partial                     propext, Classical.choice, Quot.sound
Fdapde.PDE.C102_natural                              propext, Classical.choice, Quot.sound
Fdapde.PDE.C102_parabolic_partial                    propext, Classical.choice, Quot.sound
Fdapde.PDE.C111_nonneg                               propext, Classical.choice, Quot.sound
Fdapde.PDE.C111_bounds                               propext, Classical.choice, Quot.sound
Fdapde.PDE.C111_solve_partial                        propext, Classical.choice, Quot.sound
Fdapde.PDE.C111_triangles                            propext, Classical.choice, Quot.sound
Fdapde.PDE.C111_intervals                            propext, Classical.choice, Quot.sound
Fdapde.PDE.C160_mesh_triangles_partial               propext, Classical.choice, Quot.sound
Fdapde.PDE.C160_mesh_intervals_partial               propext, Classical.choice, Quot.sound
Fdapde.PDE.C160_step_nonneg                          propext, Classical.choice, Quot.sound
Fdapde.PDE.C160_solve_partial                        propext, Classical.choice, Quot.sound
Fdapde.PDE.C160_condition                            propext, Classical.choice, Quot.sound
Fdapde.PDE.C160_triangles                            propext, Classical.choice, Quot.sound
Fdapde.PDE.C160_intervals                            propext, Classical.choice, Quot.sound
Fdapde.PDE.C160_bug_small_step                       propext, Classical.choice, Quot.sound
Fdapde.PDE.C131_manifold                             propext, Classical.choice, Quot.sound
Fdapde.PDE.C131_first_order                          propext, Classical.choice, Quot.sound
Fdapde.PDE.C131_second_order                         propext, Classical.choice, Quot.sound
Fdapde.PDE.C131_solve_first_partial                  propext, Classical.choice, Quot.sound
Fdapde.PDE.C131_solve_second_partial                 propext, Classical.choice, Quot.sound
Fdapde.PDE.C131_patch_partial                        propext, Classical.choice, Quot.sound
Fdapde.PDE.C131_maximum_partial                      propext, Classical.choice, Quot.sound
Fdapde.PDE.C82_remove_partial                        propext, Classical.choice, Quot.sound
Fdapde.PDE.C82_bug_minus                             propext, Classical.choice, Quot.sound
Fdapde.PDE.C82_bug_scaled                            propext, Classical.choice, Quot.sound
Fdapde.PDE.C82_bug_negated                           propext, Quot.sound
Fdapde.PDE.C60_flag                                  propext, Classical.choice, Quot.sound
Fdapde.PDE.C60_operators_partial                     propext, Classical.choice, Quot.sound
Fdapde.PDE.C60_bug_diffusion                         propext, Classical.choice, Quot.sound
Fdapde.PDE.C142_parabolic_partial                    propext, Classical.choice, Quot.sound
Fdapde.PDE.C142_order_partial                        propext, Classical.choice, Quot.sound
Fdapde.PDE.C142_operators                            propext, Classical.choice, Quot.sound
Fdapde.PDE.C110_galerkin                             propext, Classical.choice, Quot.sound
Fdapde.PDE.C110_solve_partial                        propext, Classical.choice, Quot.sound
Fdapde.PDE.C143_poisson_partial                      propext, Classical.choice, Quot.sound
Fdapde.PDE.C143_order_partial                        propext, Classical.choice, Quot.sound
Fdapde.PDE.C162_fit_partial                          propext, Classical.choice, Quot.sound
Fdapde.PDE.C162_exact_partial                        propext, Classical.choice, Quot.sound
Fdapde.PDE.C162_residuals_partial                    propext, Classical.choice, Quot.sound
Fdapde.PDE.C162_monotone_partial                     propext, Classical.choice, Quot.sound
Fdapde.PDE.C162_stable_partial                       propext, Classical.choice, Quot.sound
Fdapde.PDE.C162_interpolates_partial                 propext, Classical.choice, Quot.sound
Fdapde.PDE.C162_mesh_partial                         propext, Classical.choice, Quot.sound
Fdapde.PDE.C162_mesh_constants_partial               propext, Classical.choice, Quot.sound
Fdapde.PDE.C162_mesh_residuals_partial               propext, Classical.choice, Quot.sound
Fdapde.PDE.C162_quadratic_partial                    propext, Classical.choice, Quot.sound
Fdapde.PDE.C162_quadratic_constants_partial          propext, Classical.choice, Quot.sound
Fdapde.PDE.C162_quadratic_residuals_partial          propext, Classical.choice, Quot.sound
Fdapde.PDE.C151_assembly                             propext, Classical.choice, Quot.sound
Fdapde.PDE.C151_residual_partial                     propext, Classical.choice, Quot.sound
Fdapde.PDE.C151_elliptic_partial                     propext, Classical.choice, Quot.sound
Fdapde.PDE.C151_triangles                            propext, Classical.choice, Quot.sound
Fdapde.PDE.C151_elliptic_triangles_partial           propext, Classical.choice, Quot.sound
Fdapde.PDE.C151_tetrahedra                           propext, Classical.choice, Quot.sound
Fdapde.PDE.C151_intervals                            propext, Classical.choice, Quot.sound
Fdapde.PDE.C151_elliptic_intervals_partial           propext, Classical.choice, Quot.sound
Fdapde.PDE.C152_parabolic_intervals_partial          propext, Classical.choice, Quot.sound
Fdapde.PDE.C151_elliptic_tetrahedra_partial          propext, Classical.choice, Quot.sound
Fdapde.PDE.C152_parabolic_tetrahedra_partial         propext, Classical.choice, Quot.sound
Fdapde.PDE.C152_residual_partial                     propext, Classical.choice, Quot.sound
Fdapde.PDE.C152_rounding_partial                     propext, Classical.choice, Quot.sound
Fdapde.PDE.C152_parabolic_partial                    propext, Classical.choice, Quot.sound
Fdapde.PDE.C152_parabolic_triangles_partial          propext, Classical.choice, Quot.sound
Fdapde.PDE.C164_fit_partial                          propext, Classical.choice, Quot.sound
Fdapde.PDE.C164_exact_partial                        propext, Classical.choice, Quot.sound
Fdapde.PDE.C164_orthogonal_partial                   propext, Classical.choice, Quot.sound
Fdapde.PDE.C164_equivariant_partial                  propext, Classical.choice, Quot.sound
Fdapde.PDE.C164_intercept                            propext, Classical.choice, Quot.sound
Fdapde.PDE.C164_mesh_partial                         propext, Classical.choice, Quot.sound
Fdapde.PDE.C164_mesh_recovers_partial                propext, Classical.choice, Quot.sound
Fdapde.PDE.C168_covariates_partial                   propext, Classical.choice, Quot.sound
Fdapde.PDE.C168_covariates_mesh_partial              propext, Classical.choice, Quot.sound
Fdapde.PDE.C168_covariates_quadratic_partial         propext, Classical.choice, Quot.sound
Fdapde.PDE.C169_covariates                           propext, Classical.choice, Quot.sound
Fdapde.PDE.C169_covariates_mesh                      propext, Classical.choice, Quot.sound
Fdapde.PDE.C169_covariates_intervals                 propext, Classical.choice, Quot.sound
Fdapde.PDE.C169_covariates_triangles                 propext, Classical.choice, Quot.sound
Fdapde.PDE.C169_covariates_tetrahedra                propext, Classical.choice, Quot.sound
Fdapde.PDE.C170_optimal_partial                      propext, Classical.choice, Quot.sound
Fdapde.PDE.C170_smoothing_partial                    propext, Classical.choice, Quot.sound
Fdapde.PDE.C170_lines_partial                        propext, Classical.choice, Quot.sound
Fdapde.PDE.C62_rows                                  propext, Classical.choice, Quot.sound
Fdapde.PDE.C62_boundary_rows_partial                 propext, Classical.choice, Quot.sound
Fdapde.PDE.C62_idempotent                            propext, Classical.choice, Quot.sound
Fdapde.PDE.C62_uninitialized                         propext, Classical.choice, Quot.sound
Fdapde.PDE.C62_solution_partial                      propext, Classical.choice, Quot.sound
Fdapde.PDE.C62_bug_dof_zero                          propext, Classical.choice, Quot.sound
Fdapde.PDE.C63_recursion                             propext, Classical.choice, Quot.sound
Fdapde.PDE.C63_implicit_euler_partial                propext, Classical.choice, Quot.sound
Fdapde.PDE.C63_bug_no_boundary_data                  propext, Classical.choice, Quot.sound
Fdapde.PDE.C63_bug_dof_zero                          propext, Classical.choice, Quot.sound
Fdapde.PDE.C165_fit_partial                          propext, Classical.choice, Quot.sound
Fdapde.PDE.C165_exact_partial                        propext, Classical.choice, Quot.sound
Fdapde.PDE.C165_residuals_partial                    propext, Classical.choice, Quot.sound
Fdapde.PDE.C165_mesh_partial                         propext, Classical.choice, Quot.sound
Fdapde.PDE.C165_mesh_lines_partial                   propext, Classical.choice, Quot.sound
Fdapde.PDE.C165_mesh_residuals_partial               propext, Classical.choice, Quot.sound
Fdapde.PDE.C170_matrices_partial                     propext, Classical.choice, Quot.sound
Fdapde.PDE.C120_assemble                             propext, Classical.choice, Quot.sound
Fdapde.PDE.C120_form_partial                         propext, Classical.choice, Quot.sound
Fdapde.PDE.C120_flag                                 propext, Classical.choice, Quot.sound
Fdapde.PDE.C120_missing                              propext, Quot.sound
Fdapde.PDE.C120_bug_closed_form                      propext, Classical.choice, Quot.sound
Fdapde.PDE.C120_bug_function_of_data                 propext, Quot.sound
Fdapde.PDE.C103_coercive                             propext, Classical.choice, Quot.sound
Fdapde.PDE.C103_definite_unique                      propext, Classical.choice, Quot.sound
Fdapde.PDE.C103_unique                               propext, Classical.choice, Quot.sound
Fdapde.PDE.C103_definite_partial                     propext, Classical.choice, Quot.sound
Fdapde.PDE.C103_solve_partial                        propext, Classical.choice, Quot.sound
Fdapde.PDE.C103_energy                               propext, Classical.choice, Quot.sound
Fdapde.PDE.C103_laplacian                            propext, Classical.choice, Quot.sound
Fdapde.PDE.C103_diffusion                            propext, Classical.choice, Quot.sound
Fdapde.PDE.C103_compose                              propext, Classical.choice, Quot.sound
Fdapde.PDE.C103_linear_elements                      propext, Classical.choice, Quot.sound
Fdapde.PDE.C104_stable_partial                       propext, Classical.choice, Quot.sound
Fdapde.PDE.C104_nonsingular_partial                  propext, Classical.choice, Quot.sound
Fdapde.PDE.C104_succeeds_partial                     propext, Classical.choice, Quot.sound
Fdapde.PDE.C126_call_partial                         propext, Classical.choice, Quot.sound
Fdapde.PDE.C126_bug_forcing_data                     propext, Classical.choice, Quot.sound
Fdapde.PDE.C126_bug_setters                          propext, Classical.choice, Quot.sound
Fdapde.PDE.C126_empty                                propext
Fdapde.PDE.C126_program_partial                      propext, Classical.choice, Quot.sound
Fdapde.PDE.C126_history                              propext, Classical.choice, Quot.sound
Fdapde.PDE.C140_elliptic                             propext, Classical.choice, Quot.sound
Fdapde.PDE.C140_parabolic                            propext, Classical.choice, Quot.sound
Fdapde.PDE.C140_galerkin                             propext, Classical.choice, Quot.sound
Fdapde.PDE.C140_solve                                propext, Classical.choice, Quot.sound
Fdapde.PDE.C140_right_value                          propext, Classical.choice, Quot.sound
Fdapde.PDE.C140_wrong_value                          propext, Classical.choice, Quot.sound
Fdapde.PDE.C140_poisson_order                        propext, Classical.choice, Quot.sound
Fdapde.PDE.C140_elliptic_order                       propext, Classical.choice, Quot.sound
Fdapde.PDE.C140_heat_order                           propext, Classical.choice, Quot.sound
Fdapde.PDE.C103_exists                               propext, Classical.choice, Quot.sound
Fdapde.PDE.C140_error                                propext, Classical.choice, Quot.sound
Fdapde.PDE.C140_parabolic_galerkin                   propext, Classical.choice, Quot.sound
Fdapde.PDE.C140_stable                               propext, Classical.choice, Quot.sound
Fdapde.PDE.C140_patch                                propext, Classical.choice, Quot.sound
Fdapde.PDE.C140_maximum                              propext, Classical.choice, Quot.sound
Fdapde.PDE.C140_maximum_time_triangles               propext, Classical.choice, Quot.sound
Fdapde.PDE.C140_maximum_time_intervals               propext, Classical.choice, Quot.sound
Fdapde.PDE.C140_parabolic_order                      propext, Classical.choice, Quot.sound
Fdapde.PDE.C140_inexact_elliptic                     propext, Classical.choice, Quot.sound
Fdapde.PDE.C140_inexact_parabolic                    propext, Classical.choice, Quot.sound
Fdapde.PDE.C140_elliptic_rounded                     propext, Classical.choice, Quot.sound
Fdapde.PDE.C140_parabolic_rounded                    propext, Classical.choice, Quot.sound
Fdapde.PDE.C140_rounding_elliptic                    propext, Classical.choice, Quot.sound
Fdapde.PDE.C140_rounding_parabolic                   propext, Classical.choice, Quot.sound
Fdapde.PDE.C140_quadratic_order                      propext, Classical.choice, Quot.sound
Fdapde.Quadrature.C136_mesh                          propext, Classical.choice, Quot.sound
Fdapde.Quadrature.C136_relative                      propext, Classical.choice, Quot.sound
Fdapde.Quadrature.C136_cell                          propext, Classical.choice, Quot.sound
Fdapde.Quadrature.C136_interval                      propext, Classical.choice, Quot.sound
Fdapde.Quadrature.C87_quadrature_nodes               propext, Classical.choice, Quot.sound
Fdapde.Quadrature.C87_sampled_field                  propext, Classical.choice, Quot.sound
Fdapde.Quadrature.C87_weak_form                      propext, Classical.choice, Quot.sound
Fdapde.Quadrature.C87_mesh                           propext, Classical.choice, Quot.sound
Fdapde.Quadrature.C87_cell                           propext, Classical.choice, Quot.sound
Fdapde.Quadrature.C87_interval                       propext, Classical.choice, Quot.sound
Fdapde.Quadrature.C59_simplex                        propext, Classical.choice, Quot.sound
Fdapde.Quadrature.C59_legendre                       propext, Classical.choice, Quot.sound
Fdapde.Quadrature.C59_weights                        propext, Classical.choice, Quot.sound
Fdapde.Quadrature.C86_documented_degree              propext, Classical.choice, Quot.sound
Fdapde.Quadrature.C86_products_partial               propext, Classical.choice, Quot.sound
Fdapde.Quadrature.C86_bug_tetrahedra                 propext, Classical.choice, Quot.sound
Fdapde.Splines.C158_order_partial                    propext, Classical.choice, Quot.sound
Fdapde.Splines.C158_greville_partial                 propext, Classical.choice, Quot.sound
Fdapde.Splines.C158_dense_partial                    propext, Classical.choice, Quot.sound
Fdapde.Splines.C158_monotone_partial                 propext, Classical.choice, Quot.sound
Fdapde.Splines.C158_convex_partial                   propext, Classical.choice, Quot.sound
Fdapde.Splines.C52_symmetric                         propext, Classical.choice, Quot.sound
Fdapde.Splines.C52_operators_partial                 propext, Classical.choice, Quot.sound
Fdapde.Splines.C52_bug_nonsymmetric                  propext, Classical.choice, Quot.sound
Fdapde.Splines.C85_evaluation_matrix                 propext, Classical.choice, Quot.sound
Fdapde.Splines.C85_bug_dofs_coords                   propext, Quot.sound
Fdapde.Splines.C122_exact_partial                    propext, Classical.choice, Quot.sound
Fdapde.Splines.C122_needs_nodes                      propext, Classical.choice, Quot.sound
Fdapde.Splines.C122_bug_cubic_mass                   propext, Classical.choice, Quot.sound
Fdapde.Splines.C134_relative_error_partial           propext, Classical.choice, Quot.sound
Fdapde.Splines.C134_outside                          propext, Classical.choice, Quot.sound
Fdapde.Splines.C134_partition_partial                propext, Classical.choice, Quot.sound
Fdapde.Splines.C134_expansion_partial                propext, Classical.choice, Quot.sound
Fdapde.Splines.C134_derivative_partial               propext, Classical.choice, Quot.sound
Fdapde.Splines.C134_binary64_partial                 propext, Classical.choice, Quot.sound
Fdapde.Splines.C129_mass_definite_partial            propext, Classical.choice, Quot.sound
Fdapde.Splines.C129_bug_singular_mass                propext, Classical.choice, Quot.sound
Fdapde.Splines.C129_cubic_definite_partial           propext, Classical.choice, Quot.sound
Fdapde.Splines.C129_penalty_kernel_partial           propext, Classical.choice, Quot.sound
Fdapde.Splines.C129_smoothing_partial                propext, Classical.choice, Quot.sound
Fdapde.Splines.C129_library_partial                  propext, Classical.choice, Quot.sound
Fdapde.Splines.C129_bug_cubic_two_knots              propext, Classical.choice, Quot.sound
Fdapde.Splines.C127_reproduces_partial               propext, Classical.choice, Quot.sound
Fdapde.Splines.C127_greville_partial                 propext, Classical.choice, Quot.sound
Fdapde.Splines.C127_hull_partial                     propext, Classical.choice, Quot.sound
Fdapde.Splines.C127_ends_partial                     propext, Classical.choice, Quot.sound
Fdapde.Splines.C127_local_unique_partial             propext, Classical.choice, Quot.sound
Fdapde.Splines.C127_unique_partial                   propext, Classical.choice, Quot.sound
Fdapde.Splines.C128_smooth_partial                   propext, Classical.choice, Quot.sound
Fdapde.Splines.C128_right_derivative_partial         propext, Classical.choice, Quot.sound
Fdapde.Splines.C128_expansion_partial                propext, Classical.choice, Quot.sound
Fdapde.Splines.C128_sharp                            propext, Classical.choice, Quot.sound
Fdapde.Splines.C161_fit_partial                      propext, Classical.choice, Quot.sound
Fdapde.Splines.C161_lines_partial                    propext, Classical.choice, Quot.sound
Fdapde.Splines.C161_residuals_partial                propext, Classical.choice, Quot.sound
Fdapde.Splines.C161_monotone_partial                 propext, Classical.choice, Quot.sound
Fdapde.Splines.C161_stable_partial                   propext, Classical.choice, Quot.sound
Fdapde.Splines.C161_accuracy_partial                 propext, Classical.choice, Quot.sound
Fdapde.Splines.C105_init                             propext, Classical.choice, Quot.sound
Fdapde.Splines.C105_semidefinite                     propext, Classical.choice, Quot.sound
Fdapde.Splines.C105_bug_sign                         propext, Classical.choice, Quot.sound
Fdapde.Splines.C105_reference                        propext, Classical.choice, Quot.sound
Fdapde.Splines.C105_reference_interval               propext, Classical.choice, Quot.sound
Fdapde.Splines.C105_bug_no_forcing                   propext, Classical.choice, Quot.sound
Fdapde.Splines.C105_not_initialised                  propext, Quot.sound
Fdapde.Splines.C105_bug_dirichlet                    propext, Quot.sound
Fdapde.Splines.C105_bug_dof_coords                   propext, Quot.sound
Fdapde.Splines.C105_eval_basis                       none
Fdapde.Splines.C49_partition_of_unity_partial        propext, Classical.choice, Quot.sound
Fdapde.Splines.C49_bug_short_last_span               propext, Classical.choice, Quot.sound
Fdapde.Splines.C50_local_support_partial             propext, Classical.choice, Quot.sound
Fdapde.Splines.C50_bug_past_the_end                  propext, Classical.choice, Quot.sound
Fdapde.Splines.C51_derivative_partial                propext, Classical.choice, Quot.sound
Fdapde.Splines.C51_bug_short_last_span               propext, Classical.choice, Quot.sound
Fdapde.Splines.C51_derive_zero                       propext, Classical.choice, Quot.sound
Fdapde.Splines.C50_expansion                         propext, Classical.choice, Quot.sound
Fdapde.Splines.C49_answer                            propext, Classical.choice, Quot.sound
Fdapde.Splines.C49_when_right                        propext, Classical.choice, Quot.sound
Fdapde.Splines.C50_bug_every_basis                   propext, Classical.choice, Quot.sound
Fdapde.Splines.C50_when_right                        propext, Classical.choice, Quot.sound
Fdapde.Threads.C121_every_task_runs                  propext, Classical.choice, Quot.sound
Fdapde.Threads.C121_shutdown_returns                 propext, Classical.choice, Quot.sound
Fdapde.Threads.C121_sync_returns                     propext, Classical.choice, Quot.sound
Fdapde.Threads.C121_bug_two_syncs                    propext, Quot.sound
Fdapde.Threads.C121_bug_sync_during_shutdown         propext, Quot.sound
Fdapde.Threads.C32_at_most_once                      propext, Classical.choice, Quot.sound
Fdapde.Threads.C32_one_worker_per_task               propext, Classical.choice, Quot.sound
Fdapde.Threads.C32_taken_in_order                    propext, Classical.choice, Quot.sound
Fdapde.Threads.C32_no_lost_wakeup                    propext, Quot.sound
Fdapde.Threads.C32_all_run_when_quiescent            propext, Classical.choice, Quot.sound
Fdapde.Threads.C33_started_before_sync_partial       propext, Classical.choice, Quot.sound
Fdapde.Threads.C33_all_but_window_partial            propext, Classical.choice, Quot.sound
Fdapde.Threads.C33_bug_returns_early                 propext, Quot.sound
Fdapde.Threads.C33_bug_two_syncs                     propext, Quot.sound
Fdapde.Threads.C33_single_client_not_forgotten       propext, Classical.choice, Quot.sound
Fdapde.Threads.C34_workers_exited                    propext, Quot.sound
Fdapde.Threads.C34_nothing_after_shutdown            propext, Quot.sound
Fdapde.Threads.C34_fate_partial                      propext, Classical.choice, Quot.sound
Fdapde.Threads.C34_workers_terminate                 propext, Quot.sound
Fdapde.Threads.C34_shutdown_progress                 propext, Classical.choice, Quot.sound
Fdapde.Threads.C34_bug_lost_task                     propext, Quot.sound
Fdapde.Threads.C34_bug_popped_task_dropped           propext, Quot.sound
Fdapde.Threads.C34_bug_data_race                     propext, Quot.sound
Fdapde.Threads.C31_linearizable                      propext, Quot.sound
Fdapde.Threads.C31_mutual_exclusion                  propext, Quot.sound
Fdapde.Threads.C31_fifo                              propext, Quot.sound
Fdapde.Threads.C31_pop_fails_iff_empty               propext, Quot.sound
Fdapde.Threads.C31_bug_unlocked_empty                none
Fdapde.Threads.C145_race_free_partial                propext, Classical.choice, Quot.sound
Fdapde.Threads.C145_argument_visible                 propext, Classical.choice, Quot.sound
Fdapde.Threads.C145_result_visible                   propext, Quot.sound
Fdapde.Threads.C145_bug_sync                         propext, Quot.sound
Fdapde.Threads.C145_bug_sync_result                  propext, Quot.sound
Fdapde.Threads.C145_bug_sync_queue                   propext, Quot.sound
Fdapde.Threads.C145_bug_shutdown                     propext, Quot.sound
Fdapde.Triang.C18_edges_once                         propext, Classical.choice, Quot.sound
Fdapde.Triang.C18_edges_traversal                    propext, Classical.choice, Quot.sound
Fdapde.Triang.C18_bug_three_triangles                propext
Fdapde.Triang.C19_neighbours                         propext, Classical.choice, Quot.sound
Fdapde.Triang.C20_boundary_edges                     propext, Classical.choice, Quot.sound
Fdapde.Triang.C20_boundary_edges_traversal           propext, Classical.choice, Quot.sound
Fdapde.Triang.C18_cells_traversal                    propext, Classical.choice, Quot.sound
Fdapde.Triang.C21_bug_interior                       propext, Classical.choice, Quot.sound
Fdapde.Triang.C21_bug_never_right                    propext, Classical.choice, Quot.sound
Fdapde.Triang.C21_increasing_partial                 propext, Classical.choice, Quot.sound
Fdapde.Triang.C22_bug_last_missing                   propext, Classical.choice, Quot.sound
Fdapde.Triang.C22_yields                             propext, Classical.choice, Quot.sound
Fdapde.Triang.C22_complete_partial                   propext, Classical.choice, Quot.sound
Fdapde.Triang.C23_faces                              propext, Classical.choice, Quot.sound
Fdapde.Triang.C159_edges_listed                      propext, Classical.choice, Quot.sound
Fdapde.Triang.C159_faces_listed                      propext, Classical.choice, Quot.sound
Fdapde.Triang.C159_count2                            propext, Classical.choice, Quot.sound
Fdapde.Triang.C159_count3                            propext, Classical.choice, Quot.sound
Fdapde.Triang.C159_boundary_curves                   propext, Classical.choice, Quot.sound
Fdapde.Triang.C159_boundary_surface                  propext, Classical.choice, Quot.sound
Fdapde.Triang.C159_surface_closed                    propext, Classical.choice, Quot.sound
Fdapde.Triang.C159_surface_call_partial              propext, Classical.choice, Quot.sound
Fdapde.Triang.C97_edges                              propext, Classical.choice, Quot.sound
Fdapde.Triang.C97_face_edges                         propext, Classical.choice, Quot.sound
Fdapde.Triang.C97_cell_edges                         propext, Classical.choice, Quot.sound
Fdapde.Triang.C97_markers                            propext, Classical.choice, Quot.sound
Fdapde.Triang.C97_boundary_partial                   propext, Classical.choice, Quot.sound
Fdapde.Triang.C97_bug_interior_edge                  propext, Quot.sound
Fdapde.Triang.C98_boundary_cell_partial              propext, Classical.choice, Quot.sound
Fdapde.Triang.C98_iff                                propext, Classical.choice, Quot.sound
Fdapde.Triang.C98_bug_inner_cell                     propext, Quot.sound
Fdapde.Triang.C125_boundary                          propext, Classical.choice, Quot.sound
Fdapde.Triang.C125_frontier                          propext, Classical.choice, Quot.sound
Fdapde.Triang.C125_triangle                          propext, Classical.choice, Quot.sound
Fdapde.Triang.C125_tetrahedron                       propext, Classical.choice, Quot.sound
Fdapde.Triang.C125_face_edges                        propext, Classical.choice, Quot.sound
Fdapde.Triang.C125_tet_edges                         propext, Classical.choice, Quot.sound
Fdapde.Triang.C125_unit_partial                      propext, Classical.choice, Quot.sound
Fdapde.Triang.C125_bug_unit                          propext, Classical.choice, Quot.sound
Fdapde.Triang.C115_cells_ends                        propext, Classical.choice, Quot.sound
Fdapde.Triang.C115_cells_steps                       propext, Classical.choice, Quot.sound
Fdapde.Triang.C115_cells_history                     propext, Classical.choice, Quot.sound
Fdapde.Triang.C115_cells_backward                    propext, Classical.choice, Quot.sound
Fdapde.Triang.C115_cells_forward                     propext, Classical.choice, Quot.sound
Fdapde.Triang.C115_cells_jump                        propext, Classical.choice, Quot.sound
Fdapde.Triang.C115_bug_plus                          propext, Classical.choice, Quot.sound
Fdapde.Triang.C115_all_partial                       propext, Classical.choice, Quot.sound
Fdapde.Triang.C115_bug_faces                         propext, Classical.choice, Quot.sound
Fdapde.Triang.C115_bug_edges_end                     propext, Classical.choice, Quot.sound
Fdapde.Triang.C115_bug_decrement                     propext, Classical.choice, Quot.sound
Fdapde.Triang.C115_bug_backward                      propext, Classical.choice, Quot.sound
Fdapde.Triang.C99_bug_last_face                      propext, Classical.choice, Quot.sound
Fdapde.Triang.C99_surface_partial                    propext, Classical.choice, Quot.sound
Fdapde.Triang.C99_bug_tetrahedron                    propext
Fdapde.Utils.C78_histories_partial                   propext, Quot.sound
Fdapde.Utils.C78_no_leak_partial                     propext, Quot.sound
Fdapde.Utils.C78_bug_self_assignment                 propext, Quot.sound
Fdapde.Utils.C78_bug_self_move                       propext, Quot.sound
Fdapde.Utils.C79_dispatch                            propext, Classical.choice, Quot.sound
Fdapde.Utils.C79_bug_many_methods                    propext, Classical.choice, Quot.sound
Fdapde.Utils.C79_unknown_interface                   propext, Classical.choice, Quot.sound
Fdapde.Utils.C80_wrapper_partial                     propext, Quot.sound
Fdapde.Utils.C80_bug_moved_from                      propext, Classical.choice, Quot.sound
Fdapde.Utils.C80_bug_copy_of_empty                   none
Fdapde.Utils.C80_assign                              none
Fdapde.Utils.C114_ranges                             propext, Quot.sound
Fdapde.Utils.C114_equal                              propext, Quot.sound
Fdapde.Utils.C114_last                               propext, Quot.sound
Fdapde.Utils.C114_pairs                              propext, Quot.sound
Fdapde.Utils.C90_solve                               propext, Quot.sound
Fdapde.Utils.C90_info                                propext, Quot.sound
Fdapde.Utils.C90_bool_partial                        propext, Quot.sound
Fdapde.Utils.C90_bug_stale_flag                      propext
Fdapde.Utils.C106_shared                             propext, Classical.choice, Quot.sound
Fdapde.Utils.C106_non_owning_partial                 propext, Quot.sound
Fdapde.Utils.C106_non_owning_quiet                   propext, Quot.sound
Fdapde.Utils.C106_non_owning_dangling                propext, Quot.sound
Fdapde.Utils.C106_bug_nonconst_copy                  propext, Quot.sound
Fdapde.Utils.C84_meaning                             propext, Classical.choice, Quot.sound
Fdapde.Utils.C84_relation                            propext, Classical.choice, Quot.sound
Fdapde.Utils.C84_not_transitive                      propext, Classical.choice, Quot.sound
Fdapde.Utils.C88_branches                            propext, Classical.choice, Quot.sound
Fdapde.Utils.C88_relative_error                      propext, Classical.choice, Quot.sound
Fdapde.Utils.C89_lexicographic                       propext
Fdapde.Utils.C89_strict_total                        propext
Fdapde.Utils.C81_has_type                            propext
Fdapde.Utils.C81_unique_types                        propext, Quot.sound
Fdapde.Utils.C81_index_of                            propext, Classical.choice, Quot.sound
Fdapde.Utils.C81_bug_index_of_repeated               none
Fdapde.Utils.C81_split                               propext, Quot.sound
Fdapde.Utils.C81_switch                              propext
Fdapde.Utils.C81_get                                 propext, Classical.choice, Quot.sound
Fdapde.Utils.C81_merge                               propext, Quot.sound
Fdapde.Utils.C81_has_instance_of                     propext, Quot.sound
Fdapde.Utils.C81_is_instance_of                      propext, Quot.sound
Fdapde.Utils.C81_bug_two_arguments                   propext
