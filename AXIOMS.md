# Axioms of every theorem named in MANIFEST.json

Generated by `tools/report.py` from Lean's `#print axioms`.

| theorem | file | axioms |
|---|---|---|
| `Heat.chunk_partition` | Props/Chunk.lean | propext, Classical.choice, Quot.sound |
| `Heat.chunk_owner_unique` | Props/Chunk.lean | propext, Classical.choice, Quot.sound |
| `Heat.chunk_invalid_split` | Props/Chunk.lean | propext, Quot.sound |
| `Heat.chunk_none` | Props/Chunk.lean | propext |
| `Heat.chunk_balanced` | Props/Chunk.lean | propext, Quot.sound |
| `Heat.counts_displs_shape_eq_chunk` | Props/Chunk.lean | propext, Quot.sound |
| `Heat.sanitize_axis_ok_iff` | Props/StrideTricks.lean | propext, Classical.choice, Quot.sound |
| `Heat.sanitize_axis_error_iff` | Props/StrideTricks.lean | propext, Classical.choice, Quot.sound |
| `Heat.sanitize_axis_none` | Props/StrideTricks.lean | propext |
| `Heat.sanitize_axis_idem` | Props/StrideTricks.lean | propext, Classical.choice, Quot.sound |
| `Heat.sanitize_axes_componentwise` | Props/StrideTricks.lean | propext, Classical.choice, Quot.sound |
| `Heat.broadcast_shapes_spec` | Props/StrideTricks.lean | propext, Classical.choice, Quot.sound |
| `Heat.broadcast_shapes_error` | Props/StrideTricks.lean | propext, Classical.choice, Quot.sound |
| `Heat.broadcast_shape_eq` | Props/StrideTricks.lean | propext |
| `Heat.broadcast_shapes_set` | Props/StrideTricks.lean | propext, Classical.choice, Quot.sound |
| `Heat.broadcast_shapes_assoc` | Props/StrideTricks.lean | propext, Quot.sound |
| `Heat.broadcast_shape_comm` | Props/StrideTricks.lean | propext, Classical.choice, Quot.sound |
| `Heat.broadcast_shape_self` | Props/StrideTricks.lean | propext, Classical.choice, Quot.sound |
| `Heat.counts_displs_ownership` | Props/Dist.lean | propext, Classical.choice, Quot.sound |
| `Heat.is_balanced_iff` | Props/Dist.lean | propext, Quot.sound |
| `Heat.is_balanced_iff_spec` | Props/Dist.lean | propext, Quot.sound |
| `Heat.redistribute_spec` | Props/Dist.lean | propext, Classical.choice, Quot.sound |
| `Heat.redistribute_bad_sum` | Props/Dist.lean | propext, Quot.sound |
| `Heat.redistribute_needs_two_passes` | Props/Dist.lean | propext |
| `Heat.balance_spec` | Props/Dist.lean | propext, Classical.choice, Quot.sound |
| `Heat.balance_idem` | Props/Dist.lean | propext, Quot.sound |
| `Heat.collect_spec` | Props/Dist.lean | propext, Classical.choice, Quot.sound |
| `Heat.collect_out_of_bounds` | Props/Dist.lean | none |
| `Heat.collect_negative` | Props/Dist.lean | propext, Quot.sound |
| `Heat.lshape_map_fresh_partial` | Props/LshapeCache.lean | propext, Classical.choice, Quot.sound |
| `Heat.lshape_map_stale_after_larray` | Props/LshapeCache.lean | propext |
| `Heat.lshape_map_wrong_after_padded_target` | Props/LshapeCache.lean | propext |
| `Heat.resplit_inplace_partial` | Props/Resplit.lean | propext, Classical.choice, Quot.sound |
| `Heat.resplit_to_none` | Props/Resplit.lean | propext, Classical.choice, Quot.sound |
| `Heat.resplit_from_none` | Props/Resplit.lean | propext, Quot.sound |
| `Heat.resplit_inplace_large_violated` | Props/Resplit.lean | propext, Quot.sound |
| `Heat.resplit_balanced_partial` | Props/Resplit.lean | propext, Classical.choice, Quot.sound |
| `Heat.resplit_unbalanced_violated` | Props/Resplit.lean | propext |
| `Heat.getitemSlice_partial` | Props/Indexing.lean | propext, Classical.choice, Quot.sound |
| `Heat.getitemSlice_stop_beyond_violated` | Props/Indexing.lean | propext |
| `Heat.getitemSlice_start_before_violated` | Props/Indexing.lean | propext |
| `Heat.getitemSlice_crossing_violated` | Props/Indexing.lean | propext |
| `Heat.getitemInt_spec` | Props/Indexing.lean | propext, Classical.choice, Quot.sound |
| `Heat.getitemList_partial` | Props/Indexing.lean | propext, Classical.choice, Quot.sound |
| `Heat.sorted_owner_order` | Props/Indexing.lean | propext, Quot.sound |
| `Heat.getitemList_order_violated` | Props/Indexing.lean | propext |
| `Heat.getitemList_negative_violated` | Props/Indexing.lean | propext |
| `Heat.getitemList_single_violated` | Props/Indexing.lean | propext, Classical.choice, Quot.sound |
| `Heat.setitemSlice_partial` | Props/Indexing.lean | propext, Classical.choice, Quot.sound |
| `Heat.setitemSlice_negative_start_violated` | Props/Indexing.lean | propext |
| `Heat.setitemSlice_stop_before_violated` | Props/Indexing.lean | propext |
| `Heat.setitemSlice_unbalanced_violated` | Props/Indexing.lean | propext |
| `Heat.setitemInt_partial` | Props/Indexing.lean | propext, Classical.choice, Quot.sound |
| `Heat.setitemInt_out_of_range` | Props/Indexing.lean | propext, Quot.sound |
| `Heat.setitemInt_unbalanced_violated` | Props/Indexing.lean | propext |
| `Heat.setitemInt_unbalanced_wrong_slab_violated` | Props/Indexing.lean | propext |
| `Heat.halo_window_partial` | Props/Halo.lean | propext, Classical.choice, Quot.sound |
| `Heat.halo_matched_partial` | Props/Halo.lean | propext, Classical.choice, Quot.sound |
| `Heat.halo_too_large` | Props/Halo.lean | propext, Quot.sound |
| `Heat.halo_single_populated_violated` | Props/Halo.lean | propext, Quot.sound |
| `Heat.reduce_spec` | Props/Reduce.lean | propext, Quot.sound |
| `Heat.reduce_exists` | Props/Reduce.lean | propext, Quot.sound |
| `Heat.sum_spec` | Props/Reduce.lean | propext, Quot.sound |
| `Heat.all_spec` | Props/Reduce.lean | propext, Quot.sound |
| `Heat.any_spec` | Props/Reduce.lean | propext, Quot.sound |
| `Heat.max_spec_partial` | Props/Reduce.lean | propext, Quot.sound |
| `Heat.max_int_min_violated` | Props/Reduce.lean | propext |
| `Heat.cum_spec` | Props/Reduce.lean | propext, Quot.sound |
| `Heat.reduceMeta_partial` | Props/Reduce.lean | propext, Classical.choice, Quot.sound |
| `Heat.reduceMeta_1d_violated` | Props/Reduce.lean | propext, Quot.sound |
| `Heat.reduceMeta_all_axes_violated` | Props/Reduce.lean | propext, Quot.sound |
| `Heat.reduceMeta_none_keepdims_violated` | Props/Reduce.lean | propext, Quot.sound |
| `Heat.binaryOp_spec_partial` | Props/BinaryOp.lean | propext, Classical.choice, Quot.sound |
| `Heat.binaryOp_flag_truthful` | Props/BinaryOp.lean | propext, Classical.choice, Quot.sound |
| `Heat.binaryOp_mismatch` | Props/BinaryOp.lean | propext |
| `Heat.binaryOp_empty_scalar_violated` | Props/BinaryOp.lean | propext |
| `Heat.binaryOp_balanced_flag_violated` | Props/BinaryOp.lean | propext |
| `Heat.promote_types_least` | Props/Types.lean | propext, Quot.sound |
| `Heat.promote_types_comm` | Props/Types.lean | propext |
| `Heat.promote_types_self` | Props/Types.lean | propext |
| `Heat.promote_types_assoc` | Props/Types.lean | propext |
| `Heat.promote_types_bound` | Props/Types.lean | propext, Quot.sound |
| `Heat.result_type_order_category_partial` | Props/Types.lean | propext |
| `Heat.result_type_order_kind_partial` | Props/Types.lean | propext, Quot.sound |
| `Heat.result_type_order_two_partial` | Props/Types.lean | propext, Quot.sound |
| `Heat.result_type_total` | Props/Types.lean | propext, Quot.sound |
| `Heat.result_type_order_violated` | Props/Types.lean | propext |
| `Heat.can_cast_safe_refl` | Props/Types.lean | propext |
| `Heat.can_cast_safe_trans` | Props/Types.lean | propext |
| `Heat.can_cast_safe_antisymm` | Props/Types.lean | propext |
| `Heat.can_cast_hierarchy` | Props/Types.lean | propext |
| `Heat.can_cast_same_kind_equiv` | Props/Types.lean | propext |
| `Heat.can_cast_safe_exact_partial` | Props/Types.lean | propext, Classical.choice, Quot.sound |
| `Heat.can_cast_safe_exact_violated` | Props/Types.lean | propext, Classical.choice, Quot.sound |
| `Heat.random_split0_partial` | Props/Random.lean | propext, Classical.choice, Quot.sound |
| `Heat.random_none_partial` | Props/Random.lean | propext, Classical.choice, Quot.sound |
| `Heat.random_array_partial` | Props/Random.lean | propext, Classical.choice, Quot.sound |
| `Heat.random_array_violated` | Props/Random.lean | propext, Quot.sound |
| `Heat.random_large_violated` | Props/Random.lean | propext |
| `Heat.random_split1_violated` | Props/Random.lean | propext, Quot.sound |
| `Heat.random_streams_disjoint_partial` | Props/Random.lean | propext, Classical.choice, Quot.sound |
| `Heat.random_counter_agrees` | Props/Random.lean | propext |
| `Heat.random_pairs_distinct_partial` | Props/Random.lean | propext, Classical.choice, Quot.sound |
| `Heat.random_streams_violated` | Props/Random.lean | none |
| `Heat.threefry32_bijective` | Props/Random.lean | propext, Classical.choice, Quot.sound |
| `Heat.threefry64_bijective` | Props/Random.lean | propext, Classical.choice, Quot.sound |
| `Heat.rand32_range` | Props/Random.lean | propext, Classical.choice, Quot.sound |
| `Heat.rand64_range` | Props/Random.lean | propext, Classical.choice, Quot.sound |
| `Heat.randint_range` | Props/Random.lean | propext, Classical.choice, Quot.sound |
| `Heat.randint_empty_range` | Props/Random.lean | propext |
| `Heat.randint_total` | Props/Random.lean | propext, Quot.sound |
| `Heat.threefry_state_roundtrip` | Props/Random.lean | propext |
| `Heat.localseed_invariant` | Props/Random.lean | propext, Quot.sound |
| `Heat.batchparallel_state_roundtrip_partial` | Props/Random.lean | propext, Quot.sound |
| `Heat.set_state_batchparallel_violated` | Props/Random.lean | none |
| `Heat.set_state_position_violated` | Props/Random.lean | none |
| `Heat.permutation_spec_partial` | Props/Exchange.lean | propext, Classical.choice, Quot.sound |
| `Heat.permutation_unbalanced_violated` | Props/Exchange.lean | propext |
| `Heat.permutation_hang_violated` | Props/Exchange.lean | propext |
| `Heat.arange_spec_partial` | Props/Factories.lean | propext, Classical.choice, Quot.sound |
| `Heat.arangeNum_exact` | Props/Factories.lean | propext, Classical.choice, Quot.sound |
| `Heat.arange_negative_violated` | Props/Factories.lean | propext, Classical.choice, Quot.sound |
| `Heat.arange_int32_violated` | Props/Factories.lean | propext, Classical.choice, Quot.sound |
| `Heat.arange_size_violated` | Props/Factories.lean | propext, Classical.choice, Quot.sound |
| `Heat.eye_spec` | Props/Factories.lean | propext, Classical.choice, Quot.sound |
| `Heat.linspace_spec` | Props/Factories.lean | propext, Classical.choice, Quot.sound |
| `Heat.linspace_negative` | Props/Factories.lean | propext, Classical.choice, Quot.sound |
| `Heat.linspace_last` | Props/Factories.lean | propext, Classical.choice, Quot.sound |
| `Heat.array_split_spec` | Props/Factories.lean | propext, Quot.sound |
| `Heat.array_is_split_spec` | Props/Factories.lean | propext, Classical.choice, Quot.sound |
| `Heat.checked_nonneg_iff` | Props/Factories.lean | propext, Classical.choice, Quot.sound |
| `Heat.consistent_iff` | Props/Factories.lean | propext, Classical.choice, Quot.sound |
| `Heat.roll_spec` | Props/Exchange.lean | propext, Classical.choice, Quot.sound |
| `Heat.flip_spec` | Props/Exchange.lean | propext, Classical.choice, Quot.sound |
| `Heat.diagonal_spec_partial` | Props/Diag.lean | propext, Classical.choice, Quot.sound |
| `Heat.diagonal_equal_axes` | Props/Diag.lean | propext, Classical.choice, Quot.sound |
| `Heat.diagonal_unbalanced_violated` | Props/Diag.lean | propext, Quot.sound |
| `Heat.diag_vector_spec` | Props/Diag.lean | propext, Classical.choice, Quot.sound |
| `Heat.reshape_spec_partial` | Props/Reshape.lean | propext, Classical.choice, Quot.sound |
| `Heat.reshape_wrong_size` | Props/Reshape.lean | propext |
| `Heat.reshape_to_0d_violated` | Props/Reshape.lean | propext |
| `Heat.reshape_mutates_violated` | Props/Reshape.lean | propext |
| `Heat.rep_flat` | Props/Reshape.lean | propext, Classical.choice, Quot.sound |
| `Heat.rep_resplitTo` | Props/Reshape.lean | propext, Classical.choice, Quot.sound |
| `Heat.transpose_sound` | Props/ND.lean | propext, Classical.choice, Quot.sound |
| `Heat.transpose_complete` | Props/ND.lean | propext, Classical.choice, Quot.sound |
| `Heat.transpose_default` | Props/ND.lean | propext, Classical.choice, Quot.sound |
| `Heat.moveaxis_spec` | Props/ND.lean | propext, Classical.choice, Quot.sound |
| `Heat.moveaxis_length_mismatch` | Props/ND.lean | propext, Classical.choice, Quot.sound |
| `Heat.swapaxes_spec` | Props/ND.lean | propext, Classical.choice, Quot.sound |
| `Heat.expand_dims_spec_partial` | Props/ND.lean | propext, Classical.choice, Quot.sound |
| `Heat.expand_dims_unsorted_violated` | Props/ND.lean | propext |
| `Heat.expand_dims_negative_violated` | Props/ND.lean | propext |
| `Heat.squeeze_spec_partial` | Props/ND.lean | propext, Classical.choice, Quot.sound |
| `Heat.squeeze_one_iff` | Props/ND.lean | propext, Quot.sound |
| `Heat.squeeze_repeated_violated` | Props/ND.lean | propext, Quot.sound |
| `Heat.squeeze_mutates_violated` | Props/ND.lean | propext, Quot.sound |
| `Heat.stack_spec` | Props/ND.lean | propext, Classical.choice, Quot.sound |
| `Heat.rep_resplitNone` | Props/ND.lean | propext, Classical.choice, Quot.sound |
| `Heat.nonzero_spec_partial` | Props/Diag.lean | propext, Classical.choice, Quot.sound |
| `Heat.nonzero_order_partial` | Props/Diag.lean | propext, Classical.choice, Quot.sound |
| `Heat.nonzero_replicated` | Props/Diag.lean | propext, Classical.choice, Quot.sound |
| `Heat.nonzero_unbalanced_violated` | Props/Diag.lean | propext |
| `Heat.nonzero_order_violated` | Props/Diag.lean | propext |
| `Heat.where_spec_partial` | Props/Diag.lean | propext |
| `Heat.where_nonbool_violated` | Props/Diag.lean | propext |
| `Heat.where_inf_violated` | Props/Diag.lean | propext |
| `Heat.fill_diagonal_spec_partial` | Props/Diag.lean | propext, Classical.choice, Quot.sound |
| `Heat.fill_diagonal_invalid` | Props/Diag.lean | propext |
| `Heat.fill_diagonal_unbalanced_violated` | Props/Diag.lean | propext, Quot.sound |
| `Heat.large_count_describes` | Props/Datatype.lean | propext, Quot.sound |
| `Heat.large_count_refused_iff` | Props/Datatype.lean | propext |
| `Heat.large_count_committed` | Props/Datatype.lean | propext, Quot.sound |
| `Heat.large_count_uncommitted_violated` | Props/Datatype.lean | propext, Quot.sound |
| `Heat.cast_spec` | Props/Diag.lean | propext, Quot.sound |
| `Heat.cast_replicated` | Props/Diag.lean | none |
| `Heat.cast_invalid` | Props/Diag.lean | none |
| `Heat.exchange_terminates` | Props/Mpi.lean | propext, Quot.sound |
| `Heat.exchange_schedule_independent` | Props/Mpi.lean | propext, Quot.sound |
| `Heat.ordered_transfers` | Props/Mpi.lean | propext, Classical.choice, Quot.sound |
| `Heat.ordered_transfers_terminate` | Props/Mpi.lean | propext, Classical.choice, Quot.sound |
| `Heat.sanitize_distribution_spec` | Props/BinaryOp.lean | propext, Classical.choice, Quot.sound |
| `Heat.sanitize_distribution_broadcast` | Props/BinaryOp.lean | propext |
| `Heat.sanitize_distribution_mismatch` | Props/BinaryOp.lean | none |
| `Heat.partition_split_partial` | Props/Partition.lean | propext, Classical.choice, Quot.sound |
| `Heat.partition_none` | Props/Partition.lean | propext, Classical.choice, Quot.sound |
| `Heat.partition_float_violated` | Props/Partition.lean | propext |
| `Heat.from_partitioned_split_partial` | Props/Partition.lean | propext, Classical.choice, Quot.sound |
| `Heat.from_partitioned_none` | Props/Partition.lean | propext, Quot.sound |
| `Heat.from_partitioned_violated` | Props/Partition.lean | propext |
| `Heat.canonical_order` | Props/Types.lean | propext, Quot.sound |
| `Heat.char_roundtrip_partial` | Props/Types.lean | propext, Quot.sound |
| `Heat.char_roundtrip_violated` | Props/Types.lean | none |
| `Heat.array_of_dndarray_partial` | Props/Factories.lean | propext, Classical.choice, Quot.sound |
| `Heat.array_dtype_violated` | Props/Factories.lean | propext |
| `Heat.array_dtype_split_violated` | Props/Factories.lean | propext |
| `Heat.arange_exact_partial` | Props/Factories.lean | propext, Classical.choice, Quot.sound |
| `Heat.arange_float_size_violated` | Props/Factories.lean | propext, Classical.choice, Quot.sound |
| `Heat.seed_reproducible` | Props/Random.lean | none |
| `Heat.ranks_agree_on_stream` | Props/Random.lean | none |
| `Heat.seed_restarts` | Props/Random.lean | propext |
| `Heat.noncontiguous_describes` | Props/Datatype.lean | propext, Classical.choice, Quot.sound |
| `Heat.noncontiguous_1d_describes` | Props/Datatype.lean | propext, Classical.choice, Quot.sound |
| `Heat.contiguous_describes` | Props/Datatype.lean | propext, Quot.sound |
| `Heat.noncontiguous_rows` | Props/Datatype.lean | propext, Classical.choice, Quot.sound |
| `Heat.contiguous_rows_partial` | Props/Datatype.lean | propext, Quot.sound |
| `Heat.contiguous_rows_violated` | Props/Datatype.lean | propext |
| `Heat.allgather_block_partial` | Props/Datatype.lean | propext, Quot.sound |
| `Heat.allgather_block_violated` | Props/Datatype.lean | propext, Quot.sound |
| `Heat.recursive_describes_partial` | Props/Datatype.lean | propext, Classical.choice, Quot.sound |
| `Heat.recursive_describes_violated` | Props/Datatype.lean | propext, Quot.sound |
| `Heat.alltoallw_block_partial` | Props/Datatype.lean | propext, Classical.choice, Quot.sound |
| `Heat.alltoallw_empty` | Props/Datatype.lean | propext, Quot.sound |
| `Heat.alltoall_send` | Props/Datatype.lean | propext, Classical.choice, Quot.sound |
| `Heat.alltoall_recv` | Props/Datatype.lean | propext, Classical.choice, Quot.sound |
| `Heat.alltoall_resplits` | Props/Datatype.lean | propext, Classical.choice, Quot.sound |
| `Heat.alltoall_lengths` | Props/Datatype.lean | propext, Classical.choice, Quot.sound |
| `Heat.alltoall_axes` | Props/Datatype.lean | propext, Quot.sound |
| `Heat.argmax_spec_partial` | Props/Arg.lean | propext, Classical.choice, Quot.sound |
| `Heat.argmax_1d_partial` | Props/Arg.lean | propext, Classical.choice, Quot.sound |
| `Heat.argmax_flat_partial` | Props/Arg.lean | propext, Classical.choice, Quot.sound |
| `Heat.argmax_columns_partial` | Props/Arg.lean | propext, Classical.choice, Quot.sound |
| `Heat.argmax_commute_violated` | Props/Arg.lean | propext, Quot.sound |
| `Heat.argmax_unbalanced_violated` | Props/Arg.lean | none |
| `Heat.argmax_flat_violated` | Props/Arg.lean | none |
| `Heat.argmax_split1_violated` | Props/Arg.lean | none |
| `Heat.argmax_int64_violated` | Props/Arg.lean | none |
| `Heat.argmax_neutral_violated` | Props/Arg.lean | none |
| `Heat.sort_spec_partial` | Props/Sort.lean | propext, Classical.choice, Quot.sound |
| `Heat.sendVec_spec` | Proof/Sort.lean | propext, Classical.choice, Quot.sound |
| `Heat.pivots_spec` | Props/Sort.lean | propext, Classical.choice, Quot.sound |
| `Heat.sort_default_axis_violated` | Props/Sort.lean | propext, Classical.choice, Quot.sound |
| `Heat.sort_empty_violated` | Props/Sort.lean | propext, Classical.choice, Quot.sound |
| `Heat.sort_unbalanced_violated` | Props/Sort.lean | propext |
| `Heat.sort_index_type_violated` | Props/Sort.lean | propext, Classical.choice, Quot.sound |
| `Heat.sort_index_float32_violated` | Props/Sort.lean | propext |
| `Heat.concat_spec_partial` | Props/Concat.lean | propext, Classical.choice, Quot.sound |
| `Heat.concat2_spec_partial` | Props/Concat.lean | propext, Classical.choice, Quot.sound |
| `Heat.concat_schedule` | Props/Concat.lean | propext, Classical.choice, Quot.sound |
| `Heat.concat_few` | Props/Concat.lean | propext, Classical.choice, Quot.sound |
| `Heat.concat_across` | Props/Concat.lean | propext, Quot.sound |
| `Heat.concat_across_mismatch` | Props/Concat.lean | none |
| `Heat.concat_across_left_partial` | Props/Concat.lean | propext, Quot.sound |
| `Heat.concat_across_right_partial` | Props/Concat.lean | propext, Quot.sound |
| `Heat.concat_path` | Props/Concat.lean | propext, Quot.sound |
| `Heat.concat_order_violated` | Props/Concat.lean | propext |
| `Heat.concat_unit_axis_violated` | Props/Concat.lean | propext |
| `Heat.concat_across_violated` | Props/Concat.lean | propext |
| `Heat.mean_all_spec` | Props/Moments.lean | propext, Classical.choice, Quot.sound |
| `Heat.mean_axis_spec_partial` | Props/Moments.lean | propext, Classical.choice, Quot.sound |
| `Heat.mean_axis_nan` | Props/Moments.lean | propext, Classical.choice, Quot.sound |
| `Heat.var_all_spec_partial` | Props/Moments.lean | propext, Classical.choice, Quot.sound |
| `Heat.var_all_canonical` | Props/Moments.lean | propext, Classical.choice, Quot.sound |
| `Heat.var_axis_spec_partial` | Props/Moments.lean | propext, Classical.choice, Quot.sound |
| `Heat.var_axis_ddof1_partial` | Props/Moments.lean | propext, Classical.choice, Quot.sound |
| `Heat.moment_shape` | Props/Moments.lean | propext, Quot.sound |
| `Heat.moment_split1` | Props/Moments.lean | propext, Classical.choice, Quot.sound |
| `Heat.moment_splitN` | Props/Moments.lean | propext, Classical.choice, Quot.sound |
| `Heat.var_ddof` | Props/Moments.lean | propext, Classical.choice, Quot.sound |
| `Heat.skew_axis` | Props/Moments.lean | propext, Classical.choice, Quot.sound |
| `Heat.mean_unbalanced_violated` | Props/Moments.lean | propext, Classical.choice, Quot.sound |
| `Heat.var_axis_single_slab_violated` | Props/Moments.lean | propext, Classical.choice, Quot.sound |
| `Heat.var_axis_ddof1_violated` | Props/Moments.lean | propext, Classical.choice, Quot.sound |
| `Heat.var_axes_ddof1_violated` | Props/Moments.lean | propext, Classical.choice, Quot.sound |
| `Heat.mean_float32_violated` | Props/Moments.lean | propext, Classical.choice, Quot.sound |
| `Heat.moment_splitN_violated` | Props/Moments.lean | propext, Quot.sound |
| `Heat.skew_axis_violated` | Props/Moments.lean | none |
| `Heat.var_int_violated` | Props/Moments.lean | none |
| `Heat.bincount_dist` | Props/Counting.lean | propext, Classical.choice, Quot.sound |
| `Heat.bincount_agree` | Props/Counting.lean | propext |
| `Heat.bincount_rep` | Props/Counting.lean | none |
| `Heat.histc_dist` | Props/Counting.lean | propext, Quot.sound |
| `Heat.digitize_spec` | Props/Counting.lean | propext, Classical.choice, Quot.sound |
| `Heat.bincount_weights_violated` | Props/Counting.lean | propext |
| `Heat.outer_spec_partial` | Props/Outer.lean | propext, Classical.choice, Quot.sound |
| `Heat.outer_raises_iff` | Props/Outer.lean | propext, Classical.choice, Quot.sound |
| `Heat.outer_completes` | Props/Outer.lean | propext, Classical.choice, Quot.sound |
| `Heat.outer_split` | Props/Outer.lean | propext |
| `Heat.outer_deadlock_violated` | Props/Outer.lean | propext, Quot.sound |
| `Heat.outer_arguments_violated` | Props/Outer.lean | none |
| `Heat.kahn` | Proof/Kahn.lean | propext, Classical.choice, Quot.sound |
| `Heat.kahn_stuck` | Proof/Kahn.lean | propext, Classical.choice, Quot.sound |
| `Heat.tri_spec_partial` | Props/LinAlg.lean | propext, Classical.choice, Quot.sound |
| `Heat.tri_vector_spec_partial` | Props/LinAlg.lean | propext, Quot.sound |
| `Heat.tri_unbalanced_violated` | Props/LinAlg.lean | propext |
| `Heat.trace_matrix_spec_partial` | Props/LinAlg.lean | propext, Classical.choice, Quot.sound |
| `Heat.trace_nd_spec_partial` | Props/LinAlg.lean | propext, Classical.choice, Quot.sound |
| `Heat.trace_unbalanced_violated` | Props/LinAlg.lean | propext |
| `Heat.trace_axes_violated` | Props/LinAlg.lean | propext, Quot.sound |
| `Heat.trace_order_violated` | Props/LinAlg.lean | propext, Quot.sound |
| `Heat.trace_gather_axis_violated` | Props/LinAlg.lean | propext, Quot.sound |
| `Heat.trace_split_axis_violated` | Props/LinAlg.lean | propext, Quot.sound |
| `Heat.dot_spec_partial` | Props/LinAlg.lean | propext, Classical.choice, Quot.sound |
| `Heat.dot_unbalanced_violated` | Props/LinAlg.lean | propext |
| `Heat.dot_length_violated` | Props/LinAlg.lean | propext |
| `Heat.cdist_spec` | Props/Distance.lean | propext, Classical.choice, Quot.sound |
| `Heat.cdist_symmetric_spec` | Props/Distance.lean | propext, Classical.choice, Quot.sound |
| `Heat.cdist_completes` | Props/Distance.lean | propext, Classical.choice, Quot.sound |
| `Heat.cdist_symmetric_completes` | Props/Distance.lean | propext, Classical.choice, Quot.sound |
| `Heat.cdist_local_spec` | Props/Distance.lean | propext, Classical.choice, Quot.sound |
| `Heat.cdist_case` | Props/Distance.lean | propext, Classical.choice, Quot.sound |
| `Heat.cdist_zeros_violated` | Props/Distance.lean | none |
| `Heat.det_spec_partial` | Props/Gauss.lean | propext, Classical.choice, Quot.sound |
| `Heat.det_zero_or_right` | Props/Gauss.lean | propext, Classical.choice, Quot.sound |
| `Heat.det_isclose_violated` | Props/Gauss.lean | propext, Classical.choice, Quot.sound |
| `Heat.inv_spec_partial` | Props/Gauss.lean | propext, Classical.choice, Quot.sound |
| `Heat.inv_raises_iff_partial` | Props/Gauss.lean | propext, Classical.choice, Quot.sound |
| `Heat.inv_isclose_violated` | Props/Gauss.lean | propext, Classical.choice, Quot.sound |
| `Heat.matmul_spec` | Props/Matmul.lean | propext, Classical.choice, Quot.sound |
| `Heat.matmul_mismatch` | Props/Matmul.lean | propext, Quot.sound |
| `Heat.matmul_allow_spec` | Props/Matmul.lean | propext, Classical.choice, Quot.sound |
| `Heat.matvec_spec` | Props/Matvec.lean | propext, Classical.choice, Quot.sound |
| `Heat.vecmat_spec` | Props/Matvec.lean | propext, Classical.choice, Quot.sound |
| `Heat.matmul_right_or_raises` | Props/Matmul.lean | propext, Classical.choice, Quot.sound |
| `Heat.matvec_right_or_raises` | Props/Matvec.lean | propext, Classical.choice, Quot.sound |
| `Heat.vecmat_right_or_raises` | Props/Matvec.lean | propext, Classical.choice, Quot.sound |
| `Heat.matmul_1n_violated` | Props/Matmul.lean | propext, Quot.sound |
| `Heat.matmul_n0_violated` | Props/Matmul.lean | propext, Quot.sound |
| `Heat.vecvec_right_or_raises` | Props/Matvec.lean | propext, Quot.sound |
| `Heat.vecvec_spec` | Props/Matvec.lean | propext, Classical.choice, Quot.sound |
| `Heat.vecvec_lengths_violated` | Props/Matvec.lean | none |
| `Heat.vecvec_inplace_violated` | Props/Matvec.lean | none |
| `Heat.load_csv_spec` | Props/Csv.lean | propext, Classical.choice, Quot.sound |
| `Heat.load_csv_right_or_raises` | Props/Csv.lean | propext, Classical.choice, Quot.sound |
| `Heat.load_csv_schedule` | Props/Csv.lean | propext, Classical.choice, Quot.sound |
| `Heat.load_csv_completes` | Props/Csv.lean | propext, Classical.choice, Quot.sound |
| `Heat.lastLine_shared` | Props/Csv.lean | propext, Quot.sound |
| `Heat.load_csv_one_column_violated` | Props/Csv.lean | propext |
| `Heat.load_csv_long_line_violated` | Props/Csv.lean | propext |
| `Heat.load_csv_crlf_violated` | Props/Csv.lean | propext |
| `Heat.diff_spec` | Props/Diff.lean | propext, Classical.choice, Quot.sound |
| `Heat.diff_right_or_raises` | Props/Diff.lean | propext, Classical.choice, Quot.sound |
| `Heat.diff_gap_raises` | Props/Diff.lean | propext, Classical.choice, Quot.sound |
| `Heat.noGap_of_balanced` | Props/Diff.lean | propext, Classical.choice, Quot.sound |
| `Heat.diff_other_spec` | Props/Diff.lean | propext, Classical.choice, Quot.sound |
| `Heat.diff_local_spec` | Props/Diff.lean | propext |
| `Heat.diff_schedule` | Props/Diff.lean | propext, Classical.choice, Quot.sound |
| `Heat.diff_completes` | Props/Diff.lean | propext, Classical.choice, Quot.sound |
| `Heat.diff_too_often_violated` | Props/Diff.lean | propext |
| `Heat.diff_other_violated` | Props/Diff.lean | propext, Classical.choice, Quot.sound |
| `Heat.sparse_split_spec` | Props/Sparse.lean | propext, Classical.choice, Quot.sound |
| `Heat.sparse_indptr_spec` | Props/Sparse.lean | propext, Quot.sound |
| `Heat.sparse_entries_spec` | Props/Sparse.lean | propext, Quot.sound |
| `Heat.sparse_is_split_raises` | Props/Sparse.lean | propext, Quot.sound |
| `Heat.sparse_is_split_spec` | Props/Sparse.lean | propext, Quot.sound |
| `Heat.sparse_counts_violated` | Props/Sparse.lean | propext |
| `Heat.sparse_binary_spec` | Props/Sparse.lean | propext, Quot.sound |
| `Heat.sparse_type_spec` | Props/Sparse.lean | propext |
| `Heat.sparse_misaligned_violated` | Props/Sparse.lean | propext, Quot.sound |
| `Heat.sparse_type_violated` | Props/Sparse.lean | none |
| `Heat.dense_of_sparse` | Props/Sparse.lean | propext, Classical.choice, Quot.sound |
| `Heat.sparseRow_entries` | Props/Sparse.lean | propext, Quot.sound |
| `Heat.scalar_mul_dense` | Props/Sparse.lean | propext, Quot.sound |
| `Heat.sparse_binary_dense` | Props/Sparse.lean | propext, Quot.sound |
| `Heat.denseRow_append` | Props/Sparse.lean | propext, Quot.sound |
| `Heat.scalar_add_violated` | Props/Sparse.lean | none |
| `Heat.scalar_add_representation_violated` | Props/Sparse.lean | none |
| `Heat.unique_spec` | Props/Unique.lean | propext, Quot.sound |
| `Heat.unique_distribution` | Props/Unique.lean | propext, Quot.sound |
| `Heat.unique_sorted` | Props/Unique.lean | none |
| `Heat.unique_other_partial` | Props/Unique.lean | propext, Quot.sound |
| `Heat.unique_other_distinct_partial` | Props/Unique.lean | propext, Classical.choice, Quot.sound |
| `Heat.unique_other_violated` | Props/Unique.lean | propext |
| `Heat.unique_inverse_spec` | Props/Unique.lean | propext, Quot.sound |
| `Heat.unique_inverse_raises` | Props/Unique.lean | propext, Quot.sound |
| `Heat.unique_axis_inverse_partial` | Props/Unique.lean | propext, Classical.choice, Quot.sound |
| `Heat.unique_axis_inverse_violated` | Props/Unique.lean | propext |
| `Heat.unique_axis_inverse_split_violated` | Props/Unique.lean | propext |
| `Heat.topk_values_partial` | Props/Topk.lean | propext, Classical.choice, Quot.sound |
| `Heat.topk_short_violated` | Props/Topk.lean | none |
| `Heat.topk_neutral_violated` | Props/Topk.lean | propext, Quot.sound |
| `Heat.topk_too_many_violated` | Props/Topk.lean | propext, Quot.sound |
| `Heat.topk_int64_violated` | Props/Topk.lean | propext, Quot.sound |
| `Heat.topk_indices_partial` | Props/Topk.lean | propext, Classical.choice, Quot.sound |
| `Heat.topk_indices_one_partial` | Props/Topk.lean | propext, Classical.choice, Quot.sound |
| `Heat.topk_offset_violated` | Props/Topk.lean | propext, Quot.sound |
| `Heat.topk_index_violated` | Props/Topk.lean | propext, Quot.sound |
| `Heat.load_hdf5_spec` | Props/Hdf5.lean | propext, Classical.choice, Quot.sound |
| `Heat.load_hdf5_completes` | Props/Hdf5.lean | propext, Classical.choice, Quot.sound |
| `Heat.load_multiple_hdf5_spec` | Props/Hdf5.lean | propext, Classical.choice, Quot.sound |
| `Heat.load_multiple_hdf5_content` | Props/Hdf5.lean | propext, Classical.choice, Quot.sound |
| `Heat.save_hdf5_serial` | Props/Hdf5Save.lean | propext, Classical.choice, Quot.sound |
| `Heat.save_hdf5_spec` | Props/Hdf5Save.lean | propext, Classical.choice, Quot.sound |
| `Heat.save_hdf5_unbalanced` | Props/Hdf5Save.lean | propext, Classical.choice, Quot.sound |
| `Heat.save_hdf5_rank0_partial` | Props/Hdf5Save.lean | propext, Classical.choice, Quot.sound |
| `Heat.save_hdf5_early_return_violated` | Props/Hdf5Save.lean | propext, Quot.sound |
| `Heat.save_csv_text` | Props/SaveCsv.lean | propext, Classical.choice, Quot.sound |
| `Heat.save_csv_rows` | Props/SaveCsv.lean | propext, Classical.choice, Quot.sound |
| `Heat.save_csv_header_violated` | Props/SaveCsv.lean | propext, Classical.choice, Quot.sound |
| `Heat.save_csv_separator_violated` | Props/SaveCsv.lean | propext, Classical.choice, Quot.sound |
| `Heat.fmtInt_width` | Props/SaveCsv.lean | propext, Classical.choice, Quot.sound |
| `Heat.fmtInt_value` | Props/SaveCsv.lean | propext, Classical.choice, Quot.sound |
| `Heat.fmtInt_chars` | Props/SaveCsv.lean | propext, Classical.choice, Quot.sound |
| `Heat.save_csv_int` | Props/SaveCsv.lean | propext, Classical.choice, Quot.sound |
| `Heat.csv_roundtrip_int` | Props/SaveCsv.lean | propext, Classical.choice, Quot.sound |
| `Heat.fmtFloat_value` | Props/SaveCsv.lean | propext, Classical.choice, Quot.sound |
| `Heat.fmtFloat_error` | Props/SaveCsv.lean | propext, Classical.choice, Quot.sound |
| `Heat.fmtFloat_width_partial` | Props/SaveCsv.lean | propext, Classical.choice, Quot.sound |
| `Heat.save_csv_float_partial` | Props/SaveCsv.lean | propext, Classical.choice, Quot.sound |
| `Heat.save_csv_small_violated` | Props/SaveCsv.lean | propext, Classical.choice, Quot.sound |
| `Heat.save_csv_carry_violated` | Props/SaveCsv.lean | propext, Classical.choice, Quot.sound |
| `Heat.pad_spec_partial` | Props/Pad.lean | propext, Classical.choice, Quot.sound |
| `Heat.pad_other_spec` | Props/Pad.lean | propext, Classical.choice, Quot.sound |
| `Heat.pad_single_violated` | Props/Pad.lean | propext |
| `Heat.pad_unbalanced_violated` | Props/Pad.lean | propext |
| `Heat.convolve_right_partial` | Props/Convolve.lean | propext, Classical.choice, Quot.sound |
| `Heat.convolve_replicated_violated` | Props/Convolve.lean | propext, Classical.choice, Quot.sound |
| `Heat.convolve_unbalanced_violated` | Props/Convolve.lean | propext, Classical.choice, Quot.sound |
| `Heat.convolve_accepts` | Props/Convolve.lean | propext, Classical.choice, Quot.sound |
| `Heat.convolve_refuses` | Props/Convolve.lean | propext, Classical.choice, Quot.sound |
| `Heat.percentile_scalar_partial` | Props/Percentile.lean | propext, Classical.choice, Quot.sound |
| `Heat.percentile_list_partial` | Props/Percentile.lean | propext, Classical.choice, Quot.sound |
| `Heat.median_partial` | Props/Percentile.lean | propext, Classical.choice, Quot.sound |
| `Heat.percentile_unique` | Props/Percentile.lean | propext, Classical.choice, Quot.sound |
| `Heat.percentile_bounds` | Props/Percentile.lean | propext, Classical.choice, Quot.sound |
| `Heat.percentile_mono` | Props/Percentile.lean | propext, Classical.choice, Quot.sound |
| `Heat.percentile_negative_violated` | Props/Percentile.lean | propext, Classical.choice, Quot.sound |
| `Heat.percentile_unsorted_violated` | Props/Percentile.lean | propext, Classical.choice, Quot.sound |
| `Heat.percentile_single_violated` | Props/Percentile.lean | propext, Classical.choice, Quot.sound |
| `Heat.percentile_float32_violated` | Props/Percentile.lean | propext, Classical.choice, Quot.sound |
| `Heat.percentile_axes_partial` | Props/Percentile.lean | propext, Classical.choice, Quot.sound |
| `Heat.percentile_axes_violated` | Props/Percentile.lean | propext |
| `Heat.partial_fit_moments_partial` | Props/Naive.lean | propext, Classical.choice, Quot.sound |
| `Heat.batches_eq_fit_partial` | Props/Naive.lean | propext, Classical.choice, Quot.sound |
| `Heat.fit_spec` | Props/Naive.lean | propext, Classical.choice, Quot.sound |
| `Heat.prior_spec` | Props/Naive.lean | propext, Classical.choice, Quot.sound |
| `Heat.partial_fit_accepts` | Props/Naive.lean | propext, Classical.choice, Quot.sound |
| `Heat.combine_moments` | Props/Naive.lean | propext, Classical.choice, Quot.sound |
| `Heat.refused_batch_changes_state_violated` | Props/Naive.lean | propext, Classical.choice, Quot.sound |
| `Heat.refit_other_classes_violated` | Props/Naive.lean | propext, Quot.sound |
| `Heat.batches_smoothing_violated` | Props/Naive.lean | propext, Classical.choice, Quot.sound |
| `Heat.fit_predict_partial` | Props/NaivePredict.lean | propext, Classical.choice, Quot.sound |
| `Heat.predict_spec` | Props/NaivePredict.lean | propext, Classical.choice, Quot.sound |
| `Heat.predict_proba_spec` | Props/NaivePredict.lean | propext, Classical.choice, Quot.sound |
| `Heat.predict_proba_sum` | Props/NaivePredict.lean | propext, Classical.choice, Quot.sound |
| `Heat.jll_spec` | Props/NaivePredict.lean | propext, Classical.choice, Quot.sound |
| `Heat.logsumexp_spec` | Props/NaivePredict.lean | propext, Classical.choice, Quot.sound |
| `Heat.fit_sigma_pos` | Props/NaivePredict.lean | propext, Classical.choice, Quot.sound |
| `Heat.equal_spec_partial` | Props/Compare.lean | propext, Classical.choice, Quot.sound |
| `Heat.content_inj` | Props/Compare.lean | propext, Quot.sound |
| `Heat.equal_single_partial` | Props/Compare.lean | propext |
| `Heat.equal_single_violated` | Props/Compare.lean | propext |
| `Heat.allclose_partial` | Props/Compare.lean | propext, Classical.choice, Quot.sound |
| `Heat.allclose_unaligned_violated` | Props/Compare.lean | propext, Quot.sound |
| `Heat.allclose_unaligned_raises_violated` | Props/Compare.lean | none |
| `Heat.isclose_copies_violated` | Props/Compare.lean | propext, Classical.choice, Quot.sound |
| `Heat.isclose_uneven_violated` | Props/Compare.lean | propext, Classical.choice, Quot.sound |
| `Heat.isclose_replicated_partial` | Props/Compare.lean | propext, Quot.sound |
| `Heat.split_int_partial` | Props/Split.lean | propext, Classical.choice, Quot.sound |
| `Heat.split_int_few_partial` | Props/Split.lean | propext, Classical.choice, Quot.sound |
| `Heat.split_int_many_violated` | Props/Split.lean | propext, Quot.sound |
| `Heat.split_unbalanced_violated` | Props/Split.lean | propext |
| `Heat.split_list_partial` | Props/Split.lean | propext, Classical.choice, Quot.sound |
| `Heat.split_list_unsorted_violated` | Props/Split.lean | propext |
| `Heat.sectionSizes_spec` | Props/Split.lean | propext, Quot.sound |
| `Heat.tile_partial` | Props/Tile.lean | propext, Classical.choice, Quot.sound |
| `Heat.tile_empty_first_violated` | Props/Tile.lean | propext |
| `Heat.tileLoop_spec` | Props/Tile.lean | propext, Classical.choice, Quot.sound |
| `Heat.tileRecv_spec` | Props/Tile.lean | propext, Classical.choice, Quot.sound |
| `Heat.tileSendBuf_eq` | Props/Tile.lean | propext, Quot.sound |
| `Heat.repeat_int` | Props/Repeat.lean | propext, Classical.choice, Quot.sound |
| `Heat.repeat_array_partial` | Props/Repeat.lean | propext, Classical.choice, Quot.sound |
| `Heat.repeat_array_balanced_partial` | Props/Repeat.lean | propext, Classical.choice, Quot.sound |
| `Heat.repeat_uneven_violated` | Props/Repeat.lean | propext |
| `Heat.repeat_uneven_raises_violated` | Props/Repeat.lean | propext |
| `Heat.repeat_wrong_length_violated` | Props/Repeat.lean | propext, Classical.choice, Quot.sound |
| `Heat.repeat_empty_shape_violated` | Props/Repeat.lean | propext, Quot.sound |
| `Heat.unfold_windows` | Props/Unfold.lean | propext, Classical.choice, Quot.sound |
| `Heat.unfold_dtype_violated` | Props/Unfold.lean | propext, Classical.choice, Quot.sound |
| `Heat.unfoldLocal_spec` | Props/Unfold.lean | propext, Classical.choice, Quot.sound |
| `Heat.torchUnfold_stretch` | Props/Unfold.lean | propext, Classical.choice, Quot.sound |
| `Heat.kmeans_mean_partial` | Props/KCluster.lean | propext, Classical.choice, Quot.sound |
| `Heat.kmeans_monotone` | Props/KCluster.lean | propext, Classical.choice, Quot.sound |
| `Heat.kmeans_fit_partial` | Props/KCluster.lean | propext, Classical.choice, Quot.sound |
| `Heat.kmeans_empty_cluster_violated` | Props/KCluster.lean | propext, Classical.choice, Quot.sound |
| `Heat.kmeans_inertia_violated` | Props/KCluster.lean | propext, Classical.choice, Quot.sound |
| `Heat.kmeans_random_init_violated` | Props/KCluster.lean | propext, Classical.choice, Quot.sound |
| `Heat.nearest_spec` | Props/KCluster.lean | propext, Classical.choice, Quot.sound |
| `Heat.mean_minimises` | Props/KCluster.lean | propext, Classical.choice, Quot.sound |
| `Heat.kmedians_median_partial` | Props/KCluster.lean | propext, Classical.choice, Quot.sound |
| `Heat.kmedians_origin_violated` | Props/KCluster.lean | propext, Classical.choice, Quot.sound |
| `Heat.kmedoids_medoid_partial` | Props/KCluster.lean | propext, Classical.choice, Quot.sound |
| `Heat.kmedoids_replicated_violated` | Props/KCluster.lean | propext, Classical.choice, Quot.sound |
| `Heat.kmedoids_uneven_violated` | Props/KCluster.lean | propext |
| `Heat.cleanLocal_eq` | Props/KCluster.lean | propext, Classical.choice, Quot.sound |
| `Heat.findProc_owner` | Props/KCluster.lean | propext, Classical.choice, Quot.sound |
| `Heat.pickRow_balanced` | Props/KCluster.lean | propext, Classical.choice, Quot.sound |
| `Heat.lasso_coordinate_partial` | Props/Lasso.lean | propext, Classical.choice, Quot.sound |
| `Heat.lasso_fit_partial` | Props/Lasso.lean | propext, Classical.choice, Quot.sound |
| `Heat.lasso_optimal_partial` | Props/Lasso.lean | propext, Classical.choice, Quot.sound |
| `Heat.lasso_unnormalised_violated` | Props/Lasso.lean | propext, Classical.choice, Quot.sound |
| `Heat.lasso_replicated_violated` | Props/Lasso.lean | propext, Quot.sound |
| `Heat.standard_scaler_partial` | Props/Scaler.lean | propext, Classical.choice, Quot.sound |
| `Heat.scaler_calls` | Props/Scaler.lean | propext, Classical.choice, Quot.sound |
| `Heat.standard_flags_violated` | Props/Scaler.lean | propext, Classical.choice, Quot.sound |
| `Heat.scaler_inplace_violated` | Props/Scaler.lean | propext, Classical.choice, Quot.sound |
| `Heat.minmax_scaler` | Props/Scaler.lean | propext, Classical.choice, Quot.sound |
| `Heat.scaler_options` | Props/Scaler.lean | propext, Classical.choice, Quot.sound |
| `Heat.maxabs_scaler` | Props/Scaler.lean | propext, Classical.choice, Quot.sound |
| `Heat.normalizer` | Props/Scaler.lean | propext, Classical.choice, Quot.sound |
| `Heat.robust_scaler` | Props/Scaler.lean | propext, Classical.choice, Quot.sound |
| `Heat.robust_calls` | Props/Scaler.lean | propext, Classical.choice, Quot.sound |
| `Heat.isBetter_spec_partial` | Props/Plateau.lean | propext, Classical.choice, Quot.sound |
| `Heat.isBetter_first` | Props/Plateau.lean | propext, Classical.choice, Quot.sound |
| `Heat.test_fields` | Props/Plateau.lean | propext, Classical.choice, Quot.sound |
| `Heat.plateau_best_partial` | Props/Plateau.lean | propext, Classical.choice, Quot.sound |
| `Heat.plateau_streak` | Props/Plateau.lean | propext, Classical.choice, Quot.sound |
| `Heat.plateau_quiet` | Props/Plateau.lean | propext, Classical.choice, Quot.sound |
| `Heat.plateau_improvement` | Props/Plateau.lean | propext, Classical.choice, Quot.sound |
| `Heat.plateau_cooldown` | Props/Plateau.lean | propext, Classical.choice, Quot.sound |
| `Heat.plateau_checkpoint` | Props/Plateau.lean | propext, Classical.choice, Quot.sound |
| `Heat.plateau_bounded` | Props/Plateau.lean | propext, Classical.choice, Quot.sound |
| `Heat.plateau_negative_violated` | Props/Plateau.lean | propext, Classical.choice, Quot.sound |
| `Heat.plateau_return_violated` | Props/Plateau.lean | propext, Classical.choice, Quot.sound |
| `Heat.daso_training` | Props/Daso.lean | propext, Classical.choice, Quot.sound |
| `Heat.daso_train` | Props/Daso.lean | propext, Classical.choice, Quot.sound |
| `Heat.daso_reset` | Props/Daso.lean | propext, Classical.choice, Quot.sound |
| `Heat.daso_steps` | Props/Daso.lean | propext, Classical.choice, Quot.sound |
| `Heat.daso_epoch` | Props/Daso.lean | propext, Classical.choice, Quot.sound |
| `Heat.daso_blocking` | Props/Daso.lean | propext, Classical.choice, Quot.sound |
| `Heat.daso_phases` | Props/Daso.lean | propext, Quot.sound |
| `Heat.daso_within` | Props/Daso.lean | propext, Classical.choice, Quot.sound |
| `Heat.daso_receive_value` | Props/Daso.lean | propext, Classical.choice, Quot.sound |
| `Heat.daso_limits_partial` | Props/Daso.lean | propext, Quot.sound |
| `Heat.daso_skip_violated` | Props/Daso.lean | propext, Quot.sound |
| `Heat.daso_wait_violated` | Props/Daso.lean | propext, Quot.sound |
| `Heat.daso_last_batch_violated` | Props/Daso.lean | propext, Classical.choice, Quot.sound |
| `Heat.daso_unpack_partial` | Props/DasoPack.lean | propext, Classical.choice, Quot.sound |
| `Heat.daso_unpack_last_partial` | Props/DasoPack.lean | propext, Classical.choice, Quot.sound |
| `Heat.dasoChunkSizes_spec` | Props/DasoPack.lean | propext, Classical.choice, Quot.sound |
| `Heat.daso_unpack_violated` | Props/DasoPack.lean | none |
| `Heat.daso_unpack_large_violated` | Props/DasoPack.lean | none |
| `Heat.dp_gradient` | Props/DataParallel.lean | propext, Classical.choice, Quot.sound |
| `Heat.dp_same` | Props/DataParallel.lean | propext, Classical.choice, Quot.sound |
| `Heat.dp_zero_first_partial` | Props/DataParallel.lean | propext, Classical.choice, Quot.sound |
| `Heat.dp_zero_second_partial` | Props/DataParallel.lean | propext, Classical.choice, Quot.sound |
| `Heat.dp_eval_violated` | Props/DataParallel.lean | propext, Classical.choice, Quot.sound |
| `Heat.dp_accumulation_violated` | Props/DataParallel.lean | propext, Classical.choice, Quot.sound |
| `Heat.dp_root_violated` | Props/DataParallel.lean | propext, Classical.choice, Quot.sound |
| `Heat.dp_reach_violated` | Props/DataParallel.lean | propext, Classical.choice, Quot.sound |
| `Heat.dataset_shuffle` | Props/Dataset.lean | propext, Classical.choice, Quot.sound |
| `Heat.dataset_shuffle_pairs` | Props/Dataset.lean | propext, Quot.sound |
| `Heat.dataset_shuffle_plain` | Props/Dataset.lean | propext, Classical.choice, Quot.sound |
| `Heat.loader_epochs` | Props/Dataset.lean | propext, Classical.choice, Quot.sound |
| `Heat.loader_iepochs_partial` | Props/Dataset.lean | propext, Classical.choice, Quot.sound |
| `Heat.loader_iepochs_violated` | Props/Dataset.lean | propext |
| `Heat.loader_last_epoch_violated` | Props/Dataset.lean | propext |
| `Heat.loader_test_set_violated` | Props/Dataset.lean | propext |
| `Heat.dsInit_good` | Props/Dataset.lean | propext, Quot.sound |
| `Heat.pickRows_perm` | Props/Dataset.lean | propext, Quot.sound |
| `Heat.sampler_shuffle` | Props/Sampler.lean | propext, Classical.choice, Quot.sound |
| `Heat.sampler_shuffle_corrected` | Props/Sampler.lean | propext, Classical.choice, Quot.sound |
| `Heat.sampler_shuffle_global` | Props/Sampler.lean | propext, Classical.choice, Quot.sound |
| `Heat.sampler_local` | Props/Sampler.lean | propext, Quot.sound |
| `Heat.sampler_unbalanced_violated` | Props/Sampler.lean | propext, Quot.sound |
| `Heat.mergeSort_buckets` | Props/Sampler.lean | propext, Classical.choice, Quot.sound |
| `Heat.train_val_split` | Props/Sampler.lean | propext, Classical.choice, Quot.sound |
| `Heat.train_val_split_pairs` | Props/Sampler.lean | propext, Quot.sound |
| `Heat.train_val_split_balanced` | Props/Sampler.lean | propext, Classical.choice, Quot.sound |
| `Heat.train_val_split_all_violated` | Props/Sampler.lean | propext, Quot.sound |
| `Heat.evenSize_of_step` | Props/Sampler.lean | propext, Quot.sound |
| `Heat.tsqr_partial` | Props/Qr.lean | propext, Classical.choice, Quot.sound |
| `Heat.tsMerge_spec` | Props/Qr.lean | propext, Classical.choice, Quot.sound |
| `Heat.tsqr_balanced` | Props/Qr.lean | propext, Classical.choice, Quot.sound |
| `Heat.tsqr_empty_violated` | Props/Qr.lean | propext, Classical.choice, Quot.sound |
| `Heat.realQr_ok` | Props/QrReal.lean | propext, Classical.choice, Quot.sound |
| `Heat.tsStep_inv` | Props/Qr.lean | propext, Classical.choice, Quot.sound |
| `Heat.tsLoop_inv` | Props/Qr.lean | propext, Classical.choice, Quot.sound |
| `Heat.tsInit_inv` | Props/Qr.lean | propext, Classical.choice, Quot.sound |
| `Heat.gsQr_partial` | Props/QrCols.lean | propext, Classical.choice, Quot.sound |
| `Heat.gsQr_wide_partial` | Props/QrCols.lean | propext, Classical.choice, Quot.sound |
| `Heat.gsStep_inv` | Props/QrCols.lean | propext, Classical.choice, Quot.sound |
| `Heat.tri_cancel` | Props/QrCols.lean | propext, Classical.choice, Quot.sound |
| `Heat.orth_cols_rows` | Props/QrCols.lean | propext, Classical.choice, Quot.sound |
| `Heat.gsQr_deficient_violated` | Props/QrColsReal.lean | propext, Classical.choice, Quot.sound |
| `Heat.gsQr_wide_violated` | Props/QrColsReal.lean | propext, Classical.choice, Quot.sound |
| `Heat.houseQr_ok` | Props/QrColsReal.lean | propext, Classical.choice, Quot.sound |
| `Heat.bgQr_partial` | Props/QrRows.lean | propext, Classical.choice, Quot.sound |
| `Heat.bgQr_wide_partial` | Props/QrRows.lean | propext, Classical.choice, Quot.sound |
| `Heat.qrRows_partial` | Props/QrRows.lean | propext, Classical.choice, Quot.sound |
| `Heat.qrRows_few_violated` | Props/QrRows.lean | propext, Classical.choice, Quot.sound |
| `Heat.bgQr_deficient_violated` | Props/QrRowsReal.lean | propext, Classical.choice, Quot.sound |
| `Heat.bgStep_inv` | Props/QrRows.lean | propext, Classical.choice, Quot.sound |
| `Heat.bgLoop_inv` | Props/QrRows.lean | propext, Classical.choice, Quot.sound |
| `Heat.bgCuts_eq` | Props/QrRows.lean | propext, Classical.choice, Quot.sound |
| `Heat.triCols_partial` | Props/SolveTri.lean | propext, Classical.choice, Quot.sound |
| `Heat.triRows_partial` | Props/SolveTri.lean | propext, Classical.choice, Quot.sound |
| `Heat.triWhole_partial` | Props/SolveTri.lean | propext, Classical.choice, Quot.sound |
| `Heat.triWhole_double_violated` | Props/SolveTri.lean | propext, Classical.choice, Quot.sound |
| `Heat.triCols_unbalanced_violated` | Props/SolveTri.lean | propext, Classical.choice, Quot.sound |
| `Heat.triCheck_spec` | Props/SolveTri.lean | propext, Classical.choice, Quot.sound |
| `Heat.triOk_exists` | Props/SolveTri.lean | propext, Classical.choice, Quot.sound |
| `Heat.cg_partial` | Props/Cg.lean | propext, Classical.choice, Quot.sound |
| `Heat.cg_start_violated` | Props/Cg.lean | propext, Classical.choice, Quot.sound |
| `Heat.cgSeq_orth` | Props/Cg.lean | propext, Classical.choice, Quot.sound |
| `Heat.lanczos_orthonormal` | Props/Lanczos.lean | propext, Classical.choice, Quot.sound |
| `Heat.lanczos_projection_partial` | Props/Lanczos.lean | propext, Classical.choice, Quot.sound |
| `Heat.solve_partial` | Props/Solve.lean | propext, Classical.choice, Quot.sound |
| `Heat.solve_singular_partial` | Props/Solve.lean | propext, Classical.choice, Quot.sound |
| `Heat.solve_accepts` | Props/Solve.lean | propext, Classical.choice, Quot.sound |
| `Heat.solveCheck_spec` | Props/Solve.lean | propext, Quot.sound |
| `Heat.solve_square_violated` | Props/Solve.lean | propext, Quot.sound |
| `Heat.solve_b_split_violated` | Props/Solve.lean | propext, Classical.choice, Quot.sound |
| `Heat.solve_A_split_violated` | Props/Solve.lean | propext, Classical.choice, Quot.sound |
| `Heat.solve_expand_split_violated` | Props/Solve.lean | propext, Classical.choice, Quot.sound |
| `Heat.fft_partial` | Props/Fft.lean | propext, Classical.choice, Quot.sound |
| `Heat.rfft_split_violated` | Props/Fft.lean | propext, Classical.choice, Quot.sound |
| `Heat.fft_few_lines_violated` | Props/Fft.lean | propext, Classical.choice, Quot.sound |
| `Heat.ifft_fft` | Props/Fft.lean | propext, Classical.choice, Quot.sound |
| `Heat.fftn_partial` | Props/Fftn.lean | propext, Classical.choice, Quot.sound |
| `Heat.fftn_spec` | Props/Fftn.lean | propext, Classical.choice, Quot.sound |
| `Heat.rfftn_partial` | Props/Fftn.lean | propext, Classical.choice, Quot.sound |
| `Heat.fftshift_partial` | Props/Fftn.lean | propext, Classical.choice, Quot.sound |
| `Heat.ifftn_fftn` | Props/Fftn.lean | propext, Classical.choice, Quot.sound |
| `Heat.fftnAxes_sound` | Props/Fftn.lean | propext, Classical.choice, Quot.sound |
| `Heat.rfftn_split_violated` | Props/Fftn.lean | propext, Classical.choice, Quot.sound |
| `Heat.fftshift_axis_violated` | Props/Fftn.lean | propext, Classical.choice, Quot.sound |
| `Heat.fftn_few_lines_violated` | Props/Fftn.lean | propext, Classical.choice, Quot.sound |
| `Heat.irfftn_split_violated` | Props/Fftn.lean | propext, Classical.choice, Quot.sound |
| `Heat.fftfreq_spec` | Props/Fftn.lean | propext, Quot.sound |
| `Heat.rfftfreq_partial` | Props/Fftn.lean | propext, Quot.sound |
| `Heat.rfftfreq_violated` | Props/Fftn.lean | propext, Quot.sound |
| `Heat.fftfreq_split` | Props/Fftn.lean | propext, Quot.sound |
| `Heat.hsvd_error_bound` | Props/Hsvd.lean | propext, Classical.choice, Quot.sound |
| `Heat.hsvd_factors` | Props/Hsvd.lean | propext, Classical.choice, Quot.sound |
| `Heat.hsvd_rank_total` | Props/Hsvd.lean | propext, Classical.choice, Quot.sound |
| `Heat.hsvd_exact` | Props/Hsvd.lean | propext, Classical.choice, Quot.sound |
| `Heat.hsvd_messages` | Props/Hsvd.lean | propext, Classical.choice, Quot.sound |
| `Heat.hGather_eq` | Props/Hsvd.lean | propext, Quot.sound |
| `Heat.hsvdRankArgs_ok` | Props/Hsvd.lean | propext, Quot.sound |
| `Heat.exists_svd` | Props/Hsvd.lean | propext, Classical.choice, Quot.sound |
| `Heat.hsvd_estimate_violated` | Props/Hsvd.lean | propext, Classical.choice, Quot.sound |
| `Heat.hsvd_rtol_partial` | Props/Hsvd.lean | propext, Classical.choice, Quot.sound |
| `Heat.hsvd_rtol_general` | Props/Hsvd.lean | propext, Classical.choice, Quot.sound |
| `Heat.hsvdRtolArgs_ok` | Props/Hsvd.lean | propext, Quot.sound |
| `Heat.hsvdRtolArgs_violated` | Props/Hsvd.lean | propext, Classical.choice, Quot.sound |
| `Heat.hsvd_rtol_violated` | Props/Hsvd.lean | propext, Classical.choice, Quot.sound |
| `Heat.hsvd_small_block_violated` | Props/Hsvd.lean | propext, Classical.choice, Quot.sound |
| `Heat.svdTall_partial` | Props/Svd.lean | propext, Classical.choice, Quot.sound |
| `Heat.svdFat_partial` | Props/Svd.lean | propext, Classical.choice, Quot.sound |
| `Heat.svdBranch_transposed` | Props/Svd.lean | propext, Quot.sound |
| `Heat.exists_svd_full` | Props/Svd.lean | propext, Classical.choice, Quot.sound |
| `Heat.exists_svdOk` | Props/Svd.lean | propext, Classical.choice, Quot.sound |
| `Heat.svdGeneral_residual_partial` | Props/SvdGeneral.lean | propext, Classical.choice, Quot.sound |
| `Heat.svdGeneral_partial` | Props/SvdGeneral.lean | propext, Classical.choice, Quot.sound |
| `Heat.svdGeneral_singular_violated` | Props/SvdGeneral.lean | propext, Classical.choice, Quot.sound |
| `Heat.svdGeneral_orthogonal_violated` | Props/SvdGeneral.lean | propext, Classical.choice, Quot.sound |
| `Heat.svdWide_partial` | Props/SvdGeneral.lean | propext, Classical.choice, Quot.sound |
| `Heat.svdGeneral_example` | Props/SvdGeneral.lean | propext, Classical.choice, Quot.sound |
| `Heat.isvd_spec` | Props/Isvd.lean | propext, Classical.choice, Quot.sound |
| `Heat.isvd_exact` | Props/Isvd.lean | propext, Classical.choice, Quot.sound |
| `Heat.isvd_trunc_error` | Props/Isvd.lean | propext, Classical.choice, Quot.sound |
| `Heat.isvdCore_gram` | Props/Isvd.lean | propext, Classical.choice, Quot.sound |
| `Heat.exists_decomp` | Props/Isvd.lean | propext, Classical.choice, Quot.sound |
| `Heat.isvd_ortho_violated` | Props/Isvd.lean | propext, Classical.choice, Quot.sound |
| `Heat.ipca_history` | Props/Isvd.lean | propext, Classical.choice, Quot.sound |
| `Heat.ipca_exact_partial` | Props/Isvd.lean | propext, Classical.choice, Quot.sound |
| `Heat.ipcaUpdate_hist` | Props/Isvd.lean | propext, Classical.choice, Quot.sound |
| `Heat.ipcaUpdate_exact` | Props/Isvd.lean | propext, Classical.choice, Quot.sound |
| `Heat.scatter_append` | Props/Isvd.lean | propext, Classical.choice, Quot.sound |
| `Heat.ipca_ortho_violated` | Props/Isvd.lean | propext, Classical.choice, Quot.sound |
| `Heat.ipca_batch_violated` | Props/Isvd.lean | propext, Classical.choice, Quot.sound |
| `Heat.ipca_count` | Props/Isvd.lean | propext, Classical.choice, Quot.sound |
| `Heat.pca_roundtrip` | Props/Pca.lean | propext, Classical.choice, Quot.sound |
| `Heat.pcaFracCount_spec` | Props/Pca.lean | propext, Classical.choice, Quot.sound |
| `Heat.projErr_take` | Props/Pca.lean | propext, Classical.choice, Quot.sound |
| `Heat.pca_large_violated` | Props/Pca.lean | propext, Classical.choice, Quot.sound |
| `Heat.pca_constant_violated` | Props/Pca.lean | propext, Classical.choice, Quot.sound |
| `Heat.pds_batches` | Props/Pds.lean | propext, Quot.sound |
| `Heat.pds_complete` | Props/Pds.lean | propext, Quot.sound |
| `Heat.pds_terminates` | Props/Pds.lean | propext, Quot.sound |
| `Heat.pds_rows` | Props/Pds.lean | propext, Quot.sound |
| `Heat.pds_stuck` | Props/Pds.lean | propext, Quot.sound |
| `Heat.pds_shifted` | Props/Pds.lean | propext, Quot.sound |
| `Heat.pdsLoadLen_mod` | Props/Pds.lean | propext, Classical.choice, Quot.sound |
| `Heat.pds_lost_wakeup_violated` | Props/Pds.lean | propext, Quot.sound |
| `Heat.pds_shift_violated` | Props/Pds.lean | propext, Quot.sound |
| `Heat.pds_consistent_partial` | Props/Pds.lean | propext, Classical.choice, Quot.sound |
| `Heat.pds_untorn_partial` | Props/Pds.lean | propext, Classical.choice, Quot.sound |
| `Heat.pds_torn_violated` | Props/Pds.lean | propext |
| `Heat.pds_foreign_violated` | Props/Pds.lean | propext |
| `Heat.print_exact` | Props/Printing.lean | propext, Classical.choice, Quot.sound |
| `Heat.print_split_of` | Props/Printing.lean | propext, Classical.choice, Quot.sound |
| `Heat.print_split_partial` | Props/Printing.lean | propext, Classical.choice, Quot.sound |
| `Heat.print_two` | Props/Printing.lean | propext, Classical.choice, Quot.sound |
| `Heat.print_other` | Props/Printing.lean | propext, Quot.sound |
| `Heat.print_violated` | Props/Printing.lean | none |
| `Heat.merge_spec` | Props/BatchCluster.lean | propext, Classical.choice, Quot.sound |
| `Heat.merge_terminates` | Props/BatchCluster.lean | propext, Classical.choice, Quot.sound |
| `Heat.kmex_spec` | Props/BatchCluster.lean | propext, Classical.choice, Quot.sound |
| `Heat.bp_monotone` | Props/BatchCluster.lean | propext, Classical.choice, Quot.sound |
| `Heat.bpPlus_iff` | Props/BatchCluster.lean | propext, Classical.choice, Quot.sound |
| `Heat.bp_fit` | Props/BatchCluster.lean | propext, Classical.choice, Quot.sound |
| `Heat.bp_value_partial` | Props/BatchCluster.lean | propext, Classical.choice, Quot.sound |
| `Heat.bp_few_violated` | Props/BatchCluster.lean | propext, Classical.choice, Quot.sound |
| `Heat.bp_value_violated` | Props/BatchCluster.lean | propext, Classical.choice, Quot.sound |
| `Heat.setitemTensor_partial` | Props/SetValue.lean | propext, Classical.choice, Quot.sound |
| `Heat.setitemTensor_misaligned_violated` | Props/SetValue.lean | propext, Classical.choice, Quot.sound |
| `Heat.setitemTensor_step_violated` | Props/SetValue.lean | propext |
| `Heat.setitemTensor_step_silent_violated` | Props/SetValue.lean | propext |
| `Heat.setitemTensor_broadcast_violated` | Props/SetValue.lean | propext |
| `Heat.setitemDist_partial` | Props/SetValue.lean | propext, Classical.choice, Quot.sound |
| `Heat.setitemDist_bad_size` | Props/SetValue.lean | propext, Classical.choice, Quot.sound |
| `Heat.setitemSame_partial` | Props/SetValue.lean | propext, Classical.choice, Quot.sound |
| `Heat.setitemSame_unbalanced_violated` | Props/SetValue.lean | propext |
| `Heat.setitemIdx_partial` | Props/SetValue.lean | propext, Classical.choice, Quot.sound |
| `Heat.setitemMask` | Props/SetValue.lean | propext, Classical.choice, Quot.sound |
| `Heat.setitemIdx_outside_violated` | Props/SetValue.lean | propext, Quot.sound |
| `Heat.setitemIdx_unbalanced_violated` | Props/SetValue.lean | propext, Quot.sound |
| `Heat.setitemKey_list_violated` | Props/SetValue.lean | propext, Quot.sound |
| `Heat.setitemIdxVec_violated` | Props/SetValue.lean | propext, Classical.choice, Quot.sound |
| `Heat.setitemIdxVec_partial` | Props/SetValue.lean | propext, Classical.choice, Quot.sound |
| `Heat.oneHot_spec` | Props/Knn.lean | propext, Quot.sound |
| `Heat.oneHotWidth_spec` | Props/Knn.lean | propext, Quot.sound |
| `Heat.oneHot_unbalanced_violated` | Props/Knn.lean | propext |
| `Heat.knn_repl` | Props/Knn.lean | propext, Classical.choice, Quot.sound |
| `Heat.knn_split_partial` | Props/Knn.lean | propext, Classical.choice, Quot.sound |
| `Heat.knn_split_violated` | Props/Knn.lean | propext |
| `Heat.knn_single_violated` | Props/Knn.lean | propext |
| `Heat.winner_unique` | Props/Knn.lean | propext, Quot.sound |
| `Heat.ptp_split_partial` | Props/Ptp.lean | propext, Classical.choice, Quot.sound |
| `Heat.ptp_empty_violated` | Props/Ptp.lean | propext, Quot.sound |
| `Heat.ptp_other` | Props/Ptp.lean | propext, Classical.choice, Quot.sound |
| `Heat.ptp_other_empty_violated` | Props/Ptp.lean | propext |
| `Heat.ptp_meta_partial` | Props/Ptp.lean | propext, Quot.sound |
| `Heat.ptp_meta_all` | Props/Ptp.lean | propext, Quot.sound |
| `Heat.ptp_meta_negative_violated` | Props/Ptp.lean | propext, Quot.sound |
| `Heat.ptp_meta_keepdims_violated` | Props/Ptp.lean | propext, Quot.sound |
| `Heat.ptp_meta_tuple_violated` | Props/Ptp.lean | propext, Quot.sound |
| `Heat.ptp_pair_partial` | Props/Ptp.lean | propext, Classical.choice, Quot.sound |
| `Heat.ptp_pair_violated` | Props/Ptp.lean | propext, Quot.sound |
| `Heat.ptpOp_comm` | Props/Ptp.lean | propext, Classical.choice, Quot.sound |
| `Heat.ptpOp_assoc` | Props/Ptp.lean | propext, Classical.choice, Quot.sound |
| `Heat.range_unique` | Props/Ptp.lean | propext, Quot.sound |
| `Heat.lap_simple` | Props/Laplacian.lean | propext, Classical.choice, Quot.sound |
| `Heat.lap_simple_row_sum` | Props/Laplacian.lean | propext, Classical.choice, Quot.sound |
| `Heat.lap_symm` | Props/Laplacian.lean | propext, Classical.choice, Quot.sound |
| `Heat.lap_simple_quad` | Props/Laplacian.lean | propext, Classical.choice, Quot.sound |
| `Heat.lap_simple_psd` | Props/Laplacian.lean | propext, Classical.choice, Quot.sound |
| `Heat.lap_norm_partial` | Props/Laplacian.lean | propext, Classical.choice, Quot.sound |
| `Heat.lap_norm_isolated` | Props/Laplacian.lean | propext, Classical.choice, Quot.sound |
| `Heat.lap_norm_quad_partial` | Props/Laplacian.lean | propext, Classical.choice, Quot.sound |
| `Heat.lap_norm_kernel_partial` | Props/Laplacian.lean | propext, Classical.choice, Quot.sound |
| `Heat.lap_norm_loop_violated` | Props/Laplacian.lean | propext, Classical.choice, Quot.sound |
| `Heat.silhouette_spec` | Props/Silhouette.lean | propext, Classical.choice, Quot.sound |
| `Heat.silhouette_unique` | Props/Silhouette.lean | propext, Classical.choice, Quot.sound |
| `Heat.silhouette_bound` | Props/Silhouette.lean | propext, Classical.choice, Quot.sound |
| `Heat.silhouette_score_bound` | Props/Silhouette.lean | propext, Classical.choice, Quot.sound |
| `Heat.silhouette_close` | Props/Silhouette.lean | propext, Classical.choice, Quot.sound |
| `Heat.binaryOut_spec` | Props/OutOp.lean | propext, Classical.choice, Quot.sound |
| `Heat.inplace_spec` | Props/OutOp.lean | propext, Classical.choice, Quot.sound |
| `Heat.binaryOut_refused` | Props/OutOp.lean | propext |
| `Heat.inplace_empty_violated` | Props/OutOp.lean | propext, Quot.sound |
| `Heat.where_out_partial` | Props/OutOp.lean | propext, Classical.choice, Quot.sound |
| `Heat.where_new_partial` | Props/OutOp.lean | propext, Classical.choice, Quot.sound |
| `Heat.where_misaligned_violated` | Props/OutOp.lean | propext |
| `Heat.where_silent_violated` | Props/OutOp.lean | propext |
| `Heat.where_new_violated` | Props/OutOp.lean | propext |
| `Heat.cov_partial` | Props/Cov.lean | propext, Classical.choice, Quot.sound |
| `Heat.cov_two_partial` | Props/Cov.lean | propext, Classical.choice, Quot.sound |
| `Heat.cov_two_refused` | Props/Cov.lean | propext, Classical.choice, Quot.sound |
| `Heat.cov_symm` | Props/Cov.lean | propext, Classical.choice, Quot.sound |
| `Heat.cov_psd` | Props/Cov.lean | propext, Classical.choice, Quot.sound |
| `Heat.cov_few_refused` | Props/Cov.lean | propext, Classical.choice, Quot.sound |
| `Heat.cov_vector_violated` | Props/Cov.lean | propext, Classical.choice, Quot.sound |
| `Heat.cov_single_violated` | Props/Cov.lean | propext, Classical.choice, Quot.sound |
| `Heat.cov_int_violated` | Props/Cov.lean | propext, Classical.choice, Quot.sound |
| `Heat.kcIndexed_perm` | Props/KcInit.lean | propext, Classical.choice, Quot.sound |
| `Heat.kc_random_partial` | Props/KcInit.lean | propext, Classical.choice, Quot.sound |
| `Heat.kc_random_one_violated` | Props/KcInit.lean | propext, Quot.sound |
| `Heat.kc_random_single_violated` | Props/KcInit.lean | propext |
| `Heat.kc_last_violated` | Props/KcInit.lean | propext, Quot.sound |
| `Heat.kc_others` | Props/KcInit.lean | propext, Quot.sound |
| `Heat.kc_round_split_partial` | Props/KcInit.lean | propext, Classical.choice, Quot.sound |
| `Heat.kc_round_one_violated` | Props/KcInit.lean | propext, Quot.sound |
| `Heat.kc_round_repl_violated` | Props/KcInit.lean | propext, Quot.sound |
| `Heat.kc_sampling_subset` | Props/KcInit.lean | propext |
| `Heat.kc_round_split_mem` | Props/KcInit.lean | propext, Classical.choice, Quot.sound |
| `Heat.kc_round_repl_mem` | Props/KcInit.lean | propext, Quot.sound |
| `Heat.kc_parallel_split` | Props/KcInit.lean | propext, Classical.choice, Quot.sound |
| `Heat.kc_parallel_repl_violated` | Props/KcInit.lean | propext |
| `Heat.kc_weights_sum` | Props/KcInit.lean | propext, Classical.choice, Quot.sound |
| `Heat.allgatherv_axis` | Props/CommAxis.lean | propext, Classical.choice, Quot.sound |
| `Heat.allgather_axis` | Props/CommAxis.lean | propext, Classical.choice, Quot.sound |
| `Heat.gatherv_axis` | Props/CommAxis.lean | propext, Classical.choice, Quot.sound |
| `Heat.gather_axis` | Props/CommAxis.lean | propext, Classical.choice, Quot.sound |
| `Heat.gather_axes` | Props/CommAxis.lean | propext, Classical.choice, Quot.sound |
| `Heat.scatterv_axis` | Props/CommAxis.lean | propext, Classical.choice, Quot.sound |
| `Heat.scatter_axis` | Props/CommAxis.lean | propext, Classical.choice, Quot.sound |
| `Heat.scatterv_refused` | Props/CommAxis.lean | propext, Quot.sound |
| `Heat.alltoallv_axis` | Props/CommAxis.lean | propext, Classical.choice, Quot.sound |
| `Heat.alltoall_axis_partial` | Props/CommAxis.lean | propext, Classical.choice, Quot.sound |
| `Heat.alltoall_resplit_violated` | Props/CommAxis.lean | propext |
| `Heat.folder_partial` | Props/ManyFiles.lean | propext, Classical.choice, Quot.sound |
| `Heat.folder_balanced` | Props/ManyFiles.lean | propext, Classical.choice, Quot.sound |
| `Heat.folder_refused` | Props/ManyFiles.lean | propext, Classical.choice, Quot.sound |
| `Heat.folder_listing_violated` | Props/ManyFiles.lean | none |
| `Heat.folder_none_violated` | Props/ManyFiles.lean | none |
| `Heat.folder_comm_violated` | Props/ManyFiles.lean | propext, Classical.choice, Quot.sound |
| `Heat.zarr_wildcard` | Props/ManyFiles.lean | propext, Quot.sound |
| `Heat.zarr_none_violated` | Props/ManyFiles.lean | none |
| `Heat.zarrShrink_spec` | Props/ManyFiles.lean | propext, Quot.sound |
| `Heat.zarr_chunk_limit` | Props/ManyFiles.lean | propext, Classical.choice, Quot.sound |
| `Heat.zarr_chunk_inside` | Props/ManyFiles.lean | propext, Classical.choice, Quot.sound |
| `Heat.zarr_save` | Props/ManyFiles.lean | propext, Classical.choice, Quot.sound |
| `Heat.eigh_residual` | Props/Eigh.lean | propext, Classical.choice, Quot.sound |
| `Heat.eigh_bound` | Props/Eigh.lean | propext, Classical.choice, Quot.sound |
| `Heat.eigh_exact_partial` | Props/Eigh.lean | propext, Classical.choice, Quot.sound |
| `Heat.eigh_parts_partial` | Props/Eigh.lean | propext, Classical.choice, Quot.sound |
| `Heat.eigh_scalar_violated` | Props/Eigh.lean | propext, Classical.choice, Quot.sound |
| `Heat.eigh_local` | Props/Eigh.lean | propext, Classical.choice, Quot.sound |
| `Heat.eigh_fill` | Props/Eigh.lean | propext, Classical.choice, Quot.sound |
| `Heat.eigh_nodes` | Props/Eigh.lean | propext, Classical.choice, Quot.sound |
| `Heat.polar_symm` | Props/Eigh.lean | propext, Classical.choice, Quot.sound |
| `Heat.node_split` | Props/Eigh.lean | propext, Classical.choice, Quot.sound |
| `Heat.median_between` | Props/Eigh.lean | propext, Classical.choice, Quot.sound |
| `Heat.eigh_example` | Props/Eigh.lean | propext, Classical.choice, Quot.sound |
| `Heat.polarR_spec` | Props/Polar.lean | propext, Classical.choice, Quot.sound |
| `Heat.polar_copy` | Props/Polar.lean | propext, Quot.sound |
| `Heat.polar_result` | Props/Polar.lean | propext, Classical.choice, Quot.sound |
| `Heat.zolo_fractions` | Props/Polar.lean | propext, Classical.choice, Quot.sound |
| `Heat.zolo_qr` | Props/Polar.lean | propext, Classical.choice, Quot.sound |
| `Heat.zolo_step` | Props/Polar.lean | propext, Classical.choice, Quot.sound |
| `Heat.zolo_svd` | Props/Polar.lean | propext, Classical.choice, Quot.sound |
| `Heat.zolo_run` | Props/Polar.lean | propext, Classical.choice, Quot.sound |
| `Heat.zolo_one` | Props/Polar.lean | propext, Classical.choice, Quot.sound |
| `Heat.polar_partial` | Props/Polar.lean | propext, Classical.choice, Quot.sound |
| `Heat.polar_factor_partial` | Props/Polar.lean | propext, Classical.choice, Quot.sound |
| `Heat.zolo_its_violated` | Props/Polar.lean | propext |
| `Heat.matrix_norm_axes` | Props/Norm.lean | propext, Classical.choice, Quot.sound |
| `Heat.matrix_norm_partial` | Props/Norm.lean | propext, Classical.choice, Quot.sound |
| `Heat.matrix_norm_negative` | Props/Norm.lean | propext, Classical.choice, Quot.sound |
| `Heat.matrix_norm_violated` | Props/Norm.lean | propext, Quot.sound |
| `Heat.matrix_norm_refused` | Props/Norm.lean | propext, Quot.sound |
| `Heat.matrix_norm_fro` | Props/Norm.lean | propext, Classical.choice, Quot.sound |
| `Heat.matrix_norm_analysis` | Props/Norm.lean | propext, Classical.choice, Quot.sound |
| `Heat.vector_norm_sum` | Props/Norm.lean | propext, Classical.choice, Quot.sound |
| `Heat.vector_norm_max` | Props/Norm.lean | propext, Classical.choice, Quot.sound |
| `Heat.matrix_norm_rows` | Props/Norm.lean | propext, Classical.choice, Quot.sound |
| `Heat.norm_call` | Props/Norm.lean | propext |
| `Heat.norm_int_violated` | Props/Norm.lean | propext |
| `Heat.norm_int_partial` | Props/Norm.lean | propext, Classical.choice, Quot.sound |
| `Heat.average_spec` | Props/Average.lean | propext, Classical.choice, Quot.sound |
| `Heat.average_between` | Props/Average.lean | propext, Classical.choice, Quot.sound |
| `Heat.average_equal` | Props/Average.lean | propext, Classical.choice, Quot.sound |
| `Heat.average_check` | Props/Average.lean | propext, Classical.choice, Quot.sound |
| `Heat.wgt_shape` | Props/Average.lean | propext, Classical.choice, Quot.sound |
| `Heat.average_count` | Props/Average.lean | propext, Classical.choice, Quot.sound |
| `Heat.average_agree` | Props/Average.lean | propext, Classical.choice, Quot.sound |
| `Heat.average_unbalanced_violated` | Props/Average.lean | propext |
| `Heat.skew_all_partial` | Props/Average.lean | propext, Classical.choice, Quot.sound |
| `Heat.skew_axis_partial` | Props/Average.lean | propext, Classical.choice, Quot.sound |
| `Heat.skew_local` | Props/Average.lean | propext, Classical.choice, Quot.sound |
| `Heat.skew_affine` | Props/Average.lean | propext, Classical.choice, Quot.sound |
| `Heat.kurt_ge` | Props/Average.lean | propext, Classical.choice, Quot.sound |
| `Heat.skew_single_violated` | Props/Average.lean | none |
| `Heat.mu_shape` | Props/Average.lean | propext, Classical.choice, Quot.sound |
| `Heat.skewFin_spec` | Props/Average.lean | propext, Classical.choice, Quot.sound |
| `Heat.kurtFin_spec` | Props/Average.lean | propext, Classical.choice, Quot.sound |
| `Heat.convolve2d_right_partial` | Props/Convolve2.lean | propext, Classical.choice, Quot.sound |
| `Heat.convolve2d_accepts` | Props/Convolve2.lean | propext, Classical.choice, Quot.sound |
| `Heat.convolve2d_refuses` | Props/Convolve2.lean | propext, Classical.choice, Quot.sound |
| `Heat.convolve2d_stride_violated` | Props/Convolve2.lean | propext, Classical.choice, Quot.sound |
| `Heat.convolution2_comm` | Props/Convolve2.lean | propext, Classical.choice, Quot.sound |
| `Heat.conv2At_transpose` | Props/Convolve2.lean | propext, Classical.choice, Quot.sound |
| `Heat.flip_nd_spec` | Props/Rot90.lean | propext, Classical.choice, Quot.sound |
| `Heat.rot90_spec` | Props/Rot90.lean | propext, Classical.choice, Quot.sound |
| `Heat.rot90_refused` | Props/Rot90.lean | propext, Classical.choice, Quot.sound |
| `Heat.rot_four` | Props/Rot90.lean | propext, Quot.sound |
| `Heat.rot_reverse` | Props/Rot90.lean | propext, Quot.sound |
| `Heat.rep_balanceND` | Props/Rot90.lean | propext, Classical.choice, Quot.sound |
| `Heat.vstack_spec_partial` | Props/StackVec.lean | propext, Classical.choice, Quot.sound |
| `Heat.vstack_refused` | Props/StackVec.lean | propext, Classical.choice, Quot.sound |
| `Heat.row_stack_mixed_partial` | Props/StackVec.lean | propext, Classical.choice, Quot.sound |
| `Heat.hstack_two_partial` | Props/StackVec.lean | propext, Classical.choice, Quot.sound |
| `Heat.hstack_many_violated` | Props/StackVec.lean | propext |
| `Heat.hstack_three_violated` | Props/StackVec.lean | propext, Quot.sound |
| `Heat.row_stack_partial` | Props/StackVec.lean | propext, Classical.choice, Quot.sound |
| `Heat.column_stack_partial` | Props/StackVec.lean | propext, Classical.choice, Quot.sound |
| `Heat.row_stack_broadcast_violated` | Props/StackVec.lean | propext, Quot.sound |
| `Heat.row_stack_refused` | Props/StackVec.lean | propext, Classical.choice, Quot.sound |
| `Heat.row_stack_replicated_refused` | Props/StackVec.lean | propext, Quot.sound |
| `Heat.hsplit_vector_violated` | Props/StackVec.lean | propext, Quot.sound |
| `Heat.vstack_unit_violated` | Props/StackVec.lean | propext |
| `Heat.binary_nd_spec` | Props/BroadcastND.lean | propext, Classical.choice, Quot.sound |
| `Heat.binary_nd_refused` | Props/BroadcastND.lean | propext, Classical.choice, Quot.sound |
| `Heat.binary_nd_shapes` | Props/BroadcastND.lean | propext, Classical.choice, Quot.sound |
| `Heat.binaryOut_nd_spec` | Props/BroadcastND.lean | propext, Classical.choice, Quot.sound |
| `Heat.binaryOut_nd_refused` | Props/BroadcastND.lean | propext, Classical.choice, Quot.sound |
| `Heat.leadDims_expand_dims` | Props/BroadcastND.lean | propext, Classical.choice, Quot.sound |
| `Heat.binary_nd_empty_violated` | Props/BroadcastND.lean | propext, Classical.choice, Quot.sound |
| `Heat.broadcast_to_spec` | Props/BroadcastND.lean | propext, Classical.choice, Quot.sound |
| `Heat.broadcast_to_incompatible` | Props/BroadcastND.lean | propext, Classical.choice, Quot.sound |
| `Heat.broadcast_to_refused` | Props/BroadcastND.lean | propext, Classical.choice, Quot.sound |
| `Heat.broadcast_to_empty_violated` | Props/BroadcastND.lean | propext, Classical.choice, Quot.sound |
| `Heat.broadcast_arrays_partial` | Props/BroadcastND.lean | propext, Classical.choice, Quot.sound |
| `Heat.broadcast_arrays_replicated_refused` | Props/BroadcastND.lean | propext, Quot.sound |
| `Heat.broadcast_arrays_axes` | Props/BroadcastND.lean | propext, Quot.sound |
| `Heat.broadcast_arrays_doc_violated` | Props/BroadcastND.lean | propext, Classical.choice, Quot.sound |
| `Heat.broadcast_arrays_lead_violated` | Props/BroadcastND.lean | propext, Classical.choice, Quot.sound |
| `Heat.meshgrid_spec` | Props/MeshCross.lean | propext, Classical.choice, Quot.sound |
| `Heat.meshgrid_refused` | Props/MeshCross.lean | propext, Classical.choice, Quot.sound |
| `Heat.meshgrid_balanced_violated` | Props/MeshCross.lean | propext, Quot.sound |
| `Heat.cross_spec_partial` | Props/MeshCross.lean | propext, Classical.choice, Quot.sound |
| `Heat.cross_z_partial` | Props/MeshCross.lean | propext, Classical.choice, Quot.sound |
| `Heat.cross_axes_partial` | Props/CrossAxes.lean | propext, Classical.choice, Quot.sound |
| `Heat.cross_axes_z_partial` | Props/CrossAxes.lean | propext, Classical.choice, Quot.sound |
| `Heat.cross_refused` | Props/MeshCross.lean | propext, Classical.choice, Quot.sound |
| `Heat.cross_split_violated` | Props/MeshCross.lean | propext, Classical.choice, Quot.sound |
| `Heat.cross_unbalanced_violated` | Props/MeshCross.lean | propext, Quot.sound |
| `Heat.flatten_spec` | Props/MeshCross.lean | propext, Classical.choice, Quot.sound |
| `Heat.save_netcdf_parallel_spec` | Props/NetCdf.lean | propext, Classical.choice, Quot.sound |
| `Heat.save_netcdf_serial_spec` | Props/NetCdf.lean | propext, Classical.choice, Quot.sound |
| `Heat.load_netcdf_spec` | Props/NetCdf.lean | propext, Classical.choice, Quot.sound |
| `Heat.netcdf_roundtrip` | Props/NetCdf.lean | propext, Classical.choice, Quot.sound |
| `Heat.expandedSplit_spec` | Props/NetCdf.lean | propext, Classical.choice, Quot.sound |
| `Heat.merge_slices_expanded_spec` | Props/NetCdf.lean | propext, Classical.choice, Quot.sound |
| `Heat.pySel_inside` | Props/NetCdf.lean | propext, Classical.choice, Quot.sound |
| `Heat.expandedSplit_violated` | Props/NetCdf.lean | propext, Quot.sound |
| `Heat.save_netcdf_reversed_violated` | Props/NetCdf.lean | propext, Classical.choice, Quot.sound |
| `Heat.save_netcdf_replicated_violated` | Props/NetCdf.lean | propext, Classical.choice, Quot.sound |
| `Heat.save_netcdf_unbalanced_violated` | Props/NetCdf.lean | propext, Classical.choice, Quot.sound |
| `Heat.local_op_spec` | Props/LocalOp.lean | propext |
| `Heat.local_op_out_partial` | Props/LocalOp.lean | propext, Classical.choice, Quot.sound |
| `Heat.local_op_lead_violated` | Props/LocalOp.lean | propext, Quot.sound |
| `Heat.local_op_replicated_violated` | Props/LocalOp.lean | propext, Quot.sound |
| `Heat.local_op_splits_violated` | Props/LocalOp.lean | propext, Quot.sound |
| `Heat.vmap_one_spec` | Props/Vmap.lean | propext, Classical.choice, Quot.sound |
| `Heat.vmap_spec` | Props/Vmap.lean | propext, Classical.choice, Quot.sound |
| `Heat.vmap_tuple_spec` | Props/Vmap.lean | propext, Classical.choice, Quot.sound |
| `Heat.vmap_replicated` | Props/Vmap.lean | propext, Quot.sound |
| `Heat.vmap_distribution_violated` | Props/Vmap.lean | propext, Quot.sound |
| `Heat.reduce_nd_spec` | Props/ReduceND.lean | propext, Classical.choice, Quot.sound |
| `Heat.reduce_all_spec` | Props/ReduceND.lean | propext, Classical.choice, Quot.sound |
| `Heat.reduce_nd_exists` | Props/ReduceND.lean | propext, Classical.choice, Quot.sound |
| `Heat.reduce_repeated_axis_violated` | Props/ReduceND.lean | propext, Quot.sound |
| `Heat.cum_nd_spec` | Props/CumND.lean | propext, Classical.choice, Quot.sound |
| `Heat.cum_inplace_spec` | Props/CumND.lean | propext, Classical.choice, Quot.sound |
| `Heat.cum_nd_total` | Props/CumND.lean | propext, Classical.choice, Quot.sound |
| `Heat.cum_axis_spec` | Props/CumND.lean | propext, Classical.choice, Quot.sound |
| `Heat.cumsum_bool_violated` | Props/CumND.lean | propext, Classical.choice, Quot.sound |
| `Heat.layout_accepts` | Props/Memory.lean | propext, Quot.sound |
| `Heat.layout_values_partial` | Props/Memory.lean | propext, Classical.choice, Quot.sound |
| `Heat.layout_contig_C` | Props/Memory.lean | propext, Classical.choice, Quot.sound |
| `Heat.layout_F` | Props/Memory.lean | propext, Quot.sound |
| `Heat.layout_C_violated` | Props/Memory.lean | propext, Quot.sound |
| `Heat.array_layout_C` | Props/Memory.lean | propext, Classical.choice, Quot.sound |
| `Heat.array_layout_F_partial` | Props/Memory.lean | propext, Classical.choice, Quot.sound |
| `Heat.array_layout_F_violated` | Props/Memory.lean | propext, Classical.choice, Quot.sound |
| `Heat.layout_values_violated` | Props/Memory.lean | propext, Quot.sound |
| `Heat.relayout_outside` | Props/Memory.lean | propext, Classical.choice, Quot.sound |
| `Heat.dmd_transfer` | Props/Dmd.lean | propext, Classical.choice, Quot.sound |
| `Heat.dmd_invariant` | Props/Dmd.lean | propext, Classical.choice, Quot.sound |
| `Heat.dmd_next_spec` | Props/Dmd.lean | propext, Classical.choice, Quot.sound |
| `Heat.dmd_next_project` | Props/Dmd.lean | propext, Classical.choice, Quot.sound |
| `Heat.dmd_training` | Props/Dmd.lean | propext, Classical.choice, Quot.sound |
| `Heat.dmd_modes_spec` | Props/Dmd.lean | propext, Classical.choice, Quot.sound |
| `Heat.dmd_predict_spec` | Props/Dmd.lean | propext, Classical.choice, Quot.sound |
| `Heat.dmd_predict_shape_violated` | Props/Dmd.lean | propext, Quot.sound |
| `Heat.dmd_init_spec` | Props/Dmd.lean | propext, Classical.choice, Quot.sound |
| `Heat.dmd_modes_count` | Props/Dmd.lean | propext, Classical.choice, Quot.sound |
| `Heat.dmdc_matrices` | Props/Dmd.lean | propext, Classical.choice, Quot.sound |
| `Heat.dmdc_predict_partial` | Props/Dmd.lean | propext, Classical.choice, Quot.sound |
| `Heat.dmdc_batch_violated` | Props/Dmd.lean | propext, Classical.choice, Quot.sound |
| `Heat.tiles_none_iff` | Props/SplitTiles.lean | propext, Classical.choice, Quot.sound |
| `Heat.tiles_get_partial` | Props/SplitTiles.lean | propext, Classical.choice, Quot.sound |
| `Heat.tiles_set_spec` | Props/SplitTiles.lean | propext, Classical.choice, Quot.sound |
| `Heat.tiles_set_none` | Props/SplitTiles.lean | propext, Classical.choice, Quot.sound |
| `Heat.tiles_size_spec` | Props/SplitTiles.lean | propext, Classical.choice, Quot.sound |
| `Heat.tiles_last_rank_violated` | Props/SplitTiles.lean | propext, Classical.choice, Quot.sound |
| `Heat.tiles_negative_violated` | Props/SplitTiles.lean | propext, Classical.choice, Quot.sound |
| `Heat.tiles_one_process_violated` | Props/SplitTiles.lean | propext, Classical.choice, Quot.sound |
| `Heat.rangeFinder_ortho` | Props/Rsvd.lean | propext, Classical.choice, Quot.sound |
| `Heat.rangeFinder_range` | Props/Rsvd.lean | propext, Classical.choice, Quot.sound |
| `Heat.rsvd_error` | Props/Rsvd.lean | propext, Classical.choice, Quot.sound |
| `Heat.rsvd_exact` | Props/Rsvd.lean | propext, Classical.choice, Quot.sound |
| `Heat.rsvd_values_le` | Props/Rsvd.lean | propext, Classical.choice, Quot.sound |
| `Heat.reigh_exact` | Props/Rsvd.lean | propext, Classical.choice, Quot.sound |
| `Heat.reigh_magnitude_violated` | Props/Rsvd.lean | propext, Classical.choice, Quot.sound |
| `Heat.rrf_init_spec` | Props/Rsvd.lean | propext, Classical.choice, Quot.sound |
| `Heat.spectral_lanczos_partial` | Props/Spectral.lean | propext, Classical.choice, Quot.sound |
| `Heat.spectral_randomized_largest` | Props/Spectral.lean | propext, Classical.choice, Quot.sound |
| `Heat.spectral_randomized_violated` | Props/Spectral.lean | propext, Classical.choice, Quot.sound |
| `Heat.spectral_count_spec` | Props/Spectral.lean | propext, Quot.sound |
| `Heat.set_params_partial` | Props/Params.lean | propext, Quot.sound |
| `Heat.get_params_spec` | Props/Params.lean | propext, Quot.sound |
| `Heat.params_roundtrip_partial` | Props/Params.lean | propext, Quot.sound |
| `Heat.set_params_unknown` | Props/Params.lean | propext |
| `Heat.set_params_nested_violated` | Props/Params.lean | propext |
| `Heat.params_deep_violated` | Props/Params.lean | propext, Quot.sound |
| `Heat.set_params_atomic_violated` | Props/Params.lean | propext |
| `Heat.reduce_same_layout` | Props/ReduceMem.lean | propext, Quot.sound |
| `Heat.reduce_contig` | Props/ReduceMem.lean | propext, Quot.sound |
| `Heat.reduce_send_partial` | Props/ReduceMem.lean | propext, Quot.sound |
| `Heat.reduce_base_spec` | Props/ReduceMem.lean | propext |
| `Heat.reduce_sizes` | Props/ReduceMem.lean | propext |
| `Heat.reduce_gaps_violated` | Props/ReduceMem.lean | propext, Quot.sound |
| `Heat.reduce_gaps_case` | Props/ReduceMem.lean | propext |
| `Heat.reduce_mixed_violated` | Props/ReduceMem.lean | propext |
| `Heat.reduce_view_violated` | Props/ReduceMem.lean | none |
| `Heat.factory_spec` | Props/LikeFactory.lean | propext, Classical.choice, Quot.sound |
| `Heat.factory_errors` | Props/LikeFactory.lean | propext, Classical.choice, Quot.sound |
| `Heat.like_partial` | Props/LikeFactory.lean | propext, Classical.choice, Quot.sound |
| `Heat.full_spec_partial` | Props/LikeFactory.lean | propext, Classical.choice, Quot.sound |
| `Heat.like_comm_violated` | Props/LikeFactory.lean | propext |
| `Heat.like_distribution_violated` | Props/LikeFactory.lean | propext, Quot.sound |
| `Heat.like_replicated_violated` | Props/LikeFactory.lean | propext, Classical.choice, Quot.sound |
| `Heat.full_like_dtype_violated` | Props/LikeFactory.lean | propext |
| `Heat.full_complex_violated` | Props/LikeFactory.lean | propext |
| `Heat.cluster_sizes_sum` | Props/DataSets.lean | propext, Classical.choice, Quot.sound |
| `Heat.cluster_total_sum` | Props/DataSets.lean | propext, Classical.choice, Quot.sound |
| `Heat.cluster_sizes_share_partial` | Props/DataSets.lean | propext, Classical.choice, Quot.sound |
| `Heat.cluster_even_partial` | Props/DataSets.lean | propext, Classical.choice, Quot.sound |
| `Heat.spherical_count_partial` | Props/DataSets.lean | propext |
| `Heat.cluster_even_violated` | Props/DataSets.lean | propext, Classical.choice, Quot.sound |
| `Heat.cluster_std_violated` | Props/DataSets.lean | propext, Classical.choice, Quot.sound |
| `Heat.spherical_count_violated` | Props/DataSets.lean | propext, Classical.choice, Quot.sound |
| `Heat.spherical_centre_violated` | Props/DataSets.lean | none |
| `Heat.parter_spec` | Props/Gallery.lean | propext, Classical.choice, Quot.sound |
| `Heat.parter_refused` | Props/Gallery.lean | propext, Classical.choice, Quot.sound |
| `Heat.hermitian_spec` | Props/Gallery.lean | propext, Classical.choice, Quot.sound |
| `Heat.hermitian_definite` | Props/Gallery.lean | propext, Classical.choice, Quot.sound |
| `Heat.known_singular_spec` | Props/Gallery.lean | propext, Classical.choice, Quot.sound |
| `Heat.known_singular_rank` | Props/Gallery.lean | propext, Classical.choice, Quot.sound |
| `Heat.known_rank_spec` | Props/Gallery.lean | propext, Classical.choice, Quot.sound |
| `Heat.exp_quantile_pos` | Props/Gallery.lean | propext, Classical.choice, Quot.sound |
| `Heat.known_singular_refused` | Props/Gallery.lean | propext, Classical.choice, Quot.sound |
| `Heat.api_result_type_spec` | Props/ArrayApi.lean | propext, Quot.sound |
| `Heat.api_result_type_perm` | Props/ArrayApi.lean | propext, Quot.sound |
| `Heat.api_can_cast_spec` | Props/ArrayApi.lean | propext |
| `Heat.api_float16` | Props/ArrayApi.lean | propext, Quot.sound |
| `Heat.api_operator_arrays` | Props/ArrayApi.lean | propext, Classical.choice, Quot.sound |
| `Heat.api_operator_scalar_partial` | Props/ArrayApi.lean | propext, Classical.choice, Quot.sound |
| `Heat.api_complex_scalar_violated` | Props/ArrayApi.lean | propext, Classical.choice, Quot.sound |
| `Heat.api_real_floating_violated` | Props/ArrayApi.lean | propext |
| `Heat.api_categories` | Props/ArrayApi.lean | propext |
| `Heat.validate_basic` | Props/ArrayApi.lean | propext, Quot.sound |
| `Heat.validate_ellipsis` | Props/ArrayApi.lean | propext, Quot.sound |
| `Heat.validate_mask_partial` | Props/ArrayApi.lean | propext, Classical.choice, Quot.sound |
| `Heat.validate_mask_violated` | Props/ArrayApi.lean | propext, Classical.choice, Quot.sound |
| `Heat.validate_ellipses` | Props/ArrayApi.lean | propext, Quot.sound |
| `Heat.square_tiles_partial` | Props/SquareTiles.lean | propext, Classical.choice, Quot.sound |
| `Heat.square_target_sum` | Props/SquareTiles.lean | propext, Classical.choice, Quot.sound |
| `Heat.square_tiles_wide_violated` | Props/SquareTiles.lean | propext |
| `Heat.square_tiles_small_violated` | Props/SquareTiles.lean | propext |
| `Heat.square_tiles_target_violated` | Props/SquareTiles.lean | propext |
| `Heat.square_tile_get` | Props/SquareTiles.lean | propext, Classical.choice, Quot.sound |
| `Heat.square_tile_set` | Props/SquareTiles.lean | propext, Classical.choice, Quot.sound |
| `Heat.square_tile_cross` | Props/SquareTiles.lean | propext, Quot.sound |
| `Heat.square_local_key` | Props/SquareTiles.lean | propext, Quot.sound |
| `Heat.square_local_owner` | Props/SquareTiles.lean | propext, Classical.choice, Quot.sound |
| `Heat.square_local_slice_violated` | Props/SquareTiles.lean | propext |
| `Heat.torchRound_spec` | Props/Rounding.lean | propext, Classical.choice, Quot.sound |
| `Heat.roundsTo_unique` | Props/Rounding.lean | propext, Classical.choice, Quot.sound |
| `Heat.floor_ceil_trunc_spec` | Props/Rounding.lean | propext, Classical.choice, Quot.sound |
| `Heat.round_value` | Props/Rounding.lean | propext, Classical.choice, Quot.sound |
| `Heat.round_argument_partial` | Props/Rounding.lean | propext, Classical.choice, Quot.sound |
| `Heat.round_argument_violated` | Props/Rounding.lean | propext, Classical.choice, Quot.sound |
| `Heat.round_integer_violated` | Props/Rounding.lean | propext, Classical.choice, Quot.sound |
| `Heat.round_out_spec` | Props/Rounding.lean | propext, Classical.choice, Quot.sound |
| `Heat.clip_value` | Props/Rounding.lean | propext, Classical.choice, Quot.sound |
| `Heat.clip_no_bounds` | Props/Rounding.lean | propext, Quot.sound |
| `Heat.clip_out_partial` | Props/Rounding.lean | propext, Classical.choice, Quot.sound |
| `Heat.clip_out_violated` | Props/Rounding.lean | propext, Classical.choice, Quot.sound |
| `Heat.clip_type_violated` | Props/Rounding.lean | propext, Classical.choice, Quot.sound |
| `Heat.modf_spec` | Props/Rounding.lean | propext, Classical.choice, Quot.sound |
| `Heat.modf_out_violated` | Props/Rounding.lean | propext, Classical.choice, Quot.sound |
| `Heat.divmod_spec` | Props/Rounding.lean | propext, Classical.choice, Quot.sound |
| `Heat.divmod_out_partial` | Props/Rounding.lean | propext, Classical.choice, Quot.sound |
| `Heat.divmod_alias_violated` | Props/Rounding.lean | propext, Classical.choice, Quot.sound |
| `Heat.pow_spec` | Props/Rounding.lean | propext, Quot.sound |
| `Heat.pow_out_array` | Props/Rounding.lean | propext, Quot.sound |
| `Heat.pow_out_violated` | Props/Rounding.lean | propext, Quot.sound |
| `Heat.sameTorch_history` | Props/Randperm.lean | propext, Quot.sound |
| `Heat.randperm_partial` | Props/Randperm.lean | propext, Quot.sound |
| `Heat.randperm_lengths` | Props/Randperm.lean | propext, Quot.sound |
| `Heat.randperm_violated` | Props/Randperm.lean | none |
| `Heat.randperm_exception_violated` | Props/Randperm.lean | none |
| `Heat.randn_partial` | Props/Randperm.lean | propext, Classical.choice, Quot.sound |
| `Heat.condest_upper_partial` | Props/Condest.lean | propext, Classical.choice, Quot.sound |
| `Heat.condest_small_violated` | Props/Condest.lean | propext, Classical.choice, Quot.sound |
| `Heat.condest_sample_violated` | Props/Condest.lean | propext, Classical.choice, Quot.sound |
| `Heat.condest_params` | Props/Condest.lean | propext, Quot.sound |
| `Heat.std_spec_partial` | Props/StdVdot.lean | propext, Classical.choice, Quot.sound |
| `Heat.std_ddof_violated` | Props/StdVdot.lean | propext, Classical.choice, Quot.sound |
| `Heat.std_ddof_value_violated` | Props/StdVdot.lean | propext, Classical.choice, Quot.sound |
| `Heat.std_negative` | Props/StdVdot.lean | propext, Classical.choice, Quot.sound |
| `Heat.vdot_spec_partial` | Props/StdVdot.lean | propext, Classical.choice, Quot.sound |
| `Heat.vdot_size_violated` | Props/StdVdot.lean | propext, Quot.sound |
| `Heat.vdot_mismatch` | Props/StdVdot.lean | propext |
| `Heat.matrixExp_partial` | Props/StdVdot.lean | propext |
| `Heat.matrixExp_unbalanced_violated` | Props/StdVdot.lean | propext, Classical.choice, Quot.sound |
| `Heat.matrixExp_axis` | Props/StdVdot.lean | propext, Classical.choice, Quot.sound |
| `Heat.kmedians_fit_partial` | Props/KFit.lean | propext, Classical.choice, Quot.sound |
| `Heat.kmedians_labels_violated` | Props/KFit.lean | propext, Classical.choice, Quot.sound |
| `Heat.kmedoids_fit_partial` | Props/KFit.lean | propext, Classical.choice, Quot.sound |
| `Heat.kmedoids_labels_violated` | Props/KFit.lean | propext, Classical.choice, Quot.sound |
| `Heat.kmedoidsStep_spec` | Props/KFit.lean | propext, Classical.choice, Quot.sound |
| `Heat.nearestL1_spec` | Props/KCluster.lean | propext, Classical.choice, Quot.sound |
| `Heat.nansum_spec` | Props/NanReduce.lean | propext, Classical.choice, Quot.sound |
| `Heat.nanprod_partial` | Props/NanReduce.lean | propext, Classical.choice, Quot.sound |
| `Heat.nanprod_violated` | Props/NanReduce.lean | propext, Classical.choice, Quot.sound |
| `Heat.inf_mul_not_fin` | Props/NanReduce.lean | propext, Classical.choice, Quot.sound |
| `Heat.polar_cols_qr` | Props/QrInPlace.lean | propext, Classical.choice, Quot.sound |
| `Heat.qOnlyCols_eq` | Props/QrInPlace.lean | propext, Classical.choice, Quot.sound |
| `Heat.polarStacked_holds` | Props/QrInPlace.lean | propext, Classical.choice, Quot.sound |
| `Heat.copy_fresh` | Props/Alias.lean | propext, Quot.sound |
| `Heat.astype_partial` | Props/Alias.lean | propext, Quot.sound |
| `Heat.astype_violated` | Props/Alias.lean | propext, Quot.sound |
| `Heat.astype_in_place` | Props/Alias.lean | propext, Quot.sound |
| `Heat.array_copy_spec` | Props/Alias.lean | propext, Quot.sound |
| `Heat.conjugate_partial` | Props/Alias.lean | propext, Quot.sound |
| `Heat.conjugate_vals` | Props/Alias.lean | propext, Quot.sound |
| `Heat.conjugate_violated` | Props/Alias.lean | propext, Quot.sound |
| `Heat.flatten_view` | Props/Alias.lean | propext, Quot.sound |
| `Heat.load_save_agree` | Props/IoDispatch.lean | propext, Classical.choice, Quot.sound |
| `Heat.load_format_partial` | Props/IoDispatch.lean | propext, Classical.choice, Quot.sound |
| `Heat.netcdf_ext_violated` | Props/IoDispatch.lean | propext, Classical.choice, Quot.sound |
| `Heat.ioExtension_dot` | Props/IoDispatch.lean | propext, Quot.sound |
| `Heat.no_ext` | Props/IoDispatch.lean | propext, Classical.choice, Quot.sound |
| `Heat.splitExt_file` | Props/IoDispatch.lean | propext |
| `Heat.rollMulti_spec` | Props/RollMulti.lean | propext, Classical.choice, Quot.sound |
| `Heat.rollMulti_argument_violated` | Props/RollMulti.lean | propext, Classical.choice, Quot.sound |
| `Heat.rollInt_spec` | Props/RollMulti.lean | propext, Classical.choice, Quot.sound |
| `Heat.rollSlabs_spec` | Props/RollMulti.lean | propext, Quot.sound |
| `Heat.takeAxis_spec` | Props/RollMulti.lean | propext, Classical.choice, Quot.sound |
| `Heat.split_other_int_partial` | Props/SplitOther.lean | propext, Classical.choice, Quot.sound |
| `Heat.split_replicated_int_partial` | Props/SplitOther.lean | propext, Classical.choice, Quot.sound |
| `Heat.split_other_refused` | Props/SplitOther.lean | propext, Quot.sound |
| `Heat.split_other_list_partial` | Props/SplitOther.lean | propext, Classical.choice, Quot.sound |
| `Heat.split_replicated_list_partial` | Props/SplitOther.lean | propext, Classical.choice, Quot.sound |
| `Heat.split_empty_violated` | Props/SplitOther.lean | propext |
| `Heat.split_negative_violated` | Props/SplitOther.lean | propext, Classical.choice, Quot.sound |
| `Heat.fit_paired` | Props/KnnFit.lean | propext, Quot.sound |
| `Heat.fit_accepts` | Props/KnnFit.lean | propext, Quot.sound |
| `Heat.oneHotAll_spec` | Props/KnnFit.lean | propext, Quot.sound |
| `Heat.fit_failed_violated` | Props/KnnFit.lean | propext, Quot.sound |
| `Heat.fit_negative_violated` | Props/KnnFit.lean | propext, Classical.choice, Quot.sound |
| `Heat.wait_received` | Props/Requests.lean | propext, Quot.sound |
| `Heat.wait_others` | Props/Requests.lean | propext |
| `Heat.blocking_received` | Props/Requests.lean | propext, Quot.sound |
| `Heat.send_value` | Props/Requests.lean | propext, Quot.sound |
| `Heat.send_copy` | Props/Requests.lean | propext |
| `Heat.wait_single` | Props/Requests.lean | none |
| `Heat.lower_wait_partial` | Props/Requests.lean | propext |
| `Heat.nonblocking_gradient_partial` | Props/Requests.lean | propext, Quot.sound |
| `Heat.shuffle_received_partial` | Props/Requests.lean | propext |
| `Heat.wait_twice_partial` | Props/Requests.lean | propext |
| `Heat.lower_wait_violated` | Props/Requests.lean | propext |
| `Heat.nonblocking_gradient_violated` | Props/Requests.lean | propext, Quot.sound |
| `Heat.nonblocking_single_violated` | Props/Requests.lean | none |
| `Heat.shuffle_received_violated` | Props/Requests.lean | propext |
| `Heat.wait_twice_violated` | Props/Requests.lean | propext, Quot.sound |
| `Heat.derivedOp_partial` | Props/DerivedOp.lean | propext, Classical.choice, Quot.sound |
| `Heat.derivedOp_shifted` | Props/DerivedOp.lean | propext, Classical.choice, Quot.sound |
| `Heat.derivedOp_first_violated` | Props/DerivedOp.lean | propext, Classical.choice, Quot.sound |
| `Heat.derivedOp_outside_violated` | Props/DerivedOp.lean | propext, Classical.choice, Quot.sound |
| `Heat.row_dense` | Props/DerivedOp.lean | propext, Quot.sound |
| `Heat.alltoall_received` | Props/AlltoallStage.lean | propext, Classical.choice, Quot.sound |
| `Heat.alltoallAxes_perm` | Props/AlltoallStage.lean | propext, Quot.sound |
| `Heat.argsort_argsort` | Props/AlltoallStage.lean | propext, Classical.choice, Quot.sound |
| `Heat.gather_argsort` | Props/AlltoallStage.lean | propext, Quot.sound |
| `Heat.ialltoall_received_partial` | Props/AlltoallStage.lean | propext, Quot.sound |
| `Heat.ialltoall_received_violated` | Props/AlltoallStage.lean | propext |
