{
 "claims": [
  {
   "property": "C01",
   "status": "proved",
   "theorems": [
    "Heat.chunk_partition",
    "Heat.chunk_owner_unique",
    "Heat.chunk_invalid_split",
    "Heat.chunk_none"
   ],
   "note": "dense branch; typed arguments (no TypeError branch)"
  },
  {
   "property": "C02",
   "status": "proved",
   "theorems": [
    "Heat.chunk_balanced"
   ],
   "note": ""
  },
  {
   "property": "C03",
   "status": "proved",
   "theorems": [
    "Heat.counts_displs_shape_eq_chunk"
   ],
   "note": ""
  },
  {
   "property": "C04",
   "status": "proved",
   "theorems": [
    "Heat.sanitize_axis_ok_iff",
    "Heat.sanitize_axis_error_iff",
    "Heat.sanitize_axis_none",
    "Heat.sanitize_axis_idem",
    "Heat.sanitize_axes_componentwise"
   ],
   "note": "TypeError branch for non-int axes is not modelled (typed argument)"
  },
  {
   "property": "C05",
   "status": "proved",
   "theorems": [
    "Heat.broadcast_shapes_spec",
    "Heat.broadcast_shapes_error",
    "Heat.broadcast_shape_eq",
    "Heat.broadcast_shapes_set",
    "Heat.broadcast_shapes_assoc",
    "Heat.broadcast_shape_comm",
    "Heat.broadcast_shape_self"
   ],
   "note": "torch.broadcast_shapes modelled by its documented rule"
  },
  {
   "property": "C06",
   "status": "proved",
   "theorems": [
    "Heat.counts_displs_ownership"
   ],
   "note": ""
  },
  {
   "property": "C07",
   "status": "proved",
   "theorems": [
    "Heat.is_balanced_iff",
    "Heat.is_balanced_iff_spec"
   ],
   "note": ""
  },
  {
   "property": "C08",
   "status": "proved",
   "theorems": [
    "Heat.redistribute_spec",
    "Heat.redistribute_bad_sum",
    "Heat.redistribute_needs_two_passes"
   ],
   "note": "lshape_map argument = None (the docs declare a wrong one undefined); blocking Send/Recv pairs modelled as atomic moves, see C49"
  },
  {
   "property": "C09",
   "status": "proved",
   "theorems": [
    "Heat.balance_spec",
    "Heat.balance_idem"
   ],
   "note": ""
  },
  {
   "property": "C10",
   "status": "proved",
   "theorems": [
    "Heat.collect_spec",
    "Heat.collect_out_of_bounds",
    "Heat.collect_negative"
   ],
   "note": ""
  },
  {
   "property": "C11",
   "status": "partial",
   "theorems": [
    "Heat.lshape_map_fresh_partial",
    "Heat.lshape_map_stale_after_larray",
    "Heat.lshape_map_wrong_after_padded_target"
   ],
   "note": "the full claim is false of the code: two counterexamples proved"
  },
  {
   "property": "C12",
   "status": "partial",
   "theorems": [
    "Heat.resplit_inplace_partial",
    "Heat.resplit_to_none",
    "Heat.resplit_from_none",
    "Heat.resplit_inplace_large_violated"
   ],
   "note": "axis sizes above 2^24 violate the property (tile sizes are float32): counterexample proved; Alltoallw modelled as block exchange"
  },
  {
   "property": "C13",
   "status": "partial",
   "theorems": [
    "Heat.resplit_balanced_partial",
    "Heat.resplit_unbalanced_violated"
   ],
   "note": "unbalanced sources violate the property: counterexample proved"
  },
  {
   "property": "C14",
   "status": "partial",
   "theorems": [
    "Heat.getitemSlice_partial",
    "Heat.getitemSlice_stop_beyond_violated",
    "Heat.getitemSlice_start_before_violated",
    "Heat.getitemSlice_crossing_violated"
   ],
   "note": "proved for bounds in [-n, n] that do not cross; false outside (counterexamples proved)"
  },
  {
   "property": "C15",
   "status": "proved",
   "theorems": [
    "Heat.getitemInt_spec"
   ],
   "note": ""
  },
  {
   "property": "C16",
   "status": "partial",
   "theorems": [
    "Heat.getitemList_partial",
    "Heat.sorted_owner_order",
    "Heat.getitemList_order_violated",
    "Heat.getitemList_negative_violated",
    "Heat.getitemList_single_violated"
   ],
   "note": "proved for >= 2 non-negative positions whose owners are in rank order; false otherwise (counterexamples proved)"
  },
  {
   "property": "C17",
   "status": "partial",
   "theorems": [
    "Heat.setitemSlice_partial",
    "Heat.setitemSlice_negative_start_violated",
    "Heat.setitemSlice_stop_before_violated",
    "Heat.setitemSlice_unbalanced_violated"
   ],
   "note": "proved on balanced arrays for start >= 0, stop >= -n; false otherwise"
  },
  {
   "property": "C18",
   "status": "partial",
   "theorems": [
    "Heat.setitemInt_partial",
    "Heat.setitemInt_out_of_range",
    "Heat.setitemInt_unbalanced_violated",
    "Heat.setitemInt_unbalanced_wrong_slab_violated"
   ],
   "note": "proved on balanced arrays; false on unbalanced ones"
  },
  {
   "property": "C19",
   "status": "partial",
   "theorems": [
    "Heat.halo_window_partial",
    "Heat.halo_matched_partial",
    "Heat.halo_too_large",
    "Heat.halo_single_populated_violated"
   ],
   "note": "proved whenever at least two ranks are populated; with exactly one populated rank get_halo raises TypeError (proved)"
  },
  {
   "property": "C20",
   "status": "proved",
   "theorems": [
    "Heat.reduce_spec",
    "Heat.reduce_exists",
    "Heat.sum_spec",
    "Heat.all_spec",
    "Heat.any_spec",
    "Heat.max_spec_partial",
    "Heat.max_int_min_violated"
   ],
   "note": "for all operators with a true neutral element; max/min use -max(dtype), which is not neutral for the smallest integer (proved counterexample)"
  },
  {
   "property": "C21",
   "status": "proved",
   "theorems": [
    "Heat.cum_spec"
   ],
   "note": ""
  },
  {
   "property": "C22",
   "status": "partial",
   "theorems": [
    "Heat.reduceMeta_partial",
    "Heat.reduceMeta_1d_violated",
    "Heat.reduceMeta_all_axes_violated",
    "Heat.reduceMeta_none_keepdims_violated"
   ],
   "note": "false for 1-d arrays without keepdims, tuples of all axes and axis=None with keepdims"
  },
  {
   "property": "C23",
   "status": "partial",
   "theorems": [
    "Heat.binaryOp_spec_partial",
    "Heat.binaryOp_flag_truthful",
    "Heat.binaryOp_mismatch",
    "Heat.binaryOp_empty_scalar_violated",
    "Heat.binaryOp_balanced_flag_violated"
   ],
   "note": "all operand sizes and distributions; violated for an empty split operand and a scalar (ValueError), and the balanced attribute of a broadcast split operand lies."
  },
  {
   "property": "C24",
   "status": "proved",
   "theorems": [
    "Heat.promote_types_least",
    "Heat.promote_types_comm",
    "Heat.promote_types_self",
    "Heat.promote_types_assoc",
    "Heat.promote_types_bound"
   ],
   "note": "Whole finite domain of types; least common intuitive target, commutative, idempotent, associative."
  },
  {
   "property": "C25",
   "status": "partial",
   "theorems": [
    "Heat.result_type_order_category_partial",
    "Heat.result_type_order_kind_partial",
    "Heat.result_type_order_two_partial",
    "Heat.result_type_total",
    "Heat.result_type_order_violated"
   ],
   "note": "Order independence proved for lists of any length of operands of one category, or of one family, and for two operands of any kind; false in general (violated: float16 array, int8 array, Python float)."
  },
  {
   "property": "C26",
   "status": "partial",
   "theorems": [
    "Heat.can_cast_safe_refl",
    "Heat.can_cast_safe_trans",
    "Heat.can_cast_safe_antisymm",
    "Heat.can_cast_hierarchy",
    "Heat.can_cast_same_kind_equiv",
    "Heat.can_cast_safe_exact_partial",
    "Heat.can_cast_safe_exact_violated"
   ],
   "note": "Order laws proved; exactness proved for every safe cast but int64 to float64/complex128, where it is violated (2^53+1)."
  },
  {
   "property": "C27",
   "status": "partial",
   "theorems": [
    "Heat.random_split0_partial",
    "Heat.random_none_partial",
    "Heat.random_array_partial",
    "Heat.random_array_violated",
    "Heat.random_large_violated",
    "Heat.random_split1_violated"
   ],
   "note": "Proved for split 0 and None, all P, all counters/shapes up to 2^24 elements that do not end exactly at a 2^32 (2^64) counter boundary; violated at that boundary, beyond 2^24 elements (float32 counts), and for split != 0."
  },
  {
   "property": "C28",
   "status": "partial",
   "theorems": [
    "Heat.random_streams_disjoint_partial",
    "Heat.random_counter_agrees",
    "Heat.random_pairs_distinct_partial",
    "Heat.random_streams_violated"
   ],
   "note": "Disjointness for all histories of draws of at most 2^24 elements; equality of the counter on all ranks for all histories; violated for larger draws (float32 ceil)."
  },
  {
   "property": "C29",
   "status": "proved",
   "theorems": [
    "Heat.threefry32_bijective",
    "Heat.threefry64_bijective"
   ],
   "note": "All seeds, all words."
  },
  {
   "property": "C30",
   "status": "proved",
   "theorems": [
    "Heat.rand32_range",
    "Heat.rand64_range"
   ],
   "note": "All words; floats as exact rationals (exact in IEEE: at most 24/53 significant bits)."
  },
  {
   "property": "C31",
   "status": "proved",
   "theorems": [
    "Heat.randint_range",
    "Heat.randint_empty_range",
    "Heat.randint_total"
   ],
   "note": "All words and bounds; spans of at least 2^31 (2^63) raise RuntimeError."
  },
  {
   "property": "C32",
   "status": "partial",
   "theorems": [
    "Heat.threefry_state_roundtrip",
    "Heat.localseed_invariant",
    "Heat.batchparallel_state_roundtrip_partial",
    "Heat.set_state_batchparallel_violated",
    "Heat.set_state_position_violated"
   ],
   "note": "Threefry round trip proved; batchparallel only while batchparallel is active, and the stream position is lost (both violated)."
  },
  {
   "property": "C33",
   "status": "partial",
   "theorems": [
    "Heat.permutation_spec_partial",
    "Heat.permutation_unbalanced_violated",
    "Heat.permutation_hang_violated"
   ],
   "note": "Proved for balanced arrays (all permutations, all schedules); unbalanced arrays raise IndexError or hang, both shown."
  },
  {
   "property": "C34",
   "status": "partial",
   "theorems": [
    "Heat.arange_spec_partial",
    "Heat.arangeNum_exact",
    "Heat.arange_negative_violated",
    "Heat.arange_int32_violated",
    "Heat.arange_size_violated"
   ],
   "note": "Proved for integer arguments with a non-negative element count and |stop-start| < 2^53 (true division modelled with binary64 rounding); negative counts raise on the last rank instead of giving an empty array."
  },
  {
   "property": "C35",
   "status": "proved",
   "theorems": [
    "Heat.eye_spec"
   ],
   "note": "All shapes, split None/0/1, all P, all ranks."
  },
  {
   "property": "C36",
   "status": "proved",
   "theorems": [
    "Heat.linspace_spec",
    "Heat.linspace_negative",
    "Heat.linspace_last"
   ],
   "note": "Exact (rational) arithmetic as the property states."
  },
  {
   "property": "C37",
   "status": "proved",
   "theorems": [
    "Heat.array_split_spec",
    "Heat.array_is_split_spec",
    "Heat.checked_nonneg_iff",
    "Heat.consistent_iff"
   ],
   "note": "is_split assumed a valid axis of every local object."
  },
  {
   "property": "C38",
   "status": "proved",
   "theorems": [
    "Heat.roll_spec"
   ],
   "note": "Along the split axis, all shifts, all distributions, all schedules. MPI_TAG_UB is not modelled (tags are global indices)."
  },
  {
   "property": "C39",
   "status": "proved",
   "theorems": [
    "Heat.flip_spec"
   ],
   "note": "Along the split axis, all distributions, all schedules, including the final balance_."
  },
  {
   "property": "C40",
   "status": "partial",
   "theorems": [
    "Heat.diagonal_spec_partial",
    "Heat.diagonal_equal_axes",
    "Heat.diagonal_unbalanced_violated",
    "Heat.diag_vector_spec"
   ],
   "note": "diagonal proved for every shape, offset, axes: unsplit, split along another axis (any distribution), split along one of the two axes in canonical distribution; false for unbalanced arrays (counterexample proved). diag of vectors proved; concatenate with the padding and balance_ enter as the padded canonical chunks."
  },
  {
   "property": "C41",
   "status": "partial",
   "theorems": [
    "Heat.reshape_spec_partial",
    "Heat.reshape_wrong_size",
    "Heat.reshape_to_0d_violated",
    "Heat.reshape_mutates_violated",
    "Heat.rep_flat",
    "Heat.rep_resplitTo"
   ],
   "note": "Every shape, distribution (unbalanced too), split and P; except 0-d results of distributed arrays, which fail (proved). The argument is changed in place (proved)."
  },
  {
   "property": "C42",
   "status": "partial",
   "theorems": [
    "Heat.transpose_sound",
    "Heat.transpose_complete",
    "Heat.transpose_default",
    "Heat.moveaxis_spec",
    "Heat.moveaxis_length_mismatch",
    "Heat.swapaxes_spec",
    "Heat.expand_dims_spec_partial",
    "Heat.expand_dims_unsorted_violated",
    "Heat.expand_dims_negative_violated",
    "Heat.squeeze_spec_partial",
    "Heat.squeeze_one_iff",
    "Heat.squeeze_repeated_violated",
    "Heat.squeeze_mutates_violated",
    "Heat.stack_spec",
    "Heat.rep_resplitNone"
   ],
   "note": "transpose, moveaxis, swapaxes, stack in full generality; expand_dims for ascending axes (violated otherwise: wrong shape or IndexError), squeeze for distinct axes (repeated axes give a negative split; the argument is resplit in place)"
  },
  {
   "property": "C43",
   "status": "partial",
   "theorems": [
    "Heat.nonzero_spec_partial",
    "Heat.nonzero_order_partial",
    "Heat.nonzero_replicated",
    "Heat.nonzero_unbalanced_violated",
    "Heat.nonzero_order_violated"
   ],
   "note": "exact set of positions for canonical distributions along any axis, row-major order for split 0, replicated case; false for unbalanced arrays (proved)."
  },
  {
   "property": "C44",
   "status": "partial",
   "theorems": [
    "Heat.where_spec_partial",
    "Heat.where_nonbool_violated",
    "Heat.where_inf_violated"
   ],
   "note": "elementwise formula over finite/inf/nan values without rounding; false for conditions other than 0/1 and for non-finite unselected values (proved)."
  },
  {
   "property": "C45",
   "status": "partial",
   "theorems": [
    "Heat.fill_diagonal_spec_partial",
    "Heat.fill_diagonal_invalid",
    "Heat.fill_diagonal_unbalanced_violated"
   ],
   "note": "canonical distributions and replicated arrays; false for unbalanced arrays (proved)."
  },
  {
   "property": "C46",
   "status": "partial",
   "theorems": [
    "Heat.large_count_describes",
    "Heat.large_count_refused_iff",
    "Heat.large_count_committed",
    "Heat.large_count_uncommitted_violated"
   ],
   "note": "Typemap exact for every count, ValueError exactly when refused; but the type is returned uncommitted (unusable) when the count is a multiple of the limit (proved)."
  },
  {
   "property": "C47",
   "status": "proved",
   "theorems": [
    "Heat.cast_spec",
    "Heat.cast_replicated",
    "Heat.cast_invalid"
   ],
   "note": "__cast: allreduce of the owner's rank and Bcast from it."
  },
  {
   "property": "C48",
   "status": "proved",
   "theorems": [
    "Heat.exchange_terminates",
    "Heat.exchange_schedule_independent"
   ],
   "note": "All exchanges with unique envelopes, all interleavings of posts and MPI matches, rendezvous sends; roll and permutation are shown to be such exchanges under C38/C33."
  },
  {
   "property": "C49",
   "status": "proved",
   "theorems": [
    "Heat.ordered_transfers",
    "Heat.ordered_transfers_terminate"
   ],
   "note": "All transfer lists, all interleavings, arbitrary mix of buffered and rendezvous sends, FIFO per envelope."
  },
  {
   "property": "C50",
   "status": "proved",
   "theorems": [
    "Heat.sanitize_distribution_spec",
    "Heat.sanitize_distribution_broadcast",
    "Heat.sanitize_distribution_mismatch"
   ],
   "note": ""
  },
  {
   "property": "C51",
   "status": "partial",
   "theorems": [
    "Heat.partition_split_partial",
    "Heat.partition_none",
    "Heat.partition_float_violated",
    "Heat.from_partitioned_split_partial",
    "Heat.from_partitioned_none",
    "Heat.from_partitioned_violated"
   ],
   "note": "blocks tile the array and hold its elements if the starts are exactly representable in the array's type (always for integer types; up to 2^24 for float32: counterexample proved beyond); round trip if no rank holds the whole split axis (counterexample proved otherwise)."
  },
  {
   "property": "C52",
   "status": "partial",
   "theorems": [
    "Heat.canonical_order",
    "Heat.char_roundtrip_partial",
    "Heat.char_roundtrip_violated"
   ],
   "note": "Lookup is independent of enumeration order; char() of bool is \"u1\" which names uint8 (violated)."
  },
  {
   "property": "C53",
   "status": "partial",
   "theorems": [
    "Heat.array_of_dndarray_partial",
    "Heat.array_dtype_violated",
    "Heat.array_dtype_split_violated"
   ],
   "note": "array(x, dtype=other) of a distributed x returns the local parts as replicated arrays; with split it loses elements."
  },
  {
   "property": "C54",
   "status": "partial",
   "theorems": [
    "Heat.arange_exact_partial",
    "Heat.arange_float_size_violated"
   ],
   "note": "Exact arithmetic proved; in binary64 arange(0, 0.3, 0.1) holds 4 elements but declares 3."
  },
  {
   "property": "C55",
   "status": "proved",
   "theorems": [
    "Heat.seed_reproducible",
    "Heat.ranks_agree_on_stream",
    "Heat.seed_restarts"
   ],
   "note": "draws are represented by the counter / position they advance"
  },
  {
   "property": "C56",
   "status": "partial",
   "theorems": [
    "Heat.noncontiguous_describes",
    "Heat.noncontiguous_1d_describes",
    "Heat.contiguous_describes",
    "Heat.noncontiguous_rows",
    "Heat.contiguous_rows_partial",
    "Heat.contiguous_rows_violated"
   ],
   "note": "All shapes/strides; the contiguous case with counts is limited to 31 bits (int32 factor), beyond which displacements wrap (proved)."
  },
  {
   "property": "C57",
   "status": "partial",
   "theorems": [
    "Heat.allgather_block_partial",
    "Heat.allgather_block_violated"
   ],
   "note": "Right up to COUNT_LIMIT elements; beyond, one item divided by P is zero items (proved for every P>1)."
  },
  {
   "property": "C58",
   "status": "partial",
   "theorems": [
    "Heat.recursive_describes_partial",
    "Heat.recursive_describes_violated",
    "Heat.alltoallw_block_partial",
    "Heat.alltoallw_empty",
    "Heat.alltoall_send",
    "Heat.alltoall_recv",
    "Heat.alltoall_resplits",
    "Heat.alltoall_lengths",
    "Heat.alltoall_axes"
   ],
   "note": "All shapes, strides, P; fails only for 2-D tensors with unit last stride and row stride at least COUNT_LIMIT (proved: one row instead of all)."
  },
  {
   "property": "C59",
   "status": "partial",
   "theorems": [
    "Heat.argmax_spec_partial",
    "Heat.argmax_1d_partial",
    "Heat.argmax_flat_partial",
    "Heat.argmax_columns_partial",
    "Heat.argmax_commute_violated",
    "Heat.argmax_unbalanced_violated",
    "Heat.argmax_flat_violated",
    "Heat.argmax_split1_violated",
    "Heat.argmax_int64_violated",
    "Heat.argmax_neutral_violated"
   ],
   "note": "1-D and one-position reductions in any MPI order; several positions in rank order; axis=None with split 0 and evenly divisible rows. Counterexamples proved: unbalanced arrays, axis=None with uneven rows or split 1, int64 beyond 2^53, values below the neutral element, ties with commutative reordering. NaN not modelled."
  },
  {
   "property": "C60",
   "status": "partial",
   "theorems": [
    "Heat.sort_spec_partial",
    "Heat.sendVec_spec",
    "Heat.pivots_spec",
    "Heat.sort_default_axis_violated",
    "Heat.sort_empty_violated",
    "Heat.sort_unbalanced_violated",
    "Heat.sort_index_type_violated",
    "Heat.sort_index_float32_violated"
   ],
   "note": "Full functional correctness of the sample sort (pivots, both exchanges, rebalancing plan) for canonical distributions, n > 0 and a non-negative axis. False for the default axis=-1 (only local sort), empty arrays (IndexError), unbalanced arrays (RuntimeError/IndexError) and indices that the value type cannot hold: all proved. NaN not modelled."
  },
  {
   "property": "C61",
   "status": "partial",
   "theorems": [
    "Heat.concat_spec_partial",
    "Heat.concat2_spec_partial",
    "Heat.concat_schedule",
    "Heat.concat_few",
    "Heat.concat_across",
    "Heat.concat_across_mismatch",
    "Heat.concat_across_left_partial",
    "Heat.concat_across_right_partial",
    "Heat.concat_path",
    "Heat.concat_order_violated",
    "Heat.concat_unit_axis_violated",
    "Heat.concat_across_violated"
   ],
   "note": "Proved for canonical operands (and for any operands within their share of the result), all branches, all schedules. False for operands that are not balanced (order changes silently because of abs(), or RuntimeError) and for a replicated operand next to a split one when another axis has extent 1 (RuntimeError): proved. Type promotion, which is C24-C26, is not part of this model."
  },
  {
   "property": "C62",
   "status": "partial",
   "theorems": [
    "Heat.mean_all_spec",
    "Heat.mean_axis_spec_partial",
    "Heat.mean_axis_nan",
    "Heat.var_all_spec_partial",
    "Heat.var_all_canonical",
    "Heat.var_axis_spec_partial",
    "Heat.var_axis_ddof1_partial",
    "Heat.moment_shape",
    "Heat.moment_split1",
    "Heat.moment_splitN",
    "Heat.var_ddof",
    "Heat.skew_axis",
    "Heat.mean_unbalanced_violated",
    "Heat.var_axis_single_slab_violated",
    "Heat.var_axis_ddof1_violated",
    "Heat.var_axes_ddof1_violated",
    "Heat.mean_float32_violated",
    "Heat.moment_splitN_violated",
    "Heat.skew_axis_violated",
    "Heat.var_int_violated"
   ],
   "note": "Exact rational arithmetic with NaN. mean(x) is completely characterised (right iff the first two ranks are not both empty). False: NaN for such distributions; var(axis=split, ddof=1) is NaN as soon as a rank has exactly one slab; var over several axes with ddof=1 uses the number of slabs; buffers of mean are float32; wrong shape for one-element results; wrong split axis for tuple axes (exact condition proved); skew/kurtosis with a negative split axis raise. Floating-point rounding of the merge itself is not bounded."
  },
  {
   "property": "C63",
   "status": "partial",
   "theorems": [
    "Heat.bincount_dist",
    "Heat.bincount_agree",
    "Heat.bincount_rep",
    "Heat.histc_dist",
    "Heat.digitize_spec",
    "Heat.bincount_weights_violated"
   ],
   "note": "Exact (integer) weights. bincount is completely characterised: right exactly if the ranks agree on the element type (exact condition proved), which fails for weights with an empty rank (float32 weights, or minlength > 0): erroneous Allreduce. histc: the bin of an element is an abstract function, common to all ranks. digitize: integers, monotone bins."
  },
  {
   "property": "C64",
   "status": "partial",
   "theorems": [
    "Heat.outer_spec_partial",
    "Heat.outer_raises_iff",
    "Heat.outer_completes",
    "Heat.outer_split",
    "Heat.outer_deadlock_violated",
    "Heat.outer_arguments_violated",
    "Heat.kahn",
    "Heat.kahn_stuck"
   ],
   "note": "Proved for every number of ranks, distribution and schedule if MPI buffers the messages; the ring starts with Send on every rank, so it hangs (proved) when MPI does not buffer, and an operand that is not split is resplit in place (proved). Right-or-raises: it does not raise iff the travelling operand is canonical. kahn: programs of blocking Send/Recv are deterministic."
  },
  {
   "property": "C65",
   "status": "partial",
   "theorems": [
    "Heat.tri_spec_partial",
    "Heat.tri_vector_spec_partial",
    "Heat.tri_unbalanced_violated"
   ],
   "note": "All shapes, diagonals and split axes; a split along one of the last two axes must be canonical: the offsets come from chunk, and an unbalanced array gets the wrong triangle (proved)."
  },
  {
   "property": "C66",
   "status": "partial",
   "theorems": [
    "Heat.trace_matrix_spec_partial",
    "Heat.trace_nd_spec_partial",
    "Heat.trace_unbalanced_violated",
    "Heat.trace_axes_violated",
    "Heat.trace_order_violated",
    "Heat.trace_gather_axis_violated",
    "Heat.trace_split_axis_violated"
   ],
   "note": "Matrices: every offset, canonical split. More dimensions: split axis not a trace axis. Proved violations: unbalanced matrices; axis order (1, 0) with an offset; wrong result split if the split axis lies between the trace axes; RuntimeError if the split axis is a trace axis and a rank holds two or more diagonal elements."
  },
  {
   "property": "C67",
   "status": "partial",
   "theorems": [
    "Heat.dot_spec_partial",
    "Heat.dot_unbalanced_violated",
    "Heat.dot_length_violated"
   ],
   "note": "Canonical or replicated operands of equal length. Proved violations: unbalanced operands lose products silently; different lengths are accepted when an operand is split."
  },
  {
   "property": "C68",
   "status": "proved",
   "theorems": [
    "Heat.cdist_spec",
    "Heat.cdist_symmetric_spec",
    "Heat.cdist_completes",
    "Heat.cdist_symmetric_completes",
    "Heat.cdist_local_spec"
   ],
   "note": "Blocking Send/Recv with and without buffering. Metric is a function of two rows; number of features is not 0; type promotion not modelled."
  },
  {
   "property": "C69",
   "status": "partial",
   "theorems": [
    "Heat.cdist_case",
    "Heat.cdist_zeros_violated"
   ],
   "note": "Violated: X split along the rows and Y along the columns returns zeros, because the branch that raises cannot be reached. All other combinations are computed or refused."
  },
  {
   "property": "C70",
   "status": "partial",
   "theorems": [
    "Heat.det_spec_partial",
    "Heat.det_zero_or_right",
    "Heat.det_isclose_violated"
   ],
   "note": "Exact arithmetic in an arbitrary field. Proved with an exact test for zero, and in general: the result is 0 or the determinant. Violated as heat is: np.isclose takes entries up to 1e-8 for 0, so the distributed det of diag(1e-9, 1) is 0."
  },
  {
   "property": "C71",
   "status": "partial",
   "theorems": [
    "Heat.inv_spec_partial",
    "Heat.inv_raises_iff_partial",
    "Heat.inv_isclose_violated"
   ],
   "note": "Exact arithmetic in an arbitrary field. What is returned is always the inverse; with an exact test for zero it raises exactly for singular matrices. Violated as heat is: diag(1e-9, 1) has an inverse, the distributed inv raises."
  },
  {
   "property": "C72",
   "status": "proved",
   "theorems": [
    "Heat.matmul_spec",
    "Heat.matmul_mismatch",
    "Heat.matmul_allow_spec",
    "Heat.matvec_spec",
    "Heat.vecmat_spec"
   ],
   "note": "Two-dimensional operands and vectors on P ranks, integer elements without overflow; batch dimensions and the GPU integer detour are not modelled."
  },
  {
   "property": "C73",
   "status": "partial",
   "theorems": [
    "Heat.matmul_right_or_raises",
    "Heat.matvec_right_or_raises",
    "Heat.vecmat_right_or_raises",
    "Heat.matmul_1n_violated",
    "Heat.matmul_n0_violated"
   ],
   "note": "Proved for every combination of splits except a split summed axis with a replicated partner; there the code is wrong (counterexamples proved)."
  },
  {
   "property": "C74",
   "status": "partial",
   "theorems": [
    "Heat.vecvec_right_or_raises",
    "Heat.vecvec_spec",
    "Heat.vecvec_lengths_violated",
    "Heat.vecvec_inplace_violated"
   ],
   "note": "The value is right whenever all processes return; different lengths are noticed only by some processes and replicated arguments are distributed in place (both proved)."
  },
  {
   "property": "C75",
   "status": "proved",
   "theorems": [
    "Heat.load_csv_spec",
    "Heat.load_csv_right_or_raises",
    "Heat.load_csv_schedule",
    "Heat.load_csv_completes",
    "Heat.lastLine_shared"
   ],
   "note": "Files are lists of bytes, cells are byte strings (decoding and float are not modelled); the final balance_ is C09."
  },
  {
   "property": "C76",
   "status": "partial",
   "theorems": [
    "Heat.load_csv_one_column_violated",
    "Heat.load_csv_long_line_violated",
    "Heat.load_csv_crlf_violated",
    "Heat.load_csv_spec"
   ],
   "note": "The claim is false of the code: a column of values is lost if no process has two line starts, a process without line start raises, and a cut inside a carriage-return line-feed pair drops the last character of a value (all proved); load_csv_spec is the part that holds."
  },
  {
   "property": "C77",
   "status": "proved",
   "theorems": [
    "Heat.diff_spec",
    "Heat.diff_right_or_raises",
    "Heat.diff_gap_raises",
    "Heat.noGap_of_balanced",
    "Heat.diff_other_spec",
    "Heat.diff_local_spec",
    "Heat.diff_schedule",
    "Heat.diff_completes"
   ],
   "note": "Exact elements. prepend and append are concatenations (C61) before diff."
  },
  {
   "property": "C78",
   "status": "partial",
   "theorems": [
    "Heat.diff_spec",
    "Heat.diff_too_often_violated",
    "Heat.diff_other_violated",
    "Heat.diff_gap_raises"
   ],
   "note": "False of the code: n = extent + 1 returns elements; along another axis an unbalanced array in which a process holds more than the one before it raises (truncated message); both proved."
  },
  {
   "property": "C79",
   "status": "proved",
   "theorems": [
    "Heat.sparse_split_spec",
    "Heat.sparse_indptr_spec",
    "Heat.sparse_entries_spec",
    "Heat.sparse_is_split_raises",
    "Heat.sparse_is_split_spec"
   ],
   "note": "The transport (exchange with the neighbour, Allreduce, resplit) is taken as its result (C13, C29)."
  },
  {
   "property": "C80",
   "status": "partial",
   "theorems": [
    "Heat.sparse_indptr_spec",
    "Heat.sparse_entries_spec",
    "Heat.sparse_counts_violated"
   ],
   "note": "False of the code above 2^24 entries on one process: the counts are float32.  Proved up to 2^24 entries in total."
  },
  {
   "property": "C81",
   "status": "partial",
   "theorems": [
    "Heat.sparse_binary_spec",
    "Heat.sparse_type_spec",
    "Heat.sparse_misaligned_violated",
    "Heat.sparse_type_violated"
   ],
   "note": "Proved for matrices distributed alike (canonically next to a replicated one).  False of the code otherwise: the shortcut for processes without entries skips the check of the local shapes, and returns the element type of the first operand."
  },
  {
   "property": "C82",
   "status": "partial",
   "theorems": [
    "Heat.dense_of_sparse",
    "Heat.sparseRow_entries",
    "Heat.scalar_mul_dense",
    "Heat.sparse_binary_dense",
    "Heat.denseRow_append",
    "Heat.scalar_add_violated",
    "Heat.scalar_add_representation_violated"
   ],
   "note": "False of the code for adding a scalar, which leaves the elements that are not stored alone."
  },
  {
   "property": "C83",
   "status": "partial",
   "theorems": [
    "Heat.unique_spec",
    "Heat.unique_distribution",
    "Heat.unique_sorted",
    "Heat.unique_other_partial",
    "Heat.unique_other_distinct_partial",
    "Heat.unique_other_violated"
   ],
   "note": "Proved for axis=None and axis=split.  False of the code along any other axis: the first m slabs are returned, m the largest number of distinct pieces of a process."
  },
  {
   "property": "C84",
   "status": "partial",
   "theorems": [
    "Heat.unique_inverse_spec",
    "Heat.unique_inverse_raises",
    "Heat.unique_axis_inverse_partial",
    "Heat.unique_axis_inverse_violated",
    "Heat.unique_axis_inverse_split_violated"
   ],
   "note": "Proved for axis=None (unbalanced arrays raise).  False of the code along the split axis if a process holds a slab twice; along a split axis other than 0 it always raises IndexError."
  },
  {
   "property": "C85",
   "status": "partial",
   "theorems": [
    "Heat.topk_values_partial",
    "Heat.topk_short_violated",
    "Heat.topk_neutral_violated",
    "Heat.topk_too_many_violated",
    "Heat.topk_int64_violated"
   ],
   "note": "Proved for k at most the extent, values exact in float64 and not worse than the neutral value, if no process raises.  False of the code otherwise: a vector with fewer than k elements on a process raises, int8 -128 loses against the neutral -127, k too large is not noticed, int64 is rounded."
  },
  {
   "property": "C86",
   "status": "partial",
   "theorems": [
    "Heat.topk_indices_partial",
    "Heat.topk_indices_one_partial",
    "Heat.topk_offset_violated",
    "Heat.topk_index_violated"
   ],
   "note": "False of the code: the offset is computed from the local extent and multiplied by the rank, which is right only if every process holds one element."
  },
  {
   "property": "C87",
   "status": "proved",
   "theorems": [
    "Heat.load_hdf5_spec",
    "Heat.load_hdf5_completes"
   ],
   "note": "all shapes, slices, splits, process counts; element types/conversions not modelled"
  },
  {
   "property": "C88",
   "status": "proved",
   "theorems": [
    "Heat.load_multiple_hdf5_spec",
    "Heat.load_multiple_hdf5_content"
   ],
   "note": "files as lists of slabs; dtype promotion not modelled"
  },
  {
   "property": "C89",
   "status": "proved",
   "theorems": [
    "Heat.save_hdf5_serial",
    "Heat.save_hdf5_spec",
    "Heat.save_hdf5_unbalanced"
   ],
   "note": "transition system of the serial branch; h5py's parallel driver (mpio) not modelled"
  },
  {
   "property": "C90",
   "status": "partial",
   "theorems": [
    "Heat.save_hdf5_rank0_partial",
    "Heat.save_hdf5_early_return_violated"
   ],
   "note": "holds for rank 0 only; counterexample for rank 1 of 3"
  },
  {
   "property": "C91",
   "status": "partial",
   "theorems": [
    "Heat.save_csv_text",
    "Heat.save_csv_rows",
    "Heat.save_csv_header_violated",
    "Heat.save_csv_separator_violated"
   ],
   "note": "Proved for one-byte separators, headers with one byte per character, and items of the computed width. Without the first two conditions the claim is false of the code (violated theorems). MPI-IO is a library: Write_at is modelled as overwriting bytes."
  },
  {
   "property": "C92",
   "status": "proved",
   "theorems": [
    "Heat.fmtInt_width",
    "Heat.fmtInt_value",
    "Heat.fmtInt_chars",
    "Heat.save_csv_int",
    "Heat.csv_roundtrip_int"
   ],
   "note": "log10 is modelled exactly; the reading side needs the condition of C80 that every rank's share of the file holds header+2 lines."
  },
  {
   "property": "C93",
   "status": "partial",
   "theorems": [
    "Heat.fmtFloat_value",
    "Heat.fmtFloat_error",
    "Heat.fmtFloat_width_partial",
    "Heat.save_csv_float_partial",
    "Heat.save_csv_small_violated",
    "Heat.save_csv_carry_violated"
   ],
   "note": "Proved when the largest absolute value is zero or exceeds 1/10 and rounding does not add a digit before the point; both conditions are needed (violated theorems). Values are rationals; nan and inf not modelled."
  },
  {
   "property": "C94",
   "status": "partial",
   "theorems": [
    "Heat.pad_spec_partial",
    "Heat.pad_other_spec",
    "Heat.pad_single_violated",
    "Heat.pad_unbalanced_violated"
   ],
   "note": "The full claim is false of the code: one slab on two or more ranks, or an unbalanced array, is not padded at its end (proved counterexamples). Proved for balanced arrays with at least two slabs or on one rank, and for padding along other axes."
  },
  {
   "property": "C95",
   "status": "partial",
   "theorems": [
    "Heat.convolve_right_partial",
    "Heat.convolve_replicated_violated",
    "Heat.convolve_unbalanced_violated"
   ],
   "note": "The full claim is false of the code: two replicated operands with an even kernel and stride 1 give rank-dependent results; an unbalanced signal is padded wrongly. Proved for everything else (unbalanced signals with mode valid included). Exact arithmetic; batches and data types are not modelled."
  },
  {
   "property": "C96",
   "status": "proved",
   "theorems": [
    "Heat.convolve_accepts",
    "Heat.convolve_refuses"
   ],
   "note": ""
  },
  {
   "property": "C97",
   "status": "partial",
   "theorems": [
    "Heat.percentile_scalar_partial",
    "Heat.percentile_list_partial",
    "Heat.median_partial",
    "Heat.percentile_unique",
    "Heat.percentile_bounds",
    "Heat.percentile_mono",
    "Heat.percentile_negative_violated",
    "Heat.percentile_unsorted_violated",
    "Heat.percentile_single_violated",
    "Heat.percentile_float32_violated"
   ],
   "note": "Proved for balanced non-empty arrays, exact positions, scalar q or ascending lists of at least two percentages. The full claim is false of the code: negative percentages wrap around, lists in another order or of length one are wrong, float32 positions fail above 2^24 elements, unbalanced arrays fail in sort (C60)."
  },
  {
   "property": "C98",
   "status": "partial",
   "theorems": [
    "Heat.percentile_axes_partial",
    "Heat.percentile_axes_violated"
   ],
   "note": "Proved for the leading axes in any order; false for other tuples (the shape of the transposed array is indexed with the old axis numbers)."
  },
  {
   "property": "C99",
   "status": "partial",
   "theorems": [
    "Heat.partial_fit_moments_partial",
    "Heat.batches_eq_fit_partial",
    "Heat.fit_spec",
    "Heat.prior_spec",
    "Heat.partial_fit_accepts",
    "Heat.combine_moments",
    "Heat.refused_batch_changes_state_violated",
    "Heat.refit_other_classes_violated",
    "Heat.batches_smoothing_violated"
   ],
   "note": "Exact field arithmetic; ht.mean/var/average/unique and masks are taken by their results. Proved for all batch sequences that contain every class: counts, means, variances, and the smoothing is the class-weighted average of the batch epsilons. False: a batch without some class is refused, and the refused call changes sigma_; fit with other classes raises; with smoothing the batches do not add up to one fit. User-given priors are not modelled."
  },
  {
   "property": "C100",
   "status": "partial",
   "theorems": [
    "Heat.fit_predict_partial",
    "Heat.predict_spec",
    "Heat.predict_proba_spec",
    "Heat.predict_proba_sum",
    "Heat.jll_spec",
    "Heat.logsumexp_spec",
    "Heat.fit_sigma_pos"
   ],
   "note": "Real arithmetic for rows, positive priors and variances; the logarithm of a zero prior and floating point are not modelled, nor samples split along the feature axis."
  },
  {
   "property": "C101",
   "status": "partial",
   "theorems": [
    "Heat.equal_spec_partial",
    "Heat.content_inj",
    "Heat.equal_single_partial",
    "Heat.equal_single_violated"
   ],
   "note": "Arrays with more than one element, operands split along the same axis or not split: exact for every distribution. Different split axes raise (documented in the code). False for one-element float64 arrays (rounded to float32). Casting to the common type is C24-C26."
  },
  {
   "property": "C102",
   "status": "partial",
   "theorems": [
    "Heat.allclose_partial",
    "Heat.allclose_unaligned_violated",
    "Heat.allclose_unaligned_raises_violated",
    "Heat.isclose_copies_violated",
    "Heat.isclose_uneven_violated",
    "Heat.isclose_replicated_partial"
   ],
   "note": "allclose is right if at most one operand is distributed or both have the same local sizes; otherwise it raises or returns a wrong answer. isclose of distributed operands returns P copies or fails."
  },
  {
   "property": "C103",
   "status": "partial",
   "theorems": [
    "Heat.split_int_partial",
    "Heat.split_int_few_partial",
    "Heat.split_int_many_violated",
    "Heat.split_unbalanced_violated",
    "Heat.split_list_partial",
    "Heat.split_list_unsorted_violated",
    "Heat.sectionSizes_spec"
   ],
   "note": "Proved for evenly distributed arrays: an integer argument up to the number of processes (and any larger one for which every process has room, stated as hypothesis), and sorted non-negative index lists. Violated: more equal parts than processes raises IndexError when every process holds the same number of rows; arrays that are not evenly distributed are cut at the wrong places; unsorted index lists are refused though numpy accepts them."
  },
  {
   "property": "C104",
   "status": "partial",
   "theorems": [
    "Heat.tile_partial",
    "Heat.tile_empty_first_violated",
    "Heat.tileLoop_spec",
    "Heat.tileRecv_spec",
    "Heat.tileSendBuf_eq"
   ],
   "note": "Proved for every distribution in which the first process holds at least one row. Violated when the first process is empty: rows of the result stay uninitialised memory. Repetitions along other axes are local and not modelled."
  },
  {
   "property": "C105",
   "status": "partial",
   "theorems": [
    "Heat.repeat_int",
    "Heat.repeat_array_partial",
    "Heat.repeat_array_balanced_partial",
    "Heat.repeat_uneven_violated",
    "Heat.repeat_uneven_raises_violated",
    "Heat.repeat_wrong_length_violated",
    "Heat.repeat_empty_shape_violated"
   ],
   "note": "Proved for one repetition number (all distributions) and for arrays of repetition numbers distributed like the array. Violated: uneven arrays raise or silently give a wrong result, repeats of the wrong length is accepted along the split axis, empty arrays are returned unchanged. Repetition along another axis is local and not modelled; negative repetition numbers are outside the model."
  },
  {
   "property": "C106",
   "status": "partial",
   "theorems": [
    "Heat.unfold_windows",
    "Heat.unfold_dtype_violated",
    "Heat.unfoldLocal_spec",
    "Heat.torchUnfold_stretch"
   ],
   "note": "Windows and error conditions are proved for all distributions, sizes and steps on two or more processes. Violated: a process that holds no window declares the result as float32 whatever the type of the input."
  },
  {
   "property": "C107",
   "status": "partial",
   "theorems": [
    "Heat.kmeans_mean_partial",
    "Heat.kmeans_monotone",
    "Heat.kmeans_fit_partial",
    "Heat.kmeans_empty_cluster_violated",
    "Heat.kmeans_inertia_violated",
    "Heat.kmeans_random_init_violated",
    "Heat.nearest_spec",
    "Heat.mean_minimises"
   ],
   "note": "Exact arithmetic in an ordered field; given initial centres. Proved: means, monotone objective (also with empty clusters), iteration bounds, consistency at a fixed point. Violated: an empty cluster's centre moves to the origin, inertia_ is the squared movement of the centres, random initialisation never draws the last sample and fails for one sample. The k-means|| initialisation is not modelled."
  },
  {
   "property": "C108",
   "status": "partial",
   "theorems": [
    "Heat.kmedians_median_partial",
    "Heat.kmedians_origin_violated",
    "Heat.kmedoids_medoid_partial",
    "Heat.kmedoids_replicated_violated",
    "Heat.kmedoids_uneven_violated",
    "Heat.cleanLocal_eq",
    "Heat.findProc_owner",
    "Heat.pickRow_balanced"
   ],
   "note": "Proved for clusters without zero samples (KMedians) and evenly distributed samples (KMedoids). Violated: samples at the origin are dropped; on replicated data a wrong row is taken; on uneven data a wrong row or an IndexError. The median is a parameter (C98 models percentile)."
  },
  {
   "property": "C109",
   "status": "partial",
   "theorems": [
    "Heat.lasso_coordinate_partial",
    "Heat.lasso_fit_partial",
    "Heat.lasso_optimal_partial",
    "Heat.lasso_unnormalised_violated",
    "Heat.lasso_replicated_violated"
   ],
   "note": "Normalised features (mean square 1), exact arithmetic. False of the code otherwise: rho is not divided by the mean square of the feature, so that on other data the result is worse than zero coefficients; replicated samples on several processes raise."
  },
  {
   "property": "C110",
   "status": "partial",
   "theorems": [
    "Heat.standard_scaler_partial",
    "Heat.scaler_calls",
    "Heat.standard_flags_violated",
    "Heat.scaler_inplace_violated"
   ],
   "note": "Exact arithmetic; first or second rank not empty. False of the code: with_mean, with_std and sample_weight are ignored; with copy=False fit_transform returns the scaler instead of the transformed data."
  },
  {
   "property": "C111",
   "status": "proved",
   "theorems": [
    "Heat.minmax_scaler",
    "Heat.scaler_calls",
    "Heat.scaler_options"
   ],
   "note": "Exact arithmetic; infinity is represented by a number beyond all data."
  },
  {
   "property": "C112",
   "status": "proved",
   "theorems": [
    "Heat.maxabs_scaler",
    "Heat.scaler_calls"
   ],
   "note": "Exact arithmetic."
  },
  {
   "property": "C113",
   "status": "proved",
   "theorems": [
    "Heat.normalizer"
   ],
   "note": "Exact arithmetic; the square root is a function with the defining property on the sums of squares that occur."
  },
  {
   "property": "C114",
   "status": "proved",
   "theorems": [
    "Heat.robust_scaler",
    "Heat.robust_calls",
    "Heat.scaler_options"
   ],
   "note": "Exact arithmetic, sketched=False; the median and the percentiles are those of C97 (percentile_scalar_partial)."
  },
  {
   "property": "C115",
   "status": "partial",
   "theorems": [
    "Heat.isBetter_spec_partial",
    "Heat.isBetter_first",
    "Heat.test_fields",
    "Heat.plateau_best_partial",
    "Heat.plateau_streak",
    "Heat.plateau_quiet",
    "Heat.plateau_improvement",
    "Heat.plateau_cooldown",
    "Heat.plateau_checkpoint",
    "Heat.plateau_bounded",
    "Heat.plateau_negative_violated",
    "Heat.plateau_return_violated"
   ],
   "note": "isBetter/plateau_best need a non-negative best metric in relative mode (resp. threshold < 1); violated: in mode max with relative threshold and a negative best a worse metric counts as better; test_if_improving answers True on a plateau although its docstring says True if the metric is better"
  },
  {
   "property": "C116",
   "status": "partial",
   "theorems": [
    "Heat.daso_training",
    "Heat.daso_train",
    "Heat.daso_reset",
    "Heat.daso_steps",
    "Heat.daso_epoch",
    "Heat.daso_blocking",
    "Heat.daso_phases",
    "Heat.daso_within",
    "Heat.daso_receive_value",
    "Heat.daso_limits_partial",
    "Heat.daso_skip_violated",
    "Heat.daso_wait_violated",
    "Heat.daso_last_batch_violated"
   ],
   "note": "limits need max_global_skips >= 4 and local_skip_factor <= max_global_skips; violated: global_skip is 4 after the warm-up whatever max_global_skips is; batches_to_wait becomes negative for max_global_skips < local_skip_factor; with the documented last_batch = number_of_batches epochs are not counted and a ValueError is raised later"
  },
  {
   "property": "C117",
   "status": "partial",
   "theorems": [
    "Heat.daso_unpack_partial",
    "Heat.daso_unpack_last_partial",
    "Heat.dasoChunkSizes_spec",
    "Heat.daso_unpack_violated",
    "Heat.daso_unpack_large_violated"
   ],
   "note": "proved when frozen parameters come after the trained ones, and for the receiver in mid-epoch when no parameter is larger than sending_chunk_size; violated otherwise: a frozen parameter first shifts the offsets (the trained ones receive zeros), a large parameter makes reshape raise"
  },
  {
   "property": "C118",
   "status": "partial",
   "theorems": [
    "Heat.dp_gradient",
    "Heat.dp_same",
    "Heat.dp_zero_first_partial",
    "Heat.dp_zero_second_partial",
    "Heat.dp_eval_violated",
    "Heat.dp_accumulation_violated",
    "Heat.dp_root_violated",
    "Heat.dp_reach_violated"
   ],
   "note": "proved for the loops zero,forward,backward,step (all forwards) and forward,zero,backward,(forward,backward)*,step with eval() after each epoch; violated: eval() after the usual loop (examples/nn/mnist.py) adds the gradient of the batch before, gradient accumulation in the usual order loses gradients, parameters owned by the root module are read before the update, a layer without gradient in the last backward of a group is not updated"
  },
  {
   "property": "C119",
   "status": "partial",
   "theorems": [
    "Heat.dataset_shuffle",
    "Heat.dataset_shuffle_pairs",
    "Heat.dataset_shuffle_plain",
    "Heat.loader_epochs",
    "Heat.loader_iepochs_partial",
    "Heat.loader_iepochs_violated",
    "Heat.loader_last_epoch_violated",
    "Heat.loader_test_set_violated",
    "Heat.dsInit_good",
    "Heat.pickRows_perm"
   ],
   "note": "Blocking shuffles proved for all histories; non-blocking proved for equal local sizes and last_epoch unset; with unequal sizes a row is dropped, with last_epoch rows are duplicated, for a test set the second epoch raises (each a violated theorem)."
  },
  {
   "property": "C120",
   "status": "partial",
   "theorems": [
    "Heat.sampler_shuffle",
    "Heat.sampler_shuffle_corrected",
    "Heat.sampler_shuffle_global",
    "Heat.sampler_local",
    "Heat.sampler_unbalanced_violated",
    "Heat.mergeSort_buckets"
   ],
   "note": "Proved for balanced arrays, any permutation, with and without correction; violated for unbalanced arrays. The use of MPI.COMM_WORLD instead of the communicator of the array is not modelled."
  },
  {
   "property": "C121",
   "status": "partial",
   "theorems": [
    "Heat.train_val_split",
    "Heat.train_val_split_pairs",
    "Heat.train_val_split_balanced",
    "Heat.train_val_split_all_violated",
    "Heat.evenSize_of_step"
   ],
   "note": "Proved for 0 <= p < 1 in exact arithmetic; p = 1 fails the assertion on every process that has rows (violated theorem)."
  },
  {
   "property": "C122",
   "status": "partial",
   "theorems": [
    "Heat.tsqr_partial",
    "Heat.tsMerge_spec",
    "Heat.tsqr_balanced",
    "Heat.tsqr_empty_violated",
    "Heat.realQr_ok",
    "Heat.tsStep_inv",
    "Heat.tsLoop_inv",
    "Heat.tsInit_inv"
   ],
   "note": "Exact arithmetic, commutative star ring, one matrix (no batch). Every process must have at least half as many rows as columns (true of balanced tall matrices with more than one column); a column vector on more processes than rows raises (violated theorem). realQr_ok shows that a valid local decomposition exists over the reals."
  },
  {
   "property": "C123",
   "status": "partial",
   "theorems": [
    "Heat.gsQr_partial",
    "Heat.gsQr_wide_partial",
    "Heat.gsStep_inv",
    "Heat.tri_cancel",
    "Heat.orth_cols_rows",
    "Heat.gsQr_deficient_violated",
    "Heat.gsQr_wide_violated",
    "Heat.houseQr_ok"
   ],
   "note": "Q R = A and triangularity always for tall matrices; orthonormality needs a nonzero diagonal of R (full rank): counterexamples proved. Exact arithmetic, one matrix."
  },
  {
   "property": "C124",
   "status": "partial",
   "theorems": [
    "Heat.bgQr_partial",
    "Heat.bgQr_wide_partial",
    "Heat.qrRows_partial",
    "Heat.qrRows_few_violated",
    "Heat.bgQr_deficient_violated",
    "Heat.bgStep_inv",
    "Heat.bgLoop_inv",
    "Heat.bgCuts_eq"
   ],
   "note": "Q R = A and triangularity for every matrix with at most as many columns as rows whose processes' row counts differ at most by a factor of two (balanced, at least as many rows as processes); orthonormality needs a nonzero diagonal of R. Fewer rows than processes raises, rank deficiency gives a non-orthonormal Q (violated theorems). Exact arithmetic, no batch."
  },
  {
   "property": "C125",
   "status": "partial",
   "theorems": [
    "Heat.triCols_partial",
    "Heat.triRows_partial",
    "Heat.triWhole_partial",
    "Heat.triWhole_double_violated",
    "Heat.triCols_unbalanced_violated",
    "Heat.triCheck_spec",
    "Heat.triOk_exists"
   ],
   "note": "A x = b for every invertible upper triangular matrix when b and x have the same block sizes (balanced), for A split along columns, rows or not at all (default float type). With another type and A not split the call fails; with unbalanced b the result is silently wrong: both are theorems. Exact field arithmetic; batched systems are local."
  },
  {
   "property": "C126",
   "status": "partial",
   "theorems": [
    "Heat.cg_partial",
    "Heat.cg_start_violated",
    "Heat.cgSeq_orth"
   ],
   "note": "The residual of the result is below 1e-10 for every symmetric positive definite matrix and every starting vector that is not already the solution; for the exact solution as starting vector the result is NaN (theorem). Exact arithmetic over the reals; vectors are whole."
  },
  {
   "property": "C127",
   "status": "partial",
   "theorems": [
    "Heat.lanczos_orthonormal",
    "Heat.lanczos_projection_partial"
   ],
   "note": "V orthonormal and T symmetric tridiagonal always (also after breakdowns, whatever the random vectors, if the result is finite); V^T A V = T when the norms taken for a breakdown are exactly zero. Real branch, exact arithmetic."
  },
  {
   "property": "C128",
   "status": "partial",
   "theorems": [
    "Heat.solve_partial",
    "Heat.solve_singular_partial",
    "Heat.solve_accepts",
    "Heat.solveCheck_spec",
    "Heat.solve_square_violated",
    "Heat.solve_b_split_violated",
    "Heat.solve_A_split_violated",
    "Heat.solve_expand_split_violated"
   ],
   "note": "A x = b, with the result distributed as declared, for every accepted call in which the parts on each process belong together (SolveMatch); a singular matrix on one process makes all processes raise. Square right-hand sides are refused; three accepted combinations of splits give arrays that represent nothing: all are theorems. Exact field arithmetic; out argument and types not modelled."
  },
  {
   "property": "C129",
   "status": "partial",
   "theorems": [
    "Heat.fft_partial",
    "Heat.rfft_split_violated",
    "Heat.fft_few_lines_violated",
    "Heat.ifft_fft"
   ],
   "note": "Transform of the global array along any axis, for any distribution, unless real-to-complex along the split axis (always raises) or fewer lines than processes for real input (raises): both failures are theorems. ifft(fft(x)) = x unconditional for complex x. Exact field arithmetic with a primitive root of unity; norm is part of the transform."
  },
  {
   "property": "C130",
   "status": "partial",
   "theorems": [
    "Heat.fftn_partial",
    "Heat.fftn_spec",
    "Heat.rfftn_partial",
    "Heat.fftshift_partial",
    "Heat.ifftn_fftn",
    "Heat.fftnAxes_sound",
    "Heat.rfftn_split_violated",
    "Heat.fftshift_axis_violated",
    "Heat.fftn_few_lines_violated",
    "Heat.irfftn_split_violated"
   ],
   "note": "fftn/ifftn/fft2/ifft2 are right for all inputs with positive extents; ifftn(fftn(x)) = x. rfftn and the shifts are right on the stated part of their domain and counterexample theorems cover the rest; irfftn along the split axis ignores part of its input. Exact arithmetic."
  },
  {
   "property": "C131",
   "status": "partial",
   "theorems": [
    "Heat.fftfreq_spec",
    "Heat.rfftfreq_partial",
    "Heat.rfftfreq_violated",
    "Heat.fftfreq_split"
   ],
   "note": "fftfreq unconditional; rfftfreq with split=0 right for odd n, and for every even n the last frequency is missing (theorem). Numerators only, the division by n*d is elementwise."
  },
  {
   "property": "C132",
   "status": "partial",
   "theorems": [
    "Heat.hsvd_error_bound",
    "Heat.hsvd_factors",
    "Heat.hsvd_rank_total",
    "Heat.hsvd_exact",
    "Heat.hsvd_messages",
    "Heat.hGather_eq",
    "Heat.hsvdRankArgs_ok",
    "Heat.exists_svd",
    "Heat.hsvd_estimate_violated"
   ],
   "note": "Proved for all matrices, process counts, parameters and merge trees in exact ordered-field arithmetic; the local torch.linalg.svd is any routine returning a singular value decomposition (existence over the reals proved). hsvd_estimate_violated: the bound can be vacuous (100 % although nothing is dropped) when safetyshift is at least twice the number of columns. Not modelled: rounding, an array with split=None on several processes."
  },
  {
   "property": "C133",
   "status": "partial",
   "theorems": [
    "Heat.hsvd_rtol_partial",
    "Heat.hsvd_rtol_general",
    "Heat.hsvdRtolArgs_ok",
    "Heat.hsvdRtolArgs_violated",
    "Heat.hsvd_rtol_violated",
    "Heat.hsvd_small_block_violated"
   ],
   "note": "Tolerance kept for 2^k processes, k >= 1, if maxrank does not bind and safetyshift >= 1; for other numbers of processes a bound larger by sqrt((2P-1+ceil(log2 P))/(2P-1)); hsvd_rtol_violated is a real 8 x 8 matrix on one process for which the code exceeds the tolerance; hsvd_small_block_violated: with safetyshift=0 and a small first block every run fails; hsvdRtolArgs_violated: a valid maxrank is refused."
  },
  {
   "property": "C134",
   "status": "partial",
   "theorems": [
    "Heat.svdTall_partial",
    "Heat.svdFat_partial",
    "Heat.svdBranch_transposed",
    "Heat.exists_svd_full",
    "Heat.exists_svdOk",
    "Heat.svdGeneral_residual_partial",
    "Heat.svdGeneral_partial",
    "Heat.svdGeneral_singular_violated",
    "Heat.svdGeneral_orthogonal_violated",
    "Heat.svdWide_partial",
    "Heat.svdGeneral_example"
   ],
   "note": "Tall skinny and short fat branches: all process counts and merge parameters >= 2, under the distribution conditions of the tree QR, local QR and SVD as parameters (existence over the reals proved). General branch (polar and eigh): orthonormal factors, exact residual and error bound if the polar iteration has converged; a singular value decomposition if the divisions of eigh are exact. False in the general branch for rank deficient matrices (left factor not orthonormal) and multiples of orthogonal matrices (0/0 in eigh). Exact arithmetic."
  },
  {
   "property": "C135",
   "status": "partial",
   "theorems": [
    "Heat.isvd_spec",
    "Heat.isvd_exact",
    "Heat.isvd_trunc_error",
    "Heat.isvdCore_gram",
    "Heat.exists_decomp",
    "Heat.isvd_ortho_violated"
   ],
   "note": "Reconstruction, orthonormal V, ordering and the truncation error proved for all sizes in exact arithmetic with QR and the small SVD as parameters (existence over the reals proved); columns of U are proved orthonormal where the value is not zero, and isvd_ortho_violated shows that they need not be otherwise (new data in the span of U). Not modelled: distribution of the factors, rounding."
  },
  {
   "property": "C136",
   "status": "partial",
   "theorems": [
    "Heat.ipca_history",
    "Heat.ipca_exact_partial",
    "Heat.ipcaUpdate_hist",
    "Heat.ipcaUpdate_exact",
    "Heat.scatter_append",
    "Heat.ipca_ortho_violated",
    "Heat.ipca_batch_violated",
    "Heat.ipca_count"
   ],
   "note": "ipca_history for every history and n_components; exactness and orthonormality without n_components for one or two batches, and for any number if the first two span all directions; ipca_ortho_violated: two samples in two batches give twice the same component; ipca_batch_violated: the batch of the caller is centered in place from the second call on. Not modelled: distribution, rounding."
  },
  {
   "property": "C137",
   "status": "partial",
   "theorems": [
    "Heat.pca_roundtrip",
    "Heat.pcaFracCount_spec",
    "Heat.projErr_take",
    "Heat.pca_large_violated",
    "Heat.pca_constant_violated"
   ],
   "note": "Proved for the full solver in exact arithmetic for nonconstant data with at least two samples and n_components not larger than the dimensions; pca_large_violated and pca_constant_violated: otherwise n_components_ exceeds the number of components and inverse_transform raises. Missing: solvers hierarchical (see C132, C133) and randomized, rounding."
  },
  {
   "property": "C138",
   "status": "proved",
   "theorems": [
    "Heat.pds_batches",
    "Heat.pds_complete",
    "Heat.pds_terminates",
    "Heat.pds_rows"
   ],
   "note": "Over all interleavings of the loading thread, the converting thread and the consumer and any number of epochs, at the granularity of statements on shared data; transforms, collation and device transfer are not modelled."
  },
  {
   "property": "C139",
   "status": "partial",
   "theorems": [
    "Heat.pds_stuck",
    "Heat.pds_shifted",
    "Heat.pdsLoadLen_mod",
    "Heat.pds_lost_wakeup_violated",
    "Heat.pds_shift_violated"
   ],
   "note": "The property is false: notify before wait is lost and the equality test len(used_indices) == load_len then never holds again. pds_stuck and pds_shifted say exactly from which states loading never resumes, for every continuation; the violated theorems give reachable ones."
  },
  {
   "property": "C140",
   "status": "partial",
   "theorems": [
    "Heat.pds_consistent_partial",
    "Heat.pds_untorn_partial",
    "Heat.pds_torn_violated",
    "Heat.pds_foreign_violated"
   ],
   "note": "Proved: the arrays agree in every reachable state in which the loading thread is not overwriting them, and items read there are whole. False in general: pds_torn_violated (read between two overwrites), pds_foreign_violated (rows of the next process are loaded)."
  },
  {
   "property": "C141",
   "status": "partial",
   "theorems": [
    "Heat.print_exact",
    "Heat.print_split_of",
    "Heat.print_split_partial",
    "Heat.print_two",
    "Heat.print_other",
    "Heat.print_violated"
   ],
   "note": "Exact condition proved: along the split axis the output is right iff the first process that begins after slab edgeitems begins at or before slab n - edgeitems (always on two processes); otherwise slabs are missing without ellipsis (print_violated: 7 rows on 3 processes with default options). Formatting of numbers is torch's."
  },
  {
   "property": "C142",
   "status": "partial",
   "theorems": [
    "Heat.merge_spec",
    "Heat.merge_terminates",
    "Heat.kmex_spec",
    "Heat.bp_monotone",
    "Heat.bpPlus_iff",
    "Heat.bp_fit",
    "Heat.bp_value_partial",
    "Heat.bp_few_violated",
    "Heat.bp_value_violated"
   ],
   "note": "Exact arithmetic; random draws are arbitrary. False: a process with fewer different samples than n_clusters raises alone (bp_few_violated), functional_value_ with one feature sums over all pairs (bp_value_violated). Subsampling above 2^24 - 1 rows not modelled."
  },
  {
   "property": "C143",
   "status": "partial",
   "theorems": [
    "Heat.setitemTensor_partial",
    "Heat.setitemTensor_misaligned_violated",
    "Heat.setitemTensor_step_violated",
    "Heat.setitemTensor_step_silent_violated",
    "Heat.setitemTensor_broadcast_violated",
    "Heat.setitemDist_partial",
    "Heat.setitemDist_bad_size",
    "Heat.setitemSame_partial",
    "Heat.setitemSame_unbalanced_violated"
   ],
   "note": "Balanced arrays, start >= 0 and stop >= -n (C17). Distributed values of other extent than a: proved for all steps and distributions. Replicated tensors: proved for step 1 when the slice begins at a chunk boundary or stays on one process; proved to raise in every other step-1 case; with steps it raises or silently writes wrong values. Value with the extent of a: proved for a[:] = v with balanced v."
  },
  {
   "property": "C144",
   "status": "partial",
   "theorems": [
    "Heat.setitemIdx_partial",
    "Heat.setitemMask",
    "Heat.setitemIdx_outside_violated",
    "Heat.setitemIdx_unbalanced_violated",
    "Heat.setitemKey_list_violated",
    "Heat.setitemIdxVec_violated",
    "Heat.setitemIdxVec_partial"
   ],
   "note": "Balanced arrays. False: indices outside [0, n) are ignored, unbalanced arrays are written in the wrong place, lists and integer arrays as key raise TypeError, vector values raise unless all indices are on one process."
  },
  {
   "property": "C145",
   "status": "partial",
   "theorems": [
    "Heat.oneHot_spec",
    "Heat.oneHotWidth_spec",
    "Heat.oneHot_unbalanced_violated",
    "Heat.knn_repl",
    "Heat.knn_split_partial",
    "Heat.knn_split_violated",
    "Heat.knn_single_violated",
    "Heat.winner_unique"
   ],
   "note": "Replicated labels: proved. Distributed labels: proved when the gathered rows come in neighbour order; otherwise the labels are wrong (counterexample). A single test sample with k = 1 raises."
  },
  {
   "property": "C146",
   "status": "partial",
   "theorems": [
    "Heat.ptp_split_partial",
    "Heat.ptp_empty_violated",
    "Heat.ptp_other",
    "Heat.ptp_other_empty_violated",
    "Heat.ptp_meta_partial",
    "Heat.ptp_meta_all",
    "Heat.ptp_meta_negative_violated",
    "Heat.ptp_meta_keepdims_violated",
    "Heat.ptp_meta_tuple_violated",
    "Heat.ptp_pair_partial",
    "Heat.ptp_pair_violated",
    "Heat.ptpOp_comm",
    "Heat.ptpOp_assoc",
    "Heat.range_unique"
   ],
   "note": "Values proved when every process has a slab and along other axes; false with empty processes, for split metadata with negative axis, keepdims or tuples, and for axis=(0, 1)."
  },
  {
   "property": "C147",
   "status": "partial",
   "theorems": [
    "Heat.lap_simple",
    "Heat.lap_simple_row_sum",
    "Heat.lap_symm",
    "Heat.lap_simple_quad",
    "Heat.lap_simple_psd",
    "Heat.lap_norm_partial",
    "Heat.lap_norm_isolated",
    "Heat.lap_norm_quad_partial",
    "Heat.lap_norm_kernel_partial",
    "Heat.lap_norm_loop_violated"
   ],
   "note": "Exact real arithmetic. The normalized Laplacian is wrong when unweighted eNeighbour graphs with an upper threshold get self-loops (lap_norm_loop_violated)."
  },
  {
   "property": "C148",
   "status": "proved",
   "theorems": [
    "Heat.silhouette_spec",
    "Heat.silhouette_unique",
    "Heat.silhouette_bound",
    "Heat.silhouette_score_bound",
    "Heat.silhouette_close"
   ],
   "note": "Exact arithmetic in an ordered field, zero diagonal; the sampling of silhouette_score(sample_size=...) is not modelled."
  },
  {
   "property": "C149",
   "status": "partial",
   "theorems": [
    "Heat.binaryOut_spec",
    "Heat.inplace_spec",
    "Heat.binaryOut_refused",
    "Heat.inplace_empty_violated",
    "Heat.where_out_partial",
    "Heat.where_new_partial",
    "Heat.where_misaligned_violated",
    "Heat.where_silent_violated",
    "Heat.where_new_violated"
   ],
   "note": "out= and in place: proved for all distributions (nonempty). where=: proved when the condition is distributed like out or not distributed; otherwise raises or is silently wrong."
  },
  {
   "property": "C150",
   "status": "partial",
   "theorems": [
    "Heat.cov_partial",
    "Heat.cov_two_partial",
    "Heat.cov_two_refused",
    "Heat.cov_symm",
    "Heat.cov_psd",
    "Heat.cov_few_refused",
    "Heat.cov_vector_violated",
    "Heat.cov_single_violated",
    "Heat.cov_int_violated"
   ],
   "note": "Exact arithmetic, balanced data. False: vectors, one variable with distributed observations and integer data raise."
  },
  {
   "property": "C151",
   "status": "partial",
   "theorems": [
    "Heat.kcIndexed_perm",
    "Heat.kc_random_partial",
    "Heat.kc_random_one_violated",
    "Heat.kc_random_single_violated",
    "Heat.kc_last_violated",
    "Heat.kc_others",
    "Heat.kc_round_split_partial",
    "Heat.kc_round_one_violated",
    "Heat.kc_round_repl_violated",
    "Heat.kc_sampling_subset",
    "Heat.kc_round_split_mem",
    "Heat.kc_round_repl_mem",
    "Heat.kc_parallel_split",
    "Heat.kc_parallel_repl_violated",
    "Heat.kc_weights_sum"
   ],
   "note": "Random draws and comparisons are arbitrary parameters. False: last sample never drawn, one cluster gives no centre, one selected sample is lost, replicated samples are selected once per process."
  },
  {
   "property": "C152",
   "status": "partial",
   "theorems": [
    "Heat.allgatherv_axis",
    "Heat.allgather_axis",
    "Heat.gatherv_axis",
    "Heat.gather_axis",
    "Heat.gather_axes",
    "Heat.scatterv_axis",
    "Heat.scatter_axis",
    "Heat.scatterv_refused",
    "Heat.alltoallv_axis",
    "Heat.alltoall_axis_partial",
    "Heat.alltoall_resplit_violated"
   ],
   "note": "Proved for all shapes, axes, counts and displacements; Alltoall for equal parts along equal axes. False: Alltoall(send_axis=0, recv_axis=1) transposes each block (alltoall_resplit_violated)."
  },
  {
   "property": "C153",
   "status": "partial",
   "theorems": [
    "Heat.folder_partial",
    "Heat.folder_balanced",
    "Heat.folder_refused",
    "Heat.folder_listing_violated",
    "Heat.folder_none_violated",
    "Heat.folder_comm_violated",
    "Heat.zarr_wildcard",
    "Heat.zarr_none_violated"
   ],
   "note": "Proved if all processes list the files in the same order, split is an integer and the communicator is the world. False otherwise (three counterexamples). Wildcard zarr: proved for integer split."
  },
  {
   "property": "C154",
   "status": "proved",
   "theorems": [
    "Heat.zarrShrink_spec",
    "Heat.zarr_chunk_limit",
    "Heat.zarr_chunk_inside",
    "Heat.zarr_save"
   ],
   "note": "Balanced arrays with at least one slab, one axis of slabs; zarr is modelled as reading a chunk, changing it, and writing it back."
  },
  {
   "property": "C155",
   "status": "partial",
   "theorems": [
    "Heat.eigh_residual",
    "Heat.eigh_bound",
    "Heat.eigh_exact_partial",
    "Heat.eigh_parts_partial",
    "Heat.eigh_scalar_violated",
    "Heat.eigh_local",
    "Heat.eigh_fill",
    "Heat.eigh_nodes",
    "Heat.polar_symm",
    "Heat.node_split",
    "Heat.median_between",
    "Heat.eigh_example"
   ],
   "note": "Exact real arithmetic; the local eigensolver, polar, QR factor, starting columns and rounded share are parameters. Residual equals the sum of the neglected blocks for any oracle; bounded if all iterations converged. Descending order and exactness only if polar is exact and the shift is not an eigenvalue. False: eigh(c I) on several processes divides by zero."
  },
  {
   "property": "C156",
   "status": "partial",
   "theorems": [
    "Heat.polarR_spec",
    "Heat.polar_copy",
    "Heat.polar_result",
    "Heat.zolo_fractions",
    "Heat.zolo_qr",
    "Heat.zolo_step",
    "Heat.zolo_svd",
    "Heat.zolo_run",
    "Heat.zolo_one",
    "Heat.polar_partial",
    "Heat.polar_factor_partial",
    "Heat.zolo_its_violated"
   ],
   "note": "Exact real arithmetic; coefficients (elliptic functions) and QR are parameters; convergence of the singular values to 1 is a hypothesis. False: the iteration count table is not monotone in kappa for r=1."
  },
  {
   "property": "C157",
   "status": "partial",
   "theorems": [
    "Heat.matrix_norm_axes",
    "Heat.matrix_norm_partial",
    "Heat.matrix_norm_negative",
    "Heat.matrix_norm_violated",
    "Heat.matrix_norm_refused",
    "Heat.matrix_norm_fro",
    "Heat.matrix_norm_analysis",
    "Heat.vector_norm_sum",
    "Heat.vector_norm_max",
    "Heat.matrix_norm_rows",
    "Heat.norm_call",
    "Heat.norm_int_violated",
    "Heat.norm_int_partial"
   ],
   "note": "Exact real arithmetic, real elements. Equal to the norms of Mathlib for every distribution. Orders 1 and inf: exactly the pairs of axes for which the code is right are characterised (matrix_norm_axes); axes counted from the end are wrong without keepdims. Integer arrays wrap around."
  },
  {
   "property": "C158",
   "status": "partial",
   "theorems": [
    "Heat.average_spec",
    "Heat.average_between",
    "Heat.average_equal",
    "Heat.average_check",
    "Heat.wgt_shape",
    "Heat.average_count",
    "Heat.average_agree",
    "Heat.average_unbalanced_violated"
   ],
   "note": "Exact numbers, one position of the result. All refusals are characterised. Unbalanced weights of the same shape: the processes disagree about the balance of the copy, so some enter a collective the others do not (average_unbalanced_violated); average_agree says exactly when they agree."
  },
  {
   "property": "C159",
   "status": "partial",
   "theorems": [
    "Heat.skew_all_partial",
    "Heat.skew_axis_partial",
    "Heat.skew_local",
    "Heat.skew_affine",
    "Heat.kurt_ge",
    "Heat.skew_single_violated",
    "Heat.mu_shape",
    "Heat.skewFin_spec",
    "Heat.kurtFin_spec"
   ],
   "note": "Exact numbers. Missing: distributions in which the first two processes are both empty (mean is then NaN, C62), and an array whose mean has one element (skew_single_violated)."
  },
  {
   "property": "C160",
   "status": "partial",
   "theorems": [
    "Heat.convolve2d_right_partial",
    "Heat.convolve2d_accepts",
    "Heat.convolve2d_refuses",
    "Heat.convolve2d_stride_violated",
    "Heat.convolution2_comm",
    "Heat.conv2At_transpose"
   ],
   "note": "Exact arithmetic, no batches. Every result is the convolution (with padding modes for balanced operands). False: with a stride along the split axis that leaves a process without outputs the call fails (convolve2d_stride_violated); accepted if the stride is at most half the kernel."
  },
  {
   "property": "C161",
   "status": "proved",
   "theorems": [
    "Heat.flip_nd_spec",
    "Heat.rot90_spec",
    "Heat.rot90_refused",
    "Heat.rot_four",
    "Heat.rot_reverse",
    "Heat.rep_balanceND"
   ],
   "note": "The messages of flip are C39 and C48; the balanced attribute of the result is left open; torch.flip, torch.rot90 and permute are library functions."
  },
  {
   "property": "C162",
   "status": "partial",
   "theorems": [
    "Heat.vstack_spec_partial",
    "Heat.vstack_refused",
    "Heat.row_stack_mixed_partial",
    "Heat.hstack_two_partial",
    "Heat.hstack_many_violated",
    "Heat.hstack_three_violated",
    "Heat.row_stack_partial",
    "Heat.column_stack_partial",
    "Heat.row_stack_broadcast_violated",
    "Heat.row_stack_refused",
    "Heat.row_stack_replicated_refused",
    "Heat.hsplit_vector_violated",
    "Heat.vstack_unit_violated"
   ],
   "note": "False: hstack of three or more vectors returns a matrix; a vector of one element next to a distributed vector is broadcast; hsplit of a distributed vector raises; vstack of replicated and distributed vectors of one element raises."
  },
  {
   "property": "C163",
   "status": "partial",
   "theorems": [
    "Heat.binary_nd_spec",
    "Heat.binary_nd_refused",
    "Heat.binary_nd_shapes",
    "Heat.binaryOut_nd_spec",
    "Heat.binaryOut_nd_refused",
    "Heat.leadDims_expand_dims",
    "Heat.binary_nd_empty_violated"
   ],
   "note": "Proved for all shapes in which no extent 1 is broadcast to 0 along an axis; there it is false. where= is C20; the types of the result are C09."
  },
  {
   "property": "C164",
   "status": "partial",
   "theorems": [
    "Heat.broadcast_to_spec",
    "Heat.broadcast_to_incompatible",
    "Heat.broadcast_to_refused",
    "Heat.broadcast_to_empty_violated",
    "Heat.broadcast_arrays_partial",
    "Heat.broadcast_arrays_replicated_refused",
    "Heat.broadcast_arrays_axes",
    "Heat.broadcast_arrays_doc_violated",
    "Heat.broadcast_arrays_lead_violated"
   ],
   "note": "broadcast_to is proved except for extents 1 to 0. broadcast_arrays is false for arrays with different numbers of axes behind a distributed one: the example of its documentation raises, and a vector and a square matrix give a silently wrong result."
  },
  {
   "property": "C165",
   "status": "partial",
   "theorems": [
    "Heat.meshgrid_spec",
    "Heat.meshgrid_refused",
    "Heat.meshgrid_balanced_violated"
   ],
   "note": "Values, shapes and splits are proved for all vectors (one axis); 0-d arguments and the type of the results are not covered. The balanced attribute of the result is always True: false for an unbalanced vector."
  },
  {
   "property": "C166",
   "status": "partial",
   "theorems": [
    "Heat.cross_spec_partial",
    "Heat.cross_z_partial",
    "Heat.cross_axes_partial",
    "Heat.cross_axes_z_partial",
    "Heat.cross_refused",
    "Heat.cross_split_violated",
    "Heat.cross_unbalanced_violated"
   ],
   "note": "Proved for a common vector axis and for different axisa, axisb, axisc, equal shapes apart from the vector axes, corresponding split axes and equally large parts. Missing: broadcasting, axes that differ for operands with different numbers of axes. False for two-dimensional vectors in front of the split axis (the split is not adjusted) and for differently distributed operands (never redistributed)."
  },
  {
   "property": "C167",
   "status": "proved",
   "theorems": [
    "Heat.flatten_spec"
   ],
   "note": "Any shape, split and distribution."
  },
  {
   "property": "C168",
   "status": "partial",
   "theorems": [
    "Heat.save_netcdf_parallel_spec",
    "Heat.save_netcdf_serial_spec",
    "Heat.load_netcdf_spec",
    "Heat.netcdf_roundtrip",
    "Heat.expandedSplit_spec",
    "Heat.merge_slices_expanded_spec",
    "Heat.pySel_inside",
    "Heat.expandedSplit_violated",
    "Heat.save_netcdf_reversed_violated",
    "Heat.save_netcdf_replicated_violated",
    "Heat.save_netcdf_unbalanced_violated"
   ],
   "note": "Proved for evenly distributed arrays and regions that do not run down to position 0 backwards (along the split axis they may if every process has data). False for those, for replicated arrays with parallel I/O and for unevenly distributed arrays. Not covered: index arrays, unlimited dimensions, regions with additional axes of extent 1 (only their split axis and the positions every process writes to: expandedSplit_spec, merge_slices_expanded_spec)."
  },
  {
   "property": "C169",
   "status": "partial",
   "theorems": [
    "Heat.local_op_spec",
    "Heat.local_op_out_partial",
    "Heat.local_op_lead_violated",
    "Heat.local_op_replicated_violated",
    "Heat.local_op_splits_violated"
   ],
   "note": "Without out: proved for all arrays. With out: proved for operand and buffer with equally many axes that are distributed alike (or a replicated operand of extent 1 along the split axis of the buffer). A buffer that does not fit is not refused: false for these. Types: C09."
  },
  {
   "property": "C170",
   "status": "partial",
   "theorems": [
    "Heat.vmap_one_spec",
    "Heat.vmap_spec",
    "Heat.vmap_tuple_spec",
    "Heat.vmap_replicated",
    "Heat.vmap_distribution_violated"
   ],
   "note": "Proved for all arguments whose distributed ones have the same number of slices on every process, any number of results and any valid out_dims. False for arguments with equally many slices that are distributed differently (torch refuses). torch.vmap is modelled by its contract; chunk_size, randomness and keyword arguments are not modelled."
  },
  {
   "property": "C171",
   "status": "partial",
   "theorems": [
    "Heat.reduce_nd_spec",
    "Heat.reduce_all_spec",
    "Heat.reduce_nd_exists",
    "Heat.reduce_repeated_axis_violated"
   ],
   "note": "Proved for all arrays and distributions, distinct axes, any order of combination; without keepdims for arrays with at least two axes of which one is left (for the others the local shape or the global shape is wrong: C22). Repeated axes give a wrong split axis. Exact operators; max/min: C20, argmax/argmin: C59. Types are not modelled."
  },
  {
   "property": "C172",
   "status": "proved",
   "theorems": [
    "Heat.cum_nd_spec",
    "Heat.cum_inplace_spec",
    "Heat.cum_nd_total",
    "Heat.cum_axis_spec",
    "Heat.cumsum_bool_violated"
   ],
   "note": "Proved for all arrays, axes, distributions and scan orders, for any commutative monoid and any conversions before and after. Defect shown: the result has the type of the operand, so for booleans the totals are collapsed to True/False. The parameter out (another array) is not modelled; floating point rounding is not modelled."
  },
  {
   "property": "C173",
   "status": "partial",
   "theorems": [
    "Heat.layout_accepts",
    "Heat.layout_values_partial",
    "Heat.layout_contig_C",
    "Heat.layout_F",
    "Heat.layout_C_violated",
    "Heat.array_layout_C",
    "Heat.array_layout_F_partial",
    "Heat.array_layout_F_violated",
    "Heat.layout_values_violated",
    "Heat.relayout_outside"
   ],
   "note": "Proved: array(split=axis) with the default order is right for all data; values are kept if the tensor begins at the beginning of its storage; order F gives a column-major result. False: a view that begins later is read at the wrong place of the copy, so that array(data, split=0, order=\"F\") (the example of the documentation) contains uninitialised memory on every process but the first; order C leaves a column-major tensor column-major. torch views, contiguous and set_ are modelled by their contracts."
  },
  {
   "property": "C174",
   "status": "partial",
   "theorems": [
    "Heat.dmd_transfer",
    "Heat.dmd_invariant",
    "Heat.dmd_next_spec",
    "Heat.dmd_next_project",
    "Heat.dmd_training",
    "Heat.dmd_modes_spec",
    "Heat.dmd_predict_spec",
    "Heat.dmd_predict_shape_violated",
    "Heat.dmd_init_spec",
    "Heat.dmd_modes_count"
   ],
   "note": "Exact arithmetic; svd and eig are parameters with their contracts. The number of modes has to be the rank (more modes divide by singular values 0). predict raises if the transfer matrix is not diagonalisable. False: the documented shape (steps, features) of predict, which is (features, steps)."
  },
  {
   "property": "C175",
   "status": "partial",
   "theorems": [
    "Heat.dmdc_matrices",
    "Heat.dmdc_predict_partial",
    "Heat.dmdc_batch_violated"
   ],
   "note": "Proved for one initial state and full decompositions. False for several initial states: predict mixes states and modes by a reshape."
  },
  {
   "property": "C176",
   "status": "partial",
   "theorems": [
    "Heat.tiles_none_iff",
    "Heat.tiles_get_partial",
    "Heat.tiles_set_spec",
    "Heat.tiles_set_none",
    "Heat.tiles_size_spec",
    "Heat.tiles_last_rank_violated",
    "Heat.tiles_negative_violated",
    "Heat.tiles_one_process_violated"
   ],
   "note": "Proved for keys without negative integers on axes that are not split and if the last selected process holds at least as much as this one. False in general: with several tiles along the split axis the local extent of the last selected process is used on all of them (the documented example loses a column); negative integers select everything up to the tile; one tile along a split axis other than the first, with slices in the key, can raise IndexError. Tile sizes exact (float32 in the code: C14)."
  },
  {
   "property": "C177",
   "status": "partial",
   "theorems": [
    "Heat.rangeFinder_ortho",
    "Heat.rangeFinder_range",
    "Heat.rsvd_error",
    "Heat.rsvd_exact",
    "Heat.rsvd_values_le",
    "Heat.reigh_exact",
    "Heat.reigh_magnitude_violated",
    "Heat.rrf_init_spec"
   ],
   "note": "Exact arithmetic; qr, svd, eigh through their contracts. False: reigh is documented to order eigenvalues by magnitude but sorts by value, so that a negative eigenvalue of largest magnitude is not returned."
  },
  {
   "property": "C178",
   "status": "partial",
   "theorems": [
    "Heat.spectral_lanczos_partial",
    "Heat.spectral_randomized_largest",
    "Heat.spectral_randomized_violated",
    "Heat.spectral_count_spec"
   ],
   "note": "Proved for eigen_solver=\"lanczos\" with as many iterations as samples. False for the default eigen_solver=\"randomized\": the eigenvectors of the largest eigenvalues are used."
  },
  {
   "property": "C179",
   "status": "partial",
   "theorems": [
    "Heat.set_params_partial",
    "Heat.get_params_spec",
    "Heat.params_roundtrip_partial",
    "Heat.set_params_unknown",
    "Heat.set_params_nested_violated",
    "Heat.params_deep_violated",
    "Heat.set_params_atomic_violated"
   ],
   "note": "Proved for values that are not dictionaries. False: nested dictionaries always raise TypeError, so that the result of get_params() of a nested estimator cannot be set; a ValueError for an unknown name comes after earlier names were set."
  },
  {
   "property": "C180",
   "status": "partial",
   "theorems": [
    "Heat.reduce_same_layout",
    "Heat.reduce_contig",
    "Heat.reduce_send_partial",
    "Heat.reduce_base_spec",
    "Heat.reduce_sizes",
    "Heat.reduce_gaps_violated",
    "Heat.reduce_gaps_case",
    "Heat.reduce_mixed_violated",
    "Heat.reduce_view_violated"
   ],
   "note": "Proved for contiguous buffers, equal dense layouts and send buffers that differ in layout from the receive buffer. False: strided buffers in place or with equal strides reduce the wrong memory; different layouts in place add elements at different indices; a strided receive view is detached from its base tensor."
  },
  {
   "property": "C181",
   "status": "partial",
   "theorems": [
    "Heat.factory_spec",
    "Heat.factory_errors",
    "Heat.like_partial",
    "Heat.full_spec_partial",
    "Heat.like_comm_violated",
    "Heat.like_distribution_violated",
    "Heat.like_replicated_violated",
    "Heat.full_like_dtype_violated",
    "Heat.full_complex_violated"
   ],
   "note": "The constant arrays are proved. False for _like: the communicator and an unbalanced distribution of the model array are not used, split=None cannot be asked for, full_like is float32 instead of the type of the array; full with a complex value ignores the requested type."
  },
  {
   "property": "C182",
   "status": "partial",
   "theorems": [
    "Heat.cluster_sizes_sum",
    "Heat.cluster_total_sum",
    "Heat.cluster_sizes_share_partial",
    "Heat.cluster_even_partial",
    "Heat.spherical_count_partial",
    "Heat.cluster_even_violated",
    "Heat.cluster_std_violated",
    "Heat.spherical_count_violated",
    "Heat.spherical_centre_violated"
   ],
   "note": "Number of samples proved; shares up to rounding. False: with few samples per process all come from the first cluster; standard deviations are used as variances; create_spherical_dataset divides the number of samples by the number of processes."
  },
  {
   "property": "C183",
   "status": "proved",
   "theorems": [
    "Heat.parter_spec",
    "Heat.parter_refused",
    "Heat.hermitian_spec",
    "Heat.hermitian_definite",
    "Heat.known_singular_spec",
    "Heat.known_singular_rank",
    "Heat.known_rank_spec",
    "Heat.exp_quantile_pos",
    "Heat.known_singular_refused"
   ],
   "note": "Exact arithmetic; qr through its contract (orthonormal columns); the matrix product is C72. parter is the transpose of the matrix in the cited reference. The random numbers of random_known_rank must be strictly between 0 and 1; rand can return 0."
  },
  {
   "property": "C184",
   "status": "partial",
   "theorems": [
    "Heat.api_result_type_spec",
    "Heat.api_result_type_perm",
    "Heat.api_can_cast_spec",
    "Heat.api_float16",
    "Heat.api_operator_arrays",
    "Heat.api_operator_scalar_partial",
    "Heat.api_complex_scalar_violated",
    "Heat.api_real_floating_violated",
    "Heat.api_categories"
   ],
   "note": "False: Python complex scalars are refused; the category \"real floating-point\" has the complex types."
  },
  {
   "property": "C185",
   "status": "partial",
   "theorems": [
    "Heat.validate_basic",
    "Heat.validate_ellipsis",
    "Heat.validate_mask_partial",
    "Heat.validate_mask_violated",
    "Heat.validate_ellipses"
   ],
   "note": "False: the checks for masks and integer arrays are skipped for DNDarrays in the index. More than one ellipsis and too many entries are left to the DNDarray."
  },
  {
   "property": "C186",
   "status": "partial",
   "theorems": [
    "Heat.square_tiles_partial",
    "Heat.square_target_sum",
    "Heat.square_tiles_wide_violated",
    "Heat.square_tiles_small_violated",
    "Heat.square_tiles_target_violated"
   ],
   "note": "False for wide matrices split along the columns, for processes with fewer rows than tiles, and when the constructor asks for a negative number of rows. match_tiles is not modelled."
  },
  {
   "property": "C187",
   "status": "partial",
   "theorems": [
    "Heat.square_tile_get",
    "Heat.square_tile_set",
    "Heat.square_tile_cross",
    "Heat.square_local_key",
    "Heat.square_local_owner",
    "Heat.square_local_slice_violated"
   ],
   "note": "False: a local slice that ends beyond the tiles of the process is refused instead of cut. Negative tile numbers are not modelled."
  },
  {
   "property": "C188",
   "status": "partial",
   "theorems": [
    "Heat.torchRound_spec",
    "Heat.roundsTo_unique",
    "Heat.floor_ceil_trunc_spec",
    "Heat.round_value",
    "Heat.round_argument_partial",
    "Heat.round_argument_violated",
    "Heat.round_integer_violated",
    "Heat.round_out_spec",
    "Heat.clip_value",
    "Heat.clip_no_bounds",
    "Heat.clip_out_partial",
    "Heat.clip_out_violated",
    "Heat.clip_type_violated",
    "Heat.modf_spec",
    "Heat.modf_out_violated"
   ],
   "note": "False: round with decimals scales the argument in place and refuses integer arrays for negative decimals; clip with out raises unless the local part has one element; clip keeps an integer dtype for floating point data; modf accepts out arrays of another length. Exact arithmetic."
  },
  {
   "property": "C189",
   "status": "partial",
   "theorems": [
    "Heat.divmod_spec",
    "Heat.divmod_out_partial",
    "Heat.divmod_alias_violated",
    "Heat.pow_spec",
    "Heat.pow_out_array",
    "Heat.pow_out_violated"
   ],
   "note": "False: divmod with out1 an operand computes the remainder from the overwritten operand; pow ignores out (and where) for an integer exponent. Exact arithmetic."
  },
  {
   "property": "C190",
   "status": "partial",
   "theorems": [
    "Heat.sameTorch_history",
    "Heat.randperm_partial",
    "Heat.randperm_lengths",
    "Heat.randperm_violated",
    "Heat.randperm_exception_violated",
    "Heat.randn_partial"
   ],
   "note": "False after a set_state that seeds torch differently per process while the generator is Threefry. randn inherits the limits of C27."
  },
  {
   "property": "C191",
   "status": "partial",
   "theorems": [
    "Heat.condest_upper_partial",
    "Heat.condest_small_violated",
    "Heat.condest_sample_violated",
    "Heat.condest_params"
   ],
   "note": "False: the factor sqrt(m/nsamples) makes the result smaller than 1 for matrices with fewer rows than samples, and for single samples. The factorisations are exact."
  },
  {
   "property": "C192",
   "status": "partial",
   "theorems": [
    "Heat.std_spec_partial",
    "Heat.std_ddof_violated",
    "Heat.std_ddof_value_violated",
    "Heat.std_negative"
   ],
   "note": "False: every ddof > 1 gives the value for ddof = 1. Exact arithmetic; the square of the result is modelled."
  },
  {
   "property": "C193",
   "status": "partial",
   "theorems": [
    "Heat.vdot_spec_partial",
    "Heat.vdot_size_violated",
    "Heat.vdot_mismatch"
   ],
   "note": "False: a one-element operand is broadcast instead of raising a ValueError. Exact arithmetic."
  },
  {
   "property": "C194",
   "status": "partial",
   "theorems": [
    "Heat.matrixExp_partial",
    "Heat.matrixExp_unbalanced_violated",
    "Heat.matrixExp_axis"
   ],
   "note": "False: every batch that is not in the default distribution makes some process raise a RuntimeError."
  },
  {
   "property": "C195",
   "status": "partial",
   "theorems": [
    "Heat.kmedians_fit_partial",
    "Heat.kmedians_labels_violated",
    "Heat.kmedoids_fit_partial",
    "Heat.kmedoids_labels_violated",
    "Heat.kmedoidsStep_spec",
    "Heat.nearestL1_spec"
   ],
   "note": "False: if the loop ends because of max_iter, labels_ belongs to the centres before the last update. The median is a parameter; exact arithmetic."
  },
  {
   "property": "C196",
   "status": "partial",
   "theorems": [
    "Heat.nansum_spec",
    "Heat.nanprod_partial",
    "Heat.nanprod_violated",
    "Heat.inf_mul_not_fin"
   ],
   "note": "False for nanprod: infinities are replaced by the largest finite numbers. Exact arithmetic with infinities."
  },
  {
   "property": "C197",
   "status": "proved",
   "theorems": [
    "Heat.polar_cols_qr",
    "Heat.qOnlyCols_eq",
    "Heat.polarStacked_holds"
   ],
   "note": "Exact real arithmetic; the local QR factorisation is a parameter (existence: realQr_ok)."
  },
  {
   "property": "C198",
   "status": "partial",
   "theorems": [
    "Heat.copy_fresh",
    "Heat.astype_partial",
    "Heat.astype_violated",
    "Heat.astype_in_place",
    "Heat.array_copy_spec",
    "Heat.conjugate_partial",
    "Heat.conjugate_vals",
    "Heat.conjugate_violated",
    "Heat.flatten_view"
   ],
   "note": "False: astype to the type of the array and conjugate of floating point or complex arrays share memory with the argument. Contiguous local parts; torch.conj and Tensor.type by their documented behaviour; MPS devices not modelled."
  },
  {
   "property": "C199",
   "status": "partial",
   "theorems": [
    "Heat.load_save_agree",
    "Heat.load_format_partial",
    "Heat.netcdf_ext_violated",
    "Heat.ioExtension_dot",
    "Heat.no_ext",
    "Heat.splitExt_file"
   ],
   "note": "False: the listed extension netcdf has no dot and never matches. Extensions with white space inside the name are not covered; lower() for ASCII."
  },
  {
   "property": "C200",
   "status": "partial",
   "theorems": [
    "Heat.rollMulti_spec",
    "Heat.rollMulti_argument_violated",
    "Heat.rollInt_spec",
    "Heat.rollSlabs_spec",
    "Heat.takeAxis_spec"
   ],
   "note": "False for the arguments: a list given as shift loses the entries of the split axis. The exchange along the split axis is C38; rolling a slab along another axis is an arbitrary function; type checks not modelled."
  },
  {
   "property": "C201",
   "status": "partial",
   "theorems": [
    "Heat.split_other_int_partial",
    "Heat.split_replicated_int_partial",
    "Heat.split_other_refused",
    "Heat.split_other_list_partial",
    "Heat.split_replicated_list_partial",
    "Heat.split_empty_violated",
    "Heat.split_negative_violated"
   ],
   "note": "False: an axis of length 0 gives one sub-array whatever number is asked for; negative indices raise RuntimeError (numpy counts them from the end). Proved for positive lengths and for increasing non-negative indices. torch.split by its documented behaviour."
  },
  {
   "property": "C202",
   "status": "partial",
   "theorems": [
    "Heat.fit_paired",
    "Heat.fit_accepts",
    "Heat.oneHotAll_spec",
    "Heat.fit_failed_violated",
    "Heat.fit_negative_violated"
   ],
   "note": "False: a fit that raises because of the number of labels leaves the new samples with the old labels; the label -1 is encoded as the largest label. Global contents (distribution of the labels: C145); zero-dimensional labels not modelled."
  },
  {
   "property": "C203",
   "status": "partial",
   "theorems": [
    "Heat.wait_received",
    "Heat.wait_others",
    "Heat.blocking_received",
    "Heat.send_value",
    "Heat.send_copy",
    "Heat.wait_single",
    "Heat.lower_wait_partial",
    "Heat.nonblocking_gradient_partial",
    "Heat.shuffle_received_partial",
    "Heat.wait_twice_partial",
    "Heat.lower_wait_violated",
    "Heat.nonblocking_gradient_violated",
    "Heat.nonblocking_single_violated",
    "Heat.shuffle_received_violated",
    "Heat.wait_twice_violated"
   ],
   "note": "Proved for Wait and the blocking calls. False for wait(): on GPUs without GPU-aware MPI the data never reach the caller's tensor, so that the non-blocking DataParallel uses local gradients and dataset shuffling inserts uninitialised memory; on one process the non-blocking DataParallel raises AttributeError; a second Wait overwrites newer data and exchanges the axes. Tensors as functions of the index; MPI by the data it delivers."
  },
  {
   "property": "C204",
   "status": "partial",
   "theorems": [
    "Heat.derivedOp_partial",
    "Heat.derivedOp_shifted",
    "Heat.derivedOp_first_violated",
    "Heat.derivedOp_outside_violated",
    "Heat.row_dense"
   ],
   "note": "Proved for tensors at the beginning of their storage. False for slices: torch.frombuffer takes the offset in bytes and MPI passes addresses of the first element, so that the operation is shifted by storage_offset() bytes, misses the first elements and reads and writes behind the block. Memory by bytes; the order in which MPI combines the processes is not modelled."
  },
  {
   "property": "C205",
   "status": "partial",
   "theorems": [
    "Heat.alltoall_received",
    "Heat.alltoallAxes_perm",
    "Heat.argsort_argsort",
    "Heat.gather_argsort",
    "Heat.ialltoall_received_partial",
    "Heat.ialltoall_received_violated"
   ],
   "note": "Proved for the blocking call. False for Ialltoall and Ialltoallv on GPUs without GPU-aware MPI: the blocking Alltoallw gives a request without handle, so Wait returns before copying the data to the GPU. What MPI delivers into the permuted buffer: C58."
  }
 ]
}