{"id": "C01", "title": "Chunking partitions the split axis", "statement": "For every global shape, split axis and number of processes P, the index ranges that comm.chunk assigns to ranks 0..P-1 are consecutive, start at 0, end at the axis length, and so every global index belongs to exactly one rank; all other axes are kept whole.", "quantifier": "all shapes, all split axes, all P >= 1, all ranks", "why_tests_cant": "tests run with a handful of process counts (1-8) and fixed shapes; the partition has to be exact for every size/process combination, including P > size", "anchors": ["heat/core/communication.py: MPICommunication.chunk"]}
{"id": "C02", "title": "Chunking is load balanced", "statement": "Local sizes produced by comm.chunk differ by at most one between any two ranks and never increase with the rank.", "quantifier": "all axis lengths, all P >= 1, all pairs of ranks", "why_tests_cant": "infinite family of (n,P)", "anchors": ["heat/core/communication.py: MPICommunication.chunk"]}
{"id": "C03", "title": "counts/displacements agree with chunk", "statement": "The counts and displacements that counts_displs_shape computes for v-collectives are, rank by rank, the local size and start offset that chunk computes, so gathering chunked data places every slab at its global position.", "quantifier": "all axis lengths, all P >= 1, all ranks", "why_tests_cant": "two independently written formulas must agree on all inputs", "anchors": ["heat/core/communication.py: MPICommunication.counts_displs_shape, chunk"]}
{"id": "C04", "title": "Axis sanitation", "statement": "sanitize_axis accepts an int axis exactly when -ndim <= axis < ndim, maps it to the unique equivalent in 0..ndim-1, is idempotent, treats tuples component-wise, maps any axis of a 0-d array to None, and raises ValueError otherwise.", "quantifier": "all ranks ndim, all integers, all tuples of integers", "why_tests_cant": "unbounded integer inputs", "anchors": ["heat/core/stride_tricks.py: sanitize_axis"]}
{"id": "C05", "title": "Broadcast shape laws", "statement": "broadcast_shape/broadcast_shapes give the NumPy broadcast shape: it is commutative, associative (including which inputs fail), idempotent, has () as identity, and fails exactly when two right-aligned dimensions differ and neither is 1.", "quantifier": "all shapes of all ranks, any number of operands", "why_tests_cant": "unbounded ranks and sizes", "anchors": ["heat/core/stride_tricks.py: broadcast_shape, broadcast_shapes"]}
{"id": "C06", "title": "Index ownership from counts_displs", "statement": "For any distribution (balanced or not, with empty ranks), counts_displs of an array returns prefix sums such that global index g lives on exactly one rank r, at local position g - displs[r].", "quantifier": "all distributions over all P, all global indices", "why_tests_cant": "all distributions reachable by slicing/redistribution", "anchors": ["heat/core/dndarray.py: DNDarray.counts_displs, create_lshape_map"]}
{"id": "C07", "title": "is_balanced is truthful", "statement": "is_balanced(force_check=True) returns True on every rank exactly when every rank holds the chunk that comm.chunk assigns to it, and returns the same answer on all ranks.", "quantifier": "all distributions, all P", "why_tests_cant": "needs all local-size vectors", "anchors": ["heat/core/dndarray.py: DNDarray.is_balanced"]}
{"id": "C08", "title": "redistribute_ moves data without losing or reordering it", "statement": "For every current distribution and every non-negative target map whose sum equals the axis length, redistribute_ terminates, every rank ends with exactly the requested number of slabs, and the concatenation of the local data in rank order is unchanged.", "quantifier": "all P, all current lshape maps, all target maps with matching sum, all contents", "why_tests_cant": "termination and order preservation over all pairs of distributions", "anchors": ["heat/core/dndarray.py: DNDarray.redistribute_, __redistribute_shuffle"]}
{"id": "C09", "title": "balance_ balances and preserves content; idempotent", "statement": "After balance_, is_balanced(force_check=True) holds, the global array is unchanged, and calling it again moves nothing.", "quantifier": "all distributions", "why_tests_cant": "same", "anchors": ["heat/core/dndarray.py: DNDarray.balance_"]}
{"id": "C10", "title": "collect_ gathers onto one rank", "statement": "After collect_(t) with 0 <= t < P, rank t holds the whole array in order and all other ranks hold no slabs.", "quantifier": "all distributions, all t", "why_tests_cant": "same", "anchors": ["heat/core/dndarray.py: DNDarray.collect_"]}
{"id": "C11", "title": "Reported lshape_map is never stale", "statement": "After any sequence of redistribute_, balance_, collect_, resplit_ and local-data assignments through larray, the lshape_map an array reports equals the actual local shapes on all ranks.", "quantifier": "all operation histories", "why_tests_cant": "cache invalidation must hold after every history", "anchors": ["heat/core/dndarray.py: create_lshape_map, redistribute_, resplit_, larray setter"]}
{"id": "C12", "title": "resplit_ preserves the global array", "statement": "In-place resplit_ from any split (or None) to any split (or None), from any distribution, leaves the global array unchanged, and a new split axis is chunk-distributed.", "quantifier": "all shapes, all axis pairs, all source distributions, all P", "why_tests_cant": "all shapes x axes x distributions", "anchors": ["heat/core/dndarray.py: resplit_", "heat/core/manipulations.py: _axis2axisResplit", "heat/core/tiling.py: SplitTiles", "heat/core/communication.py: Alltoallw"]}
{"id": "C13", "title": "resplit (out of place) preserves the global array", "statement": "Out-of-place resplit between two axes returns an array with the same global content for every source distribution, including unbalanced ones.", "quantifier": "all shapes, axis pairs, source distributions", "why_tests_cant": "unbalanced sources are rare in tests", "anchors": ["heat/core/manipulations.py: resplit, _axis2axisResplit", "heat/core/tiling.py: SplitTiles.get_subarray_params"]}
{"id": "C14", "title": "Slicing along the split axis equals global slicing", "statement": "a[start:stop:step] along the split axis with any start/stop/step the undistributed array accepts yields, concatenated in rank order, exactly the slabs the undistributed array yields, in order.", "quantifier": "all start, stop, step>=1, all distributions, all P", "why_tests_cant": "offset arithmetic of strided slices across chunk borders, for all inputs", "anchors": ["heat/core/dndarray.py: __getitem__, __xitem_get_key_start_stop", "heat/core/stride_tricks.py: sanitize_slice"]}
{"id": "C15", "title": "Integer indexing along the split axis", "statement": "a[i] with -n <= i < n returns on every rank the i-th global slab, whichever rank owns it and even if ranks are empty.", "quantifier": "all i, all distributions", "why_tests_cant": "ownership search over all distributions", "anchors": ["heat/core/dndarray.py: __getitem__"]}
{"id": "C16", "title": "Advanced indexing along the split axis", "statement": "Indexing the split axis by a list of integer positions returns the selected slabs in the order of the list, with negative positions counted from the end, as for an undistributed array.", "quantifier": "all index lists, all distributions", "why_tests_cant": "order and sign handling across ranks", "anchors": ["heat/core/dndarray.py: __getitem__"]}
{"id": "C17", "title": "Slice assignment of a scalar", "statement": "a[start:stop:step] = c sets exactly the slabs selected by global slicing and nothing else.", "quantifier": "all start, stop, step, all distributions", "why_tests_cant": "silent overwrites elsewhere", "anchors": ["heat/core/dndarray.py: __setitem__"]}
{"id": "C18", "title": "Integer assignment", "statement": "a[i] = c with -n <= i < n changes exactly the i-th global slab.", "quantifier": "all i, all distributions", "why_tests_cant": "all distributions", "anchors": ["heat/core/dndarray.py: __setitem__"]}
{"id": "C19", "title": "Halos", "statement": "After get_halo(h), on every populated rank array_with_halos is the contiguous global window extending the local chunk by h on each side that has a populated neighbour; requests with h larger than a populated chunk raise ValueError on all populated ranks; no message is left unmatched.", "quantifier": "all distributions, all h, all schedules", "why_tests_cant": "neighbour search with empty ranks, all sizes", "anchors": ["heat/core/dndarray.py: get_halo, __cat_halo"]}
{"id": "C20", "title": "Reductions along the split axis", "statement": "A reduction (sum, prod, any, all, min, max ...) over the split axis equals the reduction of the undistributed array, for every distribution including ranks without data, for every associative-commutative operator with the supplied neutral element.", "quantifier": "all operators, distributions, contents", "why_tests_cant": "neutral handling on empty ranks", "anchors": ["heat/core/_operations.py: __reduce_op"]}
{"id": "C21", "title": "Cumulative operations", "statement": "cumsum/cumprod along the split axis equal the cumulative operation of the undistributed array for every distribution, including empty ranks.", "quantifier": "all monoids, distributions, contents", "why_tests_cant": "exscan with empty ranks", "anchors": ["heat/core/_operations.py: __cum_op"]}
{"id": "C22", "title": "Reduction result metadata", "statement": "For every input shape, split, axis set and keepdims, the result of a reduction has the NumPy result shape, and its split axis is None iff a reduced axis was split, otherwise the position of the old split axis after removing reduced axes.", "quantifier": "all shapes, splits, axes, keepdims", "why_tests_cant": "all ranks and axis tuples", "anchors": ["heat/core/_operations.py: __reduce_op"]}
{"id": "C23", "title": "Element-wise binary operations ignore the distribution", "statement": "For operands with the same global shape, t1 op t2 is the element-wise operation of the global arrays, whatever the distributions of the two operands, and the result has the distribution of the dominant operand.", "quantifier": "all operators, shapes, splits, distributions", "why_tests_cant": "mismatched distributions trigger redistribution", "anchors": ["heat/core/_operations.py: __binary_op", "heat/core/sanitation.py: sanitize_distribution"]}
{"id": "C24", "title": "Type promotion is a well-behaved join", "statement": "promote_types is total, commutative and idempotent, both arguments can be cast intuitively to the result, no smaller common type exists; and is associative.", "quantifier": "all pairs/triples of heat types", "why_tests_cant": "finite but the n-ary lifts are not", "anchors": ["heat/core/types.py: promote_types, can_cast"]}
{"id": "C25", "title": "result_type is independent of the operand order", "statement": "ht.result_type of any list of operands does not depend on their order, for lists of any length.", "quantifier": "all lists of (type, category) operands, all permutations", "why_tests_cant": "unbounded argument lists", "anchors": ["heat/core/types.py: result_type"]}
{"id": "C26", "title": "Casting lattice", "statement": "can_cast(.,.,'safe') is reflexive and transitive, implies 'intuitive', and 'safe' casts between numeric types never lose information of integer values.", "quantifier": "all types", "why_tests_cant": "", "anchors": ["heat/core/types.py: can_cast"]}
{"id": "C27", "title": "Threefry random arrays do not depend on the number of processes", "statement": "With the Threefry generator and a fixed state, rand/randint of a given shape return the same global array for every number of processes, for split=None and split=0 (and any split axis).", "quantifier": "all seeds, counters, shapes, P", "why_tests_cant": "all process counts and shapes", "anchors": ["heat/core/random.py: __counter_sequence, rand, randint"]}
{"id": "C28", "title": "Random streams do not overlap", "statement": "Consecutive draws from the Threefry generator use disjoint counter ranges and the counter advances identically on all ranks, so get_state is equal on all ranks after any sequence of draws.", "quantifier": "all histories of draws", "why_tests_cant": "histories", "anchors": ["heat/core/random.py: __counter_sequence, get_state"]}
{"id": "C29", "title": "Threefry is a bijection", "statement": "For every seed the threefry32/64 mixing maps distinct counter pairs to distinct outputs.", "quantifier": "all seeds, all 2^64 / 2^128 inputs", "why_tests_cant": "input space too large", "anchors": ["heat/core/random.py: __threefry32, __threefry64"]}
{"id": "C30", "title": "rand lies in [0,1)", "statement": "Every value produced by Threefry rand is in [0,1).", "quantifier": "all seeds, counters", "why_tests_cant": "input space", "anchors": ["heat/core/random.py: __int32_to_float32, __int64_to_float64, rand"]}
{"id": "C31", "title": "randint lies in [low, high)", "statement": "Every value produced by Threefry randint(low, high) is >= low and < high.", "quantifier": "all generator outputs, all low < high", "why_tests_cant": "includes the INT_MIN corner", "anchors": ["heat/core/random.py: randint"]}
{"id": "C32", "title": "get_state/set_state round trip", "statement": "set_state(s) with a state s previously returned by get_state() restores the generator so that get_state() returns s again, from every later state.", "quantifier": "all states", "why_tests_cant": "all histories", "anchors": ["heat/core/random.py: get_state, set_state, seed"]}
{"id": "C33", "title": "permutation permutes rows", "statement": "random.permutation(x) returns, for every distribution of x along axis 0 and every message schedule, the rows x[perm] in order, without deadlock or mismatched messages.", "quantifier": "all permutations, P, schedules", "why_tests_cant": "all schedules", "anchors": ["heat/core/random.py: permutation"]}
{"id": "C34", "title": "arange does not depend on the distribution", "statement": "ht.arange(start, stop, step, split=0) concatenated over ranks is start + k*step for 0 <= k < ceil((stop-start)/step), for all integer arguments and all P.", "quantifier": "all integers start, stop, step, all P", "why_tests_cant": "", "anchors": ["heat/core/factories.py: arange"]}
{"id": "C35", "title": "eye does not depend on the distribution", "statement": "ht.eye(shape, split) is 1 exactly at global positions (i,i).", "quantifier": "all shapes, splits, P", "why_tests_cant": "", "anchors": ["heat/core/factories.py: eye"]}
{"id": "C36", "title": "linspace does not depend on the distribution", "statement": "In exact arithmetic ht.linspace(..., split=0) is start + k*step at global position k for all P.", "quantifier": "all endpoints, num, P", "why_tests_cant": "", "anchors": ["heat/core/factories.py: linspace"]}
{"id": "C37", "title": "array(split=s) distributes and array(is_split=s) assembles", "statement": "Distributing with split and gathering gives the input; assembling local pieces with is_split yields the concatenation with the right global shape and a correct balanced flag; inconsistent pieces raise ValueError on every rank.", "quantifier": "all shapes, P, local pieces", "why_tests_cant": "collective agreement on errors", "anchors": ["heat/core/factories.py: array"]}
{"id": "C38", "title": "roll", "statement": "ht.roll along the split axis equals rolling the global array for any shift (any sign and size) and any distribution; each message is matched with a unique receive in every schedule.", "quantifier": "all shifts, distributions, schedules", "why_tests_cant": "message tags", "anchors": ["heat/core/manipulations.py: roll"]}
{"id": "C39", "title": "flip", "statement": "ht.flip along the split axis reverses the global array for every distribution.", "quantifier": "all distributions", "why_tests_cant": "", "anchors": ["heat/core/manipulations.py: flip"]}
{"id": "C40", "title": "diag/diagonal", "statement": "diagonal(a, offset) of a split matrix returns the global diagonal in order; diag of a split vector puts the i-th element at (i, i+offset).", "quantifier": "all shapes, offsets, P", "why_tests_cant": "", "anchors": ["heat/core/manipulations.py: diag, diagonal"]}
{"id": "C41", "title": "reshape", "statement": "ht.reshape keeps the row-major order of elements for every old/new shape and distribution.", "quantifier": "all shapes, distributions", "why_tests_cant": "", "anchors": ["heat/core/manipulations.py: reshape"]}
{"id": "C42", "title": "Split bookkeeping of axis permutations", "statement": "transpose/moveaxis/swapaxes/expand_dims/squeeze/stack move the split axis to the position of the same logical axis.", "quantifier": "all ranks, axes", "why_tests_cant": "", "anchors": ["heat/core/manipulations.py: moveaxis, swapaxes, expand_dims, squeeze, stack", "heat/core/linalg/basics.py: transpose"]}
{"id": "C43", "title": "nonzero", "statement": "nonzero of a split array lists exactly the global positions of non-zero elements, in row-major order for split 0, for every distribution.", "quantifier": "all contents, distributions", "why_tests_cant": "", "anchors": ["heat/core/indexing.py: nonzero"]}
{"id": "C44", "title": "where", "statement": "where(cond, x, y) is x where cond is true (non-zero) and y elsewhere.", "quantifier": "all values", "why_tests_cant": "", "anchors": ["heat/core/indexing.py: where"]}
{"id": "C45", "title": "fill_diagonal", "statement": "fill_diagonal sets exactly the main diagonal of a 2-D array whatever its split.", "quantifier": "all shapes, P", "why_tests_cant": "", "anchors": ["heat/core/dndarray.py: fill_diagonal"]}
{"id": "C46", "title": "Large-count datatypes", "statement": "For every element count beyond the MPI int limit (up to the documented maximum) the derived datatype describes exactly that many contiguous elements, and larger counts raise ValueError.", "quantifier": "all counts", "why_tests_cant": "counts > 2^31", "anchors": ["heat/core/communication.py: _handle_large_count"]}
{"id": "C47", "title": "Size-1 arrays convert to the same Python scalar on every rank", "statement": "int()/float()/bool() of a distributed array with one element returns that element on every rank, whichever rank owns it.", "quantifier": "all distributions of one element over all P", "why_tests_cant": "", "anchors": ["heat/core/dndarray.py: __cast"]}
{"id": "C48", "title": "Point-to-point exchanges are schedule independent", "statement": "For an exchange in which every (source, destination, tag) is used by exactly one send and one receive, every fair schedule of the non-blocking operations completes and delivers the same data.", "quantifier": "all exchanges, all interleavings", "why_tests_cant": "interleavings", "anchors": ["heat/core/manipulations.py: roll", "heat/core/random.py: permutation", "heat/core/dndarray.py: get_halo"]}
{"id": "C49", "title": "Ordered blocking transfers do not deadlock", "statement": "A globally ordered list of blocking Send/Recv pairs executed by every rank in that order (as redistribute_ does) never deadlocks, even with rendezvous sends, and has the effect of the sequential execution.", "quantifier": "all transfer lists, all interleavings", "why_tests_cant": "interleavings", "anchors": ["heat/core/dndarray.py: redistribute_, __redistribute_shuffle"]}
{"id": "C50", "title": "sanitize_distribution aligns operands", "statement": "After sanitize_distribution(args, target=t) every returned operand that is not broadcast has, rank by rank, the local size of t along the split axis and unchanged global content; incompatible sizes raise ValueError.", "quantifier": "all distributions", "why_tests_cant": "", "anchors": ["heat/core/sanitation.py: sanitize_distribution"]}
{"id": "C51", "title": "Partition interface", "statement": "The __partitioned__ dictionary of a split array lists start and shape of each rank's block such that the blocks tile the global array, and from_partitioned rebuilds the same distribution.", "quantifier": "all shapes, distributions", "why_tests_cant": "", "anchors": ["heat/core/dndarray.py: create_partition_interface", "heat/core/factories.py: from_partitioned"]}
{"id": "C52", "title": "Type codes name one type", "statement": "Looking a type code string up gives the same heat type in every process and every run although the registry of types is an unordered set, and the short-hand name of a type names that type.", "quantifier": "all strings, all orders in which the set of registered types is enumerated", "why_tests_cant": "Python set iteration order differs between runs; a test sees one order", "anchors": ["heat/core/types.py: canonical_heat_type, __get_all_heat_types, char"]}
{"id": "C53", "title": "array() of a distributed array keeps its content", "statement": "ht.array / ht.asarray applied to an existing DNDarray (with or without dtype, split, is_split) yields an array with the same global content (converted), or raises.", "quantifier": "all distributions, dtypes, split/is_split arguments", "why_tests_cant": "The distribution and the combination of arguments are unbounded; single-process tests never see the local part differ from the array.", "anchors": ["heat/core/factories.py:array", "heat/core/factories.py:asarray"]}
{"id": "C54", "title": "arange with float arguments has the declared shape", "statement": "ht.arange(start, stop, step) with float arguments holds exactly as many local elements as its declared shape says, for all arguments and P.", "quantifier": "all floats, all P", "why_tests_cant": "Rounding of num*step depends on every argument; tests sample a few.", "anchors": ["heat/core/factories.py:arange"]}
{"id": "C55", "title": "Seeding is reproducible and agreed upon by all ranks", "statement": "After seed(s) the generator state, and hence all later draws, do not depend on what was drawn before; after any history of seed, set_state and draws executed by all processes, all processes agree on generator, seed and counter.", "quantifier": "all histories of seed/set_state/draws, all ranks, all seeds", "why_tests_cant": "quantifies over histories", "anchors": ["heat/core/random.py: seed, set_state, get_state"]}
{"id": "C56", "title": "Datatypes of tensors in memory", "statement": "The MPI datatype and count computed for a local tensor address exactly its elements in row-major order, whatever its shape and strides; with counts and displacements exactly the requested rows.", "quantifier": "all shapes, strides, element sizes, counts, displacements", "why_tests_cant": "strides and shapes are unbounded; 31-bit overflow needs huge buffers", "anchors": ["heat/core/communication.py: mpi_type_and_elements_of, as_buffer"]}
{"id": "C57", "title": "Collectives without counts on large buffers", "statement": "Allgather/Alltoall of equal parts address block q of the receive buffer for partner q, whatever the size of the buffer.", "quantifier": "all sizes including those above 2^31-1 elements, all P", "why_tests_cant": "counts above 2^31", "anchors": ["heat/core/communication.py: __allgather_like, __alltoall_like, _handle_large_count"]}
{"id": "C58", "title": "Blocks exchanged by Alltoallw and Alltoall", "statement": "The subarray or recursive vector type built for each partner addresses exactly the block meant for it in row-major order, so that the all-to-all turns a split along one axis into a split along another.", "quantifier": "all shapes, strides, blocks, P, axes", "why_tests_cant": "row strides of 2^31 elements, arbitrary strides and numbers of axes", "anchors": ["heat/core/communication.py: Alltoallw, _create_recursive_vectortype, alltoall_sendbuffer, alltoall_recvbuffer, __alltoall_like"]}
{"id": "C59", "title": "argmax and argmin", "statement": "argmax/argmin return the global position of the first maximum/minimum: along the split axis for every position of the result, and in the flattened array for axis=None, whatever the distribution, the element type and the order in which MPI combines the contributions.", "quantifier": "all contents, shapes, distributions, reduction orders and bracketings", "why_tests_cant": "Reduction order is chosen by the MPI library; ties, empty ranks, large integers and uneven chunks are rarely tested together.", "anchors": ["heat/core/statistics.py: argmax, argmin, mpi_argmax, mpi_argmin", "heat/core/_operations.py: __reduce_op"]}
{"id": "C60", "title": "sort", "statement": "ht.sort(a, axis) along the split axis of a distributed array with the canonical distribution returns, for every number of processes, every content (any ties), ascending or descending, an array that is sorted across all ranks, whose (value, returned index) pairs are exactly the values of a with their global positions, and in which every rank has as many elements as before; no rank raises and no value is lost.", "quantifier": "all process counts, all lengths (also shorter than the number of processes), all values and orderings, all local sort routines (stable or not)", "why_tests_cant": "depends on how samples, pivots and ties fall for every possible content and process count; the rebalancing plan has many branches that only particular bucket sizes reach", "anchors": ["heat/core/manipulations.py:sort", "heat/core/communication.py:counts_displs_shape"]}
{"id": "C61", "title": "concatenate", "statement": "ht.concatenate(arrays, axis) returns the slabs of the operands along axis in the given order, in canonical distribution, whatever mixture of replicated and split operands is given, without losing, repeating or reordering a slab, without deadlock for any buffering of the point-to-point messages, and raises exactly for operands that do not fit together.", "quantifier": "all numbers of arrays and processes, all lengths (also empty local parts), all splits, all schedules and buffering decisions", "why_tests_cant": "which slabs travel depends on every combination of local sizes and process counts, and deadlock freedom on MPI's buffering", "anchors": ["heat/core/manipulations.py: concatenate", "heat/core/communication.py: chunk"]}
{"id": "C62", "title": "Means and variances", "statement": "In exact arithmetic ht.mean, ht.var (and std) over the whole array or over axes that include the split axis equal the mean and variance of the gathered array, for every distribution; the result has the right shape and split axis, and skew/kurtosis accept an axis counted from the back.", "quantifier": "all contents, process counts, distributions (also empty ranks), numbers of reduced axes, ddof 0 and 1", "why_tests_cant": "the pairwise merge must be right for every sequence of local counts, including 0 and 1 elements; tests use balanced arrays and tolerances", "anchors": ["heat/core/statistics.py: mean, var, std, __merge_moments, __moment_w_axis, skew, kurtosis"]}
{"id": "C63", "title": "Counting", "statement": "ht.bincount of a distributed array equals the bincount of the gathered array (with and without weights and minlength), ht.histc the histogram of the gathered array, and ht.digitize counts bins as numpy does for all increasing and decreasing bins and both values of right.", "quantifier": "all contents, weights, minlengths, process counts, distributions (also empty ranks), all monotone bins", "why_tests_cant": "empty ranks, ties at bin edges and type differences between ranks are combinations tests do not enumerate", "anchors": ["heat/core/statistics.py: bincount, histc, histogram, digitize, bucketize"]}
{"id": "C64", "title": "outer computes the outer product on every schedule", "statement": "outer(a, b, split) returns, on every rank, exactly the part of the outer product that belongs to its elements of the operand along the result's split axis, for every distribution of the operands and every order in which the ranks' blocking Send and Recv calls are carried out, or it raises; it finishes on every rank without relying on MPI buffering the messages, and it leaves the splits of its arguments alone.", "quantifier": "all numbers of ranks, all operand lengths and distributions (empty blocks included), all products, both result splits, all interleavings and deliveries of the ring's messages", "why_tests_cant": "a test runs one size with one MPI library, which buffers small messages; it cannot enumerate schedules, ring positions or distributions", "anchors": ["heat/core/linalg/basics.py: outer", "heat/core/communication.py: chunk"]}
{"id": "C65", "title": "tril and triu return the triangle of the global array", "statement": "tril(m, k) and triu(m, k) represent the array whose elements above (below) the k-th diagonal of the last two axes are zero and whose other elements are those of m (for a vector: of the square matrix whose rows are the vector), with the right split, for every shape, diagonal, split axis and distribution.", "quantifier": "all numbers of ranks, dimensions, shapes, diagonals, split axes and distributions", "why_tests_cant": "the diagonal is shifted on every rank by an amount that depends on rank, split and distribution; a test covers a few", "anchors": ["heat/core/linalg/basics.py: __tri_op, tril, triu"]}
{"id": "C66", "title": "trace is the sum over the diagonal of the global array", "statement": "trace(a, offset, axis1, axis2) equals the sum of the elements on the given diagonal of the global array: the same number on every rank for a matrix, and the array of sums (with the right shape and split) for more dimensions, whatever the axes, the offset, the split and the distribution.", "quantifier": "all numbers of ranks, shapes, offsets, axis pairs, split axes and distributions", "why_tests_cant": "which local elements lie on the diagonal depends on rank, offset, split and shape together", "anchors": ["heat/core/linalg/basics.py: trace"]}
{"id": "C67", "title": "dot of two vectors is their inner product", "statement": "dot(a, b) of two vectors of equal length is their inner product on every rank, whatever the number of ranks and the distribution of either operand, and vectors of different length are rejected.", "quantifier": "all vectors, numbers of ranks, distributions, replicated or split operands", "why_tests_cant": "a test uses balanced arrays of a few lengths", "anchors": ["heat/core/linalg/basics.py: dot"]}
{"id": "C68", "title": "Distance matrices are computed without deadlock and are right or an error", "statement": "cdist, manhattan and rbf of one array, or of two arrays that are replicated or split along the rows, terminate on every schedule even if MPI buffers no message, and every rank then holds exactly its rows of the distance matrix, or an error is raised because an array is not in the canonical distribution; never a wrong matrix.", "quantifier": "all numbers of ranks (even and odd), block sizes, distributions, metrics (symmetric for one argument) and interleavings", "why_tests_cant": "the order of sends and receives, the additional half iteration for an even number of ranks and the tiles sent back depend on rank and number of ranks; a deadlock depends on MPI's buffering", "anchors": ["heat/spatial/distance.py: _dist, cdist, manhattan, rbf"]}
{"id": "C69", "title": "Distance functions refuse what they do not support", "statement": "For splits that are not supported cdist, manhattan and rbf raise an error rather than return a matrix that is not the distance matrix.", "quantifier": "all combinations of splits of the two arguments", "why_tests_cant": "a test needs the combination that was forgotten", "anchors": ["heat/spatial/distance.py: _dist"]}
{"id": "C70", "title": "det of a distributed matrix is its determinant", "statement": "det(a) of a square matrix that is distributed along its rows or columns is the determinant of the global matrix (up to rounding), the same value that the undistributed matrix gives, for every size, entry, number of ranks and distribution.", "quantifier": "all fields, sizes, entries, numbers of ranks and distributions of the rows", "why_tests_cant": "the elimination works on rows spread over the ranks with exchanges of rows between ranks; the threshold of the pivot test matters only for particular entries", "anchors": ["heat/core/linalg/basics.py: det"]}
{"id": "C71", "title": "inv of a distributed matrix is its inverse, and it raises only for singular matrices", "statement": "inv(a) of a distributed square matrix returns a matrix in the same distribution whose product with a is the identity (up to rounding), and raises exactly if a has no inverse, for every size, entry and number of ranks.", "quantifier": "all fields, sizes, entries and numbers of ranks", "why_tests_cant": "which rank scales which row is followed by a counter that must agree with the distribution at every step; the threshold of the pivot test matters only for particular entries", "anchors": ["heat/core/linalg/basics.py: inv"]}
{"id": "C72", "title": "Matrix products are right for every combination of splits", "statement": "matmul(a, b) (a @ b) of two matrices, a matrix and a vector or a vector and a matrix whose split operands are balanced returns on every process, and the processes together hold exactly the product, split along the split axis of a, or of b if a is not split (axis 0 for vectors); with allow_resplit two replicated matrices give a replicated product and a is distributed along axis 0; mismatched inner extents raise ValueError on every process", "quantifier": "all numbers of processes P, all extents including 0 and smaller than P, all nine combinations of splits, all integer elements", "why_tests_cant": "The four blockwise algorithms cut operands at canonical offsets; an off-by-one shows only for particular remainders of the extents modulo P and particular split combinations", "anchors": ["heat/core/linalg/basics.py:matmul"]}
{"id": "C73", "title": "Matrix products of unevenly distributed operands are right or refused", "statement": "matmul(a, b) with operands of any distribution either raises on some process or returns the exact product", "quantifier": "all numbers of processes, all local sizes, all split combinations", "why_tests_cant": "A silently wrong element needs local sizes that broadcast or clamp instead of raising", "anchors": ["heat/core/linalg/basics.py:matmul"]}
{"id": "C74", "title": "The product of two vectors is their inner product", "statement": "matmul(a, b) of two vectors returns the inner product on every process whatever their distribution, refuses different lengths on every process and leaves its arguments as they are", "quantifier": "all numbers of processes, all lengths and distributions", "why_tests_cant": "Whether all processes take part in the final sum depends on the local lengths of all of them", "anchors": ["heat/core/linalg/basics.py:matmul"]}
{"id": "C75", "title": "load_csv reads every row exactly once", "statement": "load_csv(path, split=0) of a file with line feeds whose non-empty lines after the header all have k >= 2 values either raises on some process or the processes hold, in order, exactly the non-empty lines after the header with k columns; it returns on every process if the share of a process is at least header_lines + 2 times the longest line and the first line after the header is not empty (k = 1 included); the processes never wait for ever for each other", "quantifier": "all files, numbers of processes, header lengths, separators, interleavings of the messages", "why_tests_cant": "The cut positions depend on the byte size of the file modulo P; lines that straddle a cut, start exactly at a cut or end the file must be read once for every size and P", "anchors": ["heat/core/io.py:load_csv"]}
{"id": "C76", "title": "load_csv works for every table", "statement": "load_csv(path, split=0) returns the same table for every number of processes and for every line terminator", "quantifier": "all files and numbers of processes", "why_tests_cant": "A failure needs the cut to fall inside a terminator or a process to have fewer than two line starts", "anchors": ["heat/core/io.py:load_csv"]}
{"id": "C77", "title": "diff is the discrete difference for every distribution", "statement": "diff(a, n, axis) for 1 <= n <= extent: along the split axis, for every number of processes and distribution, it either raises (exactly if an empty process directly precedes one that holds data) or the processes hold exactly the n-th difference of the global array, balanced; along another axis of a balanced array every process holds the n-th difference of its part, for every n; without distribution it is the n-th difference; the processes never wait for ever, whether MPI buffers or not", "quantifier": "all arrays (elements of any type with subtraction), extents, numbers of processes, distributions, orders n, interleavings", "why_tests_cant": "Wrong values appear only where the owners of neighbouring elements are not neighbours, and the order send-wait-receive could deadlock depending on buffering", "anchors": ["heat/core/arithmetics.py:diff"]}
{"id": "C78", "title": "diff accepts every order and distribution", "statement": "diff(a, n, axis) returns the n-th difference for every n >= 1 and every distribution, an empty array if n exceeds the extent", "quantifier": "all n, distributions", "why_tests_cant": "It needs orders beyond the extent or unbalanced arrays", "anchors": ["heat/core/arithmetics.py:diff"]}
{"id": "C79", "title": "A distributed sparse matrix is the matrix", "statement": "sparse_csr_matrix(obj, split=0) and sparse_csc_matrix(obj, split=1) give every process the compressed form of its canonical share of the rows (columns); indptr, indices and data of a distributed matrix (also one made with is_split) are those of the whole matrix; with is_split the global shape and number of entries are those of the assembled matrix, and a disagreement on the other extent raises ValueError on every process.", "quantifier": "every matrix with at most 2^24 stored entries, every distribution of its rows, every number of processes", "why_tests_cant": "rows without entries, processes without rows and boundaries that fall inside the pointer array only meet for particular combinations of sizes", "anchors": ["heat/sparse/factories.py:__sparse_matrix", "heat/sparse/dcsx_matrix.py:global_indptr, indptr, indices, data, counts_displs_nnz", "heat/core/communication.py:chunk"]}
{"id": "C80", "title": "Sparse matrices of any size can be gathered", "statement": "indices and data of a distributed sparse matrix return its entries whatever their number.", "quantifier": "every matrix", "why_tests_cant": "needs more than 16 million entries; the counts are kept in float32", "anchors": ["heat/sparse/dcsx_matrix.py:counts_displs_nnz, indices, data"]}
{"id": "C81", "title": "Element-wise operations on sparse matrices", "statement": "ht.sparse.add/mul of two sparse matrices of the same shape return, on every process, its share of the result, with the promoted element type, or raise.", "quantifier": "every pair of matrices, replicated or distributed in any way, every element-wise operation, every number of processes", "why_tests_cant": "the local result depends on which processes have entries at all", "anchors": ["heat/sparse/_operations.py:__binary_op_csx", "heat/sparse/arithmetics.py:add, mul"]}
{"id": "C82", "title": "Sparse and dense agree", "statement": "to_dense(to_sparse(x)) is x; operations on sparse matrices, with another one or with a scalar, give the sparse form of the operation on the dense matrices.", "quantifier": "every dense matrix, every sparse one (whatever zeros it stores), every scalar", "why_tests_cant": "has to hold for every pattern of stored and not stored elements", "anchors": ["heat/sparse/manipulations.py:to_sparse, to_dense", "heat/sparse/_operations.py:__binary_op_csx"]}
{"id": "C83", "title": "unique returns every value once", "statement": "ht.unique(a) returns the values of the array, each exactly once (sorted if asked for); with axis the distinct slabs along that axis. The result is distributed canonically if it has the split axis, else replicated.", "quantifier": "every array, every distribution (also unbalanced, with empty processes), every number of processes, every axis", "why_tests_cant": "values can repeat within and across processes in any pattern", "anchors": ["heat/core/manipulations.py:unique"]}
{"id": "C84", "title": "unique's inverse indices lead back to the array", "statement": "With return_inverse=True, result[inverse] is the array again, in the array's shape and order; or the call raises on every process.", "quantifier": "every array, every split axis, every axis, every distribution, every number of processes", "why_tests_cant": "the translation of local to global positions depends on how many distinct values every process has", "anchors": ["heat/core/manipulations.py:unique"]}
{"id": "C85", "title": "topk returns the best values", "statement": "ht.topk(a, k, dim, largest) along the split axis returns the k best values of every column, best first, whatever the distribution and the order in which MPI combines the contributions; it raises if k exceeds the extent.", "quantifier": "every array, every k, every distribution (processes with fewer than k elements, empty ones), every number of processes, every order of reduction", "why_tests_cant": "the order in which MPI combines contributions, ties and processes with few elements cannot be enumerated", "anchors": ["heat/core/manipulations.py:topk, mpi_topk", "heat/core/_operations.py:__reduce_op"]}
{"id": "C86", "title": "topk's indices point at the values", "statement": "The returned indices are the positions of the returned values in the array, without repetition.", "quantifier": "every array, every k, every distribution, every number of processes", "why_tests_cant": "indices are right whenever every process holds one element, as in the test suite", "anchors": ["heat/core/manipulations.py:topk, mpi_topk"]}
{"id": "C87", "title": "load_hdf5 returns the selected part of the data set", "statement": "load_hdf5 with any list of slices (None entries, negative, out-of-range or empty bounds, fewer slices than axes) and any split axis returns, on every number of processes, the part of the data set a NumPy user gets with the same slices, with the canonical local shapes; it raises exactly for steps other than 1 and a split axis out of range.", "quantifier": "all data sets of every dimension and shape, all lists of slices, all split axes, all numbers of processes", "why_tests_cant": "every combination of slice bounds, extents and process counts (including ranks without data) would have to be tried", "anchors": ["heat/core/io.py:load_hdf5", "heat/core/io.py:size_from_slice", "heat/core/communication.py:MPICommunication.chunk"]}
{"id": "C88", "title": "load_multiple_hdf5 concatenates the files", "statement": "The array returned by load_multiple_hdf5 is the concatenation of the files' rows in file order, every local buffer is completely initialised and the distribution is the canonical one, for every list of files (empty ones included) and every number of processes.", "quantifier": "all lists of files with any numbers of rows, all numbers of processes", "why_tests_cant": "which files a rank reads depends on the relative position of all file boundaries and all chunk boundaries", "anchors": ["heat/core/io.py:load_multiple_hdf5"]}
{"id": "C89", "title": "save_hdf5 never writes a wrong file", "statement": "Without parallel HDF5, in every interleaving of the ranks, never two ranks have the file open at once, the save terminates, and for a balanced array no rank raises and the finished file contains the array; an array that is not balanced makes some rank raise instead of producing a wrong file.", "quantifier": "all interleavings, all numbers of processes, all distributions", "why_tests_cant": "a test sees one schedule; the claim is about all of them and all distributions", "anchors": ["heat/core/io.py:save_hdf5"]}
{"id": "C90", "title": "the file is complete when save_hdf5 returns", "statement": "When save_hdf5 has returned on a rank, the file contains the whole array (a rank can read back what it saved).", "quantifier": "all ranks, interleavings and distributions", "why_tests_cant": "the race needs a particular schedule", "anchors": ["heat/core/io.py:save_hdf5"]}
{"id": "C91", "title": "save_csv writes every element at its place", "statement": "For every split axis (None, 0, 1), every distribution of the array over the ranks (also unbalanced and with empty ranks), every number of ranks and every order in which the ranks' writes reach the file, the file is the header lines followed by the rows of the global array: reading it line by line and cutting at the separator gives the formatted elements in order.", "quantifier": "all tables, split axes, distributions, numbers of ranks, orders of the concurrent writes, header lines, formats of constant width", "why_tests_cant": "concurrent writes at computed offsets: no finite set of runs covers the distributions and interleavings", "anchors": ["heat/core/io.py: save_csv"]}
{"id": "C92", "title": "save_csv of an integer array can be read back exactly", "statement": "Every element of an integer array is written with exactly the width that the offsets assume, denotes exactly the element, and a file that is not too short is read by load_csv on any number of ranks to the same values in the same order.", "quantifier": "all integers between the minimum and the maximum of the array, all tables, splits and numbers of ranks for writing and reading", "why_tests_cant": "widths depend on the number of digits of the extreme values, all integers have to be covered", "anchors": ["heat/core/io.py: save_csv, load_csv"]}
{"id": "C93", "title": "save_csv of a floating point array keeps every value up to the requested decimals", "statement": "For every floating point array and number of decimals the file has one field per element whose value differs from the element by at most half a unit of the last decimal.", "quantifier": "all arrays of rational values, numbers of decimals, splits and distributions", "why_tests_cant": "the width computation depends on the magnitude of the largest value and on the carry of rounding", "anchors": ["heat/core/io.py: save_csv"]}
{"id": "C94", "title": "pad adds exactly the requested slabs at both ends", "statement": "For every array split along the padded axis, every number of ranks and all widths, the padded array is the padding, the array and the padding again, balanced over the ranks; padding other axes changes every slab and nothing else.", "quantifier": "all arrays, numbers of ranks, distributions and padding widths", "why_tests_cant": "which rank pads the end depends on the number of slabs, ranks and on which ranks are empty", "anchors": ["heat/core/manipulations.py: pad"]}
{"id": "C95", "title": "convolve returns the convolution of its operands", "statement": "For all one-dimensional operands, distributed or replicated, balanced or not, all modes and strides: if convolve returns, the result is the part of the convolution that the mode selects, every stride-th element, on every rank.", "quantifier": "all operands over a commutative semiring, their distributions, numbers of ranks, modes, strides", "why_tests_cant": "halos, duplicates of even kernels, stride offsets and broadcast rounds depend on lengths, parities and the distribution", "anchors": ["heat/core/signal.py: convolve", "heat/core/dndarray.py: get_halo", "heat/core/manipulations.py: pad, flip"]}
{"id": "C96", "title": "convolve accepts what its documentation allows and refuses the rest", "statement": "Balanced non-empty operands with a positive stride are accepted if the local share of the padded signal is at least as long as the shorter operand; stride 0, and mode \"same\" with an even kernel or a stride above 1, are refused with ValueError.", "quantifier": "all operands, distributions, numbers of ranks, modes, strides", "why_tests_cant": "an unexpected error depends on the halo and chunk lengths of all ranks", "anchors": ["heat/core/signal.py: convolve, _sanitize_conv_input"]}
{"id": "C97", "title": "percentile and median return the percentile of the whole array", "statement": "For every distributed one-dimensional (or flattened) array, every interpolation and every percentage or list of percentages in [0, 100], the result is the interpolation of the order statistics around position q/100*(n-1); percentages outside are refused.", "quantifier": "all arrays, distributions, numbers of ranks, interpolations, percentages and lists of percentages", "why_tests_cant": "the order statistics come out of a distributed sort and distributed indexing whose paths depend on the data, on n, P and the order of the list", "anchors": ["heat/core/statistics.py: percentile, median", "heat/core/manipulations.py: sort", "heat/core/dndarray.py: __getitem__"]}
{"id": "C98", "title": "percentile over several axes has the documented shape", "statement": "For every shape and tuple of distinct axes the result of percentile has the shape of the array without these axes.", "quantifier": "all shapes and tuples of axes", "why_tests_cant": "the shape is computed from the transposed array and only special tuples are tested", "anchors": ["heat/core/statistics.py: percentile"]}
{"id": "C99", "title": "GaussianNB training in batches", "statement": "After any sequence of accepted partial_fit calls with positive weights, class_count_, theta_ and class_prior_ are the weight, weighted mean and share of all samples of the class seen so far and sigma_ is their weighted variance plus a smoothing term; without smoothing this equals one fit on all samples; fit forgets earlier training; a refused call leaves the model as it was and a batch is refused only for unknown labels.", "quantifier": "all numbers and sizes of batches, features, classes, labels, weights and smoothing factors, in exact arithmetic", "why_tests_cant": "the identity must hold for every way to cut a data set into batches; tests fit one or two fixed batches", "anchors": ["heat/naive_bayes/gaussianNB.py: GaussianNB.fit, partial_fit, __partial_fit, __update_mean_variance, __check_partial_fit_first_call"]}
{"id": "C100", "title": "GaussianNB prediction", "statement": "predict_proba returns for every sample the posterior given by Bayes' rule with independent Gaussian features, its rows sum to one, and predict returns a class of largest posterior; with positive smoothing and one non-constant feature no division by zero occurs.", "quantifier": "all fitted states, samples and numbers of features and classes, in real arithmetic", "why_tests_cant": "numerical tests compare a few samples with scikit-learn; the identity ranges over all real parameters", "anchors": ["heat/naive_bayes/gaussianNB.py: GaussianNB.predict, predict_log_proba, predict_proba, logsumexp, __joint_log_likelihood"]}
{"id": "C101", "title": "equal compares the whole arrays", "statement": "ht.equal(x, y) returns True exactly if both arrays have the same shape and the same elements, and returns the same answer on every rank, however each of them is distributed (not split, evenly or unevenly).", "quantifier": "all numbers of processes, sizes, distributions and element values", "why_tests_cant": "the answer must be independent of every possible distribution of both operands; tests use balanced arrays", "anchors": ["heat/core/relational.py: equal"]}
{"id": "C102", "title": "allclose and isclose compare corresponding elements", "statement": "ht.allclose is True exactly if all corresponding elements are close, and ht.isclose returns the element-wise answers as an array of the same shape, for every distribution of the operands.", "quantifier": "all numbers of processes, sizes, distributions, element values and tolerances", "why_tests_cant": "wrong answers need operands with different local sizes, which no test constructs", "anchors": ["heat/core/logical.py: allclose, isclose, __sanitize_close_input"]}
{"id": "C103", "title": "split cuts a distributed array into consecutive parts", "statement": "Splitting a distributed array along its distributed axis returns consecutive sub-arrays whose concatenation is the input: with an integer s dividing the length, s parts of equal length; with a list of indices, the parts between the (clipped) indices. Every part is again evenly distributed. hsplit, vsplit and dsplit inherit this.", "quantifier": "every number of processes, every row content, every number of sections dividing the length, every sorted list of non-negative indices", "why_tests_cant": "the piece sizes per process depend on the process's offset, the section size and the process count; tests run a handful of process counts", "anchors": ["heat/core/manipulations.py: split", "heat/core/manipulations.py: hsplit", "heat/core/manipulations.py: vsplit", "heat/core/manipulations.py: dsplit"]}
{"id": "C104", "title": "tile repeats a distributed array", "statement": "tile(x, reps) along the distributed axis returns the rows of x repeated reps times one after the other, every element written, evenly distributed over the processes, whatever the distribution of x.", "quantifier": "every number of processes, every distribution of the rows (uneven, with empty processes), every number of repetitions", "why_tests_cant": "each repetition is one Alltoallv whose counts and displacements depend on both distributions; tests use balanced inputs only", "anchors": ["heat/core/manipulations.py: tile"]}
{"id": "C105", "title": "repeat repeats each element of a distributed array", "statement": "repeat(a, repeats, axis) returns every element (row) as often as its repetition number says, in order, evenly distributed; a repeats array whose length is not that of the axis is an error; the shape follows numpy for arrays without elements too.", "quantifier": "every number of processes, every distribution, every list of repetition numbers", "why_tests_cant": "depends on the match between two distributions; tests use balanced arrays", "anchors": ["heat/core/manipulations.py: repeat"]}
{"id": "C106", "title": "unfold returns all windows of a distributed array", "statement": "unfold(a, axis, size, step) along the distributed axis returns, in order, every window of size consecutive rows that begins at a multiple of step, or raises exactly for the documented illegal arguments (step below 1, size below 2 or above the axis length, a process with fewer than size-1 rows). All processes agree on the element type of the result.", "quantifier": "every number of processes, every distribution, all sizes and steps", "why_tests_cant": "which process owns a window and whether it needs the neighbour's rows depends on step, size and all local sizes at once", "anchors": ["heat/core/manipulations.py: unfold", "heat/core/dndarray.py: DNDarray.get_halo"]}
{"id": "C107", "title": "KMeans never makes its objective worse and ends in a consistent state", "statement": "Every update of KMeans sets the centre of a cluster to the mean of its samples, the objective (sum of squared distances to the closest centre) never increases, fit stops after at most max_iter iterations and earlier only if the centres moved by no more than tol, and if the centres did not move the labels are closest centres of the returned centres. inertia_ is the documented objective; a cluster without samples keeps a sensible centre; every sample can be drawn as initial centre.", "quantifier": "every number of processes, samples, features, clusters, every distribution, all initial centres, in exact arithmetic", "why_tests_cant": "an invariant of an iteration of unbounded length over all data sets", "anchors": ["heat/cluster/_kcluster.py: _KCluster._assign_to_cluster, _KCluster._initialize_cluster_centers", "heat/cluster/kmeans.py: KMeans._update_centroids, KMeans.fit"]}
{"id": "C108", "title": "KMedians centres are medians and KMedoids centres are samples", "statement": "A KMedians update sets a centre to the coordinate-wise median of all samples of the cluster; a KMedoids update sets it to a sample closest to that median, so every KMedoids centre is a sample, whatever the distribution of the samples.", "quantifier": "every number of processes, samples, distributions (even, uneven, replicated), in exact arithmetic", "why_tests_cant": "the broadcast row depends on who owns which row; tests use balanced data without zero samples", "anchors": ["heat/cluster/kmedians.py: KMedians._update_centroids", "heat/cluster/kmedoids.py: KMedoids._update_centroids"]}
{"id": "C109", "title": "Lasso coordinate descent never makes its objective worse and its fixed points are optimal", "statement": "Lasso(lam, max_iter, tol).fit(x, y) runs at most max_iter sweeps and stops earlier only if the last sweep changed the coefficients by less than tol; the objective norm2(y - X theta)^2/(2m) + lam norm1(theta without the intercept) of the result is not larger than that of zero coefficients, each coordinate update minimises the objective along its coordinate, and coefficients that a sweep does not change minimise the objective over all coefficients, for every distribution of the samples.", "quantifier": "all sample sets, distributions, process counts, penalties, iteration limits and tolerances", "why_tests_cant": "the objective is minimised over an infinite set, and the claim ranges over all data sets and distributions", "anchors": ["heat/regression/lasso.py: Lasso.fit", "heat/regression/lasso.py: Lasso.soft_threshold"]}
{"id": "C110", "title": "StandardScaler standardises and can be undone", "statement": "After StandardScaler().fit(X), transform(X) has mean 0 in every feature and variance 1 in every feature whose variance is not below the tolerance (those are only centred); with_mean=False and with_std=False switch centring and scaling off; sample_weight raises; inverse_transform and transform undo each other in both orders, copy=False changes the argument to the same values that copy=True returns, and data with another number of features are refused.", "quantifier": "all data sets, distributions and process counts, in exact arithmetic", "why_tests_cant": "statistics of arbitrary data over arbitrary distributions", "anchors": ["heat/preprocessing/preprocessing.py: StandardScaler", "heat/core/base.py: TransformMixin.fit_transform"]}
{"id": "C111", "title": "MinMaxScaler maps the training data onto the requested range", "statement": "After MinMaxScaler((a, b)).fit(X), with a < b (otherwise the constructor raises ValueError), transform(X) has minimum a and maximum b in every feature whose range is not below the tolerance (others are only shifted to start at a), transform keeps the order of values, equals x * scale_ + min_, and is undone by inverse_transform.", "quantifier": "all data sets, distributions, process counts, ranges, and orders in which MPI combines the partial minima and maxima, in exact arithmetic", "why_tests_cant": "arbitrary data, distributions and reduction orders", "anchors": ["heat/preprocessing/preprocessing.py: MinMaxScaler"]}
{"id": "C112", "title": "MaxAbsScaler makes 1 the largest absolute value", "statement": "After MaxAbsScaler().fit(X), the largest absolute value of each feature of transform(X) is exactly 1 unless it was below the tolerance (then the feature is unchanged), zero stays zero, and inverse_transform undoes transform.", "quantifier": "all data sets, distributions, process counts and reduction orders, in exact arithmetic", "why_tests_cant": "arbitrary data, distributions and reduction orders", "anchors": ["heat/preprocessing/preprocessing.py: MaxAbsScaler", "heat/core/linalg/basics.py: vector_norm"]}
{"id": "C113", "title": "Normalizer gives every data point norm 1 or leaves it alone", "statement": "Normalizer(norm).transform(X) divides every data point by its l1, l2 or maximum norm, so that its norm is 1 and its direction is kept, unless the norm is below the tolerance, in which case the data point is returned unchanged - also when other data points of the same call are scaled.", "quantifier": "all data sets, distributions, process counts and norms, in exact arithmetic", "why_tests_cant": "arbitrary data and distributions", "anchors": ["heat/preprocessing/preprocessing.py: Normalizer", "heat/core/linalg/basics.py: vector_norm"]}
{"id": "C114", "title": "RobustScaler centres at the median and scales to interquantile range 1", "statement": "After RobustScaler(with_centering, with_scaling, quantile_range).fit(X) (not sketched), the median of every feature of transform(X) is 0 if centring is on, and the distance of its two quantiles is 1 if scaling is on and it was not below the tolerance; what is switched off is not done; inverse_transform undoes transform; invalid options raise.", "quantifier": "all data sets, distributions, process counts and quantile ranges, in exact arithmetic", "why_tests_cant": "order statistics of arbitrary data under affine maps", "anchors": ["heat/preprocessing/preprocessing.py: RobustScaler", "heat/core/statistics.py: percentile, median"]}
{"id": "C115", "title": "Plateau detector", "statement": "DetectMetricPlateau.test_if_improving keeps the best metric seen, counts the calls in a row that are not better by the threshold (not counting during cooldown), answers exactly when that count exceeds the patience, restarts the count and the cooldown then, and a detector restored from get_state answers like the original.", "quantifier": "all modes, threshold modes, thresholds, patience, cooldown and every sequence of metrics", "why_tests_cant": "the answer depends on the whole sequence of metrics; tests feed a few losses", "anchors": ["heat/optim/utils.py:DetectMetricPlateau"]}
{"id": "C116", "title": "DASO schedule", "statement": "A training with DASO (at least two GPUs per node, epochs of last_batch + 1 batches) never raises, leaves no communication open at the end of an epoch, counts the epochs, and after each epoch (after each batch in warm-up and cool-down) all processes hold the same parameters, the mean over the nodes of one GPU's parameters; asynchronous updates are weighted means, so parameters stay in every interval the local optimizers stay in; skips and waits stay within their limits.", "quantifier": "every number of nodes and GPUs, all options, every sequence of losses, every local optimizer, every number of batches and epochs, reset at any time", "why_tests_cant": "the schedule interleaves sends, receives and local updates over whole trainings; the test suite needs several GPUs and runs one configuration", "anchors": ["heat/optim/dp_optimizer.py:DASO.step", "heat/optim/dp_optimizer.py:DASO._global_sync", "heat/optim/dp_optimizer.py:DASO.epoch_loss_logic", "heat/optim/dp_optimizer.py:DASO.reset"]}
{"id": "C117", "title": "DASO parameter exchange", "statement": "Packing the parameters into one buffer, sending it in chunks of at most sending_chunk_size and unpacking it delivers to every trained parameter exactly the values of that parameter.", "quantifier": "all networks (any number and sizes of parameters, trained or frozen) and all chunk sizes", "why_tests_cant": "offsets and chunk boundaries depend on all parameter sizes; tests use one network below the chunk size", "anchors": ["heat/optim/dp_optimizer.py:DASO._gs_create_param_dict", "heat/optim/dp_optimizer.py:DASO._gs_send_params", "heat/optim/dp_optimizer.py:DASO._gs_rcv_update_params", "heat/optim/dp_optimizer.py:DASO._gs_rcv_update_params_last_batch"]}
{"id": "C118", "title": "DataParallel: non-blocking equals blocking", "statement": "With blocking updates every process applies the mean of the gradients of all processes and all processes keep equal parameters; a training with non-blocking updates reads in every forward, and has after eval(), exactly the parameters of the blocking training.", "quantifier": "all networks, optimizers, gradients, numbers of processes, batches and epochs and every training loop", "why_tests_cant": "the updates are delayed into the next forward, so the result depends on the order of all calls; tests compare one loop on one network", "anchors": ["heat/nn/data_parallel.py:DataParallel.forward", "heat/nn/data_parallel.py:DataParallel._iparam_update", "heat/nn/data_parallel.py:DataParallel._blocking_hook", "heat/nn/data_parallel.py:DataParallel._nonblocking_hook", "heat/optim/dp_optimizer.py:DataParallelOptimizer"]}
{"id": "C119", "title": "Shuffling a data set between epochs loses and duplicates no sample", "statement": "After any number of epochs of a DataLoader over a Dataset (blocking shuffles, or non-blocking shuffles), the rows of the DNDarray on all processes together are the rows at the beginning, each exactly once; every process keeps its number of rows, the local data attribute is the first n//P local rows, no process raises, and attributes shuffled together (samples and targets) stay paired.", "quantifier": "all numbers of processes, rows, epochs and random permutations", "why_tests_cant": "A test sees a few permutations and epochs; a row lost in the ring exchange or in a permutation of the wrong length shows only for some sizes.", "anchors": ["heat/utils/data/datatools.py:DataLoader._full_dataset_shuffle_iter, Dataset, dataset_shuffle, dataset_ishuffle, dataset_irecv"]}
{"id": "C120", "title": "A DistributedSampler's global shuffle is a permutation of the rows and pairs samples with labels", "statement": "A global shuffle of a balanced array reads and writes only the rows a process has, every message has the announced size, the new array is a rearrangement of the old rows, balanced, determined by the permutation alone (so samples and labels shuffled with one seed stay paired); with correction=True it is A[indices]. A local shuffle permutes the rows of each process.", "quantifier": "all numbers of processes, all row counts, all permutations, all row contents", "why_tests_cant": "The derived datatypes depend on every pair of ranks and on the permutation; tests run few.", "anchors": ["heat/utils/data/datatools.py:DistributedSampler._alltoall_shuffle, DistributedSampler._shuffle, DistributedSampler._in_slice"]}
{"id": "C121", "title": "create_train_val_split partitions the samples", "statement": "For every training share p, the training and the validation arrays together hold each sample exactly once, labels stay with their samples, and both arrays are balanced as declared.", "quantifier": "all shares p, all sizes, numbers of processes and permutations", "why_tests_cant": "Boundary shares and processes with few rows behave differently; tests use one share.", "anchors": ["heat/utils/data/datatools.py:create_train_val_split"]}
{"id": "C122", "title": "QR of a tall row-split matrix (TS-QR)", "statement": "qr(A) of a matrix split along the rows whose largest local part has at least as many rows as columns returns Q distributed like A with orthonormal columns, an upper triangular R that is the same on all processes, and Q R = A, whatever the number of processes, the number of processes merged per round and the valid decomposition used on each process; procs_to_merge below 0 or equal to 1 is refused.", "quantifier": "all numbers of processes, all procs_to_merge, all local row counts, all entries and all local decompositions", "why_tests_cant": "The merge tree depends on the number of processes and the group size; tests run few of either and compare floating point numbers.", "anchors": ["heat/core/linalg/qr.py:qr"]}
{"id": "C123", "title": "QR of a column-split matrix", "statement": "qr(A) of a matrix split along the columns returns Q with orthonormal columns and an upper triangular R with Q R = A, for every number of processes and distribution of the columns.", "quantifier": "all shapes, all numbers of processes, all column counts per process, all entries and local decompositions", "why_tests_cant": "Rank-deficient blocks and processes without columns occur only for particular data and distributions.", "anchors": ["heat/core/linalg/qr.py:qr"]}
{"id": "C124", "title": "QR of a row-split matrix that is not tall enough for TS-QR", "statement": "qr(A) of a matrix split along the rows in which no process has as many rows as there are columns returns Q distributed like A with orthonormal columns and an upper triangular R with Q R = A, also with more columns than rows.", "quantifier": "all shapes, numbers of processes, row counts per process, entries, local decompositions and numbers of processes merged", "why_tests_cant": "The column blocks follow the row counts of the processes; rank deficiency and processes without rows are not covered by random tests.", "anchors": ["heat/core/linalg/qr.py:qr"]}
{"id": "C125", "title": "Triangular systems", "statement": "solve_triangular(A, b) with an invertible upper triangular A returns x with A x = b, whatever the distributions of A and b; a non-square A, mismatched batch shapes, b split along its columns or different batch splits are refused before any communication.", "quantifier": "all sizes, numbers of processes, row and column counts per process, entries and right-hand sides, and all local solvers of triangular systems", "why_tests_cant": "The loop passes residuals between processes from the last block to the first; the blocks depend on the process count and on the distribution.", "anchors": ["heat/core/linalg/solver.py:solve_triangular"]}
{"id": "C126", "title": "Conjugate gradients", "statement": "cg(A, b, x0) for a symmetric positive definite A returns x with the norm of b - A x below 1e-10 for every starting vector x0, in exact arithmetic.", "quantifier": "all sizes, symmetric positive definite matrices, right-hand sides and starting vectors", "why_tests_cant": "Termination within len(b) passes is a statement about an orthogonal sequence of residuals of any length; tests cover a few random systems.", "anchors": ["heat/core/linalg/solver.py:cg"]}
{"id": "C127", "title": "Lanczos vectors and tridiagonal matrix", "statement": "lanczos(A, m, v0) for a symmetric real A and a unit vector v0 returns V with orthonormal columns and a symmetric tridiagonal T with V^T A V = T, in exact arithmetic, also when the Krylov space is exhausted and random vectors are used.", "quantifier": "all sizes, numbers of iterations, symmetric matrices, start vectors, random vectors, and numbers of processes", "why_tests_cant": "The invariants are statements about all iterations and all breakdowns.", "anchors": ["heat/core/linalg/solver.py:lanczos"]}
{"id": "C128", "title": "Dense linear systems", "statement": "solve(A, b) returns x with A x = b for batches of invertible matrices, for vectors and matrices b, whatever the distribution along the batch axes; if a matrix is singular every process raises; combinations it cannot handle are refused.", "quantifier": "all batch shapes, sizes, numbers of columns, numbers of processes, splits and entries", "why_tests_cant": "Whether local parts belong together depends on shapes, splits and process counts; the shape tests inside the library are applied to local parts.", "anchors": ["heat/core/linalg/solver.py:solve"]}
{"id": "C129", "title": "One-dimensional Fourier transforms", "statement": "fft, ifft, hfft, irfft along any axis, with any length n, of an array distributed in any way return the transform of the global array along that axis, with the distribution of the input; ifft(fft(x)) is x; where the code cannot do so it raises.", "quantifier": "all shapes with positive extents, axes, lengths, numbers of processes, splits, entries, real or complex", "why_tests_cant": "The transposition and redistribution around a transform along the split axis depends on shapes, splits and process counts; tests cover a few shapes.", "anchors": ["heat/fft/fft.py:__fft_op"]}
{"id": "C130", "title": "Transforms and shifts along several axes", "statement": "fftn, fft2, ifftn, ifft2 (and rfftn, rfft2, fftshift, ifftshift on the stated part of their domain) return the global array transformed along all listed axes for every distribution; ifftn(fftn(x)) is x; repeated or missing axes are refused.", "quantifier": "all shapes, lists of axes and lengths, numbers of processes, splits and entries", "why_tests_cant": "The split axis is transformed first, out of order; that the order is immaterial holds for linear transforms only and for all axes lists.", "anchors": ["heat/fft/fft.py:__fftn_op", "heat/fft/fft.py:fftshift", "heat/fft/fft.py:rfftn"]}
{"id": "C131", "title": "Sample frequencies", "statement": "fftfreq(n, d, split=0) holds the frequencies of numpy in order, over any number of processes; rfftfreq(n, d, split=0) as well for odd n; other splits than None and 0 are refused.", "quantifier": "all n and numbers of processes", "why_tests_cant": "A boundary inside the local part of some rank.", "anchors": ["heat/fft/fft.py:__fftfreq_op", "heat/fft/fft.py:fftfreq", "heat/fft/fft.py:rfftfreq"]}
{"id": "C132", "title": "Hierarchical SVD: error estimate, termination, messages", "statement": "Whenever hsvd_rank/hsvd_rtol return, U has orthonormal columns (or is a single zero column), at most maxtruncrank of them, and the Frobenius norm of A - U U^T A (and of A - U diag(sigma) V^T with compute_sv) is at most the returned error estimate times the norm of A; hsvd_rank always returns after finitely many levels, no division by zero occurs in V, and the sends and receives of every level cannot get stuck under any interleaving.", "quantifier": "all matrices, numbers of processes, distributions of columns, ranks, tolerances, safety shifts, merge parameters; all interleavings of the processes", "why_tests_cant": "The merge tree depends on the local ranks at run time; the bound has to hold through every tree.", "anchors": ["heat/core/linalg/svdtools.py:_hsvd", "heat/core/linalg/svdtools.py:_compute_local_truncated_svd", "heat/core/linalg/svdtools.py:hsvd_rank"]}
{"id": "C133", "title": "hsvd_rtol keeps the relative tolerance", "statement": "hsvd_rtol(A, rtol) returns U with norm(A - U U^T A) <= rtol * norm(A), for every number of processes.", "quantifier": "all real matrices, numbers of processes and distributions of columns, tolerances between 0 and 1", "why_tests_cant": "The number of truncations depends on the merge tree; the local tolerance must be small enough for all trees.", "anchors": ["heat/core/linalg/svdtools.py:hsvd_rtol", "heat/core/linalg/svdtools.py:_hsvd"]}
{"id": "C134", "title": "Full SVD", "statement": "svd(A) of a distributed matrix whose largest local block is at least as long as the other dimension returns U and Vt with orthonormal columns resp. rows and nonnegative nonincreasing S with U diag(S) Vt = A, whatever the number of processes, the distribution and the merge parameter; a wide matrix is handled by the transposed call, which never transposes again; the general branch (polar and symmetric eigendecomposition) returns a decomposition for every other shape as well.", "quantifier": "all matrices, process counts, distributions, qr_procs_to_merge", "why_tests_cant": "The reduction tree of the QR step depends on the number of processes, the merge parameter and the distribution.", "anchors": ["heat/core/linalg/svd.py:svd", "heat/core/linalg/qr.py:__split0_qr"]}
{"id": "C135", "title": "Incremental SVD", "statement": "isvd(new_data, U, S, V) with orthonormal factors returns the leading part of a singular value decomposition of the old matrix with the new columns appended: without maxrank the factors reproduce every old and every new column exactly, V has orthonormal columns, S is nonnegative and nonincreasing, U has orthonormal columns; with maxrank the squared error is the sum of the squares of the dropped values.", "quantifier": "all old factors, ranks, numbers of rows, numbers of new columns, values of maxrank", "why_tests_cant": "The claim is about products of matrices of every size, and about the freedom the QR decomposition of a rank-deficient residual has.", "anchors": ["heat/core/linalg/svdtools.py:isvd", "heat/core/linalg/svdtools.py:_isvd"]}
{"id": "C136", "title": "Incremental PCA after every sequence of batches", "statement": "After any sequence of partial_fit calls, n_samples_seen_ and mean_ are those of all samples, and components_ and singular_values_ decompose the scatter matrix of all samples: exactly without n_components, up to a positive semidefinite rest otherwise; components_ is orthonormal; the batches are not changed.", "quantifier": "all sequences of nonempty batches, numbers of features and samples, values of n_components", "why_tests_cant": "The state carries over from batch to batch; a test sees a few histories.", "anchors": ["heat/decomposition/pca.py:IncrementalPCA.partial_fit", "heat/core/linalg/svdtools.py:_isvd"]}
{"id": "C137", "title": "PCA: explained variance and reconstruction", "statement": "After PCA(n_components, svd_solver=\"full\").fit(X), inverse_transform(transform(x)) returns for every x, the squared reconstruction error over X is (1 - total_explained_variance_ratio_) times the variance of X, components_ is orthonormal, nothing is lost without n_components, and a fraction t keeps the smallest number of components that explain more than t.", "quantifier": "all data, numbers of samples and features, all accepted n_components", "why_tests_cant": "The claim ties three attributes and two methods together for every data set and threshold.", "anchors": ["heat/decomposition/pca.py:PCA.fit", "heat/decomposition/pca.py:PCA.transform", "heat/decomposition/pca.py:PCA.inverse_transform"]}
{"id": "C138", "title": "Partial H5 data loader: every batch, in order, under every interleaving", "statement": "Iterating over a DataLoader on a PartialH5Dataset yields exactly len(iterator) batches of batch_size items each, the items of the drawn index list in order without gap or repetition, each consisting of one row of the file per dataset name, whatever the interleaving of the loading thread, the converting thread and the consumer; the iteration always ends.", "quantifier": "all sizes, batch sizes, numbers of datasets, index lists, epochs, and all interleavings of the three threads", "why_tests_cant": "The number of interleavings is unbounded and thread schedules cannot be enumerated by tests.", "anchors": ["heat/utils/data/partial_dataset.py:PartialH5Dataset.thread_replace_converted_batches", "heat/utils/data/partial_dataset.py:PartialH5DataLoaderIter"]}
{"id": "C139", "title": "Partial H5 data loader: new data keeps being loaded", "statement": "While an epoch runs and loads remain, used items are replaced by rows that have not been loaded yet, so that an epoch covers the rows of the process.", "quantifier": "all sizes and all interleavings", "why_tests_cant": "A lost wake-up appears only in particular schedules.", "anchors": ["heat/utils/data/partial_dataset.py:PartialH5Dataset.thread_replace_converted_batches", "heat/utils/data/partial_dataset.py:PartialH5DataLoaderIter"]}
{"id": "C140", "title": "Partial H5 data loader: items belong together and to the process", "statement": "The values of an item in the different datasets (sample and label) come from the same row of the file, and the row is one of those assigned to the process.", "quantifier": "all sizes, numbers of datasets, processes and interleavings", "why_tests_cant": "A torn read appears only if the converting thread reads between two assignments of the loading thread.", "anchors": ["heat/utils/data/partial_dataset.py:PartialH5Dataset", "heat/utils/data/partial_dataset.py:PartialH5DataLoaderIter"]}
{"id": "C141", "title": "print of a distributed array shows the array", "statement": "str(x) of a large distributed array shows the first and last edgeitems slabs along every axis with an ellipsis in between, exactly as printing the whole array on one process would.", "quantifier": "all shapes, split axes, contents, process counts and edgeitems", "why_tests_cant": "The slabs come from different processes, and whether the right ones are sent depends on how the chunk boundaries fall for each extent and process count.", "anchors": ["heat/core/printing.py:_torch_data", "heat/core/printing.py:_tensor_str"]}
{"id": "C142", "title": "Batch-parallel clustering", "statement": "BatchParallelKMeans/KMedians.fit merges the local centres of every process exactly once through groups of at most n_procs_to_merge, always ends, and returns n_clusters centres within the coordinate range of the samples; each clustering is at least as good as the samples it started from; functional_value_ is the objective over all samples.", "quantifier": "all samples, distributions, process counts, n_procs_to_merge, random draws, max_iter and tol", "why_tests_cant": "The merging tree and the draws are unbounded, and monotonicity is a statement about all data sets.", "anchors": ["heat/cluster/batchparallelclustering.py:_BatchParallelKCluster.fit", "heat/cluster/batchparallelclustering.py:_kmex", "heat/cluster/batchparallelclustering.py:_BatchParallelKCluster.predict"]}
{"id": "C143", "title": "Assigning an array through a slice", "statement": "a[start:stop:step] = v with an array v of as many slabs as the slice selects writes v[k] to the k-th selected slab and leaves the others alone, however v is held (replicated tensor or array distributed along the same axis).", "quantifier": "all contents, extents, process counts, slice bounds, steps and distributions of v", "why_tests_cant": "Which part of v belongs to which process depends on how the slice falls on the chunk boundaries.", "anchors": ["heat/core/dndarray.py:DNDarray.__setitem__", "heat/core/dndarray.py:DNDarray.__xitem_get_key_start_stop", "heat/core/dndarray.py:DNDarray.redistribute_"]}
{"id": "C144", "title": "Assigning through index tensors and masks", "statement": "a[k] = c with an index tensor or a mask overwrites exactly the selected slabs; a[k] = v gives slab k[j] the value v[j]; an index outside the array raises.", "quantifier": "all contents, extents, process counts and keys", "why_tests_cant": "Every process filters the key with its own offsets, so correctness depends on how the indices fall on the processes.", "anchors": ["heat/core/dndarray.py:DNDarray.__setitem__"]}
{"id": "C145", "title": "kNN predicts the majority class", "statement": "KNeighborsClassifier.predict returns for each sample a class with the most votes among its k nearest training labels; one-hot encoding puts label l at position l.", "quantifier": "all label arrays, neighbour indices, k and distributions", "why_tests_cant": "The labels are gathered by a distributed index operation whose order depends on who owns which label.", "anchors": ["heat/classification/kneighborsclassifier.py:KNeighborsClassifier.predict", "heat/classification/kneighborsclassifier.py:KNeighborsClassifier.one_hot_encoding"]}
{"id": "C146", "title": "Peak to peak is maximum minus minimum", "statement": "ht.ptp(x, axis) is, entry for entry, the maximum minus the minimum along the axis, with a result distributed as its metadata say.", "quantifier": "all contents, shapes, axes, keepdims and distributions including empty processes", "why_tests_cant": "The reduction is a custom MPI operation on pairs, combined in any order over any distribution.", "anchors": ["heat/core/statistics.py:ptp", "heat/core/statistics.py:mpi_minmax"]}
{"id": "C147", "title": "Graph Laplacian", "statement": "Laplacian.construct returns D - A (simple) or the normalized Laplacian of the similarity graph without self-loops: symmetric, row sums zero, positive semidefinite.", "quantifier": "all similarity matrices, thresholds and sizes", "why_tests_cant": "Symmetry and semidefiniteness hold for all real matrices, not on samples.", "anchors": ["heat/graph/laplacian.py:Laplacian.construct", "heat/graph/laplacian.py:Laplacian._normalized_symmetric_L", "heat/graph/laplacian.py:Laplacian._simple_L"]}
{"id": "C148", "title": "Silhouette coefficients", "statement": "silhouette_samples returns (b - a) / max(a, b) with a the mean distance to the other members of the own cluster and b the smallest mean distance to another cluster, 0 for singletons, always in [-1, 1].", "quantifier": "all labelings and distance matrices", "why_tests_cant": "A formula over all partitions and all distances.", "anchors": ["heat/cluster/metrics.py:silhouette_samples", "heat/cluster/metrics.py:silhouette_score"]}
{"id": "C149", "title": "Writing into out, in place and under a condition", "statement": "f(a, b, out=o) writes f(a, b) into o without changing its distribution, a += b equals a = a + b, and where=w changes exactly the entries where w is true.", "quantifier": "all operands, distributions, broadcasts and conditions", "why_tests_cant": "Operands have to be brought to the distribution of out, whatever they are distributed like.", "anchors": ["heat/core/_operations.py:__binary_op", "heat/core/sanitation.py:sanitize_out", "heat/core/sanitation.py:sanitize_distribution", "heat/core/arithmetics.py:add_"]}
{"id": "C150", "title": "Covariance matrix", "statement": "ht.cov(m) is the sample covariance matrix: entry (i, j) is the sum of products of deviations divided by n - ddof; it is symmetric and positive semidefinite.", "quantifier": "all data, both orientations, all ddof, second argument", "why_tests_cant": "Semidefiniteness and the formula quantify over all real data and shapes.", "anchors": ["heat/core/statistics.py:cov"]}
{"id": "C151", "title": "Initial cluster centres are samples", "statement": "KMeans, KMedians and KMedoids with init \"random\" start from n_clusters drawn samples; k-means++ selects each sample with a draw below its probability exactly once and weights sum to the number of samples.", "quantifier": "all sample sets, distributions, process counts and random draws", "why_tests_cant": "Depends on random draws and on how the chosen rows fall on the processes.", "anchors": ["heat/cluster/_kcluster.py:_KCluster._initialize_cluster_centers", "heat/cluster/_kcluster.py:_KCluster._centroid_sampling_helper"]}
{"id": "C152", "title": "Collectives along an axis", "statement": "Allgather(v), Gather(v), Scatter(v) and Alltoall(v) with axis arguments deliver exactly the requested slabs along the requested axes, each process's part at its displacement, and change nothing else in the receive buffer; send and receive axis exchanged by Alltoall are those of the split axes.", "quantifier": "all tensor shapes, axes, process counts, counts and displacements", "why_tests_cant": "Tests use buffers of constants and few shapes, so misplaced elements are not seen.", "anchors": ["heat/core/communication.py:MPICommunication.__allgather_like", "heat/core/communication.py:MPICommunication.__gather_like", "heat/core/communication.py:MPICommunication.__scatter_like", "heat/core/communication.py:MPICommunication.__alltoall_like"]}
{"id": "C153", "title": "Many files make one array", "statement": "load_npy_from_path, load_csv_from_folder and load_zarr with a wildcard give the concatenation of all files, each file exactly once, on any number of processes.", "quantifier": "all numbers and sizes of files, process counts, directory listings and communicators", "why_tests_cant": "Tests have one directory order, one communicator, and few files.", "anchors": ["heat/core/io.py:load_npy_from_path", "heat/core/io.py:load_csv_from_folder", "heat/core/io.py:load_zarr"]}
{"id": "C154", "title": "save_zarr is safe under concurrency", "statement": "Saving a balanced array to zarr leaves exactly its elements in the file whatever the interleaving of the processes' chunk reads and writes, and no chunk exceeds 2 GiB unless it is a single slab.", "quantifier": "all array lengths, process counts, element sizes, previous contents and schedules", "why_tests_cant": "A lost update needs a specific interleaving of read-modify-write operations.", "anchors": ["heat/core/io.py:save_zarr"]}
{"id": "C155", "title": "Distributed eigendecomposition", "statement": "eigh of a symmetric matrix returns orthogonal V and eigenvalues L with V diag(L) V^T equal to A up to the blocks neglected by the subspace iterations; on every process count the result describes the whole spectrum, and the recursion over processes covers every column exactly once.", "quantifier": "all symmetric matrices, process counts, sizes, starting columns and shares, and all behaviours of the local eigensolver, polar and QR factor that meet their contract", "why_tests_cant": "The recursion, its error accumulation and its degenerate shifts depend on matrix and process count; tests use random matrices on at most 8 processes.", "anchors": ["heat/core/linalg/eigh.py:eigh", "heat/core/linalg/eigh.py:_eigh", "heat/core/linalg/eigh.py:_subspaceiteration"]}
{"id": "C156", "title": "Polar decomposition", "statement": "polar(A) returns U and H with U H = A at convergence, H symmetric; each Zolotarev step keeps the singular vectors and maps each singular value by the same rational function; a single process and replicated input give the same formula; the input is not changed.", "quantifier": "all matrices, orders r, coefficients, numbers of iterations", "why_tests_cant": "The claim is about all matrices and iterates; tests check a tolerance on random ones.", "anchors": ["heat/core/linalg/polar.py:polar", "heat/core/linalg/polar.py:_zolopd_n_iterations", "heat/core/linalg/polar.py:_compute_zolotarev_coefficients", "heat/core/linalg/polar.py:_in_place_qr_with_q_only"]}
{"id": "C157", "title": "Norms", "statement": "norm, vector_norm and matrix_norm return the norm named by ord: the p-norms, the maximum norm, the number of non-zero elements, the largest or smallest row or column sum, the Frobenius norm, along any axes, with and without keepdims, for every distribution; what is not offered is refused.", "quantifier": "all arrays, axes (also counted from the end), orders, process counts and distributions", "why_tests_cant": "Tests use few axes pairs and small distributions; the axis arithmetic must be right for every pair.", "anchors": ["heat/core/linalg/basics.py:norm", "heat/core/linalg/basics.py:vector_norm", "heat/core/linalg/basics.py:matrix_norm"]}
{"id": "C158", "title": "Weighted averages", "statement": "average(x, axis, weights) returns the weighted mean along the axis, refuses weights that do not fit or sum to zero anywhere, and the returned sum of weights equals the sum of the weights (or the number of elements averaged), for every distribution.", "quantifier": "all arrays, weights, axes, process counts and distributions", "why_tests_cant": "Tests use one process count and few shapes.", "anchors": ["heat/core/statistics.py:average", "heat/core/dndarray.py:larray"]}
{"id": "C159", "title": "Skewness and kurtosis", "statement": "skew and kurtosis return the standardised third and fourth moment (the k-statistics if unbiased, the excess for Fisher's definition) of the numbers, for every distribution; they do not change under scaling and shifting (skewness keeps the sign of the scale).", "quantifier": "all lists of numbers, distributions, process counts and combination orders", "why_tests_cant": "Tests compare with one random array.", "anchors": ["heat/core/statistics.py:skew", "heat/core/statistics.py:kurtosis", "heat/core/statistics.py:__torch_skew", "heat/core/statistics.py:__torch_kurtosis"]}
{"id": "C160", "title": "convolve2d returns the two-dimensional convolution", "statement": "convolve2d(a, v, mode, stride) returns the entries of the two-dimensional convolution that mode and stride select, for replicated and distributed signals and kernels along either axis; kernels that are larger in only one direction, strides of 0 and even kernels or strides with mode \"same\" are refused, everything else that fits is accepted.", "quantifier": "all matrices over a commutative semiring, modes, strides, process counts and distributions", "why_tests_cant": "Tests use a few sizes; halos, shifts and rounds must fit for every size, parity, stride and process count.", "anchors": ["heat/core/signal.py:convolve2d", "heat/core/signal.py:_sanitize_conv_input"]}
{"id": "C161", "title": "flip and rot90 of arrays of any dimension", "statement": "flip(x, axes) reverses exactly the given axes and rot90(m, k, axes) is k quarter turns from the first towards the second axis, for every array, split axis, distribution, process count and integer k; four turns are the identity, turning back undoes a turn; invalid axes are refused by every process.", "quantifier": "all n-dimensional arrays, axes, integers k, process counts, splits and distributions", "why_tests_cant": "Tests use small 2-D and 3-D arrays; the combination of flips, transposition and redistribution must be right for every dimension, split and k.", "anchors": ["heat/core/manipulations.py:flip", "heat/core/manipulations.py:rot90"]}
{"id": "C162", "title": "Stacking one-dimensional arrays", "statement": "vstack, row_stack, column_stack and hstack of vectors return the matrix (or, for hstack, the vector) that numpy returns, whatever the distribution of the operands; vectors of different lengths are refused by all processes alike.", "quantifier": "all lists of vectors, lengths, process counts and distributions", "why_tests_cant": "Tests stack two or three balanced vectors; the alignment with the first operand must hold for every distribution and number of operands.", "anchors": ["heat/core/manipulations.py:hstack", "heat/core/manipulations.py:vstack", "heat/core/manipulations.py:row_stack", "heat/core/manipulations.py:column_stack", "heat/core/manipulations.py:stack", "heat/core/manipulations.py:hsplit"]}
{"id": "C163", "title": "Element-wise operations on arrays of any dimension", "statement": "For every element-wise binary operation and any two arrays of any dimensions, distributions and balance whose shapes can be broadcast, the result is numpy's (axes aligned on the right, extents of 1 repeated) whenever the split axes are supported, with or without an out buffer; unsupported splits, incompatible shapes and unsuitable buffers are refused by every process alike.", "quantifier": "all operations, n-dimensional arrays, process counts, split axes, distributions, buffers", "why_tests_cant": "Tests use a handful of shapes; the interplay of leading axes, repeated split axes and unbalanced operands must be right for all of them.", "anchors": ["heat/core/_operations.py:__binary_op", "heat/core/sanitation.py:sanitize_distribution", "heat/core/sanitation.py:sanitize_out"]}
{"id": "C164", "title": "broadcast_to and broadcast_arrays", "statement": "broadcast_to returns the array broadcast to the given shape, evenly distributed along the same axis counted from the right, for every array and shape to which it can be broadcast; broadcast_arrays returns all its operands broadcast to their common shape, distributed as the first one.", "quantifier": "all arrays, shapes, lists of operands, process counts, splits and distributions", "why_tests_cant": "Tests use one or two shapes and evenly distributed arrays; alignment must be right for every number of axes and operands.", "anchors": ["heat/core/manipulations.py:broadcast_to", "heat/core/manipulations.py:broadcast_arrays"]}
{"id": "C165", "title": "Coordinate matrices (meshgrid)", "statement": "For any number of vectors of which at most one is distributed, meshgrid returns numpy's coordinate matrices in both indexings, split along the axis along which the distributed vector varies; more than one distributed vector and unknown indexings are refused on every process.", "quantifier": "all numbers of vectors, lengths, process counts, distributions, indexings", "why_tests_cant": "Tests use two or three vectors with one indexing; the exchange of the first two axes and the split must be right for every number of vectors and every distribution.", "anchors": ["heat/core/factories.py:meshgrid"]}
{"id": "C166", "title": "Cross products", "statement": "cross returns numpy.cross of the vectors along the given axis for arrays of any dimension and distribution: three entries for three-dimensional vectors (a missing third entry is 0), the third entry alone if all vectors are two-dimensional; vectors along the split axis and different splits are refused on every process.", "quantifier": "all arrays, axes, process counts, splits and distributions, two- and three-dimensional vectors", "why_tests_cant": "Tests use small evenly distributed arrays; the result must be right for every number of axes, position of the vectors and distribution.", "anchors": ["heat/core/linalg/basics.py:cross"]}
{"id": "C167", "title": "flatten", "statement": "flatten returns the elements of the array in row-major order as a vector, evenly distributed if the array is distributed along any axis, replicated otherwise.", "quantifier": "all n-dimensional arrays, process counts, split axes and distributions", "why_tests_cant": "Tests use a few shapes on one or two splits; row-major order must survive the change of distribution for all of them.", "anchors": ["heat/core/manipulations.py:flatten"]}
{"id": "C168", "title": "netCDF files", "statement": "save_netcdf writes an array to exactly the region of the variable that file_slices selects (any starts and strides, forwards or backwards) and changes nothing else, whatever the number of processes, the split axis and the order in which the processes write; load_netcdf returns the variable distributed as asked for, so saving and loading is the identity.", "quantifier": "all arrays, regions, strides, process counts, splits, orders of the writes", "why_tests_cant": "Tests write a few small arrays through a few slices; the translation of a slice of a slice into one slice must be right for all bounds and chunks.", "anchors": ["heat/core/io.py:load_netcdf", "heat/core/io.py:save_netcdf", "heat/core/io.py:__merge_slices", "heat/core/io.py:__get_expanded_split"]}
{"id": "C169", "title": "Element-wise functions of one array", "statement": "exp, sqrt, sin, abs and all other element-wise functions of one array apply the function to every element, whatever the distribution, and the result is distributed like the operand; with out, the buffer receives the result broadcast to its shape and keeps shape and split.", "quantifier": "all arrays of any dimension and distribution, functions, buffers that fit, process counts", "why_tests_cant": "Tests compare a few small arrays with torch; that every element of every part is the function of the right element must hold for all shapes and distributions.", "anchors": ["heat/core/_operations.py:__local_op"]}
{"id": "C170", "title": "vmap", "statement": "The function returned by vmap maps over the split axes: slice b of every result along its out_dims axis is the function of the slices b of the distributed arguments (replicated arguments are handed on), whatever the number of arguments, their dimensions, split axes and the number of processes; the results are distributed along out_dims like the arguments.", "quantifier": "all functions of tensors, arguments, splits, out_dims, process counts", "why_tests_cant": "Tests vmap a few functions over a few evenly distributed arrays; that local slices correspond to global slices must hold for every distribution and number of arguments.", "anchors": ["heat/core/vmap.py:vmap"]}
{"id": "C171", "title": "Reductions of arrays of any dimension", "statement": "sum, prod, any and all over any set of axes of an array of any dimension give the reduction of the global array, with and without keepdims, whatever the distribution (also with processes without data) and the order in which Allreduce combines the partial results; the result is replicated if the split axis is reduced and distributed along what it has become otherwise.", "quantifier": "all commutative operators with a neutral element, arrays, distributions, sets of axes, process counts, orders of combination", "why_tests_cant": "Tests reduce a few small arrays on a few processes; entries, shape and split axis of the result must be right for every shape, axis tuple and uneven distribution.", "anchors": ["heat/core/_operations.py:__reduce_op", "heat/core/arithmetics.py:sum", "heat/core/arithmetics.py:prod", "heat/core/logical.py:all", "heat/core/logical.py:any"]}
{"id": "C172", "title": "Cumulative operations of arrays of any dimension", "statement": "cumsum and cumprod along any axis of an array of any dimension give, at every position, the total of the elements at and before it along this axis, converted to the type of the result, whatever the distribution (also with processes without data), the axis and the order in which the exclusive scan combines the partial totals; the result is distributed like the operand; the in-place forms leave exactly this in the array", "quantifier": "all arrays of any dimension, all axes, all process counts and distributions, all orders and bracketings of the scan", "why_tests_cant": "the totals cross process boundaries for every layout and every place of an empty process; tests run few layouts", "anchors": ["heat/core/_operations.py __cum_op", "heat/core/arithmetics.py cumsum, cumprod, cumsum_, cumprod_"]}
{"id": "C173", "title": "Memory layouts keep the data", "statement": "Bringing data into a memory layout (order C or F) changes neither shape nor values, and array(data, split=axis) gives every process exactly its slabs whatever the layout of the data; with order F the result is column-major, with order C row-major", "quantifier": "all tensors with any strides, offsets and shapes, all axes, all positions of a chunk", "why_tests_cant": "every view (transposed, sliced, with offset) is another combination of strides and offset; tests use freshly created tensors", "anchors": ["heat/core/memory.py sanitize_memory_layout", "heat/core/factories.py array"]}
{"id": "C174", "title": "Dynamic mode decomposition recovers linear systems", "statement": "If the states passed to DMD.fit come from a linear system whose states stay in the span of the data, and as many modes are kept as the data have rank, the transfer matrix is the matrix of the system in the chosen basis, predict_next(x, n) is the state after n steps, predict agrees with predict_next, the data themselves are reproduced, and the modes are eigenvectors of the system; the constructor accepts exactly the documented combinations of arguments", "quantifier": "all linear systems, all data matrices, all singular value decompositions of them, all initial states in the span and all numbers of steps", "why_tests_cant": "a test runs a few systems for a few steps and compares with tolerances; the statement is about all systems and all powers", "anchors": ["heat/decomposition/dmd.py DMD"]}
{"id": "C175", "title": "Dynamic mode decomposition with control recovers linear systems", "statement": "If states and controls passed to DMDc.fit come from a linear system with control and together have full row rank, the two matrices are those of the system in the basis, and predict gives the trajectory of the system for every control sequence", "quantifier": "all linear systems with control, all data of full row rank, all initial states in the span of the basis, all control sequences and all numbers of steps", "why_tests_cant": "a test covers one system, one control sequence and mostly one initial state", "anchors": ["heat/decomposition/dmd.py DMDc"]}
{"id": "C176", "title": "Tiles read and write exactly the selected part", "statement": "tiles[key] gives every process exactly the part of the selected tiles that it holds (None if it holds none), tiles[key] = value changes exactly this part, and get_tile_size of a tile is its size", "quantifier": "all numbers of dimensions, shapes, splits and numbers of processes, all keys of integers and slices, every process", "why_tests_cant": "the result depends on the key, the shape and the number of processes together; tests use a few shapes on the number of processes at hand", "anchors": ["heat/core/tiling.py SplitTiles"]}
{"id": "C177", "title": "Randomized decompositions", "statement": "rsvd returns orthonormal factors whose squared error is the part of A outside the found range plus the squares of the values left out; if the random matrix meets the range of A the result is the truncated singular value decomposition of A itself, for every number of power iterations; reigh then returns eigenvalues and orthonormal eigenvectors of A, the largest in magnitude first", "quantifier": "all matrices, random matrices, ranks, oversamplings and numbers of power iterations", "why_tests_cant": "the result depends on random numbers; a test sees a few draws and compares with a tolerance", "anchors": ["heat/core/linalg/randomized.py rsvd, reigh, _randomized_range_finder"]}
{"id": "C178", "title": "Spectral clustering embeds with the lowest eigenvalues", "statement": "Spectral.fit clusters the samples by the eigenvectors of the k lowest eigenvalues of the graph Laplacian, and without a given number of clusters takes the largest gap between eigenvalues", "quantifier": "all Laplacians, all numbers of clusters, all eigendecompositions the solvers may return", "why_tests_cant": "tests cluster well separated samples and look at the labels; which eigenvectors are used is not visible there", "anchors": ["heat/cluster/spectral.py Spectral"]}
{"id": "C179", "title": "Parameters of estimators", "statement": "get_params returns every parameter of the constructor with its current value, set_params sets exactly the given ones (also nested ones), refuses unknown names without changing the estimator, and setting what get_params returned changes nothing", "quantifier": "all estimators, all parameter names and values, all sequences of assignments", "why_tests_cant": "tests set one or two parameters of one estimator", "anchors": ["heat/core/base.py BaseEstimator"]}
{"id": "C180", "title": "Reductions are elementwise whatever the memory layout", "statement": "Allreduce, Reduce, Scan and Exscan of tensors leave in the receive buffer at every index the reduction of the elements the processes have at that index, for every layout of the tensors in memory (transposed, strided, sliced), with a send buffer or in place, and change nothing else", "quantifier": "all shapes, strides, offsets, reductions, numbers of processes", "why_tests_cant": "tests reduce contiguous tensors and a few transposed ones", "anchors": ["heat/core/communication.py MPICommunication.__reduce_like, as_buffer"]}
{"id": "C181", "title": "Constant arrays and their _like forms", "statement": "zeros, ones, full and empty make an array of the given shape, type, split axis, device and communicator with the value everywhere and the canonical distribution; zeros_like, ones_like, full_like and empty_like take shape, type, data distribution and device from the given array unless overridden; impossible shapes and split axes raise", "quantifier": "all shapes (also with extent 0 and without axes), split axes, types, communicators, distributions of the model array", "why_tests_cant": "tests use balanced arrays on the default communicator and one type", "anchors": ["heat/core/factories.py __factory, __factory_like, full, full_like, zeros_like, ones_like, empty_like", "heat/core/stride_tricks.py sanitize_shape"]}
{"id": "C182", "title": "Artificial data sets have the requested samples", "statement": "create_clusters returns exactly n_samples samples, evenly from all clusters or by the weights of the processes, with the given means and standard deviations; create_spherical_dataset returns num_samples_cluster samples for each of its four clusters", "quantifier": "all numbers of samples, clusters, processes, all weights", "why_tests_cant": "tests use numbers of samples divisible by everything and do not count clusters", "anchors": ["heat/utils/data/spherical.py create_clusters, create_spherical_dataset"]}
{"id": "C183", "title": "Test matrices have their advertised properties", "statement": "parter returns the same Toeplitz matrix for all splits; hermitian returns a Hermitian (and positive definite) matrix; random_known_singularvalues and random_known_rank return a matrix with exactly these singular values and this rank, with its decomposition", "quantifier": "all sizes, splits, numbers of processes, all random numbers", "why_tests_cant": "random numbers; tests compare up to a tolerance for some draws", "anchors": ["heat/utils/data/matrixgallery.py parter, hermitian, random_orthogonal, random_known_singularvalues, random_known_rank"]}
{"id": "C184", "title": "Array API type promotion", "statement": "In the array_api namespace result_type of any number of types is the least type that has all their values (TypeError if booleans, integers and floating point numbers are mixed), in any order; operators refuse types outside their category and otherwise return exactly that type, also for zero-dimensional operands and Python scalars; can_cast agrees", "quantifier": "all lists of types of any length, all operators, numbers of axes and scalars", "why_tests_cant": "lists of unbounded length and all combinations of categories; tests try pairs", "anchors": ["heat/array_api/_dtypes.py _promotion_table, _dtype_categories, _result_type", "heat/array_api/_data_type_functions.py result_type, can_cast", "heat/array_api/_array_object.py _check_allowed_dtypes, _promote_scalar, _normalize_two_args"]}
{"id": "C185", "title": "Array API indices", "statement": "Indexing an array_api Array is accepted exactly for the indices of the standard: every axis is addressed or there is an ellipsis, the bounds of every slice are within the axis it addresses (counted from the right end after an ellipsis, not counting new axes), masks stand alone", "quantifier": "all shapes, all indices of any length", "why_tests_cant": "unbounded lengths and positions of ellipsis and new axes", "anchors": ["heat/array_api/_array_object.py _validate_index"]}
{"id": "C186", "title": "Square tiles: the partition", "statement": "The tile rows and tile columns of SquareDiagTiles cut the rows and the columns of the matrix into consecutive tiles that cover it, and along the split axis the tiles of a process are exactly the rows (columns) it holds, for any distribution of the matrix and number of tiles per process", "quantifier": "all shapes, distributions, numbers of processes and tiles per process, both split axes", "why_tests_cant": "unbounded shapes and distributions; tests check lists of indices for three processes and some of these lists are wrong", "anchors": ["heat/core/tiling.py SquareDiagTiles.__init__, __create_cols, __adjust_last_row_sp0_m_ge_n, __def_end_row_inds_sp0_m_ge_n, __last_tile_row_adjust_sp1, __adjust_cols_sp1_m_ls_n, __adjust_lshape_sp0_1tile"]}
{"id": "C187", "title": "Square tiles: reading and writing", "statement": "Reading tiles of one process returns there the local slice that holds exactly the block of the matrix between the bounds of the tiles, and nothing elsewhere; writing a value to them changes exactly the elements of this block; keys across processes are refused; local keys address the tiles of the process, slices are cut at its last tile", "quantifier": "all tilings that partition the matrix, all keys of numbers and slices, all processes", "why_tests_cant": "all keys and tilings; tests read a few tiles", "anchors": ["heat/core/tiling.py SquareDiagTiles.get_start_stop, __getitem__, __setitem__, local_get, local_to_global, tile_map"]}
{"id": "C188", "title": "Rounding and clipping: values and side effects", "statement": "floor, ceil, trunc, round (to any number of decimals, halves to even), clip and modf return the documented value for every element; they change no array other than the one passed as out, and return that one", "quantifier": "all local data, numbers of decimals, bounds and aliasings of operands and out", "why_tests_cant": "all values including ties and all aliasings; tests use one array and do not look at the argument afterwards", "anchors": ["heat/core/rounding.py floor, ceil, trunc, round, clip, modf"]}
{"id": "C189", "title": "pow and divmod with out", "statement": "pow and divmod return the powers and the quotient and remainder of floor division with q b + r = a and r between 0 and b; given out arrays receive exactly these results, also if they are operands, and nothing else changes", "quantifier": "all operands, exponents and aliasings of operands and out", "why_tests_cant": "all aliasings; tests use fresh out arrays", "anchors": ["heat/core/arithmetics.py pow, divmod, floordiv, remainder"]}
{"id": "C190", "title": "randperm returns a permutation on all processes; randn does not depend on them", "statement": "After every history of seed, set_state, draws and permutations that all processes execute, randperm(n) is a permutation of 0..n-1, as a whole if it is split and the same on all processes if not; the numbers of randn with Threefry do not depend on the number of processes", "quantifier": "all histories, numbers of processes, lengths, seeds and permutation generators", "why_tests_cant": "quantifies over histories and process counts", "anchors": ["heat/core/random.py randperm, permutation, randn, seed, set_state"]}
{"id": "C191", "title": "condest is an upper estimate of the condition number", "statement": "For every m x n matrix with n <= m of full rank and every outcome of the random samples, the number returned by condest(A) is at least the condition number of A (an upper estimate, as documented), in particular at least 1; p other than 2, unknown algorithms and non-positive sample numbers are refused", "quantifier": "all matrices, sample numbers and random samples", "why_tests_cant": "all random outcomes; tests check one matrix up to a tolerance", "anchors": ["heat/core/linalg/basics.py condest"]}
{"id": "C192", "title": "std is the root of the variance with the given ddof", "statement": "std(x, ddof=k) is the square root of the variance with divisor n - k over the elements of all processes, for replicated and distributed arrays; negative ddof is refused", "quantifier": "all data, distributions, process counts and ddof", "why_tests_cant": "all ddof and distributions; tests compare ddof 0 and 1", "anchors": ["heat/core/statistics.py std"]}
{"id": "C193", "title": "vdot", "statement": "vdot(x1, x2) is the sum over all elements of conj(x1) * x2, for any distribution of each operand; different numbers of elements raise a ValueError", "quantifier": "all data, distributions of both operands and process counts", "why_tests_cant": "independent distributions of two operands", "anchors": ["heat/core/linalg/basics.py vdot"]}
{"id": "C194", "title": "matrix_exp of a batch", "statement": "matrix_exp of a distributed batch of matrices consists of the exponentials of all matrices in order, on the same processes as the arguments; distribution along a matrix axis raises a ValueError", "quantifier": "all batches, distributions and process counts", "why_tests_cant": "all distributions, including non-default ones", "anchors": ["heat/core/linalg/basics.py matrix_exp"]}
{"id": "C195", "title": "KMedians and KMedoids fit", "statement": "After fit of KMedians or KMedoids the number of iterations is between 1 and max_iter, labels_ assigns every sample to a cluster centre closest in the Manhattan metric, and the fit stops early only if the centres moved by at most tol (KMedians) or not at all (KMedoids)", "quantifier": "all data, distributions, initial centres, tolerances, iteration limits and random draws", "why_tests_cant": "all iteration counts and random draws; tests check converged fits", "anchors": ["heat/cluster/kmedians.py KMedians.fit", "heat/cluster/kmedoids.py KMedoids.fit"]}
{"id": "C196", "title": "nansum and nanprod", "statement": "nansum(a) and nanprod(a) are the sum and the product of all elements that are not NaN, for every distribution, with the usual rules for infinities", "quantifier": "all data including infinities, distributions and process counts", "why_tests_cant": "all mixtures of infinities, NaN and empty parts", "anchors": ["heat/core/arithmetics.py nansum, nanprod, nan_to_num"]}
{"id": "C197", "title": "QR factorisation inside polar for column-distributed matrices", "statement": "In every iteration of polar on a matrix distributed along its columns, the stacked matrix (iterate on top of a positive multiple of the identity) is replaced by a matrix with orthonormal columns times an upper triangular matrix, for every number of processes and every distribution of the columns, empty blocks included, so that the iteration is the same as for row-distributed matrices", "quantifier": "all matrices, process counts and column distributions", "why_tests_cant": "all process counts; the loop over blocks depends on them", "anchors": ["heat/core/linalg/polar.py _in_place_qr_with_q_only, polar"]}
{"id": "C198", "title": "Copies are independent of the arrays they are made from", "statement": "copy(x), +x, balance(x, copy=True), x.astype(dtype), array(x, copy=True) and conjugate(x) return a new array: whatever is written to the result later, no other array changes, and vice versa; array(x, copy=False) returns x itself or raises; astype(copy=False) changes only x", "quantifier": "all arrays, types, sharing patterns of existing arrays and later writes", "why_tests_cant": "all later writes through all arrays; tests compare values right after the call", "anchors": ["heat/core/memory.py copy", "heat/core/dndarray.py astype", "heat/core/factories.py array, asarray", "heat/core/complex_math.py conjugate", "heat/core/arithmetics.py pos", "heat/core/manipulations.py balance, flatten, ravel", "heat/core/types.py datatype.__new__"]}
{"id": "C199", "title": "load and save choose the format by the extension", "statement": "load(path) and save(data, path) use the format listed for the extension of the file name (any case, any directory), the same for both; a missing package raises RuntimeError and any other extension ValueError", "quantifier": "all paths and sets of installed packages", "why_tests_cant": "all paths", "anchors": ["heat/core/io.py load, save"]}
{"id": "C200", "title": "roll along several axes", "statement": "roll(x, shift, axis) with several axes, repeated axes and the split axis included, equals rolling along one axis after the other, for every distribution, keeps the distribution, and leaves the arguments unchanged", "quantifier": "all arrays, distributions, lists of shifts and axes", "why_tests_cant": "all lists of axes with repetitions, all distributions", "anchors": ["heat/core/manipulations.py roll", "heat/core/sanitation.py sanitize_sequence"]}
{"id": "C201", "title": "split along an axis that is not distributed", "statement": "split(x, indices_or_sections, axis) (and vsplit, hsplit, dsplit) along an axis that is not the distributed one, or of an array that is not distributed, returns the sub-arrays numpy returns: equal parts for an integer, parts between the indices for a list, indices behind the end giving empty parts; every sub-array is evenly distributed, whatever the distribution of x", "quantifier": "all arrays, process counts, distributions, axes, integers and index lists", "why_tests_cant": "all lengths, index lists and uneven distributions", "anchors": ["heat/core/manipulations.py split, vsplit, hsplit, dsplit"]}
{"id": "C202", "title": "Fitting a nearest neighbour classifier", "statement": "After KNeighborsClassifier.fit(x, y) the classifier holds the samples x and, for each of them, its label: a matrix of labels as given, a vector of labels one-hot encoded with as many columns as the largest label plus one; after a fit that raises, the classifier is as before", "quantifier": "all samples, labels and sequences of fits, failed ones included", "why_tests_cant": "all histories of fits", "anchors": ["heat/classification/kneighborsclassifier.py fit, one_hot_encoding"]}
{"id": "C203", "title": "Receiving into tensors on any device", "statement": "After Wait of the request of a nonblocking receiving call (and after a blocking one) the caller's tensor holds the data delivered by MPI, wherever the tensor is, whether or not MPI is aware of GPUs, whenever the delivery happens and whatever else the program does with other tensors; the same holds for every way of waiting that the request offers, which the gradient averaging and the shuffling of datasets rely on; waiting again changes nothing", "quantifier": "all tensors, devices, delivered data, exchanged axes, times of delivery and steps of the program in between", "why_tests_cant": "all schedules and histories; GPUs without GPU-aware MPI are not in the tests", "anchors": ["heat/core/communication.py MPIRequest, _moveToCompDevice, Irecv, Recv, Isend, Bcast, Allgather", "heat/nn/data_parallel.py _iparam_update", "heat/utils/data/datatools.py dataset_shuffle, dataset_irecv"]}
{"id": "C204", "title": "Reductions of more than 2^31-1 elements", "statement": "The reduction operation which the library hands to MPI for tensors of more than COUNT_LIMIT elements combines, for every tensor whose elements lie densely in memory (contiguous or transposed, a slice of a larger tensor or not), exactly the elements at the same positions of the two blocks and touches no memory behind them", "quantifier": "all shapes, strides, offsets, element types, operations and contents", "why_tests_cant": "more than 2^31 elements; silent corruption of memory", "anchors": ["heat/core/communication.py __derived_op, __reduce_like"]}
{"id": "C205", "title": "Exchanges along axes beyond the first two, on any device", "statement": "After Alltoall, or Ialltoall and Wait, for a sending or receiving axis beyond the first two, the caller's receive tensor with the axes in the order receiving axis, sending axis, rest holds the data delivered by MPI, on the host and on GPUs, with and without GPU-aware MPI", "quantifier": "all numbers of axes, pairs of axes, devices and data", "why_tests_cant": "all axes; GPUs without GPU-aware MPI are not in the tests", "anchors": ["heat/core/communication.py __alltoall_like, Alltoall, Ialltoall, MPIRequest.Wait"]}
