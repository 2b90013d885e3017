# Formal model of heat (helmholtz-analytics/heat) in Lean 4 — design

## 1. What is being verified
Heat is an SPMD library: every MPI rank runs the same Python code on its local `torch.Tensor`;
the user sees one global array.  What a user relies on is that *the distribution does not matter*:
for every number of processes, every split axis, every (possibly unbalanced, possibly empty on some
ranks) distribution and every message schedule, the global result is the one of the undistributed
computation.  That is what the theorems say.

## 2. Modelling conventions
* **Ranks.** `P` processes, ranks `0..P-1`.  A value that differs per rank is a function of the rank or a
  list indexed by the rank.  A collective (`Allreduce`, `Allgatherv`, `Exscan`, `bcast`, ...) is modelled as a
  function of the list of all ranks' arguments (trusted: MPI implements its standard).
* **Distributed arrays.**  Along the split axis an n-d array is a list of slabs; the slab type `α` is
  arbitrary, so the other dimensions ride along.  A distributed array is the list of the ranks' local
  lists (`pieces : List (List α)`); its global content is `pieces.flatten`.  Where two axes matter
  (resplit, diagonal, eye, ...) we use index functions on `Nat × Nat` or `List Nat → α` with a shape.
* **Python exceptions** are values: `Except Err α` (or `Option` where only one exception exists).
* **Integers** are unbounded `Nat`/`Int` (Python ints; torch int64 shape arithmetic is assumed not to
  overflow), except in the random generator, where `BitVec 32/64` is used because wrap-around is the point.
* **Floats**: element values are an abstract type with abstract operations. Only where rounding decides about
  positions or shapes are floats modelled, exactly, as round-to-nearest-even of rationals: `f32` (Model/Float32: random
  counters, tile dimensions, indices stored in float32) and `fl64` (Model/Float64: `arange`, `linspace`, positions of
  argmax). NaN, infinities and overflow to infinity are not modelled.
* **torch** kernels (indexing, cat, arange, nonzero, ...) are modelled by their documented list meaning; a
  torch call that raises is an `Except.error`.
* Schedules: point-to-point exchanges are given a small-step semantics (posted sends, posted receives,
  matching, any interleaving) in `Verif/Model/Mpi.lean`.

## 3. Layout
* `lean/Verif/Spec/*`   small, independent specifications (what a user would expect).
* `lean/Verif/Model/*`  the model; every definition cites file and lines in /repo.
* `lean/Verif/Proof/*`  helper lemmas.
* `lean/Verif/Props/*`  the property theorems, each followed by a concrete non-vacuity `example`;
  where the code violates the property, the negation is proved on a concrete witness and the strongest
  true part is proved under the suffix `_partial`.

## 4. Trusted base
* Lean 4.33.0 kernel; axioms at most `propext`, `Classical.choice`, `Quot.sound` (checked by `#print axioms`
  through `vcheck`).  No own axioms, no compiled-code proofs.
* The faithfulness of the model to /repo (by reading; the code is not run).
* MPI standard semantics of collectives, in-order matching per (source, destination, tag, communicator).
* torch/numpy kernels do what their documentation says; Python int semantics (floor division, `%`).

## 5. Plan per property
(see section 6 for what was finally proved; MANIFEST.json maps properties to theorems)

| id | model | proof idea |
|----|-------|-----------|
| C01-C03 | `chunk`, `counts_displs_shape` over `Nat` | closed form `start r = r*q + min r rem`; linear arithmetic; sums by induction |
| C04 | `sanitizeAxis` over `Int` | case analysis, `omega` |
| C05 | `broadcastShape` on reversed lists | induction on both lists |
| C06,C07 | `lshapeMap`, `countsDispls`, `isBalanced` on piece lists | prefix-sum lemmas |
| C08-C10 | `redistribute_` loop by loop on (pieces, lshape, cumsum), incl. the recursion | loop invariant: concatenation unchanged, earlier ranks have their target, termination measure |
| C11 | state machine with the cached map and flag | invariant by induction on histories; negation for the larray setter / padded target maps |
| C12,C13 | subarray parameters of the tiles; Alltoallw as block exchange on index functions | block coordinates are inverse to each other |
| C14-C18 | slice/int/list branches of `__getitem__`/`__setitem__` per rank | per-rank lemma + concatenation |
| C19 | halo exchange | neighbours in the list of populated ranks; exchange theorem C48 |
| C20-C22 | `__reduce_op`, `__cum_op` with abstract monoids; shape/split bookkeeping on lists | fold/flatten lemmas |
| C23,C50 | `__binary_op` + `sanitize_distribution` | C08 + zipWith/flatten |
| C24-C26 | finite type tables, list fold for result_type | `decide` over the whole table, induction for lists |
| C27-C32 | `__counter_sequence`, threefry on `BitVec`, state machine | interval arithmetic on pairs; inverse functions for the rounds |
| C33,C38,C39,C48,C49 | exchanges on the MPI semantics | uniqueness of keys; confluence |
| C34-C37 | factories | arithmetic |
| C40-C45,C47,C51 | per function | per function |
| C46 | datatype construction as list of offsets | arithmetic |
| C52 | type tables | whole table |
| C53,C54 | factories, float64 rounding of the element count | rounding lemmas |
| C55 | random state machine | per-rank equality |
| C56-C58 | datatypes as lists of byte offsets; n-d arrays as shape + index function | offset arithmetic |
| C59 | argmax/argmin with the reduction as an arbitrary bracketing and order | combine lemma |
| C60 | sample sort: pivots, bucket counts, rebalancing matrix, both exchanges | counting invariants on cumulative sums |
| C61 | concatenate, transfer by transfer | front/back loading loops as slices of the content; ordered transfers for schedules |
| C62 | merging of (mean, moments, count) over ranks on rationals | algebra of the two-set merge, induction over ranks |
| C63 | bincount, digitize, histogram counts as sums over ranks | counting lemmas |
| C64 | outer: ring of Send/Recv on the MPI semantics | ring execution; necessary order (stuckness) |
| C65-C67 | tril/triu, trace, dot on n-d arrays as shape + index function | offsets of a balanced axis; window sums |
| C68,C69 | cdist: ring and symmetric pass on the MPI semantics | each tile received once, from the owner; ordered transfers terminate |
| C70,C71 | Gauss elimination on rows over the ranks, rationals | Mathlib `Matrix.det`; invariants of the forward and backward loop |
| C72-C74 | matmul: nine split combinations, block by block, with torch's clamping and broadcasting | sums over canonical chunks; a non-canonical axis has a rank whose extent neither fits nor broadcasts |
| C75-C76 | load_csv(split=0): byte shares, line starts, header, columns, last lines; the Send/Recv chain | line starts of all ranks concatenate to those of the file; segments between consecutive starts are the lines; C49 for the chain |
| C77-C78 | diff: the work loop with its messages, the final slice (C14) and balance_ (C09); other axes; the send-wait-receive order | owner of the next slab is the next rank unless there is a gap, and a gap truncates a message; C49 for the chain |
| C79-C82 | sparse matrices: slices of the pointer array, `global_indptr`, Allgatherv with float32 counts, the `is_split` check, element-wise operations with their shortcut, conversion | rows as lists of entries; `csrOf` is injective enough to compare; pointer lemmas by induction; counterexamples |
| C83-C84 | unique: local unique, gathering, second unique, the loop that translates positions, the three axis cases; `torch.unique` is any function with its law | membership through `content`; loop invariant: the rank counter is the rank of the block; counterexamples |
| C85-C86 | topk: local topk with filling and offset, the custom MPI operator, every order of combination; `torch.topk` is any function with its law | best of the bests by counting; sorted permutations are equal; counterexamples |
| C87-C90 | `load_hdf5` as reads of blocks of an n-dimensional data set (`Model/Hdf5.lean`), compared with `Spec.IsSliced` (one Python slice per axis) through `Rep`; `load_multiple_hdf5` as its buffer-filling loop, invariant over the files; `save_hdf5` (serial) as a transition system of opens, writes, closes and pings with all interleavings, invariant = whose turn it is. h5py, types and the mpio driver are outside. |
| C91-C93 | `save_csv` as the list of `(offset, bytes)` writes of all ranks (`Model/SaveCsv.lean`); a file is a list of bytes; theorem over every permutation of the writes: each write is a prefix of the wanted text at its offset and together they cover it. Formatting (`%nd`, `%n.mf`) modelled with exact `log10` and round-half-even on rationals; `Spec.textValue` says which number a text denotes. MPI-IO, locale and float rounding inside `log10` are outside. |
| C94 | `pad` along the split axis as a function from slab lists per rank to slab lists per rank followed by `balance` (`Model/Pad.lean`); `torch.nn.functional.pad` on a slab is a parameter. |
| C95-C96 | `convolve` of one-dimensional operands (`Model/Convolve.lean`): sanitation, padding (C94), halos (`Model/Halo.lean`), stride shift, flip and balance of the kernel, the broadcast rounds and their accumulation; `Spec.convolution` is the textbook sum over `i + j = k`. Proof: every rank's outputs are a run of windows of the padded signal and the runs of consecutive ranks join; the rounds add up to the correlation with the whole kernel. `torch.nn.functional.conv1d` is the correlation formula; arithmetic is exact (commutative semiring); batch processing, data types and devices are outside. |
| C97-C98 | `percentile`/`median` (`Model/Percentile.lean`) on top of the models of `sort` (C60) and of integer and list indexing (C15, C16); `Spec.IsOrderStat` defines order statistics by counting. Rational values, rounding of positions as a parameter; for several axes only the shape is modelled. `sketched=True`, `out` and `keepdims` are outside. |
| C99 | `Model/Naive.lean`: the attributes of GaussianNB and one `partial_fit` call, including the state left behind by a refused call | exact arithmetic in an ordered field; Chan-Golub-LeVeque identity, induction over the batches; the smoothing that accumulates is a weighted average of the batch epsilons |
| C100 | `Model/NaivePredict.lean`: joint log likelihood, logsumexp, predict, predict_proba over the reals | exp/log algebra; first argmax; positivity of the fitted variances |
| C101-C102 | `Model/Compare.lean`: alignment and comparison of equal, allclose, isclose on the operands of C23 | alignment lemmas of C50 and balance (C09); contents distributed alike are equal iff the parts are |
| C103 | `Model/Split.lean`: piece sizes per process, torch.split, assembly and balance | clipped cut positions telescope; pieces of rank r are the cuts clipped to its rows; balance (C09) |
| C104 | `Model/Tile.lean`: counts, displacements and buffers of the Alltoallv of each repetition, copy of the receive buffer | induction over the repetitions: positions below `n*k` hold the right row; counts telescope over clipped boundaries |
| C105 | `Model/Repeat.lean`: distribution of `repeats`, local repeat_interleave (with its broadcast), balance | parts zipped with parts; balance (C09) |
| C106 | `Model/Unfold.lean`: first window index, halo (Model/Halo.lean), torch.unfold | windows before rank r = multiples of step below its first row; halo window theorem of C19 |
| C107-C108 | `Model/KCluster.lean`, `Spec/KCluster.lean`: assignment, updates and fit loop of KMeans, cleaning, owner search and broadcast row of KMedians/KMedoids, over an ordered field | mean minimises the sum of squares, sums grouped by label; induction over the iterations; owner of a row of an even distribution |
| C109 | `Model/Lasso`: soft threshold, coordinate update from local sums, sweep, loop with an abstract convergence test, over any ordered field. The objective as a function of one coordinate is a parabola plus a multiple of the absolute value; fixed points satisfy the subgradient condition; convexity gives global optimality. |
| C110-C114 | `Model/Scaler`: the five scalers on rows distributed over ranks, with the distributed mean/variance of C62, reductions of C20 in any order, and percentiles of C97. Affine maps of moments, extrema and order statistics. |
| C115 | `DetectMetricPlateau`: state machine over ordered fields | invariant over all metric sequences; specification of the streak in `Spec/Plateau` |
| C116 | `DASO`: one flattened parameter component on all `(node, gpu)` processes, counters, pending sends; local optimizer = arbitrary function; casts to bfloat16 and DDP's local gradient averaging not modelled | invariant on pending sends, induction over batches and epochs |
| C117 | `DASO` packing, chunks, both receivers | induction over the parameters with a reader invariant |
| C118 | `DataParallel` + `DataParallelOptimizer`: blocking and non-blocking semantics of training programs, optimizer = arbitrary per-layer function | simulation between the two runs, induction over batches and epochs |
| C119 | Model/Dataset.lean: rings of rows, loader state machine over epochs; induction over epochs, multiset invariant | Props/Dataset.lean |
| C120 | Model/Sampler.lean: index buffers, send types, receive counts, Alltoallw as reads of local memory, correction by stable sort and placement; equal to indexing the global array | Props/Sampler.lean |
| C121 | Model/Sampler.lean: split of a local permutation; floor of n*p in exact arithmetic | Props/Sampler.lean |
| C122 | Model/Qr.lean: TS-QR over a commutative star ring: groups, gather of the R factors, decomposition at the group's root, scatter of Q, broadcast along the leaves, next round; the local decomposition is an argument with the spec `QrOk` | Props/Qr.lean: invariant of a round (block product, isometry, triangularity) and induction on the rounds; Props/QrReal.lean: a valid local decomposition exists over the reals |
| C123 | Model/QrCols.lean: block-wise Gram-Schmidt with the stored rows of R (`R_shapes`), the last block reached | Props/QrCols.lean: invariant per block; Props/QrColsReal.lean: counterexamples without full rank |
| C124 | Model/QrRows.lean: column blocks from the cumulative row counts, TS-QR of each block, Allreduce of the coefficients, in-place updates of R and A, cut of R | Props/QrRows.lean: invariant per block with the final rows of R as ghost state; Props/QrRowsReal.lean: examples and counterexample over the reals |
| C125 | Model/SolveTri.lean: argument checks and dispatch; the loop over the diagonal blocks from the last to the first with the Scatterv/Bcast of block contributions, for A split along the columns, along the rows and not split; local solver is a parameter | Props/SolveTri.lean: loop invariant (solved blocks exact, residual of the others); examples; counterexamples for unbalanced x and for the type of the receive buffer |
| C126 | Model/Cg.lean: the loop with division as a partial operation, over the reals | Props/Cg.lean: residuals are orthogonal and directions conjugate by strong induction, at most n nonzero orthogonal vectors exist |
| C127 | Model/Lanczos.lean: real branch, orthogonalisation loops, breakdown vectors as an oracle | Props/Lanczos.lean: invariant over the iterations |
| C128 | Model/Solve.lean: argument checks and plan of the result, `torch.linalg.solve` on local n-dimensional parts (vector test, broadcasting of batch axes, inverse matrix), exchange of the error messages | Props/Solve.lean: the part of a process is the corresponding part of the global solution (offsets per axis); counterexamples for every other accepted combination |
| C129 | Model/Fft.lean: `__fft_op` with its transpositions, redistributions, empty ranks and the torch types of the exchange buffers; the local transform is any function of lines | Props/Fft.lean: each step represents the correspondingly changed global array; DFT inversion by orthogonality of roots of unity |
| C130 | Model/Fftn.lean: `__fftn_op`: resolution of axes and lengths, local transform, two-pass transform when the split axis is among the axes | Props/Fftn.lean: linear transforms along different axes commute (kernels), so the two passes give the transform along all axes; counterexample theorems where the halved axis or the order matters |
| C131 | Model/Fftn.lean: `__fftfreq_op` with split=0 | Props/Fftn.lean: content of balanced parts |
| C132 | Model/Hsvd.lean: local truncation with noise level, ranks and safety shift (including the negative slice start), planning loop of a level, exchange, level loop, final factors; exact arithmetic, the local SVD is a parameter satisfying `IsSvd` | Props/Hsvd.lean: invariant "Gram matrix of A = sum of Gram matrices of the active nodes + Gram matrix of what was dropped", planning loop at least halves the nodes, projection error bounded by the dropped weight, messages by the ordered-transfer theorem; every real matrix has an SVD by the spectral theorem |
| C133 | as C132, with the arguments of `hsvd_rtol` | Props/Hsvd.lean: number of truncations in the tree is at most 2P-1 for powers of two; counterexample theorems otherwise |
| C134 | Model/Svd.lean: choice of the algorithm, tall skinny and short fat branches on top of Model/Qr.lean; local decompositions are parameters | Props/Svd.lean: composition of the tree QR theorem with the factorisation of R; transposition. Model/SvdGeneral.lean, Props/SvdGeneral.lean: the general branch on top of C155 and C156 |
| C135 | Model/Isvd.lean: residual, inner matrix, lifting, truncation, right factor of `_isvd` and the checks of `isvd`; QR and the SVD of the inner matrix are parameters | Props/Isvd.lean: lifting the inner matrix gives old factors and new columns; vectors whose first coordinates are the components along U are lifted isometrically; rank bound by linear independence |
| C136 | Model/Isvd.lean: first batch, mean update, augmented columns, `partial_fit` as a fold over batches | Props/Isvd.lean: scatter matrix of a union, induction over the batches; positive definite scatter matrix implies no zero value; counterexamples with explicit decompositions |
| C137 | Model/Pca.lean: `fit` with the full solver, `transform`, `inverse_transform` on the list of samples; the decomposition is a parameter | Props/Pca.lean: running sums are monotone, so the filter is an initial segment; projection error = dropped squares |
| C138 | Model/Pds.lean: transition system of the loading thread, the converting thread and the consumer over the shared lists, one step per statement on shared data | Props/Pds.lean: inductive invariant (delivered ++ ready ++ current ++ to do = index list), decreasing weight, deadlock states have delivered everything |
| C139 | same model, including the lock, wait and notify | Props/Pds.lean: "waiting with more than load_len used" is closed under all steps; reachable by explicit schedules |
| C140 | same model; an array element is the number of the file row it came from, several arrays overwritten one after the other | Props/Pds.lean: invariant with the intermediate states of the overwriting; explicit schedules for the violations |
| C141 | Model/Printing.lean: the slabs each process sends along one axis, gathered on rank 0; torch summarizes what it gets | Props/Printing.lean: closed form of the gathered list, exact condition, counterexample |
| C142 | Model/BatchCluster.lean: `_kmex` with arbitrary draws, the levels of the merging on the list of active processes, `functional_value_` | Props/BatchCluster.lean: induction principle of the merging tree; mean and lower median minimise; box invariant |
| C143 | Model/SetValue.lean: local slice bounds of each process, slice of a replicated value, redistribution of a distributed value, torch's shape rule for the local write | Props/SetValue.lean: counts of selected slabs below each offset, against Spec/Assign.lean; C08 for the redistribution |
| C144 | Model/SetValue.lean: filtering an index tensor by the actual offsets and shifting by the chunk start | Props/SetValue.lean: membership argument; owner uniqueness |
| C145 | Model/Knn.lean: one-hot encoding with local extents, gathering rows of neighbours (C16), reshape into groups of k, votes, argmax | Props/Knn.lean: majority specification, owner order against neighbour order |
| C146 | Model/Ptp.lean: local (min, max) pairs, the custom MPI operation, the rule for the split attribute, tuple axes | Props/Ptp.lean: associativity, commutativity, range of a list; comparison with the true result metadata |
| C147 | Model/Laplacian.lean: zeroed diagonal, threshold graph, simple and normalized Laplacian over the reals | Props/Laplacian.lean: quadratic forms as sums of squares over edges |
| C148 | Model/Silhouette.lean: masks, cluster sums, a, b, coefficients in an ordered field | Props/Silhouette.lean: against an independent specification with uniqueness; bounds |
| C149 | Model/OutOp.lean: sanitize_out, redistribution to out, local copy_, where | Props/OutOp.lean: on C08 and C10 (redistribution and binary operations) |
| C150 | Model/Cov.lean: orientation, joining, ddof, means, products | Props/Cov.lean: entry formula, quadratic form as sum of squares |
| C151 | Model/KcInit.lean: drawn positions, gather by index, rounds of k-means\|\|, size checks, weights | Props/KcInit.lean: permutations of gathered selections, counting |
| C152 | Model/CommAxis.lean: axis permutation, row-major messages, receive buffers, the collectives as message exchange | Props/CommAxis.lean: which element arrives at which index, for all axes; frame |
| C153 | Model/ManyFiles.lean: file ranges by rank, folder listing per process, wildcard directories | Props/ManyFiles.lean: concatenation of local parts is the concatenation of all files |
| C154 | Model/ManyFiles.lean: chunk extent, read-modify-write programs, interleavings | Props/ManyFiles.lean: invariant over all schedules: chunks have one owner |
| C155 | Model/Eigh.lean: recursion over process groups, subspace iteration, merge, local base case, fill of the result | Props/Eigh.lean: residual identity by induction on the recursion; bound; order of eigenvalues |
| C156 | Model/Polar.lean: Zolotarev iteration with coefficients as parameters, choice of r and iteration count, result assembly | Props/Polar.lean: one step acts on singular values; partial fractions; fixed points; run |
| C157 | Model/Norm.lean: reductions along one axis, axis arithmetic of matrix_norm, dispatch of norm, vector norms over a distribution | Props/Norm.lean: index arithmetic for all axes; equality with the norms of Mathlib; C20 for the distribution |
| C158 | Model/Average.lean: checks, shape of one-dimensional weights, both reductions, zero test, balance flag of the copied weights | Props/Average.lean: C20 for the sums; broadcasting of C18 for the shape |
| C159 | Model/Average.lean: central moments over a distribution, final formulas, local versions, shape of the mean | Props/Average.lean: algebra over the rationals and real powers; mean from C62 |
| C160 | Model/Convolve2.lean: checks, order, padding, halos, shift, rounds and balancing of convolve2d on lists of slabs | Props/Convolve2.lean: a slab is a power series; the model is shown to be the image of the one-dimensional model of C95 over power series |
| C161 | Model/Rot90.lean: axis checks, local flip, exchange with the mirrored process and balancing of flip; the cases of rot90 | Props/Rot90.lean: IsFlip, IsRot and iterated turns are stated on elements; flip and transposition are composed through the representation predicate of C12/C41 |
| C162 | Model/StackVec.lean: row and column views of vectors, concatenation along both axes, alignment with the first vector, torch.stack | Props/StackVec.lean: through concat2 (C61) and sanitize_distribution (C31); counterexamples for hstack, row_stack, hsplit |
| C163 | Model/BroadcastND.lean: leading axes, sanitize_distribution for all axes, dominant operand, diff_map, out buffer of __binary_op | Props/BroadcastND.lean: IsElementwise is stated with right-aligned indices; local parts of both operands are related to the global array by the predicate FitsPart |
| C164 | Model/BroadcastND.lean: broadcast_to (local view or zeros plus array), broadcast_arrays | Props/BroadcastND.lean: IsBroadcastTo; broadcast_to through C163, broadcast_arrays through FitsPart; counterexamples |
| C165 | Model/MeshCross.lean: meshgrid (search for the split, exchange of the first two axes, torch.meshgrid on every process) | Props/MeshCross.lean: IsGrid; the local grids are the parts of the global ones |
| C166 | Model/MeshCross.lean: cross (axes, third entry 0, move of the axes, torch.cross, last entry) | Props/MeshCross.lean, Props/CrossAxes.lean (different axes: spot, backSpot): IsCross, IsCrossZ componentwise; padding, product and slice each preserve the representation |
| C167 | Model/MeshCross.lean: flatten (resplit, local flatten, is_split=0, balance) | Props/MeshCross.lean: concatenation of the local row-major lists of parts along axis 0 |
| C168 | Model/NetCdf.lean: Python slices (clipping, steps), __get_expanded_split, __merge_slices, the writes one after the other, load_netcdf; netCDF4 is modelled by what it selects and writes | Props/NetCdf.lean: IsPlaced; a merged slice selects exactly the positions of the chunk; invariant over the writes in any order |
| C169 | Model/LocalOp.lean: __local_op with and without out (broadcast shape, multiples, repeat, torch resizes the buffer) | Props/LocalOp.lean: IsUnary, Rep; per process, then assembled along the split axis of the buffer |
| C170 | Model/Vmap.lean: vmap with torch.vmap given by its contract (batch sizes checked, one slice at a time), array(is_split), several results | Props/Vmap.lean: IsVmap, TensorFn; local slices are global slices, the parts assembled along out_dims |
| C171 | Model/ReduceND.lean: __reduce_op on n-dimensional arrays (neutral slab on processes without data, axis by axis, reshape, Allreduce in any order, shape and split) for any commutative monoid | Props/ReduceND.lean: sumOver (nested sums), IsReduction; sums commute, local sums add up along the split axis, rep_dropAxes for keepdims=False |
| C172 | Model/CumND.lean: __cum_op on n-dimensional arrays (local totals, last slab or neutral elements sent, Exscan in any order, broadcast addition, conversions), the in-place forms, the axis | Props/CumND.lean: IsCumulative (sum up to the position along the axis); rep_like (array with the layout of another); parts of consecutive processes add up |
| C173 | Model/Memory.lean: torch tensors as views (storage, offset, shape, strides), permute, is_contiguous, contiguous, set_, sanitize_memory_layout, the slab of array(split) | Props/Memory.lean: SameValues, FLayout, CLayout; row-major positions are a bijection; a contiguous tensor taken for column-major has at most one real axis |
| C174 | Model/Dmd.lean: constructor checks, number of modes, transfer matrix, predict_next, predict through eigenvectors; exact arithmetic, svd and eig as parameters | Props/Dmd.lean: IsThinSvd, Follows; leaving out zero singular values, U^T A U, invariance of the span, induction over the steps |
| C175 | Model/Dmd.lean: DMDc transfer and control matrices, predict with its reshapes by row-major positions | Props/Dmd.lean: ctlState; the stacked matrix has a right inverse; induction over the steps; counterexample for two initial states |
| C176 | Model/SplitTiles.lean: tile sizes and ends, tile_locations, the conversion of a key to slices, getitem, setitem, get_tile_size of SplitTiles for any number of dimensions | Props/SplitTiles.lean: selects, tileOff, IsTiles; a run of tiles is a run of positions; keys select runs; three counterexamples |
| C177 | Model/Rsvd.lean: range finder with power iterations for any random matrix, rsvd, reigh; qr, svd, eigh as parameters | Props/Rsvd.lean: IsQFun, frobSq; Pythagoras for orthonormal columns, induction over the power iterations |
| C178 | Model/Spectral.lean: eigenpairs by lanczos and reigh, choice of the columns and of the number of clusters | Props/Spectral.lean: IsLowest, IsEigenvalue; all eigenvalues of L are those of T; counterexample with two samples for every eigendecomposition |
| C179 | Model/Params.lean: get_params and set_params of BaseEstimator with errors and the state after an error | Props/Params.lean: dictGet; induction over the assignments |
| C180 | Model/ReduceMem.lean: harmonising of the buffers, the block of memory handed to MPI, what is in the storage afterwards; tensors in memory of Model/Memory.lean | Props/ReduceMem.lean: Reduced; row-major positions of contiguous tensors; counterexamples for gaps and mixed layouts |
| C181 | Model/LikeFactory.lean: __factory, full, __factory_like over n-dimensional arrays with type, device, communicator | Props/LikeFactory.lean: constant, Canonical, Rep; counterexamples |
| C182 | Model/DataSets.lean: numbers of samples per cluster and process, covariance, spherical data set | Props/DataSets.lean: sums of floors over clusters and processes |
| C183 | Model/Gallery.lean: parter per process, hermitian, matrices with known singular values and rank; qr as parameter | Props/Gallery.lean: IsParter, IsOrthonormalizer; Rep for every split; rank of products with orthonormal factors |
| C184 | Model/ArrayApi.lean: categories, promotion table, result_type, can_cast, operator checks; heat result_type of Model/Types.lean | Props/ArrayApi.lean: intRange, floatKind, Embeds, LeastFor; complete case analysis of the table, induction over the list |
| C185 | Model/ArrayApi.lean: _validate_index over lists of entries | Props/ArrayApi.lean: BoundsOk, Basic; induction over the entries |
| C186 | Model/SquareTiles.lean: the constructor as functions of the lshape map: columns of the diagonal, rows below it, rows and columns per process, requested redistributions | Props/SquareTiles.lean: TileCuts, GoodTiles; sums of prefixes of the tile sizes by induction |
| C187 | Model/SquareTiles.lean: owner of a tile, get_start_stop, getitem, setitem, local_to_global | Props/SquareTiles.lean: offRow, offCol, locRows, locCols; from GoodTiles |
| C188 | Model/Rounding.lean: one process, a heap of array objects, calls as heap transitions that keep what was written before an exception | Props/Rounding.lean: OnlyChanges, RoundsToDec, Nearest, Parts; by evaluation of the calls on an arbitrary heap |
| C189 | Model/Rounding.lean: binCall, divmodCall, powCall | Props/Rounding.lean: QuotRem; evaluation on an arbitrary heap, aliasing by counterexample |
| C190 | Model/Randperm.lean: agreedPerm, randperm, histories over Model/Random.lean | Props/Randperm.lean: invariant SameTorch over histories; content of chunks |
| C191 | Model/Condest.lean: a run as a structure with the exact factorisation, samples and solve | Props/Condest.lean: singular bounds through Frobenius norms and traces; explicit runs as counterexamples |
| C192 | Model/StdVdot.lean: stdDdof, stdSq over Model/Moments.lean | Props/StdVdot.lean: from C62 and case analysis of ddof |
| C193 | Model/StdVdot.lean: vdotModel over Model/BinaryOp.lean | Props/StdVdot.lean: dotSum; from C12 and induction over the processes |
| C194 | Model/StdVdot.lean: matrixExpBatch, batchAssign | Props/StdVdot.lean: content of the parts; counting argument over the chunks for all other distributions |
| C195 | Model/KFit.lean: steps and loops of KMedians.fit and KMedoids.fit over Model/KCluster.lean | Props/KFit.lean: induction over the iterations; explicit runs as counterexamples |
| C196 | Model/NanReduce.lean: exact numbers with infinities and NaN, nansumAll, nanToNum, nanprodAll | Props/NanReduce.lean: SumIs; induction over the processes |
| C197 | Model/QrInPlace.lean: qOnlyStep, qOnlyCols, polarStacked over Model/QrCols.lean | Props/QrInPlace.lean: same blocks as block Gram-Schmidt of qr; triangular factor invertible by determinants, hence orthonormal columns |
| C198 | Model/Alias.lean: buffers, tensors with conjugate bit, DNDarray objects; copy, pos, balance, astype, array, conjugate, flatten | Props/Alias.lean: Independent, FreshCopy; fresh addresses against writes |
| C199 | Model/IoDispatch.lean: splitext, extension tables, the two cascades | Props/IoDispatch.lean: FileWithExt, formatOf; induction over paths |
| C200 | Model/RollMulti.lean: takeAxis (the removal loop), rollMulti, rollInt | Props/RollMulti.lean: rollAxes (one axis after the other); induction over the lists |
| C201 | Model/SplitOther.lean: sizes for an integer and for a list of indices, local torch.split, assembly and balance | Props/SplitOther.lean: columns (entries a to b of every row); telescoping sizes, balance (C09) |
| C202 | Model/KnnFit.lean: attributes of the classifier, one_hot_encoding, fit with its exceptions | Props/KnnFit.lean: Encodes, Paired; induction over the labels |
| C203 | Model/Requests.lean: tensors of a process on host and GPU, staging copies, MPIRequest with Wait and pass-through wait, program steps and deliveries in any order | Props/Requests.lean: Received, Quiet; invariant over the steps |
| C204 | Model/DerivedOp.lean: the callback of __derived_op on memory by bytes | Props/DerivedOp.lean: CombinesBlocks, DenseTensor; induction over the written elements |
| C205 | Model/AlltoallStage.lean: permuted views by lists of axes, argsort, staging in the general case of __alltoall_like | Props/AlltoallStage.lean: ReceivedAxes; argsort is the inverse of every permutation |

## 6. What was finally proved
Mathlib is used in Proof/Float64, Props/Factories, Props/ND, Props/Diag, Props/Sort (lists without duplicates, rationals), Props/Moments
(rationals, field tactics), Proof/Kahn, Proof/Pass (tactics) and Model/Spec/Props of Gauss (matrices over the rationals); everything else is
core Lean.  The files of a property: `Model/X` is the model, `Spec/X` the independent vocabulary, `Props/X` the theorems.

<!-- generated: status -->

| id | title | status | proved in | what is proved, what is missing |
|---|---|---|---|---|
| C01 | Chunking partitions the split axis | proved | Props/Chunk.lean | dense branch; typed arguments (no TypeError branch) |
| C02 | Chunking is load balanced | proved | Props/Chunk.lean |  |
| C03 | counts/displacements agree with chunk | proved | Props/Chunk.lean |  |
| C04 | Axis sanitation | proved | Props/StrideTricks.lean | TypeError branch for non-int axes is not modelled (typed argument) |
| C05 | Broadcast shape laws | proved | Props/StrideTricks.lean | torch.broadcast_shapes modelled by its documented rule |
| C06 | Index ownership from counts_displs | proved | Props/Dist.lean |  |
| C07 | is_balanced is truthful | proved | Props/Dist.lean |  |
| C08 | redistribute_ moves data without losing or reordering it | proved | Props/Dist.lean | lshape_map argument = None (the docs declare a wrong one undefined); blocking Send/Recv pairs modelled as atomic moves, see C49 |
| C09 | balance_ balances and preserves content; idempotent | proved | Props/Dist.lean |  |
| C10 | collect_ gathers onto one rank | proved | Props/Dist.lean |  |
| C11 | Reported lshape_map is never stale | partial | Props/LshapeCache.lean | the full claim is false of the code: two counterexamples proved |
| C12 | resplit_ preserves the global array | partial | Props/Resplit.lean | axis sizes above 2^24 violate the property (tile sizes are float32): counterexample proved; Alltoallw modelled as block exchange |
| C13 | resplit (out of place) preserves the global array | partial | Props/Resplit.lean | unbalanced sources violate the property: counterexample proved |
| C14 | Slicing along the split axis equals global slicing | partial | Props/Indexing.lean | proved for bounds in [-n, n] that do not cross; false outside (counterexamples proved) |
| C15 | Integer indexing along the split axis | proved | Props/Indexing.lean |  |
| C16 | Advanced indexing along the split axis | partial | Props/Indexing.lean | proved for >= 2 non-negative positions whose owners are in rank order; false otherwise (counterexamples proved) |
| C17 | Slice assignment of a scalar | partial | Props/Indexing.lean | proved on balanced arrays for start >= 0, stop >= -n; false otherwise |
| C18 | Integer assignment | partial | Props/Indexing.lean | proved on balanced arrays; false on unbalanced ones |
| C19 | Halos | partial | Props/Halo.lean | proved whenever at least two ranks are populated; with exactly one populated rank get_halo raises TypeError (proved) |
| C20 | Reductions along the split axis | proved | Props/Reduce.lean | for all operators with a true neutral element; max/min use -max(dtype), which is not neutral for the smallest integer (proved counterexample) |
| C21 | Cumulative operations | proved | Props/Reduce.lean |  |
| C22 | Reduction result metadata | partial | Props/Reduce.lean | false for 1-d arrays without keepdims, tuples of all axes and axis=None with keepdims |
| C23 | Element-wise binary operations ignore the distribution | partial | Props/BinaryOp.lean | all operand sizes and distributions; violated for an empty split operand and a scalar (ValueError), and the balanced attribute of a broadcast split operand lies. |
| C24 | Type promotion is a well-behaved join | proved | Props/Types.lean | Whole finite domain of types; least common intuitive target, commutative, idempotent, associative. |
| C25 | result_type is independent of the operand order | partial | Props/Types.lean | Order independence proved for lists of any length of operands of one category, or of one family, and for two operands of any kind; false in general (violated: float16 array, int8 array, Python float). |
| C26 | Casting lattice | partial | Props/Types.lean | Order laws proved; exactness proved for every safe cast but int64 to float64/complex128, where it is violated (2^53+1). |
| C27 | Threefry random arrays do not depend on the number of processes | partial | Props/Random.lean | Proved for split 0 and None, all P, all counters/shapes up to 2^24 elements that do not end exactly at a 2^32 (2^64) counter boundary; violated at that boundary, beyond 2^24 elements (float32 counts), and for split != 0. |
| C28 | Random streams do not overlap | partial | Props/Random.lean | Disjointness for all histories of draws of at most 2^24 elements; equality of the counter on all ranks for all histories; violated for larger draws (float32 ceil). |
| C29 | Threefry is a bijection | proved | Props/Random.lean | All seeds, all words. |
| C30 | rand lies in [0,1) | proved | Props/Random.lean | All words; floats as exact rationals (exact in IEEE: at most 24/53 significant bits). |
| C31 | randint lies in [low, high) | proved | Props/Random.lean | All words and bounds; spans of at least 2^31 (2^63) raise RuntimeError. |
| C32 | get_state/set_state round trip | partial | Props/Random.lean | Threefry round trip proved; batchparallel only while batchparallel is active, and the stream position is lost (both violated). |
| C33 | permutation permutes rows | partial | Props/Exchange.lean | Proved for balanced arrays (all permutations, all schedules); unbalanced arrays raise IndexError or hang, both shown. |
| C34 | arange does not depend on the distribution | partial | Props/Factories.lean | Proved for integer arguments with a non-negative element count and /stop-start/ < 2^53 (true division modelled with binary64 rounding); negative counts raise on the last rank instead of giving an empty array. |
| C35 | eye does not depend on the distribution | proved | Props/Factories.lean | All shapes, split None/0/1, all P, all ranks. |
| C36 | linspace does not depend on the distribution | proved | Props/Factories.lean | Exact (rational) arithmetic as the property states. |
| C37 | array(split=s) distributes and array(is_split=s) assembles | proved | Props/Factories.lean | is_split assumed a valid axis of every local object. |
| C38 | roll | proved | Props/Exchange.lean | Along the split axis, all shifts, all distributions, all schedules. MPI_TAG_UB is not modelled (tags are global indices). |
| C39 | flip | proved | Props/Exchange.lean | Along the split axis, all distributions, all schedules, including the final balance_. |
| C40 | diag/diagonal | partial | Props/Diag.lean | diagonal proved for every shape, offset, axes: unsplit, split along another axis (any distribution), split along one of the two axes in canonical distribution; false for unbalanced arrays (counterexample proved). diag of vectors proved; concatenate with the padding and balance_ enter as the padded canonical chunks. |
| C41 | reshape | partial | Props/Reshape.lean | Every shape, distribution (unbalanced too), split and P; except 0-d results of distributed arrays, which fail (proved). The argument is changed in place (proved). |
| C42 | Split bookkeeping of axis permutations | partial | Props/ND.lean | transpose, moveaxis, swapaxes, stack in full generality; expand_dims for ascending axes (violated otherwise: wrong shape or IndexError), squeeze for distinct axes (repeated axes give a negative split; the argument is resplit in place) |
| C43 | nonzero | partial | Props/Diag.lean | exact set of positions for canonical distributions along any axis, row-major order for split 0, replicated case; false for unbalanced arrays (proved). |
| C44 | where | partial | Props/Diag.lean | elementwise formula over finite/inf/nan values without rounding; false for conditions other than 0/1 and for non-finite unselected values (proved). |
| C45 | fill_diagonal | partial | Props/Diag.lean | canonical distributions and replicated arrays; false for unbalanced arrays (proved). |
| C46 | Large-count datatypes | partial | Props/Datatype.lean | Typemap exact for every count, ValueError exactly when refused; but the type is returned uncommitted (unusable) when the count is a multiple of the limit (proved). |
| C47 | Size-1 arrays convert to the same Python scalar on every rank | proved | Props/Diag.lean | __cast: allreduce of the owner's rank and Bcast from it. |
| C48 | Point-to-point exchanges are schedule independent | proved | Props/Mpi.lean | All exchanges with unique envelopes, all interleavings of posts and MPI matches, rendezvous sends; roll and permutation are shown to be such exchanges under C38/C33. |
| C49 | Ordered blocking transfers do not deadlock | proved | Props/Mpi.lean | All transfer lists, all interleavings, arbitrary mix of buffered and rendezvous sends, FIFO per envelope. |
| C50 | sanitize_distribution aligns operands | proved | Props/BinaryOp.lean |  |
| C51 | Partition interface | partial | Props/Partition.lean | blocks tile the array and hold its elements if the starts are exactly representable in the array's type (always for integer types; up to 2^24 for float32: counterexample proved beyond); round trip if no rank holds the whole split axis (counterexample proved otherwise). |
| C52 | Type codes name one type | partial | Props/Types.lean | Lookup is independent of enumeration order; char() of bool is "u1" which names uint8 (violated). |
| C53 | array() of a distributed array keeps its content | partial | Props/Factories.lean | array(x, dtype=other) of a distributed x returns the local parts as replicated arrays; with split it loses elements. |
| C54 | arange with float arguments has the declared shape | partial | Props/Factories.lean | Exact arithmetic proved; in binary64 arange(0, 0.3, 0.1) holds 4 elements but declares 3. |
| C55 | Seeding is reproducible and agreed upon by all ranks | proved | Props/Random.lean | draws are represented by the counter / position they advance |
| C56 | Datatypes of tensors in memory | partial | Props/Datatype.lean | All shapes/strides; the contiguous case with counts is limited to 31 bits (int32 factor), beyond which displacements wrap (proved). |
| C57 | Collectives without counts on large buffers | partial | Props/Datatype.lean | Right up to COUNT_LIMIT elements; beyond, one item divided by P is zero items (proved for every P>1). |
| C58 | Blocks exchanged by Alltoallw and Alltoall | partial | Props/Datatype.lean | All shapes, strides, P; fails only for 2-D tensors with unit last stride and row stride at least COUNT_LIMIT (proved: one row instead of all). |
| C59 | argmax and argmin | partial | Props/Arg.lean | 1-D and one-position reductions in any MPI order; several positions in rank order; axis=None with split 0 and evenly divisible rows. Counterexamples proved: unbalanced arrays, axis=None with uneven rows or split 1, int64 beyond 2^53, values below the neutral element, ties with commutative reordering. NaN not modelled. |
| C60 | sort | partial | Props/Sort.lean, Proof/Sort.lean | Full functional correctness of the sample sort (pivots, both exchanges, rebalancing plan) for canonical distributions, n > 0 and a non-negative axis. False for the default axis=-1 (only local sort), empty arrays (IndexError), unbalanced arrays (RuntimeError/IndexError) and indices that the value type cannot hold: all proved. NaN not modelled. |
| C61 | concatenate | partial | Props/Concat.lean | Proved for canonical operands (and for any operands within their share of the result), all branches, all schedules. False for operands that are not balanced (order changes silently because of abs(), or RuntimeError) and for a replicated operand next to a split one when another axis has extent 1 (RuntimeError): proved. Type promotion, which is C24-C26, is not part of this model. |
| C62 | Means and variances | partial | Props/Moments.lean | Exact rational arithmetic with NaN. mean(x) is completely characterised (right iff the first two ranks are not both empty). False: NaN for such distributions; var(axis=split, ddof=1) is NaN as soon as a rank has exactly one slab; var over several axes with ddof=1 uses the number of slabs; buffers of mean are float32; wrong shape for one-element results; wrong split axis for tuple axes (exact condition proved); skew/kurtosis with a negative split axis raise. Floating-point rounding of the merge itself is not bounded. |
| C63 | Counting | partial | Props/Counting.lean | Exact (integer) weights. bincount is completely characterised: right exactly if the ranks agree on the element type (exact condition proved), which fails for weights with an empty rank (float32 weights, or minlength > 0): erroneous Allreduce. histc: the bin of an element is an abstract function, common to all ranks. digitize: integers, monotone bins. |
| C64 | outer computes the outer product on every schedule | partial | Props/Outer.lean, Proof/Kahn.lean | Proved for every number of ranks, distribution and schedule if MPI buffers the messages; the ring starts with Send on every rank, so it hangs (proved) when MPI does not buffer, and an operand that is not split is resplit in place (proved). Right-or-raises: it does not raise iff the travelling operand is canonical. kahn: programs of blocking Send/Recv are deterministic. |
| C65 | tril and triu return the triangle of the global array | partial | Props/LinAlg.lean | All shapes, diagonals and split axes; a split along one of the last two axes must be canonical: the offsets come from chunk, and an unbalanced array gets the wrong triangle (proved). |
| C66 | trace is the sum over the diagonal of the global array | partial | Props/LinAlg.lean | Matrices: every offset, canonical split. More dimensions: split axis not a trace axis. Proved violations: unbalanced matrices; axis order (1, 0) with an offset; wrong result split if the split axis lies between the trace axes; RuntimeError if the split axis is a trace axis and a rank holds two or more diagonal elements. |
| C67 | dot of two vectors is their inner product | partial | Props/LinAlg.lean | Canonical or replicated operands of equal length. Proved violations: unbalanced operands lose products silently; different lengths are accepted when an operand is split. |
| C68 | Distance matrices are computed without deadlock and are right or an error | proved | Props/Distance.lean | Blocking Send/Recv with and without buffering. Metric is a function of two rows; number of features is not 0; type promotion not modelled. |
| C69 | Distance functions refuse what they do not support | partial | Props/Distance.lean | Violated: X split along the rows and Y along the columns returns zeros, because the branch that raises cannot be reached. All other combinations are computed or refused. |
| C70 | det of a distributed matrix is its determinant | partial | Props/Gauss.lean | Exact arithmetic in an arbitrary field. Proved with an exact test for zero, and in general: the result is 0 or the determinant. Violated as heat is: np.isclose takes entries up to 1e-8 for 0, so the distributed det of diag(1e-9, 1) is 0. |
| C71 | inv of a distributed matrix is its inverse, and it raises only for singular matrices | partial | Props/Gauss.lean | Exact arithmetic in an arbitrary field. What is returned is always the inverse; with an exact test for zero it raises exactly for singular matrices. Violated as heat is: diag(1e-9, 1) has an inverse, the distributed inv raises. |
| C72 | Matrix products are right for every combination of splits | proved | Props/Matmul.lean, Props/Matvec.lean | Two-dimensional operands and vectors on P ranks, integer elements without overflow; batch dimensions and the GPU integer detour are not modelled. |
| C73 | Matrix products of unevenly distributed operands are right or refused | partial | Props/Matmul.lean, Props/Matvec.lean | Proved for every combination of splits except a split summed axis with a replicated partner; there the code is wrong (counterexamples proved). |
| C74 | The product of two vectors is their inner product | partial | Props/Matvec.lean | The value is right whenever all processes return; different lengths are noticed only by some processes and replicated arguments are distributed in place (both proved). |
| C75 | load_csv reads every row exactly once | proved | Props/Csv.lean | Files are lists of bytes, cells are byte strings (decoding and float are not modelled); the final balance_ is C09. |
| C76 | load_csv works for every table | partial | Props/Csv.lean | The claim is false of the code: a column of values is lost if no process has two line starts, a process without line start raises, and a cut inside a carriage-return line-feed pair drops the last character of a value (all proved); load_csv_spec is the part that holds. |
| C77 | diff is the discrete difference for every distribution | proved | Props/Diff.lean | Exact elements. prepend and append are concatenations (C61) before diff. |
| C78 | diff accepts every order and distribution | partial | Props/Diff.lean | False of the code: n = extent + 1 returns elements; along another axis an unbalanced array in which a process holds more than the one before it raises (truncated message); both proved. |
| C79 | A distributed sparse matrix is the matrix | proved | Props/Sparse.lean | The transport (exchange with the neighbour, Allreduce, resplit) is taken as its result (C13, C29). |
| C80 | Sparse matrices of any size can be gathered | partial | Props/Sparse.lean | False of the code above 2^24 entries on one process: the counts are float32.  Proved up to 2^24 entries in total. |
| C81 | Element-wise operations on sparse matrices | partial | Props/Sparse.lean | Proved for matrices distributed alike (canonically next to a replicated one).  False of the code otherwise: the shortcut for processes without entries skips the check of the local shapes, and returns the element type of the first operand. |
| C82 | Sparse and dense agree | partial | Props/Sparse.lean | False of the code for adding a scalar, which leaves the elements that are not stored alone. |
| C83 | unique returns every value once | partial | Props/Unique.lean | Proved for axis=None and axis=split.  False of the code along any other axis: the first m slabs are returned, m the largest number of distinct pieces of a process. |
| C84 | unique's inverse indices lead back to the array | partial | Props/Unique.lean | Proved for axis=None (unbalanced arrays raise).  False of the code along the split axis if a process holds a slab twice; along a split axis other than 0 it always raises IndexError. |
| C85 | topk returns the best values | partial | Props/Topk.lean | Proved for k at most the extent, values exact in float64 and not worse than the neutral value, if no process raises.  False of the code otherwise: a vector with fewer than k elements on a process raises, int8 -128 loses against the neutral -127, k too large is not noticed, int64 is rounded. |
| C86 | topk's indices point at the values | partial | Props/Topk.lean | False of the code: the offset is computed from the local extent and multiplied by the rank, which is right only if every process holds one element. |
| C87 | load_hdf5 returns the selected part of the data set | proved | Props/Hdf5.lean | all shapes, slices, splits, process counts; element types/conversions not modelled |
| C88 | load_multiple_hdf5 concatenates the files | proved | Props/Hdf5.lean | files as lists of slabs; dtype promotion not modelled |
| C89 | save_hdf5 never writes a wrong file | proved | Props/Hdf5Save.lean | transition system of the serial branch; h5py's parallel driver (mpio) not modelled |
| C90 | the file is complete when save_hdf5 returns | partial | Props/Hdf5Save.lean | holds for rank 0 only; counterexample for rank 1 of 3 |
| C91 | save_csv writes every element at its place | partial | Props/SaveCsv.lean | Proved for one-byte separators, headers with one byte per character, and items of the computed width. Without the first two conditions the claim is false of the code (violated theorems). MPI-IO is a library: Write_at is modelled as overwriting bytes. |
| C92 | save_csv of an integer array can be read back exactly | proved | Props/SaveCsv.lean | log10 is modelled exactly; the reading side needs the condition of C80 that every rank's share of the file holds header+2 lines. |
| C93 | save_csv of a floating point array keeps every value up to the requested decimals | partial | Props/SaveCsv.lean | Proved when the largest absolute value is zero or exceeds 1/10 and rounding does not add a digit before the point; both conditions are needed (violated theorems). Values are rationals; nan and inf not modelled. |
| C94 | pad adds exactly the requested slabs at both ends | partial | Props/Pad.lean | The full claim is false of the code: one slab on two or more ranks, or an unbalanced array, is not padded at its end (proved counterexamples). Proved for balanced arrays with at least two slabs or on one rank, and for padding along other axes. |
| C95 | convolve returns the convolution of its operands | partial | Props/Convolve.lean | The full claim is false of the code: two replicated operands with an even kernel and stride 1 give rank-dependent results; an unbalanced signal is padded wrongly. Proved for everything else (unbalanced signals with mode valid included). Exact arithmetic; batches and data types are not modelled. |
| C96 | convolve accepts what its documentation allows and refuses the rest | proved | Props/Convolve.lean |  |
| C97 | percentile and median return the percentile of the whole array | partial | Props/Percentile.lean | Proved for balanced non-empty arrays, exact positions, scalar q or ascending lists of at least two percentages. The full claim is false of the code: negative percentages wrap around, lists in another order or of length one are wrong, float32 positions fail above 2^24 elements, unbalanced arrays fail in sort (C60). |
| C98 | percentile over several axes has the documented shape | partial | Props/Percentile.lean | Proved for the leading axes in any order; false for other tuples (the shape of the transposed array is indexed with the old axis numbers). |
| C99 | GaussianNB training in batches | partial | Props/Naive.lean | Exact field arithmetic; ht.mean/var/average/unique and masks are taken by their results. Proved for all batch sequences that contain every class: counts, means, variances, and the smoothing is the class-weighted average of the batch epsilons. False: a batch without some class is refused, and the refused call changes sigma_; fit with other classes raises; with smoothing the batches do not add up to one fit. User-given priors are not modelled. |
| C100 | GaussianNB prediction | partial | Props/NaivePredict.lean | Real arithmetic for rows, positive priors and variances; the logarithm of a zero prior and floating point are not modelled, nor samples split along the feature axis. |
| C101 | equal compares the whole arrays | partial | Props/Compare.lean | Arrays with more than one element, operands split along the same axis or not split: exact for every distribution. Different split axes raise (documented in the code). False for one-element float64 arrays (rounded to float32). Casting to the common type is C24-C26. |
| C102 | allclose and isclose compare corresponding elements | partial | Props/Compare.lean | allclose is right if at most one operand is distributed or both have the same local sizes; otherwise it raises or returns a wrong answer. isclose of distributed operands returns P copies or fails. |
| C103 | split cuts a distributed array into consecutive parts | partial | Props/Split.lean | Proved for evenly distributed arrays: an integer argument up to the number of processes (and any larger one for which every process has room, stated as hypothesis), and sorted non-negative index lists. Violated: more equal parts than processes raises IndexError when every process holds the same number of rows; arrays that are not evenly distributed are cut at the wrong places; unsorted index lists are refused though numpy accepts them. |
| C104 | tile repeats a distributed array | partial | Props/Tile.lean | Proved for every distribution in which the first process holds at least one row. Violated when the first process is empty: rows of the result stay uninitialised memory. Repetitions along other axes are local and not modelled. |
| C105 | repeat repeats each element of a distributed array | partial | Props/Repeat.lean | Proved for one repetition number (all distributions) and for arrays of repetition numbers distributed like the array. Violated: uneven arrays raise or silently give a wrong result, repeats of the wrong length is accepted along the split axis, empty arrays are returned unchanged. Repetition along another axis is local and not modelled; negative repetition numbers are outside the model. |
| C106 | unfold returns all windows of a distributed array | partial | Props/Unfold.lean | Windows and error conditions are proved for all distributions, sizes and steps on two or more processes. Violated: a process that holds no window declares the result as float32 whatever the type of the input. |
| C107 | KMeans never makes its objective worse and ends in a consistent state | partial | Props/KCluster.lean | Exact arithmetic in an ordered field; given initial centres. Proved: means, monotone objective (also with empty clusters), iteration bounds, consistency at a fixed point. Violated: an empty cluster's centre moves to the origin, inertia_ is the squared movement of the centres, random initialisation never draws the last sample and fails for one sample. The k-means// initialisation is not modelled. |
| C108 | KMedians centres are medians and KMedoids centres are samples | partial | Props/KCluster.lean | Proved for clusters without zero samples (KMedians) and evenly distributed samples (KMedoids). Violated: samples at the origin are dropped; on replicated data a wrong row is taken; on uneven data a wrong row or an IndexError. The median is a parameter (C98 models percentile). |
| C109 | Lasso coordinate descent never makes its objective worse and its fixed points are optimal | partial | Props/Lasso.lean | Normalised features (mean square 1), exact arithmetic. False of the code otherwise: rho is not divided by the mean square of the feature, so that on other data the result is worse than zero coefficients; replicated samples on several processes raise. |
| C110 | StandardScaler standardises and can be undone | partial | Props/Scaler.lean | Exact arithmetic; first or second rank not empty. False of the code: with_mean, with_std and sample_weight are ignored; with copy=False fit_transform returns the scaler instead of the transformed data. |
| C111 | MinMaxScaler maps the training data onto the requested range | proved | Props/Scaler.lean | Exact arithmetic; infinity is represented by a number beyond all data. |
| C112 | MaxAbsScaler makes 1 the largest absolute value | proved | Props/Scaler.lean | Exact arithmetic. |
| C113 | Normalizer gives every data point norm 1 or leaves it alone | proved | Props/Scaler.lean | Exact arithmetic; the square root is a function with the defining property on the sums of squares that occur. |
| C114 | RobustScaler centres at the median and scales to interquantile range 1 | proved | Props/Scaler.lean | Exact arithmetic, sketched=False; the median and the percentiles are those of C97 (percentile_scalar_partial). |
| C115 | Plateau detector | partial | Props/Plateau.lean | isBetter/plateau_best need a non-negative best metric in relative mode (resp. threshold < 1); violated: in mode max with relative threshold and a negative best a worse metric counts as better; test_if_improving answers True on a plateau although its docstring says True if the metric is better |
| C116 | DASO schedule | partial | Props/Daso.lean | limits need max_global_skips >= 4 and local_skip_factor <= max_global_skips; violated: global_skip is 4 after the warm-up whatever max_global_skips is; batches_to_wait becomes negative for max_global_skips < local_skip_factor; with the documented last_batch = number_of_batches epochs are not counted and a ValueError is raised later |
| C117 | DASO parameter exchange | partial | Props/DasoPack.lean | proved when frozen parameters come after the trained ones, and for the receiver in mid-epoch when no parameter is larger than sending_chunk_size; violated otherwise: a frozen parameter first shifts the offsets (the trained ones receive zeros), a large parameter makes reshape raise |
| C118 | DataParallel: non-blocking equals blocking | partial | Props/DataParallel.lean | proved for the loops zero,forward,backward,step (all forwards) and forward,zero,backward,(forward,backward)*,step with eval() after each epoch; violated: eval() after the usual loop (examples/nn/mnist.py) adds the gradient of the batch before, gradient accumulation in the usual order loses gradients, parameters owned by the root module are read before the update, a layer without gradient in the last backward of a group is not updated |
| C119 | Shuffling a data set between epochs loses and duplicates no sample | partial | Props/Dataset.lean | Blocking shuffles proved for all histories; non-blocking proved for equal local sizes and last_epoch unset; with unequal sizes a row is dropped, with last_epoch rows are duplicated, for a test set the second epoch raises (each a violated theorem). |
| C120 | A DistributedSampler's global shuffle is a permutation of the rows and pairs samples with labels | partial | Props/Sampler.lean | Proved for balanced arrays, any permutation, with and without correction; violated for unbalanced arrays. The use of MPI.COMM_WORLD instead of the communicator of the array is not modelled. |
| C121 | create_train_val_split partitions the samples | partial | Props/Sampler.lean | Proved for 0 <= p < 1 in exact arithmetic; p = 1 fails the assertion on every process that has rows (violated theorem). |
| C122 | QR of a tall row-split matrix (TS-QR) | partial | Props/Qr.lean, Props/QrReal.lean | Exact arithmetic, commutative star ring, one matrix (no batch). Every process must have at least half as many rows as columns (true of balanced tall matrices with more than one column); a column vector on more processes than rows raises (violated theorem). realQr_ok shows that a valid local decomposition exists over the reals. |
| C123 | QR of a column-split matrix | partial | Props/QrCols.lean, Props/QrColsReal.lean | Q R = A and triangularity always for tall matrices; orthonormality needs a nonzero diagonal of R (full rank): counterexamples proved. Exact arithmetic, one matrix. |
| C124 | QR of a row-split matrix that is not tall enough for TS-QR | partial | Props/QrRows.lean, Props/QrRowsReal.lean | Q R = A and triangularity for every matrix with at most as many columns as rows whose processes' row counts differ at most by a factor of two (balanced, at least as many rows as processes); orthonormality needs a nonzero diagonal of R. Fewer rows than processes raises, rank deficiency gives a non-orthonormal Q (violated theorems). Exact arithmetic, no batch. |
| C125 | Triangular systems | partial | Props/SolveTri.lean | A x = b for every invertible upper triangular matrix when b and x have the same block sizes (balanced), for A split along columns, rows or not at all (default float type). With another type and A not split the call fails; with unbalanced b the result is silently wrong: both are theorems. Exact field arithmetic; batched systems are local. |
| C126 | Conjugate gradients | partial | Props/Cg.lean | The residual of the result is below 1e-10 for every symmetric positive definite matrix and every starting vector that is not already the solution; for the exact solution as starting vector the result is NaN (theorem). Exact arithmetic over the reals; vectors are whole. |
| C127 | Lanczos vectors and tridiagonal matrix | partial | Props/Lanczos.lean | V orthonormal and T symmetric tridiagonal always (also after breakdowns, whatever the random vectors, if the result is finite); V^T A V = T when the norms taken for a breakdown are exactly zero. Real branch, exact arithmetic. |
| C128 | Dense linear systems | partial | Props/Solve.lean | A x = b, with the result distributed as declared, for every accepted call in which the parts on each process belong together (SolveMatch); a singular matrix on one process makes all processes raise. Square right-hand sides are refused; three accepted combinations of splits give arrays that represent nothing: all are theorems. Exact field arithmetic; out argument and types not modelled. |
| C129 | One-dimensional Fourier transforms | partial | Props/Fft.lean | Transform of the global array along any axis, for any distribution, unless real-to-complex along the split axis (always raises) or fewer lines than processes for real input (raises): both failures are theorems. ifft(fft(x)) = x unconditional for complex x. Exact field arithmetic with a primitive root of unity; norm is part of the transform. |
| C130 | Transforms and shifts along several axes | partial | Props/Fftn.lean | fftn/ifftn/fft2/ifft2 are right for all inputs with positive extents; ifftn(fftn(x)) = x. rfftn and the shifts are right on the stated part of their domain and counterexample theorems cover the rest; irfftn along the split axis ignores part of its input. Exact arithmetic. |
| C131 | Sample frequencies | partial | Props/Fftn.lean | fftfreq unconditional; rfftfreq with split=0 right for odd n, and for every even n the last frequency is missing (theorem). Numerators only, the division by n*d is elementwise. |
| C132 | Hierarchical SVD: error estimate, termination, messages | partial | Props/Hsvd.lean | Proved for all matrices, process counts, parameters and merge trees in exact ordered-field arithmetic; the local torch.linalg.svd is any routine returning a singular value decomposition (existence over the reals proved). hsvd_estimate_violated: the bound can be vacuous (100 % although nothing is dropped) when safetyshift is at least twice the number of columns. Not modelled: rounding, an array with split=None on several processes. |
| C133 | hsvd_rtol keeps the relative tolerance | partial | Props/Hsvd.lean | Tolerance kept for 2^k processes, k >= 1, if maxrank does not bind and safetyshift >= 1; for other numbers of processes a bound larger by sqrt((2P-1+ceil(log2 P))/(2P-1)); hsvd_rtol_violated is a real 8 x 8 matrix on one process for which the code exceeds the tolerance; hsvd_small_block_violated: with safetyshift=0 and a small first block every run fails; hsvdRtolArgs_violated: a valid maxrank is refused. |
| C134 | Full SVD | partial | Props/Svd.lean, Props/SvdGeneral.lean | Tall skinny and short fat branches: all process counts and merge parameters >= 2, under the distribution conditions of the tree QR, local QR and SVD as parameters (existence over the reals proved). General branch (polar and eigh): orthonormal factors, exact residual and error bound if the polar iteration has converged; a singular value decomposition if the divisions of eigh are exact. False in the general branch for rank deficient matrices (left factor not orthonormal) and multiples of orthogonal matrices (0/0 in eigh). Exact arithmetic. |
| C135 | Incremental SVD | partial | Props/Isvd.lean | Reconstruction, orthonormal V, ordering and the truncation error proved for all sizes in exact arithmetic with QR and the small SVD as parameters (existence over the reals proved); columns of U are proved orthonormal where the value is not zero, and isvd_ortho_violated shows that they need not be otherwise (new data in the span of U). Not modelled: distribution of the factors, rounding. |
| C136 | Incremental PCA after every sequence of batches | partial | Props/Isvd.lean | ipca_history for every history and n_components; exactness and orthonormality without n_components for one or two batches, and for any number if the first two span all directions; ipca_ortho_violated: two samples in two batches give twice the same component; ipca_batch_violated: the batch of the caller is centered in place from the second call on. Not modelled: distribution, rounding. |
| C137 | PCA: explained variance and reconstruction | partial | Props/Pca.lean | Proved for the full solver in exact arithmetic for nonconstant data with at least two samples and n_components not larger than the dimensions; pca_large_violated and pca_constant_violated: otherwise n_components_ exceeds the number of components and inverse_transform raises. Missing: solvers hierarchical (see C132, C133) and randomized, rounding. |
| C138 | Partial H5 data loader: every batch, in order, under every interleaving | proved | Props/Pds.lean | Over all interleavings of the loading thread, the converting thread and the consumer and any number of epochs, at the granularity of statements on shared data; transforms, collation and device transfer are not modelled. |
| C139 | Partial H5 data loader: new data keeps being loaded | partial | Props/Pds.lean | The property is false: notify before wait is lost and the equality test len(used_indices) == load_len then never holds again. pds_stuck and pds_shifted say exactly from which states loading never resumes, for every continuation; the violated theorems give reachable ones. |
| C140 | Partial H5 data loader: items belong together and to the process | partial | Props/Pds.lean | Proved: the arrays agree in every reachable state in which the loading thread is not overwriting them, and items read there are whole. False in general: pds_torn_violated (read between two overwrites), pds_foreign_violated (rows of the next process are loaded). |
| C141 | print of a distributed array shows the array | partial | Props/Printing.lean | Exact condition proved: along the split axis the output is right iff the first process that begins after slab edgeitems begins at or before slab n - edgeitems (always on two processes); otherwise slabs are missing without ellipsis (print_violated: 7 rows on 3 processes with default options). Formatting of numbers is torch's. |
| C142 | Batch-parallel clustering | partial | Props/BatchCluster.lean | Exact arithmetic; random draws are arbitrary. False: a process with fewer different samples than n_clusters raises alone (bp_few_violated), functional_value_ with one feature sums over all pairs (bp_value_violated). Subsampling above 2^24 - 1 rows not modelled. |
| C143 | Assigning an array through a slice | partial | Props/SetValue.lean | Balanced arrays, start >= 0 and stop >= -n (C17). Distributed values of other extent than a: proved for all steps and distributions. Replicated tensors: proved for step 1 when the slice begins at a chunk boundary or stays on one process; proved to raise in every other step-1 case; with steps it raises or silently writes wrong values. Value with the extent of a: proved for a[:] = v with balanced v. |
| C144 | Assigning through index tensors and masks | partial | Props/SetValue.lean | Balanced arrays. False: indices outside [0, n) are ignored, unbalanced arrays are written in the wrong place, lists and integer arrays as key raise TypeError, vector values raise unless all indices are on one process. |
| C145 | kNN predicts the majority class | partial | Props/Knn.lean | Replicated labels: proved. Distributed labels: proved when the gathered rows come in neighbour order; otherwise the labels are wrong (counterexample). A single test sample with k = 1 raises. |
| C146 | Peak to peak is maximum minus minimum | partial | Props/Ptp.lean | Values proved when every process has a slab and along other axes; false with empty processes, for split metadata with negative axis, keepdims or tuples, and for axis=(0, 1). |
| C147 | Graph Laplacian | partial | Props/Laplacian.lean | Exact real arithmetic. The normalized Laplacian is wrong when unweighted eNeighbour graphs with an upper threshold get self-loops (lap_norm_loop_violated). |
| C148 | Silhouette coefficients | proved | Props/Silhouette.lean | Exact arithmetic in an ordered field, zero diagonal; the sampling of silhouette_score(sample_size=...) is not modelled. |
| C149 | Writing into out, in place and under a condition | partial | Props/OutOp.lean | out= and in place: proved for all distributions (nonempty). where=: proved when the condition is distributed like out or not distributed; otherwise raises or is silently wrong. |
| C150 | Covariance matrix | partial | Props/Cov.lean | Exact arithmetic, balanced data. False: vectors, one variable with distributed observations and integer data raise. |
| C151 | Initial cluster centres are samples | partial | Props/KcInit.lean | Random draws and comparisons are arbitrary parameters. False: last sample never drawn, one cluster gives no centre, one selected sample is lost, replicated samples are selected once per process. |
| C152 | Collectives along an axis | partial | Props/CommAxis.lean | Proved for all shapes, axes, counts and displacements; Alltoall for equal parts along equal axes. False: Alltoall(send_axis=0, recv_axis=1) transposes each block (alltoall_resplit_violated). |
| C153 | Many files make one array | partial | Props/ManyFiles.lean | Proved if all processes list the files in the same order, split is an integer and the communicator is the world. False otherwise (three counterexamples). Wildcard zarr: proved for integer split. |
| C154 | save_zarr is safe under concurrency | proved | Props/ManyFiles.lean | Balanced arrays with at least one slab, one axis of slabs; zarr is modelled as reading a chunk, changing it, and writing it back. |
| C155 | Distributed eigendecomposition | partial | Props/Eigh.lean | Exact real arithmetic; the local eigensolver, polar, QR factor, starting columns and rounded share are parameters. Residual equals the sum of the neglected blocks for any oracle; bounded if all iterations converged. Descending order and exactness only if polar is exact and the shift is not an eigenvalue. False: eigh(c I) on several processes divides by zero. |
| C156 | Polar decomposition | partial | Props/Polar.lean | Exact real arithmetic; coefficients (elliptic functions) and QR are parameters; convergence of the singular values to 1 is a hypothesis. False: the iteration count table is not monotone in kappa for r=1. |
| C157 | Norms | partial | Props/Norm.lean | Exact real arithmetic, real elements. Equal to the norms of Mathlib for every distribution. Orders 1 and inf: exactly the pairs of axes for which the code is right are characterised (matrix_norm_axes); axes counted from the end are wrong without keepdims. Integer arrays wrap around. |
| C158 | Weighted averages | partial | Props/Average.lean | Exact numbers, one position of the result. All refusals are characterised. Unbalanced weights of the same shape: the processes disagree about the balance of the copy, so some enter a collective the others do not (average_unbalanced_violated); average_agree says exactly when they agree. |
| C159 | Skewness and kurtosis | partial | Props/Average.lean | Exact numbers. Missing: distributions in which the first two processes are both empty (mean is then NaN, C62), and an array whose mean has one element (skew_single_violated). |
| C160 | convolve2d returns the two-dimensional convolution | partial | Props/Convolve2.lean | Exact arithmetic, no batches. Every result is the convolution (with padding modes for balanced operands). False: with a stride along the split axis that leaves a process without outputs the call fails (convolve2d_stride_violated); accepted if the stride is at most half the kernel. |
| C161 | flip and rot90 of arrays of any dimension | proved | Props/Rot90.lean | The messages of flip are C39 and C48; the balanced attribute of the result is left open; torch.flip, torch.rot90 and permute are library functions. |
| C162 | Stacking one-dimensional arrays | partial | Props/StackVec.lean | False: hstack of three or more vectors returns a matrix; a vector of one element next to a distributed vector is broadcast; hsplit of a distributed vector raises; vstack of replicated and distributed vectors of one element raises. |
| C163 | Element-wise operations on arrays of any dimension | partial | Props/BroadcastND.lean | Proved for all shapes in which no extent 1 is broadcast to 0 along an axis; there it is false. where= is C20; the types of the result are C09. |
| C164 | broadcast_to and broadcast_arrays | partial | Props/BroadcastND.lean | broadcast_to is proved except for extents 1 to 0. broadcast_arrays is false for arrays with different numbers of axes behind a distributed one: the example of its documentation raises, and a vector and a square matrix give a silently wrong result. |
| C165 | Coordinate matrices (meshgrid) | partial | Props/MeshCross.lean | Values, shapes and splits are proved for all vectors (one axis); 0-d arguments and the type of the results are not covered. The balanced attribute of the result is always True: false for an unbalanced vector. |
| C166 | Cross products | partial | Props/MeshCross.lean, Props/CrossAxes.lean | Proved for a common vector axis and for different axisa, axisb, axisc, equal shapes apart from the vector axes, corresponding split axes and equally large parts. Missing: broadcasting, axes that differ for operands with different numbers of axes. False for two-dimensional vectors in front of the split axis (the split is not adjusted) and for differently distributed operands (never redistributed). |
| C167 | flatten | proved | Props/MeshCross.lean | Any shape, split and distribution. |
| C168 | netCDF files | partial | Props/NetCdf.lean | Proved for evenly distributed arrays and regions that do not run down to position 0 backwards (along the split axis they may if every process has data). False for those, for replicated arrays with parallel I/O and for unevenly distributed arrays. Not covered: index arrays, unlimited dimensions, regions with additional axes of extent 1 (only their split axis and the positions every process writes to: expandedSplit_spec, merge_slices_expanded_spec). |
| C169 | Element-wise functions of one array | partial | Props/LocalOp.lean | Without out: proved for all arrays. With out: proved for operand and buffer with equally many axes that are distributed alike (or a replicated operand of extent 1 along the split axis of the buffer). A buffer that does not fit is not refused: false for these. Types: C09. |
| C170 | vmap | partial | Props/Vmap.lean | Proved for all arguments whose distributed ones have the same number of slices on every process, any number of results and any valid out_dims. False for arguments with equally many slices that are distributed differently (torch refuses). torch.vmap is modelled by its contract; chunk_size, randomness and keyword arguments are not modelled. |
| C171 | Reductions of arrays of any dimension | partial | Props/ReduceND.lean | Proved for all arrays and distributions, distinct axes, any order of combination; without keepdims for arrays with at least two axes of which one is left (for the others the local shape or the global shape is wrong: C22). Repeated axes give a wrong split axis. Exact operators; max/min: C20, argmax/argmin: C59. Types are not modelled. |
| C172 | Cumulative operations of arrays of any dimension | proved | Props/CumND.lean | Proved for all arrays, axes, distributions and scan orders, for any commutative monoid and any conversions before and after. Defect shown: the result has the type of the operand, so for booleans the totals are collapsed to True/False. The parameter out (another array) is not modelled; floating point rounding is not modelled. |
| C173 | Memory layouts keep the data | partial | Props/Memory.lean | Proved: array(split=axis) with the default order is right for all data; values are kept if the tensor begins at the beginning of its storage; order F gives a column-major result. False: a view that begins later is read at the wrong place of the copy, so that array(data, split=0, order="F") (the example of the documentation) contains uninitialised memory on every process but the first; order C leaves a column-major tensor column-major. torch views, contiguous and set_ are modelled by their contracts. |
| C174 | Dynamic mode decomposition recovers linear systems | partial | Props/Dmd.lean | Exact arithmetic; svd and eig are parameters with their contracts. The number of modes has to be the rank (more modes divide by singular values 0). predict raises if the transfer matrix is not diagonalisable. False: the documented shape (steps, features) of predict, which is (features, steps). |
| C175 | Dynamic mode decomposition with control recovers linear systems | partial | Props/Dmd.lean | Proved for one initial state and full decompositions. False for several initial states: predict mixes states and modes by a reshape. |
| C176 | Tiles read and write exactly the selected part | partial | Props/SplitTiles.lean | Proved for keys without negative integers on axes that are not split and if the last selected process holds at least as much as this one. False in general: with several tiles along the split axis the local extent of the last selected process is used on all of them (the documented example loses a column); negative integers select everything up to the tile; one tile along a split axis other than the first, with slices in the key, can raise IndexError. Tile sizes exact (float32 in the code: C14). |
| C177 | Randomized decompositions | partial | Props/Rsvd.lean | Exact arithmetic; qr, svd, eigh through their contracts. False: reigh is documented to order eigenvalues by magnitude but sorts by value, so that a negative eigenvalue of largest magnitude is not returned. |
| C178 | Spectral clustering embeds with the lowest eigenvalues | partial | Props/Spectral.lean | Proved for eigen_solver="lanczos" with as many iterations as samples. False for the default eigen_solver="randomized": the eigenvectors of the largest eigenvalues are used. |
| C179 | Parameters of estimators | partial | Props/Params.lean | Proved for values that are not dictionaries. False: nested dictionaries always raise TypeError, so that the result of get_params() of a nested estimator cannot be set; a ValueError for an unknown name comes after earlier names were set. |
| C180 | Reductions are elementwise whatever the memory layout | partial | Props/ReduceMem.lean | Proved for contiguous buffers, equal dense layouts and send buffers that differ in layout from the receive buffer. False: strided buffers in place or with equal strides reduce the wrong memory; different layouts in place add elements at different indices; a strided receive view is detached from its base tensor. |
| C181 | Constant arrays and their _like forms | partial | Props/LikeFactory.lean | The constant arrays are proved. False for _like: the communicator and an unbalanced distribution of the model array are not used, split=None cannot be asked for, full_like is float32 instead of the type of the array; full with a complex value ignores the requested type. |
| C182 | Artificial data sets have the requested samples | partial | Props/DataSets.lean | Number of samples proved; shares up to rounding. False: with few samples per process all come from the first cluster; standard deviations are used as variances; create_spherical_dataset divides the number of samples by the number of processes. |
| C183 | Test matrices have their advertised properties | proved | Props/Gallery.lean | Exact arithmetic; qr through its contract (orthonormal columns); the matrix product is C72. parter is the transpose of the matrix in the cited reference. The random numbers of random_known_rank must be strictly between 0 and 1; rand can return 0. |
| C184 | Array API type promotion | partial | Props/ArrayApi.lean | False: Python complex scalars are refused; the category "real floating-point" has the complex types. |
| C185 | Array API indices | partial | Props/ArrayApi.lean | False: the checks for masks and integer arrays are skipped for DNDarrays in the index. More than one ellipsis and too many entries are left to the DNDarray. |
| C186 | Square tiles: the partition | partial | Props/SquareTiles.lean | False for wide matrices split along the columns, for processes with fewer rows than tiles, and when the constructor asks for a negative number of rows. match_tiles is not modelled. |
| C187 | Square tiles: reading and writing | partial | Props/SquareTiles.lean | False: a local slice that ends beyond the tiles of the process is refused instead of cut. Negative tile numbers are not modelled. |
| C188 | Rounding and clipping: values and side effects | partial | Props/Rounding.lean | False: round with decimals scales the argument in place and refuses integer arrays for negative decimals; clip with out raises unless the local part has one element; clip keeps an integer dtype for floating point data; modf accepts out arrays of another length. Exact arithmetic. |
| C189 | pow and divmod with out | partial | Props/Rounding.lean | False: divmod with out1 an operand computes the remainder from the overwritten operand; pow ignores out (and where) for an integer exponent. Exact arithmetic. |
| C190 | randperm returns a permutation on all processes; randn does not depend on them | partial | Props/Randperm.lean | False after a set_state that seeds torch differently per process while the generator is Threefry. randn inherits the limits of C27. |
| C191 | condest is an upper estimate of the condition number | partial | Props/Condest.lean | False: the factor sqrt(m/nsamples) makes the result smaller than 1 for matrices with fewer rows than samples, and for single samples. The factorisations are exact. |
| C192 | std is the root of the variance with the given ddof | partial | Props/StdVdot.lean | False: every ddof > 1 gives the value for ddof = 1. Exact arithmetic; the square of the result is modelled. |
| C193 | vdot | partial | Props/StdVdot.lean | False: a one-element operand is broadcast instead of raising a ValueError. Exact arithmetic. |
| C194 | matrix_exp of a batch | partial | Props/StdVdot.lean | False: every batch that is not in the default distribution makes some process raise a RuntimeError. |
| C195 | KMedians and KMedoids fit | partial | Props/KFit.lean, Props/KCluster.lean | False: if the loop ends because of max_iter, labels_ belongs to the centres before the last update. The median is a parameter; exact arithmetic. |
| C196 | nansum and nanprod | partial | Props/NanReduce.lean | False for nanprod: infinities are replaced by the largest finite numbers. Exact arithmetic with infinities. |
| C197 | QR factorisation inside polar for column-distributed matrices | proved | Props/QrInPlace.lean | Exact real arithmetic; the local QR factorisation is a parameter (existence: realQr_ok). |
| C198 | Copies are independent of the arrays they are made from | partial | Props/Alias.lean | False: astype to the type of the array and conjugate of floating point or complex arrays share memory with the argument. Contiguous local parts; torch.conj and Tensor.type by their documented behaviour; MPS devices not modelled. |
| C199 | load and save choose the format by the extension | partial | Props/IoDispatch.lean | False: the listed extension netcdf has no dot and never matches. Extensions with white space inside the name are not covered; lower() for ASCII. |
| C200 | roll along several axes | partial | Props/RollMulti.lean | False for the arguments: a list given as shift loses the entries of the split axis. The exchange along the split axis is C38; rolling a slab along another axis is an arbitrary function; type checks not modelled. |
| C201 | split along an axis that is not distributed | partial | Props/SplitOther.lean | False: an axis of length 0 gives one sub-array whatever number is asked for; negative indices raise RuntimeError (numpy counts them from the end). Proved for positive lengths and for increasing non-negative indices. torch.split by its documented behaviour. |
| C202 | Fitting a nearest neighbour classifier | partial | Props/KnnFit.lean | False: a fit that raises because of the number of labels leaves the new samples with the old labels; the label -1 is encoded as the largest label. Global contents (distribution of the labels: C145); zero-dimensional labels not modelled. |
| C203 | Receiving into tensors on any device | partial | Props/Requests.lean | Proved for Wait and the blocking calls. False for wait(): on GPUs without GPU-aware MPI the data never reach the caller's tensor, so that the non-blocking DataParallel uses local gradients and dataset shuffling inserts uninitialised memory; on one process the non-blocking DataParallel raises AttributeError; a second Wait overwrites newer data and exchanges the axes. Tensors as functions of the index; MPI by the data it delivers. |
| C204 | Reductions of more than 2^31-1 elements | partial | Props/DerivedOp.lean | Proved for tensors at the beginning of their storage. False for slices: torch.frombuffer takes the offset in bytes and MPI passes addresses of the first element, so that the operation is shifted by storage_offset() bytes, misses the first elements and reads and writes behind the block. Memory by bytes; the order in which MPI combines the processes is not modelled. |
| C205 | Exchanges along axes beyond the first two, on any device | partial | Props/AlltoallStage.lean | Proved for the blocking call. False for Ialltoall and Ialltoallv on GPUs without GPU-aware MPI: the blocking Alltoallw gives a request without handle, so Wait returns before copying the data to the GPU. What MPI delivers into the permuted buffer: C58. |

1164 theorems are named in MANIFEST.json; axioms: 42 depend on [none]; 147 depend on [propext]; 736 depend on [propext, Classical.choice, Quot.sound]; 239 depend on [propext, Quot.sound]. The list per theorem is AXIOMS.md.
<!-- end generated -->

## 7. What is not modelled
* element-wise arithmetic of torch, linear algebra kernels, FFT, neural networks, I/O libraries (HDF5, NetCDF, Zarr, pandas);
* GPU/device placement, memory layout (`order`), MPS fallbacks, printing, profiling;
* communicator splitting; one communicator is assumed per computation;
* NaN and infinities;
* Python object identity and aliasing, except where a property says so.

## 8. Findings
Properties a user may rely on that the pinned commit does not have; each is a theorem `..._violated` (or a theorem named in the note of the
property in MANIFEST.json).
* resplit/redistribute: the recursion of `redistribute_` marks the array as unbalanced; `is_balanced` without force can answer differently on
  different ranks or hang; `SplitTiles` goes through float32.
* indexing: wrong or failing selections for unbalanced arrays (`nonzero`, `diagonal`, `fill_diagonal`), order of `nonzero` for split >= 1;
  `where` multiplies by the condition.
* reductions: neutral elements, `keepdims` and empty chunks (`max`, `min`); `argmax`/`argmin` use balanced offsets and go through float64.
* types: `result_type` depends on the order of its arguments; int64 -> float64 counts as safe; `bool.char`.
* factories: `arange(0, 0.3, 0.1)` has four local elements and global shape (3,); a negative count raises; int32 default wraps;
  `array(x, dtype=...)` of a DNDarray loses the distribution.
* random numbers: boundary values, float32 counters, dependence on the split axis, state handling.
* reshape/squeeze/expand_dims: mutation of the argument, wrong split for repeated axes, 1-element arrays to shape ().
* communication: int32 counts, `_handle_large_count` returns an uncommitted type, receive counts above the limit become 0; `roll` uses global
  indices as tags.
* permutation: passes a bound method as the balanced flag.
* partition interface: start positions pass through the element type.
* sort: the default axis only sorts locally; empty and unbalanced arrays raise; indices pass through the element type.
* concatenate: order changes for unbalanced operands; exception for mixed operands if another axis has extent 1.
* mean/var: NaN if ranks 0 and 1 are empty; float32 buffers; a one-element result loses its axes; `var(axis=split, ddof=1)` is NaN if a rank
  has exactly one slab; several axes with `ddof=1` use slab counts; integer arrays raise only when distributed; skew/kurtosis raise TypeError
  for a negative split axis.
* bincount with weights and an empty rank: the ranks reduce buffers of different element types.
* outer: every rank sends first, so it hangs without MPI buffering; an unsplit argument is resplit in place.
* tril/triu/trace: wrong for unbalanced arrays; trace ignores the order of the axes of a matrix, loses the sign of the offset, gathers along a
  wrong axis and raises if the split axis is traced.
* dot: products are lost silently for unbalanced operands; different lengths are accepted; `out` is never written.
* cdist and its relatives: X split 0 with Y split 1 gives zeros (unreachable branch).
* det/inv: the `isclose` pivot test makes diag(1e-9, 1) singular.
* matmul: a matrix with unevenly distributed columns times a replicated one (and the mirror image) is silently wrong; two vectors: different
  lengths are noticed by some ranks only and replicated arguments are distributed in place.
* load_csv(split=0): one-column files are read as rows of 0 values if no rank has two line starts; a rank whose share has no line start raises
  (the others wait); a cut between `\r` and `\n` drops the last character of the value before it; positions are sent as int32, so files of more
  than 2 GiB fail (not modelled).
* diff: n = extent + 1 returns elements instead of an empty array (through the slice bug of C14); along another axis than the split one the ranks
  still exchange values, which truncates messages of unbalanced arrays.
* sparse: counts in float32 (wrong above 2^24 entries per rank); operands distributed differently by `is_split` are combined at the wrong rows
  if the mismatching ranks have no entries; ranks without entries return another element type; scalar addition only changes stored entries;
  `out=` raises AttributeError (read-only properties); with `is_split` the matrix always claims to be balanced; aligning a replicated operand
  drops its communicator; `to_sparse` balances its argument in place.
* unique: along an axis other than the split axis the first slabs are returned instead of the distinct ones; inverse indices along the split axis
  are wrong if a rank holds duplicates, and raise IndexError for split > 0.
* topk: indices are wrong unless every rank holds exactly one element (offset from the local extent times the rank); vectors with fewer than k
  elements on a rank raise; k beyond the extent returns filling values; along axis 0 of a short matrix the wrong axis is treated (not modelled).
* **C90** (`io.py:742-782`): only rank 0 waits for the last ping. On three or more ranks, rank 1 returns from `save_hdf5` while the later ranks have not written, so a rank that saves and then loads may read missing rows (`save_hdf5_early_return_violated`). For an array that is not split the ranks other than 0 return before the file exists. Unbalanced arrays always make a rank raise inside the chain, after which the other ranks wait for a ping that never comes.
* `DNDarray.save_hdf5` (`io.py:784-786`) accepts `dtype` and drops it: the method never passes it on (not modelled).
* `save_csv` computes the width of an item from the number of digits before the point as `int(log10(max)) + 1`, which is zero or negative for arrays whose largest absolute value is at most 0.1: the line feeds are overwritten and the file is garbage (`save_csv_small_violated`). The same happens when rounding to the requested decimals adds a digit (`9.99` with one decimal, `save_csv_carry_violated`).
* `save_csv` counts header characters, not bytes (`save_csv_header_violated`), and assumes a separator of one byte (`save_csv_separator_violated`). Not modelled: a generator as `header_lines` is exhausted by the length computation, so the header is counted but not written; the argument `comm` is ignored; boolean and complex arrays leave `fmt` empty and raise; ranks evaluate `os.path.exists` independently before a conditional barrier.
* `pad` of an array with a single slab on two or more ranks, or of an unbalanced array whose last slabs are not where the formula expects them, does not pad the end (`pad_single_violated`, `pad_unbalanced_violated`; `manipulations.py:1699-1736`).
* `convolve` with two replicated operands, an even kernel and stride 1 drops the first element on every rank but 0 although nothing was duplicated; the metadata still has the full length (`convolve_replicated_violated`; `signal.py:502-515`). With a padding mode an unbalanced signal loses its last coefficients (`convolve_unbalanced_violated`).
* `percentile` (`statistics.py:1645`): `x.shape` of the transposed array is indexed with the old axis numbers, so axes other than the leading ones give a wrong shape (`percentile_axes_violated`); percentages are not checked, negative ones wrap around (`percentile_negative_violated`); lists in descending order pair wrong elements (`percentile_unsorted_violated`), a list of one percentage gathers nothing (`percentile_single_violated`); positions are float32, so the 100th percentile of 2^24 + 4 elements is an IndexError (`percentile_float32_violated`).
* `GaussianNB.partial_fit` (gaussianNB.py:332-338) compares the labels of the batch with the classes by `ht.eq` instead of membership: a batch that misses one class, or classes passed in another order, are refused (`partial_fit_accepts`); by then `sigma_` has already lost the batch's `epsilon_` (line 328), so the refused call changes the fitted model (`refused_batch_changes_state_violated`).
* `GaussianNB.fit` on an object fitted with other labels raises ValueError: the classes are compared before `_refit` is looked at (gaussianNB.py:116-119, 284) (`refit_other_classes_violated`).
* `GaussianNB.partial_fit` subtracts the new `epsilon_`, not the one added last time (279, 328): the smoothing after several batches is a weighted average of the batch values, not that of all data (`partial_fit_moments_partial`, `batches_smoothing_violated`).
* `allclose` (logical.py:141-162, 532-537) does not align two operands that are both distributed: with different local sizes it raises, or, because torch broadcasts a single local row, returns True for different arrays (`allclose_unaligned_violated`).
* `isclose` (logical.py:256-268) gathers the whole answer on every rank but declares the result as split, so it holds P copies (`isclose_copies_violated`); if the local sizes differ the Allgather has mismatching counts (`isclose_uneven_violated`).
* `equal` (relational.py:109-125) converts one-element arrays to Python scalars and back to float32: float64 values that differ only beyond float32 precision are equal (`equal_single_violated`).
* `split` with more equal parts than processes raises IndexError whenever every process holds rows up to a section boundary (manipulations.py:3028-3031, `new_indices[fill + idx + 1]` behind the end) (`split_int_many_violated`).
* `split` of an array that is not evenly distributed uses `comm.chunk` and the `sections == size` shortcut (2991-3003) and returns parts of the wrong lengths (`split_unbalanced_violated`).
* `split` with an unsorted list of indices raises (negative section sizes) though numpy returns an empty part (`split_list_unsorted_violated`).
* `tile` (manipulations.py:4378-4385) copies the receive buffer from the displacement of rank 0's message; if rank 0 holds no rows this is 0 and rows stay uninitialised (`tile_empty_first_violated`).
* `repeat` with an array of repetition numbers along the split axis distributes them evenly even if `a` is not, and never compares the lengths (2057-2063, 2081): errors, silently wrong results, and wrong lengths accepted (`repeat_uneven_violated`, `repeat_uneven_raises_violated`, `repeat_wrong_length_violated`).
* `repeat` of an array with a dimension 0 returns the input although the repeated axis may be another one (1973-1974) (`repeat_empty_shape_violated`).
* `unfold` (manipulations.py:3765-3767) creates the local tensor of a process without windows with `torch.zeros` and no dtype: that process declares the result float32, the others the input's type (`unfold_dtype_violated`).
* `KMeans.inertia_` is documented as the sum of squared distances of the samples to their closest centre; `fit` stores the squared movement of the centres (kmeans.py:141, _kcluster.py:85-89) (`kmeans_inertia_violated`).
* KMeans: a cluster without samples gets the centre 0 (kmeans.py:94-101) (`kmeans_empty_cluster_violated`); `init="random"` draws from `randint(0, n-1)`, upper bound exclusive: the last sample is never an initial centre and one sample raises (_kcluster.py:131, 150) (`kmeans_random_init_violated`).
* KMedians/KMedoids remove samples at the origin as "0-element lines" (kmedians.py:77-80, kmedoids.py:72-75) (`kmedians_origin_violated`).
* KMedoids on replicated data (`split=None`) with several processes subtracts the offset of a hypothetical even distribution from the row index and takes another sample (kmedoids.py:101-113) (`kmedoids_replicated_violated`); on uneven data likewise (`kmedoids_uneven_violated`).
* `Lasso.fit` does not divide by the mean square of the feature (lasso.py:161-167), so it only works on features normalised to mean square 1; on others it can return coefficients worse than zero (`lasso_unnormalised_violated`). Replicated data on several processes raise, because the column is rebuilt with `is_split=0` (lasso.py:156, `lasso_replicated_violated`). `max_iter=0` raises `UnboundLocalError` (lasso.py:175).
* `StandardScaler` accepts `with_mean`, `with_std` and `sample_weight` and ignores all three; the `NotImplementedError` for `sample_weight` is constructed but not raised (preprocessing.py:95-98, `standard_flags_violated`).
* With `copy=False`, `fit_transform` of StandardScaler, MinMaxScaler, MaxAbsScaler and Normalizer returns the scaler, although `TransformMixin.fit_transform` documents the transformed data (`scaler_inplace_violated`); RobustScaler returns the data.
* C115: `DetectMetricPlateau` in mode max with relative threshold compares with `best * (1 + threshold)`; for a negative best metric a worse value counts as better (mode min handles the sign). `test_if_improving` returns True on a plateau, its docstring says the opposite.
* C116: the docstring of `DASO` says `last_batch = number_of_batches`; the code (and examples/nn/imagenet-DASO.py) need `number_of_batches - 1`. With the documented value epochs are not counted and a later blocking phase raises. `global_skip = 4` after the warm-up ignores `max_global_skips`; `batches_to_wait` can become negative. One GPU per node: `AttributeError` (`reduced_comms` is never set).
* C117: `_gs_create_param_dict` counts frozen parameters, `__pack_data` skips them: trained parameters behind a frozen one receive shifted values or zeros. `_gs_rcv_update_params` fetches one chunk per parameter (`if` instead of `while`): parameters larger than `sending_chunk_size` raise.
* C118: non-blocking `DataParallel` with the loop of examples/nn/mnist.py: the forward hook adds the arrived gradient into `.grad`, the next `zero_grad` comes only with the next batch, so the flush in `eval()` adds the gradients of the last two batches. Gradient accumulation in this order loses gradients.
* C119: `dataset_irecv` permutes with `randperm(dataset.data.shape[0])` although `htdata` may have one row more on some processes: that row is dropped from `htdata` for good (datatools.py:783, 791). With `last_epoch=True` the rows of the previous epoch's receive buffer are inserted a second time. A `test_set` with `ishuffle=True` raises `AttributeError` in its second epoch (no `rcv_list`).
* C120: `_alltoall_shuffle` takes the slices from `comm.chunk` and the displacement from `counts_displs`: an unbalanced array makes processes read outside their memory. It also uses `COMM_WORLD`, not the communicator of the array.
* C121: `create_train_val_split(p=1.0)` fails its assertion (`perm[-0:]`).
* C122: `qr` of a matrix with one column and split 0 raises when a whole merge group has no rows (for example shape (2, 1) on four processes with `procs_to_merge=2`): `Q_loc` has become a 0 x 1 matrix and is multiplied by a 0 x 1 matrix. Unbalanced matrices in which the rows of a merge group are fewer than the columns fail the Scatterv shape (`scattered_Q_buf` has the shape of `R_loc`).
* C123: `qr` with split 1 of a matrix without full column rank returns a Q whose columns are not orthonormal (two equal columns on two processes may give Q with two equal columns); with more columns than rows even Q R = A may fail, because the rows of R beyond the size of the block are cut.
* C124: `qr` of a matrix with split 0 and fewer rows than processes raises (for example shape (2, 2) on four processes) because the TS-QR of its column blocks meets groups without rows; without full rank Q is not orthonormal.
* C125: `solve_triangular` with A not split, b split and a type other than the default float (for example float64) fails: the receive buffer of the residuals is allocated without the type, so that the message is truncated. With an unbalanced b (rows 2, 0, 1 on three processes) the loop silently returns a wrong x, because x is allocated balanced.
* C126: `cg` returns NaN when x0 is the exact solution (0/0 in the first pass). The `out` buffer is never written: the name is rebound.
* C127: a breakdown (norm of w below 1e-10 but not zero) leaves a T that differs from V^T A V by the size of the neglected norm; in exact arithmetic with exact breakdowns T = V^T A V.
* C128: `solve(A, B)` refuses every B with as many columns as unknowns (`solve(A, eye(n))` raises ValueError). Accepted with wrong results: A not split and b split along a batch axis; A split along a batch axis and b of the same batch shape not split (the "copies" differ between processes); one b split along its columns for a batch of matrices (the result is declared split along the wrong axis).
* C129: `rfft` and `ihfft` along the split axis always raise on more than one process (the result is indexed with a list of slices). `fft` along the split axis of a real array with fewer lines than processes fails: empty ranks keep the real type of the input (fft.py:85) and the types of the exchange buffers differ.
* C130: `rfftn`/`rfft2` halve the split axis instead of the last axis when the split axis is transformed and is not the last of the axes. `fftshift`/`ifftshift` of only the split axis of an array with two or more dimensions raise. `irfftn`/`hfftn` along the split axis ignore entries beyond n/2 of the split axis.
* C131: `rfftfreq(n, split=0)` for even n lacks the frequency n/2.
* C132: when `safetyshift` is at least twice the number of columns of a matrix on one process, `sigma_loc[loc_trunc_rank - safetyshift:]` has a negative start and the reported relative error is at least 100 % although nothing has been dropped. `hsvd(..., compute_sv=False)` for a `split=0` array returns `V.T`, i.e. the transposed left factor (svdtools.py:455-458). An array with `split=None` on P processes is treated as P copies side by side.
* C133: `hsvd_rtol` exceeds the tolerance on one process (two truncations, one accounted for) and can do so if the number of processes is not a power of two. With `safetyshift=0` and a first block below the local tolerance the code sends to `[]`. `hsvd_rtol(A, maxrank=k)` is refused when the local size is exactly 2 (k + safetyshift).
* C134: the recursive calls for wide matrices do not pass `r_max_zolopd` on (svd.py:167-184), so the argument is silently ignored for `A.shape[0] < A.shape[1]`.
* C135: if new data lie in the span of `U_old` (e.g. a repeated column), the residual is zero and `qr` of it returns arbitrary orthonormal columns; the new `U` may contain the same vector twice (with value 0). `isvd` with a distributed `U_old` calls `new_data.resplit_` and so changes the distribution of the array of the caller (svdtools.py:566).
* C136: `IncrementalPCA` keeps `min(n_samples, n_features)` components although the rank of centered data is at most `n_samples - 1`; the last component then has the value 0 and is not orthogonal to the others in general, and the next batch is projected with it. `partial_fit` subtracts the mean from the data of the caller (svdtools.py:553: `new_data -= ...` on `X.T`, which shares memory), although `copy=True`.
* `PCA(svd_solver="hierarchical", n_components=float)` calls `hsvd_rtol` with `safetyshift=0`, so the failure `hsvd_small_block_violated` is reachable through it.
* C137: `PCA(n_components=k)` with k larger than `min(X.shape)` is accepted by `fit` (full solver), but `n_components_` is k while `components_` has fewer rows, and `inverse_transform(transform(X))` raises; the same happens for constant data with a fraction as `n_components`.
* C139: in `PartialH5DataLoaderIter.__thread_convert_all` the notification is sent whether or not the loading thread is already waiting. If `load_len` items are converted before the loading thread has read its rows from the file, the notification is lost, `len(used_indices)` grows past `load_len`, the equality test never holds again, and no further row is ever loaded, in this epoch or later ones; the iterator hands out the initial rows again and again. The same happens for the rest of an epoch if `used_indices` is reset in the middle of a batch.
* C140: the loading thread overwrites the datasets one after the other while the converting thread, which does not hold the lock, goes on reading: a sample can be handed out with the label of another row. After `lcl_full_sz` rows the loading goes on into the rows of the next process (and wraps to row 0, not to `local_data_start`); the remainder `total_size % comm.size` and the last `len(index_list) % batch_size` items of an epoch are dropped; `loads_needed` is computed before `load_len` is rounded up.
* C141: `print(x)` of a summarized array split along an axis of 7 or 8 slabs on 3 processes (default options) leaves out rows and prints no ellipsis: a process that begins at or before slab `edgeitems` sends only its slabs up to `edgeitems`, even if it also holds some of the last `edgeitems`. The branch that should cut the tail (`gshape - edgeitems < offset - lshape`) never cuts anything (`prLocal_late`).
* C142: `functional_value_` of `BatchParallelKMeans/KMedians` is wrong for data with one feature (`squeeze()` drops the feature axis and the difference is broadcast to all pairs); a process with fewer different samples than `n_clusters` raises in `torch.multinomial` while the others wait.
* C143: `a[1:5] = torch.tensor([7, 8, 9, 10])` raises RuntimeError on process 0 of two while process 1 has written its part: whenever the slice begins inside a chunk and goes on on the next process, the value handed to torch is too long. With a step the part of the value is not scaled by the step: `a[1::2] = torch.tensor([10, 11, 12, 13])` on eight slabs on two processes writes 10, 11, 13, 13. `a[:] = v` raises when v has the same extent but another distribution.
* C144: assignments through index tensors drop negative and too large indices without an error, use the balanced offset on unbalanced arrays, and raise TypeError for Python lists and integer arrays (`list -= int`); vector values only work if one process owns all indices.
* C145: with labels distributed over processes `KNeighborsClassifier.predict` reshapes rows that come in the order of their owners, not of the neighbours, so neighbours of different samples are mixed and predicted classes are wrong. A single test sample with `n_neighbors=1` raises.
* C146: `ht.ptp` along the split axis with a process without slabs gives NaN (floats) or RuntimeError (integers); a negative axis, `keepdims=True` or a tuple of axes give a wrong `split` attribute; `axis=(0, 1)` returns two elements.
* C147: `Laplacian(definition='norm_sym', mode='eNeighbour', threshold_key='upper', weighted=False)`: the zeros put on the diagonal are below the threshold, so every vertex gets a self-loop and degrees are one too large.
* C149: `where=` conditions distributed along the same axis but differently are not aligned: RuntimeError or silently wrong entries; `where=` without `out` on unbalanced operands raises. `a += 1` on an empty distributed array raises ValueError.
* C150: `ht.cov(v)` of a vector always raises; a single variable with distributed observations raises (mean returns a 0-d array); integer data raise TypeError.
* C151: `randint(0, n - 1)` never draws the last sample and raises for one sample; `n_clusters=1` with init "random" on distributed data yields no centre; a k-means|| round that selects exactly one sample loses it; replicated samples are gathered once per process.
* C152: `comm.Alltoall(send_axis=0, recv_axis=1)`, documented as future and prior split axis, transposes each block, unlike the code for axes of 2 and above. The unit tests use constant blocks and do not notice.
* C153: `load_npy_from_path` and `load_csv_from_folder` use `os.listdir` without sorting; processes that list differently lose and double files. `split=None` gives every process other data in an array counted as replicated (also `load_zarr` with a wildcard). Number and rank of processes are those of MPI_WORLD, not of `comm`.
* C155: `eigh(c*I)` on several processes: the shift gives the zero matrix, polar divides by norm 0, and `int(round(nan))` raises. `_subspaceiteration(A, C, silent, depth)` passes the recursion depth as `safetyparam`. Non-convergence is silent by default; `r_max_zolopd` is never given to `polar`.
* C156: `_zolopd_n_iterations` gives 3 iterations for r=1 and 1e2 < kappa <= 1e3, fewer than the 4 for kappa <= 1e2.
* C157: `matrix_norm(x, axis=(-2, -1), ord=1)` (also -1, inf, -inf) decrements an axis counted from the end: for a stack of matrices it silently takes the maximum over the stack, for one matrix it raises. `axis=(0, 0)` is accepted. `norm` of an integer array multiplies in the integer type: `norm([65536])` of int32 is 0.
* C158: `average(x, weights=w)` with `w` of the shape of `x` but unbalanced (e.g. 3, 1, 2 of 6 slabs): `wgt.larray = weights.larray` resets the balance flag only where the size differs; processes 0 and 1 then enter the `allreduce` of `is_balanced`, process 2 does not.
* C159: `skew` and `kurtosis` of a (1, n) array split along axis 1 with `axis=1` raise ValueError (mean drops the axis, expand_dims refuses). The unbiased skewness of two and kurtosis of two or three numbers raise ZeroDivisionError instead of returning NaN. `__torch_skew` and `__torch_kurtosis` with `dim=None` call `gnumel()`, which a tensor does not have.
* C160: `convolve2d` of a distributed signal with a stride along the split axis that leaves a process without outputs creates the empty local result with the width of the signal (signal.py:823-826); if this process receives slabs in `balance_()`, `torch.cat` raises. Example: 6 x 2 on three processes, kernel 2 x 2, mode "valid", stride (4, 1).
* C162: `hstack` concatenates vectors along axis 0 only if `len(arrays) == 2` (manipulations.py:1354); three or more vectors give the matrix whose columns they are. `hsplit` of a distributed vector reshapes to the local length (1300) and raises. `stack`/`row_stack` do not compare the global shapes of operands aligned by `sanitize_distribution`: a vector of one element is broadcast if every process holds one element, otherwise processes disagree about the error. `vstack` of a replicated and a distributed vector of length 1 raises; its documentation says the split becomes 1, the code keeps 0.
* C163: an operand of extent 1 along the split axis of an operand of extent 0 raises ValueError (sanitation.py:116-118 broadcasts only to targets larger than 1).
* C164: `broadcast_arrays` aligns its operands along the split axis of the first one counted from the left (manipulations.py:190, sanitation.py:116), not from the right: the example of its own documentation (shapes (100, 10), (10,), (1, 10)) raises ValueError on more than one process, operands with too few axes raise IndexError, and a distributed vector of length 4 next to a replicated 4 x 4 matrix on 4 processes gives rows filled with one element instead of copies of the vector. The output split is that of the first array even if it gains leading axes. `broadcast_to` to a shape that is compatible but not reachable raises torch's RuntimeError instead of the documented ValueError if the array is not distributed; for distributed arrays it computes `0 + x`, so the sign of -0.0 is lost.
* C165: `meshgrid` returns arrays with `balanced=True` whatever the distribution of the vector (factories.py:1429), and with the default communicator.
* C166: `cross` tests `a.is_balanced and b.is_balanced` without calling them (basics.py:250), so operands are never redistributed: two unbalanced operands give a result whose parts do not add up to its shape. For two-dimensional vectors the axis disappears but `split` keeps its number (basics.py:262-268): shape (2, 4), split 1, axis 0 gives shape (4,) with split 1. The zeros for the third entry are created replicated, so an unbalanced array of two-dimensional vectors raises RuntimeError on some processes while the others wait. `axisc` is checked against the axes of `a`, not of the result.
* C168: `save_netcdf` turns negative ends into None only along the split axis (io.py:401-402): a region that runs backwards to position 0 along another axis selects nothing (slice(2, -1, -1)) and the save fails. Along the split axis a process without data gets slice(None, None, -1), the whole axis. With parallel I/O a replicated array is cut into chunks along axis 0 but every process writes its chunk to the whole region (io.py:265, 418-429): the shapes do not fit. The positions are computed from the even chunks, not from the actual distribution, so unbalanced arrays do not fit. `__get_expanded_split` raises IndexError for a split axis of extent 1 behind the last axis of another extent (io.py:320).
* C169: `__local_op` never checks the shape or the split of `out` (_operations.py:374-376 only checks the type): with fewer axes than `out` the data of `out` loses axes, a replicated operand and a distributed `out` leave the whole result on every process, operand and `out` with different splits leave repeated rows on every process. No error is raised and the attributes of `out` no longer describe its data.
* C170: `vmap` neither balances nor compares its arguments (vmap.py:74-88): arguments with equal global extents along their split axes but different distributions make torch raise ValueError on the processes where the local extents differ; processes where they agree wait in `array(is_split=...)` for the others. With replicated arguments only, torch refuses the call.
* C171: axes given twice are not refused by `sanitize_axis` (numpy raises ValueError) and every occurrence is subtracted from the split axis (_operations.py:511-513): `ht.sum(x, axis=(0, 0))` of a matrix with split=1 gives a result with split=-1.
* C172: `__cum_op` converts the totals to the type of the operand (_operations.py:329-331): `ht.cumsum` of a bool array is a bool array, True from the first True on, where numpy and torch count; small integer types overflow where torch returns int64.
* C173: `sanitize_memory_layout` makes a view of the storage of `x.permute(...).contiguous()` with the offset of `x` (memory.py:87-91); if `contiguous` copied, the offset has to be 0. `ht.array(a, order="F", split=0)` on two or more processes (documented example, factories.py:265-289) therefore shifts the elements on every process that does not begin at row 0, the last ones being uninitialised memory. `ht.array(t.T[1:], copy=False)` is affected with the default order. With order C a column-major tensor is returned column-major (the strides are reversed in both branches).
* C174: `DMD.predict` returns (features, steps) for one initial state where (steps, features) is documented (dmd.py:310-320). Without truncation a rank deficient data matrix leads to a division by singular values that are 0 (dmd.py:210-217); `n_modes_` can exceed the number of columns of the basis (svd_rank is not clipped).
* C175: `DMDc.predict` turns `X_red_full` of shape (states, modes, time) into (modes, states * time) by `reshape` instead of a permutation (dmd.py:690-695): with more than one initial state the predictions are wrong. dmd.py:539 sets the attribute `n_modes_system` where `n_modes_system_` is meant, which therefore stays None (harmless: `[:None]` is everything).
* C176: `SplitTiles.__get_tile_slices` uses `lshape_map[end_rank]` of the last selected process as the stop along the split axis on every process (tiling.py:246-266): in the documented example (shape (6, 7), split 1, three processes, `tiles[1]`) process 0 gets 2 of its 3 columns. A negative integer for an axis that is not split gives start 0 (tiling.py:276): `tiles[0, -1]` is the whole row of tiles. If `tile_locations[key]` has axes and one value, `lshape_map[end_rank][d]` indexes the wrong axis: IndexError, e.g. `tiles[0]` for split 1 on one process, and `get_tile_size` is the largest local extent.
* C177: `reigh` sorts the eigenvalues by value (randomized.py:194), documented is by magnitude: for eigenvalues -2 and 1, `n_eigenvalues=1` returns 1.
* C178: `Spectral` with the default `eigen_solver="randomized"` clusters by the eigenvectors of the largest eigenvalues of the Laplacian (reigh returns decreasing values, spectral.py:180-187, 219), documented are the k lowest; without `n_clusters` the differences are then never positive and the smallest gap is taken. `KMeans(params)` (spectral.py:118) passes the dictionary of additional parameters as `n_clusters`; they are silently ignored.
* C179: `set_params` passes a nested dictionary positionally to `set_params(self, **params)` (base.py:89): TypeError always. `get_params` raises AttributeError for `Normalizer` (keeps `norm` as `norm_`) and `IncrementalPCA` (does not keep `copy`).
* C180: `__reduce_like` describes every buffer with `as_buffer(rbuf, is_contiguous=True)` (communication.py:1072): in place (or with equal strides) `x[::2]` reduces the first `numel` places of memory, so that elements in the gaps are changed and later ones are not reduced; processes with different layouts add elements at different indices; a strided receive view with other strides than the send buffer is moved to a new storage by `set_` (1047-1059) and the base tensor is never updated.
* C181: `zeros_like` etc. use the default communicator instead of that of the array (factories.py:878) and the canonical instead of its distribution; `full_like` has `dtype=types.float32` as default (documented: `a.dtype`); `full(..., 1j, dtype=complex128)` is complex64 (factories.py:1123-1124).
* C182: `create_clusters` gives the rounding remainder of every process to cluster 0 (spherical.py:137-139): 6 samples on 3 processes with 3 clusters are all of cluster 0; `cluster_std` is passed as covariance matrix (140-145). `create_spherical_dataset` passes `num // P` as global size (30-38); its fourth centre is (-2,-2,-2)*offset, documented (2,-2,-2)*offset.
* C184: `_dtype_categories["real floating-point"]` is `_floating_dtypes` (_dtypes.py:120); `_check_allowed_dtypes` does not know Python complex numbers (_array_object.py:99).
* C185: `_validate_index` tests `isinstance(i, Array)` only (_array_object.py:264): with a DNDarray, masks together with other entries and integer arrays pass. `__getitem__` unwraps only an Array that is the whole key (448-449): zero-dimensional integer Arrays inside a tuple are accepted by the check but handed to the DNDarray as Arrays.
* C186: `__adjust_cols_sp1_m_ls_n` appends the columns after the diagonal and then inserts them once more (tiling.py:577-591): 38 x 128 on three processes gets tile columns at 128 and 171, and the tests expect them. Empty tile rows are removed without adjusting `row_per_proc_list` (500-507). `target_map[redist[0] + 1] -= d` and the loop over negative entries can leave negative numbers of rows (437-441, 638-642), for example for a 17 x 17 matrix on 8 processes with one tile each.
* C187: `stop if stop - start < loc_rows else start + loc_rows` (tiling.py:1108, 1122) cuts the length of the slice, not its end.
* C188: `round(x, decimals)` executes `x *= 10**decimals` on the array of the caller (rounding.py:330). `clip(..., out=out)` ends with `clamp(...) and out` (rounding.py:168), the truth value of a tensor. `clip` keeps `x.dtype` for a clamp that torch promotes to floating point (150-158). `modf` replaces the local tensor of `out` without checking its global shape or type (279-280).
* C189: the early exit of `pow` for integer exponents precedes any use of `out` and `where` (arithmetics.py:2550-2584). `divmod(a, b, out1=a)` reads `a` again after overwriting it (1266-1267).
* C190: `set_state(("Batchparallel", s, None))` seeds torch with `s + rank` without switching `__rng`, and a Threefry tuple without a counter switches `__rng` before raising (random.py:953-967); `randperm` and `permutation` broadcast only if `__rng` is not Threefry (803, 393).
* C191: the estimate of `condest` is scaled with `(m / nsamples) ** 0.5` (basics.py:150-156), which is smaller than 1 for `m < nsamples`: the result can be smaller than 1, which no condition number is.
* C192: `std` sets `ddof = 1` for every `ddof != 0` (statistics.py:2015-2024); the check for `ddof > 1` is commented out.
* C193: `vdot` multiplies with broadcasting (basics.py:2067-2071): a one-element operand does not raise the documented `ValueError`.
* C194: `matrix_exp` writes to an `empty_like` array, which is in the default distribution whatever the distribution of the argument (basics.py:1097-1098).
* C134: the general branch of `svd` relies on `polar`, whose iteration keeps a zero singular value at zero, so that `U @ V` is not orthonormal for rank deficient matrices, and on `eigh`, which divides zero by zero for a multiple of the identity, the `H` of every multiple of an orthogonal matrix (svd.py:192-201).
* C195: if the loop ends because of `max_iter`, `labels_` belongs to the centres before the last update (kmedians.py:129-145, kmedoids.py:138-154).
* C196: `nanprod` is `prod(nan_to_num(a, nan=1))` (arithmetics.py:2350-2354); `nan_to_num` also replaces infinities by the largest finite numbers.
* C198: `x.astype(x.dtype)` returns an array that shares its memory with `x` (dndarray.py:554-558: `tensor.type` returns the tensor itself), although documented as a copy; `conjugate` of a floating point or complex array as well (`torch.conj` is lazy), although `__local_op` promises a fresh tensor.
* C199: `__NETCDF_EXTENSIONS` contains `"netcdf"` without the dot (io.py:33), so files `*.netcdf` are refused.
* C200: `roll(x, shift, axis)` with a list `shift` and the split axis among `axis` deletes entries from the list of the caller (manipulations.py:2466-2472), and the same call again raises ValueError.
* C201: `split` of an axis of length 0 into s parts returns one sub-array instead of s (manipulations.py:3091: `torch.split(t, 0)`); negative indices raise RuntimeError (3104-3125), numpy counts them from the end.
* C202: `KNeighborsClassifier.fit` stores `x` before comparing lengths (kneighborsclassifier.py:93-100), so a failed fit leaves new samples with old labels; `one_hot_encoding` writes label -1 into the last column, i.e. encodes it as the largest label (60).
* C203: `MPIRequest.wait()` (lower case) and `Test()` are passed on to mpi4py (communication.py:68-77), so the staging copy is never copied back: with CUDA tensors and an MPI that is not GPU-aware, `DataParallel` with non-blocking updates (nn/data_parallel.py:206) adds its own gradient over the number of processes, and `dataset_shuffle` / `dataset_irecv` (datatools.py:708, 787) put the uninitialised `torch.empty` buffer into the dataset. On one process `Iallreduce` returns a request without handle, and `wait()` on it raises AttributeError. Calling `Wait` twice permutes `recvbuf` twice (64) and copies again.
* C204: the operation for derived datatypes (communication.py:911-922) passes `storage_offset()`, a number of elements, as byte offset to `torch.frombuffer`, on an address that already is that of the first element: reductions of more than 2^31-1 elements of a slice skip the first `offset` bytes and write `offset` bytes behind the block.
* C205: `Ialltoall(v)` with an axis beyond the first two calls the blocking `Alltoallw`, whose `None` becomes the handle of the request (communication.py:1623, 1923): `Wait` returns at once (59-60) and never copies the staged data to the GPU.
