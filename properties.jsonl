{"id": "C01", "title": "A TSCDataFrame accepts exactly the valid time series collections", "statement": "Constructing a TSCDataFrame succeeds if and only if the index has two levels, IDs are non-negative integers, time values are non-negative and of an allowed type, no (ID, time) pair is duplicated, every ID occupies one contiguous block of rows and time values strictly increase inside each block, and column labels are unique; otherwise an exception is raised.", "quantifier": "all two-level indices of any length, all IDs, all time values, all column lists", "why_tests_cant": "The set of indices is infinite; a test can only try some orderings and a check that misses one interleaving of IDs passes them all.", "anchors": ["datafold/pcfold/timeseries/collection.py:TSCDataFrame._validate_index", "datafold/pcfold/timeseries/collection.py:TSCDataFrame._validate_columns", "datafold/pcfold/timeseries/collection.py:TSCDataFrame._validate"]}
{"id": "C02", "title": "from_tensor stores every tensor slice under its own ID and nothing else", "statement": "TSCDataFrame.from_tensor(tensor, time_series_ids, time_values): for every i, selecting ID time_series_ids[i] gives exactly the rows tensor[i] in the order of increasing time, the collection has no other IDs, and default IDs are 0..n-1.", "quantifier": "all tensors of any shape, all distinct IDs in any order, all strictly increasing time values", "why_tests_cant": "Row-major flattening, ID repetition and the final sort interact for every size and ID order.", "anchors": ["datafold/pcfold/timeseries/collection.py:TSCDataFrame.from_tensor"]}
{"id": "C03", "title": "shift_matrices pairs exactly consecutive samples of the same series", "statement": "tsc.shift_matrices() returns (left, right) such that the list of pairs (left_k, right_k) is exactly the list of all (x_t, x_{t+1}) of consecutive samples inside one time series; no pair mixes two time series and none is missing.", "quantifier": "all collections, all numbers and lengths (>= 2) of time series, all ID orders in the index", "why_tests_cant": "Index arithmetic with cumulative sums differs for one series, equal lengths and unequal lengths; the failure needs a particular combination of ID order and lengths.", "anchors": ["datafold/pcfold/timeseries/accessor.py:TSCAccessor.shift_matrices"]}
{"id": "C04", "title": "from_shift_matrices and shift_matrices are inverse", "statement": "For snapshot matrices of the same shape, shift_matrices(from_shift_matrices(L, R)) = (L, R), and both orientations (row/col) give the same collection.", "quantifier": "all snapshot lists of any length", "why_tests_cant": "Round trip must hold for every length, not only the tested ones.", "anchors": ["datafold/pcfold/timeseries/collection.py:TSCDataFrame.from_shift_matrices", "datafold/pcfold/timeseries/accessor.py:TSCAccessor.shift_matrices"]}
{"id": "C05", "title": "insert_ts adds one new series under a fresh ID and changes nothing else", "statement": "After any sequence of successful insert_ts calls the collection is still valid, every previously stored series is unchanged, each inserted series is readable under the returned ID; an ID that is already present is rejected and the default ID is larger than all present ones.", "quantifier": "all collections and all finite sequences of insertions (with or without explicit ID)", "why_tests_cant": "It is a statement about all histories of insertions.", "anchors": ["datafold/pcfold/timeseries/collection.py:TSCDataFrame.insert_ts"]}
{"id": "C06", "title": "initial_states / final_states return the first / last n samples of every series", "statement": "initial_states(n) (final_states(n)) contains exactly the first (last) n rows of every series and is a valid collection; it raises if n < 1 or if some series has fewer than n samples.", "quantifier": "all collections, all n", "why_tests_cant": "Every combination of lengths and n.", "anchors": ["datafold/pcfold/timeseries/collection.py:TSCDataFrame.initial_states", "datafold/pcfold/timeseries/collection.py:TSCDataFrame.final_states"]}
{"id": "C07", "title": "drop_last_n_samples removes exactly what final_states returns", "statement": "drop_last_n_samples(n) keeps all rows except the last n of each series; together with final_states(n) it partitions the rows of every series, and the result is a valid collection.", "quantifier": "all collections, all n", "why_tests_cant": "Every combination of lengths and n.", "anchors": ["datafold/pcfold/timeseries/accessor.py:TSCAccessor.drop_last_n_samples", "datafold/pcfold/timeseries/collection.py:TSCDataFrame.final_states"]}
{"id": "C08", "title": "assign_ids_sequential is an order preserving renumbering", "statement": "assign_ids_sequential replaces the IDs by 0..n-1 preserving the relative order of IDs and the data of every series; it keeps validity and is idempotent.", "quantifier": "all collections with any set of IDs in any order", "why_tests_cant": "Renaming must be injective for every ID set.", "anchors": ["datafold/pcfold/timeseries/accessor.py:TSCAccessor.assign_ids_sequential"]}
{"id": "C09", "title": "n_timesteps, ids, n_timeseries and time_values describe the stored rows", "statement": "ids is the strictly increasing list of IDs in the index, n_timeseries its length, n_timesteps gives per ID the number of rows (a single integer exactly if all are equal), their sum is the number of rows, and time_values is the strictly increasing list of exactly the occurring time values.", "quantifier": "all collections", "why_tests_cant": "Aggregations over arbitrary sizes.", "anchors": ["datafold/pcfold/timeseries/collection.py:TSCDataFrame.ids", "datafold/pcfold/timeseries/collection.py:TSCDataFrame.n_timesteps", "datafold/pcfold/timeseries/collection.py:TSCDataFrame.time_values"]}
{"id": "C10", "title": "is_same_time_values is true exactly if all series have identical time values", "statement": "is_same_time_values() returns True if and only if every time series of the collection has the same list of time values.", "quantifier": "all non-empty collections", "why_tests_cant": "The code decides by counting unique values; that the count argument is right must hold for every collection.", "anchors": ["datafold/pcfold/timeseries/collection.py:TSCDataFrame.is_same_time_values"]}
{"id": "C11", "title": "delta_time reports the sampling interval if and only if it is constant", "statement": "delta_time returns the single value d exactly if all consecutive differences inside all series equal d (every series having at least two samples); if the series have different intervals a per-ID value is reported, NaN for irregular ones. This holds for integer and for datetime time values.", "quantifier": "all collections with at least two samples per series", "why_tests_cant": "A vacuous comparison is only exposed by collections that mix different intervals with a datetime index.", "anchors": ["datafold/pcfold/timeseries/collection.py:TSCDataFrame.delta_time", "datafold/pcfold/timeseries/collection.py:TSCDataFrame.is_const_delta_time"]}
{"id": "C12", "title": "normalize_time maps a constantly sampled collection to steps of one starting at zero", "statement": "For a collection with constant sampling d the result of normalize_time has earliest time 0, constant sampling 1, unchanged values and (t - t_min) = d * t_normalised for each row.", "quantifier": "all integer-time collections with constant sampling and compatible offsets", "why_tests_cant": "All numbers of series, starting times and intervals.", "anchors": ["datafold/pcfold/timeseries/accessor.py:TSCAccessor.normalize_time"]}
{"id": "C13", "title": "iter_timevalue_window yields every window of the given size and offset", "statement": "For one series, iter_timevalue_window(window_size, offset) yields exactly the windows of window_size consecutive samples starting at 0, offset, 2*offset, ... that fit, each once, in order; for offset 1 every sample of a series with at least window_size samples is in some window; invalid sizes raise.", "quantifier": "all series lengths, window sizes and offsets", "why_tests_cant": "Boundary conditions for every length/size/offset combination.", "anchors": ["datafold/pcfold/timeseries/accessor.py:TSCAccessor.iter_timevalue_window"]}
{"id": "C14", "title": "TSCKfoldSeries never splits a series and every series is tested exactly once", "statement": "Over all folds the test sets partition the rows, train and test of a fold are complementary, and all rows of a series are in the same side of each fold.", "quantifier": "all numbers of series, lengths and folds", "why_tests_cant": "Reshape arithmetic must be right for every size.", "anchors": ["datafold/pcfold/timeseries/metric.py:TSCKfoldSeries.split"]}
{"id": "C15", "title": "TSCKFoldTime splits all series at the same time values", "statement": "Over all folds the test sets partition the rows, and in each fold a time value is either in test for all series or in train for all series.", "quantifier": "all numbers of series, lengths and folds", "why_tests_cant": "Column-major reshape arithmetic must be right for every size.", "anchors": ["datafold/pcfold/timeseries/metric.py:TSCKFoldTime.split"]}
{"id": "C16", "title": "assign_ids_train_test produces gap free series inside one fold", "statement": "For disjoint sorted train and test indices every kept row appears exactly once, in train or in test as requested, and each new series consists of rows which are consecutive in the original, come from a single original series and from a single fold.", "quantifier": "all collections and all disjoint train/test index sets", "why_tests_cant": "The cumulative change detection must be right for each pattern of dropped samples.", "anchors": ["datafold/pcfold/timeseries/accessor.py:TSCAccessor.assign_ids_train_test"]}
{"id": "C17", "title": "assign_ids_const_delta splits irregular series into constantly sampled pieces", "statement": "In the result every series has a constant sampling interval, rows keep their order and values, and no row is invented.", "quantifier": "all collections with integer time values", "why_tests_cant": "All sampling patterns.", "anchors": ["datafold/pcfold/timeseries/accessor.py:TSCAccessor.assign_ids_const_delta"]}
{"id": "C18", "title": "Takens embedding row i holds the current sample and the samples at the given delays", "statement": "TSCTakensEmbedding(delays, lag, frequency) maps a series of length n to n - max_delay rows; the row at time index j holds x_j followed by x_{j-d} for each delay d (scaled by the kappa weights), d running over lag+1, lag+1+frequency, ...; series shorter than max_delay+1 raise; time series are never mixed.", "quantifier": "all series, all lags, delays, frequencies, any number of series", "why_tests_cant": "Offsets interact for every parameter combination.", "anchors": ["datafold/dynfold/transform.py:TSCTakensEmbedding"]}
{"id": "C19", "title": "inverse_transform of the Takens embedding returns the original samples", "statement": "inverse_transform(transform(X)) equals X without the first max_delay samples of every series.", "quantifier": "all collections and parameters", "why_tests_cant": "Round trip for every input.", "anchors": ["datafold/dynfold/transform.py:TSCTakensEmbedding.inverse_transform"]}
{"id": "C20", "title": "TSCApplyLambdas labels every column with the function that computed it", "statement": "The column named '{feature}_lambda{i}' in the output of TSCApplyLambdas.transform contains lambda i applied to that feature.", "quantifier": "all numbers of features and lambdas", "why_tests_cant": "With one feature or one lambda (as commonly tested) the two orders coincide.", "anchors": ["datafold/dynfold/transform.py:TSCApplyLambdas.transform", "datafold/dynfold/transform.py:TSCApplyLambdas.get_feature_names_out"]}
{"id": "C21", "title": "The Takens delays cover the documented window", "statement": "The delay indices are strictly increasing, all larger than lag, there are exactly `delays` of them and consecutive ones differ by frequency.", "quantifier": "all lag, delays, frequency", "why_tests_cant": "All parameters.", "anchors": ["datafold/dynfold/transform.py:TSCTakensEmbedding._setup_delay_indices_array"]}
{"id": "C22", "title": "Feature projection keeps the requested order", "statement": "projection_matrix_from_feature_names(all, select) is the matrix P such that X @ P has exactly the columns of select, in the order of select (as documented: selected and re-ordered).", "quantifier": "all lists of distinct feature names and all selections", "why_tests_cant": "Wrong only if the selection order differs from the order in all features.", "anchors": ["datafold/utils/general.py:projection_matrix_from_feature_names"]}
{"id": "C23", "title": "sort_eigenpairs permutes eigenvalues and eigenvectors together", "statement": "The result is a permutation of the input pairs (each eigenvalue stays with its own vectors) and ordered by descending (ascending) magnitude.", "quantifier": "all lists of eigenpairs", "why_tests_cant": "All permutations and ties.", "anchors": ["datafold/utils/general.py:sort_eigenpairs"]}
{"id": "C24", "title": "is_integer decides integrality for every number", "statement": "is_integer(n) returns True if n is an integer or a float with integral value, False otherwise, for every n including zero. is_scalar answers for every object, without an exception, whether it is a number.", "quantifier": "all numbers", "why_tests_cant": "A single special value breaks it.", "anchors": ["datafold/utils/general.py:is_integer"]}
{"id": "C25", "title": "The configured system type and mode select the matching evolution rule", "statement": "For each valid combination of sys_type (flowmap/differential), sys_mode (matrix/spectral), is_controlled and is_affine the predicted evolution uses a rule that honours all four settings, in particular a controlled system uses the control input.", "quantifier": "all 16 combinations of settings", "why_tests_cant": "Missing branch only shows for one combination.", "anchors": ["datafold/dynfold/dynsystem.py:LinearDynamicalSystem", "datafold/dynfold/dynsystem.py:SystemSolveStrategy.select_strategy"]}
{"id": "C26", "title": "Flow map evolution obeys the semigroup law", "statement": "Evolving a linear flowmap system for k steps yields A^k x0 at every time value, for all initial conditions at once; evolving m steps and then n steps equals evolving m+n steps.", "quantifier": "all matrices, states, numbers of steps and initial conditions", "why_tests_cant": "Unbounded horizon.", "anchors": ["datafold/dynfold/dynsystem.py:LinearDynamicalSystem.evolve_system"]}
{"id": "C27", "title": "Spectral and matrix mode predict the same states", "statement": "If the eigenpairs are those of a diagonalisable system matrix, spectral mode and matrix mode give the same prediction for all step counts.", "quantifier": "all diagonalisable matrices, states and step counts", "why_tests_cant": "Unbounded horizon, all matrices.", "anchors": ["datafold/dynfold/dynsystem.py:LinearDynamicalSystem", "datafold/dynfold/dynsystem.py:LinearDynamicalSystem.compute_spectral_system_states"]}
{"id": "C28", "title": "Controlled flow map evolution follows x_{n+1} = A x_n + B u_n", "statement": "The predicted state after n steps equals A^n x_0 + sum_{k<n} A^{n-1-k} B u_k; it never depends on control inputs after the last step.", "quantifier": "all matrices, states, control sequences and lengths", "why_tests_cant": "Unbounded horizon and control sequences.", "anchors": ["datafold/dynfold/dynsystem.py:LinearDynamicalSystem"]}
{"id": "C29", "title": "Prediction time values are accepted exactly if they are valid", "statement": "User time values are accepted iff one dimensional, numeric or datetime, non-negative, finite and strictly increasing; after acceptance the prediction contains exactly these time values.", "quantifier": "all arrays of time values", "why_tests_cant": "All lists.", "anchors": ["datafold/dynfold/base.py:TSCPredictMixin._validate_time_values_format", "datafold/dynfold/base.py:TSCPredictMixin._validate_and_set_time_values_predict"]}
{"id": "C30", "title": "DMD recovers the system matrix from noise free snapshots", "statement": "If all snapshot pairs satisfy x_{k+1} = A x_k and the snapshots span the state space, the system matrix computed by DMDStandard equals A, hence reconstruct returns the data.", "quantifier": "all matrices A and all snapshot sets of full row rank", "why_tests_cant": "All matrices and data sets.", "anchors": ["datafold/dynfold/dmd.py:DMDStandard"]}
{"id": "C31", "title": "DMDControl recovers system and control matrices from noise free data", "statement": "If x_{k+1} = A x_k + B u_k for all snapshots and the stacked data [X; U] has full row rank, the computed matrices are A and B.", "quantifier": "all A, B and data sets of full row rank", "why_tests_cant": "All matrices and data sets.", "anchors": ["datafold/dynfold/dmd.py:DMDControl"]}
{"id": "C32", "title": "OnlineDMD equals weighted batch DMD at every time", "statement": "After any number of rank-1 updates the matrices of OnlineDMD equal the exponentially weighted least squares solution of all snapshots seen so far, regardless of how the stream is cut into partial_fit batches.", "quantifier": "all streams of snapshot pairs of any length, all weights in (0,1], all ways of cutting the stream", "why_tests_cant": "Statement about all histories.", "anchors": ["datafold/dynfold/dmd.py:OnlineDMD"]}
{"id": "C33", "title": "StreamingDMD keeps the dominant subspace within max_rank", "statement": "After every partial_fit the stored basis has at most max_rank vectors and compression keeps the directions with the largest eigenvalues.", "quantifier": "all streams", "why_tests_cant": "History property.", "anchors": ["datafold/dynfold/dmd.py:StreamingDMD"]}
{"id": "C34", "title": "EDMD.predict(qois) labels each column with its own quantity", "statement": "EDMD.predict(X, qois=names) equals EDMD.predict(X) restricted to the columns names, whatever the order of names.", "quantifier": "all models, states and selections", "why_tests_cant": "Only wrong if the selection is permuted.", "anchors": ["datafold/appfold/edmd.py:EDMD._predict_dict_ic", "datafold/utils/general.py:projection_matrix_from_feature_names"]}
{"id": "C35", "title": "EDMD.reconstruct returns each prediction at the ID and time it was computed for", "statement": "In the output of EDMD.reconstruct(X) the rows of ID i at time t are the prediction started from the initial condition of series i evaluated at time t.", "quantifier": "all collections of series with any lengths and start times", "why_tests_cant": "Needs series of different lengths in a particular order.", "anchors": ["datafold/appfold/edmd.py:EDMD._reconstruct", "datafold/pcfold/timeseries/collection.py:InitialCondition.iter_reconstruct_ic"]}
{"id": "C36", "title": "EDMD.partial_fit honours include_id_state", "statement": "partial_fit with include_id_state=False on a dictionary that does not contain the original states works or is rejected according to the documented rule: it is rejected only if the dictionary does not preserve the state.", "quantifier": "all settings", "why_tests_cant": "Decision table.", "anchors": ["datafold/appfold/edmd.py:EDMD.partial_fit", "datafold/appfold/edmd.py:EDMD._validate_dictionary"]}
{"id": "C37", "title": "Sorting Koopman triplets does not change predictions", "statement": "sort_koopman_triplets permutes eigenvalues, eigenfunctions and modes consistently so every prediction is unchanged.", "quantifier": "all triplets, permutations, states and step counts", "why_tests_cant": "All permutations.", "anchors": ["datafold/appfold/edmd.py:EDMD._sort_koopman_triplets"]}
{"id": "C38", "title": "KMPC predicts the stacked states of the lifted controlled system", "statement": "For each horizon the matrices built by KMPC satisfy: (Ab z0 + Bb U) block i is C z_{i+1}, z_{i+1} = A z_i + B u_i.", "quantifier": "all horizons, matrices, states and input sequences", "why_tests_cant": "Unbounded horizon.", "anchors": ["datafold/appfold/mpc.py:KMPC._create_evolution_matrices"]}
{"id": "C39", "title": "The quadratic program of KMPC is the documented tracking problem", "statement": "The QP objective equals the documented tracking cost up to a constant that does not depend on the inputs; so both have the same minimisers.", "quantifier": "all horizons, weights, references, states and inputs", "why_tests_cant": "All sizes.", "anchors": ["datafold/appfold/mpc.py:KMPC._setup_optimizer", "datafold/appfold/mpc.py:KMPC.control_sequence_horizon"]}
{"id": "C40", "title": "The QP constraints of KMPC are exactly the state and input bounds", "statement": "U is feasible for the QP iff all inputs are within the input bounds and all predicted states within the state bounds.", "quantifier": "all horizons, bounds, states and inputs", "why_tests_cant": "All sizes.", "anchors": ["datafold/appfold/mpc.py:KMPC._setup_optimizer"]}
{"id": "C41", "title": "AffineKgMPC uses the gradient of its own cost", "statement": "The gradients supplied to the optimiser are the derivatives of the cost function supplied to the optimiser.", "quantifier": "all weights, states, references", "why_tests_cant": "Wrong unless weights are 0 or 1.", "anchors": ["datafold/appfold/mpc.py:AffineKgMPC._dcost_dx", "datafold/appfold/mpc.py:AffineKgMPC._dcost_du", "datafold/appfold/mpc.py:AffineKgMPC.cost"]}
{"id": "C42", "title": "The diffusion kernel is row stochastic", "statement": "With is_stochastic=True each row of the (unsymmetrised) diffusion kernel matrix sums to one and has non-negative entries if the row sum is positive; constant vectors are eigenvectors for eigenvalue one.", "quantifier": "all non-negative kernel matrices of any size", "why_tests_cant": "All sizes and values.", "anchors": ["datafold/pcfold/kernels.py:_stochastic_kernel_matrix", "datafold/pcfold/kernels.py:DmapKernelFixed._normalize"]}
{"id": "C43", "title": "The symmetric conjugate has the eigenpairs of the stochastic kernel", "statement": "The conjugate matrix is symmetric and (lambda, v) is an eigenpair of it iff (lambda, D^{-1/2} v) is an eigenpair of the stochastic kernel matrix; unsymmetric_kernel_matrix recovers the stochastic kernel.", "quantifier": "all symmetric kernel matrices with positive row sums", "why_tests_cant": "All sizes and values.", "anchors": ["datafold/pcfold/kernels.py:_conjugate_stochastic_kernel_matrix", "datafold/dynfold/dmap.py:_DmapKernelAlgorithms"]}
{"id": "C44", "title": "Diffusion maps embed training points out-of-sample as in fit_transform", "statement": "transform(X_train) equals fit_transform(X_train) (exact arithmetic, non-zero eigenvalues), for all settings of alpha, time_exponent and target coordinates.", "quantifier": "all data sets, kernels and parameters", "why_tests_cant": "Two different code paths for all inputs.", "anchors": ["datafold/dynfold/dmap.py:DiffusionMaps.transform", "datafold/dynfold/dmap.py:DiffusionMaps.fit_transform", "datafold/pcfold/kernels.py:DmapKernelFixed"]}
{"id": "C45", "title": "The Gaussian kernel is a similarity", "statement": "Kernel values are in (0,1], equal one exactly at distance zero, strictly decrease with distance and the pair-wise kernel matrix is symmetric.", "quantifier": "all distances and epsilon > 0", "why_tests_cant": "Real valued domain.", "anchors": ["datafold/pcfold/kernels.py:GaussianKernel"]}
{"id": "C46", "title": "estimate_scale yields a Gaussian kernel below the tolerance at the cut-off", "statement": "With epsilon = estimate_scale(tol, cut_off) the Gaussian kernel of datafold is at most tol at distance cut_off.", "quantifier": "all cut-offs and tolerances", "why_tests_cant": "Factor in the exponent for all values.", "anchors": ["datafold/pcfold/estimators.py:estimate_scale", "datafold/pcfold/kernels.py:GaussianKernel"]}
{"id": "C47", "title": "Sparse distance matrices keep exactly the distances below the cut-off", "statement": "Converting a dense distance matrix to sparse stores exactly the entries smaller than the cut-off, with their values, including true zero distances (duplicates).", "quantifier": "all distance matrices and cut-offs", "why_tests_cant": "Sentinel arithmetic for all values.", "anchors": ["datafold/pcfold/distance.py:DistanceAlgorithm._dense2csr_matrix"]}
{"id": "C48", "title": "All distance backends return the same neighbours", "statement": "For the same data, metric and cut_off, every exact backend stores the same set of pairs.", "quantifier": "all data and cut-offs", "why_tests_cant": "Differs only on the boundary distance == cut_off.", "anchors": ["datafold/pcfold/distance.py:BruteForceDist", "datafold/pcfold/distance.py:ScipyKdTreeDist", "datafold/pcfold/distance.py:SklearnBalltreeDist"]}
{"id": "C49", "title": "A distance algorithm's result depends only on its arguments", "statement": "Calling a distance algorithm object with (X, Y) gives the distances between X and Y irrespective of which calls were made before on the same object.", "quantifier": "all histories of calls", "why_tests_cant": "History property.", "anchors": ["datafold/pcfold/distance.py:ScipyKdTreeDist", "datafold/pcfold/distance.py:SklearnBalltreeDist"]}
{"id": "C50", "title": "kmin inserts true distances", "statement": "With kmin each point has at least kmin stored neighbours and all stored values are distances in the selected metric.", "quantifier": "all data, metrics", "why_tests_cant": "Only the squared metric is wrong.", "anchors": ["datafold/pcfold/distance.py:DistanceAlgorithm._ensure_kmin_nearest_neighbor"]}
{"id": "C51", "title": "PCManifold applies the distance settings given by the user", "statement": "PCManifold(data, dist_kwargs=d) uses d (e.g. d['cut_off']) in all later distance computations.", "quantifier": "all settings", "why_tests_cant": "An attribute typo.", "anchors": ["datafold/pcfold/pointcloud.py:PCManifold.__new__"]}
{"id": "C52", "title": "pcm_remove_outlier keeps the points with at least kmin neighbours", "statement": "A point is kept iff it has at least kmin other points within the cut-off, whatever distance backend is chosen.", "quantifier": "all point clouds", "why_tests_cant": "Backend dependent counting.", "anchors": ["datafold/pcfold/pointcloud.py:pcm_remove_outlier"]}
{"id": "C53", "title": "pcm_subsample with min_added_per_iteration=0 visits the entire point cloud", "statement": "Returned indices are distinct and valid; each point added after the first block is at least min_distance away from all points selected before its block; with min_added_per_iteration=0 all blocks are visited.", "quantifier": "all point clouds and permutations", "why_tests_cant": "Early termination depends on data.", "anchors": ["datafold/pcfold/pointcloud.py:pcm_subsample"]}
{"id": "C54", "title": "Laplacian pyramids reach the requested residual", "statement": "When fit terminates without auto_adaptive, the model evaluated at the training points has residual norm at most residual_tol for every target function.", "quantifier": "all data, targets, scales and numbers of iterations", "why_tests_cant": "Loop with several interacting index sets.", "anchors": ["datafold/dynfold/outofsample.py:LaplacianPyramidsInterpolator"]}
{"id": "C55", "title": "Geometric harmonics reproduce target functions in the span of the eigenvectors", "statement": "With orthonormal eigenvectors and non-zero eigenvalues, predict at the training points is the orthogonal projection of y onto the span of the eigenvectors; it equals y if y lies in the span.", "quantifier": "all data and targets", "why_tests_cant": "All sizes.", "anchors": ["datafold/dynfold/outofsample.py:GeometricHarmonicsInterpolator"]}
{"id": "C56", "title": "Roseland fit_transform and transform agree on the training data", "statement": "fit_transform(X) equals transform(X) for every time_exponent.", "quantifier": "all data and parameters", "why_tests_cant": "Two code paths.", "anchors": ["datafold/dynfold/dmap.py:Roseland.fit_transform", "datafold/dynfold/dmap.py:Roseland.transform"]}
{"id": "C57", "title": "LocalRegressionSelection always selects the first non-trivial eigenvector", "statement": "The trivial eigenvector 0 is never selected; with strategy threshold index 1 is always selected and a later index i exactly if its residual exceeds the threshold; indices are strictly increasing.", "quantifier": "all residuals", "why_tests_cant": "All residual patterns.", "anchors": ["datafold/dynfold/dmap.py:LocalRegressionSelection._set_indices"]}
{"id": "C58", "title": "Jointly smooth functions are orthonormal", "statement": "For two data splits with orthonormal kernel eigenvectors the computed jointly smooth functions are orthonormal.", "quantifier": "all orthonormal eigenvector sets", "why_tests_cant": "All sizes.", "anchors": ["datafold/dynfold/jsf.py:JointlySmoothFunctions._compute_jointly_smooth_vectors"]}
{"id": "C59", "title": "EarlyStopping stops after `patience` epochs without improvement", "statement": "For delta=0 training is stopped exactly when some validation losses l_{i+1..i+patience} are all larger than the best loss before; once stopped it stays stopped; best_score is the minimum seen.", "quantifier": "all sequences of losses", "why_tests_cant": "History property.", "anchors": ["datafold/dynfold/dictlearning.py:EarlyStopping"]}
{"id": "C60", "title": "Every control channel drives the simulated system", "statement": "ControllableODE.predict with sampled control input applies for every channel j the j-th column of U.", "quantifier": "all numbers of control channels", "why_tests_cant": "Single channel systems (as tested) hide it.", "anchors": ["datafold/utils/_systems.py:ControllableODE.predict"]}
{"id": "C61", "title": "DCMotor.predict_vectorize is the classical Runge-Kutta scheme", "statement": "One step of _runge_kutta equals the classical fourth order Runge-Kutta step.", "quantifier": "all right-hand sides, states and steps", "why_tests_cant": "A wrong stage index changes values only slightly.", "anchors": ["datafold/utils/_systems.py:DCMotor._runge_kutta"]}
{"id": "C62", "title": "check_tsc accepts exactly the collections with the requested properties", "statement": "check_tsc(...) returns normally iff each requested property holds, independent of the order of the checks.", "quantifier": "all collections and requirement combinations", "why_tests_cant": "All combinations.", "anchors": ["datafold/pcfold/timeseries/accessor.py:TSCAccessor.check_tsc"]}
{"id": "C63", "title": "Error metrics vanish exactly for a perfect prediction", "statement": "Each implemented metric is non-negative and zero iff prediction and truth agree on the evaluated block; scoring negates so that a perfect prediction has the highest score.", "quantifier": "all collections", "why_tests_cant": "Real valued domain.", "anchors": ["datafold/pcfold/timeseries/metric.py:TSCMetric", "datafold/pcfold/timeseries/metric.py:TSCScoring"]}
{"id": "C64", "title": "random_subsample returns distinct existing rows", "statement": "random_subsample(data, n) returns n rows of data at pairwise distinct indices, and rejects n outside [1, n_rows-1].", "quantifier": "all data, n and random draws", "why_tests_cant": "All draws.", "anchors": ["datafold/utils/general.py:random_subsample"]}
{"id": "C65", "title": "get_feature_names_out describes the columns that transform returns", "statement": "For every transformer, get_feature_names_out() lists the column labels of transform(X) in the order of the columns.", "quantifier": "all column labels, all parameters", "why_tests_cant": "Number of features and functions is unbounded; one feature or one function hides a wrong order.", "anchors": ["datafold/dynfold/transform.py:TSCApplyLambdas", "datafold/dynfold/transform.py:TSCFiniteDifference", "datafold/dynfold/transform.py:TSCIdentity", "datafold/dynfold/transform.py:TSCMovingAverage", "datafold/dynfold/transform.py:TSCFeatureSelect", "datafold/dynfold/transform.py:TSCTakensEmbedding"]}
{"id": "C66", "title": "TSCIdentity can be inverted", "statement": "inverse_transform(transform(X)) equals X for every setting of include_const and rename_features.", "quantifier": "all frames and settings", "why_tests_cant": "All label sets.", "anchors": ["datafold/dynfold/transform.py:TSCIdentity.transform", "datafold/dynfold/transform.py:TSCIdentity.inverse_transform"]}
{"id": "C67", "title": "Fitting again forgets the previous fit", "statement": "After any sequence of fit calls a transformer behaves like a new one fitted once on the last data; in particular it accepts that data.", "quantifier": "all histories of fit calls", "why_tests_cant": "History property.", "anchors": ["datafold/dynfold/base.py:TSCTransformerMixin._setup_feature_attrs_fit", "datafold/dynfold/base.py:TSCTransformerMixin._validate_feature_input"]}
{"id": "C68", "title": "fit and transform leave the caller's frame unchanged", "statement": "TSCTakensEmbedding.fit and transform do not change the collection that was passed (values, index, column labels).", "quantifier": "all collections, string and integer labels", "why_tests_cant": "Aliasing; only visible by looking at the argument afterwards.", "anchors": ["datafold/dynfold/transform.py:TSCTakensEmbedding._columns_to_type_str"]}
{"id": "C69", "title": "TSCMovingAverage averages within one series", "statement": "transform(X) has for every series with at least `window` samples one row per sample from the window-th on, holding the mean of the last `window` samples of the same series; series that are shorter do not appear.", "quantifier": "all collections, window sizes", "why_tests_cant": "Unbounded lengths and numbers of series.", "anchors": ["datafold/dynfold/transform.py:TSCMovingAverage.transform"]}
{"id": "C70", "title": "Products with diagonal matrices", "statement": "mat_dot_diagmat(M, d) = M diag(d) and diagmat_dot_mat(d, M) = diag(d) M.", "quantifier": "all matrices and diagonals", "why_tests_cant": "All shapes.", "anchors": ["datafold/utils/general.py:mat_dot_diagmat", "datafold/utils/general.py:diagmat_dot_mat"]}
{"id": "C71", "title": "remove_numeric_noise_symmetric_matrix returns the symmetric part", "statement": "The result is symmetric and a symmetric matrix is returned unchanged, including the stored zeros of a sparse matrix.", "quantifier": "all square matrices, dense and sparse", "why_tests_cant": "All sparsity structures.", "anchors": ["datafold/utils/general.py:remove_numeric_noise_symmetric_matrix"]}
{"id": "C72", "title": "Each initial condition is driven by the control input with its ID", "statement": "In a controlled prediction with several initial conditions, the series of ID i is computed with the control series of ID i; the order of the series inside X or U does not matter.", "quantifier": "all collections of initial conditions and control inputs, all orders of their series", "why_tests_cant": "All permutations; tests use sorted collections.", "anchors": ["datafold/dynfold/dmd.py:DMDBase._evolve_dmd_system", "datafold/pcfold/timeseries/collection.py:InitialCondition.validate_control"]}
{"id": "C73", "title": "A controlled prediction respects the requested time values", "statement": "The state reported at time t is the state after (t - t0)/dt steps also for controlled systems.", "quantifier": "all accepted lists of time values", "why_tests_cant": "Depends on the spacing of user supplied values.", "anchors": ["datafold/dynfold/dynsystem.py:SystemSolveStrategy.flowmap_matrix_controlled"]}
{"id": "C74", "title": "Time values used by predict", "statement": "Without time values one step is predicted, or exactly the horizon of the control input (one state more than control inputs); given time values are used unchanged except that the time of the initial condition is put in front if missing; values before it and initial conditions at different times are rejected.", "quantifier": "all initial conditions, control inputs, sampling rates and time values", "why_tests_cant": "All lengths and sampling rates.", "anchors": ["datafold/dynfold/base.py:TSCPredictMixin._validate_and_set_time_values_predict"]}
{"id": "C75", "title": "Left eigenvectors reconstruct the system matrix", "statement": "For every diagonalisable system matrix spectral mode with diagonalize=True finds left eigenvectors with A = Psi_r Lambda Psi_l.", "quantifier": "all diagonalisable matrices", "why_tests_cant": "All matrices, also singular ones.", "anchors": ["datafold/dynfold/dmd.py:DMDStandard._compute_left_eigenvectors"]}
{"id": "C76", "title": "Control input may be given as an array", "statement": "DMDControl.predict accepts an array of n control inputs for a single initial condition and predicts n steps.", "quantifier": "all arrays, with and without time values", "why_tests_cant": "All lengths.", "anchors": ["datafold/dynfold/dmd.py:DMDBase.predict", "datafold/pcfold/timeseries/collection.py:InitialCondition.from_array_control"]}
{"id": "C77", "title": "reconstruct computes every series once, from its own initial state at its own time values", "statement": "The loop behind reconstruct groups the series by time values; each series of the input appears in exactly one group, with its own first n samples as initial condition and its own time values, and the result holds for each ID exactly the prediction of that series, whatever the order and the mixture of time values.", "quantifier": "all collections with a constant interval per series, any number of groups", "why_tests_cant": "All mixtures of time values and ID orders.", "anchors": ["datafold/pcfold/timeseries/collection.py:InitialCondition.iter_reconstruct_ic", "datafold/dynfold/dmd.py:DMDBase.reconstruct", "datafold/dynfold/base.py:TSCPredictMixin"]}
{"id": "C78", "title": "Reduced rank DMD", "statement": "The modes of DMDStandard(rank=r) are eigenvectors of the rank-r DMD operator (exact) or of its projection (projected); for noise-free data of a linear system that lie in an r-dimensional invariant subspace they are eigenvectors of the system matrix and predictions from that subspace are exact.", "quantifier": "all snapshot matrices, ranks and reconstruct modes", "why_tests_cant": "All shapes and spectra.", "anchors": ["datafold/dynfold/dmd.py:DMDStandard._compute_reduced_system_matrix", "datafold/dynfold/dmd.py:DMDStandard._compute_spectral_components"]}
{"id": "C79", "title": "The residual filter keeps the components of an exactly linear system", "statement": "For noise-free data of a linear system no spectral component of the system is removed as spectral pollution, because its residual is zero.", "quantifier": "all linear systems and data", "why_tests_cant": "All non-symmetric matrices.", "anchors": ["datafold/dynfold/dmd.py:DMDStandard._remove_spectral_pollution"]}
{"id": "C80", "title": "approx_generator gives the same states at the sampling times", "statement": "A DMDStandard with approx_generator=True predicts at multiples of the sampling interval the same states as the flow map.", "quantifier": "all diagonalisable system matrices and horizons", "why_tests_cant": "All spectra, including zero eigenvalues.", "anchors": ["datafold/dynfold/dmd.py:DMDStandard.fit"]}
{"id": "C81", "title": "gDMDFull finds the generator", "statement": "The generator matrix minimises the squared error between A x and the time derivatives; if the derivatives are exactly A x and the states span the space it is A.", "quantifier": "all data", "why_tests_cant": "All sizes and data.", "anchors": ["datafold/dynfold/dmd.py:gDMDFull._compute_koopman_generator"]}
{"id": "C82", "title": "StreamingDMD uses every pair of consecutive samples", "statement": "The updates of StreamingDMD.partial_fit are made with exactly the pairs of consecutive samples inside each time series of the given data; no pair is left out and no pair mixes two series.", "quantifier": "all collections with at least two samples per series", "why_tests_cant": "A missing pair changes the result a little; it shows up only by comparing with all pairs for every length of the first series.", "anchors": ["datafold/dynfold/dmd.py:StreamingDMD.partial_fit", "datafold/dynfold/dmd.py:StreamingDMD._separate_init_pairs"]}
{"id": "C83", "title": "The EDMD inverse map returns the original states", "statement": "If the dictionary contains the original states (attached by fit or kept by the transformation), mapping dictionary values back gives exactly the original states, each under its own name.", "quantifier": "all feature names, dictionaries and orders of columns", "why_tests_cant": "All column orders.", "anchors": ["datafold/appfold/edmd.py:EDMD._attach_id_state", "datafold/appfold/edmd.py:EDMD._compute_inverse_map"]}
{"id": "C84", "title": "EDMD is exact for closed dictionaries", "statement": "If the dictionary is closed under the dynamics (its next values are a linear function of its values) and the state is a linear function of it, EDMD fitted to noise-free data that span the dictionary predicts the exact trajectory of the nonlinear system, from every state and for every horizon; eigenvalue, mode and eigenfunction predictions agree.", "quantifier": "all closed dictionaries, data sets, initial states and horizons", "why_tests_cant": "All nonlinear systems with a finite invariant dictionary, unbounded horizons.", "anchors": ["datafold/appfold/edmd.py:EDMD.fit", "datafold/appfold/edmd.py:EDMD.predict"]}
{"id": "C85", "title": "shift_time_per_time_series moves every series to time zero", "statement": "The result has the same IDs, values and distances between time values, and each series starts at time zero.", "quantifier": "all regularly sampled collections, any ID order and lengths", "why_tests_cant": "All ID orders and lengths.", "anchors": ["datafold/pcfold/timeseries/accessor.py:TSCAccessor.shift_time_per_time_series"]}
{"id": "C86", "title": "reconstruct leaves the given collection unchanged", "statement": "After EDMD.reconstruct(X) the collection X is the same as before, whether the call returned or raised.", "quantifier": "all collections and models", "why_tests_cant": "All points at which an exception can occur.", "anchors": ["datafold/appfold/edmd.py:EDMD._reconstruct"]}
{"id": "C87", "title": "KMPC steers the quantities of interest it was asked for", "statement": "With qois=names the i-th reference column and the i-th row of the state bounds belong to the feature names[i], whatever the order of names.", "quantifier": "all feature names and selections", "why_tests_cant": "All orders of names.", "anchors": ["datafold/appfold/mpc.py:KMPC._create_evolution_matrices"]}
{"id": "C88", "title": "LQR feedback is optimal", "statement": "For any number of steps the inputs of LQR.control_sequence applied along the controlled trajectory have the smallest quadratic cost of all input sequences (with the Riccati solution as weight of the last state).", "quantifier": "all systems, weights, start states, numbers of inputs and steps", "why_tests_cant": "Unbounded numbers of steps and all competing sequences.", "anchors": ["datafold/appfold/mpc.py:LQR._setup_optimizer", "datafold/appfold/mpc.py:LQR.control_sequence"]}
{"id": "C89", "title": "AffineKgMPC respects the documented input bounds", "statement": "If the optimiser respects the bounds it is given, every entry of the returned control sequence lies between the documented minimum and maximum of its input.", "quantifier": "all horizons, numbers of inputs and bounds", "why_tests_cant": "Flattening of two-dimensional data for all sizes.", "anchors": ["datafold/appfold/mpc.py:AffineKgMPC.generate_control_signal"]}
{"id": "C90", "title": "A point without neighbours has a zero row in the diffusion kernel", "statement": "If a query point has no neighbour among the reference points (its kernel row is zero), the evaluated diffusion kernel has a zero row for it and the call does not raise.", "quantifier": "all kernel matrices with zero rows and all alpha", "why_tests_cant": "Every pattern of zero rows.", "anchors": ["datafold/pcfold/kernels.py:_stochastic_kernel_matrix", "datafold/pcfold/kernels.py:DmapKernelFixed._normalize_sampling_density"]}
{"id": "C91", "title": "Eigenvalues of the diffusion kernel are in [-1,1]", "statement": "All real eigenvalues of the stochastic diffusion kernel are in [-1,1], one is an eigenvalue with constant eigenvector, and for positive semi-definite kernels (all Gaussian kernels) they are in [0,1].", "quantifier": "all kernel matrices, point clouds, bandwidths and alpha", "why_tests_cant": "Spectral statement for all sizes.", "anchors": ["datafold/pcfold/kernels.py:DmapKernelFixed", "datafold/dynfold/dmap.py:DiffusionMaps.fit"]}
{"id": "C92", "title": "inverse_transform of the embedding approximates the training data", "statement": "DiffusionMaps.inverse_transform(fit_transform(X)) is the least squares approximation of X by linear functions of the embedding; it is exact if the data depend linearly on the embedding.", "quantifier": "all data sets, target coordinates and time exponents", "why_tests_cant": "All parameters.", "anchors": ["datafold/dynfold/dmap.py:DiffusionMaps.inverse_transform"]}
{"id": "C93", "title": "A refitted DiffusionMaps uses the data of the last fit", "statement": "After a second fit, inverse_transform maps with the data and eigenvectors of the second fit.", "quantifier": "all pairs of data sets and call sequences", "why_tests_cant": "History dependent.", "anchors": ["datafold/dynfold/dmap.py:DiffusionMaps.inverse_transform", "datafold/dynfold/dmap.py:DiffusionMaps.fit"]}
{"id": "C94", "title": "set_target_coords accepts exactly valid selections", "statement": "Exactly the non-empty selections of existing coordinates are accepted; afterwards the embedding has the selected coordinates in ascending order.", "quantifier": "all selections", "why_tests_cant": "All lists of indices.", "anchors": ["datafold/dynfold/dmap.py:DiffusionMaps.set_target_coords"]}
{"id": "C95", "title": "A callable bandwidth is evaluated for the data of each evaluation", "statement": "A GaussianKernel with a callable epsilon uses the bandwidth computed from the distance matrix it is given.", "quantifier": "all callables and sequences of distance matrices", "why_tests_cant": "History dependent.", "anchors": ["datafold/pcfold/kernels.py:GaussianKernel.evaluate"]}
{"id": "C96", "title": "Radial kernels have the documented shape", "statement": "Inverse quadratic and inverse multiquadric kernels are similarities (in (0,1], one exactly for equal points, strictly decreasing with distance); multiquadric, cubic and quintic kernels grow strictly with distance; the thin plate kernel changes its sign at distance one; all are symmetric.", "quantifier": "all points and epsilon > 0", "why_tests_cant": "Real valued domain.", "anchors": ["datafold/pcfold/kernels.py:MultiquadricKernel", "datafold/pcfold/kernels.py:InverseMultiquadricKernel", "datafold/pcfold/kernels.py:InverseQuadraticKernel", "datafold/pcfold/kernels.py:ThinplateKernel", "datafold/pcfold/kernels.py:CubicKernel", "datafold/pcfold/kernels.py:QuinticKernel"]}
{"id": "C97", "title": "Geometric harmonics reproduce functions spanned by the eigenvectors", "statement": "GeometricHarmonicsInterpolator with a stochastic kernel, fitted to a linear combination of the computed eigenvectors, predicts this function at the training points.", "quantifier": "all kernels, data sets and target functions in the span", "why_tests_cant": "Real valued domain, all sizes.", "anchors": ["datafold/dynfold/outofsample.py:GeometricHarmonicsInterpolator.predict"]}
{"id": "C98", "title": "Geometric harmonics predict one row per sample", "statement": "GeometricHarmonicsInterpolator.predict returns an array of shape (n_samples, n_targets).", "quantifier": "all numbers of samples and targets", "why_tests_cant": "Boundary shapes.", "anchors": ["datafold/dynfold/outofsample.py:GeometricHarmonicsInterpolator.predict"]}
{"id": "C99", "title": "The score of geometric harmonics is the weighted root mean squared error", "statement": "GeometricHarmonicsInterpolator.score returns the negative root mean squared error where the squared errors are weighted with sample_weight.", "quantifier": "all targets, predictions and weights", "why_tests_cant": "Real valued domain and boundary shapes.", "anchors": ["datafold/dynfold/outofsample.py:GeometricHarmonicsInterpolator.score"]}
{"id": "C100", "title": "Distance to the k-th nearest neighbour", "statement": "The k-th nearest neighbour distance of a row is its k-th smallest entry; computed on a sparse matrix it is the same as on the dense matrix or is rejected (fewer than k stored neighbours).", "quantifier": "all distance matrices, cut-offs and k", "why_tests_cant": "All sizes.", "anchors": ["datafold/pcfold/kernels.py:_kth_nearest_neighbor_dist"]}
{"id": "C101", "title": "The continuous nearest neighbour kernel is a proximity graph", "statement": "For all accepted parameters, the graph of a point cloud is undirected, has all self-loops and an edge exactly if d(i,j) < delta*sqrt(d_k(i) d_k(j)); component-wise evaluation at the training points yields the same graph.", "quantifier": "all distance matrices, k_neighbor and delta", "why_tests_cant": "Boundary values of k.", "anchors": ["datafold/pcfold/kernels.py:ContinuousNNKernel.evaluate"]}
{"id": "C102", "title": "Roseland coordinates are eigenvectors of the landmark diffusion", "statement": "The coordinates are eigenvectors of the row-stochastic diffusion through the landmarks with eigenvalues sigma^2 in [0,1]; query points without landmark nearby are mapped to the origin.", "quantifier": "all kernel matrices and numbers of landmarks", "why_tests_cant": "Spectral statement for all sizes.", "anchors": ["datafold/dynfold/dmap.py:Roseland", "datafold/pcfold/kernels.py:RoselandKernel"]}
{"id": "C103", "title": "Roseland accepts alpha > 0 and normalises the sampling density", "statement": "RoselandKernel with 0 < alpha <= 1 normalises the sampling density and returns a kernel matrix.", "quantifier": "all kernel matrices and alpha", "why_tests_cant": "All parameter values.", "anchors": ["datafold/pcfold/kernels.py:RoselandKernel._normalize_sampling_density"]}
{"id": "C104", "title": "Dependent eigenvectors have local regression residual zero", "statement": "If an eigenvector is an affine function of the preceding eigenvectors, its residual is zero for all bandwidth settings, so that it is not selected with a threshold; residuals are never negative.", "quantifier": "all eigenvector matrices and bandwidth parameters", "why_tests_cant": "Real valued domain.", "anchors": ["datafold/dynfold/dmap.py:LocalRegressionSelection._single_residual_local_regression"]}
{"id": "C105", "title": "k-nearest-neighbour matrices store the k nearest points", "statement": "The k-nearest-neighbour distance algorithm stores exactly k values in each row, all of them distances, no point left out is nearer than a stored one, and in the pair-wise case the zero self-distance is stored.", "quantifier": "all point clouds and positive k", "why_tests_cant": "Unbounded sizes, ties.", "anchors": ["datafold/pcfold/distance.py:SklearnKNN.__call__"]}
{"id": "C106", "title": "Every distance algorithm can be selected by name", "statement": "compute_distance_matrix(X, backend=name, metric=m, cut_off=c, k=k) runs the algorithm of that name with the given settings and passes the remaining keyword arguments to it.", "quantifier": "all names, settings and options", "why_tests_cant": "All combinations of settings.", "anchors": ["datafold/pcfold/distance.py:init_distance_algorithm", "datafold/pcfold/distance.py:compute_distance_matrix"]}
{"id": "C107", "title": "PCManifold.compute_distance_matrix follows its distance settings", "statement": "PCManifold.compute_distance_matrix uses the cut_off, kmin and backend of its settings.", "quantifier": "all settings", "why_tests_cant": "All combinations of settings.", "anchors": ["datafold/pcfold/pointcloud.py:PCManifold.compute_distance_matrix"]}
{"id": "C108", "title": "Point clouds do not share settings", "statement": "Setting the cut-off of a point cloud does not change the cut-off of another one, also if one is a slice of the other.", "quantifier": "all sequences of operations", "why_tests_cant": "Aliasing.", "anchors": ["datafold/pcfold/pointcloud.py:PCManifold.__array_finalize__", "datafold/pcfold/pointcloud.py:PCManifold.cut_off"]}
{"id": "C109", "title": "Fitting Laplacian pyramids ends", "statement": "For all valid parameters and data the fit of a Laplacian pyramids model ends after finitely many scales.", "quantifier": "all point clouds, targets, valid parameters", "why_tests_cant": "Non-termination cannot be observed by a test.", "anchors": ["datafold/dynfold/outofsample.py:LaplacianPyramidsInterpolator.fit"]}
{"id": "C110", "title": "Auto-adaptive pyramids keep improving levels only", "statement": "In auto-adaptive mode the levels used to evaluate a target function have non-increasing leave-one-out errors, and there is at least one.", "quantifier": "all data, targets, scales and numbers of iterations", "why_tests_cant": "Interaction of several index sets over an unbounded number of iterations.", "anchors": ["datafold/dynfold/outofsample.py:LaplacianPyramidsInterpolator.fit"]}
{"id": "C111", "title": "The first jointly smooth function is the smoothest", "statement": "Each jointly smooth function of two splits has the same squared projection norm (1+sigma)/2 on the eigenvectors of either split, these values decrease, and no unit vector has a larger mean projection than the first function.", "quantifier": "all orthonormal eigenvector sets and unit vectors", "why_tests_cant": "Optimality over all vectors.", "anchors": ["datafold/dynfold/jsf.py:JointlySmoothFunctions._compute_jointly_smooth_vectors"]}
{"id": "C112", "title": "transform of the training data equals fit_transform for jointly smooth functions", "statement": "transform(X_train) returns the jointly smooth functions computed in fit.", "quantifier": "all data sets, kernels and numbers of functions", "why_tests_cant": "Real valued domain; the deviation is a factor per function.", "anchors": ["datafold/dynfold/jsf.py:JointlySmoothFunctions.transform", "datafold/dynfold/jsf.py:JointlySmoothFunctions._nystrom"]}
{"id": "C113", "title": "Early stopping ends a diverging training", "statement": "If the validation loss grows without bound or becomes nan, the training is stopped after finitely many epochs, for every delta.", "quantifier": "all sequences of losses and all delta", "why_tests_cant": "Unbounded history.", "anchors": ["datafold/dynfold/dictlearning.py:EarlyStopping"]}
{"id": "C114", "title": "Vectorised simulation drives every time series with its own control", "statement": "DCMotor.predict_vectorize returns, for every time series and step k, the state reached from its own initial condition with its own first k control inputs, and the time values of the control input plus one further step; control series with different time values are rejected.", "quantifier": "all numbers of time series, steps and control inputs", "why_tests_cant": "The controls are picked by a strided slice over the stacked collection; tests use one or two shapes.", "anchors": ["datafold/utils/_systems.py:DCMotor.predict_vectorize"]}
{"id": "C115", "title": "Required IDs and disjoint time values are checked exactly", "statement": "check_contain_required_ids accepts iff the required IDs name each series of the collection once (with check_order in the stored order); check_non_overlapping_timeseries accepts iff no time value occurs twice.", "quantifier": "all collections and lists of IDs", "why_tests_cant": "All collections, including unsorted IDs and duplicated requirements.", "anchors": ["datafold/pcfold/timeseries/accessor.py:TSCAccessor.check_contain_required_ids", "datafold/pcfold/timeseries/accessor.py:TSCAccessor.check_non_overlapping_timeseries"]}
{"id": "C116", "title": "Equal sampling of two collections", "statement": "check_equal_delta_time accepts two collections iff they are sampled with the same interval(s), is reflexive and symmetric, and rejects with the documented exception otherwise.", "quantifier": "all pairs of collections", "why_tests_cant": "Pairs of collections of all kinds.", "anchors": ["datafold/pcfold/timeseries/accessor.py:TSCAccessor.check_equal_delta_time"]}
{"id": "C117", "title": "Feature weights work with every metric", "statement": "For every metric and mode TSCMetric accepts multioutput as array of feature weights, for any number of features.", "quantifier": "all metrics, numbers of features and weights", "why_tests_cant": "Combinations of metric and multioutput.", "anchors": ["datafold/pcfold/timeseries/metric.py:TSCMetric._norm_metric", "datafold/pcfold/timeseries/metric.py:TSCMetric._rrmse_metric", "datafold/pcfold/timeseries/metric.py:TSCMetric._max_error"]}
{"id": "C118", "title": "The relative root mean squared error is relative", "statement": "The rrmse of the prediction that is zero everywhere is 1 (the error is measured relative to the size of the truth), independent of the number of samples.", "quantifier": "all data", "why_tests_cant": "The factor depends on the number of samples.", "anchors": ["datafold/pcfold/timeseries/metric.py:TSCMetric._rrmse_metric"]}
{"id": "C119", "title": "Shifting time leaves the given collection alone", "statement": "tsc.shift_time_by_delta returns the collection with all time values moved by the same amount, series, order and values unchanged, rejects shifts to negative time values, and does not change the collection it is called on; shifts compose.", "quantifier": "all collections and shifts", "why_tests_cant": "All collections and shifts; aliasing is rarely looked at.", "anchors": ["datafold/pcfold/timeseries/accessor.py:TSCAccessor.shift_time_by_delta"]}
{"id": "C120", "title": "Expanding time values keeps every series", "statement": "tsc.expand_time_values adds, to every time series, one sample with the fill value for each new time value, and keeps the samples of each series under its own ID.", "quantifier": "all collections with identical time values (or one series) and new time values", "why_tests_cant": "All IDs and their order.", "anchors": ["datafold/pcfold/timeseries/accessor.py:TSCAccessor.expand_time_values"]}
{"id": "C121", "title": "feature_to_array labels rows correctly", "statement": "feature_to_array returns one row per time series, and as_frame=True labels the row of a series with its ID; series with different time values are rejected.", "quantifier": "all collections with a feature", "why_tests_cant": "All orders of IDs.", "anchors": ["datafold/pcfold/timeseries/collection.py:TSCDataFrame.feature_to_array"]}
{"id": "C122", "title": "Filling with the last state extends the series", "statement": "fill_timeseries_with_last_state extends a regularly sampled single time series to n time steps by repeating the last state on the continued time grid; the result is a single time series.", "quantifier": "all regularly sampled single series and numbers of steps", "why_tests_cant": "All IDs and lengths.", "anchors": ["datafold/pcfold/timeseries/accessor.py:TSCAccessor.fill_timeseries_with_last_state"]}
{"id": "C123", "title": "Constant sampled time values", "statement": "const_sampled_time_values returns the regular grid from the first to the last time value with the collection's sampling interval; it contains all time values.", "quantifier": "all collections with a constant time interval", "why_tests_cant": "All alignments of the series.", "anchors": ["datafold/pcfold/timeseries/collection.py:TSCDataFrame.const_sampled_time_values"]}
{"id": "C124", "title": "Control input is paired with the following state", "statement": "tsc.augment_control_input adds to each state but the first of every series the control input that led to it, and nothing to the first states.", "quantifier": "all collections of states with one control per transition", "why_tests_cant": "All IDs and lengths of the series.", "anchors": ["datafold/pcfold/timeseries/accessor.py:TSCAccessor.augment_control_input"]}
{"id": "C125", "title": "Collections from lists of frames", "statement": "from_frame_list succeeds iff there is a series, the IDs are distinct and one per series, and each series has increasing time values; the k-th listed series gets the k-th ID and keeps its samples. from_single_timeseries sorts by time.", "quantifier": "all lists of frames and collections, all IDs", "why_tests_cant": "Unbounded lists, collections nested in the list, IDs in any order.", "anchors": ["datafold/pcfold/timeseries/collection.py:TSCDataFrame.from_frame_list", "datafold/pcfold/timeseries/collection.py:TSCDataFrame.from_single_timeseries"]}
{"id": "C126", "title": "insert_ts does not change its argument", "statement": "insert_ts adds exactly one new time series with the samples of the inserted frame, rejects anything that is not one time series, and leaves the inserted frame unchanged, so that the same frame can be inserted again.", "quantifier": "all collections, frames and IDs", "why_tests_cant": "Aliasing and histories of insertions.", "anchors": ["datafold/pcfold/timeseries/collection.py:TSCDataFrame.insert_ts"]}
{"id": "C127", "title": "Initial conditions are validated exactly", "statement": "InitialCondition.validate accepts exactly the collections with finite values, identical time values in all series, constant sampling, the required number of samples and sampling interval; from_array and from_tsc return such collections with the given states (the first n samples of each series), or reject.", "quantifier": "all collections, numbers of samples and sampling intervals", "why_tests_cant": "All collections including irregular and unequal ones.", "anchors": ["datafold/pcfold/timeseries/collection.py:InitialCondition.validate", "datafold/pcfold/timeseries/collection.py:InitialCondition.from_tsc", "datafold/pcfold/timeseries/collection.py:InitialCondition.from_array"]}
{"id": "C128", "title": "Time derivatives are exact on polynomials", "statement": "tsc.time_derivative with order q and accuracy a keeps the IDs, drops exactly the boundary samples that the scheme cannot reach, and returns the exact q-th derivative for every series that is a polynomial of degree below q + a in time; with shift_index the labels are moved to the last sample used. Irregular or too short series are rejected.", "quantifier": "all collections, schemes, orders, accuracies and polynomials", "why_tests_cant": "All polynomials, lengths and sampling intervals.", "anchors": ["datafold/pcfold/timeseries/accessor.py:TSCAccessor.time_derivative"]}
{"id": "C129", "title": "Shifted derivatives contain no future samples", "statement": "With shift_index=True (or scheme backward), the derivative reported at time t depends only on samples of the same series up to time t.", "quantifier": "all collections, schemes and pairs of continuations", "why_tests_cant": "Compares all possible futures.", "anchors": ["datafold/pcfold/timeseries/accessor.py:TSCAccessor.time_derivative"]}
{"id": "C130", "title": "Window cross validation tests on windows counted from the end and trains on the rest", "statement": "For a collection whose IDs are ascending along the index, the folds of TSCWindowFoldTime are exactly the windows of test_window_length consecutive rows of one series that end k*(test_window_length+window_offset) rows before the end of that series (k=0,1,...), series from last to first; windows that leave nothing for training are skipped. Train rows are ascending and exactly the rows outside the window that lie in a stretch of at least train_min_timesteps consecutive rows of their series outside the window. The docstring promises windows only inside one series and skipped folds; for IDs in another order and for short pieces of unequal length the code breaks this.", "quantifier": "all collections, window lengths, offsets and minimum numbers of training steps", "why_tests_cant": "tests fix three small collections; windows, order of series and lengths of the remaining pieces are unbounded", "anchors": ["datafold/pcfold/timeseries/metric.py:TSCWindowFoldTime.split", "datafold/pcfold/timeseries/metric.py:TSCWindowFoldTime._reversed_ids_and_indices_tsc", "datafold/pcfold/timeseries/accessor.py:assign_ids_train_test"]}
{"id": "C131", "title": "Radial basis coefficients of the centers are mapped back to the centers", "statement": "TSCRadialBasis: fit_transform equals fit followed by transform; the centers are all samples, a subset of the requested size, the passed points or the first sample of every series; inverse_transform of the coefficients of the centers returns the centers whenever the kernel interpolates there. The last part fails once the estimator is fitted again after an inverse_transform, because the stored matrix is never updated.", "quantifier": "all kernels, data sets, center types and histories of fit, transform and inverse_transform", "why_tests_cant": "the histories are unbounded; tests never refit an estimator that was used for an inverse transformation", "anchors": ["datafold/dynfold/transform.py:TSCRadialBasis.fit", "datafold/dynfold/transform.py:TSCRadialBasis.fit_transform", "datafold/dynfold/transform.py:TSCRadialBasis.inverse_transform"]}
{"id": "C132", "title": "Polynomial features are all monomials, each once, labelled by their exponents", "statement": "TSCPolynomialFeatures with degree d on n features: the columns are exactly the monomials of total degree 2..d, plus degree 1 iff include_first_order and degree 0 iff include_bias (with interaction_only only square free ones), each exactly once; values and names (powers_) have the same order; the mask for the removed first order columns keeps both aligned.", "quantifier": "all degrees, numbers of features, options and samples", "why_tests_cant": "tests compare single degrees; the set of monomials grows with d and n", "anchors": ["datafold/dynfold/transform.py:TSCPolynomialFeatures.transform", "datafold/dynfold/transform.py:TSCPolynomialFeatures.powers_", "datafold/dynfold/transform.py:TSCPolynomialFeatures._non_id_state_mask"]}
{"id": "C133", "title": "The estimated cut-off gives every sampled point the requested number of neighbours", "statement": "estimate_cutoff(points, n_subsample, k) returns the smallest distance within which every sampled point has at least k points (itself included); numbers k that are not integers greater than one are rejected, the estimate does not depend on the random permutation if all points are sampled, and a pre-computed distance matrix gives the same result.", "quantifier": "all point clouds (distance matrices), permutations, subsample sizes and k", "why_tests_cant": "The subsample is random and the unit tests compare against one rough number; minimality is a statement over all distances and all points.", "anchors": ["datafold/pcfold/estimators.py:estimate_cutoff", "datafold/pcfold/kernels.py:_kth_nearest_neighbor_dist"]}
{"id": "C134", "title": "Cone kernel", "statement": "For every zeta in [0,1) and epsilon > 0 the ConeKernel matrix of a time series collection is symmetric with values in (0,1] and ones on the diagonal, evaluating the reference samples component-wise gives the same matrix, each entry is the documented expression of displacement, time derivatives and angles (so that neighbours in the direction of the flow get a larger weight), and the result of a component-wise evaluation depends only on its arguments, not on earlier evaluations.", "quantifier": "all samples and derivatives in any dimension, all admissible parameters, all sequences of evaluations", "why_tests_cant": "The tests compare special cases (zeta=0) or shapes; the angular dependence and the effect of earlier evaluations hold or fail for all samples.", "anchors": ["datafold/pcfold/kernels.py:ConeKernel"]}
{"id": "C135", "title": "Variable bandwidth kernel gives a discrete generator", "statement": "DmapKernelVariable computes from the squared distances the documented density estimate, bandwidth and normalised kernel; the returned operator annihilates constant functions up to the documented shift (after undoing the basis change its rows sum to one, no eigenvalue exceeds one) in the symmetrised form and is the generator in the other form, and parameters outside the documented range (positive integers k and expected_dim, positive epsilon) are rejected.", "quantifier": "all point clouds (distance matrices), dimensions, epsilon, beta and neighbour numbers", "why_tests_cant": "The class is not tested (pragma: no cover); the spectral bound and the row sums are statements for all clouds.", "anchors": ["datafold/pcfold/kernels.py:DmapKernelVariable", "datafold/dynfold/dmap.py:DiffusionMapsVariable"]}
{"id": "C136", "title": "Eigenpairs and singular triplets of kernel matrices", "statement": "compute_kernel_eigenpairs returns the requested number of eigenpairs of the kernel matrix, in descending order and real for symmetric kernels, no matter whether all or some of them are requested and whether the kernel or its distance is symmetric; diffusion maps turn them into normalised eigenvectors of the stochastic matrix; compute_kernel_svd returns sorted matching triplets or rejects too large numbers.", "quantifier": "all kernel matrices, symmetry flags, numbers of eigenpairs, all results a correct solver may return and all orders of equal eigenvalues", "why_tests_cant": "Tests use a few symmetric matrices; which routine is chosen for which combination of flags is a case distinction, and the order among equal eigenvalues is not determined.", "anchors": ["datafold/pcfold/eigsolver.py:scipy_eigsolver", "datafold/pcfold/eigsolver.py:compute_kernel_eigenpairs", "datafold/pcfold/eigsolver.py:compute_kernel_svd", "datafold/dynfold/dmap.py:_DmapKernelAlgorithms.solve_eigenproblem"]}
{"id": "C137", "title": "What a model accepts in fit and remembers of it", "statement": "fit of the time series models accepts exactly the collections in which all series have the same constant sampling interval (and, with control, a control state for every state but the last of each series), whatever their time values otherwise are. Afterwards the model accepts exactly data with the feature and control names and the sampling interval of the data it was trained with; a rejected call of fit or partial_fit changes nothing.", "quantifier": "all training collections, control inputs, and histories of successful and failed calls of fit", "why_tests_cant": "Depends on the whole history of calls and on the relation between the time values of all series; tests fit once with series that start together.", "anchors": ["datafold/dynfold/base.py:TSCPredictMixin._validate_and_setup_fit_attrs", "datafold/dynfold/base.py:TSCPredictMixin._validate_feature_names", "datafold/dynfold/base.py:TSCPredictMixin._validate_delta_time", "datafold/dynfold/dmd.py:DMDStandard.fit", "datafold/dynfold/dmd.py:DMDControl.fit"]}
{"id": "C138", "title": "Simulated time series keep ID and start of their initial condition", "statement": "ODE-based systems return, for every initial condition, its solution at the requested time values, under the ID of the initial condition and starting with its state at its time; without time values a single default step is made.", "quantifier": "every collection or array of initial conditions, every list of time values, every solver", "why_tests_cant": "IDs, orders and time values are unbounded; tests use IDs 0, 1, ... and start at time 0", "anchors": ["datafold/utils/_systems.py:ODE.predict", "datafold/utils/_systems.py:ODE._prepare_ic_and_time_values"]}
{"id": "C139", "title": "Simulated initial conditions are driven by the control with their ID", "statement": "Controlled simulations drive each initial condition with the control input that has its ID (or with no control), start at the time of the initial condition, and return states and control with matching index (states have one more sample).", "quantifier": "every collection of initial conditions and of control inputs, every list of time values, every solver", "why_tests_cant": "orders and IDs of two collections are unbounded; tests use IDs 0, 1, ... in ascending order", "anchors": ["datafold/utils/_systems.py:ControllableODE.predict", "datafold/dynfold/base.py:TSCPredictMixin._validate_and_set_time_values_predict"]}
{"id": "C140", "title": "The limit cycle benchmark is the solution of its equation", "statement": "Simulating the limit cycle benchmark from a point gives, in row i, the state at time i*dt: the first row is the given point, the angle grows by dt/eps per row and the radius solves r' = (1 - r^2) r and tends to the cycle with radius one; the Cartesian result has the same angle and radius.", "quantifier": "All starting points, step sizes, numbers of steps and values of eps.", "why_tests_cant": "The deviation at the start is far below the tolerances of tests, and the solution property is a statement for all times.", "anchors": ["datafold/utils/_systems.py:LimitCycle._compute_angle", "datafold/utils/_systems.py:LimitCycle._as_cartesian_coordinates", "datafold/utils/_systems.py:LimitCycle.eval_analytical", "datafold/utils/_systems.py:LimitCycle.eval_finite_differences"]}
{"id": "C141", "title": "Hopf benchmark: polar initial conditions and polar results", "statement": "The Hopf benchmark rotates with constant speed one and its radius follows r' = r (mu - r^2). Initial conditions given in polar coordinates start at the corresponding Cartesian point, and the additional polar columns are the radius and angle of the returned point; the initial conditions of the caller are not changed.", "quantifier": "All parameters mu, all initial conditions, as array or data frame, in both coordinates.", "why_tests_cant": "Tests use few initial conditions and only plots show a wrong start; points on an axis are exceptional.", "anchors": ["datafold/utils/_systems.py:Hopf.predict", "datafold/utils/_systems.py:Hopf._f"]}
{"id": "C142", "title": "Trigonometric coordinates of the inverted pendulum can be inverted", "statement": "Transforming states of the inverted pendulum to trigonometric coordinates and back gives the same states.", "quantifier": "All states, in particular all angles and angular velocities.", "why_tests_cant": "Tests use small angles and velocities, for which the property holds.", "anchors": ["datafold/utils/_systems.py:InvertedPendulum.theta_to_trigonometric", "datafold/utils/_systems.py:InvertedPendulum.trigonometric_to_theta"]}
{"id": "C143", "title": "The voltage acts on the inverted pendulum as documented", "statement": "The control input (voltage) of the inverted pendulum enters as the force gain * u on the cart and hence also on the pendulum; without voltage the system at rest in upright position stays there.", "quantifier": "All parameters, states and voltages.", "why_tests_cant": "A test compares trajectories with stored ones; whether the input has the documented effect in each state is not visible from them.", "anchors": ["datafold/utils/_systems.py:InvertedPendulum._f"]}
{"id": "C144", "title": "Pendulum benchmark: energy and position", "statement": "The pendulum benchmark loses energy through friction only (without friction the energy is constant), and the Cartesian position has the distance of the rod length to the fixation point.", "quantifier": "All masses, lengths, frictions, gravities, solutions and angles.", "why_tests_cant": "Conservation laws hold for all solutions; a numerical test only sees them up to the integration error.", "anchors": ["datafold/utils/_systems.py:Pendulum._integrate_pendulum_sim", "datafold/utils/_systems.py:Pendulum._convert_cartesian"]}
{"id": "C145", "title": "Burgers' equation benchmark: conservation, symmetry, period and implicit step", "statement": "The discretised Burgers' equation on the periodic domain of length 2 pi conserves the total of the state up to the control, has no preferred node, and its implicit step finds the next state from the current one.", "quantifier": "All numbers of nodes, viscosities, states, controls and step sizes.", "why_tests_cant": "Conservation and symmetry are statements for all states; the error in the period is of the order of the discretisation error.", "anchors": ["datafold/utils/_systems.py:Burger1DPeriodicBoundary._f", "datafold/utils/_systems.py:Burger1DPeriodicBoundary._step", "datafold/utils/_systems.py:Burger1DPeriodicBoundary.__init__"]}
{"id": "C146", "title": "Equilibria of the benchmark systems", "statement": "The benchmark with three stable points has exactly three equilibria and they are stable; the Lorenz system has exactly one equilibrium for rho < 1 and exactly three for rho > 1; the closed curve with integer constants is 2 pi periodic.", "quantifier": "All states, all parameters of the Lorenz system, all integer constants of the curve.", "why_tests_cant": "That there are no further equilibria is a statement about all points of the state space.", "anchors": ["datafold/utils/_systems.py:ThreeStablePoints._f", "datafold/utils/_systems.py:Lorenz._f", "datafold/utils/_systems.py:ClosedPeriodicalCurve._closed_system"]}
{"id": "C147", "title": "A linear system is set up with matching matrices, and can be set up again", "statement": "A linear system (and every DMD model) accepts exactly matrices of matching shapes, keeps them until it is fitted again, and a later fit replaces them; a rejected set up leaves the system as it was.", "quantifier": "All system types and modes, all matrices given, all histories of fits.", "why_tests_cant": "The interplay of repeated and failed calls is not covered by tests of single calls.", "anchors": ["datafold/dynfold/dynsystem.py:LinearDynamicalSystem.setup_matrix_system", "datafold/dynfold/dynsystem.py:LinearDynamicalSystem.setup_spectral_system", "datafold/dynfold/dynsystem.py:LinearDynamicalSystem.is_linear_system_setup", "datafold/dynfold/dmd.py:DMDStandard.fit", "datafold/dynfold/dmd.py:DMDControl.fit"]}
{"id": "C148", "title": "evolve_system accepts exactly fitting arguments", "statement": "evolve_system accepts initial conditions with the state length, one-dimensional real-valued time values, control input of the documented shape, a positive time delta for flow maps and as many feature names as features; the documented default values work for every system.", "quantifier": "All systems and all shapes of the arguments.", "why_tests_cant": "Shapes are unbounded; tests use square systems with few shapes.", "anchors": ["datafold/dynfold/dynsystem.py:LinearDynamicalSystem.evolve_system", "datafold/dynfold/dynsystem.py:LinearDynamicalSystem._set_and_check_system_params", "datafold/dynfold/dynsystem.py:LinearDynamicalSystem._check_time_values", "datafold/dynfold/dynsystem.py:LinearDynamicalSystem._check_control_input"]}
{"id": "C149", "title": "A map given to predict is applied to every predicted state", "statement": "predict(X, post_map=P, feature_columns=...) returns P applied to each state of predict(X), for all systems that accept it; the same holds for an overwritten system matrix in evolve_system.", "quantifier": "All maps, spectral systems, initial conditions and time values; with and without control.", "why_tests_cant": "The statement is about all maps and time values; tests only use projections of uncontrolled systems.", "anchors": ["datafold/dynfold/dmd.py:DMDBase._read_predict_params", "datafold/dynfold/dmd.py:DMDBase._read_user_sys_matrix", "datafold/dynfold/dmd.py:DMDBase.predict", "datafold/dynfold/dynsystem.py:LinearDynamicalSystem._set_sys_matrix"]}
{"id": "C150", "title": "Windowed reconstruction predicts every window from its own first samples", "statement": "A model adapted with EDMDWindowPrediction reconstructs, for every window of the requested size and offset, the samples of that window from the window's own initial samples and labels them with the true time values; with offset = window_size - n_samples_ic_ the tested samples do not overlap and no sample is dropped.", "quantifier": "All collections with constant sampling interval, window sizes, offsets and models.", "why_tests_cant": "The time values are replaced and written back by position; that this matches needs all numbers of windows and series.", "anchors": ["datafold/appfold/edmd.py:EDMDWindowPrediction._window_reconstruct", "datafold/appfold/edmd.py:EDMDWindowPrediction.adapt_model", "datafold/pcfold/timeseries/accessor.py:TSCAccessor.iter_timevalue_window"]}
{"id": "C151", "title": "Reconstruction of controlled data works like reconstruction of uncontrolled data", "statement": "EDMD.reconstruct(X, U) (and the windowed variant with its score) predicts every series of X from its first samples and the control series with the same ID, for the data that fit accepts.", "quantifier": "All collections and matching control inputs: start times, numbers of samples, IDs; all models.", "why_tests_cant": "Failures depend on start times and lengths that tests do not vary.", "anchors": ["datafold/appfold/edmd.py:EDMD.reconstruct", "datafold/appfold/edmd.py:EDMD._reconstruct", "datafold/pcfold/timeseries/collection.py:InitialCondition.validate_control", "datafold/appfold/edmd.py:EDMDWindowPrediction._window_reconstruct", "datafold/appfold/edmd.py:EDMDWindowPrediction._window_score"]}
{"id": "C152", "title": "Stepwise predictions apply the model again from each predicted state", "statement": "With stepwise_transform=True the prediction at each requested time value is the one-step prediction from the last predicted samples of the same series, for the time values that ordinary predictions accept; if the dictionary is closed under the dynamics both kinds of prediction agree.", "quantifier": "All dictionaries, numbers of initial samples and series, all increasing time values.", "why_tests_cant": "The loop writes into a shared frame by index; tests use one series and few steps.", "anchors": ["datafold/appfold/edmd.py:EDMD._predict_stepwise_transform", "datafold/pcfold/timeseries/accessor.py:TSCAccessor.expand_time_values"]}
{"id": "C153", "title": "Koopman eigenfunctions evolve with their eigenvalues", "statement": "For a dictionary closed under the dynamics, koopman_eigenfunction(X) evaluates functions that are multiplied by koopman_eigenvalues from each sample to its successor, and koopman_modes times the eigenfunctions is the state.", "quantifier": "All closed dictionaries with diagonalisable matrices, with and without left eigenvectors, all collections.", "why_tests_cant": "The equation must hold for all states; tests evaluate a few samples up to a tolerance.", "anchors": ["datafold/appfold/edmd.py:EDMD.koopman_eigenfunction", "datafold/appfold/edmd.py:EDMD.koopman_modes", "datafold/dynfold/dynsystem.py:LinearDynamicalSystem.compute_spectral_system_states"]}
{"id": "C154", "title": "Controlling a system along a reference is a closed loop of controller and system", "statement": "Controlling a system along a reference returns the states of the system and the applied control inputs. Before every step the controller gets the latest samples it needs and the reference over the next horizon (after the end of the reference its last sample is held); the first control input of the optimal sequence is applied for one time step, and the state the system then has is the next returned state. The whole reference is covered unless the system terminates.", "quantifier": "all controllers, lifted models, solvers and systems, all horizons, all regularly sampled references, initial states and model histories, with and without attached control input", "why_tests_cant": "the loop feeds its own results back; tests can only run a few references with one system, and there is none for the loop", "anchors": ["datafold/appfold/mpc.py: KMPC.control_system_reference", "datafold/appfold/mpc.py: KMPC.control_sequence_horizon", "datafold/pcfold/timeseries/accessor.py: TSCAccessor.fill_timeseries_with_last_state", "datafold/pcfold/timeseries/accessor.py: TSCAccessor.augment_control_input", "datafold/utils/_systems.py: ControllableODE.predict"]}
{"id": "C155", "title": "An EDMD dictionary is one function of the last n_samples_ic_ samples", "statement": "For a dictionary of delay embeddings, moving averages and transformers of single samples, in any order and number: n_samples_ic_ is the number of samples that the chain looks at; there is one function with which fit and every later transform compute each dictionary state from the last n_samples_ic_ samples of the same series, with the time value of the last of them, for the same IDs; an initial condition with n_samples_ic_ samples gives one dictionary state, which is the state that the longer series has at this place; shorter series raise.", "quantifier": "every list of transformers and every collection with constant sampling interval (any number of series, lengths and features), with and without attached states", "why_tests_cant": "The number of samples is found in fit from differences of lengths, and the initial condition passes through each transformer separately; agreement with the training dictionary must hold for every chain and every window.", "anchors": ["datafold/appfold/edmd.py:EDMD.fit, transform, _compute_n_samples_ic, _attach_id_state", "datafold/dynfold/transform.py:TSCTakensEmbedding, TSCMovingAverage"]}
{"id": "C156", "title": "Mapping a dictionary back gives the original states", "statement": "With the original states attached, or with transformers that keep them, EDMD.inverse_transform maps the dictionary of every collection back to the samples from the n_samples_ic_-th one on, in the original units.", "quantifier": "every list of transformers that keep the states or every dictionary with attached states, every collection with constant sampling interval", "why_tests_cant": "The decision whether the states are preserved is taken from the names only and the inverse map is a projection that is stored in fit and used for all later data.", "anchors": ["datafold/appfold/edmd.py:EDMD.inverse_transform, _compute_inverse_map, _set_dict_preserves_id_state, _attach_id_state", "datafold/dynfold/transform.py:TSCFeaturePreprocess"]}
{"id": "C157", "title": "The grid search selects and refits the best candidate without leaking test samples", "statement": "EDMDCV.fit scores every candidate in every split with a model that is fitted to the training part of this split only, using the score function set in the model; selects the first candidate with the largest mean test score; refits it to all data; with error_score='raise' every failing fit or score raises.", "quantifier": "every estimator, grid of candidates, collection and split of the cross validation classes; any numeric error_score", "why_tests_cant": "The scores are computed in a flat list over candidates and splits and reshaped; ties, failed fits and the copies of the estimator must be right for every grid.", "anchors": ["datafold/appfold/edmd.py:EDMDCV.fit, _fit_and_score_edmd, _split_X_edmd, EDMDWindowPrediction.adapt_model"]}
{"id": "C158", "title": "A column transformer joins its parts on the common samples", "statement": "The collection returned by TSCColumnTransformer contains exactly the samples (ID and time value) that every one of its transformers returns, with their values side by side in the order of the transformers; it raises if and only if there is no common sample. If the transformers look back by at most m samples, so does the column transformer with the largest m, and a dictionary with column transformers is reproducible sample by sample. n_features_out_ is the number of columns of the result.", "quantifier": "all lists of transformers, all collections (any IDs in any order, any lengths of series) and all numbers of samples the transformers drop", "why_tests_cant": "the outer join with subsequent dropna has to be right for every combination of indices of the parts, equal or not, sorted or not; tests try one or two combinations", "anchors": ["datafold/dynfold/compose.py:TSCColumnTransformer._hstack", "datafold/dynfold/compose.py:TSCColumnTransformer.n_features_out_"]}
{"id": "C159", "title": "Data validation accepts exactly the data that are asked for", "statement": "fit, transform and predict validate their data: arrays, frames and collections pass, unchanged, if and only if they have the required type, dimension, finite values, the required number of samples and features, and (collections) the requested properties of the time index. What a transformer returns has the type and index of its argument.", "quantifier": "all data of all four types and all combinations of requirements", "why_tests_cant": "every combination of type and requirement; tests use a few wrong inputs", "anchors": ["datafold/dynfold/base.py:TSCBase._validate_datafold_data", "datafold/dynfold/base.py:TSCTransformerMixin._same_type_X"]}
{"id": "C160", "title": "Parameters of fit are not ignored", "statement": "A keyword parameter of fit is either known to the method, and then its value is used instead of the default, or raises; the order in which the parameters are given does not matter.", "quantifier": "all lists of known parameters and all dictionaries of given parameters", "why_tests_cant": "all dictionaries", "anchors": ["datafold/dynfold/base.py:TSCBase._read_fit_params"]}
{"id": "C161", "title": "Jointly smooth functions of any number of data sources", "statement": "For any number of splits of the features, the jointly smooth functions are orthonormal on the training data, and each has the largest sum of squared projections onto the smooth functions of the splits among all functions orthogonal to the previous ones; transform at the training data returns them.", "quantifier": "all numbers of splits, kernels, numbers of eigenvectors and training data", "why_tests_cant": "an optimum over all functions", "anchors": ["datafold/dynfold/jsf.py:JointlySmoothFunctions.fit", "datafold/dynfold/jsf.py:JointlySmoothFunctions.transform"]}
{"id": "C162", "title": "Scaled features can be mapped back", "statement": "The scalers center, min-max and standard give the training data the documented statistics (mean zero, variance one, range [0, 1]; constant features become zero), and inverse_transform maps transformed data back for all data of the supported types; data with other columns are rejected.", "quantifier": "all training data, all new data and the three scalers", "why_tests_cant": "all data; numerical statistics of arbitrary columns", "anchors": ["datafold/dynfold/transform.py:TSCFeaturePreprocess.fit", "datafold/dynfold/transform.py:TSCFeaturePreprocess.inverse_transform"]}
{"id": "C163", "title": "Principal components are the best linear reduction", "statement": "Principal components of training data are orthonormal, transformed training data are uncorrelated with decreasing variances, and no other affine space of the same dimension has a smaller sum of squared distances to the training data than the points that are transformed and mapped back. This holds again after every fit, and transformed data can always be mapped back.", "quantifier": "all training data, numbers of components and histories of fits", "why_tests_cant": "an optimum over all affine spaces; all histories", "anchors": ["datafold/dynfold/transform.py:TSCPrincipalComponent.fit", "datafold/dynfold/transform.py:TSCPrincipalComponent.transform", "datafold/dynfold/transform.py:TSCPrincipalComponent.inverse_transform"]}
{"id": "C164", "title": "Feature selection returns the selected columns", "statement": "Features can be selected by name or by position (from the end if negative); transform returns exactly these columns, in the order of the selection, and a selection of columns that do not exist is rejected.", "quantifier": "all selections and all data", "why_tests_cant": "all selections and orders of columns", "anchors": ["datafold/dynfold/transform.py:TSCFeatureSelect.fit", "datafold/dynfold/transform.py:TSCFeatureSelect.transform"]}
{"id": "C165", "title": "Random features can be fitted and approximate the Gaussian kernel", "statement": "The random Fourier features and the sampled networks can be fitted; inner products of Fourier features depend on the difference of the samples only, and are on average the number of features times the Gaussian kernel with scale sigma.", "quantifier": "all data, numbers of features and scales", "why_tests_cant": "an expected value over all draws", "anchors": ["datafold/dynfold/transform.py:FourierRBF.fit", "datafold/dynfold/transform.py:FourierRBF.transform", "datafold/dynfold/transform.py:TSCSampledNetwork.fit"]}
{"id": "C166", "title": "Control-affine generators are the least squares solution", "statement": "gDMDAffine computes, from sampled series with controls, the drift matrix and control tensor with the least squared error between the estimated time derivatives and A x + sum over controls of u_k T_k x; if the data fulfil such a model and excite it, exactly this model is recovered. Each derivative is paired with the state and the control of the same series and time, for series with any time intervals.", "quantifier": "all collections of states and controls and all difference schemes", "why_tests_cant": "an optimum over all models; all time intervals of the series", "anchors": ["datafold/dynfold/dmd.py:gDMDAffine._compute_koopman_and_control_matrix", "datafold/dynfold/dmd.py:gDMDAffine.fit", "datafold/dynfold/dmd.py:gDMDFull.fit"]}
{"id": "C167", "title": "The residual filter keeps the components asked for", "statement": "With residual_filter the components of a DMD model with a residual up to the threshold are kept, or the n with the smallest residuals (keep_n), optionally sorted; eigenvalues stay with their eigenvectors. Fitting again with the same model keeps the same components and fit does not change the parameter.", "quantifier": "all lists of components, residuals and filter options, and all numbers of fits", "why_tests_cant": "all orders and ties of residuals; all histories of fits", "anchors": ["datafold/dynfold/dmd.py:DMDStandard._remove_spectral_pollution"]}
{"id": "C168", "title": "Exact modes of oscillating systems have the residual zero", "statement": "For exact data of a linear system with a normal system matrix, every true pair of eigenvalue and mode has the residual zero, also if the eigenvalue is complex, so that the residual filter does not remove it; the models with and without a rank agree on this.", "quantifier": "all normal matrices, all exact data and all eigenvalues", "why_tests_cant": "all complex eigenvalues and all data", "anchors": ["datafold/dynfold/dmd.py:DMDStandard._remove_spectral_pollution", "datafold/dynfold/dmd.py:DMDStandard._compute_reduced_system_matrix"]}
{"id": "C169", "title": "The pseudospectrum is the least residual", "statement": "pseudospectrum returns at every grid point z the least residual over all observables in the dictionary, that is the square root of the minimum of the mean of |phi(y) - z phi(x)|^2 divided by the (regularised) mean of |phi(x)|^2, for models with and without a rank; the returned pseudo eigenfunctions have this residual.", "quantifier": "all snapshot data, grid points and observables", "why_tests_cant": "a minimum over all complex observables", "anchors": ["datafold/dynfold/dmd.py:DMDStandard.pseudospectrum"]}
{"id": "C170", "title": "Spectral methods are available after the fit that asks for them and use the data of the last fit", "statement": "After fit with compute_pseudospectrum=True the pseudospectrum can be computed, after fit with a residual filter the spectral measure; both are computed from the data of the last fit, and a call without the parameter raises the documented ValueError.", "quantifier": "all parameter settings and all histories of fits", "why_tests_cant": "all combinations of parameters and histories of fits", "anchors": ["datafold/dynfold/dmd.py:DMDStandard.fit", "datafold/dynfold/dmd.py:DMDStandard.pseudospectrum", "datafold/dynfold/dmd.py:DMDStandard.spectral_measure"]}
{"id": "C171", "title": "The spectral measure depends on the model and the observable only", "statement": "spectral_measure returns the smoothed spectral measure defined by the resolvent of the fitted model for every kernel order and positive smoothing; the result does not depend on which of the possible generalised Schur decompositions is computed internally, and the array of the caller is left unchanged.", "quantifier": "all fitted models, observables, kernel orders and smoothing parameters", "why_tests_cant": "all admissible results of the factorisation routine", "anchors": ["datafold/dynfold/dmd.py:DMDStandard.spectral_measure", "datafold/dynfold/dmd.py:DMDStandard._calc_c", "datafold/dynfold/dmd.py:DMDStandard._calc_d", "datafold/dynfold/dmd.py:DMDStandard._calc_z"]}
{"id": "C172", "title": "A fixed sampling interval applies to everything a collection reports", "statement": "A collection created with fixed_delta=d behaves like a collection whose samples lie at d times the integers of its index: time_values, delta_time, time_interval (of the collection and of one series), the printed time values, normalize_time and the frames selected from it all refer to these times.", "quantifier": "all valid collections with integer index and all positive intervals", "why_tests_cant": "all collections, intervals and starts; the tests use one series with one interval", "anchors": ["datafold/pcfold/timeseries/collection.py:TSCDataFrame.__init__", "datafold/pcfold/timeseries/collection.py:TSCDataFrame.time_values", "datafold/pcfold/timeseries/collection.py:TSCDataFrame.delta_time", "datafold/pcfold/timeseries/collection.py:TSCDataFrame.time_interval", "datafold/pcfold/timeseries/collection.py:TSCDataFrame.__repr__", "datafold/pcfold/timeseries/accessor.py:TSCAccessor.normalize_time"]}
{"id": "C173", "title": "The control-affine controller uses the state it is asked for", "statement": "Every control signal generated by AffineKgMPC is computed for the initial state passed to this call; earlier calls and the cache of the controller have no effect.", "quantifier": "all programs that call one controller any number of times and write to their own arrays in between", "why_tests_cant": "all histories of calls and of updates of the arrays passed", "anchors": ["datafold/appfold/mpc.py:AffineKgMPC._predict", "datafold/appfold/mpc.py:AffineKgMPC.generate_control_signal"]}
{"id": "C174", "title": "The Jacobian of the control-affine controller is the derivative of its cost", "statement": "The Jacobian that AffineKgMPC hands to the optimiser is the derivative of the cost with respect to the values of the control signal, through the predicted states as well as directly (unit weights).", "quantifier": "all systems, horizons, control signals, references and variations of the signal", "why_tests_cant": "a statement about solutions of differential equations for all systems and signals", "anchors": ["datafold/appfold/mpc.py:AffineKgMPC.cost_and_jacobian", "datafold/appfold/mpc.py:AffineKgMPC.jacobian"]}
{"id": "C175", "title": "Selected rows of a collection", "statement": "Rows selected from a collection by a condition, by index entries, by positions or by a cross section are returned unchanged: as a collection if they form one, and otherwise as a plain frame. Numeric values can be assigned through the indexers.", "quantifier": "all valid collections, conditions, lists of index entries and positions, IDs and time values", "why_tests_cant": "all collections and all selections, including empty ones and other orders", "anchors": ["datafold/pcfold/timeseries/collection.py:_LocTSCIndexer.__getitem__", "datafold/pcfold/timeseries/collection.py:_iLocTSCIndexer.__getitem__", "datafold/pcfold/timeseries/collection.py:TSCDataFrame.__getitem__", "datafold/pcfold/timeseries/collection.py:TSCDataFrame.xs"]}
{"id": "C176", "title": "Score of DMD models", "statement": "For every DMD model and every collection the model can reconstruct, `score(X)` returns a number. It is at most 0, and it is 0 exactly if the reconstruction equals the data.", "quantifier": "all DMD model classes, fitted models and valid collections of regularly sampled series", "why_tests_cant": "holds for collections with any number of series, lengths, start times and orders of IDs", "anchors": ["datafold/dynfold/dmd.py:DMDBase.score", "datafold/dynfold/dmd.py:DMDBase.reconstruct", "datafold/dynfold/base.py:TSCPredictMixin._setup_default_tsc_metric_and_score"]}
{"id": "C177", "title": "Models from a given system matrix", "statement": "A model created from an available system matrix predicts with this matrix in both modes, with and without left eigenvectors; models of the PyDMD package can be used like the other models after fit.", "quantifier": "all real diagonalisable matrices, all results and orders of the eigensolver, initial conditions, time values; all methods of the wrapper", "why_tests_cant": "the eigensolver may return any basis of eigenvectors in any order", "anchors": ["datafold/dynfold/dmd.py:PretrainedDMD.from_available_system_matrix", "datafold/dynfold/dmd.py:compute_spectral_components", "datafold/dynfold/dmd.py:PretrainedDMD.fit", "datafold/dynfold/dmd.py:PyDMDWrapper.fit"]}
{"id": "C178", "title": "Error observables", "statement": "EDMDPostObservable attaches observables of the prediction error to a fitted model: fit_transform returns a model; the error time series contains the absolute difference of data and reconstruction at all samples except the initial states; cross validation chooses the model with the best score.", "quantifier": "every data set and reconstruction with any number of series, every list of scores, every model", "why_tests_cant": "Tests look at one data set; that no call can succeed and that initial states of further series stay in are statements about all inputs.", "anchors": ["datafold/appfold/edmd.py:EDMDPostObservable"]}
{"id": "C179", "title": "HAVOK coordinates", "statement": "HAVOK.transform of the training series returns the coordinates in which the linear model was fitted; fit recovers the matrices of data that satisfy a forced linear equation; fit_predict returns the simulated series.", "quantifier": "every training series with any delays and rank, every singular value decomposition and pseudo inverse, every number of forcing samples", "why_tests_cant": "Numerical tests check one series up to a tolerance; the property holds for all singular value decompositions, and the failure of fit_predict is for all inputs.", "anchors": ["datafold/appfold/edmd.py:HAVOK"]}
{"id": "C180", "title": "Gradient of the geometric harmonics", "statement": "GeometricHarmonicsInterpolator.gradient returns, for the chosen target, the gradient of the function that predict evaluates; every existing target column can be chosen and other columns are rejected by the check.", "quantifier": "every Gaussian bandwidth, all training points and target values, every query point and direction, every column", "why_tests_cant": "The method has no test; finite differences at a few points would not show for which data the result is right. The statement is about all points.", "anchors": ["datafold/dynfold/outofsample.py:GeometricHarmonicsInterpolator.gradient", "datafold/dynfold/outofsample.py:GeometricHarmonicsInterpolator._precompute_aux"]}
{"id": "C181", "title": "Mahalanobis kernel", "statement": "The Mahalanobis kernel matrix is symmetric, has ones on the diagonal and the value exp(-d^2/(2 epsilon)) with the Mahalanobis distance of the mean of the two given matrices; query points are supported; sparse and dense distance matrices give the same values.", "quantifier": "all points, matrices, bandwidths and patterns of stored distances", "why_tests_cant": "The class has no tests; which patterns of stored distances give right values is a statement about all patterns.", "anchors": ["datafold/pcfold/kernels.py:MahalanobisKernel.evaluate", "datafold/pcfold/kernels.py:MahalanobisKernel.__call__"]}
{"id": "C182", "title": "Threshold and score of jointly smooth functions", "statement": "compute_E0 returns a threshold for the energies of jointly smooth functions: the energy reached by the third function if the last split is replaced by noise (its rows are shuffled), at most one; score_ returns the sum of the energies.", "quantifier": "every number of splits, all eigenvectors, every permutation, every number of requested functions", "why_tests_cant": "A test runs one data set; that the threshold ignores the noise for three or more splits, and exceeds all possible energies, is a statement about all data.", "anchors": ["datafold/dynfold/jsf.py:JointlySmoothFunctions.compute_E0", "datafold/dynfold/jsf.py:JointlySmoothFunctions.score_"]}
{"id": "C183", "title": "Score of an EDMD model", "statement": "Whenever an EDMD model can reconstruct a collection, score returns a number; it is at most zero, and zero exactly if the predictions of every series, from the last sample of its initial condition on, are the given states.", "quantifier": "all models, all collections, all lengths of an initial condition", "why_tests_cant": "A test scores one model on one collection; that exact models always score zero is a statement about all collections, and fails for series of different lengths.", "anchors": ["datafold/appfold/edmd.py:EDMD.score", "datafold/appfold/edmd.py:EDMD.reconstruct"]}
{"id": "C184", "title": "Slices of an EDMD model", "statement": "A slice of an EDMD model that leaves out the final model is the pipeline of exactly the sliced transformers in order, the full slice is the model itself, every other slice is refused.", "quantifier": "all dictionaries, all non-negative bounds of a slice", "why_tests_cant": "A test takes a few slices of one pipeline.", "anchors": ["datafold/appfold/edmd.py:EDMD.__getitem__"]}
{"id": "C185", "title": "Evolution of a linear system over given time values", "statement": "evolve_system returns for every initial condition the states of the system at the given time values; time values may start anywhere and come in any order, and a control without effect changes nothing.", "quantifier": "all system matrices, all initial conditions and IDs, all distinct multiples of the sampling interval", "why_tests_cant": "A test evolves a few systems over time values that start at zero; what the initial condition means for other time values differs between the solvers.", "anchors": ["datafold/dynfold/dynsystem.py:LinearDynamicalSystem.evolve_system"]}
{"id": "C186", "title": "Finite differences as a transformer", "statement": "With the default spacing, TSCFiniteDifference accepts in fit exactly the collections in which all series are sampled with one constant interval and keeps this interval; transform then accepts exactly collections with the same features, the same interval and series that are long enough for the scheme, and returns their time derivatives, which are exact for polynomials of the order of the scheme. A spacing can also be given as a number, and further data given to partial_fit are checked against the first.", "quantifier": "all collections of any number of series, lengths and values (integer time values), all parameters of the transformer", "why_tests_cant": "depends on the sampling of every series of the fitted and of the transformed collection; tests use one sampling and the default spacing", "anchors": ["datafold/dynfold/transform.py:TSCFiniteDifference", "datafold/pcfold/timeseries/accessor.py:TSCAccessor.time_derivative"]}
{"id": "C187", "title": "Jointly smooth functions of arrays, frames and collections", "statement": "JointlySmoothFunctions accepts numpy arrays, pandas frames and time series collections alike; it returns exactly the requested number of functions or raises, and every fitted model can be used in transform.", "quantifier": "all parameters, numbers of samples, splits and eigenvalues of the split kernels, all three types of data", "why_tests_cant": "the number of functions depends on how many eigenvalues lie above the cut-off in each split; tests request few functions of arrays and collections", "anchors": ["datafold/dynfold/jsf.py:JointlySmoothFunctions.fit", "datafold/dynfold/jsf.py:JointlySmoothFunctions.transform", "datafold/pcfold/timeseries/collection.py:TSCDataFrame.from_same_indices_as"]}
{"id": "C188", "title": "The continuous nearest neighbour kernel accepts exactly distance settings with enough neighbours", "statement": "ContinuousNNKernel(k_neighbor, delta, distance) accepts a distance algorithm or a dictionary of distance settings exactly if every point is guaranteed to have at least k_neighbor stored neighbours; with a dictionary it takes care of this itself and leaves the dictionary of the caller as it is.", "quantifier": "all neighbour numbers, all radius and nearest neighbour algorithms, all dictionaries of settings", "why_tests_cant": "the tests use one or two settings; the guarantee is about all of them, and its failure shows only for data with isolated points", "anchors": ["datafold/pcfold/kernels.py:ContinuousNNKernel.__init__", "datafold/pcfold/distance.py:init_distance_algorithm", "datafold/pcfold/distance.py:GuessOptimalDist"]}
{"id": "C189", "title": "A diffusion kernel object remembers exactly its first accepted pair-wise evaluation", "statement": "For every history of accepted and refused evaluations of a DmapKernelFixed object, component-wise evaluations are normalised with the attributes of the first accepted pair-wise evaluation; before it they are refused, after it every further pair-wise evaluation is refused, and refused calls change nothing. evaluate with the distance matrix gives what the call with the points gives.", "quantifier": "all histories of calls, point clouds, kernel parameters, internal kernels without state; Gaussian kernels with any bandwidth function; nearest neighbour graphs", "why_tests_cant": "unit tests use an object for one pair-wise and one component-wise evaluation; the statement is about every order of calls including refused ones", "anchors": ["datafold/pcfold/kernels.py:DmapKernelFixed", "datafold/pcfold/kernels.py:BaseManifoldKernel._required_attrs", "datafold/pcfold/kernels.py:GaussianKernel.evaluate", "datafold/pcfold/kernels.py:ContinuousNNKernel"]}
{"id": "C190", "title": "EDMD with delays predicts linear recurrences and partially observed linear systems exactly", "statement": "If every series of the training data follows the same linear recurrence of order d+1 (for example because the features are a linear observation of a linear system with d+1 states of which the other states are not measured), EDMD with a Takens embedding of d delays has the companion matrix of the recurrence as its system matrix, reads the state from the undelayed features, and predicts all future samples exactly, from every initial condition of d+1 samples and for every horizon, provided the windows of the training data span the space of windows. The order of the IDs does not matter.", "quantifier": "all recurrences, observed systems, numbers of delays and features, data sets, initial windows and horizons", "why_tests_cant": "tests compare predictions for a few systems within a tolerance; the claim is equality for all systems and unbounded horizons", "anchors": ["datafold/appfold/edmd.py:EDMD.fit", "datafold/appfold/edmd.py:EDMD.predict", "datafold/dynfold/transform.py:TSCTakensEmbedding"]}
{"id": "C191", "title": "EDMD with control and delays identifies controlled linear recurrences and predicts them exactly", "statement": "If every series of the training data follows the same linear recurrence of order d+1 driven by a control input, EDMD with a Takens embedding of d delays, fitted with the control inputs, has the companion matrix of the recurrence as its system matrix and the input matrix in the block of the undelayed features as its control matrix, reads the state from the undelayed features, and predicts the controlled recurrence exactly, from every initial window of d+1 samples, for every control input and horizon, provided windows and inputs of the training data span the joint space. Control inputs at times that are lost by the embedding do not matter.", "quantifier": "all controlled recurrences, numbers of delays, features and inputs, data sets, initial windows, control inputs and horizons", "why_tests_cant": "tests compare predictions for a few systems within a tolerance; the claim is equality for all systems, inputs and unbounded horizons", "anchors": ["datafold/appfold/edmd.py:EDMD.fit", "datafold/appfold/edmd.py:EDMD.predict", "datafold/pcfold/timeseries/collection.py:InitialCondition.validate_control", "datafold/dynfold/dmd.py:DMDControl.fit"]}
{"id": "C192", "title": "With an exact model, Koopman MPC solves the control problem of the real nonlinear system", "statement": "Let EDMD be fitted with control to data of a controlled system, possibly nonlinear and with memory, whose dictionary is closed under the system. Then control_sequence_horizon, from every window of samples, returns inputs that keep the inputs and the controlled quantities of the system itself within the bounds, and no admissible input sequence has a smaller tracking cost for the system itself. With positive input weights there is exactly one such sequence whenever one is admissible. Without input cost, a reference that the system can follow is followed exactly.", "quantifier": "all controlled systems, dictionaries closed under them, training data that span the lifted space, windows, references, horizons, bounds and weights", "why_tests_cant": "tests run one controller on one system and check that it comes close to a reference; optimality among all input sequences of the nonlinear system cannot be tested", "anchors": ["datafold/appfold/mpc.py:KMPC.control_sequence_horizon", "datafold/appfold/edmd.py:EDMD.fit", "datafold/appfold/edmd.py:EDMD.transform"]}
{"id": "C193", "title": "With an exact model, the closed loop of Koopman MPC and the real system is receding-horizon optimal control of the real system", "statement": "Let an EDMD model be fitted to data of a (possibly nonlinear, possibly delayed) controlled system under which its dictionary is closed, and let the same system be controlled along a reference with control_system_reference (augment_control=True). Then the loop runs to the last but one sample of the reference; in every step the applied input is the first one of an input sequence that respects the bounds for the real system and has the smallest tracking cost of the real system over the horizon, with the reference held at its end. Without input cost, a reference that the real system can follow within the bounds is followed exactly in every step.", "quantifier": "all systems with a closed dictionary, fitted models, references, horizons, weights, bounds, numbers of steps and (for solvers) all choices among the optimal solutions", "why_tests_cant": "The claim concerns every step of an arbitrarily long closed loop and compares the applied input with all admissible input sequences of a nonlinear system.", "anchors": ["datafold/appfold/mpc.py:KMPC.control_system_reference", "datafold/appfold/mpc.py:KMPC.control_sequence_horizon", "datafold/appfold/edmd.py:EDMDControl"]}
{"id": "C194", "title": "Laplacian pyramids treat several target functions as separate models", "statement": "A Laplacian pyramids model that is fitted to several target functions at once predicts for each of them what a model fitted to this function alone predicts: the sum over its own levels (until its own stopping criterion) of the smoothed residuals. The other target functions, their number, order and stopping levels do not matter. The common fit ends exactly if each single one does.", "quantifier": "all point clouds, target functions, selections and orders of target functions, tolerances, scales, auto-adaptive or not, evaluation points and numbers of levels", "why_tests_cant": "Target functions leave the common loop in different iterations for different reasons; the interleavings of index masks over all levels cannot be enumerated.", "anchors": ["datafold/dynfold/outofsample.py:LaplacianPyramidsInterpolator.fit", "datafold/dynfold/outofsample.py:LaplacianPyramidsInterpolator.predict"]}
{"id": "C195", "title": "Kernel models depend on the geometry of the samples only", "statement": "Fitting diffusion maps, geometric harmonics or Laplacian pyramids to the same samples in another order, in a translated, rotated or reflected coordinate frame, or (Gaussian kernels) in other units with the bandwidth in the same units gives the same model: the same eigenvalues, training coordinates in the new order, and the same result at every query point. What transform or predict returns for a query point does not depend on the other query points of the call, and a call is refused exactly if one of its query points alone is refused.", "quantifier": "all training sets, orders, distance preserving maps, scale factors, kernels, normalisations, target functions, query sets and selections with repetitions", "why_tests_cant": "a test compares a few orders and frames of one data set; the claim is about every permutation and every isometry, and about every subset of the query points", "anchors": ["datafold/dynfold/dmap.py:DiffusionMaps.fit", "datafold/dynfold/dmap.py:DiffusionMaps.transform", "datafold/dynfold/outofsample.py:GeometricHarmonicsInterpolator.predict", "datafold/dynfold/outofsample.py:LaplacianPyramidsInterpolator.predict"]}
{"id": "C196", "title": "DMD and EDMD models do not depend on the coordinates of the states, the basis of the dictionary or the arrangement of the data", "statement": "Fitting DMDStandard or DMDControl to data given in other (linear) coordinates, for instance other physical units, gives exactly the models of the original data written in these coordinates; their predictions, eigenvalues and eigenvectors are the original ones in the other coordinates. Replacing the dictionary of an EDMD model by another basis of the same span leaves all predictions unchanged. Reordering or renumbering the time series, shifting their time values, or giving all data several times does not change which models are fitted.", "quantifier": "all collections, invertible changes of coordinates of states and controls, dictionaries, sample weights, system matrices, initial conditions, time values, rearrangements and multiplicities", "why_tests_cant": "A relation between two runs on arbitrary data and arbitrary changes of coordinates; a test compares a few arrays up to a tolerance.", "anchors": ["datafold/dynfold/dmd.py:DMDStandard.fit", "datafold/dynfold/dmd.py:DMDControl.fit", "datafold/appfold/edmd.py:EDMD.fit", "datafold/appfold/edmd.py:EDMD.predict"]}
{"id": "C197", "title": "Distance algorithms state correctly what they compute and accept exactly the data they can compute with", "statement": "The flag is_symmetric of a distance algorithm holds for every pair-wise matrix it returns, with or without cut-off and minimal number of neighbours; is_sparse tells whether the result is a sparse matrix; the constructors accept every cut-off and every number of neighbours that makes sense; reference and query points are accepted if and only if there are at least two reference points and the numbers of features agree, and points that can be compared with themselves pair-wise are accepted as queries, too.", "quantifier": "all point clouds, metrics, cut-offs, numbers of neighbours, earlier calls and shapes of arrays", "why_tests_cant": "The flags are promises about every matrix the object will ever return; the shapes and parameters are infinitely many.", "anchors": ["datafold/pcfold/distance.py:DistanceAlgorithm", "datafold/pcfold/distance.py:BruteForceDist", "datafold/pcfold/distance.py:ScipyKdTreeDist", "datafold/pcfold/distance.py:SklearnBalltreeDist", "datafold/pcfold/distance.py:SklearnKNN"]}
{"id": "C198", "title": "Regular meshes cover their box, and the comparisons of matrices decide what they say", "statement": "generate_2d_regular_mesh returns exactly the grid of nx times ny equally spaced points, the first coordinate running fastest; it lies in the box, contains its corners, and every point of the box is within half a spacing of it; with feature names it is a collection of single-sample initial conditions numbered in that order. is_symmetric_matrix is true iff corresponding entries differ by at most the tolerance. assert_equal_eigenvectors passes iff the two matrices have the same eigenvectors up to non-zero factors.", "quantifier": "all boxes, numbers of values, real and complex matrices of all shapes, and tolerances", "why_tests_cant": "Covering is a statement about the continuum of points of the box; the matrices and shapes are infinitely many, including empty and rectangular ones.", "anchors": ["datafold/utils/general.py:generate_2d_regular_mesh", "datafold/utils/general.py:is_symmetric_matrix", "datafold/utils/general.py:assert_equal_eigenvectors"]}
{"id": "C199", "title": "Parameters of an estimator can be read, changed and cloned", "statement": "For every estimator: the constructor accepts exactly its own parameters and requires those without default; get_params returns every parameter with the value that was given or the default; set_params rejects unknown names and otherwise leaves the estimator as if it had been constructed with the changed parameters; clone of an estimator, after any calls of set_params, has the same attributes.", "quantifier": "all estimators, all keyword arguments and values, all sequences of set_params calls", "why_tests_cant": "Grid searches and pipelines construct estimators through set_params and clone with values no test lists; the histories of calls are unbounded, and a wrong solver gives numbers instead of an error.", "anchors": ["datafold/dynfold/dmd.py:DMDStandard", "datafold/dynfold/dynsystem.py:LinearDynamicalSystem", "datafold/dynfold/dmap.py:DiffusionMapsVariable", "datafold/appfold/edmd.py:EDMD", "datafold/dynfold/dmd.py:PyDMDWrapper", "datafold/dynfold/dmd.py:DMDControl"]}
{"id": "C200", "title": "Multi-scale geometric harmonics meet the admissible error", "statement": "MultiScaleGeometricHarmonicsInterpolator.fit ends with a scale, the initial one halved some times, at which the interpolant differs from the target at the training points by at most admissible_error, using only eigenvalues whose ratio to the largest is below condition.", "quantifier": "all kernel matrices with positive eigenvalues, all targets, conditions, admissible errors and initial scales", "why_tests_cant": "The loop has no bound on its passes, and the error at the training points is a statement about all targets and spectra.", "anchors": ["datafold/dynfold/outofsample.py:MultiScaleGeometricHarmonicsInterpolator"]}
{"id": "C201", "title": "EDMD that maps back with the inverse transformers of its dictionary", "statement": "With `use_transform_inverse=True`, `EDMD.inverse_transform` undoes the transformers of the dictionary in reverse order, so it maps the dictionary of any data back to the data if every transformer is undone by its inverse; for a system that the dictionary makes linear, the fitted model predicts the exact states from every initial condition and for any number of steps, also if no linear map gives the states from the dictionary; this works with the default `include_id_state=True` and for models with control input.", "quantifier": "all invertible dictionaries of any number of transformers without memory, systems, training data spanning the dictionary, initial conditions, numbers of steps, selections of features, control inputs", "why_tests_cant": "The option is only tested with the identity as dictionary; exactness is a statement about all initial conditions and all horizons, and the failures concern combinations of options that no test uses.", "anchors": ["datafold/appfold/edmd.py:EDMD.inverse_transform", "datafold/appfold/edmd.py:EDMD._predict_dict_ic", "datafold/appfold/edmd.py:EDMD.fit"]}
{"id": "C202", "title": "Controlled benchmark systems follow their equations", "statement": "The right-hand side of the cart with pendulum (second version) satisfies the balances of momentum, its energy changes only by the force and the frictions, and the documented parameters (masses, gain, length, friction) determine it; the motor has the documented equations in scaled units; the Van der Pol system applies each control to the named coordinate, solves Lienard's equation without control and has one equilibrium; the Duffing system loses energy through damping only and has the stated equilibria.", "quantifier": "all states, controls, parameters and solutions", "why_tests_cant": "Balances and equilibria are statements about all states and solutions; parameters without effect are not seen by tests that use the default values.", "anchors": ["datafold/utils/_systems.py:InvertedPendulum2._f", "datafold/utils/_systems.py:DCMotor._f", "datafold/utils/_systems.py:VanDerPol._f", "datafold/utils/_systems.py:Duffing._f"]}
{"id": "C203", "title": "A continuous nearest neighbour kernel remembers its reference points", "statement": "A ContinuousNNKernel object fixes the neighbour distances of its first accepted pair-wise evaluation: refused calls leave no trace, no component-wise evaluation is accepted before, every further pair-wise evaluation is refused, and component-wise evaluations are those with the reference points of the first evaluation; the same holds inside a diffusion kernel. Other reference points are refused.", "quantifier": "all histories of pair-wise and component-wise evaluations, all point clouds, distances and parameters", "why_tests_cant": "The order of accepted and refused calls is unbounded; tests evaluate once pair-wise and once component-wise with the same points.", "anchors": ["datafold/pcfold/kernels.py:ContinuousNNKernel.__call__", "datafold/pcfold/kernels.py:ContinuousNNKernel.evaluate", "datafold/pcfold/kernels.py:PCManifoldKernel._required_attrs", "datafold/pcfold/kernels.py:DmapKernelFixed.__call__"]}
{"id": "C204", "title": "Online EDMD finds the model of the batch fit", "statement": "After any number of calls of EDMD.partial_fit with an OnlineDMD model, the dictionary is one function for all batches and the Koopman matrix is the exponentially weighted least squares solution, in dictionary values, of all samples seen so far, however the stream is cut into batches; without forgetting it is the matrix that fit finds for all the data, and for closed dictionaries the model predicts the nonlinear system exactly.", "quantifier": "all dictionaries, all streams of batches of any number and size, all weights in (0,1], all closed dictionaries and initial conditions", "why_tests_cant": "The number and the cuts of the batches are unbounded; the claim is an equality of matrices for all data.", "anchors": ["datafold/appfold/edmd.py:EDMD.partial_fit", "datafold/appfold/edmd.py:EDMD._partial_fit", "datafold/dynfold/dmd.py:OnlineDMD.partial_fit", "datafold/dynfold/transform.py:TSCIncrementalPCA.partial_fit"]}
{"id": "C205", "title": "Settings are accepted exactly in their documented range", "statement": "A model refuses a setting outside its documented range before it computes anything, and accepts every setting inside of it: the number of eigenpairs, the time exponent and `alpha` of diffusion maps; the landmarks of Roseland, which also determine how many are drawn; the rank of DMD; the settings of streaming and online DMD; the finite differences of gDMD. The constructors of diffusion maps for an operator set `alpha` and pass on everything else, and models made by them do not influence each other.", "quantifier": "all Python objects given as settings (by type: bool, int, numpy integer, float, numpy floats with nan and infinity, arrays, None, other), all numbers of samples and features, all dictionaries of keywords, all pairs of models", "why_tests_cant": "Tests try a few numbers of one type; whether nan, numpy integers, booleans or a boundary pass is not seen, nor that a default object is shared.", "anchors": ["datafold/dynfold/dmap.py:DiffusionMaps._validate_settings", "datafold/dynfold/dmap.py:Roseland._validate_setting", "datafold/dynfold/dmap.py:DiffusionMaps.laplace_beltrami", "datafold/dynfold/dmd.py:DMDStandard._validate_parameters", "datafold/dynfold/dmd.py:gDMDFull._generate_fd_kwargs", "datafold/dynfold/dmd.py:StreamingDMD._validate_parameter", "datafold/dynfold/dmd.py:OnlineDMD._validate_parameters"]}
{"id": "C206", "title": "Sample weights of DMD count the snapshot pairs", "statement": "DMDStandard.fit(X, sample_weights=w) fits the model with the smallest weighted one step error; natural numbers as weights give the models of data that hold every pair of consecutive samples as often as its weight says (zero: not at all), only the ratios of the weights matter, equal weights are the same as no weights, and the residuals of the spectral filter are weighted in the same way. Exactly one weight per sample is accepted, and negative weights are rejected.", "quantifier": "all collections of time series, all weights, all factors and all arrangements of the repeated data", "why_tests_cant": "The equivalence ranges over all data sets and all weights; tests compare one data set with one set of weights.", "anchors": ["datafold/dynfold/dmd.py:DMDStandard.fit", "datafold/dynfold/dmd.py:DMDStandard._compute_full_system_matrix", "datafold/utils/general.py:diagmat_dot_mat"]}
{"id": "C207", "title": "A fitted kernel model does not depend on the later life of its kernel object", "statement": "After an accepted fit, DiffusionMaps, JointlySmoothFunctions and GeometricHarmonicsInterpolator return for new points the values of a model that was fitted once to these data with the kernel as it was at the time of the fit, whatever is done afterwards with the kernel object (changed parameters, fits of other models with the same object, evaluations) or with the parameter `kernel`; and a fit does not change the kernel object that was handed over, so that it can be used again.", "quantifier": "all kernels with a state, all models, all histories of changes, assignments, fits and evaluations, all data", "why_tests_cant": "The effect is on other objects and appears after interleaved calls of several models that share one kernel object; tests make a new kernel for every model.", "anchors": ["datafold/dynfold/dmap.py:DiffusionMaps.fit", "datafold/dynfold/outofsample.py:GeometricHarmonicsInterpolator.fit", "datafold/dynfold/outofsample.py:GeometricHarmonicsInterpolator.predict", "datafold/dynfold/jsf.py:JointlySmoothFunctions._kernel_content_fit", "datafold/pcfold/kernels.py:GaussianKernel", "datafold/pcfold/kernels.py:ContinuousNNKernel"]}
{"id": "C208", "title": "A refused fit leaves a kernel model as it was or unusable", "statement": "If a second fit of a kernel model (DiffusionMaps, GeometricHarmonicsInterpolator, JointlySmoothFunctions) raises, then the model afterwards either behaves as before or refuses to be used until it is fitted again; it never returns values computed from a mixture of the old and the new data.", "quantifier": "all kernels, all data of the first and the second fit, all reasons of the refusal (validation, checks, kernel evaluation, eigenproblem), all histories of other calls afterwards", "why_tests_cant": "Needs a failing fit at every point of the program after a successful one; tests check that a call raises, not the state it leaves behind.", "anchors": ["datafold/dynfold/dmap.py:DiffusionMaps.fit", "datafold/dynfold/dmap.py:DiffusionMaps.transform", "datafold/dynfold/outofsample.py:GeometricHarmonicsInterpolator.fit", "datafold/dynfold/jsf.py:JointlySmoothFunctions.fit", "datafold/dynfold/jsf.py:JointlySmoothFunctions.transform"]}
{"id": "C209", "title": "Refused fits of an EDMD model", "statement": "If a call of EDMD.fit raises, the model goes on working as before: transform, inverse_transform and predict are those of the last accepted call, and the refused call does not decide whether the model is used with fit or with partial_fit. If a call is accepted, the model is the one a new object would be, whatever accepted and refused calls were made before.", "quantifier": "all settings, all dictionaries of any length, all DMD models and inverse maps, all histories of calls of fit and partial_fit of any length with any data", "why_tests_cant": "A test refuses one fit in one way; the state after a refusal depends on the step that raises and on the whole history of calls.", "anchors": ["datafold/appfold/edmd.py:EDMD.fit", "datafold/appfold/edmd.py:EDMD.partial_fit", "datafold/appfold/edmd.py:EDMD.transform"]}
{"id": "C210", "title": "A fitted EDMD model can predict with the control input it was fitted with", "statement": "If EDMD.fit was accepted with (without) a control input, then predict works with (without) a control input for every initial condition that the dictionary accepts, and it goes on to do so when later calls of fit or partial_fit are refused.", "quantifier": "all settings, DMD models with and without a control part, all histories of accepted and refused calls, all initial conditions", "why_tests_cant": "Tests fit a model once and predict at once; whether the flag for the control input agrees with the DMD model depends on the history and on the kind of DMD model.", "anchors": ["datafold/appfold/edmd.py:EDMD.fit", "datafold/appfold/edmd.py:EDMD.partial_fit", "datafold/appfold/edmd.py:EDMD.predict", "datafold/dynfold/base.py:TSCPredictMixin._validate_feature_names"]}
{"id": "C211", "title": "Kernels constructed from one dictionary of distance settings", "statement": "A radial basis kernel that gets a dictionary of distance settings uses these settings with its own metric, and is refused exactly if the dictionary asks for another metric. The dictionary of the caller is not changed: it can be used for any number of kernels, in any order, with the same result as a new dictionary.", "quantifier": "all dictionaries, all metrics, all finite sequences of kernels constructed with the same dictionary", "why_tests_cant": "Tests construct one kernel per dictionary; the effect on the dictionary shows only in sequences of constructions, and the outcome of each depends on the whole sequence before.", "anchors": ["datafold/pcfold/kernels.py:RadialBasisKernel.__init__", "datafold/pcfold/kernels.py:BaseManifoldKernel.__init__", "datafold/pcfold/kernels.py:ContinuousNNKernel.__init__"]}
{"id": "C212", "title": "The density picture shows the density at the place of each pixel", "statement": "plot_density2d(time, xresolution, yresolution) shows on a grid with xresolution vertical and yresolution horizontal lines, spanned by the smallest and largest coordinates at that time, the sum of the bells of all samples at that time: the pixel in row i and column j is the value at the point on the j-th vertical and the i-th horizontal line. The picture does not depend on the order of the rows.", "quantifier": "all collections with two features, all time values that occur, all resolutions, all bells", "why_tests_cant": "A test looks at one picture with equal resolutions, for which an exchanged order of axes cancels.", "anchors": ["datafold/pcfold/timeseries/accessor.py:TSCAccessor.plot_density2d"]}
{"id": "C213", "title": "The limit cycle is predicted at the requested time values", "statement": "LimitCycle.predict with t_eval returns one row for every requested time value, labelled with that time value and containing the solution at that time after the initial state; unequal steps are refused.", "quantifier": "all initial states, all lists of time values, both solvers", "why_tests_cant": "A test uses time values that start at zero with exactly equal steps.", "anchors": ["datafold/utils/_systems.py:LimitCycle.predict", "datafold/utils/_systems.py:LimitCycle.eval_analytical", "datafold/utils/_systems.py:LimitCycle.eval_finite_differences"]}
{"id": "C214", "title": "The sampling interval of floating point time values is the interval of all samples", "statement": "If delta_time returns one number for a collection with floating point time values, then every series has at least two samples and consecutive samples of every series differ by this number, up to the tolerances of the function; conversely a collection whose series are all sampled with the interval d has delta_time d. delta_time never raises for a valid collection. tsc.normalize_time of such a collection divides the time values by the interval, so that equally spaced samples get consecutive integers and others are refused.", "quantifier": "all valid collections with rational (floating point) time values, any number and order of IDs, any lengths", "why_tests_cant": "A test compares a few hand-made time axes; an irregular first interval, or a short series beside a longer one, is only seen if that very shape is written down.", "anchors": ["datafold/pcfold/timeseries/collection.py:TSCDataFrame.delta_time", "datafold/pcfold/timeseries/accessor.py:TSCAccessor.normalize_time"]}
{"id": "C215", "title": "System matrix and functions of a learnt dictionary", "statement": "After FeedforwardNN.fit the system matrix solves the regularised least squares problem of the learnt dictionary: whatever the trained network, it minimises the one step prediction error of the dictionary values (states if included, the constant one, network outputs) over all pairs of consecutive samples plus sys_regularization times the number of samples times the squared size of the matrix; for a positive regularisation it is unique; without regularisation a dictionary that is closed under the dynamics is recovered exactly and the constant function stays constant. transform yields one column per function, named after the features, const, psi0, psi1, ... and accepts every collection with the training features; n_features_out_ is their number; the network has n_hidden_layer hidden layers.", "quantifier": "all collections, networks (arbitrary functions), regularisations, names and sizes", "why_tests_cant": "The network is the result of an optimiser, the tests look at one trained network on one data set and do not compare the matrix with other matrices; the problem must be solved for whatever function the training yields.", "anchors": ["datafold/dynfold/dictlearning.py:FeedforwardNN._augment_id_const", "datafold/dynfold/dictlearning.py:FeedforwardNN._compute_system_matrix", "datafold/dynfold/dictlearning.py:FeedforwardNN.get_feature_names_out", "datafold/dynfold/dictlearning.py:FeedforwardNN.transform", "datafold/dynfold/dictlearning.py:FeedforwardNN._intern_FNN"]}
{"id": "C216", "title": "Training of a learnt dictionary", "statement": "FeedforwardNN.fit alternates between solving for the system matrix and training the network for n_epochs epochs, or until early stopping reports a plateau of the validation loss; the stored system matrix belongs to the stored network; the recorded losses are those of the epochs that were run; learning rate schedulers and validation data can be given with or without early stopping; the returned network is the best one seen; a refused call does not change a fitted model.", "quantifier": "all optimisers (arbitrary state and updates), loss sequences including nan, all combinations of the fit parameters, all histories", "why_tests_cant": "Training depends on the random initialisation and on the data; which epoch stops and what is stored must be right for every sequence of losses, and most combinations of the fit parameters are never tried in the tests.", "anchors": ["datafold/dynfold/dictlearning.py:FeedforwardNN.fit", "datafold/dynfold/dictlearning.py:FeedforwardNN._train_epoch", "datafold/dynfold/dictlearning.py:FeedforwardNN._validate_network", "datafold/dynfold/dictlearning.py:EarlyStopping"]}
{"id": "C217", "title": "EDMD with a learnt dictionary", "statement": "EDMD with DMDDictLearning as DMD model appends the trained network to its dictionary and uses the system matrix that was trained together with it; this holds after every call of fit, whatever the data and the number of calls; transform accepts the training data; include_id_state works with every dictionary and every network.", "quantifier": "all dictionaries, learning models (arbitrary training functions), data sets and histories of fit", "why_tests_cant": "The model rebuilds its own pipeline during the first fit, so later calls act on another object than the first one; tests fit one model once with the identity as dictionary.", "anchors": ["datafold/appfold/edmd.py:EDMD.fit", "datafold/dynfold/dictlearning.py:DMDDictLearning.fit", "datafold/dynfold/dmd.py:PretrainedDMD.fit", "datafold/appfold/edmd.py:EDMD._compute_inverse_map", "datafold/appfold/edmd.py:EDMD.transform"]}
{"id": "C218", "title": "Histories of operations on collections", "statement": "Whatever is called on whatever collection (selections, splits, initial and final states, shifts and normalisation of time, insertion of time series, ...), in whatever order, and however many calls raise: every collection the user holds has samples, is valid and has no negative time values; a collection changes only by a method documented to work on it; returned collections are objects of their own; a call that raises changes nothing.", "quantifier": "all histories of calls on any number of collections, all arguments, accepted and refused calls", "why_tests_cant": "Tests call one operation on one fresh collection and look at its result; whether an earlier object has changed, or is broken by a refused call in the middle of a history, concerns all interleavings.", "anchors": ["datafold/pcfold/timeseries/accessor.py:TSCAccessor.shift_time_by_delta", "datafold/pcfold/timeseries/accessor.py:TSCAccessor.normalize_time", "datafold/pcfold/timeseries/accessor.py:TSCAccessor.shift_time_per_time_series", "datafold/pcfold/timeseries/collection.py:TSCDataFrame.insert_ts", "datafold/pcfold/timeseries/collection.py:TSCDataFrame.initial_states", "datafold/pcfold/timeseries/collection.py:TSCDataFrame.__setattr__"]}
{"id": "C219", "title": "Shifts per time series", "statement": "tsc.shift_time_per_time_series with one shift value per time series moves every time series by its own value and changes nothing else; it is accepted exactly if the IDs of the values are those of the collection and no time value becomes negative; shifting back with the negative values restores the collection; the collection it is called on stays as it is.", "quantifier": "all valid collections, orders and lengths of time series, shift values", "why_tests_cant": "The values are expanded along the rows with the lengths of the time series in another order than that of the rows; whether this fits depends on the order and the lengths of the time series, for which tests have one example.", "anchors": ["datafold/pcfold/timeseries/accessor.py:TSCAccessor.shift_time_per_time_series"]}
{"id": "C220", "title": "Kernel matrices of distinct samples are positive definite", "statement": "For the Gaussian, inverse multiquadric and inverse quadratic kernels (every positive bandwidth) the pair-wise kernel matrix of pairwise distinct samples is positive definite, while a repeated sample makes it singular. Therefore all eigenvalues that DiffusionMaps computes for distinct samples are positive (and at most one for the stochastic kernels), the embedding exists for every real time exponent and transform returns it at the training samples; and GeometricHarmonicsInterpolator reproduces every target function exactly at the training samples if enough eigenpairs are asked for. (The last part is violated: fit refuses as many eigenpairs as samples, and for every number that it accepts some non-zero target is predicted to be zero at all training samples. The rest is violated for the other settings that are accepted: kernels that grow with the distance are not even positive semi-definite, and with a cut-off the stochastic Gaussian kernel has negative eigenvalues; the embedding for fractional time exponents is then nan.)", "quantifier": "every finite set of distinct samples in every dimension, every positive bandwidth, every kernel of the three families, every alpha, stochastic or not, symmetrised or not, every real time exponent, every target function", "why_tests_cant": "strict positivity for all sets of distinct points is a theorem of harmonic analysis; tests use a few point clouds, whose small eigenvalues are dominated by rounding errors", "anchors": ["datafold/pcfold/kernels.py:GaussianKernel", "datafold/pcfold/kernels.py:InverseMultiquadricKernel", "datafold/pcfold/kernels.py:InverseQuadraticKernel", "datafold/pcfold/kernels.py:MultiquadricKernel", "datafold/dynfold/dmap.py:DiffusionMaps._perform_dmap_embedding", "datafold/dynfold/outofsample.py:GeometricHarmonicsInterpolator"]}
{"id": "C221", "title": "Diffusion maps: the coordinates with eigenvalue one are the constant one, as long as all samples are joined", "statement": "For every symmetric non-negative kernel matrix with a positive entry in each row, every density normalisation and with or without the symmetric conjugate, every eigenvalue that DiffusionMaps computes for the stochastic kernel is at most one in absolute value; an eigenvector belongs to eigenvalue one exactly if it takes the same value on any two samples with a positive kernel value. If any two samples are joined by a path of such pairs, the only coordinate with eigenvalue one is the constant vector with entries \u00b11/sqrt(n), so sorted pairs have it first and all others below one; with a Gaussian, inverse multiquadric or inverse quadratic kernel without cut-off this is so for every data set, and for distinct samples all other eigenvalues lie strictly between zero and one. With a cut-off that separates the samples the claim is false: a coordinate that is not constant has eigenvalue one as well.", "quantifier": "all kernel matrices, numbers of samples, density normalisations, results of the eigensolver, and all data sets for the kernels that fall with the distance", "why_tests_cant": "Tests look at one data set; which coordinate is trivial, and that there is only one, is a statement about every kernel matrix and depends on the paths between samples.", "anchors": ["datafold/dynfold/dmap.py:DiffusionMaps.fit", "datafold/dynfold/dmap.py:LocalRegressionSelection.fit", "datafold/pcfold/kernels.py:DmapKernelFixed"]}
{"id": "C222", "title": "Diffusion maps: distances in the embedding follow the diffusion distances", "statement": "For every symmetric non-negative kernel matrix and density normalisation the stochastic kernel has a positive stationary distribution with detailed balance, the only one if the samples are joined by paths. For every such kernel matrix (symmetrised kernel), every set of orthonormal eigenpairs and every non-negative integer time_exponent, the squared Euclidean distance between two embedded samples is at most the largest stationary probability times the squared diffusion distance between them (the distance of the distributions of the Markov chain after time_exponent steps, weighted by the inverse stationary distribution); with all eigenpairs it is at least the smallest stationary probability times the squared diffusion distance, and equal up to the factor 1/n if the chain is doubly stochastic. Exact proportionality, which diffusion map theory states, is false in general: since every eigenvector is normalised to Euclidean length one, three equidistant samples on a line violate it for every bandwidth and every time exponent.", "quantifier": "all kernel matrices, numbers of samples and eigenpairs, orthonormal eigenvectors, integer time exponents and pairs of samples", "why_tests_cant": "Distances between embedded samples depend on all entries of the powers of the Markov matrix; comparing them on one data set says nothing about others.", "anchors": ["datafold/dynfold/dmap.py:DiffusionMaps.fit_transform", "datafold/dynfold/dmap.py:_DmapKernelAlgorithms.solve_eigenproblem", "datafold/pcfold/kernels.py:DmapKernelFixed"]}
{"id": "C223", "title": "Diffusion maps with variable bandwidth: normalised eigenpairs, and the same embedding in every unit of length", "statement": "For DiffusionMapsVariable with symmetrize_kernel=True, every data set whose points have a positive mean distance to their nearest neighbours, and every positive epsilon: if the solver's eigenvalues are positive, the rows of generator_matrix_ sum to one, every column of eigenvectors_ has mean square one and is an eigenvector of generator_matrix_ to the power epsilon of the entry of eigenvalues_, the eigenvalues lie in (0, 1], and one belongs exactly to the constant vectors of ones or minus ones. If all data are multiplied by s > 0 and epsilon by s^2, bandwidth, kernel, operator and basis change stay the same (the operator without symmetrisation is divided by s^2), and peq_est_ is divided by s^expected_dim. With beta=0 and expected_dim equal to the dimension of the data peq_est_ is a probability density (an average of Gaussian densities, with integral one) at the samples. With symmetrize_kernel=False, the default, the first claim is false: the constant vector is stored with an eigenvalue different from one, and eigenvalues become nan if 1/epsilon is not an integer.", "quantifier": "all data sets, parameters, scale factors and numbers of eigenpairs", "why_tests_cant": "A test compares single data sets with tolerances; the normalisation and the behaviour under a change of units are statements about all of them.", "anchors": ["datafold/dynfold/dmap.py:DiffusionMapsVariable.fit", "datafold/dynfold/dmap.py:DiffusionMapsVariable.peq_est_", "datafold/pcfold/kernels.py:DmapKernelVariable.evaluate"]}
{"id": "C224", "title": "Writing a collection to a csv file and reading it again gives the collection", "statement": "A collection that is written with `to_csv()` and read again with `TSCDataFrame.from_csv` is the same collection: the same names, IDs, time values and values (floating point numbers as accurate as they are read). The names may contain separators, quotes and line breaks. (In the code this holds exactly if the names are non-empty texts other than `ID` and `time`, no value is complex and the time values are no dates: integers as names become texts, other names are replaced, and files with complex values or dates are refused.)", "quantifier": "every collection with integer IDs, every number of series and features, every text as name (without carriage return), every way of writing and reading floating point numbers", "why_tests_cant": "names with separators, quotes, duplicates of the level names and mixtures of number types are unbounded; tests use a few simple names", "anchors": ["datafold/pcfold/timeseries/collection.py:TSCDataFrame.to_csv", "datafold/pcfold/timeseries/collection.py:TSCDataFrame.from_csv"]}
{"id": "C225", "title": "Every time series is processed on its own", "statement": "Leaving time series out of a collection does not change what is computed for the others: `initial_states`, `final_states`, `drop_last_n_samples`, `time_derivative`, `TSCTakensEmbedding.transform`, `TSCMovingAverage`, `TSCFiniteDifference.transform` and `TSCApplyLambdas` (with functions of single values) applied to selected time series give exactly the selected time series of what they give for the whole collection. The same holds for predictions and reconstructions of a fitted linear system, with and without control: selected initial conditions (with the control series of the same IDs) give the selected predictions. So no value of one series ever enters the result of another, whatever the lengths, IDs and order of the series.", "quantifier": "every valid collection of any number of series of any length with any IDs (for the transformers: sampled with one interval), every selection of IDs with a result, all parameters for which the whole collection is accepted", "why_tests_cant": "the number of collections and selections is unbounded; leakage between series depends on lengths, IDs and order of the series, of which tests try a few", "anchors": ["datafold/dynfold/transform.py:TSCTakensEmbedding.transform", "datafold/dynfold/transform.py:TSCMovingAverage.transform", "datafold/dynfold/transform.py:TSCFiniteDifference.transform", "datafold/dynfold/transform.py:TSCApplyLambdas.transform", "datafold/pcfold/timeseries/collection.py:TSCDataFrame.initial_states", "datafold/pcfold/timeseries/collection.py:TSCDataFrame.final_states", "datafold/pcfold/timeseries/accessor.py:TSCAccessor.drop_last_n_samples", "datafold/pcfold/timeseries/accessor.py:TSCAccessor.time_derivative", "datafold/dynfold/dmd.py:DMDBase.predict", "datafold/dynfold/dmd.py:DMDBase.reconstruct"]}
{"id": "C226", "title": "The reconstruction error of DMD is bounded by the disturbances of the data", "statement": "For data that follow no linear system exactly, reconstruct of a fitted DMD returns every time series at its time values, starts with its first state, and its deviation from the data at a later sample is the sum of the one step errors before it, each propagated to that sample by the system matrix. If the system matrix stretches no vector by more than a factor L, the squared deviation at the n-th sample is at most 1 + L^2 + ... + L^(2(n-1)) times the sum of the squared one step errors of any linear system over the data; in particular, if the data come from a linear system and every step is disturbed, the deviation is bounded by the energy of the disturbances, and for L < 1 uniformly in the number of steps.", "quantifier": "all collections of regularly sampled time series with at least two samples each (equally long or with ascending IDs), all numbers of samples and dimensions, all disturbances, all fitted matrices without sample weights", "why_tests_cant": "Noisy data are infinitely many; a test compares a reconstruction of one noisy sample with a tolerance that was chosen after the fact.", "anchors": ["datafold/dynfold/dmd.py:DMDStandard.fit", "datafold/dynfold/base.py:TSCPredictMixin", "datafold/dynfold/dmd.py:DMDBase.reconstruct"]}
{"id": "C227", "title": "The selection of eigenvectors by local regression depends on the eigenvectors only up to sign", "statement": "LocalRegressionSelection computes for each eigenvector the relative error of a locally weighted affine regression on the previous eigenvectors, with a bandwidth that is positive and the mean or the median of the squared distances. The residuals, hence the selected indices, are determined by the eigenvectors although the least squares problems may have many solutions, and they do not change if eigenvectors get another sign, if all are scaled by a common factor, or if the samples are reordered. An eigenvector that is an affine function of the previous ones is never selected with a threshold, and transform returns the selected columns in order.", "quantifier": "all sample sizes, numbers of eigenvectors and eigenvectors (none zero), both bandwidth types, all signs, factors and permutations", "why_tests_cant": "Eigensolvers return arbitrary signs; a test runs one solver on one data set.", "anchors": ["datafold/dynfold/dmap.py:LocalRegressionSelection.fit", "datafold/dynfold/dmap.py:LocalRegressionSelection.transform"]}
{"id": "C228", "title": "The origin of time does not matter", "statement": "Moving all time values of a collection by the same amount (as `shift_time_by_delta` does) moves the results and changes nothing else: `delta_time`, `n_timesteps`, snapshot pairs and the system matrices found by `fit` (with weights, with control) stay the same; `initial_states`, `final_states`, `drop_last_n_samples`, `time_derivative`, the Takens embedding, the moving average, `predict` (with and without control) and `reconstruct` succeed for the moved data exactly if they succeed for the original data, and return the same values at the moved time values.", "quantifier": "all collections (any number, order and lengths of series, integer or datetime time values), all shifts, all system matrices, weights, controls, delays, windows and difference schemes", "why_tests_cant": "Tests use collections starting at time 0; the code normalises time values, groups series by start time, writes time values back into the index and compares control times, each of which could depend on the origin.", "anchors": ["datafold/pcfold/timeseries/accessor.py:TSCAccessor.shift_time_by_delta", "datafold/dynfold/dmd.py:DMDBase._evolve_dmd_system", "datafold/dynfold/dmd.py:DMDBase.reconstruct", "datafold/pcfold/timeseries/collection.py:InitialCondition.iter_reconstruct_ic", "datafold/dynfold/transform.py:TSCTakensEmbedding.transform"]}
{"id": "C229", "title": "Systems controlled by LQR reach their target", "statement": "For positive weights of states and inputs and a target at which the uncontrolled system rests, the closed loop of LQR.control_sequence with the linear model used to set it up converges to the target from every start, the inputs converge to zero, the cost to come decreases in every step by the cost of the step, and the costs of any number of steps sum up to at most the value given by the Riccati solution at the start. With a state weight of zero the state need not move.", "quantifier": "all system and input matrices, all positive weights, all positive semidefinite solutions of the Riccati equation, all start states, any number of steps", "why_tests_cant": "A limit over infinitely many steps; tests run a few steps of one system.", "anchors": ["datafold/appfold/mpc.py:LQR.control_sequence", "datafold/appfold/mpc.py:LQR._setup_optimizer"]}
{"id": "C230", "title": "Out-of-sample values depend continuously on the sample", "statement": "The embedding coordinates of DiffusionMaps.transform, the predictions of GeometricHarmonicsInterpolator and those of LaplacianPyramidsInterpolator are values of continuous functions at the given samples, the same functions for all samples and calls; with a stochastic kernel they stay bounded (coordinates by the largest training value divided by the eigenvalue, up to the time exponent) however far away the sample is.", "quantifier": "all training data, radial kernels, bandwidths, alpha, time exponents, eigenpairs, target functions and samples", "why_tests_cant": "Continuity and boundedness concern all of the infinitely many possible samples.", "anchors": ["datafold/dynfold/dmap.py:DiffusionMaps.transform", "datafold/dynfold/outofsample.py:GeometricHarmonicsInterpolator.predict", "datafold/dynfold/outofsample.py:LaplacianPyramidsInterpolator.predict", "datafold/pcfold/kernels.py:DmapKernelFixed.__call__"]}
{"id": "C231", "title": "The prediction error of EDMD is bounded by the error of the dictionary", "statement": "For dynamics under which the dictionary is not closed, the prediction of EDMD after s steps deviates from the true state by the error of the map back and the one step errors in the dictionary, each propagated by the system matrix and mapped back. If the states are in the dictionary, one step errors are at most e, the system matrix stretches by at most L and the map back by at most b, the deviation is at most b (1 + L + ... + L^(s-1)) e, and for L < 1 at most b e / (1 - L) for every horizon. For a fitted model predicting a training series from its first state the deviation is bounded by what the best linear model of the dictionary leaves unexplained on the training data.", "quantifier": "all dynamics, point-wise dictionaries, system matrices, initial states, horizons and data sets", "why_tests_cant": "Concerns all nonlinear systems and horizons; a test sees one system and a few steps.", "anchors": ["datafold/appfold/edmd.py:EDMD.predict", "datafold/appfold/edmd.py:EDMD.fit", "datafold/dynfold/dmd.py:DMDStandard.fit"]}
{"id": "C232", "title": "Identification errors are bounded by the disturbances and the excitation of the data", "statement": "If training data follow a linear system up to disturbances of the single steps, the system matrix (and control matrix) identified by fit differs from the true one by at most the energy of the disturbances divided by the excitation of the data: for every matrix M, the sum of the squared deviations of the entries of the fitted matrix from M is at most the sum of squared (weighted) one-step errors of M over the training data, divided by the smallest energy s with which the data excite any direction. So data sets with vanishing disturbances and excitation bounded from below identify the system in the limit. Data are excited (s > 0) exactly if their start samples span the space. The same holds for EDMD in the space of the dictionary.", "quantifier": "all collections that fit accepts with at least two samples per series and a constant sampling rate, all sample weights, all possible fits, all matrices M, all control inputs, all dictionaries, all sequences of data sets", "why_tests_cant": "unit tests identify a few systems from (nearly) noise-free data with tolerances chosen by hand; the bound must hold for all disturbances and the limit concerns infinitely many data sets", "anchors": ["datafold/dynfold/dmd.py:DMDStandard.fit", "datafold/dynfold/dmd.py:DMDControl.fit", "datafold/appfold/edmd.py:EDMD.fit"]}
{"id": "C233", "title": "IDs are labels", "statement": "The IDs of time series are only labels: renaming the time series of a collection renames those of every result and changes nothing else. This holds for initial and final states, dropping samples, sampling intervals, time derivatives, Takens embedding, moving averages, the data and the result of DMD fits with and without control, predictions and reconstructions, including what is refused.", "quantifier": "all collections, all injective renamings, all parameters, matrices, weights, control inputs and time values", "why_tests_cant": "unit tests use the IDs 0, 1, 2 in ascending order; the property compares two runs for infinitely many renamings", "anchors": ["datafold/pcfold/timeseries/accessor.py:TSCAccessor.initial_states", "datafold/pcfold/timeseries/accessor.py:TSCAccessor.shift_matrices", "datafold/dynfold/dmd.py:DMDStandard.fit", "datafold/dynfold/dmd.py:DMDBase.predict", "datafold/dynfold/dmd.py:DMDBase.reconstruct", "datafold/dynfold/transform.py:TSCTakensEmbedding.transform"]}
{"id": "C234", "title": "Simulations with a control function (feedback)", "statement": "ControllableODE.predict with a callable U integrates every initial condition with that same function, starting at the time of the initial conditions, and returns as control data, for every sample but the last of each series, the value of the function at this time and state, under the ID and time of the state; calls without time values or with initial conditions at different times are refused.", "quantifier": "all control functions, all solvers, all arrays and collections of initial conditions, all time values", "why_tests_cant": "the function is evaluated twice, by the solver one state at a time and afterwards with stacked arrays; a test fixes one function and one shape", "anchors": ["datafold/utils/_systems.py:ControllableODE.predict", "datafold/dynfold/base.py:TimePredictMixin._validate_and_set_time_values_predict"]}
{"id": "C235", "title": "Richer models fit the training data at least as well", "statement": "The matrix fitted by DMD predicts every single feature, one step ahead over the training data, at least as well as any other linear function of the samples. So a model does not get worse on its training data if it is given more to work with: an EDMD model whose dictionary contains all functions of another dictionary predicts each of them at least as well as the model with the smaller dictionary, DMDControl predicts every feature at least as well as a model without the control input, and DMDStandard with a higher rank predicts the training data at least as well as with a lower rank.", "quantifier": "all collections of regularly sampled time series with at least two samples each (equally long or with ascending IDs), all dictionaries, control inputs, numbers of features and samples, all ranks", "why_tests_cant": "A statement about all pairs of nested models and all data; a test compares two models on one data set, and an order of errors that holds there may fail on others (as it does for the default modes of the reduced model).", "anchors": ["datafold/dynfold/dmd.py:DMDStandard.fit", "datafold/dynfold/dmd.py:DMDControl.fit", "datafold/appfold/edmd.py:EDMD.fit"]}
{"id": "C236", "title": "Stepwise predictions with control input", "statement": "With `stepwise_transform=True` and control input, EDMD.predict drives every initial condition with the control series of its own ID: the state at each requested time value is mapped to the dictionary, advanced by one step with the control state at exactly this time and mapped back; control states at other times are not used. If the dictionary makes the controlled system linear, stepwise and direct prediction give the same time series, for dictionaries with and without memory.", "quantifier": "all collections of initial conditions and control series with the same IDs, all dictionaries, matrices and increasing time values", "why_tests_cant": "The selection of samples and control states has to be right in every iteration of a loop of arbitrary length, for every number of series.", "anchors": ["datafold/appfold/edmd.py:EDMD._predict_stepwise_transform", "datafold/appfold/edmd.py:EDMD.predict", "datafold/pcfold/timeseries/collection.py:InitialCondition.validate_control"]}
{"id": "C237", "title": "More delays fit the training data at least as well", "statement": "Fit EDMD with a delay embedding of `delays` time steps (frequency 1, no lag, no exponential decay) and once more with a larger number of delays to the same data. For every feature of the smaller embedding (feature j of the sample a time steps ago), the sum of squared one-step prediction errors over the training pairs of the larger model is at most that of the smaller model, indeed at most that of every linear model of the smaller embedding; in particular delays never make the training error larger than that of dynamic mode decomposition of the data themselves. The sums run over the training pairs each embedding has; the larger embedding has fewer. The same holds for any two dictionaries with memory such that the features of the first are among those of the second.", "quantifier": "all collections with a common constant sampling interval (IDs in any order, series of different lengths of at least delays + 2 samples), all numbers of delays, features and series, all least squares solutions", "why_tests_cant": "Needs the optimality of the least squares solution and a matching of the windows of both embeddings, for data of every shape; tests compare errors of one data set.", "anchors": ["datafold/dynfold/transform.py:TSCTakensEmbedding", "datafold/appfold/edmd.py:EDMD.fit", "datafold/dynfold/dmd.py:DMDStandard.fit"]}
{"id": "C238", "title": "Without active bounds Koopman MPC is a linear feedback, and that of LQR for long horizons", "statement": "Let the reference of the Koopman MPC controller be constant and belong to a state at which the uncontrolled model rests, and let the input weights be positive. If the inputs of the Riccati recursion with the given running, terminal and input weights respect the bounds (in particular if there are none), they are exactly what the controller returns for the whole horizon. If the terminal weights solve the Riccati equation of LQR, the first input is that of the LQR controller (with the weights that the running weights of the tracked quantities give to the lifted state) for every horizon. If all weights are positive and the lifted state is determined by the tracked quantities, the first input tends to that of LQR as the horizon grows, whatever the terminal weights are.", "quantifier": "all models (any dimensions), weights, horizons of at least two steps, initial states and rest states, every solution of the quadratic program", "why_tests_cant": "a test compares the two controllers for one system and one horizon; that they agree in the limit and that the optimisation always returns the feedback concern all systems and horizons", "anchors": ["datafold/appfold/mpc.py:KMPC.control_sequence_horizon", "datafold/appfold/mpc.py:LQR.control_sequence", "datafold/appfold/mpc.py:KMPC"]}
{"id": "C239", "title": "Small changes of the measured state or the reference change the inputs of Koopman MPC little", "statement": "Ask one Koopman MPC controller twice, with different measured states and references. Then the sum of the squared differences of the returned inputs, weighted with the input weights, is at most a quarter of the weighted squared change of the tracking error that would occur without inputs (the free evolution of the difference of the states minus the difference of the references). Hence with positive input weights there is a constant of the controller such that changes of at most delta in the state and epsilon in the reference change every input in every step by at most the constant times (delta + epsilon). With state bounds, whose admissible inputs depend on the state, this holds for changes of the reference.", "quantifier": "all controllers with a horizon of at least two steps (any dimensions, weights, bounds), all pairs of states and references, all solutions of the quadratic programs", "why_tests_cant": "continuity is a statement about all pairs of nearby questions; a test compares finitely many and cannot exclude jumps at an active bound", "anchors": ["datafold/appfold/mpc.py:KMPC", "datafold/appfold/mpc.py:KMPC.control_sequence_horizon"]}
{"id": "C240", "title": "The closed loop of Koopman MPC reaches its target", "statement": "Without bounds and with positive weights, the closed loop of the Koopman MPC controller and its model (before every step the controller is asked for the current state and a constant reference that belongs to a rest state, and the first input is applied) reaches the target from every start. This holds for every horizon if from every state some input decreases the terminal cost by at least the running and input cost, and for every sufficiently long horizon with any terminal weights if the lifted state is determined by the tracked quantities and LQR has a solution.", "quantifier": "all models, weights, horizons of at least two steps, start states, rest states and infinite closed loops, every solution of the quadratic programs", "why_tests_cant": "convergence concerns infinitely many steps from all start states; a test simulates a finite time for one system and one horizon", "anchors": ["datafold/appfold/mpc.py:KMPC.control_system_reference", "datafold/appfold/mpc.py:KMPC.control_sequence_horizon"]}
{"id": "C241", "title": "Errors do not depend on the units of the features", "statement": "When true and predicted values of the features are expressed in other units (a positive factor and an offset per feature), TSCMetric and TSCScoring with the scalings min-max and standard return the same result as before; without scaling and with a common factor, rmse, mae, medae, max, l2 and linf are multiplied by the factor and mse by its square, and the relative error rrmse stays the same.", "quantifier": "all collections, predictions, metrics, modes, weights, kinds of multi-output, positive factors and offsets", "why_tests_cant": "the units and the data are arbitrary real numbers, so that no test suite covers the constant features and the small values where the property fails", "anchors": ["datafold/pcfold/timeseries/metric.py:TSCMetric.__call__", "datafold/pcfold/timeseries/metric.py:TSCMetric._scaling", "datafold/pcfold/timeseries/metric.py:TSCMetric._rrmse_metric"]}
{"id": "C242", "title": "Koopman MPC with bounds keeps finding inputs", "statement": "KMPC returns inputs exactly if some inputs within their bounds keep the predicted states within theirs over the horizon. Along the closed loop of controller and model (the first input is applied, then the controller is asked again, with any references) a controller that found inputs once finds them in every later step, and the states respect the bounds. This holds for every horizon without state bounds or if the bounds can be kept from every state within them, and for horizons that see all dead ends.", "quantifier": "all models, weights with positive input weights, bounds, horizons of at least two steps, references and closed loops of any length, every solution of the quadratic programs", "why_tests_cant": "a failure shows up only after many steps and from particular states; tests run a few steps from one state", "anchors": ["datafold/appfold/mpc.py:KMPC.control_system_reference", "datafold/appfold/mpc.py:KMPC.control_sequence_horizon", "datafold/appfold/mpc.py:KMPC._create_constraint_matrices"]}
{"id": "C243", "title": "Scores by time series, by time step and by feature", "statement": "TSCScoring without sample weights gives the same score by time series, by time step and by feature for the mean errors mse, mae and mape with averaged features: by time series if all time series have the same length, by time step if all have the same time values.", "quantifier": "all collections, predictions, scalings and numbers of features", "why_tests_cant": "tests compare single numbers for one mode; that the modes agree is a statement about all collections and all shapes", "anchors": ["datafold/pcfold/timeseries/metric.py:TSCScoring.__call__", "datafold/pcfold/timeseries/metric.py:TSCMetric._metric_per_timeseries", "datafold/pcfold/timeseries/metric.py:TSCMetric._metric_per_timestep", "datafold/pcfold/timeseries/metric.py:TSCMetric._metric_per_feature"]}
{"id": "C244", "title": "Errors are distances", "statement": "Without scaling, the errors rmse, mse, mae, medae, max, l2 and linf of two collections do not change, and are refused for the same reasons, if the two collections are exchanged. For rmse, mae, max, l2 and linf, each value of the error between two collections is at most the sum of the errors to a third one, in every mode, with sample weights and with weights of the features; so the scores of two predictions of the same data differ by at most the error between the two predictions.", "quantifier": "all collections, modes, sample weights, treatments of several features", "why_tests_cant": "the inequality has to hold for all triples of collections of any length and all weights; a test checks a few", "anchors": ["datafold/pcfold/timeseries/metric.py:TSCMetric.__call__", "datafold/pcfold/timeseries/metric.py:TSCScoring.__call__"]}
{"id": "C245", "title": "Predictions of linear models superpose", "statement": "The prediction of a DMD model from a linear combination of initial conditions (and, with control, of control inputs) is the same linear combination of the predictions, for every system matrix, coefficients, time values and number of time series, if the combined collections have the same IDs and time values; all the predictions are refused for the same reason, or none is. In particular a controlled prediction is the sum of the prediction without control input and the response of the system at rest.", "quantifier": "all system and control matrices over a commutative ring, initial conditions, control inputs, coefficients and time values", "why_tests_cant": "Tests compare predictions for a few matrices; linearity is a statement about all pairs of inputs and all coefficients.", "anchors": ["datafold/dynfold/dmd.py:DMDBase.predict", "datafold/dynfold/dynsystem.py:SystemSolveStrategy.flowmap_matrix", "datafold/dynfold/dynsystem.py:SystemSolveStrategy.flowmap_matrix_controlled"]}
{"id": "C246", "title": "Long predictions stay bounded if no eigenvalue is larger than one", "statement": "If no eigenvalue of a fitted DMD model is larger than one in modulus (no positive real part for a differential system), predictions stay bounded for all times; if all are smaller than one, predictions tend to zero, after a number of steps which does not depend on the requested time values; a real eigenvector of an eigenvalue larger than one in modulus is predicted to exceed every bound. (The first part holds in spectral mode and for diagonalisable system matrices; it is false in matrix mode for matrices which cannot be diagonalised.)", "quantifier": "all system matrices, modes and eigenvalues, initial conditions and ascending time values", "why_tests_cant": "Boundedness for all times is a statement about infinitely many predictions.", "anchors": ["datafold/dynfold/dmd.py:DMDBase.predict", "datafold/dynfold/dynsystem.py:SystemSolveStrategy.flowmap_spectral", "datafold/dynfold/dynsystem.py:SystemSolveStrategy.flowmap_matrix", "datafold/dynfold/dynsystem.py:SystemSolveStrategy.differential_spectral"]}
{"id": "C247", "title": "Diffusion maps: equal samples get equal coordinates, distinct samples distinct ones", "statement": "Equal training samples get equal coordinates, and a new sample that equals a training sample gets the coordinates of that sample, for every kernel function, normalisation, time exponent and choice of coordinates; functions extended by geometric harmonics have equal values at equal samples. With as many eigenpairs as samples, distinct samples get distinct coordinates for the positive definite radial kernels. (The first part needs eigenvalues that are not zero: with as many eigenpairs as samples and a repeated sample, one eigenvalue is zero, some coordinate separates the equal samples, and transform refuses all samples.)", "quantifier": "all data sets, kernel functions, normalisations, eigensolvers, time exponents and numbers of eigenpairs", "why_tests_cant": "The eigensolver is free to choose among eigenvectors; tests see the choices of one solver on a few data sets.", "anchors": ["datafold/dynfold/dmap.py:DiffusionMaps.fit_transform", "datafold/dynfold/dmap.py:DiffusionMaps.transform", "datafold/dynfold/outofsample.py:GeometricHarmonicsInterpolator.predict"]}
{"id": "C248", "title": "Linear quantities conserved by the data are conserved by the model", "statement": "If from every training sample to the next one of its time series a linear quantity of the state (a total mass, say) is multiplied by one factor (factor one: it is conserved), the fitted DMD model multiplies it by this factor in one step from every training sample and every combination of them, whatever the errors of the fit and the positive sample weights; if the samples span the state space, every prediction from every initial condition has the quantity of the initial condition times the factor to the number of steps. EDMD predictions do the same for a linear quantity of the states if the dictionary values span and contain the states. (For data that do not span the state space the model, a least squares solution of smallest norm, loses the quantity: it is false for predictions in general.)", "quantifier": "all collections with noise of any size in the other directions, all linear quantities and factors, sample weights, dimensions, dictionaries, initial conditions and requested time values", "why_tests_cant": "A test checks one conserved quantity of one data set within a tolerance; the fit is only asked to be small in the mean, so nothing local shows that the quantity is kept exactly for all data and arbitrarily long predictions.", "anchors": ["datafold/dynfold/dmd.py:DMDStandard.fit", "datafold/dynfold/dmd.py:DMDBase.predict", "datafold/appfold/edmd.py:EDMD.predict"]}
{"id": "C249", "title": "EDMD with a delay embedding is the autoregressive model fitted by least squares", "statement": "EDMD with a delay embedding of \u03b4 consecutive delays is the (vector) autoregressive model of order \u03b4 + 1 fitted by least squares. The part of the system matrix which gives the next sample always holds least squares coefficients of the autoregressive model, that is, it minimises the sum of squared errors over all samples with \u03b4 + 1 predecessors in their time series. If the training windows span the space of all windows, these coefficients are unique, and every prediction of the EDMD model, from any initial windows and for any number of steps, is the sequence of the autoregressive model with these coefficients; no window ever crosses from one time series to another.", "quantifier": "all collections with a constant sampling interval and time series of at least \u03b4 + 2 samples (any order of IDs, any noise), all numbers of delays and features, initial windows, times of the first prediction and numbers of steps", "why_tests_cant": "Tests compare predictions of EDMD with data within tolerances; that two models fitted in different ways (regression in the dictionary space, regression in the state space) have the same predictions for all data and all horizons needs a proof.", "anchors": ["datafold/appfold/edmd.py:EDMD.fit", "datafold/appfold/edmd.py:EDMD.predict", "datafold/dynfold/transform.py:TSCTakensEmbedding.transform", "datafold/dynfold/dmd.py:DMDStandard.fit"]}
{"id": "C250", "title": "EDMD with the states and a constant is the affine model fitted by least squares, and does not depend on the origin", "statement": "EDMD with the dictionary TSCIdentity(include_const=True), the states and a constant, is the affine model x' = A x + b fitted by least squares: the rows of the system matrix for the states always hold coefficients A, b which minimise the sum of squared one-step errors over all samples with a successor; if no hyperplane contains these samples, the coefficients are unique and every prediction, from any initial conditions and for any number of steps, is that of the affine model. Then the origin of the state space does not matter: the model fitted to shifted data predicts the shifted states from shifted initial conditions, with the same time values, IDs and refusals. (Without the constant, DMD depends on the origin.)", "quantifier": "all collections with a constant sampling interval and at least two samples per time series (any noise), all dimensions, shifts, initial conditions, requested time values and numbers of steps", "why_tests_cant": "That the regression in the dictionary space returns exactly one for the constant and that errors in the constant feature never accumulate in long predictions is a statement about all data; tests compare a few predictions within tolerances.", "anchors": ["datafold/appfold/edmd.py:EDMD.fit", "datafold/appfold/edmd.py:EDMD.predict", "datafold/dynfold/transform.py:TSCIdentity", "datafold/dynfold/dmd.py:DMDStandard.fit"]}
{"id": "C251", "title": "The unit of time does not matter", "statement": "Writing the time values of a collection in a smaller unit (seconds in place of minutes) changes the time values of the results and nothing else: a collection is valid, has a constant sampling interval or equal time values in one unit if and only if it does in the other; delta_time reports the interval in the new unit; the snapshot pairs and the system matrices found by fit (with weights, with control) are the same; predict (with and without control) succeeds for the initial conditions and time values in the new unit exactly if it does in the old one, and returns the same states; a derivative of order q becomes s^q times smaller, where s is the number of new units in an old one.", "quantifier": "all collections (any number, order and lengths of series), all units, all system matrices, weights, controls, initial conditions, requested time values and difference schemes", "why_tests_cant": "Tests use time values such as 0, 1, 2 or seconds; whether tolerances, comparisons, divisions by the sampling interval and the rewriting of time values in the index keep the results for every unit is a statement about all collections and units.", "anchors": ["datafold/pcfold/timeseries/collection.py:TSCDataFrame.delta_time", "datafold/pcfold/timeseries/collection.py:TSCDataFrame.is_const_delta_time", "datafold/dynfold/dmd.py:DMDBase._evolve_dmd_system", "datafold/dynfold/dmd.py:DMDStandard.fit", "datafold/dynfold/dmd.py:DMDControl.fit", "datafold/pcfold/timeseries/accessor.py:TSCAccessor.time_derivative"]}
{"id": "C252", "title": "Inputs of Koopman MPC depend on the ratios of the weights only, not on coordinates of the dictionary or on origin and unit of time", "statement": "control_sequence_horizon of the Koopman MPC controller returns the same inputs, and refuses the same states and references, if (1) all weights (running, terminal, input) are multiplied by the same positive number, (2) the model is replaced by one to which it is carried by a linear map of the dictionary space (another choice of coordinates, or additional dictionary functions that are linear in the given ones), with the states carried along, (3) the times of the state and of the reference and the sampling interval are given in another unit and from another origin; then the time values of the inputs are in that unit and from that origin.", "quantifier": "all controllers (any dimensions, horizons, bounds, weights), all factors, linear maps, units, origins, states, references and solutions of the quadratic program", "why_tests_cant": "Default values are chosen by comparing weights with zero, refusals by comparing them with bounds, the matrices of the program are stacked powers of the model; that none of this depends on the factor or the coordinates is a statement about all controllers.", "anchors": ["datafold/appfold/mpc.py:KMPC.control_sequence_horizon", "datafold/appfold/mpc.py:KMPC._setup_optimizer", "datafold/appfold/mpc.py:KMPC._create_cost_matrices", "datafold/appfold/mpc.py:KMPC._create_evolution_matrices"]}
{"id": "C253", "title": "Time values are taken for sorted exactly if they are, whatever their number type", "statement": "A collection whose time values strictly increase within every series is accepted, and one whose time values do not is refused, for time values of every allowed type: signed and unsigned integers, floating point numbers and datetimes.", "quantifier": "all indices with any number of series and samples, all allowed types of time values, all values within the range of the type", "why_tests_cant": "The check subtracts neighbouring time values in their machine type; differences of unsigned integers and of datetimes wrap around. Whether a wrong order is noticed depends on type and values, and tests use small signed integers and floats.", "anchors": ["datafold/pcfold/timeseries/collection.py:TSCDataFrame._validate_index"]}
{"id": "C254", "title": "Balances of linear quantities with control inputs are kept by the model", "statement": "If in every step of the training data a linear quantity of the state (a total mass, a charge) is the old one times a factor plus a linear flow of the control input of this step (in- and outflow), then the model fitted by DMD with control satisfies this balance exactly in one step from every training sample with its input and from every combination of them, whatever the errors of the fit. If samples and inputs span the space of states and inputs, every prediction, from all initial conditions and with all inputs, satisfies the balance in every step; with factor one the quantity after k steps is that of the initial condition plus everything that has flown in during the first k steps, and inputs without flow never change it.", "quantifier": "all collections with IDs in ascending order or series of equal length and with noise of any size in the other directions, all linear quantities, factors and flows, dimensions, initial conditions, control inputs and numbers of steps", "why_tests_cant": "The fit minimises a mean error of all features together; that one combination of features and inputs is met exactly, and stays exact in arbitrarily long predictions, is not visible in a test that compares predictions within tolerances.", "anchors": ["datafold/dynfold/dmd.py:DMDControl.fit", "datafold/dynfold/dmd.py:DMDBase.predict"]}
{"id": "C255", "title": "Floating point time values are finite numbers", "statement": "A collection with floating point time values is accepted only if all of them are non-negative finite numbers (as documented) that strictly increase within each series.", "quantifier": "all lists of rows with floating point time values including nan and both infinities, any number of series and samples", "why_tests_cant": "nan compares false with everything and infinity minus infinity is nan, so which wrong values pass depends on their position relative to all other rows; tests try a few positions.", "anchors": ["datafold/pcfold/timeseries/collection.py:TSCDataFrame._validate_index", "datafold/pcfold/timeseries/collection.py:TSCDataFrame"]}
{"id": "C256", "title": "assign_ids_const_delta with drop_samples never drops equally spaced samples", "statement": "With drop_samples=True, three consecutive samples of a series with equal intervals are always in the result with their values, whatever surrounds them; in particular the result is then not empty. A series of exactly three samples with different intervals is dropped as a whole, although its last two samples would be a series with one interval.", "quantifier": "all collections with integer time values, all positions in all series", "why_tests_cant": "All sampling patterns around the three samples.", "anchors": ["datafold/pcfold/timeseries/accessor.py:TSCAccessor.assign_ids_const_delta"]}
{"id": "C257", "title": "assign_ids_const_delta without drop_samples raises exactly for isolated samples", "statement": "With drop_samples=False the call raises if and only if some series has a single sample or an isolated one: the first sample if the first two intervals differ, a later sample (not one of the last two) if the two intervals at it differ from each other and from their next intervals on either side. Otherwise drop_samples=True gives the same result. After one call a second one with drop_samples=False raises nothing and keeps all samples.", "quantifier": "all collections with integer time values", "why_tests_cant": "All sampling patterns.", "anchors": ["datafold/pcfold/timeseries/accessor.py:TSCAccessor.assign_ids_const_delta"]}
